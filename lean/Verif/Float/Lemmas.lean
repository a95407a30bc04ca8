import Verif.Arith

/-!
# Interval and rounding lemmas for `FP`
-/

namespace Verif
namespace FP
variable {f : Fmt}

/-- `x` is finite with value in `[a, b]`. -/
def In (x : FP f) (a b : ℚ) : Prop := x.isFin = true ∧ a ≤ x.val ∧ x.val ≤ b

instance (x : FP f) (a b : ℚ) : Decidable (In x a b) := by unfold In; infer_instance

theorem In.mono {x : FP f} {a b a' b' : ℚ} (h : x.In a b) (ha : a' ≤ a) (hb : b ≤ b') : x.In a' b' :=
  ⟨h.1, ha.trans h.2.1, h.2.2.trans hb⟩

theorem In.fin {x : FP f} {a b : ℚ} (h : x.In a b) :
    ∃ v nz hv, x = .fin v nz hv ∧ a ≤ v ∧ v ≤ b := by
  obtain ⟨h1, h2, h3⟩ := h
  cases x with
  | nan => simp [isFin] at h1
  | inf b => simp [isFin] at h1
  | fin v nz hv => exact ⟨v, nz, hv, rfl, h2, h3⟩

theorem in_fin {v : ℚ} {nz h} {a b : ℚ} : (FP.fin v nz h : FP f).In a b ↔ a ≤ v ∧ v ≤ b := by
  simp [In, isFin, val]

@[simp] theorem val_fin {v : ℚ} {nz h} : (FP.fin v nz h : FP f).val = v := rfl
@[simp] theorem isFin_fin {v : ℚ} {nz h} : (FP.fin v nz h : FP f).isFin = true := rfl
@[simp] theorem isFin_nan : (FP.nan : FP f).isFin = false := rfl
@[simp] theorem isFin_inf {b} : (FP.inf b : FP f).isFin = false := rfl

theorem isFin_cases {x : FP f} (h : x.isFin = true) : ∃ v nz hv, x = .fin v nz hv := by
  cases x with
  | nan => simp at h
  | inf b => simp at h
  | fin v nz hv => exact ⟨v, nz, hv, rfl⟩

theorem grid_val (x : FP f) : f.Grid x.val := by
  cases x with
  | nan => exact f.grid_zero
  | inf b => exact f.grid_zero
  | fin v nz hv => exact hv.1

theorem abs_val_lt (x : FP f) : |x.val| < 2 ^ f.emaxp1 := by
  cases x with
  | nan => simp only [val, abs_zero]; positivity
  | inf b => simp only [val, abs_zero]; positivity
  | fin v nz hv => exact hv.2.1

theorem rep_val (x : FP f) : f.Rep x.val false := ⟨grid_val x, abs_val_lt x, by simp⟩

section
variable {K : Type*} [Field K] [LinearOrder K] [IsStrictOrderedRing K] [FloorRing K]

/-- Rounding a number that lies between two representable numbers. -/
theorem ofK_in {x : K} {zs : Bool} {l u : ℚ} (hl : f.Rep l false) (hu : f.Rep u false)
    (h1 : (l : K) ≤ x) (h2 : x ≤ (u : K)) :
    (ofK x zs : FP f).isFin = true ∧ (ofK x zs : FP f).val = f.rnd x ∧ l ≤ f.rnd x ∧ f.rnd x ≤ u := by
  have h3 := f.le_rnd_of_le hl.1 h1
  have h4 := f.rnd_le_of_le hu.1 h2
  have h5 : |f.rnd x| < 2 ^ f.emaxp1 := by
    rw [abs_lt]; have a := abs_lt.mp hl.2.1; have b := abs_lt.mp hu.2.1
    constructor <;> linarith
  refine ⟨?_, ?_, h3, h4⟩ <;> simp [ofK, h5, isFin, val]

end

theorem ofRat_in {q : ℚ} {zs : Bool} {l u : ℚ} (hl : f.Rep l false) (hu : f.Rep u false)
    (h1 : l ≤ q) (h2 : q ≤ u) : (ofRat q zs : FP f).In l u := by
  have := ofK_in (K := ℚ) (f := f) (x := q) (zs := zs) hl hu (by simpa using h1) (by simpa using h2)
  refine ⟨this.1, ?_⟩
  show l ≤ (ofK q zs : FP f).val ∧ (ofK q zs : FP f).val ≤ u
  rw [this.2.1]; exact this.2.2

theorem ofRat_val {q : ℚ} {zs : Bool} {l u : ℚ} (hl : f.Rep l false) (hu : f.Rep u false)
    (h1 : l ≤ q) (h2 : q ≤ u) : (ofRat q zs : FP f).val = f.rnd q :=
  (ofK_in (K := ℚ) (f := f) (x := q) (zs := zs) hl hu (by simpa using h1) (by simpa using h2)).2.1

/-- A representable rational is converted exactly. -/
theorem ofRat_rep {q : ℚ} {zs : Bool} (h : f.Rep q false) : (ofRat q zs : FP f).In q q :=
  ofRat_in h h le_rfl le_rfl

theorem ofRat_isFin {q : ℚ} {zs : Bool} {l u : ℚ} (hl : f.Rep l false) (hu : f.Rep u false)
    (h1 : l ≤ q) (h2 : q ≤ u) : (ofRat q zs : FP f).isFin = true := (ofRat_in hl hu h1 h2).1

/-! ### operations on finite values -/

theorem add_def {x y : FP f} (hx : x.isFin = true) (hy : y.isFin = true) :
    ∃ zs, x + y = ofRat (x.val + y.val) zs := by
  obtain ⟨v, nz, hv, rfl⟩ := isFin_cases hx
  obtain ⟨w, nw, hw, rfl⟩ := isFin_cases hy
  exact ⟨_, rfl⟩

theorem isFin_neg {x : FP f} (hx : x.isFin = true) : (-x).isFin = true := by
  obtain ⟨v, nz, hv, rfl⟩ := isFin_cases hx
  rfl

theorem val_neg (x : FP f) : (-x).val = -x.val := by
  cases x with
  | nan => show (0:ℚ) = -0; simp
  | inf b => show (0:ℚ) = -0; simp
  | fin v nz hv => rfl

theorem sub_eq (x y : FP f) : x - y = x + (-y) := rfl

theorem sub_def {x y : FP f} (hx : x.isFin = true) (hy : y.isFin = true) :
    ∃ zs, x - y = ofRat (x.val - y.val) zs := by
  obtain ⟨zs, h⟩ := add_def hx (isFin_neg hy)
  rw [val_neg] at h
  exact ⟨zs, by rw [sub_eq, h, sub_eq_add_neg]⟩

theorem mul_def {x y : FP f} (hx : x.isFin = true) (hy : y.isFin = true) :
    ∃ zs, x * y = ofRat (x.val * y.val) zs := by
  obtain ⟨v, nz, hv, rfl⟩ := isFin_cases hx
  obtain ⟨w, nw, hw, rfl⟩ := isFin_cases hy
  exact ⟨_, rfl⟩

theorem div_def {x y : FP f} (hx : x.isFin = true) (hy : y.isFin = true) (h0 : y.val ≠ 0) :
    ∃ zs, x / y = ofRat (x.val / y.val) zs := by
  obtain ⟨v, nz, hv, rfl⟩ := isFin_cases hx
  obtain ⟨w, nw, hw, rfl⟩ := isFin_cases hy
  exact ⟨_, if_neg h0⟩

theorem neg_in {x : FP f} {a b : ℚ} (h : x.In a b) : (-x).In (-b) (-a) :=
  ⟨isFin_neg h.1, by rw [val_neg]; linarith [h.2.2], by rw [val_neg]; linarith [h.2.1]⟩

theorem add_in {x y : FP f} {a b c d l u : ℚ} (hx : x.In a b) (hy : y.In c d)
    (hl : f.Rep l false) (hu : f.Rep u false) (h1 : l ≤ a + c) (h2 : b + d ≤ u) : (x + y).In l u := by
  obtain ⟨zs, h⟩ := add_def hx.1 hy.1
  rw [h]
  exact ofRat_in hl hu (by linarith [hx.2.1, hy.2.1]) (by linarith [hx.2.2, hy.2.2])

theorem sub_in {x y : FP f} {a b c d l u : ℚ} (hx : x.In a b) (hy : y.In c d)
    (hl : f.Rep l false) (hu : f.Rep u false) (h1 : l ≤ a - d) (h2 : b - c ≤ u) : (x - y).In l u := by
  obtain ⟨zs, h⟩ := sub_def hx.1 hy.1
  rw [h]
  exact ofRat_in hl hu (by linarith [hx.2.1, hy.2.2]) (by linarith [hx.2.2, hy.2.1])

theorem mul_in {x y : FP f} {l u : ℚ} (hx : x.isFin = true) (hy : y.isFin = true)
    (hl : f.Rep l false) (hu : f.Rep u false) (h1 : l ≤ x.val * y.val) (h2 : x.val * y.val ≤ u) :
    (x * y).In l u := by
  obtain ⟨zs, h⟩ := mul_def hx hy
  rw [h]
  exact ofRat_in hl hu h1 h2

theorem div_in {x y : FP f} {l u : ℚ} (hx : x.isFin = true) (hy : y.isFin = true) (h0 : y.val ≠ 0)
    (hl : f.Rep l false) (hu : f.Rep u false) (h1 : l ≤ x.val / y.val) (h2 : x.val / y.val ≤ u) :
    (x / y).In l u := by
  obtain ⟨zs, h⟩ := div_def hx hy h0
  rw [h]
  exact ofRat_in hl hu h1 h2

/-- Exact value of a sum whose exact result is bounded by representable numbers. -/
theorem add_val {x y : FP f} {l u : ℚ} (hx : x.isFin = true) (hy : y.isFin = true)
    (hl : f.Rep l false) (hu : f.Rep u false) (h1 : l ≤ x.val + y.val) (h2 : x.val + y.val ≤ u) :
    (x + y).isFin = true ∧ (x + y).val = f.rnd (x.val + y.val) := by
  obtain ⟨zs, h⟩ := add_def hx hy
  rw [h]
  exact ⟨ofRat_isFin hl hu h1 h2, ofRat_val hl hu h1 h2⟩

theorem sub_val {x y : FP f} {l u : ℚ} (hx : x.isFin = true) (hy : y.isFin = true)
    (hl : f.Rep l false) (hu : f.Rep u false) (h1 : l ≤ x.val - y.val) (h2 : x.val - y.val ≤ u) :
    (x - y).isFin = true ∧ (x - y).val = f.rnd (x.val - y.val) := by
  obtain ⟨zs, h⟩ := sub_def hx hy
  rw [h]
  exact ⟨ofRat_isFin hl hu h1 h2, ofRat_val hl hu h1 h2⟩

theorem mul_val {x y : FP f} {l u : ℚ} (hx : x.isFin = true) (hy : y.isFin = true)
    (hl : f.Rep l false) (hu : f.Rep u false) (h1 : l ≤ x.val * y.val) (h2 : x.val * y.val ≤ u) :
    (x * y).isFin = true ∧ (x * y).val = f.rnd (x.val * y.val) := by
  obtain ⟨zs, h⟩ := mul_def hx hy
  rw [h]
  exact ⟨ofRat_isFin hl hu h1 h2, ofRat_val hl hu h1 h2⟩

theorem div_val {x y : FP f} {l u : ℚ} (hx : x.isFin = true) (hy : y.isFin = true) (h0 : y.val ≠ 0)
    (hl : f.Rep l false) (hu : f.Rep u false) (h1 : l ≤ x.val / y.val) (h2 : x.val / y.val ≤ u) :
    (x / y).isFin = true ∧ (x / y).val = f.rnd (x.val / y.val) := by
  obtain ⟨zs, h⟩ := div_def hx hy h0
  rw [h]
  exact ⟨ofRat_isFin hl hu h1 h2, ofRat_val hl hu h1 h2⟩

/-! ### comparisons -/

theorem lt_fin {x y : FP f} (hx : x.isFin = true) (hy : y.isFin = true) :
    (x <. y) = decide (x.val < y.val) := by
  obtain ⟨v, nz, hv, rfl⟩ := isFin_cases hx
  obtain ⟨w, nw, hw, rfl⟩ := isFin_cases hy
  rfl

theorem eq_fin {x y : FP f} (hx : x.isFin = true) (hy : y.isFin = true) :
    (x ==. y) = decide (x.val = y.val) := by
  obtain ⟨v, nz, hv, rfl⟩ := isFin_cases hx
  obtain ⟨w, nw, hw, rfl⟩ := isFin_cases hy
  rfl

theorem le_fin {x y : FP f} (hx : x.isFin = true) (hy : y.isFin = true) :
    (x <=. y) = decide (x.val ≤ y.val) := by
  obtain ⟨v, nz, hv, rfl⟩ := isFin_cases hx
  obtain ⟨w, nw, hw, rfl⟩ := isFin_cases hy
  show (decide (v < w) || decide (v = w)) = decide (v ≤ w)
  rw [← Bool.decide_or]; congr 1; exact propext le_iff_lt_or_eq.symm

/-! ### literals -/

theorem lit_def (q : ℚ) : (lit q : FP f) = ofRat q := rfl

theorem lit_in {q l u : ℚ} (hl : f.Rep l false) (hu : f.Rep u false) (h1 : l ≤ q) (h2 : q ≤ u) :
    (lit q : FP f).In l u := ofRat_in hl hu h1 h2

theorem lit_rep {q : ℚ} (h : f.Rep q false) : (lit q : FP f).In q q := ofRat_rep h

theorem rep_zero : f.Rep 0 false := ⟨f.grid_zero, by rw [abs_zero]; positivity, by simp⟩
theorem rep_one : f.Rep 1 false := ⟨f.grid_one, by
  have h1 := f.emax_big; have h2 := f.prec_pos
  rw [abs_one]; exact one_lt_zpow₀ (by norm_num) (by omega), by simp⟩

theorem Rep.neg {v : ℚ} (h : f.Rep v false) : f.Rep (-v) false :=
  ⟨h.1.neg, by rw [abs_neg]; exact h.2.1, by simp⟩

theorem lit_zero : (lit 0 : FP f).In 0 0 := lit_rep rep_zero
theorem lit_one : (lit 1 : FP f).In 1 1 := lit_rep rep_one

theorem In.val_eq {x : FP f} {a : ℚ} (h : x.In a a) : x.val = a := le_antisymm h.2.2 h.2.1

theorem in_val {x : FP f} (h : x.isFin = true) : x.In x.val x.val := ⟨h, le_rfl, le_rfl⟩

/-- Classification of non-NaN values. -/
theorem not_nan_cases {x : FP f} (h : x ≠ nan) :
    x = inf true ∨ x = inf false ∨ x.isFin = true := by
  cases x with
  | nan => exact absurd rfl h
  | inf b => cases b <;> simp
  | fin v nz hv => simp

end FP
end Verif
