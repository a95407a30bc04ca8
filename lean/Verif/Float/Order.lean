import Verif.Float.LibmSpec
import Verif.Model.Types

/-!
# Comparisons with overflow, and `clamp`
-/

namespace Verif.FP
variable {f : Fmt}

theorem ofRat_cases (q : ℚ) (zs : Bool) :
    ((ofRat q zs : FP f).isFin = true ∧ (ofRat q zs : FP f).val = f.rnd q) ∨ (ofRat q zs : FP f) = inf (decide (q < 0)) := by
  by_cases h : |f.rnd q| < 2 ^ f.emaxp1
  · left; simp [ofRat, ofK, h, isFin, val]
  · right; simp [ofRat, ofK, h]

/-- Rounding a non-positive number gives a number `<= 0`, overflow included. -/
theorem ofRat_le_zero {q : ℚ} {zs : Bool} (h : q ≤ 0) (hq : q < 0 ∨ (ofRat q zs : FP f).isFin = true) :
    ((ofRat q zs : FP f) <=. lit 0) = true := by
  have hz := lit_zero (f := f)
  rcases ofRat_cases (f := f) q zs with ⟨h1, h2⟩ | h1
  · rw [le_fin h1 hz.1, h2, hz.val_eq]
    simpa using f.rnd_le_of_le (K := ℚ) f.grid_zero (by simpa using h)
  · rcases hq with hq | hq
    · rw [h1]
      obtain ⟨v, nz, hv, e⟩ := isFin_cases hz.1
      rw [e]; simp [hq]; rfl
    · rw [h1] at hq; simp at hq

theorem ofRat_zero_fin {zs : Bool} : (ofRat 0 zs : FP f).isFin = true :=
  ofRat_isFin rep_zero rep_zero le_rfl le_rfl

/-- `hi - lo <= 0` is decided correctly for finite numbers. -/
theorem sub_le_zero {x y : FP f} (hx : x.isFin = true) (hy : y.isFin = true) (h : x.val ≤ y.val) :
    ((x - y) <=. lit 0) = true := by
  obtain ⟨zs, e⟩ := sub_def hx hy
  rw [e]
  refine ofRat_le_zero (by linarith) ?_
  rcases eq_or_lt_of_le h with h | h
  · right; rw [h, sub_self]; exact ofRat_zero_fin
  · left; linarith

/-- `clamp` of a non-NaN number between finite bounds lies between them. -/
theorem clamp_in {x lo hi : FP f} {a b : ℚ} (hx : x ≠ nan) (hlo : lo.In a a) (hhi : hi.In b b) (hab : a ≤ b) :
    (clamp x lo hi).In a b := by
  have hl := hlo.val_eq
  have hh := hhi.val_eq
  unfold clamp
  rcases not_nan_cases hx with rfl | rfl | hf
  · obtain ⟨v, nz, hv, rfl⟩ := isFin_cases hlo.1
    rw [if_pos (by rfl)]; exact hlo.mono le_rfl hab
  · obtain ⟨v, nz, hv, rfl⟩ := isFin_cases hlo.1
    obtain ⟨w, nw, hw, rfl⟩ := isFin_cases hhi.1
    rw [if_neg (by intro h; cases h), if_pos (by rfl)]; exact hhi.mono hab le_rfl
  · rw [lt_fin hf hlo.1, lt_fin hhi.1 hf, hl, hh]
    simp only [decide_eq_true_eq]
    split_ifs with h1 h2
    · exact hlo.mono le_rfl hab
    · exact hhi.mono hab le_rfl
    · exact ⟨hf, by linarith, by linarith⟩

/-- Inside the bounds `clamp` returns its argument. -/
theorem clamp_id {x lo hi : FP f} (hx : x.isFin = true) (hlo : lo.isFin = true) (hhi : hi.isFin = true)
    (h1 : lo.val ≤ x.val) (h2 : x.val ≤ hi.val) : clamp x lo hi = x := by
  unfold clamp
  rw [lt_fin hx hlo, lt_fin hhi hx]
  simp only [decide_eq_true_eq]
  rw [if_neg (by linarith), if_neg (by linarith)]

/-- Rounding a non-positive rational gives a non-positive number or minus infinity. -/
theorem ofRat_nonPos {q : ℚ} {zs : Bool} (h : q ≤ 0) : (ofRat q zs : FP f).NonPos := by
  rcases ofRat_cases (f := f) q zs with ⟨h1, h2⟩ | h1
  · exact Or.inr ⟨h1, by rw [h2]; exact f.rnd_le_of_le (K := ℚ) f.grid_zero (by simpa using h)⟩
  · rcases eq_or_lt_of_le h with h0 | h0
    · have := ofRat_zero_fin (f := f) (zs := zs)
      rw [h0] at h1; rw [h1] at this; cases this
    · left; rw [h1, decide_eq_true h0]

/-- Rounding a positive number gives a non-negative number or plus infinity. -/
theorem ofRat_nonneg {q : ℚ} {zs : Bool} (h : 0 ≤ q) :
    (ofRat q zs : FP f) = inf false ∨ (ofRat q zs : FP f).isFin = true ∧ 0 ≤ (ofRat q zs : FP f).val := by
  rcases ofRat_cases (f := f) q zs with ⟨h1, h2⟩ | h1
  · exact Or.inr ⟨h1, by rw [h2]; exact f.le_rnd_of_le (K := ℚ) f.grid_zero (by simpa using h)⟩
  · left; rw [h1, decide_eq_false (by linarith)]

/-- A negative finite number times a positive number is not positive. -/
theorem neg_mul_nonPos {x y : FP f} (hx : x.isFin = true) (hx0 : x.val < 0) (hy : y.Pos) : (x * y).NonPos := by
  rcases hy with rfl | ⟨hyf, hy0⟩
  · obtain ⟨v, nz, hv, rfl⟩ := isFin_cases hx
    have hs : sign (fin v nz hv) = true := by simp only [val_fin] at hx0; simp [sign, hx0]
    simp only [val_fin] at hx0
    have : (fin v nz hv * inf false : FP f) = inf (sign (fin v nz hv) ^^ false) := if_neg hx0.ne
    rw [this, hs]; exact Or.inl rfl
  · obtain ⟨zs, e⟩ := mul_def hx hyf
    rw [e]; exact ofRat_nonPos (by nlinarith)

/-- A non-positive number divided by a finite positive number is not positive. -/
theorem NonPos.div_pos {x z : FP f} (hx : x.NonPos) (hz : z.isFin = true) (hz0 : 0 < z.val) : (x / z).NonPos := by
  rcases hx with rfl | ⟨hxf, hx0⟩
  · obtain ⟨w, nw, hw, rfl⟩ := isFin_cases hz
    have hs : sign (fin w nw hw) = false := (Pos.posSign (Or.inr ⟨hz, hz0⟩)).2
    have : (inf true / fin w nw hw : FP f) = inf (true ^^ sign (fin w nw hw)) := rfl
    rw [this, hs]; exact Or.inl rfl
  · obtain ⟨zs, e⟩ := div_def hxf hz hz0.ne'
    rw [e]; exact ofRat_nonPos (div_nonpos_of_nonpos_of_nonneg hx0 hz0.le)

/-- `x <. y` for a finite `y` bounds `x`; a number not below a finite bound is at least that bound. -/
theorem not_lt_cases {x y : FP f} (hx : x ≠ nan) (hy : y.isFin = true) (h : (x <. y) = false) :
    x = inf false ∨ x.isFin = true ∧ y.val ≤ x.val := by
  rcases not_nan_cases hx with rfl | rfl | hf
  · obtain ⟨w, nw, hw, rfl⟩ := isFin_cases hy
    cases h
  · exact Or.inl rfl
  · right
    rw [lt_fin hf hy] at h
    exact ⟨hf, by simpa using h⟩

end Verif.FP
