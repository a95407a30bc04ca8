import Verif.Float.Lemmas

/-!
# What is assumed about libm

The C library's `expf`, `sinf`, … are not correctly rounded, so they are parameters of the model.  `LibmSpec` lists the
only facts about them that theorems about `F32` use.  They hold of glibc and of every libm whose functions
respect their mathematical range; `idealLibm` (correct rounding of the mathematical functions) is a witness that the
assumptions are consistent.
-/

namespace Verif
namespace FP
variable {f : Fmt}

/-- Not NaN and not greater than zero. -/
def NonPos (x : FP f) : Prop := x = inf true ∨ x.isFin = true ∧ x.val ≤ 0

/-- Not NaN, sign bit clear (so `+0` qualifies and `-0` does not). -/
def PosSign (x : FP f) : Prop := x ≠ nan ∧ x.sign = false

/-- Strictly greater than zero (possibly infinite). -/
def Pos (x : FP f) : Prop := x = inf false ∨ x.isFin = true ∧ 0 < x.val

instance (x : FP f) : Decidable x.NonPos := by unfold NonPos; infer_instance
instance (x : FP f) : Decidable x.Pos := by unfold Pos; infer_instance

end FP

/-- Assumptions on single-precision libm functions. -/
class LibmSpec [Libm F32] : Prop where
  exp_nonpos : ∀ x : F32, x.NonPos → (Libm.exp x).In 0 1
  sin_range : ∀ x : F32, x.isFin = true → (Libm.sin x).In (-1) 1
  cos_range : ∀ x : F32, x.isFin = true → (Libm.cos x).In (-1) 1
  tanh_range : ∀ x : F32, x ≠ .nan → (Libm.tanh x).In (-1) 1
  /-- `expf` is accurate to `2^-23` (one ulp of 1) on non-positive arguments -/
  exp_acc : ∀ x : F32, x.isFin = true → x.val ≤ 0 →
    |((Libm.exp x).val : ℝ) - Real.exp x.val| ≤ 2 ^ (-23 : ℤ)
  /-- `sinf` and `cosf` are accurate to `2^-23` on `[-4, 4]` -/
  sin_acc : ∀ x : F32, x.isFin = true → |x.val| ≤ 4 → |((Libm.sin x).val : ℝ) - Real.sin x.val| ≤ 2 ^ (-23 : ℤ)
  cos_acc : ∀ x : F32, x.isFin = true → |x.val| ≤ 4 → |((Libm.cos x).val : ℝ) - Real.cos x.val| ≤ 2 ^ (-23 : ℤ)

/-- Correctly rounded libm. -/
@[reducible] noncomputable def idealLibm : Libm F32 where
  sin x := match x with | .fin v _ _ => .ofK (Real.sin v) false | _ => .nan
  cos x := match x with | .fin v _ _ => .ofK (Real.cos v) false | _ => .nan
  tan x := match x with | .fin v _ _ => .ofK (Real.tan v) false | _ => .nan
  exp x := match x with
    | .fin v _ _ => .ofK (Real.exp v) false
    | .inf b => if b then .ofRat 0 else .inf false
    | .nan => .nan
  tanh x := match x with
    | .fin v _ _ => .ofK (Real.tanh v) false
    | .inf b => if b then .ofRat (-1) else .ofRat 1
    | .nan => .nan
  log x := match x with
    | .fin v _ _ => if v = 0 then .inf true else if v < 0 then .nan else .ofK (Real.log v) false
    | .inf b => if b then .nan else .inf false
    | .nan => .nan
  pow x y := match x, y with
    | .fin v _ _, .fin w _ _ => if 0 < v then .ofK ((v : ℝ) ^ (w : ℝ)) false else .nan
    | _, _ => .nan
  sqrt x := match x with
    | .fin v _ _ => if v < 0 then .nan else .ofK (Real.sqrt v) false
    | .inf b => if b then .nan else .inf false
    | .nan => .nan
  atan x := match x with
    | .fin v _ _ => .ofK (Real.arctan v) false
    | .inf b => if b then .ofK (-(Real.pi / 2)) false else .ofK (Real.pi / 2) false
    | .nan => .nan

namespace FP
variable {f : Fmt}
theorem ofK_in' {x : ℝ} {zs : Bool} {l u : ℚ} (hl : f.Rep l false) (hu : f.Rep u false)
    (h1 : (l : ℝ) ≤ x) (h2 : x ≤ (u : ℝ)) : (ofK x zs : FP f).In l u := by
  have := ofK_in (zs := zs) hl hu h1 h2
  exact ⟨this.1, by rw [this.2.1]; exact this.2.2.1, by rw [this.2.1]; exact this.2.2.2⟩

theorem ofK_acc {x : ℝ} (h1 : -1 ≤ x) (h2 : x ≤ 1) : |(((ofK x false : F32).val : ℚ) : ℝ) - x| ≤ 2 ^ (-23 : ℤ) := by
  have hb := ofK_in (f := binary32) (x := x) (zs := false) (Rep.neg rep_one) rep_one (by simpa using h1) (by simpa using h2)
  rw [hb.2.1, abs_sub_comm]
  have hlt : |x| < 2 ^ (1:ℤ) := by rw [abs_lt]; constructor <;> norm_num <;> linarith
  refine (binary32.rnd_err_of_lt hlt (by decide)).trans (zpow_le_zpow_right₀ (by norm_num) ?_)
  decide
end FP

theorem idealLibm_spec : @LibmSpec idealLibm := by
  have h1 : binary32.Rep (-1) false := FP.Rep.neg FP.rep_one
  refine @LibmSpec.mk idealLibm ?_ ?_ ?_ ?_ ?_ ?_ ?_
  · rintro x (rfl | ⟨hf, h0⟩)
    · have : (FP.ofRat 0 : F32).In 0 0 := FP.ofRat_rep FP.rep_zero
      exact this.mono le_rfl zero_le_one
    · obtain ⟨v, nz, hv, rfl⟩ := FP.isFin_cases hf
      have h0' : (v : ℝ) ≤ 0 := by exact_mod_cast h0
      exact FP.ofK_in' FP.rep_zero FP.rep_one (by simpa using (Real.exp_pos _).le)
        (by simpa using Real.exp_le_one_iff.mpr h0')
  · intro x hf
    obtain ⟨v, nz, hv, rfl⟩ := FP.isFin_cases hf
    exact FP.ofK_in' h1 FP.rep_one (by simpa using Real.neg_one_le_sin _) (by simpa using Real.sin_le_one _)
  · intro x hf
    obtain ⟨v, nz, hv, rfl⟩ := FP.isFin_cases hf
    exact FP.ofK_in' h1 FP.rep_one (by simpa using Real.neg_one_le_cos _) (by simpa using Real.cos_le_one _)
  · intro x hx
    rcases FP.not_nan_cases hx with rfl | rfl | hf
    · have : (FP.ofRat (-1) : F32).In (-1) (-1) := FP.ofRat_rep h1
      exact this.mono le_rfl (by norm_num)
    · have : (FP.ofRat 1 : F32).In 1 1 := FP.ofRat_rep FP.rep_one
      exact this.mono (by norm_num) le_rfl
    · obtain ⟨v, nz, hv, rfl⟩ := FP.isFin_cases hf
      exact FP.ofK_in' h1 FP.rep_one (by simpa using (Real.neg_one_lt_tanh _).le)
        (by simpa using (Real.tanh_lt_one _).le)
  · intro x hf h0
    obtain ⟨v, nz, hv, rfl⟩ := FP.isFin_cases hf
    have h0' : (v : ℝ) ≤ 0 := by exact_mod_cast h0
    exact FP.ofK_acc (by linarith [Real.exp_pos (v : ℝ)]) (Real.exp_le_one_iff.mpr h0')
  · intro x hf _
    obtain ⟨v, nz, hv, rfl⟩ := FP.isFin_cases hf
    exact FP.ofK_acc (Real.neg_one_le_sin _) (Real.sin_le_one _)
  · intro x hf _
    obtain ⟨v, nz, hv, rfl⟩ := FP.isFin_cases hf
    exact FP.ofK_acc (Real.neg_one_le_cos _) (Real.cos_le_one _)

namespace FP
variable {f : Fmt}

theorem sign_ofRat_nonneg {q : ℚ} (h : 0 ≤ q) : (ofRat q false : FP f).sign = false := by
  have hr : 0 ≤ f.rnd q := f.le_rnd_of_le f.grid_zero (by simpa using h)
  unfold ofRat ofK
  split_ifs with h1
  · simp [sign, hr]
  · simp [sign, h]

theorem ofRat_ne_nan {q : ℚ} {zs} : (ofRat q zs : FP f) ≠ nan := by
  unfold ofRat ofK; split_ifs <;> simp

theorem Pos.posSign {x : FP f} (h : x.Pos) : x.PosSign := by
  rcases h with rfl | ⟨hf, h0⟩
  · simp [PosSign, sign]
  · obtain ⟨v, nz, hv, rfl⟩ := isFin_cases hf
    refine ⟨by simp, ?_⟩
    simp only [val_fin] at h0
    have : nz = false := by
      cases nz with
      | false => rfl
      | true => exact absurd (hv.2.2 rfl) h0.ne'
    simp [sign, this, h0.le]

theorem Pos.mul_posSign {x y : FP f} (hx : x.Pos) (hy : y.Pos) : (x * y).PosSign := by
  have sx := hx.posSign.2
  have sy := hy.posSign.2
  rcases hx with rfl | ⟨hfx, h0x⟩ <;> rcases hy with rfl | ⟨hfy, h0y⟩
  · have : (inf false * inf false : FP f) = inf false := rfl
    rw [this]; exact ⟨by simp, rfl⟩
  · obtain ⟨w, nw, hw, rfl⟩ := isFin_cases hfy
    have : (inf false * fin w nw hw : FP f) = inf (false ^^ sign (fin w nw hw)) := if_neg h0y.ne'
    rw [this, sy]; exact ⟨by simp, rfl⟩
  · obtain ⟨v, nz, hv, rfl⟩ := isFin_cases hfx
    have : (fin v nz hv * inf false : FP f) = inf (sign (fin v nz hv) ^^ false) := if_neg h0x.ne'
    rw [this, sx]; exact ⟨by simp, rfl⟩
  · obtain ⟨v, nz, hv, rfl⟩ := isFin_cases hfx
    obtain ⟨w, nw, hw, rfl⟩ := isFin_cases hfy
    have : (fin v nz hv * fin w nw hw : FP f) =
      ofRat (v * w) (sign (fin v nz hv) ^^ sign (fin w nw hw)) := rfl
    rw [this, sx, sy]
    exact ⟨ofRat_ne_nan, sign_ofRat_nonneg (mul_nonneg h0x.le h0y.le)⟩

/-- A negative finite number divided by a number with clear sign bit is not positive. -/
theorem neg_div_nonPos {x z : FP f} (hx : x.isFin = true) (hx0 : x.val < 0) (hz : z.PosSign) :
    (x / z).NonPos := by
  obtain ⟨v, nz, hv, rfl⟩ := isFin_cases hx
  have hs : sign (fin v nz hv) = true := by simp only [val_fin] at hx0; simp [sign, hx0]
  simp only [val_fin] at hx0
  cases z with
  | nan => exact absurd rfl hz.1
  | inf b =>
    have hb : b = false := hz.2
    subst hb
    have : (fin v nz hv / inf false : FP f) = ofRat 0 (sign (fin v nz hv) ^^ false) := rfl
    rw [this]
    have h0 := ofRat_rep (f := f) (zs := (sign (fin v nz hv) ^^ false)) rep_zero
    exact Or.inr ⟨h0.1, h0.2.2⟩
  | fin w nw hw =>
    have hsz := hz.2
    have hw0 : 0 ≤ w := by
      simp only [sign, Bool.or_eq_false_iff, decide_eq_false_iff_not, not_lt] at hsz; exact hsz.1
    by_cases h0 : w = 0
    · left
      have : (fin v nz hv / fin w nw hw : FP f) = inf (sign (fin v nz hv) ^^ sign (fin w nw hw)) := by
        refine (if_pos h0).trans ?_
        exact if_neg hx0.ne
      rw [this, hs, hsz]; rfl
    · obtain ⟨zs, h⟩ := div_def (x := fin v nz hv) (y := fin w nw hw) rfl rfl h0
      rw [h]
      simp only [val_fin]
      have hq : v / w ≤ 0 := div_nonpos_of_nonpos_of_nonneg hx0.le hw0
      have hr : f.rnd (v / w) ≤ 0 := f.rnd_le_of_le f.grid_zero (by simpa using hq)
      unfold ofRat ofK
      split_ifs with h1
      · right; exact ⟨rfl, hr⟩
      · left
        have : v / w < 0 := by
          rcases hq.lt_or_eq with h | h
          · exact h
          · exfalso; apply h1
            have h0 := f.rnd_grid (K := ℚ) f.grid_zero
            rw [h]
            simp only [Rat.cast_zero] at h0
            rw [h0, abs_zero]; positivity
        simp [this]

end FP
end Verif
