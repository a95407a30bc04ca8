import Verif.Float.Mag
import Mathlib.Analysis.SpecialFunctions.Trigonometric.Bounds
import Mathlib.Analysis.Real.Pi.Bounds

/-!
# What is assumed about the double-precision libm functions used by the ladder filters
-/

namespace Verif
open FP

/-- Assumptions on double-precision libm functions: range, behaviour at zero, and no overflow for moderate arguments. -/
class Libm64Spec [Libm F64] : Prop where
  tanh_range : ∀ x : F64, x ≠ .nan → (Libm.tanh x).In (-1) 1
  tanh_zero : ∀ x : F64, x.In 0 0 → (Libm.tanh x).In 0 0
  sin_range : ∀ x : F64, x.isFin = true → (Libm.sin x).In (-1) 1
  /-- squares, cubes and fourth powers of numbers up to 8 do not overflow -/
  pow_moderate : ∀ (x : F64) (n : ℕ), x.In 0 8 → n = 2 ∨ n = 3 ∨ n = 4 → (Libm.pow x (lit n)).In 0 (2 ^ 13)
  tan_moderate : ∀ x : F64, x.In 0 1.5 → (Libm.tan x).In 0 (2 ^ 6)

/-- Correctly rounded double-precision libm. -/
@[reducible] noncomputable def idealLibm64 : Libm F64 where
  sin x := match x with | .fin v _ _ => .ofK (Real.sin v) false | _ => .nan
  cos x := match x with | .fin v _ _ => .ofK (Real.cos v) false | _ => .nan
  tan x := match x with | .fin v _ _ => .ofK (Real.tan v) false | _ => .nan
  exp x := match x with
    | .fin v _ _ => .ofK (Real.exp v) false
    | .inf b => if b then .ofRat 0 else .inf false
    | .nan => .nan
  tanh x := match x with
    | .fin v _ _ => .ofK (Real.tanh v) false
    | .inf b => if b then .ofRat (-1) else .ofRat 1
    | .nan => .nan
  log x := match x with
    | .fin v _ _ => if v = 0 then .inf true else if v < 0 then .nan else .ofK (Real.log v) false
    | .inf b => if b then .nan else .inf false
    | .nan => .nan
  pow x y := match x, y with
    | .fin v _ _, .fin w _ _ => if 0 ≤ v then .ofK ((v : ℝ) ^ (w : ℝ)) false else .nan
    | _, _ => .nan
  sqrt x := match x with
    | .fin v _ _ => if v < 0 then .nan else .ofK (Real.sqrt v) false
    | .inf b => if b then .nan else .inf false
    | .nan => .nan
  atan x := match x with
    | .fin v _ _ => .ofK (Real.arctan v) false
    | .inf b => if b then .ofK (-(Real.pi / 2)) false else .ofK (Real.pi / 2) false
    | .nan => .nan

theorem tan_three_halves {x : ℝ} (h0 : 0 ≤ x) (h1 : x ≤ 1.5) : 0 ≤ Real.tan x ∧ Real.tan x ≤ 2 ^ 6 := by
  have hpi := Real.pi_gt_d2
  refine ⟨Real.tan_nonneg_of_nonneg_of_le_pi_div_two h0 (by norm_num at h1; linarith), ?_⟩
  have hc : 1 / 30 ≤ Real.cos x := by
    have h2 : Real.cos 1.5 ≤ Real.cos x := Real.cos_le_cos_of_nonneg_of_le_pi h0 (by norm_num at h1 ⊢; linarith) h1
    have h3 : Real.cos 1.5 = Real.sin (Real.pi / 2 - 1.5) := (Real.sin_pi_div_two_sub _).symm
    have h4 : Real.pi / 2 - 1.5 ≤ 1 := by have := Real.pi_lt_d2; norm_num; linarith
    have h5 := Real.sin_gt_sub_cube (x := Real.pi / 2 - 1.5) (by norm_num; linarith)
    have h6 : 0.07 ≤ Real.pi / 2 - 1.5 := by norm_num; linarith
    have h7 : Real.pi / 2 - 1.5 ≤ 0.08 := by have := Real.pi_lt_d2; norm_num; linarith
    set y := Real.pi / 2 - 1.5
    have h8 : y ^ 3 ≤ 0.08 ^ 3 := pow_le_pow_left₀ (by norm_num at h6; linarith) h7 3
    norm_num at *
    linarith
  rw [Real.tan_eq_sin_div_cos, div_le_iff₀ (by linarith)]
  have := Real.sin_le_one x
  norm_num
  linarith

theorem idealLibm64_spec : @Libm64Spec idealLibm64 := by
  have h1 : binary64.Rep (-1) false := FP.Rep.neg FP.rep_one
  refine @Libm64Spec.mk idealLibm64 ?_ ?_ ?_ ?_ ?_
  · intro x hx
    rcases FP.not_nan_cases hx with rfl | rfl | hf
    · have : (FP.ofRat (-1) : F64).In (-1) (-1) := FP.ofRat_rep h1
      exact this.mono le_rfl (by norm_num)
    · have : (FP.ofRat 1 : F64).In 1 1 := FP.ofRat_rep FP.rep_one
      exact this.mono (by norm_num) le_rfl
    · obtain ⟨v, nz, hv, rfl⟩ := FP.isFin_cases hf
      exact FP.ofK_in' h1 FP.rep_one (by simpa using (Real.neg_one_lt_tanh _).le)
        (by simpa using (Real.tanh_lt_one _).le)
  · intro x hx
    obtain ⟨v, nz, hv, rfl⟩ := FP.isFin_cases hx.1
    have : v = 0 := hx.val_eq
    subst this
    exact FP.ofK_in' rep_zero rep_zero (by simp) (by simp)
  · intro x hf
    obtain ⟨v, nz, hv, rfl⟩ := FP.isFin_cases hf
    exact FP.ofK_in' h1 FP.rep_one (by simpa using Real.neg_one_le_sin _) (by simpa using Real.sin_le_one _)
  · intro x n hx hn
    obtain ⟨v, nz, hv, rfl⟩ := FP.isFin_cases hx.1
    have hl : (lit (n:ℚ) : F64).In n n := by rcases hn with rfl | rfl | rfl <;> decide +kernel
    obtain ⟨w, mz, hw, e⟩ := FP.isFin_cases hl.1
    have hwn : w = n := by have := hl.val_eq; rw [e] at this; exact this
    rw [e]
    have hv0 : (0:ℚ) ≤ v := hx.2.1
    have hv8 : v ≤ 8 := hx.2.2
    have hv0' : (0:ℝ) ≤ v := by exact_mod_cast hv0
    have hv8' : (v:ℝ) ≤ 8 := by exact_mod_cast hv8
    show (if 0 ≤ v then FP.ofK ((v : ℝ) ^ (w : ℝ)) false else .nan : F64).In _ _
    rw [if_pos hv0, hwn]
    have e2 : (v:ℝ) ^ (((n:ℚ)) : ℝ) = (v:ℝ) ^ n := by
      have : (((n:ℚ)) : ℝ) = (n:ℝ) := by norm_num
      rw [this, Real.rpow_natCast]
    rw [e2]
    refine FP.ofK_in' rep_zero (rep64_two_pow (by norm_num)) (by simpa using pow_nonneg hv0' n) ?_
    have hn4 : n ≤ 4 := by omega
    calc (v:ℝ) ^ n ≤ 8 ^ n := pow_le_pow_left₀ hv0' hv8' n
      _ ≤ 8 ^ 4 := pow_le_pow_right₀ (by norm_num) hn4
      _ ≤ _ := by norm_num
  · intro x hx
    obtain ⟨v, nz, hv, rfl⟩ := FP.isFin_cases hx.1
    have hv0 : (0:ℚ) ≤ v := hx.2.1
    have hv8 : v ≤ 1.5 := hx.2.2
    have hv0' : (0:ℝ) ≤ v := by exact_mod_cast hv0
    have hv8' : (v:ℝ) ≤ 1.5 := by
      have : ((v:ℚ):ℝ) ≤ ((1.5:ℚ):ℝ) := by exact_mod_cast hv8
      simpa using this
    obtain ⟨a, b⟩ := tan_three_halves hv0' hv8'
    exact FP.ofK_in' rep_zero (rep64_two_pow (by norm_num)) (by simpa using a) (by push_cast; exact b)

end Verif
