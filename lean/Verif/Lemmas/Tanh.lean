import Mathlib.Analysis.SpecialFunctions.Trigonometric.DerivHyp

/-!
# The hyperbolic tangent: increasing, never steeper than the identity, and a numerical bound
-/

namespace Verif

theorem hasDerivAt_tanh (x : ℝ) : HasDerivAt Real.tanh (1 / Real.cosh x ^ 2) x := by
  have h := (Real.hasDerivAt_sinh x).div (Real.hasDerivAt_cosh x) (Real.cosh_pos x).ne'
  have e : Real.tanh = fun x => Real.sinh x / Real.cosh x := funext Real.tanh_eq_sinh_div_cosh
  rw [e]
  refine h.congr_deriv ?_
  have := Real.cosh_sq x
  congr 1
  nlinarith

theorem continuous_tanh : Continuous Real.tanh :=
  continuous_iff_continuousAt.2 fun x => (hasDerivAt_tanh x).continuousAt

theorem tanh_lip {x y : ℝ} (h : x ≤ y) : 0 ≤ Real.tanh y - Real.tanh x ∧ Real.tanh y - Real.tanh x ≤ y - x := by
  have m1 : Monotone Real.tanh := monotone_of_deriv_nonneg (fun x => (hasDerivAt_tanh x).differentiableAt) fun x => by
    rw [(hasDerivAt_tanh x).deriv]; positivity
  have m2 : Monotone fun x => x - Real.tanh x := monotone_of_deriv_nonneg
    (fun x => (differentiableAt_id.sub (hasDerivAt_tanh x).differentiableAt)) fun x => by
      have h : HasDerivAt (fun x => x - Real.tanh x) (1 - 1 / Real.cosh x ^ 2) x := (hasDerivAt_id x).sub (hasDerivAt_tanh x)
      rw [h.deriv]
      have : 1 ≤ Real.cosh x ^ 2 := by nlinarith [Real.one_le_cosh x]
      have : 1 / Real.cosh x ^ 2 ≤ 1 := by rw [div_le_one (by linarith)]; exact this
      linarith
  exact ⟨sub_nonneg.2 (m1 h), by have := m2 h; dsimp only at this; linarith⟩

theorem abs_tanh_sub_le (x y : ℝ) : |Real.tanh x - Real.tanh y| ≤ |x - y| := by
  rcases le_total x y with h | h
  · have := tanh_lip h
    rw [abs_sub_comm, abs_of_nonneg this.1, abs_sub_comm, abs_of_nonneg (by linarith)]; exact this.2
  · have := tanh_lip h
    rw [abs_of_nonneg this.1, abs_of_nonneg (by linarith)]; exact this.2

theorem tanh_strictMono : StrictMono Real.tanh := strictMono_of_deriv_pos fun x => by
  rw [(hasDerivAt_tanh x).deriv]; have := Real.cosh_pos x; positivity

theorem tanh_ge {x a : ℝ} (h : 1 + a ≤ (1 - a) * Real.exp (2 * x)) : a ≤ Real.tanh x := by
  rw [Real.tanh_eq_sinh_div_cosh, le_div_iff₀ (Real.cosh_pos x), Real.sinh_eq, Real.cosh_eq]
  have e : Real.exp (2 * x) = Real.exp x * Real.exp x := by rw [← Real.exp_add]; congr 1; ring
  have e1 : Real.exp x * Real.exp (-x) = 1 := by rw [← Real.exp_add]; simp
  have p := Real.exp_pos (-x)
  have h2 := mul_le_mul_of_nonneg_right h p.le
  rw [e] at h2
  have h3 : (1 + a) * Real.exp (-x) ≤ (1 - a) * Real.exp x := by
    calc (1 + a) * Real.exp (-x) ≤ (1 - a) * (Real.exp x * Real.exp x) * Real.exp (-x) := h2
      _ = (1 - a) * Real.exp x * (Real.exp x * Real.exp (-x)) := by ring
      _ = (1 - a) * Real.exp x := by rw [e1, mul_one]
  linarith

/-- `tanh 3 ≥ 0.95`. -/
theorem tanh_large {x : ℝ} (h : 3 ≤ x) : 0.95 ≤ Real.tanh x := by
  refine tanh_ge ?_
  have h1 : Real.exp (2 * 3) ≤ Real.exp (2 * x) := Real.exp_le_exp.2 (by linarith)
  have h2 : Real.exp (2 * 3) = Real.exp 1.5 ^ 4 := by rw [← Real.exp_nat_mul]; norm_num
  have h3 : (2.5:ℝ) ≤ Real.exp 1.5 := by have := Real.add_one_le_exp (1.5:ℝ); norm_num at *; linarith
  have h4 : (2.5:ℝ) ^ 4 ≤ Real.exp 1.5 ^ 4 := pow_le_pow_left₀ (by norm_num) h3 4
  have h5 : (39:ℝ) ≤ Real.exp (2 * x) := by
    refine le_trans (le_trans ?_ h4) (h2 ▸ h1)
    norm_num
  norm_num
  linarith

end Verif
