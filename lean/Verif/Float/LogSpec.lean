import Verif.Float.Near

/-!
# Assumptions on `logf` and `expf` used for exponential lines

`LogSpec` is used by theorems about XLine only. It holds of glibc, whose `expf` and `logf` are within one unit in the last place;
`idealLibm_log` shows that it is consistent.
-/

namespace Verif

/-- A number close enough to a float rounds to it. -/
theorem rnd_snap {K : Type} [Field K] [LinearOrder K] [IsStrictOrderedRing K] [FloorRing K] {x : K} {v : ℚ} {e : ℤ}
    (hv : binary32.Grid v) (h1 : (2:ℚ) ^ e ≤ |v|) (h2 : |x - (v : K)| < 2 ^ (e - 25)) : binary32.rnd x = v := by
  have hn := binary32.rnd_nearest x hv
  have hr : |((binary32.rnd x : ℚ) : K) - (v : K)| < 2 ^ (e - 24) := by
    have := abs_sub_le ((binary32.rnd x : ℚ) : K) x (v : K)
    rw [abs_sub_comm ((binary32.rnd x : ℚ) : K) x] at this
    have e2 : (2:K) ^ (e - 24) = 2 * 2 ^ (e - 25) := by
      rw [← zpow_one_add₀ (by norm_num)]; congr 1; ring
    rw [e2]; linarith
  have hr' : |binary32.rnd x - v| < 2 ^ (e - 24) := by
    have h : ((|binary32.rnd x - v| : ℚ) : K) < ((2 ^ (e - 24) : ℚ) : K) := by push_cast; exact hr
    exact_mod_cast h
  have e3 : (2:ℚ) ^ e = 2 ^ (e - 24) * 16777216 := by
    rw [show e = (e - 24) + 24 by ring, zpow_add₀ (by norm_num)]; norm_num
  have hp : (0:ℚ) < 2 ^ (e - 24) := by positivity
  have hb : (2:ℚ) ^ ((e - 24) + 24 - 1) ≤ |binary32.rnd x| := by
    have := abs_sub_abs_le_abs_sub v (binary32.rnd x)
    rw [abs_sub_comm] at this
    have e4 : (2:ℚ) ^ ((e - 24) + 24 - 1) = 2 ^ (e - 24) * 8388608 := by
      rw [show (e - 24) + 24 - 1 = (e - 24) + 23 by ring, zpow_add₀ (by norm_num)]; norm_num
    rw [e4]; linarith
  have hb' : (2:ℚ) ^ ((e - 24) + 24 - 1) ≤ |v| := le_trans (zpow_le_zpow_right₀ (by norm_num) (by omega)) h1
  obtain ⟨n, hn'⟩ := (binary32.grid_rnd x).mult hb
  obtain ⟨m, hm⟩ := hv.mult hb'
  rw [hn', hm] at hr' ⊢
  rw [← sub_mul, abs_mul, abs_of_pos hp] at hr'
  have : |(n:ℚ) - m| < 1 := by
    by_contra hc
    have := mul_le_mul_of_nonneg_right (not_lt.1 hc) hp.le
    linarith
  have h3 : |n - m| < 1 := by exact_mod_cast this
  have : n = m := by
    have := Int.abs_lt_one_iff.1 h3
    omega
  rw [this]

/-- Assumptions on `expf` and `logf`: within two roundings of the truth, and `expf` of next to nothing is 1. -/
class LogSpec [Libm F32] : Prop where
  exp_rel : ∀ x : F32, x.isFin = true → |x.val| ≤ 64 → (Libm.exp x).isFin = true ∧
    |((Libm.exp x).val : ℝ) - Real.exp x.val| ≤ 2 ^ (-23:ℤ) * Real.exp x.val
  exp_one : ∀ x : F32, x.isFin = true → |x.val| ≤ 2 ^ (-26:ℤ) → (Libm.exp x).In 1 1
  log_rel : ∀ x : F32, x.isFin = true → 2 ^ (-120:ℤ) ≤ x.val → x.val ≤ 2 ^ (120:ℤ) → (Libm.log x).isFin = true ∧
    |((Libm.log x).val : ℝ) - Real.log x.val| ≤ 2 ^ (-23:ℤ) * |Real.log x.val| + 2 ^ (-149:ℤ)

theorem idealLibm_log : @LogSpec idealLibm := by
  refine @LogSpec.mk idealLibm ?_ ?_ ?_
  · intro x hx h
    obtain ⟨v, nz, hv, rfl⟩ := FP.isFin_cases hx
    have h' : |(v : ℝ)| ≤ 64 := by exact_mod_cast h
    obtain ⟨l, u⟩ := abs_le.1 h'
    have e1 : Real.exp 1 ≤ 2.72 := by have := Real.exp_one_lt_d9; linarith
    have hu : Real.exp (v : ℝ) ≤ 2 ^ (100:ℤ) := by
      calc Real.exp (v : ℝ) ≤ Real.exp 64 := Real.exp_le_exp.2 u
        _ = Real.exp 1 ^ 64 := by rw [← Real.exp_nat_mul]; norm_num
        _ ≤ 2.72 ^ 64 := by gcongr
        _ ≤ 2 ^ (100:ℤ) := by norm_num
    have hl : (2:ℝ) ^ (-100:ℤ) ≤ Real.exp (v : ℝ) := by
      have h3 : Real.exp (-(v:ℝ)) ≤ 2 ^ (100:ℤ) := by
        calc Real.exp (-(v : ℝ)) ≤ Real.exp 64 := Real.exp_le_exp.2 (by linarith)
          _ = Real.exp 1 ^ 64 := by rw [← Real.exp_nat_mul]; norm_num
          _ ≤ 2.72 ^ 64 := by gcongr
          _ ≤ 2 ^ (100:ℤ) := by norm_num
      rw [Real.exp_neg] at h3
      rw [zpow_neg]
      exact (inv_le_comm₀ (Real.exp_pos _) (by positivity)).1 h3
    have R := FP.rep_zpow (k := 100) (by omega) (by omega)
    have hin := FP.ofK_in (f := binary32) (x := Real.exp (v : ℝ)) (zs := false) FP.rep_zero R
      (by simpa using (Real.exp_pos _).le) (by rw [Rat.cast_zpow]; exact hu)
    refine ⟨hin.1, ?_⟩
    show |(((FP.ofK (Real.exp (v : ℝ)) false : F32).val : ℚ) : ℝ) - Real.exp (v : ℝ)| ≤ _
    rw [hin.2.1, abs_sub_comm]
    have := binary32.rnd_rel_err_normal (x := Real.exp (v : ℝ)) (by
      rw [abs_of_pos (Real.exp_pos _)]
      exact le_trans (zpow_le_zpow_right₀ (by norm_num) (by decide)) hl)
    rw [abs_of_pos (Real.exp_pos _)] at this
    refine this.trans ?_
    rw [mul_comm]
    exact mul_le_mul_of_nonneg_right (zpow_le_zpow_right₀ (by norm_num) (by decide)) (Real.exp_pos _).le
  · intro x hx h
    obtain ⟨v, nz, hv, rfl⟩ := FP.isFin_cases hx
    have h' : |(v : ℝ)| ≤ 2 ^ (-26:ℤ) := by
      have : ((|v| : ℚ) : ℝ) ≤ ((2 ^ (-26:ℤ) : ℚ) : ℝ) := by exact_mod_cast h
      push_cast at this; exact this
    obtain ⟨l, u⟩ := abs_le.1 h'
    have hb := Real.abs_exp_sub_one_le (x := (v : ℝ)) (by norm_num at h' ⊢; linarith)
    have hs : binary32.rnd (Real.exp (v : ℝ)) = 1 := by
      refine rnd_snap (e := 0) (binary32.grid_one) (by norm_num) ?_
      have hq := Real.abs_exp_sub_one_sub_id_le (x := (v : ℝ)) (by norm_num at h' ⊢; linarith)
      push_cast
      norm_num at *
      obtain ⟨q1, q2⟩ := abs_le.1 hq
      have hv2 : (v : ℝ) ^ 2 ≤ 1 / 67108864 * (1 / 67108864) := by
        rw [← sq_abs, sq]
        exact mul_le_mul h' h' (abs_nonneg _) (by norm_num)
      rw [abs_lt]
      constructor <;> linarith
    have h2 : (FP.ofK (Real.exp (v : ℝ)) false : F32).In 1 1 := by
      have hin := FP.ofK_in (f := binary32) (x := Real.exp (v : ℝ)) (zs := false) (FP.rep_zero) (show binary32.Rep 2 false by decide +kernel)
        (by simpa using (Real.exp_pos _).le) (by
          obtain ⟨b1, b2⟩ := abs_le.1 hb
          norm_num at *; linarith)
      exact ⟨hin.1, by rw [hin.2.1, hs], by rw [hin.2.1, hs]⟩
    exact h2
  · intro x hx h1 h2
    obtain ⟨v, nz, hv, rfl⟩ := FP.isFin_cases hx
    have hpos : (0:ℚ) < v := lt_of_lt_of_le (by positivity) h1
    have hposR : (0:ℝ) < v := by exact_mod_cast hpos
    have h1' : (2:ℝ) ^ (-120:ℤ) ≤ v := by
      have : ((2 ^ (-120:ℤ) : ℚ) : ℝ) ≤ (v : ℝ) := by exact_mod_cast h1
      rw [Rat.cast_zpow] at this; exact this
    have h2' : (v : ℝ) ≤ 2 ^ (120:ℤ) := by
      have : (v : ℝ) ≤ ((2 ^ (120:ℤ) : ℚ) : ℝ) := by exact_mod_cast h2
      rw [Rat.cast_zpow] at this; exact this
    have hlog2 : Real.log 2 ≤ 1 := by have := Real.log_two_lt_d9; linarith
    have hlog0 : 0 ≤ Real.log 2 := Real.log_nonneg (by norm_num)
    have lu : Real.log v ≤ 120 := by
      have := Real.log_le_log hposR h2'
      rw [Real.log_zpow] at this
      push_cast at this; linarith
    have ll : -120 ≤ Real.log v := by
      have := Real.log_le_log (by positivity) h1'
      rw [Real.log_zpow] at this
      push_cast at this; linarith
    have R : binary32.Rep 120 false := by decide +kernel
    have hin := FP.ofK_in (f := binary32) (x := Real.log (v : ℝ)) (zs := false) (FP.Rep.neg R) R
      (by push_cast; exact ll) (by push_cast; exact lu)
    have e : @Libm.log F32 idealLibm (.fin v nz hv) = FP.ofK (Real.log v) false := by
      show (if v = 0 then _ else if v < 0 then _ else _) = _
      rw [if_neg hpos.ne', if_neg hpos.not_gt]
    rw [e]
    refine ⟨hin.1, ?_⟩
    rw [hin.2.1, abs_sub_comm]
    refine (binary32.rnd_rel_err (x := Real.log (v : ℝ))).trans ?_
    rw [mul_comm]
    exact add_le_add (mul_le_mul_of_nonneg_right (zpow_le_zpow_right₀ (by norm_num) (by decide)) (abs_nonneg _))
      (zpow_le_zpow_right₀ (by norm_num) (by decide))

end Verif
