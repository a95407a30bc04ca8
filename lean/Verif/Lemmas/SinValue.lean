import Mathlib.Analysis.Real.Pi.Bounds
import Mathlib.Analysis.SpecialFunctions.Trigonometric.Bounds

/-!
# The sine of one particular number

Needed to evaluate the coefficient of the MusicDSP ladder at 20 kHz (C51).
-/

namespace Verif

open Finset in
/-- The cosine series up to the tenth power. -/
theorem cos_series {x : ℝ} (hx : |x| ≤ 1) :
    |Real.cos x - (1 - x ^ 2 / 2 + x ^ 4 / 24 - x ^ 6 / 720 + x ^ 8 / 40320 - x ^ 10 / 3628800)| ≤ |x| ^ 12 / 10 ^ 8 := by
  have hx' : ‖(x : ℂ) * Complex.I‖ ≤ 1 := by simpa using hx
  have h := Complex.exp_bound hx' (n := 12) (by norm_num)
  have hre := (Complex.abs_re_le_norm _).trans h
  have e : (Complex.exp (x * Complex.I) - ∑ m ∈ range 12, ((x : ℂ) * Complex.I) ^ m / (m.factorial : ℂ)).re =
      Real.cos x - (1 - x ^ 2 / 2 + x ^ 4 / 24 - x ^ 6 / 720 + x ^ 8 / 40320 - x ^ 10 / 3628800) := by
    rw [Complex.sub_re, Complex.exp_ofReal_mul_I_re]
    congr 1
    have i2 : Complex.I ^ 2 = -1 := Complex.I_sq
    have s : ∑ m ∈ range 12, ((x : ℂ) * Complex.I) ^ m / (m.factorial : ℂ) =
        ((1 - x ^ 2 / 2 + x ^ 4 / 24 - x ^ 6 / 720 + x ^ 8 / 40320 - x ^ 10 / 3628800 : ℝ) : ℂ) +
        ((x - x ^ 3 / 6 + x ^ 5 / 120 - x ^ 7 / 5040 + x ^ 9 / 362880 - x ^ 11 / 39916800 : ℝ) : ℂ) * Complex.I := by
      simp only [sum_range_succ, sum_range_zero, Nat.factorial]
      push_cast
      simp only [mul_pow]
      have i3 : Complex.I ^ 3 = -Complex.I := by rw [pow_succ, i2]; ring
      have i4 : Complex.I ^ 4 = 1 := Complex.I_pow_four
      have i5 : Complex.I ^ 5 = Complex.I := by rw [pow_succ, i4]; ring
      have i6 : Complex.I ^ 6 = -1 := by rw [pow_succ, i5, ← pow_two, i2]
      have i7 : Complex.I ^ 7 = -Complex.I := by rw [pow_succ, i6]; ring
      have i8 : Complex.I ^ 8 = 1 := by rw [show 8 = 4 * 2 by norm_num, pow_mul, i4]; ring
      have i9 : Complex.I ^ 9 = Complex.I := by rw [pow_succ, i8]; ring
      have i10 : Complex.I ^ 10 = -1 := by rw [pow_succ, i9, ← pow_two, i2]
      have i11 : Complex.I ^ 11 = -Complex.I := by rw [pow_succ, i10]; ring
      rw [i2, i3, i4, i5, i6, i7, i8, i9, i10, i11]
      norm_num
      ring
    rw [s]
    simp [-Complex.ofReal_sub, -Complex.ofReal_add, -Complex.ofReal_pow, -Complex.ofReal_div]
  rw [e] at hre
  refine hre.trans ?_
  rw [norm_mul, Complex.norm_I, mul_one, Complex.norm_real, Real.norm_eq_abs]
  rw [div_eq_mul_inv]
  refine mul_le_mul_of_nonneg_left ?_ (by positivity)
  norm_num [Nat.factorial]

/-- The sine of the double `fc * PI * 0.5` for 20 kHz at 44.1 kHz, in units of the last place. -/
theorem sin_value : |Real.sin (6416542357267157 / 2 ^ 52) - (8911321503425718 + 0.472) / 2 ^ 53| ≤ 0.03 / 2 ^ 53 := by
  have p1 := Real.pi_gt_d20
  have p2 := Real.pi_lt_d20
  have e : Real.sin (6416542357267157 / 2 ^ 52) = Real.cos (Real.pi / 2 - 6416542357267157 / 2 ^ 52) := (Real.cos_pi_div_two_sub _).symm
  obtain ⟨y, hy⟩ : ∃ y : ℝ, y = 3.14159265358979323846 / 2 - 6416542357267157 / 2 ^ 52 := ⟨_, rfl⟩
  have h1 : |Real.cos (Real.pi / 2 - 6416542357267157 / 2 ^ 52) - Real.cos y| ≤ 1 / 10 ^ 20 := by
    refine (Real.abs_cos_sub_cos_le _ _).trans ?_
    rw [hy, abs_le]
    constructor <;> norm_num at * <;> linarith
  have hy1 : 0 ≤ y ∧ y ≤ 0.15 := by rw [hy]; norm_num
  have h2 := cos_series (x := y) (by rw [abs_of_nonneg hy1.1]; linarith [hy1.2])
  have h3 : |y| ^ 12 / 10 ^ 8 ≤ 0.012 / 2 ^ 53 := by
    rw [abs_of_nonneg hy1.1]
    calc y ^ 12 / 10 ^ 8 ≤ 0.15 ^ 12 / 10 ^ 8 := by gcongr; exact hy1.2
      _ ≤ _ := by norm_num
  rw [e]
  have h4 := h2.trans h3
  have h5 : |(1 - y ^ 2 / 2 + y ^ 4 / 24 - y ^ 6 / 720 + y ^ 8 / 40320 - y ^ 10 / 3628800) - (8911321503425718 + 0.472) / 2 ^ 53| ≤
      0.01 / 2 ^ 53 := by
    rw [hy, abs_le]; norm_num
  rw [abs_le] at *
  norm_num at *
  constructor <;> linarith [h1.1, h1.2, h4.1, h4.2, h5.1, h5.2]
end Verif
