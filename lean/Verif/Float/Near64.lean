import Verif.Float.Step64

/-!
# Double-precision results close to real numbers

The error of one operation, given the errors of its operands; and what is assumed of the double-precision `sin` and `cos`.
-/

namespace Verif

/-- `x` is finite and within `e` of the real number `r`. -/
def Near64 (x : F64) (r e : ℝ) : Prop := x.isFin = true ∧ |((x.val : ℚ) : ℝ) - r| ≤ e

namespace Near64
open FP

variable {x y : F64} {r t d e A T η : ℝ}

theorem mono (h : Near64 x r d) (hd : d ≤ e) : Near64 x r e := ⟨h.1, h.2.trans hd⟩

theorem self (h : x.isFin = true) : Near64 x ((x.val : ℚ) : ℝ) 0 := ⟨h, by simp⟩

theorem of_in {v : ℚ} (h : x.In v v) : Near64 x (v : ℝ) 0 := ⟨h.1, by rw [h.val_eq]; simp⟩

theorem abs_le (h : Near64 x r d) (hr : |r| ≤ A) : |((x.val : ℚ) : ℝ)| ≤ A + d := by
  have := abs_add_le (((x.val : ℚ) : ℝ) - r) r
  rw [sub_add_cancel] at this
  linarith [h.2]

/-- A rounding in real numbers. -/
theorem rounded {z : F64} {q : ℚ} (hq : |q| ≤ 2 ^ 200 → z.isFin = true ∧ |z.val - q| ≤ |q| / 2 ^ 53 + 1 / 2 ^ 250) (hr : |r| ≤ A)
    (hη : |(q : ℝ) - r| ≤ η) (hA : A + η ≤ 2 ^ 200) : Near64 z r (η + (A + η) / 2 ^ 53 + 1 / 2 ^ 250) := by
  have hb : |(q : ℝ)| ≤ A + η := by
    have := abs_add_le ((q : ℝ) - r) r
    rw [sub_add_cancel] at this
    linarith
  have hb' : |q| ≤ 2 ^ 200 := by
    rw [← Rat.cast_le (K := ℝ)]; push_cast; exact hb.trans hA
  obtain ⟨f, k⟩ := hq hb'
  rw [← Rat.cast_le (K := ℝ)] at k
  push_cast at k
  refine ⟨f, ?_⟩
  have := abs_add_le (((z.val : ℚ) : ℝ) - q) (q - r)
  rw [sub_add_sub_cancel] at this
  have : |(q : ℝ)| / 2 ^ 53 ≤ (A + η) / 2 ^ 53 := div_le_div_of_nonneg_right hb (by positivity)
  linarith

theorem add (hx : Near64 x r d) (hy : Near64 y t e) (hA : |r + t| ≤ A) (h : A + (d + e) ≤ 2 ^ 200) :
    Near64 (x + y) (r + t) (d + e + (A + (d + e)) / 2 ^ 53 + 1 / 2 ^ 250) := by
  refine rounded (q := x.val + y.val) (fun k => add64 hx.1 hy.1 k) hA ?_ h
  push_cast
  have := abs_add_le (((x.val : ℚ) : ℝ) - r) (((y.val : ℚ) : ℝ) - t)
  rw [show ((x.val : ℚ) : ℝ) + ((y.val : ℚ) : ℝ) - (r + t) = (((x.val : ℚ) : ℝ) - r) + (((y.val : ℚ) : ℝ) - t) by ring]
  linarith [hx.2, hy.2]

theorem sub (hx : Near64 x r d) (hy : Near64 y t e) (hA : |r - t| ≤ A) (h : A + (d + e) ≤ 2 ^ 200) :
    Near64 (x - y) (r - t) (d + e + (A + (d + e)) / 2 ^ 53 + 1 / 2 ^ 250) := by
  refine rounded (q := x.val - y.val) (fun k => sub64 hx.1 hy.1 k) hA ?_ h
  push_cast
  have := abs_sub (((x.val : ℚ) : ℝ) - r) (((y.val : ℚ) : ℝ) - t)
  rw [show ((x.val : ℚ) : ℝ) - ((y.val : ℚ) : ℝ) - (r - t) = (((x.val : ℚ) : ℝ) - r) - (((y.val : ℚ) : ℝ) - t) by ring]
  linarith [hx.2, hy.2]

theorem mul (hx : Near64 x r d) (hy : Near64 y t e) (hr : |r| ≤ A) (ht : |t| ≤ T) (h : A * T + (d * (T + e) + A * e) ≤ 2 ^ 200) :
    Near64 (x * y) (r * t) (d * (T + e) + A * e + (A * T + (d * (T + e) + A * e)) / 2 ^ 53 + 1 / 2 ^ 250) := by
  have hA : 0 ≤ A := (abs_nonneg _).trans hr
  refine rounded (q := x.val * y.val) (fun k => mul64 hx.1 hy.1 k)
    (by rw [abs_mul]; exact mul_le_mul hr ht (abs_nonneg _) hA) ?_ h
  push_cast
  rw [show ((x.val : ℚ) : ℝ) * ((y.val : ℚ) : ℝ) - r * t = (((x.val : ℚ) : ℝ) - r) * ((y.val : ℚ) : ℝ) + r * (((y.val : ℚ) : ℝ) - t) by ring]
  refine (abs_add_le _ _).trans ?_
  rw [abs_mul, abs_mul]
  exact add_le_add (mul_le_mul hx.2 (hy.abs_le ht) (abs_nonneg _) ((abs_nonneg _).trans hx.2)) (mul_le_mul hr hy.2 (abs_nonneg _) hA)

/-- Division by a number of at least 1. -/
theorem div (hx : Near64 x r d) (hy : Near64 y t e) (ht : 1 ≤ t) (he : e ≤ 1 / 2) (hr : |r / t| ≤ A) (h : A + 2 * (d + A * e) ≤ 2 ^ 200) :
    Near64 (x / y) (r / t) (2 * (d + A * e) + (A + 2 * (d + A * e)) / 2 ^ 53 + 1 / 2 ^ 250) := by
  have hA : 0 ≤ A := (abs_nonneg _).trans hr
  have hy2 : (1 / 2 : ℝ) ≤ ((y.val : ℚ) : ℝ) := by
    have := (_root_.abs_le.1 hy.2).1
    linarith
  have y0 : y.val ≠ 0 := by
    intro k; rw [k] at hy2; norm_num at hy2
  have yp : 0 < ((y.val : ℚ) : ℝ) := by linarith
  refine rounded (q := x.val / y.val) (fun k => div64 hx.1 hy.1 y0 k) hr ?_ h
  push_cast
  have tp : t ≠ 0 := by linarith
  rw [show ((x.val : ℚ) : ℝ) / ((y.val : ℚ) : ℝ) - r / t =
    ((((x.val : ℚ) : ℝ) - r) - (r / t) * (((y.val : ℚ) : ℝ) - t)) / ((y.val : ℚ) : ℝ) by field_simp; ring]
  rw [abs_div, abs_of_pos yp, div_le_iff₀ yp]
  have k : |(((x.val : ℚ) : ℝ) - r) - (r / t) * (((y.val : ℚ) : ℝ) - t)| ≤ d + A * e := by
    refine (abs_sub _ _).trans ?_
    rw [abs_mul]
    exact add_le_add hx.2 (mul_le_mul hr hy.2 (abs_nonneg _) hA)
  have k0 : 0 ≤ d + A * e := (abs_nonneg _).trans k
  nlinarith

end Near64

/-- Accuracy assumed of the double-precision `sin` and `cos` for angles up to 3.15: four units in the last place of 1. -/
class SinCos64 [Libm F64] : Prop where
  sin_acc : ∀ x : F64, x.In 0 3.15 → Near64 (Libm.sin x) (Real.sin x.val) (1 / 2 ^ 50)
  cos_acc : ∀ x : F64, x.In 0 3.15 → Near64 (Libm.cos x) (Real.cos x.val) (1 / 2 ^ 50)

theorem ofK_near64 {x : ℝ} (h1 : -1 ≤ x) (h2 : x ≤ 1) : Near64 (FP.ofK x false) x (1 / 2 ^ 50) := by
  have hb := FP.ofK_in (f := binary64) (x := x) (zs := false) (FP.Rep.neg FP.rep_one) FP.rep_one (by simpa using h1) (by simpa using h2)
  refine ⟨hb.1, ?_⟩
  rw [hb.2.1, abs_sub_comm]
  refine (binary64.rnd_rel_err (K := ℝ) x).trans ?_
  have a : |x| * 2 ^ (-(binary64.prec : ℤ)) ≤ 1 / 2 ^ 53 := by
    have : (2:ℝ) ^ (-(binary64.prec : ℤ)) = 1 / 2 ^ 53 := by norm_num [binary64]
    rw [this]
    have := abs_le.2 ⟨h1, h2⟩
    have := mul_le_mul_of_nonneg_right this (by positivity : (0:ℝ) ≤ 1 / 2 ^ 53)
    linarith
  have b : (2:ℝ) ^ (binary64.emin - 1) ≤ 1 / 2 ^ 250 := by
    have e : (1:ℝ) / 2 ^ 250 = 2 ^ (-250 : ℤ) := by norm_num
    rw [e]
    exact zpow_le_zpow_right₀ (by norm_num) (by decide)
  refine (add_le_add a b).trans ?_
  norm_num

theorem idealLibm64_sincos : @SinCos64 idealLibm64 := by
  refine @SinCos64.mk idealLibm64 ?_ ?_
  · intro x hx
    obtain ⟨v, nz, hv, rfl⟩ := FP.isFin_cases hx.1
    exact ofK_near64 (Real.neg_one_le_sin _) (Real.sin_le_one _)
  · intro x hx
    obtain ⟨v, nz, hv, rfl⟩ := FP.isFin_cases hx.1
    exact ofK_near64 (Real.neg_one_le_cos _) (Real.cos_le_one _)

end Verif
