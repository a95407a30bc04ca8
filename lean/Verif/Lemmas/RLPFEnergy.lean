import Mathlib.Analysis.SpecialFunctions.Trigonometric.Basic
import Mathlib.Tactic.Linarith
import Mathlib.Tactic.Positivity
import Mathlib.Tactic.FieldSimp
import Mathlib.Tactic.LinearCombination

/-!
# An energy for the resonant low pass that falls at the rate of the filter itself

With `e = z2 + c z1` and `g = s z1` (`c`, `s` cosine and sine of the cutoff) a step without input shortens `g` by the product `C` of the
poles and then turns `(e, g)` by the cutoff angle. The energy is `e² + g²`, tilted a little against the turning.
-/

namespace Verif.RLPF

/-- The tilted energy. -/
noncomputable def tilt (c s e g : ℝ) : ℝ := (1 + s / 64) * e ^ 2 + (1 - s / 64) * g ^ 2 - c / 32 * (e * g)

theorem tilt_le {c s : ℝ} (h : s ^ 2 + c ^ 2 = 1) (s0 : 0 ≤ s) (e g : ℝ) : tilt c s e g ≤ 65 / 64 * (e ^ 2 + g ^ 2) := by
  have k : (1 + s) * (65 / 64 * (e ^ 2 + g ^ 2) - tilt c s e g) = (c * e + (1 + s) * g) ^ 2 / 64 := by
    unfold tilt; linear_combination (-(e ^ 2) / 64) * h
  have : 0 ≤ (1 + s) * (65 / 64 * (e ^ 2 + g ^ 2) - tilt c s e g) := by rw [k]; positivity
  have := nonneg_of_mul_nonneg_right this (by linarith)
  linarith

theorem le_tilt {c s : ℝ} (h : s ^ 2 + c ^ 2 = 1) (s0 : 0 ≤ s) (e g : ℝ) : 63 / 64 * (e ^ 2 + g ^ 2) ≤ tilt c s e g := by
  have k : (1 + s) * (tilt c s e g - 63 / 64 * (e ^ 2 + g ^ 2)) = ((1 + s) * e - c * g) ^ 2 / 64 := by
    unfold tilt; linear_combination (-(g ^ 2) / 64) * h
  have : 0 ≤ (1 + s) * (tilt c s e g - 63 / 64 * (e ^ 2 + g ^ 2)) := by rw [k]; positivity
  have := nonneg_of_mul_nonneg_right this (by linarith)
  linarith

theorem tilt_add {c s d : ℝ} (h : s ^ 2 + c ^ 2 = 1) (s0 : 0 ≤ s) (hd : 0 < d) (a b u v : ℝ) :
    tilt c s (a + u) (b + v) ≤ (1 + d) * tilt c s a b + (1 + 1 / d) * tilt c s u v := by
  have k : (1 + d) * tilt c s a b + (1 + 1 / d) * tilt c s u v - tilt c s (a + u) (b + v) = tilt c s (d * a - u) (d * b - v) / d := by
    unfold tilt; field_simp; ring
  have n : 0 ≤ tilt c s (d * a - u) (d * b - v) := le_trans (by positivity) (le_tilt h s0 _ _)
  have := div_nonneg n hd.le
  linarith

/-- A step without input, for every damping the setters allow. -/
theorem tilt_falls {c s a C : ℝ} (h : s ^ 2 + c ^ 2 = 1) (s0 : 0 < s) (a0 : s / 61 ≤ a) (a1 : a ≤ 5.1 * s) (hC : C = (1 - a) / (1 + a)) (e g : ℝ) :
    tilt c s (c * e - s * (C * g)) (s * e + c * (C * g)) ≤ (1 - s / 66) * tilt c s e g := by
  have s1 : s ≤ 1 := by nlinarith [sq_nonneg c]
  have ap : 0 < a := by linarith [div_pos s0 (by norm_num : (0:ℝ) < 61)]
  have D : 0 < 1 + a := by linarith
  set A := a / (1 + a) ^ 2 with hA
  have A0 : 0 < A := by positivity
  have c1 : 1 - C ^ 2 = 4 * A := by rw [hC, hA]; field_simp; ring
  have c2 : (1 - C) ^ 2 = 4 * a * A := by rw [hC, hA]; field_simp; ring
  have sA : s / 64 ≤ A := by
    rw [hA, div_le_div_iff₀ (by norm_num) (by positivity)]
    rcases le_total a (1 / 10) with t | t
    · have : s ≤ 61 * a := by linarith
      nlinarith [mul_nonneg ap.le ap.le, mul_nonneg (mul_nonneg ap.le ap.le) (sub_nonneg.2 this)]
    · norm_num at a1
      have : a ≤ 51 / 10 := by linarith
      nlinarith [mul_nonneg (sub_nonneg.2 t) (sub_nonneg.2 this), mul_nonneg (sub_nonneg.2 s1) (sq_nonneg (1 + a))]
  have exact : tilt c s e g - tilt c s (c * e - s * (C * g)) (s * e + c * (C * g)) =
      s / 32 * e ^ 2 + ((1 - C ^ 2) - s / 64 * (1 + C ^ 2)) * g ^ 2 - c / 32 * (1 - C) * (e * g) := by
    unfold tilt
    linear_combination (C * e * g * c / 32 - e ^ 2 * (1 - s / 64) - C ^ 2 * g ^ 2 * (1 + s / 64)) * h
  have cc : C ^ 2 ≤ 1 := by linarith
  have b1 : 2 * A * g ^ 2 ≤ ((1 - C ^ 2) - s / 64 * (1 + C ^ 2)) * g ^ 2 := by
    apply mul_le_mul_of_nonneg_right _ (sq_nonneg g)
    have := mul_le_mul sA (show 1 + C ^ 2 ≤ 2 by linarith) (by positivity) A0.le
    linarith
  have b2 : c / 32 * (1 - C) * (e * g) ≤ s / 64 * e ^ 2 + (1 - C) ^ 2 / (64 * s) * g ^ 2 := by
    have cs : c ^ 2 ≤ 1 := by nlinarith [sq_nonneg s]
    have k : s / 64 * e ^ 2 + (1 - C) ^ 2 / (64 * s) * g ^ 2 - c / 32 * (1 - C) * (e * g) =
        ((s * e - c * ((1 - C) * g)) ^ 2 + (1 - c ^ 2) * ((1 - C) * g) ^ 2) / (64 * s) := by field_simp; ring
    have : 0 ≤ ((s * e - c * ((1 - C) * g)) ^ 2 + (1 - c ^ 2) * ((1 - C) * g) ^ 2) / (64 * s) := by
      have := sub_nonneg.2 cs
      positivity
    linarith
  have b3 : (1 - C) ^ 2 / (64 * s) ≤ 0.32 * A := by
    rw [c2, div_le_iff₀ (by positivity)]
    have := mul_le_mul_of_nonneg_right a1 A0.le
    norm_num at this ⊢
    nlinarith
  have b4 := mul_le_mul_of_nonneg_right b3 (sq_nonneg g)
  have b5 := mul_le_mul_of_nonneg_right sA (sq_nonneg g)
  have low : s / 64 * (e ^ 2 + g ^ 2) ≤ tilt c s e g - tilt c s (c * e - s * (C * g)) (s * e + c * (C * g)) := by
    rw [exact]
    have : 0 ≤ A * g ^ 2 := by positivity
    norm_num at b4
    linarith
  have up := mul_le_mul_of_nonneg_left (tilt_le h s0.le e g) (show 0 ≤ s / 66 by positivity)
  have : 0 ≤ s * (e ^ 2 + g ^ 2) := by positivity
  nlinarith

/-- The level of the energy that is never left while the input stays within 1. -/
noncomputable def level (c s : ℝ) : ℝ := (500 * (1 - c) / s) ^ 2

theorem level_closes {c s : ℝ} (s0 : 0 < s) (s1 : s ≤ 1) :
    (1 + s / 132) * ((1 - s / 66) * level c s) + (1 + 1 / (s / 132)) * (14.05 * (1 - c) ^ 2) ≤ level c s := by
  have lv : level c s * s ^ 2 = 250000 * (1 - c) ^ 2 := by unfold level; field_simp; ring
  have L0 : 0 ≤ level c s := by unfold level; positivity
  have k1 : (1 + s / 132) * ((1 - s / 66) * level c s) ≤ (1 - s / 132) * level c s := by
    have : (1 - s / 132) * level c s - (1 + s / 132) * ((1 - s / 66) * level c s) = s ^ 2 * level c s / 8712 := by ring
    have : 0 ≤ s ^ 2 * level c s / 8712 := by positivity
    linarith
  have k2 : (1 + 1 / (s / 132)) * (14.05 * (1 - c) ^ 2) ≤ s / 132 * level c s := by
    have : s / 132 * level c s = 250000 * (1 - c) ^ 2 / (132 * s) := by
      rw [← lv]; field_simp
    rw [this, le_div_iff₀ (by positivity)]
    have : (1 + 1 / (s / 132)) * (14.05 * (1 - c) ^ 2) * (132 * s) = (132 * s + 132 ^ 2) * (14.05 * (1 - c) ^ 2) := by field_simp
    rw [this]
    have q := mul_le_mul_of_nonneg_right s1 (sq_nonneg (1 - c))
    have q0 := sq_nonneg (1 - c)
    generalize (1 - c) ^ 2 = Q at *
    norm_num
    linarith
  linarith

/-- A step with input and rounding errors of up to a twentieth of `1 - c`. -/
theorem tilt_step {c s a C z1 z2 x p q r1 r2 : ℝ} (h : s ^ 2 + c ^ 2 = 1) (s0 : 0 < s) (a0 : s / 61 ≤ a) (a1 : a ≤ 5.1 * s)
    (hC : C = (1 - a) / (1 + a)) (hx : |x| ≤ 1) (hp : |p| ≤ 2 * (1 - c)) (hq : |q| ≤ 1 - c) (h1 : |r1| ≤ (1 - c) / 20) (h2 : |r2| ≤ (1 - c) / 20)
    (hE : tilt c s (z2 + c * z1) (s * z1) ≤ level c s) :
    tilt c s ((-C * z1 + q * x + r2) + c * ((1 + C) * c * z1 + z2 + p * x + r1)) (s * ((1 + C) * c * z1 + z2 + p * x + r1)) ≤ level c s := by
  have s1 : s ≤ 1 := by nlinarith [sq_nonneg c]
  have cb : |c| ≤ 1 := abs_le.2 ⟨by nlinarith, by nlinarith⟩
  have J : 0 ≤ 1 - c := by linarith [(abs_le.1 cb).2]
  have e1 : (-C * z1 + q * x + r2) + c * ((1 + C) * c * z1 + z2 + p * x + r1) =
      (c * (z2 + c * z1) - s * (C * (s * z1))) + (q * x + r2 + c * (p * x + r1)) := by linear_combination (C * z1) * h
  have e2 : s * ((1 + C) * c * z1 + z2 + p * x + r1) = (s * (z2 + c * z1) + c * (C * (s * z1))) + s * (p * x + r1) := by ring
  rw [e1, e2]
  have d0 : 0 < s / 132 := by positivity
  refine (tilt_add h s0.le d0 _ _ _ _).trans ?_
  have f1 := tilt_falls h s0 a0 a1 hC (z2 + c * z1) (s * z1)
  have px : |p * x + r1| ≤ 2.05 * (1 - c) := by
    refine (abs_add_le _ _).trans ?_
    rw [abs_mul]
    have := mul_le_mul hp hx (abs_nonneg x) (by linarith)
    norm_num; linarith
  have qx : |q * x + r2| ≤ 1.05 * (1 - c) := by
    refine (abs_add_le _ _).trans ?_
    rw [abs_mul]
    have := mul_le_mul hq hx (abs_nonneg x) J
    norm_num; linarith
  have u1 : |q * x + r2 + c * (p * x + r1)| ≤ 3.1 * (1 - c) := by
    refine (abs_add_le _ _).trans ?_
    rw [abs_mul c]
    have := mul_le_mul cb px (abs_nonneg _) zero_le_one
    norm_num at *; linarith
  have u2 : |s * (p * x + r1)| ≤ 2.05 * (1 - c) := by
    rw [abs_mul, abs_of_pos s0]
    have := mul_le_mul s1 px (abs_nonneg _) zero_le_one
    linarith
  have f2 := tilt_le h s0.le (q * x + r2 + c * (p * x + r1)) (s * (p * x + r1))
  have v1 := sq_le_sq' (by linarith [(abs_le.1 u1).1]) (abs_le.1 u1).2
  have v2 := sq_le_sq' (by linarith [(abs_le.1 u2).1]) (abs_le.1 u2).2
  have f3 : tilt c s (q * x + r2 + c * (p * x + r1)) (s * (p * x + r1)) ≤ 14.05 * (1 - c) ^ 2 := by
    norm_num at *; nlinarith [sq_nonneg (1 - c)]
  have f4 := mul_le_mul_of_nonneg_left (f1.trans (mul_le_mul_of_nonneg_left hE (by linarith))) (by positivity : 0 ≤ 1 + s / 132)
  have f5 := mul_le_mul_of_nonneg_left f3 (by positivity : 0 ≤ 1 + 1 / (s / 132))
  refine (add_le_add f4 f5).trans ?_
  exact level_closes s0 s1

/-- What the level means for the state. -/
theorem level_state {c s z1 z2 : ℝ} (h : s ^ 2 + c ^ 2 = 1) (s0 : 0 < s) (hE : tilt c s (z2 + c * z1) (s * z1) ≤ level c s) :
    |z1| ≤ 505 / (1 + c) ∧ |z2| ≤ 1010 / (1 + c) := by
  have s1 : s ≤ 1 := by nlinarith [sq_nonneg c]
  have cb : |c| ≤ 1 := abs_le.2 ⟨by nlinarith, by nlinarith⟩
  have p : 0 < 1 + c := by
    rcases (abs_le.1 cb).1.eq_or_lt with t | t
    · rw [← t] at h; nlinarith
    · linarith
  have J : 0 ≤ 1 - c := by linarith [(abs_le.1 cb).2]
  have js : (1 - c) / s = s / (1 + c) := by rw [div_eq_div_iff s0.ne' p.ne']; linarith
  have lo := (le_tilt h s0.le (z2 + c * z1) (s * z1)).trans hE
  have lv : level c s = (500 * s / (1 + c)) ^ 2 := by unfold level; rw [mul_div_assoc, js, mul_div_assoc]
  rw [lv] at lo
  have b : 0 ≤ 500 * s / (1 + c) := by positivity
  have g : |s * z1| ≤ 1.01 * (500 * s / (1 + c)) := by
    refine abs_le_of_sq_le_sq ?_ (by positivity)
    norm_num
    nlinarith [sq_nonneg (z2 + c * z1), sq_nonneg (500 * s / (1 + c))]
  have e : |z2 + c * z1| ≤ 1.01 * (500 * s / (1 + c)) := by
    refine abs_le_of_sq_le_sq ?_ (by positivity)
    norm_num
    nlinarith [sq_nonneg (s * z1), sq_nonneg (500 * s / (1 + c))]
  have z1' : |z1| ≤ 505 / (1 + c) := by
    rw [abs_mul, abs_of_pos s0] at g
    have : 1.01 * (500 * s / (1 + c)) = s * (505 / (1 + c)) := by ring
    rw [this] at g
    exact le_of_mul_le_mul_left g s0
  refine ⟨z1', ?_⟩
  have k : z2 = (z2 + c * z1) - c * z1 := by ring
  rw [k]
  refine (abs_sub _ _).trans ?_
  rw [abs_mul]
  have a := mul_le_mul cb z1' (abs_nonneg _) zero_le_one
  have b' : 1.01 * (500 * s / (1 + c)) ≤ 505 / (1 + c) := by
    have : 1.01 * (500 * s / (1 + c)) = s * (505 / (1 + c)) := by ring
    rw [this]
    have : 0 ≤ 505 / (1 + c) := by positivity
    nlinarith
  have : 505 / (1 + c) + 505 / (1 + c) = 1010 / (1 + c) := by ring
  linarith

end Verif.RLPF
