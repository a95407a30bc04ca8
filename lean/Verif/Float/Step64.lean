import Verif.Float.LibmSpec64

/-!
# The rounding error of one double-precision operation
-/

namespace Verif
namespace FP

/-- One rounding in double precision: a relative part and a tiny absolute one (the smallest subnormal is far below `2^-250`). -/
theorem round64 {q : ℚ} {zs : Bool} (h : |q| ≤ 2 ^ 200) :
    (ofRat q zs : F64).isFin = true ∧ |(ofRat q zs : F64).val - q| ≤ |q| / 2 ^ 53 + 1 / 2 ^ 250 := by
  have R : binary64.Rep (2 ^ 200) false := rep64_two_pow (by norm_num)
  obtain ⟨l, u⟩ := abs_le.1 h
  have hin := ofRat_in (f := binary64) (zs := zs) (Rep.neg R) R l u
  have hv := ofRat_val (f := binary64) (zs := zs) (Rep.neg R) R l u
  refine ⟨hin.1, ?_⟩
  have h2 := binary64.rnd_rel_err (K := ℚ) q
  simp only [Rat.cast_id] at h2
  rw [hv, abs_sub_comm]
  refine h2.trans (add_le_add (le_of_eq ?_) ?_)
  · norm_num [binary64, div_eq_mul_inv]
  · have e : (1:ℚ) / 2 ^ 250 = 2 ^ (-250 : ℤ) := by norm_num
    rw [e]
    exact zpow_le_zpow_right₀ (by norm_num) (by decide)

theorem add64 {x y : F64} (hx : x.isFin = true) (hy : y.isFin = true) (h : |x.val + y.val| ≤ 2 ^ 200) :
    (x + y).isFin = true ∧ |(x + y).val - (x.val + y.val)| ≤ |x.val + y.val| / 2 ^ 53 + 1 / 2 ^ 250 := by
  obtain ⟨zs, e⟩ := add_def hx hy
  rw [e]; exact round64 h

theorem sub64 {x y : F64} (hx : x.isFin = true) (hy : y.isFin = true) (h : |x.val - y.val| ≤ 2 ^ 200) :
    (x - y).isFin = true ∧ |(x - y).val - (x.val - y.val)| ≤ |x.val - y.val| / 2 ^ 53 + 1 / 2 ^ 250 := by
  obtain ⟨zs, e⟩ := sub_def hx hy
  rw [e]; exact round64 h

theorem mul64 {x y : F64} (hx : x.isFin = true) (hy : y.isFin = true) (h : |x.val * y.val| ≤ 2 ^ 200) :
    (x * y).isFin = true ∧ |(x * y).val - (x.val * y.val)| ≤ |x.val * y.val| / 2 ^ 53 + 1 / 2 ^ 250 := by
  obtain ⟨zs, e⟩ := mul_def hx hy
  rw [e]; exact round64 h

theorem div64 {x y : F64} (hx : x.isFin = true) (hy : y.isFin = true) (h0 : y.val ≠ 0) (h : |x.val / y.val| ≤ 2 ^ 200) :
    (x / y).isFin = true ∧ |(x / y).val - (x.val / y.val)| ≤ |x.val / y.val| / 2 ^ 53 + 1 / 2 ^ 250 := by
  obtain ⟨zs, e⟩ := div_def hx hy h0
  rw [e]; exact round64 h

end FP

/-- Accuracy assumed of the double-precision `pow` for squares, cubes and fourth powers of numbers up to 8: thirteen bits worse than a
correctly rounded result, and exact at zero. -/
class Pow64Acc [Libm F64] : Prop where
  pow_acc : ∀ (x : F64) (n : ℕ), x.In 0 8 → n = 2 ∨ n = 3 ∨ n = 4 →
    |(Libm.pow x (lit n)).val - x.val ^ n| ≤ x.val ^ n / 2 ^ 40 + 1 / 2 ^ 250
  pow_zero : ∀ (x : F64) (n : ℕ), x.In 0 0 → n = 2 ∨ n = 3 ∨ n = 4 → (Libm.pow x (lit n)).In 0 0

theorem idealLibm64_pow : @Pow64Acc idealLibm64 := by
  refine @Pow64Acc.mk idealLibm64 ?_ ?_
  rotate_left
  · intro x n hx hn
    obtain ⟨v, nz, hv, rfl⟩ := FP.isFin_cases hx.1
    have hl : (lit (n:ℚ) : F64).In n n := by rcases hn with rfl | rfl | rfl <;> decide +kernel
    obtain ⟨w, mz, hw, e⟩ := FP.isFin_cases hl.1
    have hwn : w = n := by have := hl.val_eq; rw [e] at this; exact this
    rw [e]
    have hv0 : v = 0 := hx.val_eq
    subst hv0
    show (if (0:ℚ) ≤ 0 then FP.ofK ((((0:ℚ) : ℝ)) ^ (w : ℝ)) false else .nan : F64).In 0 0
    rw [if_pos le_rfl, hwn]
    have e2 : (((0:ℚ) : ℝ)) ^ (((n:ℚ)) : ℝ) = 0 := by
      have : (((n:ℚ)) : ℝ) = (n:ℝ) := by norm_num
      rw [this, Real.rpow_natCast, Rat.cast_zero, zero_pow (by omega)]
    rw [e2]
    exact FP.ofK_in' FP.rep_zero FP.rep_zero (by simp) (by simp)
  intro x n hx hn
  obtain ⟨v, nz, hv, rfl⟩ := FP.isFin_cases hx.1
  have hl : (lit (n:ℚ) : F64).In n n := by rcases hn with rfl | rfl | rfl <;> decide +kernel
  obtain ⟨w, mz, hw, e⟩ := FP.isFin_cases hl.1
  have hwn : w = n := by have := hl.val_eq; rw [e] at this; exact this
  rw [e]
  have hv0 : (0:ℚ) ≤ v := hx.2.1
  have hv8 : v ≤ 8 := hx.2.2
  have hv0' : (0:ℝ) ≤ v := by exact_mod_cast hv0
  have hv8' : (v:ℝ) ≤ 8 := by exact_mod_cast hv8
  show |((if 0 ≤ v then FP.ofK ((v : ℝ) ^ (w : ℝ)) false else .nan : F64)).val - v ^ n| ≤ v ^ n / 2 ^ 40 + 1 / 2 ^ 250
  rw [if_pos hv0, hwn]
  have e2 : (v:ℝ) ^ (((n:ℚ)) : ℝ) = (v:ℝ) ^ n := by
    have : (((n:ℚ)) : ℝ) = (n:ℝ) := by norm_num
    rw [this, Real.rpow_natCast]
  rw [e2]
  have h13 : (v:ℝ) ^ n ≤ ((2 ^ 13 : ℚ) : ℝ) := by
    have hn4 : n ≤ 4 := by omega
    calc (v:ℝ) ^ n ≤ 8 ^ n := pow_le_pow_left₀ hv0' hv8' n
      _ ≤ 8 ^ 4 := pow_le_pow_right₀ (by norm_num) hn4
      _ ≤ _ := by norm_num
  have hb := FP.ofK_in (f := binary64) (x := (v:ℝ) ^ n) (zs := false) FP.rep_zero (FP.rep64_two_pow (k := 13) (by norm_num))
    (by simpa using pow_nonneg hv0' n) h13
  rw [hb.2.1]
  have h2 := binary64.rnd_rel_err (K := ℝ) ((v:ℝ) ^ n)
  rw [abs_sub_comm, abs_of_nonneg (pow_nonneg hv0' n)] at h2
  have h3 : |((binary64.rnd ((v:ℝ) ^ n) : ℚ) : ℝ) - (v:ℝ) ^ n| ≤ (v:ℝ) ^ n / 2 ^ 40 + 1 / 2 ^ 250 := by
    refine h2.trans (add_le_add ?_ ?_)
    · have e : (v:ℝ) ^ n / 2 ^ 40 = (v:ℝ) ^ n * 2 ^ (-40 : ℤ) := by norm_num [div_eq_mul_inv]
      rw [e]
      exact mul_le_mul_of_nonneg_left (zpow_le_zpow_right₀ (by norm_num) (by decide)) (pow_nonneg hv0' n)
    · have e : (1:ℝ) / 2 ^ 250 = 2 ^ (-250 : ℤ) := by norm_num
      rw [e]
      exact zpow_le_zpow_right₀ (by norm_num) (by decide)
  rw [← Rat.cast_le (K := ℝ)]
  push_cast
  exact h3

end Verif
