import Verif.Float.IntConv
import Verif.Float.Order
import Verif.Lemmas.LinearBlocks

/-!
# Magnitude bounds for double precision
-/

namespace Verif
namespace FP

theorem rep64_two_pow {k : ℕ} (hk : k ≤ 1023) : binary64.Rep (2 ^ k) false := by
  refine ⟨?_, ?_, by simp⟩
  · have := binary64.grid_zpow (k := (k:ℤ)) (by have : binary64.emin = -1074 := rfl; omega)
    simpa using this
  · have e : (2:ℚ) ^ binary64.emaxp1 = 2 ^ 1024 := rfl
    rw [abs_of_pos (by positivity), e]
    exact pow_lt_pow_right₀ (by norm_num) (by omega)

/-- `x` is finite and `|x| ≤ 2^k`. -/
def Mag (k : ℕ) (x : F64) : Prop := x.In (-2 ^ k) (2 ^ k)

instance (k : ℕ) (x : F64) : Decidable (x.Mag k) := by unfold Mag; infer_instance

theorem Mag.fin {k : ℕ} {x : F64} (h : x.Mag k) : x.isFin = true := h.1

theorem Mag.abs {k : ℕ} {x : F64} (h : x.Mag k) : |x.val| ≤ 2 ^ k := abs_le.2 h.2

theorem mag_of_abs {k : ℕ} {x : F64} (hf : x.isFin = true) (h : |x.val| ≤ 2 ^ k) : x.Mag k := ⟨hf, abs_le.1 h⟩

theorem Mag.up {j : ℕ} {x : F64} (h : x.Mag j) (k : ℕ) (hk : j ≤ k := by omega) : x.Mag k := by
  have : (2:ℚ) ^ j ≤ 2 ^ k := pow_le_pow_right₀ (by norm_num) hk
  exact h.mono (by linarith) this

theorem Mag.neg {k : ℕ} {x : F64} (h : x.Mag k) : (-x).Mag k := by
  have := neg_in h; rwa [neg_neg] at this

theorem Mag.add {k : ℕ} {x y : F64} (hx : x.Mag k) (hy : y.Mag k) (hk : k ≤ 1022 := by omega) : (x + y).Mag (k + 1) := by
  refine add_in hx hy (Rep.neg (rep64_two_pow (by omega))) (rep64_two_pow (by omega)) ?_ ?_ <;> rw [pow_succ] <;> linarith

theorem Mag.sub {k : ℕ} {x y : F64} (hx : x.Mag k) (hy : y.Mag k) (hk : k ≤ 1022 := by omega) : (x - y).Mag (k + 1) := by
  refine sub_in hx hy (Rep.neg (rep64_two_pow (by omega))) (rep64_two_pow (by omega)) ?_ ?_ <;> rw [pow_succ] <;> linarith

theorem Mag.mul {j k : ℕ} {x y : F64} (hx : x.Mag j) (hy : y.Mag k) (hk : j + k ≤ 1023 := by omega) : (x * y).Mag (j + k) := by
  have hb : |x.val * y.val| ≤ 2 ^ (j + k) := by
    rw [abs_mul, pow_add]
    exact mul_le_mul hx.abs hy.abs (abs_nonneg _) (by positivity)
  rw [abs_le] at hb
  exact mul_in hx.1 hy.1 (Rep.neg (rep64_two_pow hk)) (rep64_two_pow hk) hb.1 hb.2

/-- A quotient by a number of magnitude at least one. -/
theorem Mag.div {j : ℕ} {x y : F64} (hx : x.Mag j) (hy : y.isFin = true) (h1 : 1 ≤ |y.val|) (hj : j ≤ 1023 := by omega) :
    (x / y).Mag j := by
  have h0 : y.val ≠ 0 := by intro h; rw [h] at h1; norm_num at h1
  have hb : |x.val / y.val| ≤ 2 ^ j := by
    rw [abs_div, div_le_iff₀ (by linarith)]
    have := hx.abs
    have : (0:ℚ) < 2 ^ j := by positivity
    nlinarith [abs_nonneg x.val]
  rw [abs_le] at hb
  exact div_in hx.1 hy h0 (Rep.neg (rep64_two_pow hj)) (rep64_two_pow hj) hb.1 hb.2

theorem Zero.mag {x : F64} (h : x.Zero) (k : ℕ) : x.Mag k := by
  have h2 : (0:ℚ) ≤ 2 ^ k := by positivity
  exact In.mono h (by linarith) h2

/-! ## Conversion float to double is exact -/

theorem rep64_of_rep32 {v : ℚ} (h : binary32.Rep v false) : binary64.Rep v false := by
  obtain ⟨⟨m, e, hm, he, hv⟩, h2, -⟩ := h
  refine ⟨⟨m, e, lt_trans hm (by decide), le_trans (by decide) he, hv⟩, lt_trans h2 ?_, by simp⟩
  show (2:ℚ) ^ (128:ℤ) < 2 ^ (1024:ℤ)
  exact zpow_lt_zpow_right₀ (by norm_num) (by norm_num)

theorem conv_up {x : F32} (hx : x.isFin = true) : (Conv.conv x : F64).In x.val x.val := by
  obtain ⟨v, nz, hv, rfl⟩ := isFin_cases hx
  show (ofRat v nz : F64).In v v
  exact ofRat_rep (rep64_of_rep32 (rep_val (.fin v nz hv)))

theorem conv_up_mag {x : F32} (hx : x.isFin = true) : (Conv.conv x : F64).Mag 128 := by
  have h := conv_up hx
  have h2 : |x.val| < 2 ^ (128:ℤ) := abs_val_lt x
  refine mag_of_abs h.1 ?_
  rw [h.val_eq]
  have e : (2:ℚ) ^ (128:ℤ) = 2 ^ 128 := by norm_cast
  rw [e] at h2
  exact h2.le

theorem conv_nan_iff {f g : Fmt} {x : FP f} : (Conv.conv x : FP g) = nan ↔ x = nan := by
  cases x with
  | nan => exact ⟨fun _ => rfl, fun _ => rfl⟩
  | inf b => exact ⟨fun h => (by cases h), fun h => (by cases h)⟩
  | fin v nz h =>
    refine ⟨fun h' => ?_, fun h' => (by cases h')⟩
    exfalso
    change (ofRat v nz : FP g) = nan at h'
    rcases ofRat_cases (f := g) v nz with h2 | h2
    · rw [h'] at h2; exact absurd h2.1 (by simp)
    · rw [h'] at h2; cases h2

end FP
end Verif

namespace Verif.FP

/-- `x` is finite and `0 ≤ x ≤ 2^k`. -/
def NN (k : ℕ) (x : F64) : Prop := x.In 0 (2 ^ k)

instance (k : ℕ) (x : F64) : Decidable (x.NN k) := by unfold NN; infer_instance

theorem NN.mag {k : ℕ} {x : F64} (h : x.NN k) : x.Mag k := by
  have : (0:ℚ) ≤ 2 ^ k := by positivity
  exact In.mono h (by linarith) le_rfl

theorem NN.up {j : ℕ} {x : F64} (h : x.NN j) (k : ℕ) (hk : j ≤ k := by omega) : x.NN k :=
  In.mono h le_rfl (pow_le_pow_right₀ (by norm_num) hk)

theorem NN.add {k : ℕ} {x y : F64} (hx : x.NN k) (hy : y.NN k) (hk : k ≤ 1022 := by omega) : (x + y).NN (k + 1) := by
  refine add_in hx hy rep_zero (rep64_two_pow (by omega)) ?_ ?_
  · linarith
  · rw [pow_succ]; linarith

theorem NN.mul {j k : ℕ} {x y : F64} (hx : x.NN j) (hy : y.NN k) (hk : j + k ≤ 1023 := by omega) : (x * y).NN (j + k) := by
  refine mul_in hx.1 hy.1 rep_zero (rep64_two_pow hk) (mul_nonneg hx.2.1 hy.2.1) ?_
  rw [pow_add]
  exact mul_le_mul hx.2.2 hy.2.2 hy.2.1 (by positivity)

theorem NN.div {j : ℕ} {x y : F64} (hx : x.NN j) (hy : y.isFin = true) (h1 : 1 ≤ y.val) (hj : j ≤ 1023 := by omega) :
    (x / y).NN j := by
  refine div_in hx.1 hy (by linarith) rep_zero (rep64_two_pow hj) (div_nonneg hx.2.1 (by linarith)) ?_
  rw [div_le_iff₀ (by linarith)]
  have : (0:ℚ) < 2 ^ j := by positivity
  nlinarith [hx.2.2]

/-- One plus a non-negative number. -/
theorem NN.one_add {k : ℕ} {x : F64} (hx : x.NN k) (hk : k ≤ 1022 := by omega) : (lit 1 + x).In 1 (2 ^ (k + 1)) := by
  refine add_in lit_one hx rep_one (rep64_two_pow (by omega)) (by linarith) ?_
  have : (1:ℚ) ≤ 2 ^ k := one_le_pow₀ (by norm_num)
  rw [pow_succ]; linarith

end Verif.FP
