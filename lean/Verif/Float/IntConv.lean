import Verif.Float.Convex

/-!
# Rounding to integers and conversion to integer types
-/

namespace Verif
namespace FP
variable {f : Fmt}

theorem mapInt_in {x : FP f} {g : ℚ → ℤ} (hx : x.isFin = true) (hp : (f.prec : ℤ) < f.emaxp1)
    (hg : ∀ n : ℤ, g n = n) (hb : ∀ q, |q| ≤ 2 ^ (f.prec - 1) → |g q| ≤ 2 ^ f.prec) :
    (mapInt g x).In (g x.val) (g x.val) := by
  obtain ⟨v, nz, hv, rfl⟩ := isFin_cases hx
  have hpp := f.prec_pos
  refine ofRat_rep ?_
  rcases le_total |v| (2 ^ (f.prec - 1)) with h | h
  · have h1 := hb v h
    refine ⟨f.grid_int h1, ?_, by simp⟩
    have h2 : |((g v : ℤ) : ℚ)| ≤ 2 ^ (f.prec : ℤ) := by rw [zpow_natCast]; exact_mod_cast h1
    exact h2.trans_lt (zpow_lt_zpow_right₀ (by norm_num) hp)
  · obtain ⟨n, hn⟩ := hv.1.mult (k := 0) (by
      rw [zero_add]
      refine le_trans (le_of_eq ?_) h
      rw [← zpow_natCast]; congr 1; omega)
    rw [zpow_zero, mul_one] at hn
    rw [hn, hg n, ← hn]
    exact ⟨hv.1, hv.2.1, by simp⟩

theorem floor_in {x : FP f} (hx : x.isFin = true) (hp : (f.prec : ℤ) < f.emaxp1) :
    (Arith.floor x).In ⌊x.val⌋ ⌊x.val⌋ := by
  refine mapInt_in (g := fun q => ⌊q⌋) hx hp (fun n => Int.floor_intCast n) fun q hq => ?_
  have h2 : (2:ℤ) ^ f.prec = 2 * 2 ^ (f.prec - 1) := by
    rw [← pow_succ']; congr 1; have := f.prec_pos; omega
  have h3 : (1:ℤ) ≤ 2 ^ (f.prec - 1) := one_le_pow₀ (by norm_num)
  rw [abs_le] at hq ⊢
  have h4 : (-2 ^ (f.prec - 1) : ℤ) ≤ ⌊q⌋ := Int.le_floor.mpr (by push_cast; exact hq.1)
  have h5 : ⌊q⌋ ≤ (2 ^ (f.prec - 1) : ℤ) := by
    have : ((⌊q⌋ : ℤ) : ℚ) ≤ ((2 ^ (f.prec - 1) : ℤ) : ℚ) := by push_cast; exact (Int.floor_le q).trans hq.2
    exact_mod_cast this
  constructor <;> omega

theorem ceil_in {x : FP f} (hx : x.isFin = true) (hp : (f.prec : ℤ) < f.emaxp1) :
    (Arith.ceil x).In ⌈x.val⌉ ⌈x.val⌉ := by
  refine mapInt_in (g := fun q => ⌈q⌉) hx hp (fun n => Int.ceil_intCast n) fun q hq => ?_
  have h2 : (2:ℤ) ^ f.prec = 2 * 2 ^ (f.prec - 1) := by
    rw [← pow_succ']; congr 1; have := f.prec_pos; omega
  have h3 : (1:ℤ) ≤ 2 ^ (f.prec - 1) := one_le_pow₀ (by norm_num)
  rw [abs_le] at hq ⊢
  have h4 : ⌈q⌉ ≤ (2 ^ (f.prec - 1) : ℤ) := Int.ceil_le.mpr (by push_cast; exact hq.2)
  have h5 : (-2 ^ (f.prec - 1) : ℤ) ≤ ⌈q⌉ := by
    have : ((-2 ^ (f.prec - 1) : ℤ) : ℚ) ≤ ((⌈q⌉ : ℤ) : ℚ) := by push_cast; exact hq.1.trans (Int.le_ceil q)
    exact_mod_cast this
  constructor <;> omega

theorem roundQ_int (n : ℤ) : roundQ n = n := by
  unfold roundQ
  split_ifs with h
  · rw [Int.floor_eq_iff]; constructor <;> linarith
  · rw [Int.ceil_eq_iff]; constructor <;> linarith

/-- `roundQ` is within one half. -/
theorem roundQ_err (q : ℚ) : |(roundQ q : ℚ) - q| ≤ 1 / 2 := by
  unfold roundQ
  split_ifs with h
  · have h1 := Int.floor_le (q + 1 / 2); have h2 := Int.lt_floor_add_one (q + 1 / 2)
    rw [abs_le]; constructor <;> linarith
  · have h1 := Int.le_ceil (q - 1 / 2); have h2 := Int.ceil_lt_add_one (q - 1 / 2)
    rw [abs_le]; constructor <;> linarith

theorem round_in {x : FP f} (hx : x.isFin = true) (hp : (f.prec : ℤ) < f.emaxp1) :
    (Arith.round x).In (roundQ x.val) (roundQ x.val) := by
  refine mapInt_in (g := roundQ) hx hp roundQ_int fun q hq => ?_
  have h2 : (2:ℤ) ^ f.prec = 2 * 2 ^ (f.prec - 1) := by
    rw [← pow_succ']; congr 1; have := f.prec_pos; omega
  have h3 : (1:ℚ) ≤ 2 ^ (f.prec - 1) := one_le_pow₀ (by norm_num)
  have h4 := abs_le.mp (roundQ_err q)
  have h5 := abs_le.mp hq
  have : |(roundQ q : ℚ)| ≤ ((2 ^ f.prec : ℤ) : ℚ) := by
    rw [h2]; push_cast
    rw [abs_le]; constructor <;> linarith [h4.1, h4.2, h5.1, h5.2]
  exact_mod_cast this

theorem truncQ_int (n : ℤ) : truncQ n = n := by
  unfold truncQ; split_ifs <;> simp

theorem truncQ_nonneg {q : ℚ} (h : 0 ≤ q) : truncQ q = ⌊q⌋ := if_pos h

/-- `fmod` by a positive divisor stays within the divisor. -/
theorem fmod_in {x y : FP f} (hx : x.isFin = true) (hy : y.isFin = true) (h0 : 0 < y.val) :
    (Arith.fmod x y).In (-y.val) y.val := by
  obtain ⟨v, nz, hv, rfl⟩ := isFin_cases hx
  obtain ⟨w, mz, hw, rfl⟩ := isFin_cases hy
  have h0' : 0 < w := h0
  show (if w = 0 then nan else ofRat (v - w * truncQ (v / w)) _ : FP f).In (-w) w
  rw [if_neg h0'.ne']
  have hd : v = v / w * w := by field_simp
  have hb : -w ≤ v - w * truncQ (v / w) ∧ v - w * truncQ (v / w) ≤ w := by
    simp only [truncQ]
    split_ifs with h
    · have h1 := Int.floor_le (v / w)
      have h2 := Int.lt_floor_add_one (v / w)
      constructor <;> nlinarith
    · have h1 := Int.le_ceil (v / w)
      have h2 := Int.ceil_lt_add_one (v / w)
      constructor <;> nlinarith
  exact ofRat_in (Rep.neg (rep_val (.fin w mz hw))) (rep_val (.fin w mz hw)) hb.1 hb.2

theorem toInt_fin {x : FP f} (hx : x.isFin = true) : Arith.toInt? x = some (truncQ x.val) := by
  obtain ⟨v, nz, hv, rfl⟩ := isFin_cases hx; rfl

/-- Conversion of a finite number to `int` in range. -/
theorem toI32_fin {x : FP f} (hx : x.isFin = true) (h1 : -2 ^ 31 ≤ truncQ x.val) (h2 : truncQ x.val < 2 ^ 31) :
    Arith.toI32? x = some (truncQ x.val) := by
  simp only [Arith.toI32?, toInt_fin hx]
  rw [if_pos ⟨h1, h2⟩]

/-- Conversion of a finite non-negative number to `size_t`. -/
theorem toSize_fin {x : FP f} (hx : x.isFin = true) (h1 : 0 ≤ x.val) (h2 : x.val < 2 ^ 64) :
    Arith.toSize? x = some ⌊x.val⌋.toNat := by
  have h3 : ⌊x.val⌋ < 2 ^ 64 := by rw [Int.floor_lt]; push_cast; exact h2
  simp only [Arith.toSize?, toInt_fin hx, truncQ_nonneg h1]
  rw [if_pos ⟨Int.floor_nonneg.mpr h1, h3⟩]

end FP

theorem prec32 : (binary32.prec : ℤ) < binary32.emaxp1 := by decide
theorem prec64 : (binary64.prec : ℤ) < binary64.emaxp1 := by decide

end Verif
