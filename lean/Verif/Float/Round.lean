import Mathlib.Data.Int.Log
import Mathlib.Algebra.Order.Archimedean.Basic
import Mathlib.Data.Rat.Floor
import Mathlib.Data.Rat.Cast.Order
import Mathlib.Tactic.Linarith
import Mathlib.Tactic.Ring
import Mathlib.Tactic.Positivity
import Mathlib.Algebra.Order.Field.Power
import Mathlib.Tactic.NormNum
import Mathlib.Tactic.FieldSimp

/-!
# IEEE-754 rounding to nearest, ties to even

`Fmt` describes a binary interchange format.  `Fmt.rnd` rounds a number of any ordered field with floor (used at `ℚ`
for computation and at `ℝ` for libm specifications) to the nearest number of the form `m * 2^e` with
`|m| < 2^prec` and `e ≥ emin`, ties to even.  The exponent is not bounded above; overflow
is handled in `Verif/Float/FP.lean`.
-/

namespace Verif

/-- A binary floating-point format: precision, exponent of the smallest subnormal, and the exponent
`emaxp1` such that the finite numbers are those of magnitude below `2^emaxp1`. -/
structure Fmt where
  prec : ℕ
  emin : ℤ
  emaxp1 : ℤ
  prec_pos : 2 ≤ prec
  emin_neg : emin ≤ -(prec : ℤ)
  emax_big : (prec : ℤ) ≤ emaxp1
deriving DecidableEq

/-- IEEE-754 binary32 (`float`). -/
def binary32 : Fmt := ⟨24, -149, 128, by decide, by decide, by decide⟩
/-- IEEE-754 binary64 (`double`). -/
def binary64 : Fmt := ⟨53, -1074, 1024, by decide, by decide, by decide⟩

section
variable {K : Type*} [Field K] [LinearOrder K] [IsStrictOrderedRing K] [FloorRing K]

/-- Nearest integer, ties to even. -/
def roundEven (q : K) : ℤ :=
  let f := ⌊q⌋
  if q - f < 1 / 2 then f else if 1 / 2 < q - f then f + 1 else if f % 2 = 0 then f else f + 1

/-- Exponent of the unit in the last place used when rounding `x`. -/
def Fmt.ulpExp (f : Fmt) (x : K) : ℤ := max (Int.log 2 |x| - (f.prec - 1)) f.emin

/-- Round to nearest, ties to even (unbounded exponent range above). -/
def Fmt.rnd (f : Fmt) (x : K) : ℚ :=
  let e := f.ulpExp x
  (roundEven (x / (2 : K) ^ e) : ℤ) * (2 : ℚ) ^ e

/-- `v` is a multiple of some power of two `2^e`, `e ≥ emin`, with a significand of at most `prec` bits. -/
def Fmt.Grid (f : Fmt) (v : ℚ) : Prop :=
  ∃ m e : ℤ, |m| < 2 ^ f.prec ∧ f.emin ≤ e ∧ v = m * (2 : ℚ) ^ e

theorem roundEven_nearest (q : K) (n : ℤ) : |q - roundEven q| ≤ |q - n| := by
  have h1 := Int.floor_le q
  have h2 := Int.lt_floor_add_one q
  have key : ∀ n : ℤ, n ≤ ⌊q⌋ ∨ ⌊q⌋ + 1 ≤ n := fun n => by omega
  have hn : ((n : K) ≤ ⌊q⌋) ∨ ((⌊q⌋ : K) + 1 ≤ n) := by
    rcases key n with h | h
    · left; exact_mod_cast h
    · right; exact_mod_cast h
  simp only [roundEven]
  split_ifs with ha hb hc
  · rw [abs_of_nonneg (by linarith : (0:K) ≤ q - ⌊q⌋)]
    rcases hn with h | h
    · rw [abs_of_nonneg (by linarith)]; linarith
    · rw [abs_of_nonpos (by linarith)]; linarith
  · push_cast
    rw [abs_of_nonpos (by linarith : q - ((⌊q⌋:K) + 1) ≤ 0)]
    rcases hn with h | h
    · rw [abs_of_nonneg (by linarith)]; linarith
    · rw [abs_of_nonpos (by linarith)]; linarith
  · rw [abs_of_nonneg (by linarith : (0:K) ≤ q - ⌊q⌋)]
    rcases hn with h | h
    · rw [abs_of_nonneg (by linarith)]; linarith
    · rw [abs_of_nonpos (by linarith)]; linarith
  · push_cast
    rw [abs_of_nonpos (by linarith : q - ((⌊q⌋:K) + 1) ≤ 0)]
    rcases hn with h | h
    · rw [abs_of_nonneg (by linarith)]; linarith
    · rw [abs_of_nonpos (by linarith)]; linarith

theorem roundEven_err (q : K) : |q - roundEven q| ≤ 1 / 2 := by
  have h1 := Int.floor_le q
  have h2 := Int.lt_floor_add_one q
  simp only [roundEven]
  split_ifs with ha hb hc
  · rw [abs_of_nonneg] <;> linarith
  · push_cast; rw [abs_of_nonpos] <;> linarith
  · rw [abs_of_nonneg] <;> linarith
  · push_cast; rw [abs_of_nonpos] <;> linarith

variable (f : Fmt)

omit [IsStrictOrderedRing K] in
theorem Fmt.emin_le_ulpExp (x : K) : f.emin ≤ f.ulpExp x := le_max_right _ _

theorem zpow_log_le_abs {x : K} (hx : x ≠ 0) : (2 : K) ^ Int.log 2 |x| ≤ |x| := by
  have := Int.zpow_log_le_self (b := 2) (r := |x|) (by norm_num) (abs_pos.mpr hx)
  exact_mod_cast this

theorem abs_lt_zpow_log (x : K) : |x| < (2 : K) ^ (Int.log 2 |x| + 1) := by
  have := Int.lt_zpow_succ_log_self (b := 2) (by norm_num) |x|
  exact_mod_cast this

/-- Nearest: no grid point is closer to `x` than `rnd x`. -/
theorem Fmt.rnd_nearest (x : K) {g : ℚ} (hg : f.Grid g) : |x - (f.rnd x : K)| ≤ |x - (g : K)| := by
  obtain ⟨m, e', hm, he', rfl⟩ := hg
  set e := f.ulpExp x with he
  have h2e : (0:K) < 2 ^ e := by positivity
  -- distance to an integer multiple of `2^e`
  have mult : ∀ n : ℤ, |x - (f.rnd x : K)| ≤ |x - n * (2:K) ^ e| := by
    intro n
    have := roundEven_nearest (x / (2:K) ^ e) n
    have h := mul_le_mul_of_nonneg_right this h2e.le
    rw [← abs_of_pos h2e, ← abs_mul, ← abs_mul, abs_of_pos h2e, sub_mul, sub_mul,
      div_mul_cancel₀ _ h2e.ne'] at h
    simpa [Fmt.rnd, ← he] using h
  by_cases hx0 : |x - (f.rnd x : K)| = 0
  · rw [hx0]; exact abs_nonneg _
  by_cases hle : e ≤ e'
  · have := mult (m * 2 ^ (e' - e).toNat)
    have h3 : (((m * 2 ^ (e' - e).toNat : ℤ) : K)) * (2:K) ^ e = ((m * (2:ℚ) ^ e' : ℚ) : K) := by
      push_cast
      rw [mul_assoc]
      congr 1
      rw [← zpow_natCast, ← zpow_add₀ (by norm_num)]
      congr 1
      omega
    rwa [h3] at this
  · push Not at hle
    have hx : x ≠ 0 := by
      rintro rfl
      have := mult 0
      simp only [Int.cast_zero, zero_mul, sub_zero, abs_zero] at this
      exact hx0 (le_antisymm (by simpa using this) (abs_nonneg _))
    have hek : e = Int.log 2 |x| - (f.prec - 1) := by
      rw [he]; unfold ulpExp; apply max_eq_left
      by_contra hcon
      push Not at hcon
      have : e = f.emin := by rw [he]; exact max_eq_right hcon.le
      omega
    set k := Int.log 2 |x| with hk
    have hgk : |((m * (2:ℚ) ^ e' : ℚ) : K)| ≤ 2 ^ k := by
      push_cast
      rw [abs_mul, abs_of_pos (by positivity : (0:K) < 2 ^ e')]
      have h1 : |(m:K)| ≤ 2 ^ (f.prec : ℤ) := by
        rw [zpow_natCast]; exact_mod_cast hm.le
      calc |(m:K)| * 2 ^ e' ≤ 2 ^ (f.prec : ℤ) * 2 ^ (e - 1) :=
            mul_le_mul h1 (zpow_le_zpow_right₀ (by norm_num) (by omega)) (by positivity) (by positivity)
        _ = 2 ^ k := by rw [← zpow_add₀ (by norm_num)]; congr 1; omega
    have hxk : (2:K) ^ k ≤ |x| := zpow_log_le_abs hx
    have hpk : ((2 ^ (f.prec - 1) : ℤ) : K) * (2:K) ^ e = 2 ^ k := by
      push_cast
      rw [← zpow_natCast, ← zpow_add₀ (by norm_num)]
      congr 1
      have := f.prec_pos
      omega
    rcases lt_or_gt_of_ne hx with h0 | h0
    · have := mult (-(2 ^ (f.prec - 1)))
      rw [Int.cast_neg, neg_mul, hpk] at this
      refine this.trans ?_
      rw [abs_of_neg h0] at hxk
      have := abs_le.mp hgk
      rw [abs_of_nonpos (by linarith), abs_of_nonpos (by linarith)]
      linarith
    · have := mult (2 ^ (f.prec - 1))
      rw [hpk] at this
      refine this.trans ?_
      rw [abs_of_pos h0] at hxk
      have := abs_le.mp hgk
      rw [abs_of_nonneg (by linarith), abs_of_nonneg (by linarith)]
      linarith

/-- The result of rounding is a grid point. -/
theorem Fmt.grid_rnd (x : K) : f.Grid (f.rnd x) := by
  set e := f.ulpExp x with he
  have h2e : (0:K) < 2 ^ e := by positivity
  have hxe : |x| < 2 ^ (e + f.prec) := by
    refine (abs_lt_zpow_log x).trans_le (zpow_le_zpow_right₀ (by norm_num) ?_)
    have : Int.log 2 |x| - (f.prec - 1) ≤ e := le_max_left _ _
    omega
  have hq : |x / 2 ^ e| < 2 ^ f.prec := by
    rw [abs_div, abs_of_pos h2e, div_lt_iff₀ h2e]
    rwa [zpow_add₀ (by norm_num), mul_comm, zpow_natCast] at hxe
  have hr : |roundEven (x / (2:K) ^ e)| ≤ 2 ^ f.prec := by
    have h1 := roundEven_err (x / (2:K) ^ e)
    have h2 := abs_lt.mp hq
    have h3 := abs_le.mp h1
    rw [abs_le]
    have h4 : ((roundEven (x / (2:K) ^ e) : ℤ) : K) < ((2 ^ f.prec + 1 : ℤ) : K) := by push_cast; linarith
    have h5 : ((-(2 ^ f.prec + 1) : ℤ) : K) < ((roundEven (x / (2:K) ^ e) : ℤ) : K) := by push_cast; linarith
    have h4' := Int.cast_lt.mp h4
    have h5' := Int.cast_lt.mp h5
    constructor <;> omega
  rcases hr.lt_or_eq with h | h
  · exact ⟨_, e, h, f.emin_le_ulpExp x, rfl⟩
  · -- the significand overflowed to exactly `2^prec`
    have hp := f.prec_pos
    have hpow : (2:ℤ) ^ f.prec = 2 * 2 ^ (f.prec - 1) := by
      rw [← pow_succ']; congr 1; omega
    have h2p : (0:ℤ) < 2 ^ (f.prec - 1) := by positivity
    rcases abs_eq (by positivity) |>.mp h with h | h
    · refine ⟨2 ^ (f.prec - 1), e + 1, ?_, ?_, ?_⟩
      · rw [abs_of_pos h2p]; omega
      · have := f.emin_le_ulpExp x; omega
      · simp only [Fmt.rnd, ← he, h, hpow, zpow_add_one₀ (two_ne_zero' ℚ)]
        push_cast; ring
    · refine ⟨-2 ^ (f.prec - 1), e + 1, ?_, ?_, ?_⟩
      · rw [abs_neg, abs_of_pos h2p]; omega
      · have := f.emin_le_ulpExp x; omega
      · simp only [Fmt.rnd, ← he, h, hpow, zpow_add_one₀ (two_ne_zero' ℚ)]
        push_cast; ring

/-- Rounding fixes grid points. -/
theorem Fmt.rnd_grid {v : ℚ} (h : f.Grid v) : f.rnd (v : K) = v := by
  have := f.rnd_nearest (v : K) h
  rw [sub_self, abs_zero] at this
  have h0 := abs_eq_zero.mp (le_antisymm this (abs_nonneg _))
  have : ((f.rnd (v:K) : ℚ) : K) = (v : K) := by linarith [sub_eq_zero.mp h0]
  exact_mod_cast this

/-- Rounding is monotone. -/
theorem Fmt.rnd_mono {x y : K} (h : x ≤ y) : f.rnd x ≤ f.rnd y := by
  rcases h.eq_or_lt with rfl | hlt
  · exact le_rfl
  by_contra hcon
  push Not at hcon
  have hc : (f.rnd y : K) < (f.rnd x : K) := by exact_mod_cast hcon
  have h1 := f.rnd_nearest x (f.grid_rnd y)
  have h2 := f.rnd_nearest y (f.grid_rnd x)
  have h3 : ((f.rnd x : K) + f.rnd y) / 2 ≤ x := by
    by_contra hx
    push Not at hx
    rw [abs_of_nonpos (by linarith)] at h1
    rcases abs_cases (x - (f.rnd y : K)) with ⟨ha, _⟩ | ⟨ha, _⟩ <;> rw [ha] at h1 <;> linarith
  have h4 : y ≤ ((f.rnd x : K) + f.rnd y) / 2 := by
    by_contra hx
    push Not at hx
    rw [abs_of_nonneg (by linarith)] at h2
    rcases abs_cases (y - (f.rnd x : K)) with ⟨ha, _⟩ | ⟨ha, _⟩ <;> rw [ha] at h2 <;> linarith
  linarith

theorem Fmt.rnd_le_of_le {x : K} {b : ℚ} (hb : f.Grid b) (h : x ≤ (b : K)) : f.rnd x ≤ b := by
  have := f.rnd_mono h
  rwa [f.rnd_grid hb] at this

theorem Fmt.le_rnd_of_le {x : K} {a : ℚ} (ha : f.Grid a) (h : (a : K) ≤ x) : a ≤ f.rnd x := by
  have := f.rnd_mono h
  rwa [f.rnd_grid ha] at this

/-- Rounding error is at most half a unit in the last place. -/
theorem Fmt.rnd_err (x : K) : |x - (f.rnd x : K)| ≤ 2 ^ (f.ulpExp x - 1) := by
  set e := f.ulpExp x with he
  have h2e : (0:K) < 2 ^ e := by positivity
  have h := mul_le_mul_of_nonneg_right (roundEven_err (x / (2:K) ^ e)) h2e.le
  rw [← abs_of_pos h2e, ← abs_mul, abs_of_pos h2e, sub_mul, div_mul_cancel₀ _ h2e.ne'] at h
  have h2 : (1 / 2 : K) * 2 ^ e = 2 ^ (e - 1) := by
    rw [zpow_sub_one₀ (by norm_num)]; ring
  rw [h2] at h
  simpa [Fmt.rnd, ← he] using h

theorem Fmt.rnd_zero : f.rnd (0 : K) = 0 := by
  simp [Fmt.rnd, roundEven]

/-- Absolute error bound for numbers below `2^k`. -/
theorem Fmt.rnd_err_of_lt {x : K} {k : ℤ} (hk : |x| < 2 ^ k) (he : f.emin ≤ k - f.prec) :
    |x - (f.rnd x : K)| ≤ 2 ^ (k - f.prec - 1) := by
  by_cases hx : x = 0
  · subst hx; simp only [f.rnd_zero, Rat.cast_zero, sub_zero, abs_zero]; positivity
  refine (f.rnd_err x).trans (zpow_le_zpow_right₀ (by norm_num) ?_)
  have h1 : Int.log 2 |x| < k := by
    have := Int.lt_zpow_iff_log_lt (R := K) (b := 2) (by norm_num) (x := k) (r := |x|) (abs_pos.mpr hx)
    exact this.mp (by exact_mod_cast hk)
  have h2 : f.ulpExp x ≤ k - f.prec := max_le (by omega) he
  omega

/-- Relative error bound plus the absolute error of the subnormal range. -/
theorem Fmt.rnd_rel_err (x : K) :
    |x - (f.rnd x : K)| ≤ |x| * 2 ^ (-(f.prec : ℤ)) + 2 ^ (f.emin - 1) := by
  by_cases hx : x = 0
  · subst hx; simp only [f.rnd_zero, Rat.cast_zero, sub_zero, abs_zero, zero_mul, zero_add]; positivity
  refine (f.rnd_err x).trans ?_
  have h2 := zpow_log_le_abs hx
  rcases max_choice (Int.log 2 |x| - (f.prec - 1)) f.emin with h | h
  · have h3 : (2:K) ^ (f.ulpExp x - 1) = 2 ^ Int.log 2 |x| * 2 ^ (-(f.prec : ℤ)) := by
      rw [← zpow_add₀ (by norm_num)]; congr 1; unfold Fmt.ulpExp; omega
    rw [h3]
    have h4 : (0:K) < 2 ^ (-(f.prec : ℤ)) := by positivity
    have h5 : (0:K) < 2 ^ (f.emin - 1) := by positivity
    nlinarith [mul_le_mul_of_nonneg_right h2 h4.le]
  · unfold Fmt.ulpExp
    rw [h]
    have : (0:K) ≤ |x| * 2 ^ (-(f.prec : ℤ)) := by positivity
    linarith

/-- Relative error bound for numbers of normal magnitude. -/
theorem Fmt.rnd_rel_err_normal {x : K} (hx : (2:K) ^ (f.emin + f.prec - 1) ≤ |x|) :
    |x - (f.rnd x : K)| ≤ |x| * 2 ^ (-(f.prec : ℤ)) := by
  have hx0 : 0 < |x| := lt_of_lt_of_le (by positivity) hx
  refine (f.rnd_err x).trans ?_
  have h2 := zpow_log_le_abs (abs_pos.mp hx0)
  have h1 : f.emin + f.prec - 1 ≤ Int.log 2 |x| := by
    have := Int.zpow_le_iff_le_log (R := K) (b := 2) (by norm_num) (x := f.emin + f.prec - 1) hx0
    exact this.mp (by exact_mod_cast hx)
  have h3 : (2:K) ^ (f.ulpExp x - 1) = 2 ^ Int.log 2 |x| * 2 ^ (-(f.prec : ℤ)) := by
    rw [← zpow_add₀ (by norm_num)]; congr 1; unfold Fmt.ulpExp; omega
  rw [h3]
  exact mul_le_mul_of_nonneg_right h2 (by positivity)

end

section Grid
variable (f : Fmt)

theorem Fmt.Grid.neg {f : Fmt} {v : ℚ} (h : f.Grid v) : f.Grid (-v) := by
  obtain ⟨m, e, hm, he, rfl⟩ := h
  exact ⟨-m, e, by rwa [abs_neg], he, by push_cast; ring⟩

theorem Fmt.grid_zero : f.Grid 0 :=
  ⟨0, f.emin, by simp, le_rfl, by simp⟩

theorem Fmt.grid_neg_iff {v : ℚ} : f.Grid (-v) ↔ f.Grid v :=
  ⟨fun h => by simpa using h.neg, Fmt.Grid.neg⟩

/-- Small integers are grid points. -/
theorem Fmt.grid_int {n : ℤ} (h : |n| ≤ 2 ^ f.prec) : f.Grid n := by
  have h1 := f.emin_neg
  rcases h.lt_or_eq with h | h
  · exact ⟨n, 0, h, by omega, by simp⟩
  · have hp := f.prec_pos
    have hpow : (2:ℤ) ^ f.prec = 2 * 2 ^ (f.prec - 1) := by
      rw [← pow_succ']; congr 1; omega
    have h2p : (0:ℤ) < 2 ^ (f.prec - 1) := by positivity
    rcases abs_eq (by positivity) |>.mp h with h | h
    · refine ⟨2 ^ (f.prec - 1), 1, by rw [abs_of_pos h2p]; omega, by omega, ?_⟩
      rw [h, hpow]; push_cast; ring
    · refine ⟨-2 ^ (f.prec - 1), 1, by rw [abs_neg, abs_of_pos h2p]; omega, by omega, ?_⟩
      rw [h, hpow]; push_cast; ring

theorem Fmt.grid_nat {n : ℕ} (h : n ≤ 2 ^ f.prec) : f.Grid n := by
  have := f.grid_int (n := n) (by rw [abs_of_nonneg (by positivity)]; exact_mod_cast h)
  simpa using this

theorem Fmt.grid_one : f.Grid 1 := by
  simpa using f.grid_nat (n := 1) Nat.one_le_two_pow

theorem Fmt.grid_zpow {k : ℤ} (h : f.emin ≤ k) : f.Grid (2 ^ k) :=
  ⟨1, k, by
    rw [abs_one]; exact_mod_cast Nat.one_lt_two_pow (by have := f.prec_pos; omega), h, by simp⟩

/-- Every number is decided to be on the grid by rounding it. -/
theorem Fmt.grid_iff_rnd {v : ℚ} : f.Grid v ↔ f.rnd v = v :=
  ⟨fun h => by simpa using f.rnd_grid (K := ℚ) h, fun h => h ▸ f.grid_rnd v⟩

instance (v : ℚ) : Decidable (f.Grid v) := decidable_of_iff _ f.grid_iff_rnd.symm

end Grid

section
variable {K : Type*} [Field K] [LinearOrder K] [IsStrictOrderedRing K] [FloorRing K] (f : Fmt)

/-- Anything up to half a unit above a power of two rounds to at most that power of two (ties to even). -/
theorem Fmt.rnd_le_one {x : K} (h : x ≤ 1 + 2 ^ (-(f.prec : ℤ))) : f.rnd x ≤ 1 := by
  by_cases h1 : x ≤ 1
  · exact f.rnd_le_of_le f.grid_one (by simpa using h1)
  push Not at h1
  have hp := f.prec_pos
  have he := f.emin_neg
  have hmono := f.rnd_mono h
  refine hmono.trans ?_
  have hlog : Int.log 2 |(1 + 2 ^ (-(f.prec : ℤ)) : K)| = 0 := by
    have hpos : (0:K) < 2 ^ (-(f.prec : ℤ)) := by positivity
    have hlt : (2:K) ^ (-(f.prec : ℤ)) < 1 := zpow_lt_one_of_neg₀ (by norm_num) (by omega)
    rw [abs_of_pos (by linarith)]
    apply le_antisymm
    · have := Int.lt_zpow_iff_log_lt (R := K) (b := 2) (by norm_num) (x := 1)
        (r := 1 + 2 ^ (-(f.prec : ℤ))) (by linarith)
      have h2 := this.mp (by
        have h3 : (((2:ℕ):K)) ^ (1:ℤ) = 2 := by norm_num
        rw [h3]; linarith)
      omega
    · have := Int.zpow_le_iff_le_log (R := K) (b := 2) (by norm_num) (x := 0)
        (r := 1 + 2 ^ (-(f.prec : ℤ))) (by linarith)
      exact this.mp (by norm_num)
  have hulp : f.ulpExp (1 + 2 ^ (-(f.prec : ℤ)) : K) = -(f.prec - 1 : ℤ) := by
    unfold Fmt.ulpExp; rw [hlog, max_eq_left (by omega)]; omega
  have hq : (1 + 2 ^ (-(f.prec : ℤ)) : K) / 2 ^ (-(f.prec - 1 : ℤ)) = ((2 ^ (f.prec - 1) : ℤ) : K) + 1 / 2 := by
    rw [div_eq_mul_inv, ← zpow_neg, add_mul, one_mul, ← zpow_add₀ (by norm_num)]
    push_cast
    rw [← zpow_natCast]
    congr 1
    · congr 1; omega
    · rw [show (-(f.prec : ℤ) + - -(↑f.prec - 1)) = -1 by omega]; norm_num
  have hfl : ⌊((2 ^ (f.prec - 1) : ℤ) : K) + 1 / 2⌋ = 2 ^ (f.prec - 1) := by
    rw [Int.floor_intCast_add]
    have : ⌊(1 / 2 : K)⌋ = 0 := by
      rw [Int.floor_eq_iff]; norm_num
    omega
  have hev : (2 ^ (f.prec - 1) : ℤ) % 2 = 0 := by
    obtain ⟨k, hk⟩ : ∃ k, f.prec - 1 = k + 1 := ⟨f.prec - 2, by omega⟩
    rw [hk, pow_succ]; omega
  have : f.rnd (1 + 2 ^ (-(f.prec : ℤ)) : K) = 1 := by
    simp only [Fmt.rnd, hulp, hq, roundEven, hfl, add_sub_cancel_left, lt_irrefl, if_false, hev, if_true]
    push_cast
    rw [← zpow_natCast, ← zpow_add₀ (by norm_num)]
    rw [show ((f.prec - 1 : ℕ) : ℤ) + -(↑f.prec - 1) = 0 by omega, zpow_zero]
  rw [this]

end

end Verif

namespace Verif

/-- A grid number of magnitude at least `2^(k+prec-1)` is a multiple of `2^k`. -/
theorem Fmt.Grid.mult {f : Fmt} {v : ℚ} (h : f.Grid v) {k : ℤ} (hk : (2:ℚ) ^ (k + f.prec - 1) ≤ |v|) :
    ∃ n : ℤ, v = n * (2:ℚ) ^ k := by
  obtain ⟨m, e, hm, he, rfl⟩ := h
  have h1 : |(m * (2:ℚ) ^ e)| < 2 ^ ((f.prec : ℤ) + e) := by
    rw [abs_mul, abs_of_pos (by positivity : (0:ℚ) < 2 ^ e), zpow_add₀ (by norm_num), zpow_natCast]
    have : |(m:ℚ)| < 2 ^ f.prec := by exact_mod_cast hm
    exact mul_lt_mul_of_pos_right this (by positivity)
  have h2 := (zpow_lt_zpow_iff_right₀ (by norm_num : (1:ℚ) < 2)).mp (hk.trans_lt h1)
  have hke : k ≤ e := by omega
  refine ⟨m * 2 ^ (e - k).toNat, ?_⟩
  push_cast
  rw [mul_assoc, ← zpow_natCast, ← zpow_add₀ (by norm_num)]
  congr 2
  omega

/-- Multiples of `2^k` of magnitude at most `2^(k+prec)` are grid numbers. -/
theorem Fmt.grid_of_mult (f : Fmt) {n k : ℤ} (hk : f.emin ≤ k) (hn : |n| ≤ 2 ^ f.prec) :
    f.Grid (n * (2:ℚ) ^ k) := by
  rcases hn.lt_or_eq with h | h
  · exact ⟨n, k, h, hk, rfl⟩
  · have hp := f.prec_pos
    have hpow : (2:ℤ) ^ f.prec = 2 * 2 ^ (f.prec - 1) := by rw [← pow_succ']; congr 1; omega
    have h2p : (0:ℤ) < 2 ^ (f.prec - 1) := by positivity
    rcases abs_eq (by positivity) |>.mp h with h | h
    · refine ⟨2 ^ (f.prec - 1), k + 1, by rw [abs_of_pos h2p]; omega, by omega, ?_⟩
      rw [h, hpow, zpow_add_one₀ (two_ne_zero' ℚ)]; push_cast; ring
    · refine ⟨-2 ^ (f.prec - 1), k + 1, by rw [abs_neg, abs_of_pos h2p]; omega, by omega, ?_⟩
      rw [h, hpow, zpow_add_one₀ (two_ne_zero' ℚ)]; push_cast; ring

/-- Every grid number is a multiple of the smallest subnormal. -/
theorem Fmt.Grid.mult_emin {f : Fmt} {v : ℚ} (h : f.Grid v) : ∃ n : ℤ, v = n * (2:ℚ) ^ f.emin := by
  obtain ⟨m, e, hm, he, rfl⟩ := h
  refine ⟨m * 2 ^ (e - f.emin).toNat, ?_⟩
  push_cast
  rw [mul_assoc, ← zpow_natCast, ← zpow_add₀ (by norm_num)]
  congr 2
  omega

/-- Multiplying a positive normal number by a factor of at most `1 - 2^-prec` strictly decreases it even after
rounding. -/
theorem Fmt.rnd_mul_lt (f : Fmt) {c v : ℚ} (hv : f.Grid v) (hn : (2:ℚ) ^ (f.emin + f.prec) ≤ v)
    (hc : c ≤ 1 - 2 ^ (-(f.prec : ℤ))) : f.rnd (c * v) < v := by
  have hv0 : 0 < v := lt_of_lt_of_le (by positivity) hn
  have hlt : c * v < v := by
    have : (0:ℚ) < 2 ^ (-(f.prec : ℤ)) := by positivity
    nlinarith
  have hle : f.rnd (c * v) ≤ v := f.rnd_le_of_le hv (by simpa using hlt.le)
  refine lt_of_le_of_ne hle fun heq => ?_
  -- exponent of v
  set k := Int.log 2 v with hk
  have hk1 : (2:ℚ) ^ k ≤ v := by
    have := Int.zpow_log_le_self (b := 2) (r := v) (by norm_num) hv0
    exact_mod_cast this
  have hk2 : v < (2:ℚ) ^ (k + 1) := by
    have := Int.lt_zpow_succ_log_self (b := 2) (by norm_num) v
    exact_mod_cast this
  have hke : f.emin + f.prec ≤ k := by
    have := Int.zpow_le_iff_le_log (R := ℚ) (b := 2) (by norm_num) (x := f.emin + f.prec) hv0
    exact this.mp (by exact_mod_cast hn)
  have hp := f.prec_pos
  have hnear : ∀ g, f.Grid g → |c * v - v| ≤ |c * v - g| := by
    intro g hg
    have := f.rnd_nearest (c * v) hg
    simp only [Rat.cast_id] at this
    rwa [heq] at this
  set e := k - f.prec with he
  -- the predecessor
  have hdiff : v * 2 ^ (-(f.prec : ℤ)) ≤ v - c * v := by nlinarith
  have hve : (2:ℚ) ^ e ≤ v * 2 ^ (-(f.prec : ℤ)) := by
    have : (2:ℚ) ^ e = 2 ^ k * 2 ^ (-(f.prec : ℤ)) := by
      rw [← zpow_add₀ (by norm_num)]; congr 1
    rw [this]; exact mul_le_mul_of_nonneg_right hk1 (by positivity)
  have h2e : (0:ℚ) < 2 ^ e := by positivity
  rcases hk1.eq_or_lt with hpow | hgt
  · -- v is a power of two
    have hg : f.Grid (v - 2 ^ e) := by
      have : v - 2 ^ e = ((2 ^ f.prec - 1 : ℤ) : ℚ) * 2 ^ e := by
        push_cast
        rw [sub_mul, one_mul, ← zpow_natCast, ← zpow_add₀ (by norm_num), ← hpow]
        congr 2; omega
      rw [this]
      apply f.grid_of_mult (by omega)
      have : (1:ℤ) ≤ 2 ^ f.prec := by exact_mod_cast Nat.one_le_two_pow
      rw [abs_of_nonneg (by omega)]; omega
    have := hnear _ hg
    rw [abs_of_nonpos (by linarith), abs_of_nonpos (by linarith)] at this
    linarith
  · have hm : ∃ n : ℤ, v = n * (2:ℚ) ^ (e + 1) := by
      apply hv.mult
      rw [abs_of_pos hv0, show e + 1 + (f.prec : ℤ) - 1 = k by omega]
      exact hk1
    obtain ⟨n, hn'⟩ := hm
    have hn1 : 0 < n := by
      by_contra h
      push Not at h
      have : (n:ℚ) ≤ 0 := by exact_mod_cast h
      have h3 : (0:ℚ) < 2 ^ (e + 1) := by positivity
      nlinarith
    have hn2 : n ≤ 2 ^ f.prec := by
      by_contra h
      push Not at h
      have h1 : ((2 ^ f.prec : ℤ) : ℚ) ≤ n := by exact_mod_cast h.le
      have h3 : (2:ℚ) ^ (k + 1) = ((2 ^ f.prec : ℤ) : ℚ) * 2 ^ (e + 1) := by
        push_cast
        rw [← zpow_natCast, ← zpow_add₀ (by norm_num)]; congr 1; omega
      have h4 : (0:ℚ) < 2 ^ (e + 1) := by positivity
      rw [h3, hn'] at hk2
      nlinarith
    have hg : f.Grid (v - 2 ^ (e + 1)) := by
      have : v - 2 ^ (e + 1) = ((n - 1 : ℤ) : ℚ) * 2 ^ (e + 1) := by
        push_cast; rw [sub_mul, one_mul, ← hn']
      rw [this]
      apply f.grid_of_mult (by omega)
      rw [abs_of_nonneg (by omega)]; omega
    have h2 : (2:ℚ) ^ e < v * 2 ^ (-(f.prec : ℤ)) := by
      have : (2:ℚ) ^ e = 2 ^ k * 2 ^ (-(f.prec : ℤ)) := by
        rw [← zpow_add₀ (by norm_num)]; congr 1
      rw [this]; exact mul_lt_mul_of_pos_right hgt (by positivity)
    have h3 : (2:ℚ) ^ (e + 1) = 2 * 2 ^ e := by rw [zpow_add_one₀ (by norm_num)]; ring
    have := hnear _ hg
    rw [abs_of_nonpos (by linarith : c * v - v ≤ 0)] at this
    rcases abs_cases (c * v - (v - 2 ^ (e + 1))) with ⟨ha, _⟩ | ⟨ha, _⟩ <;> rw [ha] at this <;> linarith

end Verif
