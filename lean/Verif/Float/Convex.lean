import Verif.Float.Order

/-!
# Rounding of convex combinations

`p * z + (1 - p) * x` as the library's one-pole smoothers compute it: two rounded products, a rounded `1 - p` and a rounded
sum never leave an interval bounded by powers of two.
-/

namespace Verif
open FP

/-- Rounding error of numbers of magnitude at most one. -/
theorem rnd_err_unit {x : ℚ} (h : |x| ≤ 1) : |x - binary32.rnd x| ≤ 2 ^ (-25:ℤ) := by
  rcases h.lt_or_eq with h | h
  · have := binary32.rnd_err_of_lt (K := ℚ) (x := x) (k := 0) (by simpa using h) (by decide)
    simp only [Rat.cast_id] at this
    refine this.trans (le_of_eq ?_)
    norm_num [binary32]
  · have hg : binary32.Grid x := by
      rcases (abs_eq (by norm_num : (0:ℚ) ≤ 1)).mp h with rfl | rfl
      · exact binary32.grid_one
      · exact binary32.grid_one.neg
    have := binary32.rnd_grid (K := ℚ) hg
    simp only [Rat.cast_id] at this
    rw [this, sub_self, abs_zero]; positivity

section
variable {K : Type*} [Field K] [LinearOrder K] [IsStrictOrderedRing K] [FloorRing K]

theorem roundEven_neg (q : K) : roundEven (-q) = -roundEven q := by
  have h1 := Int.floor_le q
  have h2 := Int.lt_floor_add_one q
  set f := ⌊q⌋ with hf
  rcases h1.lt_or_eq with h | h
  · have hfl : ⌊-q⌋ = -f - 1 := by
      rw [Int.floor_eq_iff]; push_cast; constructor <;> linarith
    simp only [roundEven, hfl, ← hf]
    push_cast
    split_ifs with a b c d e g i j k l m n <;> first | omega | (exfalso; linarith)
  · have hfl : ⌊-q⌋ = -f := by
      rw [Int.floor_eq_iff]; push_cast; constructor <;> linarith
    simp only [roundEven, hfl, ← hf]
    push_cast
    rw [← h]
    norm_num

/-- Rounding is odd. -/
theorem Fmt.rnd_neg (f : Fmt) (x : K) : f.rnd (-x) = -f.rnd x := by
  have : f.ulpExp (-x) = f.ulpExp x := by simp [Fmt.ulpExp]
  simp only [Fmt.rnd, this, neg_div, roundEven_neg]
  push_cast; ring

end

/-- A number less than half a unit above a power of two rounds to at most that power of two. -/
theorem Fmt.rnd_le_two_pow (f : Fmt) {x : ℚ} {k : ℤ} (hk : f.emin + f.prec ≤ k)
    (h : x ≤ 2 ^ k + 2 ^ (k - f.prec - 1)) : f.rnd x ≤ 2 ^ k := by
  have hp := f.prec_pos
  by_contra hc
  push Not at hc
  have hg : f.Grid ((2:ℚ) ^ k) := f.grid_zpow (by omega)
  have hx : (2:ℚ) ^ k < x := by
    by_contra hx
    push Not at hx
    exact absurd (f.rnd_le_of_le (K := ℚ) hg (by simpa using hx)) (not_le.mpr hc)
  have h1 := f.rnd_nearest x hg
  simp only [Rat.cast_id] at h1
  rw [abs_of_pos (by linarith : 0 < x - 2 ^ k)] at h1
  have h2 := (abs_le.mp h1).1
  obtain ⟨n, hn⟩ := (f.grid_rnd x).mult (k := k - f.prec + 1) (by
    rw [abs_of_pos (lt_trans (by positivity) hc), show k - f.prec + 1 + f.prec - 1 = k by omega]
    exact hc.le)
  have hpow : (2:ℚ) ^ k = ((2 ^ (f.prec - 1) : ℤ) : ℚ) * 2 ^ (k - f.prec + 1) := by
    push_cast
    rw [← zpow_natCast, ← zpow_add₀ (by norm_num)]
    congr 1; omega
  have hpos : (0:ℚ) < 2 ^ (k - f.prec + 1) := by positivity
  rw [hn] at h2 hc
  rw [hpow] at hc h2 h
  have hlt : (2 ^ (f.prec - 1) : ℤ) < n := by
    have := lt_of_mul_lt_mul_right hc hpos.le
    exact_mod_cast this
  have hge : (((2 ^ (f.prec - 1) : ℤ) : ℚ) + 1) * 2 ^ (k - f.prec + 1) ≤ n * 2 ^ (k - f.prec + 1) := by
    refine mul_le_mul_of_nonneg_right ?_ hpos.le
    exact_mod_cast hlt
  have hq : (2:ℚ) ^ (k - f.prec + 1) = 4 * 2 ^ (k - f.prec - 1) := by
    rw [show k - f.prec + 1 = (k - f.prec - 1) + 2 by omega, zpow_add₀ (by norm_num)]; norm_num; ring
  have : (0:ℚ) < 2 ^ (k - (f.prec:ℤ) - 1) := by positivity
  nlinarith

/-- Scaling up by a power of two keeps a number on the grid. -/
theorem Fmt.Grid.scale {f : Fmt} {v : ℚ} (h : f.Grid v) (k : ℕ) : f.Grid (v * 2 ^ k) := by
  obtain ⟨m, e, hm, he, rfl⟩ := h
  refine ⟨m, e + k, hm, by omega, ?_⟩
  rw [zpow_add₀ (by norm_num), zpow_natCast]; ring

theorem two_pow_lt_max {k : ℕ} (hk : k < 128) : (2:ℚ) ^ k < 2 ^ binary32.emaxp1 := by
  have h : (2:ℚ) ^ k < 2 ^ 128 := pow_lt_pow_right₀ (by norm_num) hk
  refine h.trans_le (le_of_eq ?_)
  rw [show binary32.emaxp1 = 128 from rfl]
  norm_cast

theorem rep_two_pow {k : ℕ} (hk : k ≤ 127) : binary32.Rep (2 ^ k) false := by
  refine ⟨?_, ?_, by simp⟩
  · have := binary32.grid_zpow (k := k) (by simp [binary32])
    simpa using this
  · rw [abs_of_pos (by positivity)]
    exact two_pow_lt_max (by omega)

/-- A product `w * x` with `0 ≤ w ≤ 1` and `|x| ≤ 2^k` is bounded by `w * 2^k` after rounding. -/
theorem weight_mul {w x : F32} {k : ℕ} (hk : k ≤ 126) (hw : w.In 0 1) (hx : x.In (-2 ^ k) (2 ^ k)) :
    (w * x).In (-(w.val * 2 ^ k)) (w.val * 2 ^ k) ∧ (0 ≤ x.val → 0 ≤ (w * x).val) := by
  have hr : binary32.Rep (w.val * 2 ^ k) false := by
    refine ⟨(grid_val w).scale k, ?_, by simp⟩
    rw [abs_of_nonneg (mul_nonneg hw.2.1 (by positivity))]
    calc w.val * 2 ^ k ≤ 1 * 2 ^ k := mul_le_mul_of_nonneg_right hw.2.2 (by positivity)
      _ < _ := by rw [one_mul]; exact two_pow_lt_max (by omega)
  have h := mul_in hw.1 hx.1 (Rep.neg hr) hr (by nlinarith [hw.2.1, hx.2.1]) (by nlinarith [hw.2.1, hx.2.2])
  refine ⟨h, fun h0 => ?_⟩
  exact (mul_in hw.1 hx.1 rep_zero hr (mul_nonneg hw.2.1 h0) (by nlinarith [hw.2.1, hx.2.2])).2.1

/-- The rounded weights of a convex combination sum to at most `1 + 2^-25`. -/
theorem one_sub_weight {p : F32} (hp : p.In 0 1) :
    (lit 1 - p).In 0 1 ∧ p.val + (lit 1 - p).val ≤ 1 + 2 ^ (-25:ℤ) := by
  have h1 : (lit 1 : F32).In 1 1 := lit_one
  refine ⟨sub_in h1 hp rep_zero rep_one (by norm_num) (by norm_num), ?_⟩
  have hv := (sub_val (x := lit 1) (y := p) h1.1 hp.1 rep_zero rep_one
    (by rw [h1.val_eq]; linarith [hp.2.2]) (by rw [h1.val_eq]; linarith [hp.2.1])).2
  have he := rnd_err_unit (x := 1 - p.val) (by rw [abs_le]; constructor <;> linarith [hp.2.1, hp.2.2])
  rw [hv, h1.val_eq]
  linarith [(abs_le.mp he).1]

/-- Sum of two rounded weighted terms. -/
theorem weighted_sum {a b : F32} {wa wb : ℚ} {k : ℕ} (hk : k ≤ 126)
    (ha : a.In (-(wa * 2 ^ k)) (wa * 2 ^ k)) (hb : b.In (-(wb * 2 ^ k)) (wb * 2 ^ k))
    (hw : wa + wb ≤ 1 + 2 ^ (-25:ℤ)) :
    (a + b).In (-2 ^ k) (2 ^ k) ∧ (0 ≤ a.val → 0 ≤ b.val → 0 ≤ (a + b).val) := by
  have hB : (0:ℚ) < 2 ^ k := by positivity
  have hsum : (wa + wb) * 2 ^ k ≤ (2:ℚ) ^ (k:ℤ) + 2 ^ ((k:ℤ) - binary32.prec - 1) := by
    have : (2:ℚ) ^ ((k:ℤ) - binary32.prec - 1) = 2 ^ (-25:ℤ) * 2 ^ k := by
      rw [show ((k:ℤ) - binary32.prec - 1) = -25 + k by simp [binary32]; omega, zpow_add₀ (by norm_num), zpow_natCast]
    rw [this, zpow_natCast]
    nlinarith
  have hle : 2 ^ (-25:ℤ) * (2:ℚ) ^ k ≤ 2 ^ k := by
    have : (2:ℚ) ^ (-25:ℤ) ≤ 1 := by norm_num
    nlinarith
  have hs2 : (wa + wb) * 2 ^ k ≤ (2:ℚ) ^ (k+1) := by rw [pow_succ]; nlinarith
  have r2 := rep_two_pow (k := k + 1) (by omega)
  obtain ⟨hf, hv⟩ := add_val (x := a) (y := b) ha.1 hb.1 (Rep.neg r2) r2
    (by nlinarith [ha.2.1, hb.2.1]) (by nlinarith [ha.2.2, hb.2.2])
  have hk' : binary32.emin + binary32.prec ≤ (k:ℤ) := by simp [binary32]; try omega
  refine ⟨⟨hf, ?_, ?_⟩, fun h0 h1 => ?_⟩
  · rw [hv]
    have h1 := binary32.rnd_le_two_pow (x := -(a.val + b.val)) hk' (by nlinarith [ha.2.1, hb.2.1])
    have h2 : binary32.rnd (-(a.val + b.val)) = -binary32.rnd (a.val + b.val) := binary32.rnd_neg (K := ℚ) _
    rw [h2, zpow_natCast] at h1
    linarith
  · rw [hv, ← zpow_natCast]
    exact binary32.rnd_le_two_pow hk' (by nlinarith [ha.2.2, hb.2.2])
  · rw [hv]; exact binary32.le_rnd_of_le binary32.grid_zero (by simpa using add_nonneg h0 h1)

/-- `p * z + (1 - p) * x` stays in `[-2^k, 2^k]`, and is non-negative if `z` and `x` are. -/
theorem convex_in {p z x : F32} {k : ℕ} (hk : k ≤ 126) (hp : p.In 0 1) (hz : z.In (-2 ^ k) (2 ^ k))
    (hx : x.In (-2 ^ k) (2 ^ k)) :
    (p * z + (lit 1 - p) * x).In (-2 ^ k) (2 ^ k) ∧
      (0 ≤ z.val → 0 ≤ x.val → 0 ≤ (p * z + (lit 1 - p) * x).val) := by
  obtain ⟨hg, hs⟩ := one_sub_weight hp
  obtain ⟨h1, h1'⟩ := weight_mul hk hp hz
  obtain ⟨h2, h2'⟩ := weight_mul hk hg hx
  obtain ⟨h3, h3'⟩ := weighted_sum hk h1 h2 hs
  exact ⟨h3, fun a b => h3' (h1' a) (h2' b)⟩

/-- The same with the summands in the other order. -/
theorem convex_in' {p z x : F32} {k : ℕ} (hk : k ≤ 126) (hp : p.In 0 1) (hz : z.In (-2 ^ k) (2 ^ k))
    (hx : x.In (-2 ^ k) (2 ^ k)) :
    ((lit 1 - p) * x + p * z).In (-2 ^ k) (2 ^ k) ∧
      (0 ≤ z.val → 0 ≤ x.val → 0 ≤ ((lit 1 - p) * x + p * z).val) := by
  obtain ⟨hg, hs⟩ := one_sub_weight hp
  obtain ⟨h1, h1'⟩ := weight_mul hk hp hz
  obtain ⟨h2, h2'⟩ := weight_mul hk hg hx
  obtain ⟨h3, h3'⟩ := weighted_sum hk h2 h1 (by linarith)
  exact ⟨h3, fun a b => h3' (h2' b) (h1' a)⟩

end Verif
