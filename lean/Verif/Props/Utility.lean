import Verif.Lemmas.RealArith
import Verif.Model.Utility
import Verif.Float.Order
import Mathlib.Analysis.SpecialFunctions.Log.Base

/-!
# C28, C29, C30: Wrap, LinLin, DBAmp
-/

namespace Verif

/-! ## C28 Wrap -/

namespace Wrap

theorem process_real {lo hi : ℝ} (h : lo < hi) (x : ℝ) :
    process x lo hi = x - (hi - lo) * ⌊(x - lo) / (hi - lo)⌋ := by
  have h2 : ¬ (hi - lo ≤ 0) := by linarith
  simp only [process, wrapValue, real_arith, Rat.cast_zero, if_neg h2]

/-- **C28, ideal arithmetic.** The wrapped value is in the half-open range and differs from the input by a whole number of
ranges. -/
theorem C28_wrap_range {lo hi : ℝ} (h : lo < hi) (x : ℝ) :
    lo ≤ process x lo hi ∧ process x lo hi < hi ∧ ∃ k : ℤ, x = process x lo hi + k * (hi - lo) := by
  have hr : 0 < hi - lo := by linarith
  rw [process_real h]
  have h1 := Int.floor_le ((x - lo) / (hi - lo))
  have h2 := Int.lt_floor_add_one ((x - lo) / (hi - lo))
  rw [le_div_iff₀ hr] at h1
  rw [div_lt_iff₀ hr] at h2
  refine ⟨by linarith, by linarith, ⌊(x - lo) / (hi - lo)⌋, by ring⟩

/-- **C28, fixed points.** A value already in the range is returned unchanged, so wrapping twice is wrapping once. -/
theorem C28_wrap_idempotent {lo hi : ℝ} (h : lo < hi) (x : ℝ) :
    ((lo ≤ x ∧ x < hi) → process x lo hi = x) ∧ process (process x lo hi) lo hi = process x lo hi := by
  have hfix : ∀ y : ℝ, lo ≤ y → y < hi → process y lo hi = y := by
    intro y h1 h2
    have hr : 0 < hi - lo := by linarith
    have h3 : ⌊(y - lo) / (hi - lo)⌋ = 0 := by
      rw [Int.floor_eq_zero_iff]
      exact ⟨div_nonneg (by linarith) hr.le, by rw [div_lt_one hr]; linarith⟩
    rw [process_real h, h3]; simp
  exact ⟨fun h1 => hfix x h1.1 h1.2, hfix _ (C28_wrap_range h x).1 (C28_wrap_range h x).2.1⟩

/-- **C28, uniqueness.** Inputs that differ by a whole number of ranges wrap to the same value. -/
theorem C28_wrap_periodic {lo hi : ℝ} (h : lo < hi) (x : ℝ) (k : ℤ) :
    process (x + k * (hi - lo)) lo hi = process x lo hi := by
  have hr : hi - lo ≠ 0 := by linarith
  rw [process_real h, process_real h, show (x + k * (hi - lo) - lo) / (hi - lo) = (x - lo) / (hi - lo) + k by
    field_simp; ring, Int.floor_add_intCast]
  push_cast; ring

/-- **C28, empty range.** In IEEE arithmetic, for all finite bounds with `hi ≤ lo` and every input (NaN included) the
result is `lo`, for the direct call and for the cached range alike. -/
theorem C28_empty_range {lo hi : F32} (h1 : lo.isFin = true) (h2 : hi.isFin = true) (h : hi.val ≤ lo.val) (x : F32) :
    process x lo hi = lo ∧ tick (setRange lo hi) x = lo := by
  have hle : ((hi - lo) <=. (lit 0 : F32)) = true := FP.sub_le_zero h2 h1 h
  have hz : ((lit 0 : F32) <=. lit 0) = true := by decide +kernel
  constructor
  · show (if ((hi - lo) <=. lit 0) = true then lo else _) = lo
    rw [if_pos hle]
  · have : (setRange lo hi).cachedRange = lit 0 := if_pos hle
    show (if ((setRange lo hi).cachedRange <=. lit 0) = true then lo else _) = lo
    rw [this, if_pos hz]

/-- **C28, tick.** After `setRange(lo, hi)` the cached tick is the direct call, bit for bit, for all floats. -/
theorem C28_tick_eq_process (lo hi x : F32) : tick (setRange lo hi) x = process x lo hi := by
  have hz : ((lit 0 : F32) <=. lit 0) = true := by decide +kernel
  show (if ((setRange lo hi).cachedRange <=. lit 0) = true then lo else wrapValue x lo (setRange lo hi).cachedRange) =
    if ((hi - lo) <=. lit 0) = true then lo else wrapValue x lo (hi - lo)
  by_cases h : ((hi - lo) <=. lit 0) = true
  · have : (setRange lo hi).cachedRange = lit 0 := if_pos h
    rw [this, if_pos hz, if_pos h]
  · have : (setRange lo hi).cachedRange = hi - lo := if_neg h
    rw [this]

/-- **C28 is false of the floating-point code**: wrapping `-1e-10` into `[0, 1)` returns `1`, the excluded end. -/
theorem C28_wrap_hits_hi : process (-lit 1e-10 : F32) (lit 0) (lit 1) = lit 1 := by decide +kernel

/-- The result can also be outside the closed range: wrapping `16777217.5f` (that is 2^24 + 2) into `[1/3, 1)` gives a
value below `lo`, because the quotient is rounded before `floor`. -/
theorem C28_wrap_leaves_range : ∃ x lo hi : F32, lo.isFin = true ∧ hi.isFin = true ∧ lo.val < hi.val ∧
    x.isFin = true ∧ (process x lo hi).val < lo.val :=
  ⟨lit 16777217.5, lit (1/3), lit 1, by decide +kernel⟩

/-- Non-trivial instances: `2.25` wraps to `0.25` in `[0,1)` and `-1.5` to `2.5` in `[1, 3)` … -/
example : process (lit 2.25 : F32) (lit 0) (lit 1) = lit 0.25 ∧ process (-lit 1.5 : F32) (lit 1) (lit 3) = lit 2.5 := by
  decide +kernel
example : (0 : ℝ) < 1 := one_pos
example : (lit 1 : F32).val ≤ (lit 2 : F32).val := by decide +kernel

end Wrap

/-! ## C29 LinLin -/

theorem linLin_real {a b : ℝ} (h : a ≠ b) (x c d : ℝ) : LinLin x a b c d = c + (x - a) / (b - a) * (d - c) := by
  have h2 : b - a ≠ 0 := sub_ne_zero.mpr h.symm
  simp only [LinLin, real_arith, Rat.cast_zero, if_neg h2]

/-- **C29, ideal arithmetic.** End points, affinity, inverse, and order preservation. -/
theorem C29_linlin {a b : ℝ} (h : a ≠ b) (c d : ℝ) :
    LinLin a a b c d = c ∧ LinLin b a b c d = d ∧
      (∀ x y t : ℝ, LinLin (x + t * (y - x)) a b c d = LinLin x a b c d + t * (LinLin y a b c d - LinLin x a b c d)) ∧
      (∀ x : ℝ, c ≠ d → LinLin (LinLin x a b c d) c d a b = x) ∧
      (∀ x y : ℝ, a < b → c < d → x < y → LinLin x a b c d < LinLin y a b c d) := by
  have hb : b - a ≠ 0 := sub_ne_zero.mpr h.symm
  refine ⟨?_, ?_, ?_, ?_, ?_⟩
  · rw [linLin_real h]; simp
  · rw [linLin_real h, div_self hb]; ring
  · intro x y t
    rw [linLin_real h, linLin_real h, linLin_real h]
    field_simp; ring
  · intro x hcd
    have hd : d - c ≠ 0 := sub_ne_zero.mpr hcd.symm
    rw [linLin_real hcd, linLin_real h]
    field_simp; ring
  · intro x y hab hcd hxy
    rw [linLin_real h, linLin_real h]
    have h1 : 0 < b - a := by linarith
    have h2 : (x - a) / (b - a) < (y - a) / (b - a) := (div_lt_div_iff_of_pos_right h1).mpr (by linarith)
    have := mul_lt_mul_of_pos_right h2 (show 0 < d - c by linarith)
    linarith

/-- **C29, empty source range and low end in IEEE arithmetic.** If both source ends are finite and equal the result is
`destLo` bit for bit, whatever the other arguments; and for finite ends `destLo` is hit exactly at the low end of
the source range (as long as the destination range does not overflow). -/
theorem C29_linlin_float {a b : F32} (ha : a.isFin = true) (hb : b.isFin = true) (c d : F32) :
    (a.val = b.val → ∀ x, LinLin x a b c d = c) ∧
      (a.val ≠ b.val → c.isFin = true → (d - c).isFin = true → (LinLin a a b c d).val = c.val ∧
        (LinLin a a b c d).isFin = true) := by
  have hz := FP.lit_zero (f := binary32)
  constructor
  · intro h x
    obtain ⟨zs, e⟩ := FP.sub_def hb ha
    have h0 : (FP.ofRat (b.val - a.val) zs : F32).In 0 0 := by
      rw [h, sub_self]; exact FP.ofRat_rep FP.rep_zero
    have h1 : ((b - a) ==. (lit 0 : F32)) = true := by
      rw [e, FP.eq_fin h0.1 hz.1, h0.val_eq, hz.val_eq]; rfl
    exact if_pos h1
  · intro h hc hdc
    obtain ⟨zs, e⟩ := FP.sub_def hb ha
    obtain ⟨zs2, e2⟩ := FP.sub_def ha ha
    have h0 : (a - a).In 0 0 := by
      rw [e2, sub_self]; exact FP.ofRat_rep FP.rep_zero
    have key : ∀ y : F32, y ≠ .nan → ¬ ((y ==. (lit 0 : F32)) = true) → ((a - a) / y).In 0 0 := by
      intro y hy hy0
      rcases FP.not_nan_cases hy with rfl | rfl | hf
      · obtain ⟨v, nz, hv, e3⟩ := FP.isFin_cases h0.1
        rw [e3]; exact FP.ofRat_rep FP.rep_zero
      · obtain ⟨v, nz, hv, e3⟩ := FP.isFin_cases h0.1
        rw [e3]; exact FP.ofRat_rep FP.rep_zero
      · have hne : y.val ≠ 0 := by
          intro h3
          apply hy0
          rw [FP.eq_fin hf hz.1, hz.val_eq, h3]; rfl
        obtain ⟨zs3, e3⟩ := FP.div_def h0.1 hf hne
        rw [e3, h0.val_eq, zero_div]; exact FP.ofRat_rep FP.rep_zero
    have hnan : b - a ≠ .nan := by rw [e]; exact FP.ofRat_ne_nan
    have hres : ∀ z : F32, z.In 0 0 → (c + z * (d - c)).In c.val c.val := by
      intro z hz0
      obtain ⟨zs4, e4⟩ := FP.mul_def hz0.1 hdc
      have h5 : (z * (d - c)).In 0 0 := by
        rw [e4, hz0.val_eq, zero_mul]; exact FP.ofRat_rep FP.rep_zero
      obtain ⟨zs5, e5⟩ := FP.add_def hc h5.1
      rw [e5, h5.val_eq, add_zero]; exact FP.ofRat_rep (FP.rep_val c)
    by_cases hz1 : ((b - a) ==. (lit 0 : F32)) = true
    · have : LinLin a a b c d = c := if_pos hz1
      rw [this]; exact ⟨rfl, hc⟩
    · have : LinLin a a b c d = c + (a - a) / (b - a) * (d - c) := if_neg hz1
      rw [this]
      have := hres _ (key _ hnan hz1)
      exact ⟨this.val_eq, this.1⟩

/-- **C29 is false at the high end in floating point**: `LinLin(1, 0, 1, 1e8, 1)` is `0`, not `1`. -/
theorem C29_high_end_inexact : LinLin (lit 1 : F32) (lit 0) (lit 1) (lit 100000000) (lit 1) = lit 0 := by decide +kernel

example : LinLin (lit 0.5 : F32) (lit 0) (lit 1) (lit 20) (lit 40) = lit 30 := by decide +kernel

/-! ## C30 DBAmp -/

/-- **C30, ideal arithmetic.** Sums of decibels become products of gains; 0 dB is unity, 20 dB a factor 10; gains are
positive and strictly increasing. -/
theorem C30_dbamp (a b : ℝ) :
    DBAmp.process (a + b) = DBAmp.process a * DBAmp.process b ∧ DBAmp.process (0 : ℝ) = 1 ∧
      DBAmp.process (20 : ℝ) = 10 ∧ 0 < DBAmp.process a ∧ (a < b → DBAmp.process a < DBAmp.process b) ∧
      DBAmp.process (-a) = (DBAmp.process a)⁻¹ := by
  have h : ∀ x : ℝ, DBAmp.process x = (10 : ℝ) ^ (x * 0.05) := by
    intro x; simp only [DBAmp.process, real_arith]; push_cast; rfl
  simp only [h]
  refine ⟨?_, ?_, ?_, ?_, ?_, ?_⟩
  · rw [add_mul, Real.rpow_add (by norm_num)]
  · simp
  · norm_num
  · positivity
  · intro hab
    exact Real.rpow_lt_rpow_of_exponent_lt (by norm_num) (by linarith)
  · rw [neg_mul, Real.rpow_neg (by norm_num)]

/-- Every gain is reached: the map from decibels to positive gains is onto. -/
theorem C30_dbamp_onto {g : ℝ} (hg : 0 < g) : DBAmp.process (20 * Real.logb 10 g) = g := by
  simp only [DBAmp.process, real_arith]
  push_cast
  rw [show 20 * Real.logb 10 g * 0.05 = Real.logb 10 g by ring]
  exact Real.rpow_logb (by norm_num) (by norm_num) hg

end Verif
