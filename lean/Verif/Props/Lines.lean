import Verif.Model.Lines
import Verif.Lemmas.LinearBlocks
import Verif.Float.IntConv
import Mathlib.Analysis.SpecialFunctions.Pow.Real

/-!
# Properties C20 and C21: XLine and Phasor
-/

set_option linter.unusedSectionVars false

namespace Verif
open FP

/-! ## C20: XLine -/

namespace XLine

/-- The exponential from `a` to `b` in `N` samples, at sample `i`, in exact arithmetic: `a·(b/a)^(i/N)`, then `b`. -/
noncomputable def curve (a b N : ℝ) (i : ℕ) : ℝ := if (i : ℝ) < N then a * (b / a) ^ ((i : ℝ) / N) else b

/-- **C20** (exact arithmetic): for end points of one sign and a positive duration, output `i` is exactly sample `i` of the
exponential curve, scaled and offset; `isDone` turns true at tick `⌈dur·sr⌉` exactly, and the line then stays at the end
value for ever. -/
theorem C20_closed_form (s0 : Line ℝ) (a b d m c : ℝ) (hab : (0 < a ∧ 0 < b) ∨ (a < 0 ∧ b < 0)) (hd : 0 < d)
    (hsr : 0 < s0.sampleRate) (n : ℕ) :
    tickOut tick n (set a b d m c s0) = curve a b (d * s0.sampleRate) n * m + c ∧
      (isDone (tickState tick n (set a b d m c s0)) = true ↔ ⌈d * s0.sampleRate⌉₊ ≤ n) := by
  set N := d * s0.sampleRate with hN
  have hN0 : 0 < N := mul_pos hd hsr
  have ha : a ≠ 0 := by rcases hab with h | h; exacts [h.1.ne', h.1.ne]
  have hb : b ≠ 0 := by rcases hab with h | h; exacts [h.2.ne', h.2.ne]
  have hr : 0 < b / a := by
    rcases hab with h | h
    · exact div_pos h.2 h.1
    · exact div_pos_of_neg_of_neg h.2 h.1
  have hs : set a b d m c s0 = { s0 with
      start := a, stop := b, dur := d, mul := m, add := c, value := a, counter := 0, durSamples := N, done := false,
      growthFactor := (b / a) ^ (1 / N) } := by
    have he : endpoints a b = (a, b) := by
      rcases hab with ⟨h1, h2⟩ | ⟨h1, h2⟩
      · simp [endpoints, real_arith, ha, hb, h1, h2]
      · simp [endpoints, real_arith, ha, hb, h1.not_gt, h2.not_gt]
    have hg : Real.exp (Real.log (b / a) / N) = (b / a) ^ (1 / N) := by
      rw [Real.rpow_def_of_pos hr]; congr 1; ring
    simp only [set, he, updateGrowthFactor, real_arith]
    simp only [Rat.cast_zero, hd, if_true, ← hN, hN0, decide_true, Bool.true_and, Arith.ne, real_arith, ha, decide_false,
      Bool.not_false, hg]
  have key : ∀ n : ℕ, tickState tick n (set a b d m c s0) = { set a b d m c s0 with
      value := curve a b N n, counter := min (n:ℝ) ⌈N⌉₊, done := decide (⌈N⌉₊ ≤ n) } := by
    intro n
    induction n with
    | zero =>
      rw [hs]
      have : ¬ ⌈N⌉₊ ≤ 0 := by simp [hN0]
      simp [tickState, curve, hN0]
    | succ n ih =>
      rw [tickState_succ, ih, hs]
      by_cases h : ⌈N⌉₊ ≤ n
      · have h' : ⌈N⌉₊ ≤ n + 1 := by omega
        have e1 : ¬ ((n:ℝ) < N) := not_lt.mpr (Nat.ceil_le.mp h)
        have e2 : ¬ (((n+1:ℕ):ℝ) < N) := not_lt.mpr (Nat.ceil_le.mp h')
        have e3 : (⌈N⌉₊:ℝ) ≤ n := by exact_mod_cast h
        have e4 : (⌈N⌉₊:ℝ) ≤ ((n+1:ℕ):ℝ) := by exact_mod_cast h'
        simp only [tick, h, decide_true, Bool.not_true, Bool.false_eq_true, if_false, h', curve, e1, e2,
          min_eq_right e3, min_eq_right e4]
      · have hlt : (n:ℝ) < N := by rw [← Nat.lt_ceil]; omega
        have e3 : (n:ℝ) ≤ ⌈N⌉₊ := by have : n ≤ ⌈N⌉₊ := by omega
                                     exact_mod_cast this
        have e4 : ((n+1:ℕ):ℝ) ≤ ⌈N⌉₊ := by have : n + 1 ≤ ⌈N⌉₊ := by omega
                                           exact_mod_cast this
        by_cases h' : ⌈N⌉₊ ≤ n + 1
        · have e2 : ¬ (((n+1:ℕ):ℝ) < N) := not_lt.mpr (Nat.ceil_le.mp h')
          have e5 : N ≤ (n:ℝ) + 1 := by push_cast at e2; linarith
          simp [tick, h, h', curve, real_arith, min_eq_left e3, e5]
          push_cast at e4
          exact e4
        · have e2 : ((n+1:ℕ):ℝ) < N := by rw [← Nat.lt_ceil]; omega
          have e5 : ¬ N ≤ (n:ℝ) + 1 := by push_cast at e2; linarith
          have e6 : (b / a) ^ ((n:ℝ) / N) * (b / a) ^ (1 / N) = (b / a) ^ (((n:ℝ) + 1) / N) := by
            rw [← Real.rpow_add hr]; congr 1; ring
          push_cast at e2 e4
          simp only [tick, h, h', decide_false, Bool.not_false, if_true, real_arith, min_eq_left e3, Rat.cast_one, e5,
            curve, hlt, Nat.cast_add, Nat.cast_one, e2, min_eq_left e4, mul_assoc, e6]
          rfl
  constructor
  · simp only [tickOut, key n]
    simp only [tick, real_arith, hs]
  · rw [key n]
    simp [isDone]

/-- **C20, no duration**: a duration that is zero or negative is replaced by a millisecond. -/
theorem C20_no_duration (s0 : Line ℝ) (a b d m c : ℝ) (hab : (0 < a ∧ 0 < b) ∨ (a < 0 ∧ b < 0)) (hd : d ≤ 0)
    (hsr : 0 < s0.sampleRate) (n : ℕ) :
    tickOut tick n (set a b d m c s0) = curve a b (0.001 * s0.sampleRate) n * m + c ∧
      (isDone (tickState tick n (set a b d m c s0)) = true ↔ ⌈0.001 * s0.sampleRate⌉₊ ≤ n) := by
  have e : set a b d m c s0 = set a b 0.001 m c s0 := by
    have h1 : ¬ (0:ℝ) < d := not_lt.2 hd
    have h2 : (0:ℝ) < 0.001 := by norm_num
    simp only [set, real_arith, Rat.cast_zero, h1, h2, decide_true, decide_false, if_true, Bool.false_eq_true, if_false]
    norm_num
  rw [e]
  exact C20_closed_form s0 a b 0.001 m c hab (by norm_num) hsr n

/-- **C20** (exact arithmetic): the curve starts at `a`, ends at exactly `b` and in between goes monotonically from `a` towards
`b`: it is `a + w_i·(b-a)` with weights `w` rising from 0 to 1. -/
theorem C20_monotone (a b N : ℝ) (hab : (0 < a ∧ 0 < b) ∨ (a < 0 ∧ b < 0)) (hN : 0 < N) :
    ∃ w : ℕ → ℝ, Monotone w ∧ w 0 = 0 ∧ (∀ i, 0 ≤ w i ∧ w i ≤ 1) ∧ (∀ i : ℕ, N ≤ i → w i = 1) ∧
      ∀ i, curve a b N i = a + w i * (b - a) := by
  have ha : a ≠ 0 := by rcases hab with h | h; exacts [h.1.ne', h.1.ne]
  have hr : 0 < b / a := by
    rcases hab with h | h
    · exact div_pos h.2 h.1
    · exact div_pos_of_neg_of_neg h.2 h.1
  have mono_of : ∀ w : ℕ → ℝ, (∀ i, w i ≤ 1) → (∀ i : ℕ, N ≤ i → w i = 1) →
      (∀ i j : ℕ, i ≤ j → (j:ℝ) < N → w i ≤ w j) → Monotone w := by
    intro w h1 h2 h3 i j hij
    rcases lt_or_ge (j:ℝ) N with h | h
    · exact h3 i j hij h
    · rw [h2 j h]; exact h1 i
  by_cases hba : b = a
  · refine ⟨fun i => if (i:ℝ) < N then 0 else 1, mono_of _ ?_ ?_ ?_, by simp [hN], ?_, ?_, ?_⟩
    · intro i; split_ifs <;> norm_num
    · intro i hi; simp [hi.not_gt]
    · intro i j hij hj
      have : (i:ℝ) ≤ j := by exact_mod_cast hij
      simp [hj, this.trans_lt hj]
    · intro i; beta_reduce; split_ifs <;> norm_num
    · intro i hi; simp [hi.not_gt]
    · intro i; simp [curve, hba, div_self ha]
  · set r := b / a with hrd
    have hr1 : r ≠ 1 := by rw [hrd, Ne, div_eq_one_iff_eq ha]; exact hba
    have hr1' : r - 1 ≠ 0 := sub_ne_zero.mpr hr1
    have cmp : ∀ x y : ℝ, x ≤ y → (r ^ x - 1) / (r - 1) ≤ (r ^ y - 1) / (r - 1) := by
      intro x y hxy
      rcases lt_or_gt_of_ne hr1 with h | h
      · have hd : r - 1 < 0 := by linarith
        rw [div_le_div_right_of_neg hd]
        linarith [Real.rpow_le_rpow_of_exponent_ge hr h.le hxy]
      · have hd : 0 < r - 1 := by linarith
        rw [div_le_div_iff_of_pos_right hd]
        linarith [Real.rpow_le_rpow_of_exponent_le h.le hxy]
    have c0 : (r ^ (0:ℝ) - 1) / (r - 1) = 0 := by simp
    have c1 : (r ^ (1:ℝ) - 1) / (r - 1) = 1 := by rw [Real.rpow_one]; exact div_self hr1'
    have bd : ∀ i : ℕ, (i:ℝ) < N → 0 ≤ (r ^ ((i:ℝ) / N) - 1) / (r - 1) ∧ (r ^ ((i:ℝ) / N) - 1) / (r - 1) ≤ 1 := by
      intro i hi
      constructor
      · rw [← c0]; exact cmp _ _ (by positivity)
      · refine (cmp _ 1 ?_).trans_eq c1
        rw [div_le_one hN]; exact hi.le
    refine ⟨fun i => if (i:ℝ) < N then (r ^ ((i:ℝ) / N) - 1) / (r - 1) else 1, mono_of _ ?_ ?_ ?_, by simp [hN], ?_, ?_, ?_⟩
    · intro i; split_ifs with h
      · exact (bd i h).2
      · exact le_rfl
    · intro i hi; simp [hi.not_gt]
    · intro i j hij hj
      have : (i:ℝ) ≤ j := by exact_mod_cast hij
      simp only [hj, this.trans_lt hj, if_true]
      exact cmp _ _ (by gcongr)
    · intro i; beta_reduce; split_ifs with h
      · exact bd i h
      · norm_num
    · intro i hi; simp [hi.not_gt]
    · intro i
      dsimp only [curve]
      split_ifs with h
      · have e : b - a = a * (r - 1) := by rw [hrd]; field_simp
        rw [e, ← hrd]; field_simp; ring
      · ring

/-- **C20** in any arithmetic: once done, the line stays done and every further output is `stop*mul + add`. -/
theorem C20_holds {α : Type} [Arith α] [Libm α] (s : Line α) (hd : s.done = true) (hv : s.value = s.stop) (n : ℕ) :
    isDone (tickState tick n s) = true ∧ tickOut tick n s = s.stop * s.mul + s.add := by
  have h : ∀ n, tickState tick n s = s := by
    intro n
    induction n with
    | zero => rfl
    | succ n ih => rw [tickState_succ, ih]; simp [tick, hd]
  simp [tickOut, h n, tick, isDone, hd, hv]

theorem counter_step {x : F32} {n : ℕ} (hn : n < 2 ^ 24) (hx : x.In n n) : (x + lit 1).In (n + 1 : ℕ) (n + 1 : ℕ) := by
  have hr : binary32.Rep ((n + 1 : ℕ) : ℚ) false := by
    refine ⟨binary32.grid_nat (by have : (2:ℕ) ^ binary32.prec = 2 ^ 24 := by decide
                                  omega), ?_, by simp⟩
    rw [abs_of_nonneg (by positivity)]
    refine lt_of_le_of_lt ?_ (two_pow_lt_max (k := 24) (by norm_num))
    have : n + 1 ≤ 2 ^ 24 := by omega
    exact_mod_cast this
  exact add_in hx lit_one hr hr (by push_cast; exact le_rfl) (by push_cast; exact le_rfl)

/-- **C20** in single precision, rounding included: a line of at most `2^24` samples is done at tick `⌈durSamples⌉` exactly and
its value then is exactly the end value. -/
theorem C20_done_float [Libm F32] (s : Line F32) (hc : s.counter.In 0 0) (hd : s.done = false)
    (hf : s.durSamples.isFin = true) (h0 : 0 < s.durSamples.val) (h1 : s.durSamples.val ≤ 2 ^ 24) (n : ℕ) :
    (isDone (tickState tick n s) = true ↔ ⌈s.durSamples.val⌉₊ ≤ n) ∧
      (⌈s.durSamples.val⌉₊ ≤ n → tickOut tick n s = s.stop * s.mul + s.add) := by
  set N := s.durSamples.val with hN
  have hcl : ⌈N⌉₊ ≤ 2 ^ 24 := by rw [Nat.ceil_le]; push_cast; exact h1
  have key : ∀ n : ℕ, (n < ⌈N⌉₊ → (tickState tick n s).counter.In n n ∧ (tickState tick n s).done = false) ∧
      (⌈N⌉₊ ≤ n → (tickState tick n s).done = true ∧ (tickState tick n s).value = s.stop) ∧
      (tickState tick n s).durSamples = s.durSamples ∧ (tickState tick n s).stop = s.stop ∧
      (tickState tick n s).mul = s.mul ∧ (tickState tick n s).add = s.add := by
    intro n
    induction n with
    | zero =>
      refine ⟨fun _ => ⟨by rw [tickState_zero]; simpa using hc, hd⟩, fun h => ?_, rfl, rfl, rfl, rfl⟩
      simp [h0.not_ge] at h
    | succ n ih =>
      rw [tickState_succ]
      obtain ⟨i1, i2, i3, i4, i5, i6⟩ := ih
      generalize tickState tick n s = t at *
      by_cases h : ⌈N⌉₊ ≤ n
      · obtain ⟨j1, j2⟩ := i2 h
        have : (tick t).1 = t := by simp [tick, j1]
        rw [this]
        exact ⟨fun h' => by omega, fun _ => ⟨j1, j2⟩, i3, i4, i5, i6⟩
      · obtain ⟨j1, j2⟩ := i1 (by omega)
        have hst := counter_step (by omega) j1
        have hge : ((t.counter + lit 1) >=. t.durSamples) = decide (⌈N⌉₊ ≤ n + 1) := by
          rw [i3, le_fin hf hst.1, hst.val_eq]
          congr 1
          rw [Nat.ceil_le]
        by_cases h' : ⌈N⌉₊ ≤ n + 1
        · have e : (tick t).1 = { t with counter := t.counter + lit 1, value := t.stop, done := true } := by
            simp [tick, j2, hge, h']
          rw [e]
          exact ⟨fun h'' => by omega, fun _ => ⟨rfl, i4⟩, i3, i4, i5, i6⟩
        · have e : (tick t).1 = { t with counter := t.counter + lit 1, value := t.value * t.growthFactor } := by
            simp [tick, j2, hge, h']
          rw [e]
          exact ⟨fun _ => ⟨hst, j2⟩, fun h'' => absurd h'' h', i3, i4, i5, i6⟩
  obtain ⟨i1, i2, i3, i4, i5, i6⟩ := key n
  refine ⟨⟨fun h => ?_, fun h => (i2 h).1⟩, fun h => ?_⟩
  · by_contra hlt
    have := (i1 (by omega)).2
    simp [isDone, this] at h
  · simp [tickOut, tick, (i2 h).2, i5, i6]

/-- **C20, negative**: the sample counter is a float and sticks at `2^24`, so a line longer than `2^24` samples (about 5.8
minutes at 48 kHz) is never done, however long it runs. -/
theorem C20_long_line_never_done [Libm F32] (s : Line F32) (hc : s.counter.In 0 0) (hd : s.done = false)
    (hf : s.durSamples.isFin = true) (h1 : 2 ^ 24 < s.durSamples.val) (n : ℕ) : isDone (tickState tick n s) = false := by
  have key : ∀ n : ℕ, (∃ m : ℕ, m ≤ 2 ^ 24 ∧ (tickState tick n s).counter.In m m) ∧ (tickState tick n s).done = false ∧
      (tickState tick n s).durSamples = s.durSamples := by
    intro n
    induction n with
    | zero => exact ⟨⟨0, by norm_num, by rw [tickState_zero]; simpa using hc⟩, hd, rfl⟩
    | succ n ih =>
      rw [tickState_succ]
      obtain ⟨⟨m, i1, i2⟩, i3, i4⟩ := ih
      generalize tickState tick n s = t at *
      have : ∃ m : ℕ, m ≤ 2 ^ 24 ∧ (t.counter + lit 1).In m m := by
        rcases Nat.lt_or_ge m (2 ^ 24) with h | h
        · exact ⟨m + 1, by omega, counter_step h i2⟩
        · have hm : m = 2 ^ 24 := le_antisymm i1 h
          subst hm
          refine ⟨2 ^ 24, le_rfl, ?_⟩
          obtain ⟨zs, e⟩ := add_def i2.1 (lit_one (f := binary32)).1
          rw [e, i2.val_eq, lit_one.val_eq]
          have hx : ((2 ^ 24 : ℕ) : ℚ) + 1 = 16777217 := by norm_num
          rw [hx]
          cases zs <;> decide +kernel
      obtain ⟨m', k1, k2⟩ := this
      have hge : ((t.counter + lit 1) >=. t.durSamples) = false := by
        rw [i4, le_fin hf k2.1, k2.val_eq]
        have : ((m':ℕ):ℚ) ≤ 2 ^ 24 := by exact_mod_cast k1
        simp only [decide_eq_false_iff_not, not_le]
        linarith
      have e : (tick t).1 = { t with counter := t.counter + lit 1, value := t.value * t.growthFactor } := by
        simp [tick, i3, hge]
      rw [e]
      exact ⟨⟨m', k1, k2⟩, i3, i4⟩
  exact (key n).2.1

/-- **C20, negative**: XLine.h:107 documents that a zero start becomes `-0.0001` when the end is negative. In fact
`set(0, -1, …)` flips the sign of the *end* value: the line runs from `+0.0001` to `+1`. -/
theorem C20_zero_start_flips_sign : endpoints (lit 0 : F32) (lit (-1)) = (lit 0.0001, lit 1) := by decide +kernel

example (s0 : Line ℝ) (h : s0.sampleRate = 48000) (n : ℕ) :
    tickOut tick n (set (-1) (-4) 0.5 2 1 s0) = curve (-1) (-4) (0.5 * 48000) n * 2 + 1 := by
  rw [← h]
  exact (C20_closed_form s0 (-1) (-4) 0.5 2 1 (by norm_num) (by norm_num) (by rw [h]; norm_num) n).1

example (s0 : Line ℝ) (h : s0.sampleRate = 48000) (n : ℕ) : isDone (tickState tick n (set 1 2 (-3) 1 0 s0)) = true ↔ 48 ≤ n := by
  have := (C20_no_duration s0 1 2 (-3) 1 0 (by norm_num) (by norm_num) (by rw [h]; norm_num) n).2
  rw [h] at this
  rw [this, Nat.ceil_le]
  norm_num

example [Libm F32] (n : ℕ) : isDone (tickState tick n (init (lit 48000) : Line F32)) = true ↔ 48000 ≤ n := by
  have e : (init (lit 48000) : Line F32).durSamples.val = 48000 := by
    show ((lit 1 * lit 48000 : F32)).val = 48000
    decide +kernel
  have := (C20_done_float (init (lit 48000) : Line F32) (lit_zero (f := binary32)) rfl
    (by show ((lit 1 * lit 48000 : F32)).isFin = true; decide +kernel) (by rw [e]; norm_num) (by rw [e]; norm_num) n).1
  rw [e] at this
  simpa using this

example [Libm F32] (s0 : Line F32) (h : s0.sampleRate = lit 48000) (n : ℕ) :
    isDone (tickState tick n (set (lit 1) (lit 2) (lit 400) (lit 1) (lit 0) s0)) = false := by
  have e : (set (lit 1) (lit 2) (lit 400) (lit 1) (lit 0) s0).durSamples = lit 400 * lit 48000 := by
    show (if (lit 400 : F32) >. lit 0 then lit 400 else lit 0.001) * s0.sampleRate = _
    rw [h, if_pos (by decide +kernel)]
  exact C20_long_line_never_done _ (lit_zero (f := binary32)) rfl (by rw [e]; decide +kernel) (by rw [e]; decide +kernel) n

end XLine

/-! ## C21: Phasor -/

namespace Phasor

theorem fmod_real (x r : ℝ) (hr : 0 < r) :
    ∃ k : ℤ, x - r * (truncR (x / r) : ℤ) = x - k * r ∧ -r < x - k * r ∧ x - k * r < r ∧
      (0 ≤ x → 0 ≤ x - k * r) := by
  refine ⟨truncR (x / r), by ring, ?_⟩
  have hx : x = x / r * r := by field_simp
  simp only [truncR]
  split_ifs with h
  · have h1 := Int.floor_le (x / r)
    have h2 := Int.lt_floor_add_one (x / r)
    refine ⟨?_, ?_, fun _ => ?_⟩ <;> nlinarith
  · have h1 := Int.le_ceil (x / r)
    have h2 := Int.ceil_lt_add_one (x / r)
    push Not at h
    have hx0 : x < 0 := by rw [hx]; exact mul_neg_of_neg_of_pos h hr
    refine ⟨?_, ?_, fun h' => absurd h' (not_le.mpr hx0)⟩ <;> nlinarith

/-- The wrap of the model is the representative of `value` modulo the range that lies in `[start, stop)`, or in
`(stop, start]` for a reversed range. -/
theorem wrap_real (v a b : ℝ) : (a < b → (a ≤ wrap v a b ∧ wrap v a b < b) ∧ ∃ k : ℤ, wrap v a b = v + k * (b - a)) ∧
    (b < a → (b < wrap v a b ∧ wrap v a b ≤ a) ∧ ∃ k : ℤ, wrap v a b = v + k * (b - a)) := by
  constructor
  · intro hab
    have hr : 0 < b - a := by linarith
    simp only [wrap, real_arith, Rat.cast_zero, hr, if_true, Bool.or_eq_true]
    obtain ⟨k, e, h1, h2, h3⟩ := fmod_real (v - a) (b - a) hr
    rw [e]
    split_ifs with h hn
    · exact ⟨⟨by linarith, by linarith⟩, 1 - k, by push_cast; ring⟩
    · push Not at hn
      exact ⟨⟨by linarith, by linarith⟩, -k, by push_cast; ring⟩
    · push Not at h
      exact ⟨⟨h.2, h.1⟩, 0, by simp⟩
  · intro hab
    have hr : ¬ (0 < b - a) := by linarith
    have hr' : b - a < 0 := by linarith
    simp only [wrap, real_arith, Rat.cast_zero, hr, hr', if_true, if_false, Bool.or_eq_true]
    obtain ⟨k, e, h1, h2, h3⟩ := fmod_real (v - b) (-(b - a)) (by linarith)
    rw [e]
    split_ifs with h hn
    · exact ⟨⟨by linarith, by linarith⟩, k - 1, by push_cast; ring⟩
    · push Not at hn
      exact ⟨⟨by linarith, by linarith⟩, k, by ring⟩
    · push Not at h
      exact ⟨⟨h.1, h.2⟩, 0, by simp⟩

/-- **C21** (exact arithmetic): whatever the state (any rate of any size, any reset position, any history), `tick` returns a
value in `[start, end)`, or in `(end, start]` when the range is reversed. -/
theorem C21_in_range (s : Ph ℝ) : (s.start < s.stop → s.start ≤ (tick s).2 ∧ (tick s).2 < s.stop) ∧
    (s.stop < s.start → s.stop < (tick s).2 ∧ (tick s).2 ≤ s.start) :=
  ⟨fun h => ((wrap_real s.value s.start s.stop).1 h).1, fun h => ((wrap_real s.value s.start s.stop).2 h).1⟩

/-- **C21** (exact arithmetic): output `n` after a reset to `pos` is `pos + n·rate` modulo the range. -/
theorem C21_congruent (s : Ph ℝ) (pos : ℝ) (h : s.start ≠ s.stop) (n : ℕ) :
    ∃ k : ℤ, tickOut tick n (resetTo pos s) = pos + n * s.rate + k * (s.stop - s.start) := by
  have step : ∀ v, ∃ k : ℤ, wrap v s.start s.stop = v + k * (s.stop - s.start) := by
    intro v
    rcases lt_or_gt_of_ne h with h | h
    · exact ((wrap_real v _ _).1 h).2
    · exact ((wrap_real v _ _).2 h).2
  have key : ∀ n : ℕ, (∃ k : ℤ, (tickState tick n (resetTo pos s)).value = pos + n * s.rate + k * (s.stop - s.start)) ∧
      (tickState tick n (resetTo pos s)).rate = s.rate ∧ (tickState tick n (resetTo pos s)).start = s.start ∧
      (tickState tick n (resetTo pos s)).stop = s.stop := by
    intro n
    induction n with
    | zero => exact ⟨⟨0, by simp [tickState, resetTo]⟩, rfl, rfl, rfl⟩
    | succ n ih =>
      rw [tickState_succ]
      obtain ⟨⟨k, i1⟩, i2, i3, i4⟩ := ih
      generalize tickState tick n (resetTo pos s) = t at *
      refine ⟨?_, i2, i3, i4⟩
      obtain ⟨j, hj⟩ := step t.value
      refine ⟨k + j, ?_⟩
      simp only [tick, i2, i3, i4, hj, real_arith]
      rw [i1]; push_cast; ring
  obtain ⟨⟨k, i1⟩, i2, i3, i4⟩ := key n
  obtain ⟨j, hj⟩ := step (tickState tick n (resetTo pos s)).value
  refine ⟨k + j, ?_⟩
  simp only [tickOut, tick, i3, i4, hj]
  rw [i1]; push_cast; ring

/-- **C21** (exact arithmetic): a rising trigger restarts the ramp at the reset position, modulo the range; any other trigger
value leaves the ramp alone. -/
theorem C21_trigger (s : Ph ℝ) (trig : ℝ) :
    (tickTrig s trig).2 = (if s.prevTrig ≤ 0 ∧ 0 < trig then (tick (resetTo s.resetPos s)).2 else (tick s).2) := by
  simp only [tickTrig, tick, resetTo, real_arith, Rat.cast_zero, Bool.and_eq_true]
  split_ifs <;> rfl

theorem wrap_float {v a b : F32} (ha : a.In 0 0) (hb : b.isFin = true) (hb0 : 0 < b.val) (hv : v.isFin = true) :
    (wrap v a b).In 0 b.val := by
  have hr : (b - a).In b.val b.val := sub_in (in_val hb) ha (rep_val b) (rep_val b) (by simp) (by simp)
  have hz := lit_zero (f := binary32)
  have e0 : ((b - a) >. lit 0) = true := by rw [lt_fin hz.1 hr.1, hz.val_eq, hr.val_eq]; simpa using hb0
  simp only [wrap, e0, if_true]
  split_ifs with h1 h2
  · have hd : (v - a).In v.val v.val := sub_in (in_val hv) ha (rep_val v) (rep_val v) (by simp) (by simp)
    have hm := fmod_in hd.1 hr.1 (by rw [hr.val_eq]; exact hb0)
    rw [hr.val_eq] at hm
    rw [lt_fin hm.1 hz.1, hz.val_eq] at h2
    have h2' : (Arith.fmod (v - a) (b - a)).val < 0 := by simpa using h2
    have := add_in (⟨hm.1, hm.2.1, h2'.le⟩ : (Arith.fmod (v - a) (b - a)).In (-b.val) 0) hr rep_zero (rep_val b)
      (by simp) (by simp)
    exact add_in this ha rep_zero (rep_val b) (by simp) (by simp)
  · have hd : (v - a).In v.val v.val := sub_in (in_val hv) ha (rep_val v) (rep_val v) (by simp) (by simp)
    have hm := fmod_in hd.1 hr.1 (by rw [hr.val_eq]; exact hb0)
    rw [hr.val_eq] at hm
    rw [lt_fin hm.1 hz.1, hz.val_eq] at h2
    have h2' : 0 ≤ (Arith.fmod (v - a) (b - a)).val := by simpa using h2
    exact add_in (⟨hm.1, h2', hm.2.2⟩ : (Arith.fmod (v - a) (b - a)).In 0 b.val) ha rep_zero (rep_val b) (by simp) (by simp)
  · rw [le_fin hb hv, lt_fin hv ha.1, ha.val_eq] at h1
    simp only [Bool.or_eq_true, decide_eq_true_eq, not_or, not_le, not_lt] at h1
    exact ⟨hv, h1.2, h1.1.le⟩

/-- **C21** in single precision, partial: for ranges starting at 0 every output stays in the closed range `[0, end]`, for every
finite position and rate, for ever. (The half-open range is false, see `C21_hits_end`; a start other than 0 adds one more
rounding.) -/
theorem C21_range_float_partial (s : Ph F32) (ha : s.start.In 0 0) (hb : s.stop.In 0 (2 ^ 100)) (hb0 : 0 < s.stop.val)
    (hv : s.value.isFin = true) (hr : s.rate.In (-2 ^ 126) (2 ^ 126)) (n : ℕ) : (tickOut tick n s).In 0 s.stop.val := by
  have key : ∀ n : ℕ, (tickState tick n s).value.isFin = true ∧ (tickState tick n s).rate = s.rate ∧
      (tickState tick n s).start = s.start ∧ (tickState tick n s).stop = s.stop := by
    intro n
    induction n with
    | zero => exact ⟨hv, rfl, rfl, rfl⟩
    | succ n ih =>
      rw [tickState_succ]
      obtain ⟨i1, i2, i3, i4⟩ := ih
      generalize tickState tick n s = t at *
      refine ⟨?_, i2, i3, i4⟩
      have hw := wrap_float ha hb.1 hb0 i1
      simp only [tick, i2, i3, i4]
      exact (add_in hw hr (Rep.neg (rep_two_pow (k := 127) (by norm_num))) (rep_two_pow (k := 127) (by norm_num))
        (by norm_num) (by have := hb.2.2; norm_num at this ⊢; linarith)).1
  obtain ⟨i1, i2, i3, i4⟩ := key n
  simp only [tickOut, tick, i3, i4]
  exact wrap_float ha hb.1 hb0 i1

/-- **C21, negative**: in single precision the half-open range is left: with range `[0, 1)` and rate `-10⁻¹⁰` the second
output is exactly 1. -/
theorem C21_hits_end : tickOut tick 1 (set (lit (-1e-10)) (lit 0) (lit 1) (lit 0) (init (lit 48000 : F32))) = lit 1 := by
  decide +kernel

/-- **C21, negative**: Phasor.h documents that the value stays constant for an empty range; it drifts by `rate` per tick. -/
theorem C21_empty_range_drifts (s : Ph ℝ) (h : s.start = s.stop) (n : ℕ) : tickOut tick n s = s.value + n * s.rate := by
  have key : ∀ n : ℕ, (tickState tick n s).value = s.value + n * s.rate ∧ (tickState tick n s).rate = s.rate ∧
      (tickState tick n s).start = s.start ∧ (tickState tick n s).stop = s.stop := by
    intro n
    induction n with
    | zero => exact ⟨by simp [tickState], rfl, rfl, rfl⟩
    | succ n ih =>
      rw [tickState_succ]
      obtain ⟨i1, i2, i3, i4⟩ := ih
      generalize tickState tick n s = t at *
      refine ⟨?_, i2, i3, i4⟩
      simp only [tick, wrap, i3, i4, h, real_arith]
      simp [i1, i2]; ring
  obtain ⟨i1, i2, i3, i4⟩ := key n
  simp only [tickOut, tick, wrap, i3, i4, h, real_arith]
  simp [i1]

example : let s : Ph ℝ := set (-2.7) 1 5 3 (init 48000)
    1 ≤ tickOut tick 7 s ∧ tickOut tick 7 s < 5 := by
  intro s
  have hs : (tickState tick 7 s).start = 1 ∧ (tickState tick 7 s).stop = 5 := ⟨rfl, rfl⟩
  have := (C21_in_range (tickState tick 7 s)).1 (by rw [hs.1, hs.2]; norm_num)
  rwa [hs.1, hs.2] at this

example (n : ℕ) : (tickOut tick n (set (lit (-1e-10)) (lit 0) (lit 1) (lit 0) (init (lit 48000 : F32)))).In 0 1 := by
  have e : (lit 1 : F32).val = 1 := lit_one.val_eq
  have := C21_range_float_partial (set (lit (-1e-10)) (lit 0) (lit 1) (lit 0) (init (lit 48000 : F32)))
    (lit_zero (f := binary32)) (by decide +kernel) (by decide +kernel) (by decide +kernel) (by decide +kernel) n
  rwa [show (set (lit (-1e-10)) (lit 0) (lit 1) (lit 0) (init (lit 48000 : F32))).stop.val = 1 from e] at this

/-- **C21** (exact arithmetic): after `setFrequency(f)` the phasor runs through its range `f` times per second: sample `n` after a reset
is `n f / sr` ranges on from the position it was reset to, modulo whole ranges. -/
theorem C21_frequency (s : Ph ℝ) (f pos : ℝ) (h : s.start ≠ s.stop) (n : ℕ) :
    ∃ k : ℤ, tickOut tick n (resetTo pos (setFrequency f s)) = pos + (n * f / s.sampleRate + k) * (s.stop - s.start) := by
  obtain ⟨k, hk⟩ := C21_congruent (setFrequency f s) pos h n
  refine ⟨k, hk.trans ?_⟩
  simp only [setFrequency, real_arith]
  ring

/-- Where a triggered phasor would be if it never wrapped: it goes back to `resetPos` whenever the trigger rises from at most zero to above
zero, and moves on by `rate` otherwise. -/
noncomputable def unwrapped (rate resetPos : ℝ) : ℝ → ℝ → List ℝ → List ℝ
  | _, _, [] => []
  | prev, pos, t :: ts =>
    (if prev ≤ 0 ∧ 0 < t then resetPos else pos) ::
      unwrapped rate resetPos t ((if prev ≤ 0 ∧ 0 < t then resetPos else pos) + rate) ts

/-- **C21** (exact arithmetic): over any block of triggers every output is the unwrapped position modulo the range. -/
theorem C21_trigger_block (s : Ph ℝ) (h : s.start ≠ s.stop) (trigs : List ℝ) :
    List.Forall₂ (fun y p => ∃ k : ℤ, y = p + k * (s.stop - s.start)) (processTrig s trigs).2
      (unwrapped s.rate s.resetPos s.prevTrig s.value trigs) := by
  have step : ∀ v, ∃ k : ℤ, wrap v s.start s.stop = v + k * (s.stop - s.start) := by
    intro v
    rcases lt_or_gt_of_ne h with h | h
    · exact ((wrap_real v _ _).1 h).2
    · exact ((wrap_real v _ _).2 h).2
  have key : ∀ (trigs : List ℝ) (t : Ph ℝ) (pos : ℝ), t.start = s.start → t.stop = s.stop → t.rate = s.rate → t.resetPos = s.resetPos →
      (∃ k : ℤ, t.value = pos + k * (s.stop - s.start)) →
      List.Forall₂ (fun y p => ∃ k : ℤ, y = p + k * (s.stop - s.start)) (processTrig t trigs).2
        (unwrapped s.rate s.resetPos t.prevTrig pos trigs) := by
    intro trigs
    induction trigs with
    | nil => intro t pos _ _ _ _ _; exact List.Forall₂.nil
    | cons x trigs ih =>
      intro t pos h1 h2 h3 h4 h5
      obtain ⟨p, hp⟩ : ∃ p, p = (if t.prevTrig ≤ 0 ∧ 0 < x then s.resetPos else pos) := ⟨_, rfl⟩
      obtain ⟨v, hv⟩ : ∃ v, v = (if t.prevTrig ≤ 0 ∧ 0 < x then t.resetPos else t.value) := ⟨_, rfl⟩
      have ht : tickTrig t x = tick { t with value := v, prevTrig := x } := by
        rw [hv]
        simp only [tickTrig, real_arith, Rat.cast_zero, Bool.and_eq_true]
        by_cases c : t.prevTrig ≤ 0 ∧ 0 < x
        · rw [if_pos (by simpa using c), if_pos c]
        · rw [if_neg (by simpa using c), if_neg c]
      have hpv : ∃ k : ℤ, v = p + k * (s.stop - s.start) := by
        rw [hv, hp]
        split_ifs
        · exact ⟨0, by rw [h4]; simp⟩
        · exact h5
      obtain ⟨k, hk⟩ := hpv
      obtain ⟨k', hk'⟩ := step v
      have ho : wrap v s.start s.stop = p + ((k + k' : ℤ) : ℝ) * (s.stop - s.start) := by
        rw [hk', hk]; push_cast; ring
      simp only [processTrig, forEach, unwrapped, ← hp, ht]
      refine List.Forall₂.cons ⟨k + k', ?_⟩ ?_
      · simp only [tick, h1, h2]; exact ho
      · refine ih _ (p + s.rate) h1 h2 h3 h4 ⟨k + k', ?_⟩
        simp only [tick, h1, h2, h3]
        rw [ho]; simp only [real_arith]; ring
  exact key trigs s s.value rfl rfl rfl rfl ⟨0, by simp⟩

/-- Instance: two rising edges, the second after the trigger fell; a trigger held high does not reset again. -/
example : unwrapped 1 10 0 0 [0, 1, 1, 0, 2] = [0, 10, 11, 12, 10] := by
  simp [unwrapped]; norm_num

end Phasor
end Verif
