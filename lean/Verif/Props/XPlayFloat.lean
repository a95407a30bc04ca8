import Verif.Props.XPlay

/-!
# C39 in single precision
-/

set_option linter.unusedSectionVars false

namespace Verif.XPlay
open FP Buffer

theorem whileLoop_stuck {cond : F32 → Bool} {step : F32 → F32} {x : F32} (h1 : cond x = true) (h2 : step x = x) :
    ∀ n, whileLoop cond step n x = none
  | 0 => by simp [whileLoop, h1]
  | n + 1 => by simp only [whileLoop, h1, if_true, h2]; exact whileLoop_stuck h1 h2 n

/-- **C54** (false of the code): moving the loop points with `preservePhasor` need not return. A player on a valid buffer of 1000
frames (whatever its contents, channels and sample rate) with the loop set to the second half of the buffer hangs in
`setStartEnd(0, 5e-9, true)`: the play head 500 exceeds the new window by 10⁷ windows, and subtracting one window (1e-5) from 500
leaves 500. The history consists of three public calls on a new player. -/
theorem C54_setStartEnd_hangs [Libm F32] (m : Mem F32) (b : Buffer F32) (hv : b.isValid = true) (hn : b.numSamples = 1000)
    (reader : BufRd.Reader F32) (lag : LagLinear.Ramp F32) (env : EnvelopeADSR.Env F32) :
    (∃ s, run 0 m (new reader lag env) [.setBuffer (some b), .setStartEnd (lit 0.5) (lit 1) false] = some (s, [])) ∧
    ∀ fuel, run fuel m (new reader lag env)
      [.setBuffer (some b), .setStartEnd (lit 0.5) (lit 1) false, .setStartEnd (lit 0) (lit 5e-9) true] = none := by
  have c1 : clamp (lit 0.5 : F32) (lit 0) (lit 1) = lit 0.5 := by decide +kernel
  have c2 : clamp (lit 1 : F32) (lit 0) (lit 1) = lit 1 := by decide +kernel
  have c3 : clamp (lit 0 : F32) (lit 0) (lit 1) = lit 0 := by decide +kernel
  have c4 : clamp (lit 5e-9 : F32) (lit 0) (lit 1) = lit 5e-9 := by decide +kernel
  have d1 : (Arith.fabs ((lit 0.5 : F32) - lit 0) <. lit 1e-9) = false := by decide +kernel
  have d2 : (Arith.fabs ((lit 0 : F32) - lit 0.5) <. lit 1e-9) = false := by decide +kernel
  have e1 : Arith.stdMin (lit 0.5 : F32) (lit 1) * Arith.ofNat 1000 = lit 500 := by decide +kernel
  have e2 : Arith.stdMin (lit 0 : F32) (lit 5e-9) * Arith.ofNat 1000 = lit 0 := by decide +kernel
  obtain ⟨z, hz⟩ : ∃ z, z = Arith.stdMax (lit 0 : F32) (Arith.stdMax (lit 0) (lit 5e-9) * Arith.ofNat 1000 - lit 0) := ⟨_, rfl⟩
  have e3 : (z <=. lit 0) = false := by rw [hz]; decide +kernel
  have e4 : ((lit 500 : F32) <. lit 0) = false := by decide +kernel
  have e5 : ((lit 500 : F32) >=. lit 0 + z * lit 2) = true := by rw [hz]; decide +kernel
  have e6 : (lit 500 : F32) - z * lit 2 = lit 500 := by rw [hz]; decide +kernel
  constructor
  · exact ⟨_, by
      simp only [run, step, setBuffer, setStartEnd, updateLoopBounds, new, bounds, c1, d1, Bool.false_and, Bool.false_eq_true,
        if_false, if_true, Bool.not_false, Bool.true_or, Option.map_some, Option.bind_some, List.append_nil]
      rfl⟩
  · intro fuel
    have w1 : whileLoop (fun p => p <. lit 0) (fun p => p + z * lit 2) fuel (lit 500) = some (lit 500 : F32) := by
      cases fuel <;> simp [whileLoop, e4]
    have w2 := whileLoop_stuck (cond := fun p => p >=. lit 0 + z * lit 2) (step := fun p => p - z * lit 2) e5 e6 fuel
    simp only [run, step, setBuffer, setStartEnd, updateLoopBounds, new, bounds, framesOf, hv, hn, c1, c2, c3, c4, d1, d2,
      e1, e2, ← hz, e3, if_true, Bool.false_and, Bool.false_eq_true, if_false, Bool.not_false, Bool.not_true, Bool.true_or,
      Bool.or_false, Option.map_some, Option.bind_some, Option.map_map]
    simp only [intoWindow, windowStart, windowEnd, w1, Option.bind_some, w2, Option.map_none, Option.bind_none]

/-! ## No undefined behaviour for any number of ticks -/

theorem rnd_le_pow65 {x : ℚ} (h : x ≤ 2 ^ 65 + 2 ^ 40) : binary32.rnd x ≤ 2 ^ 65 := by
  have hg := (rep_two_pow (k := 65) (by norm_num)).1
  rcases le_or_gt x (2 ^ 65) with h1 | h1
  · exact binary32.rnd_le_of_le hg (by simpa using h1)
  · by_contra hc
    push Not at hc
    have hn := binary32.rnd_nearest x hg
    obtain ⟨n, hn'⟩ := (binary32.grid_rnd x).mult (k := 42) (by
      rw [abs_of_pos (lt_trans (by positivity) hc)]
      have : (42 + (binary32.prec : ℤ) - 1) = 65 := rfl
      rw [this]; exact_mod_cast hc.le)
    have h2 : (2 ^ 23 : ℚ) < n := by
      rw [hn'] at hc
      have e : ((2:ℚ) ^ (42:ℤ)) = 2 ^ 42 := by norm_num
      rw [e] at hc
      by_contra hcon
      push Not at hcon
      have := mul_le_mul_of_nonneg_right hcon (by positivity : (0:ℚ) ≤ 2 ^ 42)
      have e2 : (2:ℚ) ^ 23 * 2 ^ 42 = 2 ^ 65 := by norm_num
      rw [e2] at this; linarith
    have h3 : (2 ^ 23 + 1 : ℚ) ≤ n := by
      have : (2 ^ 23 : ℤ) < n := by exact_mod_cast h2
      have : (2 ^ 23 + 1 : ℤ) ≤ n := by omega
      exact_mod_cast this
    have h4 : (2 ^ 65 + 2 ^ 42 : ℚ) ≤ binary32.rnd x := by
      rw [hn']
      have e : ((2:ℚ) ^ (42:ℤ)) = 2 ^ 42 := by norm_num
      rw [e]
      have := mul_le_mul_of_nonneg_right h3 (by positivity : (0:ℚ) ≤ 2 ^ 42)
      have e2 : (2 ^ 23 + 1 : ℚ) * 2 ^ 42 = 2 ^ 65 + 2 ^ 42 := by norm_num
      rw [e2] at this; exact this
    simp only [Rat.cast_id] at hn
    rw [abs_of_nonpos (by linarith : x - binary32.rnd x ≤ 0), abs_of_pos (by linarith)] at hn
    linarith

/-- One step of the play head stays within `2^65 - T`, rounded (`T` the window, at most `2^63`). -/
theorem head_step {T x r : ℚ} (hT0 : 0 ≤ T) (hT : T ≤ 2 ^ 63) (hx : x ≤ binary32.rnd (2 ^ 65 - T)) (hr : r ≤ T) :
    binary32.rnd (x + r) ≤ 2 ^ 65 := by
  apply rnd_le_pow65
  rcases hT0.eq_or_lt with h0 | h0
  · rw [← h0] at hx hr
    have := binary32.rnd_le_of_le (x := (2 ^ 65 - 0 : ℚ)) (rep_two_pow (k := 65) (by norm_num)).1 (by norm_num)
    have h40 : (0:ℚ) ≤ 2 ^ 40 := by positivity
    linarith
  · have he := binary32.rnd_err_of_lt (x := (2 ^ 65 - T : ℚ)) (k := 65)
      (by rw [abs_of_nonneg (by linarith [show (2:ℚ) ^ 63 ≤ 2 ^ 65 by norm_num])]; norm_cast; push_cast; linarith)
      (by decide)
    have e : ((65:ℤ) - (binary32.prec : ℤ) - 1) = 40 := rfl
    rw [e] at he
    have e2 : ((2:ℚ) ^ (40:ℤ)) = 2 ^ 40 := by norm_num
    rw [e2] at he
    simp only [Rat.cast_id] at he
    have := (abs_le.1 he).1
    linarith

/-- What the code maintains of a player in single precision: loop points in `[0,1]`, loop members derived from them and from the
buffer, a play head within twice the largest window, and a reader on the same buffer (or on none). Buffers are limited to `2^40`
frames. -/
structure Placed (m : Mem F32) (s : Player F32) : Prop where
  start : s.start.In 0 1
  stop : s.stop.In 0 1
  buf : ∀ b, s.buffer = some b → b.numSamples ≤ 2 ^ 40 ∧ ∃ o k, b.Backed m o k
  reader : s.reader.buffer = none ∨ s.reader.buffer = s.buffer
  frames : s.frames.In 0 (2 ^ 40) ∧ (s.frames.val = 0 ∨ 1 ≤ s.frames.val)
  loopStart : s.loopStart.In 0 s.frames.val
  loopSize : s.loopSize.In 0 s.frames.val
  head : s.phasor.In (-binary32.rnd (2 ^ 65 - (s.loopSize * lit 2).val)) (binary32.rnd (2 ^ 65 - (s.loopSize * lit 2).val))

/-- The crossfade time is zero or short enough for a ramp length in `int`. -/
def FadeOk (l : LagLinear.Ramp F32) : Prop := (l.timeSeconds <=. lit 0) = true ∨ LagLinear.rampLength l ≠ none

theorem lit_two : (lit 2 : F32).In 2 2 :=
  lit_rep (by simpa using rep_two_pow (k := 1) (by norm_num))

theorem two_val {S : F32} (h : S.In 0 (2 ^ 40)) : (S * lit 2).In (2 * S.val) (2 * S.val) := by
  have hg : binary32.Rep (2 * S.val) false := by
    refine ⟨?_, ?_, by simp⟩
    · obtain ⟨n, e, h1, h2, h3⟩ := (rep_val S).1
      refine ⟨n, e + 1, h1, by omega, ?_⟩
      rw [h3, zpow_add_one₀ (two_ne_zero' ℚ)]; ring
    · rw [abs_of_nonneg (by linarith [h.2.1])]
      refine lt_of_le_of_lt (b := (2:ℚ) ^ 41) ?_ (two_pow_lt_max (by norm_num))
      linarith [h.2.2, show (2:ℚ) ^ 41 = 2 * 2 ^ 40 by norm_num]
  exact mul_in h.1 lit_two.1 hg hg (by rw [lit_two.val_eq, mul_comm]) (by rw [lit_two.val_eq, mul_comm])

theorem two_in {S : F32} (h : S.In 0 (2 ^ 40)) : (S * lit 2).In 0 (2 ^ 41) :=
  (two_val h).mono (by linarith [h.2.1]) (by linarith [h.2.2, show (2:ℚ) ^ 41 = 2 * 2 ^ 40 by norm_num])

theorem window_in {L S : F32} (hL : L.In 0 (2 ^ 40)) (h : S.In 0 (2 ^ 40)) :
    (L + S * lit 2).In (S * lit 2).val (2 ^ 42) := by
  have h2 := two_in h
  exact add_in hL ⟨h2.1, le_rfl, h2.2.2⟩ (rep_val _) (rep_two_pow (by norm_num)) (by linarith) (by norm_num)

theorem limit_big {T : ℚ} (h : T ≤ 2 ^ 41) : 2 ^ 64 ≤ binary32.rnd (2 ^ 65 - T) := by
  refine binary32.le_rnd_of_le (rep_two_pow (k := 64) (by norm_num)).1 ?_
  push_cast
  have : (2:ℚ) ^ 65 - 2 ^ 64 ≥ 2 ^ 41 := by norm_num
  linarith

theorem limit_small {T : ℚ} (h : 0 ≤ T) : binary32.rnd (2 ^ 65 - T) ≤ 2 ^ 65 :=
  binary32.rnd_le_of_le (rep_two_pow (k := 65) (by norm_num)).1 (by push_cast; linarith)

/-- Wrapping a finite position into the buffer gives a finite position. -/
theorem wrap_fin {F x : F32} (hF : F.In 0 (2 ^ 40)) (h1 : F.val = 0 ∨ 1 ≤ F.val) (hx : x.In (-2 ^ 66) (2 ^ 66)) :
    (Wrap.process x (lit 0) F).isFin = true := by
  have hz := lit_zero (f := binary32)
  unfold Wrap.process
  simp only
  have hr0 : (F - lit 0).In F.val F.val := sub_in (in_val hF.1) hz (rep_val F) (rep_val F) (by simp) (by simp)
  rw [le_fin hr0.1 hz.1, hz.val_eq, hr0.val_eq]
  split_ifs with hc
  · exact hz.1
  · simp only [decide_eq_true_eq, not_le] at hc
    have h1 : 1 ≤ F.val := h1.resolve_left hc.ne'
    have hR1 : 1 ≤ (F - lit 0).val := by rw [hr0.val_eq]; exact h1
    have hR2 : (F - lit 0).In 0 (2 ^ 40) := hr0.mono hF.2.1 hF.2.2
    generalize F - lit 0 = R at hR1 hR2
    have hc : 0 < R.val := by linarith
    unfold Wrap.wrapValue
    simp only
    have hn : (x - lit 0).In (-2 ^ 66) (2 ^ 66) :=
      sub_in hx hz (Rep.neg (rep_two_pow (by norm_num))) (rep_two_pow (by norm_num)) (by simp) (by simp)
    generalize x - lit 0 = y at hn
    have hq : (y / R).In (-2 ^ 66) (2 ^ 66) := by
      refine div_in hn.1 hR2.1 hc.ne' (Rep.neg (rep_two_pow (by norm_num))) (rep_two_pow (by norm_num)) ?_ ?_
      · rw [le_div_iff₀ hc]; nlinarith [hn.2.1, show (0:ℚ) ≤ 2 ^ 66 by positivity]
      · rw [div_le_iff₀ hc]; nlinarith [hn.2.2, show (0:ℚ) ≤ 2 ^ 66 by positivity]
    have hfl := floor_in hq.1 prec32
    have hf2 : (Arith.floor (y / R)).In (-2 ^ 67) (2 ^ 67) := by
      refine hfl.mono ?_ ?_
      · have : (y / R).val - 1 < ⌊(y / R).val⌋ := Int.sub_one_lt_floor _
        linarith [hq.2.1, show (2:ℚ) ^ 67 = 2 ^ 66 + 2 ^ 66 by norm_num, show (1:ℚ) ≤ 2 ^ 66 by norm_num]
      · have := Int.floor_le (y / R).val
        linarith [hq.2.2, show (2:ℚ) ^ 67 = 2 ^ 66 + 2 ^ 66 by norm_num, show (1:ℚ) ≤ 2 ^ 66 by norm_num]
    generalize Arith.floor (y / R) = g at hf2
    have hm : (R * g).In (-2 ^ 107) (2 ^ 107) := by
      have : |R.val * g.val| ≤ 2 ^ 107 := by
        rw [abs_mul]
        have a1 : |R.val| ≤ 2 ^ 40 := by rw [abs_of_nonneg hR2.2.1]; exact hR2.2.2
        have a2 : |g.val| ≤ 2 ^ 67 := abs_le.2 ⟨by linarith [hf2.2.1], hf2.2.2⟩
        calc |R.val| * |g.val| ≤ 2 ^ 40 * 2 ^ 67 := mul_le_mul a1 a2 (abs_nonneg _) (by positivity)
          _ = 2 ^ 107 := by norm_num
      exact mul_in hR2.1 hf2.1 (Rep.neg (rep_two_pow (by norm_num))) (rep_two_pow (by norm_num)) (abs_le.1 this).1 (abs_le.1 this).2
    exact (sub_in hx hm (Rep.neg (rep_two_pow (k := 108) (by norm_num))) (rep_two_pow (k := 108) (by norm_num))
      (by norm_num) (by norm_num)).1

theorem pingpong_in {s : Player F32} (hS : s.loopSize.In 0 (2 ^ 40)) {p : F32} (hp : p.In 0 (2 * s.loopSize.val)) :
    (pingpong s p).In 0 s.loopSize.val := by
  have hT := two_val hS
  unfold pingpong
  rw [le_fin hp.1 hS.1]
  split_ifs with h
  · exact ⟨hp.1, hp.2.1, by simpa using h⟩
  · simp only [decide_eq_true_eq, not_le] at h
    exact sub_in hT (in_val hp.1) rep_zero (rep_val _) (by linarith [hp.2.2]) (by linarith)

/-- **C39**, bounce mode in single precision: wherever the (finite) play head is, both read positions are at or after the loop
start and at or before the sum of loop start and loop size, as computed. -/
theorem C39_bounce_positions_float (s : Player F32) (hm : s.playMode = .bounce) (hS : s.loopSize.In 0 (2 ^ 40))
    (hL : s.loopStart.In 0 (2 ^ 40)) (hpos : 0 < s.loopSize.val) (hp : s.phasor.In (-2 ^ 100) (2 ^ 100)) :
    (heads s).1.In s.loopStart.val (s.loopStart + s.loopSize).val ∧
    (heads s).2.In s.loopStart.val (s.loopStart + s.loopSize).val := by
  have hT := two_val hS
  have hz := lit_zero (f := binary32)
  have hd : (s.phasor - s.loopStart).In (-2 ^ 101) (2 ^ 101) :=
    sub_in hp hL (Rep.neg (rep_two_pow (by norm_num))) (rep_two_pow (by norm_num)) (by norm_num) (by norm_num)
  have hf := fmod_in hd.1 hT.1 (by rw [hT.val_eq]; linarith)
  rw [hT.val_eq] at hf
  have rT : binary32.Rep (2 * s.loopSize.val) false := by have := rep_val (s.loopSize * lit 2); rwa [hT.val_eq] at this
  have hq : (if Arith.fmod (s.phasor - s.loopStart) (s.loopSize * lit 2) <. lit 0 then
      Arith.fmod (s.phasor - s.loopStart) (s.loopSize * lit 2) + s.loopSize * lit 2 else
      Arith.fmod (s.phasor - s.loopStart) (s.loopSize * lit 2)).In 0 (2 * s.loopSize.val) := by
    rw [lt_fin hf.1 hz.1, hz.val_eq]
    split_ifs with h
    · simp only [decide_eq_true_eq] at h
      exact add_in (in_val hf.1) hT rep_zero rT (by linarith [hf.2.1]) (by linarith)
    · simp only [decide_eq_true_eq, not_lt] at h
      exact ⟨hf.1, h, hf.2.2⟩
  have hq2 := sub_in hT hq rep_zero rT (by simp) (by simp)
  have key : ∀ p : F32, p.In 0 s.loopSize.val → (s.loopStart + p).In s.loopStart.val (s.loopStart + s.loopSize).val := by
    intro p hp
    have hv := add_val (x := s.loopStart) (y := s.loopSize) (l := 0) (u := 2 ^ 41) hL.1 hS.1 rep_zero (rep_two_pow (by norm_num))
      (by linarith [hL.2.1, hS.2.1]) (by linarith [hL.2.2, hS.2.2, show (2:ℚ) ^ 41 = 2 ^ 40 + 2 ^ 40 by norm_num])
    have hw := add_val (x := s.loopStart) (y := p) (l := 0) (u := 2 ^ 41) hL.1 hp.1 rep_zero (rep_two_pow (by norm_num))
      (by linarith [hL.2.1, hp.2.1]) (by linarith [hL.2.2, hp.2.2, hS.2.2, show (2:ℚ) ^ 41 = 2 ^ 40 + 2 ^ 40 by norm_num])
    refine ⟨hw.1, ?_, ?_⟩
    · rw [hw.2]; exact binary32.le_rnd_of_le (rep_val _).1 (by push_cast; simp; linarith [hp.2.1])
    · rw [hw.2, hv.2]; exact binary32.rnd_mono (by linarith [hp.2.2])
  unfold heads
  rw [hm]
  exact ⟨key _ (pingpong_in hS hq), key _ (pingpong_in hS hq2)⟩

/-- The positions of the read heads are finite. -/
theorem heads_fin {m : Mem F32} {s : Player F32} (h : Placed m s) (hpos : 0 < s.loopSize.val) :
    (heads s).1.isFin = true ∧ (heads s).2.isFin = true := by
  have hS : s.loopSize.In 0 (2 ^ 40) := h.loopSize.mono le_rfl h.frames.1.2.2
  have hL : s.loopStart.In 0 (2 ^ 40) := h.loopStart.mono le_rfl h.frames.1.2.2
  have hT := two_in hS
  have hX := limit_small hT.2.1
  have hph : s.phasor.In (-2 ^ 65) (2 ^ 65) := h.head.mono (by linarith) hX
  cases hm : s.playMode with
  | bounce =>
    have := C39_bounce_positions_float s hm hS hL hpos (hph.mono (by norm_num) (by norm_num))
    exact ⟨this.1.1, this.2.1⟩
  | loop =>
    unfold heads
    rw [hm]
    refine ⟨wrap_fin h.frames.1 h.frames.2 (hph.mono (by norm_num) (by norm_num)),
      wrap_fin h.frames.1 h.frames.2 ?_⟩
    exact sub_in hph hS (Rep.neg (rep_two_pow (by norm_num))) (rep_two_pow (by norm_num)) (by norm_num) (by norm_num)

theorem fade_tick {l : LagLinear.Ramp F32} (h : FadeOk l) (x : F32) :
    ∃ l' c, LagLinear.tick l x = some (l', c) ∧ l'.timeSeconds = l.timeSeconds ∧ l'.sampleRate = l.sampleRate := by
  have hadv : ∀ t : LagLinear.Ramp F32, (LagLinear.advance t).1.timeSeconds = t.timeSeconds ∧
      (LagLinear.advance t).1.sampleRate = t.sampleRate := by
    intro t; unfold LagLinear.advance; simp only; split_ifs <;> exact ⟨rfl, rfl⟩
  have hrec : ∀ t : LagLinear.Ramp F32, (LagLinear.recalcIncrement t).timeSeconds = t.timeSeconds ∧
      (LagLinear.recalcIncrement t).sampleRate = t.sampleRate := by
    intro t; unfold LagLinear.recalcIncrement; split_ifs <;> exact ⟨rfl, rfl⟩
  unfold LagLinear.tick
  simp only
  split_ifs with h1 h2
  · exact ⟨_, _, rfl, rfl, rfl⟩
  · rcases h with h | h
    · exact absurd h h2
    · obtain ⟨n, hn⟩ := Option.ne_none_iff_exists'.1 h
      have : LagLinear.rampLength { l with targetValue := x } = some n := hn
      rw [this]
      have e1 := hadv (LagLinear.recalcIncrement { l with targetValue := x, samplesRemaining := n })
      have e2 := hrec { l with targetValue := x, samplesRemaining := n }
      exact ⟨(LagLinear.advance (LagLinear.recalcIncrement { l with targetValue := x, samplesRemaining := n })).1, _, rfl,
        e1.1.trans e2.1, e1.2.trans e2.2⟩
  · exact ⟨_, _, rfl, (hadv l).1, (hadv l).2⟩

theorem FadeOk.congr {l l' : LagLinear.Ramp F32} (h : FadeOk l) (h1 : l'.timeSeconds = l.timeSeconds)
    (h2 : l'.sampleRate = l.sampleRate) : FadeOk l' := by
  unfold FadeOk LagLinear.rampLength at *
  rw [h1, h2]; exact h

variable [Libm F32]

/-- The play head after one tick. -/
theorem advance_head {m : Mem F32} {s : Player F32} (h : Placed m s) {r : F32}
    (hr : r.In (-(s.loopSize * lit 2).val) (s.loopSize * lit 2).val) : (advance s r).phasor.In
      (-binary32.rnd (2 ^ 65 - (s.loopSize * lit 2).val)) (binary32.rnd (2 ^ 65 - (s.loopSize * lit 2).val)) := by
  have hS : s.loopSize.In 0 (2 ^ 40) := h.loopSize.mono le_rfl h.frames.1.2.2
  have hL : s.loopStart.In 0 (2 ^ 40) := h.loopStart.mono le_rfl h.frames.1.2.2
  have hT := two_in hS
  have hW := window_in hL hS
  have hX := limit_small hT.2.1
  have hB := limit_big hT.2.2
  have hph := h.head
  unfold advance windowEnd windowStart
  simp only
  generalize s.loopSize * lit 2 = T at *
  have hTb : T.val ≤ 2 ^ 63 := le_trans hT.2.2 (by norm_num)
  obtain ⟨hy1, hy2⟩ := add_val (x := s.phasor) (y := r) (l := -2 ^ 66) (u := 2 ^ 66) hph.1 hr.1
    (Rep.neg (rep_two_pow (by norm_num))) (rep_two_pow (by norm_num))
    (by linarith [hph.2.1, hr.2.1, show (2:ℚ) ^ 66 = 2 ^ 65 + 2 * 2 ^ 64 by norm_num, show (2:ℚ) ^ 63 ≤ 2 ^ 64 by norm_num])
    (by linarith [hph.2.2, hr.2.2, show (2:ℚ) ^ 66 = 2 ^ 65 + 2 * 2 ^ 64 by norm_num, show (2:ℚ) ^ 63 ≤ 2 ^ 64 by norm_num])
  have up : (s.phasor + r).val ≤ 2 ^ 65 := by rw [hy2]; exact head_step hT.2.1 hTb hph.2.2 hr.2.2
  have dn : -2 ^ 65 ≤ (s.phasor + r).val := by
    have := head_step (x := -s.phasor.val) (r := -r.val) hT.2.1 hTb (by linarith [hph.2.1]) (by linarith [hr.2.1])
    rw [show -s.phasor.val + -r.val = -(s.phasor.val + r.val) by ring, binary32.rnd_neg, ← hy2] at this
    linarith
  generalize s.phasor + r = y at *
  rw [le_fin hW.1 hy1, lt_fin hy1 hL.1]
  split_ifs with h1 h2
  · simp only [decide_eq_true_eq] at h1
    obtain ⟨z1, z2⟩ := sub_val (x := y) (y := T) (l := -2 ^ 66) (u := 2 ^ 66) hy1 hT.1
      (Rep.neg (rep_two_pow (by norm_num))) (rep_two_pow (by norm_num))
      (by linarith [show (2:ℚ) ^ 66 = 2 ^ 65 + 2 * 2 ^ 64 by norm_num, show (2:ℚ) ^ 63 ≤ 2 ^ 64 by norm_num])
      (by linarith [hT.2.1, show (2:ℚ) ^ 66 = 2 ^ 65 + 2 * 2 ^ 64 by norm_num, show (0:ℚ) ≤ 2 ^ 64 by norm_num])
    refine ⟨z1, ?_, ?_⟩
    · show _ ≤ (y - T).val
      rw [z2]
      have : 0 ≤ binary32.rnd (y.val - T.val) :=
        binary32.le_rnd_of_le (by simpa using (rep_zero (f := binary32)).1) (by push_cast; linarith [hW.2.1])
      linarith [show (0:ℚ) ≤ 2 ^ 64 by positivity]
    · show (y - T).val ≤ _
      rw [z2]; exact binary32.rnd_mono (by linarith)
  · simp only [decide_eq_true_eq] at h2
    obtain ⟨z1, z2⟩ := add_val (x := y) (y := T) (l := -2 ^ 66) (u := 2 ^ 66) hy1 hT.1
      (Rep.neg (rep_two_pow (by norm_num))) (rep_two_pow (by norm_num))
      (by linarith [hT.2.1, show (2:ℚ) ^ 66 = 2 ^ 65 + 2 * 2 ^ 64 by norm_num, show (0:ℚ) ≤ 2 ^ 64 by norm_num])
      (by linarith [show (2:ℚ) ^ 66 = 2 ^ 65 + 2 * 2 ^ 64 by norm_num, show (2:ℚ) ^ 63 ≤ 2 ^ 64 by norm_num])
    refine ⟨z1, ?_, ?_⟩
    · show _ ≤ (y + T).val
      rw [z2, ← binary32.rnd_neg]; exact binary32.rnd_mono (by linarith)
    · show (y + T).val ≤ _
      rw [z2]
      refine le_trans (binary32.rnd_le_of_le (b := 2 ^ 64) (rep_two_pow (by norm_num)).1 ?_) hB
      push_cast
      linarith [hL.2.2, hT.2.2, show (2:ℚ) ^ 40 + 2 ^ 41 ≤ 2 ^ 64 by norm_num]
  · simp only [decide_eq_true_eq, not_le, not_lt] at h1 h2
    refine ⟨hy1, ?_, ?_⟩
    · linarith [hL.2.1, show (0:ℚ) ≤ 2 ^ 64 by positivity]
    · linarith [hW.2.2, show (2:ℚ) ^ 42 ≤ 2 ^ 64 by norm_num]

/-- The rate limit of one tick, in single precision. -/
def RateOk (s : Player F32) : Prop :=
  ∀ b, s.buffer = some b → (effectiveRate s b).In (-(s.loopSize * lit 2).val) (s.loopSize * lit 2).val

/-- One tick is defined and keeps the player in place. -/
theorem tick_float {m : Mem F32} {s : Player F32} (h : Placed m s) (hf : FadeOk s.fadeLag) (hr : RateOk s) :
    ∃ s' y, tick s m = some (s', y) ∧ Placed m s' ∧ FadeOk s'.fadeLag ∧ RateOk s' := by
  have hdef : ∃ s' y, tick s m = some (s', y) := by
    unfold tick
    cases hb : s.buffer with
    | none => exact ⟨_, _, rfl⟩
    | some b =>
      simp only
      by_cases hc : (!b.isValid || s.loopSize <=. lit 0) = true
      · rw [if_pos hc]; exact ⟨_, _, rfl⟩
      · rw [if_neg hc]
        simp only [Bool.or_eq_true, not_or, Bool.not_eq_true'] at hc
        have hpos : 0 < s.loopSize.val := by
          have := hc.2
          rw [le_fin h.loopSize.1 (lit_zero (f := binary32)).1, (lit_zero (f := binary32)).val_eq] at this
          simpa using this
        obtain ⟨l, c, hl, -, -⟩ := fade_tick hf (if s.phasor >=. s.loopStart + s.loopSize then lit 1 else -lit 1)
        obtain ⟨p1, p2⟩ := heads_fin h hpos
        have hread : ∀ x : F32, x.isFin = true → ∃ y, BufRd.tickStereo s.reader m x = some y := by
          intro x hx
          obtain ⟨-, o, k, hk⟩ := h.buf b hb
          rcases h.reader with hn | hn
          · exact ⟨_, (BufRd.C38_no_buffer_silent s.reader m x (.inl hn)).2⟩
          · exact Option.ne_none_iff_exists'.1 (BufRd.C38_safe s.reader b (hn.trans hb) m o k hk x (.inl hx)).2
        obtain ⟨y1, e1⟩ := hread _ p1
        obtain ⟨y2, e2⟩ := hread _ p2
        rw [hl]
        simp only [Option.bind_some, e1, e2, Option.map_some]
        exact ⟨_, _, rfl⟩
  obtain ⟨s', y, ht⟩ := hdef
  refine ⟨s', y, ht, ?_⟩
  rcases tick_some ht with ⟨rfl, -, -⟩ | ⟨b, lag, ctrl, x1, x2, hb, -, -, hl, -, -, e, -⟩
  · exact ⟨h, hf, hr⟩
  · obtain ⟨l, c, hl', t1, t2⟩ := fade_tick hf (if s.phasor >=. s.loopStart + s.loopSize then lit 1 else -lit 1)
    rw [hl, Option.some.injEq, Prod.mk.injEq] at hl'
    obtain ⟨rfl, rfl⟩ := hl'
    have hp : Placed m { s with inSecondHalf := (s.phasor >=. s.loopStart + s.loopSize), fadeLag := lag, env := (EnvelopeADSR.tick s.env).1 } :=
      ⟨h.start, h.stop, h.buf, h.reader, h.frames, h.loopStart, h.loopSize, h.head⟩
    have hh := advance_head hp (hr b hb)
    obtain ⟨p, f, e'⟩ := advance_frame { s with inSecondHalf := (s.phasor >=. s.loopStart + s.loopSize), fadeLag := lag, env := (EnvelopeADSR.tick s.env).1 } (effectiveRate s b)
    rw [e'] at e hh
    subst e
    exact ⟨⟨h.start, h.stop, h.buf, h.reader, h.frames, h.loopStart, h.loopSize, hh⟩, hf.congr t1 t2, hr⟩

/-- **C39**, single precision, any number of ticks. A configured player with an admissible rate and crossfade time plays for ever
without undefined behaviour – no conversion of an out-of-range position, no access outside the buffer – and its play head stays
finite and bounded. -/
theorem C39_float_safe (m : Mem F32) (s : Player F32) (h : Placed m s) (hf : FadeOk s.fadeLag) (hr : RateOk s) (n : ℕ) :
    ∃ s' out, process s m n = some (s', out) ∧ s'.phasor.In (-2 ^ 65) (2 ^ 65) ∧ Placed m s' := by
  induction n generalizing s with
  | zero =>
    have hS : s.loopSize.In 0 (2 ^ 40) := h.loopSize.mono le_rfl h.frames.1.2.2
    have hX := limit_small (two_in hS).2.1
    exact ⟨s, [], rfl, h.head.mono (by linarith) hX, h⟩
  | succ n ih =>
    obtain ⟨s1, y, ht, h1, h2, h3⟩ := tick_float h hf hr
    obtain ⟨s2, out, e, h4, h5⟩ := ih s1 h1 h2 h3
    exact ⟨s2, y :: out, by simp [process, ht, e], h4, h5⟩

/-! ### Configuration calls -/

theorem stdMin_in {a b : F32} {l u : ℚ} (ha : a.In l u) (hb : b.In l u) : (Arith.stdMin a b).In l u := by
  unfold Arith.stdMin; split_ifs; exacts [hb, ha]
theorem stdMax_in {a b : F32} {l u : ℚ} (ha : a.In l u) (hb : b.In l u) : (Arith.stdMax a b).In l u := by
  unfold Arith.stdMax; split_ifs; exacts [hb, ha]

theorem framesOf_in {s : Player F32} (hb : ∀ b, s.buffer = some b → b.numSamples ≤ 2 ^ 40) :
    (framesOf s).In 0 (2 ^ 40) ∧ ((framesOf s).val = 0 ∨ 1 ≤ (framesOf s).val) := by
  have hz := lit_zero (f := binary32)
  have z : (lit 0 : F32).In 0 (2 ^ 40) ∧ ((lit 0 : F32).val = 0 ∨ 1 ≤ (lit 0 : F32).val) :=
    ⟨hz.mono le_rfl (by positivity), .inl hz.val_eq⟩
  unfold framesOf
  cases h : s.buffer with
  | none => exact z
  | some b =>
    simp only
    split_ifs with hv
    · have h0 := BufRd.valid_pos hv
      have hn := hb b h
      have : (Arith.ofNat b.numSamples : F32).In 1 (2 ^ 40) := by
        refine ofRat_in rep_one (rep_two_pow (by norm_num)) ?_ ?_
        · push_cast; exact_mod_cast h0
        · push_cast; exact_mod_cast hn
      exact ⟨this.mono (by norm_num) le_rfl, .inr this.2.1⟩
    · exact z

/-- Exit of a loop with an invariant. -/
theorem whileLoop_inv {cond : F32 → Bool} {step : F32 → F32} {I : F32 → Prop} (hI : ∀ x, I x → cond x = true → I (step x)) :
    ∀ {n : ℕ} {x y : F32}, I x → whileLoop cond step n x = some y → I y ∧ cond y = false
  | 0, x, y, hx, h => by
    simp only [whileLoop] at h
    split_ifs at h with hc
    cases h; exact ⟨hx, by simpa using hc⟩
  | n + 1, x, y, hx, h => by
    simp only [whileLoop] at h
    split_ifs at h with hc
    · exact whileLoop_inv hI (hI x hx hc) h
    · cases h; exact ⟨hx, by simpa using hc⟩

/-- Whenever `updateLoopBounds` returns, the player is placed. -/
theorem update_float {m : Mem F32} {s s' : Player F32} {fuel : ℕ} {r : Bool} (h1 : s.start.In 0 1) (h2 : s.stop.In 0 1)
    (h3 : ∀ b, s.buffer = some b → b.numSamples ≤ 2 ^ 40 ∧ ∃ o k, b.Backed m o k)
    (h4 : s.reader.buffer = none ∨ s.reader.buffer = s.buffer) (h5 : s.phasor.In (-2 ^ 65) (2 ^ 65))
    (h : updateLoopBounds fuel r s = some s') : Placed m s' := by
  have hF := framesOf_in (s := s) (fun b hb => (h3 b hb).1)
  have hz := lit_zero (f := binary32)
  have prod : ∀ x : F32, x.In 0 1 → (x * framesOf s).In 0 (framesOf s).val := by
    intro x hx
    refine mul_in hx.1 hF.1.1 rep_zero (rep_val _) (mul_nonneg hx.2.1 hF.1.2.1) ?_
    exact mul_le_of_le_one_left hF.1.2.1 hx.2.2
  have hL : (bounds s).loopStart.In 0 (framesOf s).val := prod _ (stdMin_in h1 h2)
  have hE : (bounds s).loopEnd.In 0 (framesOf s).val := prod _ (stdMax_in h1 h2)
  have hS : (bounds s).loopSize.In 0 (framesOf s).val := by
    have hd : ((bounds s).loopEnd - (bounds s).loopStart).In (-(framesOf s).val) (framesOf s).val :=
      sub_in hE hL (Rep.neg (rep_val _)) (rep_val _) (by simp) (by simp)
    show (Arith.stdMax (lit 0) ((bounds s).loopEnd - (bounds s).loopStart)).In 0 (framesOf s).val
    unfold Arith.stdMax
    rw [lt_fin hz.1 hd.1, hz.val_eq]
    split_ifs with hc
    · simp only [decide_eq_true_eq] at hc
      exact ⟨hd.1, hc.le, hd.2.2⟩
    · exact hz.mono le_rfl hF.1.2.1
  have hS' : (bounds s).loopSize.In 0 (2 ^ 40) := hS.mono le_rfl hF.1.2.2
  have hL' : (bounds s).loopStart.In 0 (2 ^ 40) := hL.mono le_rfl hF.1.2.2
  have hT := two_in hS'
  have hW := window_in hL' hS'
  have hB := limit_big hT.2.2
  have place : ∀ p f, p.In 0 (2 ^ 64) → Placed m { bounds s with phasor := p, inSecondHalf := f } := fun p f hp =>
    ⟨h1, h2, h3, h4, hF, hL, hS, hp.mono (by linarith [show (0:ℚ) ≤ 2 ^ 64 by positivity]) hB⟩
  unfold updateLoopBounds at h
  simp only at h
  split_ifs at h with hc
  · cases h
    exact place _ _ (hL'.mono le_rfl (by norm_num))
  · cases hi : intoWindow fuel (bounds s) with
    | none => rw [hi] at h; cases h
    | some p =>
      rw [hi] at h
      simp only [Option.map_some, Option.some.injEq] at h
      subst h
      apply place
      unfold intoWindow windowStart windowEnd at hi
      have hp0 : (bounds s).phasor = s.phasor := rfl
      rw [hp0] at hi
      generalize (bounds s).loopStart = L at *
      generalize (bounds s).loopSize * lit 2 = T at *
      rw [Option.bind_eq_some_iff] at hi
      obtain ⟨q, hq, hi⟩ := hi
      obtain ⟨i1, c1⟩ := whileLoop_inv (I := fun x => x.In (-2 ^ 65) (2 ^ 65)) (fun x hx hc => by
        rw [lt_fin hx.1 hL'.1] at hc
        simp only [decide_eq_true_eq] at hc
        refine add_in (⟨hx.1, hx.2.1, hc.le.trans hL'.2.2⟩ : x.In (-2 ^ 65) (2 ^ 40)) hT
          (Rep.neg (rep_two_pow (by norm_num))) (rep_two_pow (by norm_num)) (by norm_num) (by norm_num)) h5 hq
      rw [lt_fin i1.1 hL'.1] at c1
      simp only [decide_eq_false_iff_not, not_lt] at c1
      obtain ⟨i2, c2⟩ := whileLoop_inv (I := fun x => x.In 0 (2 ^ 65)) (fun x hx hc => by
        rw [le_fin hW.1 hx.1] at hc
        simp only [decide_eq_true_eq] at hc
        exact sub_in (⟨hx.1, hc, hx.2.2⟩ : x.In _ (2 ^ 65)) (⟨hT.1, hT.2.1, le_rfl⟩ : T.In 0 T.val) rep_zero
          (rep_two_pow (by norm_num)) (by linarith [hW.2.1]) (by norm_num)) ⟨i1.1, by linarith [hL'.2.1], i1.2.2⟩ hi
      rw [le_fin hW.1 i2.1] at c2
      simp only [decide_eq_false_iff_not, not_le] at c2
      exact ⟨i2.1, i2.2.1, by linarith [hW.2.2, show (2:ℚ) ^ 42 ≤ 2 ^ 64 by norm_num]⟩

/-- What a caller has to observe for each call, given the state before it. -/
def CallOk (m : Mem F32) (s : Player F32) : Op F32 → Prop
  | .setBuffer b => ∀ b', b = some b' → b'.numSamples ≤ 2 ^ 40 ∧ ∃ o k, b'.Backed m o k
  | .setStartEnd a b preserve => a ≠ nan ∧ b ≠ nan ∧ preserve = false
  | .setFadeTime t => FadeOk { s.fadeLag with timeSeconds := Arith.stdMax (lit 0) t }
  | .tick => FadeOk s.fadeLag ∧ RateOk s
  | _ => True

/-- A history of admissible calls. -/
def CallsOk (m : Mem F32) : Player F32 → List (Op F32) → Prop
  | _, [] => True
  | s, op :: ops => CallOk m s op ∧ ∀ s1 y, step 0 m s op = some (s1, y) → CallsOk m s1 ops

theorem step_float {m : Mem F32} {s : Player F32} {op : Op F32} (h : Placed m s) (hc : CallOk m s op) :
    ∃ s1 y, step 0 m s op = some (s1, y) ∧ Placed m s1 := by
  have hS : s.loopSize.In 0 (2 ^ 40) := h.loopSize.mono le_rfl h.frames.1.2.2
  have hL : s.loopStart.In 0 (2 ^ 40) := h.loopStart.mono le_rfl h.frames.1.2.2
  have hX := limit_small (two_in hS).2.1
  have hB := limit_big (two_in hS).2.2
  have hph : s.phasor.In (-2 ^ 65) (2 ^ 65) := h.head.mono (by linarith) hX
  cases op with
  | init sr =>
    have hl : LagLinear.init sr (-lit 1) s.fadeTime ≠ none := by
      unfold LagLinear.init LagLinear.setTime
      simp only
      have : Arith.ne (-lit 1 : F32) (-lit 1) = false := by decide +kernel
      rw [this]
      split_ifs with g1 g2
      · simp
      · exact absurd g2 (by simp)
      · simp
    obtain ⟨l, hl⟩ := Option.ne_none_iff_exists'.1 hl
    simp only [step, init, hl, Option.bind_some, updateLoopBounds_reset, Option.map_some]
    exact ⟨_, _, rfl, update_float (s := { s with sampleRate := sr, reader := BufRd.init none, fadeLag := l, env := _ })
      h.start h.stop h.buf (.inl rfl) hph (updateLoopBounds_reset 0 _)⟩
  | setBuffer b =>
    simp only [step, setBuffer, updateLoopBounds_reset, Option.map_some]
    exact ⟨_, _, rfl, update_float (s := { s with buffer := b, reader := BufRd.setBuffer b s.reader })
      h.start h.stop hc (.inr rfl) hph (updateLoopBounds_reset 0 _)⟩
  | setStartEnd a b p =>
    obtain ⟨ha, hb, rfl⟩ := hc
    simp only [step, setStartEnd]
    split_ifs with hd
    · exact ⟨_, _, rfl, h⟩
    · simp only [Bool.not_false, updateLoopBounds_reset, Option.map_some]
      have h01 : (0:ℚ) ≤ 1 := by norm_num
      exact ⟨_, _, rfl, update_float (s := { s with start := clamp a (lit 0) (lit 1), stop := clamp b (lit 0) (lit 1) })
        (clamp_in ha lit_zero lit_one h01) (clamp_in hb lit_zero lit_one h01) h.buf h.reader hph (updateLoopBounds_reset 0 _)⟩
  | setRate r => exact ⟨_, _, rfl, h.start, h.stop, h.buf, h.reader, h.frames, h.loopStart, h.loopSize, h.head⟩
  | setPlayMode r => exact ⟨_, _, rfl, h.start, h.stop, h.buf, h.reader, h.frames, h.loopStart, h.loopSize, h.head⟩
  | setGate r => exact ⟨_, _, rfl, h.start, h.stop, h.buf, h.reader, h.frames, h.loopStart, h.loopSize, h.head⟩
  | resetPhasor =>
    refine ⟨resetPhasor s, _, rfl, h.start, h.stop, h.buf, h.reader, h.frames, h.loopStart, h.loopSize, ?_⟩
    have e : (resetPhasor s).loopSize = s.loopSize := rfl
    rw [e]
    exact hL.mono (by linarith [show (0:ℚ) ≤ 2 ^ 64 by positivity]) (by linarith [show (2:ℚ) ^ 40 ≤ 2 ^ 64 by norm_num])
  | setFadeTime t =>
    have hl : LagLinear.setTime (Arith.stdMax (lit 0) t) s.fadeLag ≠ none := by
      unfold LagLinear.setTime
      simp only
      split_ifs with g1 g2
      · simp
      · rcases hc with hc | hc
        · exact absurd hc g1
        · simpa using hc
      · simp
    obtain ⟨l, hl⟩ := Option.ne_none_iff_exists'.1 hl
    simp only [step, setFadeTime, hl, Option.map_some]
    exact ⟨_, _, rfl, h.start, h.stop, h.buf, h.reader, h.frames, h.loopStart, h.loopSize, h.head⟩
  | tick =>
    obtain ⟨s', y, ht, hp, -, -⟩ := tick_float h hc.1 hc.2
    exact ⟨s', [y], by simp [step, ht], hp⟩

/-- **C39**, single precision, whole histories. Any sequence of public calls on a new player – `init`, buffers, loop points
(not NaN, without `preservePhasor`), rates, modes, fade times, gates and ticks in any order, each tick with an admissible rate and
crossfade length – runs without undefined behaviour, and the play head is always finite. -/
theorem C39_float_history (m : Mem F32) (reader : BufRd.Reader F32) (hrd : reader.buffer = none) (lag : LagLinear.Ramp F32)
    (env : EnvelopeADSR.Env F32) (ops : List (Op F32)) (hc : CallsOk m (new reader lag env) ops) :
    ∃ s out, run 0 m (new reader lag env) ops = some (s, out) ∧ Placed m s := by
  have h0 : Placed m (new reader lag env) := by
    have hz := lit_zero (f := binary32)
    have hv : (lit 0 : F32).val = 0 := hz.val_eq
    refine ⟨hz.mono le_rfl (by norm_num), lit_one.mono (by norm_num) le_rfl, (fun b hb => by cases hb), .inl hrd,
      ⟨hz.mono le_rfl (by positivity), .inl hv⟩, ?_, ?_, ?_⟩
    · exact ⟨hz.1, hv.ge, le_rfl⟩
    · exact ⟨hz.1, hv.ge, le_rfl⟩
    · have hB := limit_big (two_in (S := (lit 0 : F32)) (hz.mono le_rfl (by positivity))).2.2
      exact hz.mono (by show -binary32.rnd (2 ^ 65 - ((lit 0 : F32) * lit 2).val) ≤ 0
                        linarith [show (0:ℚ) ≤ 2 ^ 64 by positivity])
        (by show 0 ≤ binary32.rnd (2 ^ 65 - ((lit 0 : F32) * lit 2).val)
            linarith [show (0:ℚ) ≤ 2 ^ 64 by positivity])
  generalize new reader lag env = s0 at *
  induction ops generalizing s0 with
  | nil => exact ⟨s0, [], rfl, h0⟩
  | cons op ops ih =>
    obtain ⟨s1, y, hs, h1⟩ := step_float h0 hc.1
    obtain ⟨s2, out, e, h2⟩ := ih s1 (hc.2 s1 y hs) h1
    exact ⟨s2, y ++ out, by simp [run, hs, e], h2⟩


/-! ### A player that meets the hypotheses -/

/-- A reversed loop over the second half of a four-frame buffer, in bounce mode, with the play head in the middle. -/
def demoPlayer (env : EnvelopeADSR.Env F32) : Player F32 where
  buffer := some BufRd.demoBuf
  sampleRate := lit 44100
  start := lit 1
  stop := lit 0.5
  rate := lit 1.5
  fadeTime := lit 0.05
  gateValue := lit 1
  playMode := .bounce
  frames := lit 4
  loopStart := lit 2
  loopEnd := lit 4
  loopSize := lit 2
  phasor := lit 3.25
  isReverse := true
  inSecondHalf := false
  reader := ⟨some BufRd.demoBuf, true, 2⟩
  fadeLag := ⟨lit 44100, lit 0.05, -lit 1, -lit 1, lit 0, 0⟩
  env := env

theorem demo_backed : BufRd.demoBuf.Backed BufRd.demoMem 0 0 :=
  ⟨rfl, .inl rfl, by decide, by decide⟩

example (env : EnvelopeADSR.Env F32) : Placed BufRd.demoMem (demoPlayer env) ∧ FadeOk (demoPlayer env).fadeLag ∧
    RateOk (demoPlayer env) := by
  refine ⟨⟨?_, ?_, ?_, .inr rfl, ?_, ?_, ?_, ?_⟩, ?_, ?_⟩
  · show (lit 1 : F32).In 0 1; decide +kernel
  · show (lit 0.5 : F32).In 0 1; decide +kernel
  · intro b hb; cases hb; exact ⟨by decide, 0, 0, demo_backed⟩
  · show (lit 4 : F32).In 0 (2 ^ 40) ∧ ((lit 4 : F32).val = 0 ∨ 1 ≤ (lit 4 : F32).val); decide +kernel
  · show (lit 2 : F32).In 0 (lit 4 : F32).val; decide +kernel
  · show (lit 2 : F32).In 0 (lit 4 : F32).val; decide +kernel
  · show (lit 3.25 : F32).In (-binary32.rnd (2 ^ 65 - ((lit 2 : F32) * lit 2).val)) (binary32.rnd (2 ^ 65 - ((lit 2 : F32) * lit 2).val))
    decide +kernel
  · right
    show LagLinear.rampLength (⟨lit 44100, lit 0.05, -lit 1, -lit 1, lit 0, 0⟩ : LagLinear.Ramp F32) ≠ none
    decide +kernel
  · intro b hb; cases hb
    show ((lit 1.5 : F32) * (if (lit 48000 : F32) >. lit 0 then lit 48000 / lit 44100 else lit 1) * (-lit 1)).In
      (-((lit 2 : F32) * lit 2).val) ((lit 2 : F32) * lit 2).val
    decide +kernel

/-- A bounce turn at the end of the buffer reads the first frame: position 4 of the four-frame buffer 1, 2, 3, 4 gives 1, not 4
(the reader wraps the position, XPlay.h:203 and BufRd.h:116-119). -/
theorem C39_bounce_turn_reads_first_frame (env : EnvelopeADSR.Env F32) :
    (heads { demoPlayer env with phasor := lit 4 }).1 = lit 4 ∧
    BufRd.tickStereo (demoPlayer env).reader BufRd.demoMem (lit 4) = some ⟨lit 1, lit 1⟩ := by
  constructor
  · let q : F32 := if Arith.fmod (lit 4 - lit 2 : F32) (lit 2 * lit 2) <. lit 0 then
      Arith.fmod (lit 4 - lit 2 : F32) (lit 2 * lit 2) + lit 2 * lit 2 else Arith.fmod (lit 4 - lit 2 : F32) (lit 2 * lit 2)
    have key : (lit 2 : F32) + (if q <=. lit 2 then q else lit 2 * lit 2 - q) = lit 4 := by decide +kernel
    exact key
  · show BufRd.tickStereo ⟨some BufRd.demoBuf, true, 2⟩ BufRd.demoMem (lit 4) = _
    decide +kernel

/-- A whole history with its admissibility: `setBuffer`, loop points (reversed), bounce mode. -/
example (env : EnvelopeADSR.Env F32) (lag : LagLinear.Ramp F32) :
    CallsOk BufRd.demoMem (new ⟨none, true, 2⟩ lag env)
      [.setBuffer (some BufRd.demoBuf), .setStartEnd (lit 1) (lit 0.5) false, .setPlayMode .bounce, .setGate (lit 1)] := by
  refine ⟨fun b hb => ?_, fun s1 _ _ => ⟨⟨?_, ?_, rfl⟩, fun s2 _ _ => ⟨trivial, fun s3 _ _ => ⟨trivial, fun _ _ _ => trivial⟩⟩⟩⟩
  · cases hb; exact ⟨by decide, 0, 0, demo_backed⟩
  · decide +kernel
  · decide +kernel

end Verif.XPlay
