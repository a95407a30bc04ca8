import Verif.Model.ExampleVoice
import Verif.Lemmas.Loops
import Verif.Lemmas.RealArith
import Mathlib.Algebra.Order.Floor.Ring
import Mathlib.Tactic.Linarith

/-!
# The two modulators of an ExampleVoice (C95)

The vibrato and the pan modulator are both initialised and reset with the default seed, and so are those of every other voice.
-/

namespace Verif.ExampleVoice

section any
variable {α : Type} [Arith α] [Libm α]

/-! ### Specification -/

/-- What the position of a voice's modulators can depend on: the sample rate of the last `init` and the number of frames rendered
since the last `init` or `reset`. -/
structure Clock (α : Type) where
  rate : α
  frames : ℕ

/-- What one call does to the clock. -/
def Clock.step (c : Clock α) : Op α → Clock α
  | .init sr => ⟨sr, 0⟩
  | .reset => ⟨c.rate, 0⟩
  | .tick => ⟨c.rate, c.frames + 1⟩
  | .process buf => ⟨c.rate, c.frames + buf.length⟩
  | .processAdd buf => ⟨c.rate, c.frames + buf.length⟩
  | _ => c

/-- The clock after a history of calls. -/
def clock (sr : α) (ops : List (Op α)) : Clock α := ops.foldl Clock.step ⟨sr, 0⟩

/-- A generator of one point per second with the default seed. -/
def panStart (sr : α) : LFNoise2.Osc α := LFNoise2.setFrequency (lit 1) (LFNoise2.init sr 12345)

/-- The `i`-th number drawn from the default seed. -/
def draw (i : ℕ) : α := LFNoise2.seedSample (LFNoise2.nextSeed^[i + 1] 12345)

/-! ### Proofs -/

omit [Libm α] in
theorem noise_tick_fixed (s : LFNoise2.Osc α) : (LFNoise2.tick s).1.frequency = s.frequency ∧
    (LFNoise2.tick s).1.phaseIncrement = s.phaseIncrement ∧ (LFNoise2.tick s).1.sampleRate = s.sampleRate := by
  unfold LFNoise2.tick
  by_cases c : ((s.phase + s.phaseIncrement) >=. lit 1) = true <;> simp [c]

omit [Libm α] in
theorem noise_ticks_fixed (s : LFNoise2.Osc α) (n : ℕ) : (tickState LFNoise2.tick n s).frequency = s.frequency ∧
    (tickState LFNoise2.tick n s).phaseIncrement = s.phaseIncrement ∧ (tickState LFNoise2.tick n s).sampleRate = s.sampleRate := by
  induction n with
  | zero => exact ⟨rfl, rfl, rfl⟩
  | succ n ih =>
    rw [tickState_succ]
    obtain ⟨h1, h2, h3⟩ := noise_tick_fixed (tickState LFNoise2.tick n s)
    exact ⟨h1.trans ih.1, h2.trans ih.2.1, h3.trans ih.2.2⟩

omit [Libm α] in
theorem modulate_pan (s : Voice α) : (modulate s).panModulator = s.panModulator ∧ (modulate s).env = s.env ∧
    (modulate s).amplitude = s.amplitude ∧ (modulate s).panDepth = s.panDepth := by
  unfold modulate
  by_cases c : (s.vibratoDepth >. lit 0) = true <;> simp [c]

theorem tick_pan (s : Voice α) : (tick s).1.panModulator = (LFNoise2.tick s.panModulator).1 := by
  show (LFNoise2.tick (modulate s).panModulator).1 = _
  rw [(modulate_pan s).1]

theorem blocks_state (s : Voice α) (buf : List (Stereo α)) :
    (process s buf).1 = tickState tick buf.length s ∧ (processAdd s buf).1 = tickState tick buf.length s := by
  induction buf generalizing s with
  | nil => exact ⟨rfl, rfl⟩
  | cons b bs ih =>
    have h := ih (tick s).1
    refine ⟨?_, ?_⟩
    · exact h.1
    · exact h.2

theorem ticks_pan (s : Voice α) (n : ℕ) : (tickState tick n s).panModulator = tickState LFNoise2.tick n s.panModulator := by
  induction n with
  | zero => rfl
  | succ n ih => rw [tickState_succ, tickState_succ, tick_pan, ih]

omit [Libm α] in
theorem pan_reset (sr : α) (n : ℕ) : LFNoise2.reset defaultSeed (tickState LFNoise2.tick n (panStart sr)) = panStart sr := by
  obtain ⟨h1, h2, h3⟩ := noise_ticks_fixed (panStart sr) n
  simp only [LFNoise2.reset, LFNoise2.drawPoints, h1, h2, h3]
  rfl

/-- **C95** (any arithmetic): where the pan modulator of a voice stands depends on nothing but the sample rate and the number of frames
since the last `init` or `reset`. -/
theorem C95_pan_clock (sr : α) (ops : List (Op α)) :
    (run (init sr) ops).panModulator = tickState LFNoise2.tick (clock sr ops).frames (panStart (clock sr ops).rate) := by
  suffices h : ∀ (s : Voice α) (c : Clock α), s.panModulator = tickState LFNoise2.tick c.frames (panStart c.rate) →
      (run s ops).panModulator =
        tickState LFNoise2.tick (ops.foldl Clock.step c).frames (panStart (ops.foldl Clock.step c).rate) from
    h (init sr) ⟨sr, 0⟩ rfl
  induction ops with
  | nil => intro s c h; exact h
  | cons op ops ih =>
    intro s c h
    rw [run, List.foldl_cons]
    refine ih _ _ ?_
    cases op with
    | init sr => rfl
    | reset =>
      show LFNoise2.reset defaultSeed s.panModulator = panStart c.rate
      rw [h, pan_reset]
    | tick =>
      show (tick s).1.panModulator = tickState LFNoise2.tick (c.frames + 1) (panStart c.rate)
      rw [tick_pan, tickState_succ, h]
    | process buf =>
      show (process s buf).1.panModulator = tickState LFNoise2.tick (c.frames + buf.length) (panStart c.rate)
      rw [(blocks_state s buf).1, ticks_pan, h, ← tickState_add]
    | processAdd buf =>
      show (processAdd s buf).1.panModulator = tickState LFNoise2.tick (c.frames + buf.length) (panStart c.rate)
      rw [(blocks_state s buf).2, ticks_pan, h, ← tickState_add]
    | _ => exact h

/-- **C95** (any arithmetic): two voices that were initialised or reset at the same time pan in unison, whatever else was called: the
next frame of each is its own mono sample panned by the same random value `x`, times its own pan depth. -/
theorem C95_unison (sr₁ sr₂ : α) (ops₁ ops₂ : List (Op α)) (h : clock sr₁ ops₁ = clock sr₂ ops₂) :
    let x := tickOut LFNoise2.tick (clock sr₁ ops₁).frames (panStart (clock sr₁ ops₁).rate)
    ∀ v, v = run (init sr₁) ops₁ ∨ v = run (init sr₂) ops₂ →
      (tick v).2 = Pan2.process ((SinOsc.tick (modulate v).osc).2 * (EnvelopeAR.tick v.env).2 * v.amplitude) (x * v.panDepth) := by
  intro x v hv
  have hp : v.panModulator = tickState LFNoise2.tick (clock sr₁ ops₁).frames (panStart (clock sr₁ ops₁).rate) := by
    rcases hv with rfl | rfl
    · exact C95_pan_clock sr₁ ops₁
    · rw [h]; exact C95_pan_clock sr₂ ops₂
  obtain ⟨h1, h2, h3, h4⟩ := modulate_pan v
  show Pan2.process ((SinOsc.tick (modulate v).osc).2 * (EnvelopeAR.tick (modulate v).env).2 * (modulate v).amplitude)
    ((LFNoise2.tick (modulate v).panModulator).2 * (modulate v).panDepth) = _
  rw [h1, h2, h3, h4, hp]
  rfl

/-- The four points of a generator are the numbers `k`, …, `k + 3` of the default seed. -/
def At (s : LFNoise2.Osc α) (k : ℕ) : Prop :=
  s.p0 = draw k ∧ s.p1 = draw (k + 1) ∧ s.p2 = draw (k + 2) ∧ s.p3 = draw (k + 3) ∧ s.seed = LFNoise2.nextSeed^[k + 4] 12345

omit [Libm α] in
theorem at_drawn (s : LFNoise2.Osc α) (h : s.seed = 12345) : At (LFNoise2.drawPoints s) 0 := by
  simp only [LFNoise2.drawPoints, LFNoise2.nextRandom, h]
  exact ⟨rfl, rfl, rfl, rfl, rfl⟩

omit [Libm α] in
theorem at_tick {s : LFNoise2.Osc α} {k : ℕ} (h : At s k) :
    At (LFNoise2.tick s).1 (if (s.phase + s.phaseIncrement) >=. lit 1 then k + 1 else k) := by
  obtain ⟨h0, h1, h2, h3, h4⟩ := h
  unfold LFNoise2.tick
  by_cases c : ((s.phase + s.phaseIncrement) >=. lit 1) = true
  · simp only [if_pos c, LFNoise2.nextRandom, h4]
    refine ⟨h1, h2, h3, ?_, ?_⟩
    · show LFNoise2.seedSample _ = LFNoise2.seedSample _
      rw [← Function.iterate_succ_apply' LFNoise2.nextSeed]
    · rw [← Function.iterate_succ_apply' LFNoise2.nextSeed]
  · simp only [if_neg c]
    exact ⟨h0, h1, h2, h3, h4⟩

omit [Libm α] in
theorem at_modulate {s : Voice α} (h : ∃ j, At s.vibrato j) : ∃ j, At (modulate s).vibrato j := by
  obtain ⟨j, h⟩ := h
  unfold modulate
  by_cases c : (s.vibratoDepth >. lit 0) = true
  · rw [if_pos c]; exact ⟨_, at_tick h⟩
  · rw [if_neg c]; exact ⟨j, h⟩

/-- **C95** (any arithmetic): in every state a voice can reach, the vibrato and the pan modulator walk over the same sequence of random
points, the numbers drawn from the seed 12345. -/
theorem C95_same_draws (sr : α) (ops : List (Op α)) :
    ∃ j k, At (run (init sr) ops).vibrato j ∧ At (run (init sr) ops).panModulator k := by
  suffices h : ∀ s : Voice α, ((∃ j, At s.vibrato j) ∧ ∃ k, At s.panModulator k) →
      (∃ j, At (run s ops).vibrato j) ∧ ∃ k, At (run s ops).panModulator k by
    obtain ⟨⟨j, hj⟩, k, hk⟩ := h (init sr) ⟨⟨0, at_drawn _ rfl⟩, 0, at_drawn _ rfl⟩
    exact ⟨j, k, hj, hk⟩
  have ht : ∀ s : Voice α, ((∃ j, At s.vibrato j) ∧ ∃ k, At s.panModulator k) →
      (∃ j, At (tick s).1.vibrato j) ∧ ∃ k, At (tick s).1.panModulator k := by
    intro s hs
    refine ⟨at_modulate hs.1, ?_⟩
    obtain ⟨k, hk⟩ := hs.2
    rw [tick_pan]
    exact ⟨_, at_tick hk⟩
  have hts : ∀ (n : ℕ) (s : Voice α), ((∃ j, At s.vibrato j) ∧ ∃ k, At s.panModulator k) →
      (∃ j, At (tickState tick n s).vibrato j) ∧ ∃ k, At (tickState tick n s).panModulator k := by
    intro n s hs
    induction n with
    | zero => exact hs
    | succ n ih => rw [tickState_succ]; exact ht _ ih
  induction ops with
  | nil => intro s h; exact h
  | cons op ops ih =>
    intro s h
    refine ih _ ?_
    cases op with
    | init sr => exact ⟨⟨0, at_drawn _ rfl⟩, 0, at_drawn _ rfl⟩
    | reset => exact ⟨⟨0, at_drawn _ rfl⟩, 0, at_drawn _ rfl⟩
    | tick => exact ht s h
    | process buf =>
      show (∃ j, At (process s buf).1.vibrato j) ∧ ∃ k, At (process s buf).1.panModulator k
      rw [(blocks_state s buf).1]; exact hts _ s h
    | processAdd buf =>
      show (∃ j, At (processAdd s buf).1.vibrato j) ∧ ∃ k, At (processAdd s buf).1.panModulator k
      rw [(blocks_state s buf).2]; exact hts _ s h
    | _ => exact h

/-- Calls that leave the vibrato on, at one point per second. -/
def Steady : Op α → Prop
  | .setVibratoRate r => r = lit 1
  | .setVibratoDepth d => (d >. lit 0) = true
  | .init _ => False
  | _ => True

/-- **C95** (any arithmetic): with the vibrato at the rate of the pan modulator, pitch and position move together for ever: in every frame
the same random value `x` sets the frequency and the position. -/
theorem C95_same_wave (sr d : α) (hd : (d >. lit 0) = true) (ops : List (Op α)) (ho : ∀ op ∈ ops, Steady op) :
    let v := run (init sr) (.setVibratoDepth d :: .setVibratoRate (lit 1) :: ops)
    let x := (LFNoise2.tick v.panModulator).2
    v.vibrato = v.panModulator ∧
    (tick v).1.osc.frequency = v.baseFrequency * (lit 1 + x * v.vibratoDepth * lit 0.057762265) ∧
    (tick v).2 = Pan2.process ((SinOsc.tick (modulate v).osc).2 * (EnvelopeAR.tick v.env).2 * v.amplitude) (x * v.panDepth) := by
  intro v x
  have ht : ∀ s : Voice α, (s.vibrato = s.panModulator ∧ (s.vibratoDepth >. lit 0) = true) →
      (tick s).1.vibrato = (tick s).1.panModulator ∧ ((tick s).1.vibratoDepth >. lit 0) = true := by
    intro s hs
    rw [tick_pan]
    show (modulate s).vibrato = _ ∧ ((modulate s).vibratoDepth >. lit 0) = true
    unfold modulate
    rw [if_pos hs.2]
    exact ⟨by rw [← hs.1], hs.2⟩
  have hts : ∀ (n : ℕ) (s : Voice α), (s.vibrato = s.panModulator ∧ (s.vibratoDepth >. lit 0) = true) →
      (tickState tick n s).vibrato = (tickState tick n s).panModulator ∧ ((tickState tick n s).vibratoDepth >. lit 0) = true := by
    intro n s hs
    induction n with
    | zero => exact hs
    | succ n ih => rw [tickState_succ]; exact ht _ ih
  have key : ∀ (ops : List (Op α)) (s : Voice α), (∀ op ∈ ops, Steady op) →
      (s.vibrato = s.panModulator ∧ (s.vibratoDepth >. lit 0) = true) ∧ (∃ n, s.panModulator = tickState LFNoise2.tick n (panStart s.panModulator.sampleRate)) →
      (run s ops).vibrato = (run s ops).panModulator ∧ ((run s ops).vibratoDepth >. lit 0) = true := by
    intro ops
    induction ops with
    | nil => intro s _ h; exact h.1
    | cons op ops ih =>
      intro s ho h
      have hop := ho op List.mem_cons_self
      refine ih _ (fun o h => ho o (List.mem_cons_of_mem _ h)) ?_
      obtain ⟨hs, m, hm⟩ := h
      have hpt : ∀ n, ∃ k, (tickState tick n s).panModulator =
          tickState LFNoise2.tick k (panStart (tickState tick n s).panModulator.sampleRate) := by
        intro n
        refine ⟨m + n, ?_⟩
        rw [ticks_pan, (noise_ticks_fixed _ n).2.2]
        conv_lhs => rw [hm]
        rw [← tickState_add]
      cases op with
      | init sr => exact hop.elim
      | setVibratoRate r =>
        have hr : r = lit 1 := hop
        refine ⟨⟨?_, hs.2⟩, m, hm⟩
        show LFNoise2.setFrequency r s.vibrato = s.panModulator
        rw [hr, hs.1, hm]
        obtain ⟨h1, h2, h3⟩ := noise_ticks_fixed (panStart s.panModulator.sampleRate) m
        generalize tickState LFNoise2.tick m (panStart s.panModulator.sampleRate) = q at h1 h2 h3
        have e1 : (if (lit 1 : α) >. lit 0 then (lit 1 : α) else lit 0.001) = q.frequency := by rw [h1]; rfl
        simp only [LFNoise2.setFrequency, LFNoise2.updatePhaseIncrement, e1]
        have e2 : q.frequency / q.sampleRate = q.phaseIncrement := by rw [h1, h2, h3]; rfl
        rw [e2]
      | setVibratoDepth d => exact ⟨⟨hs.1, hop⟩, m, hm⟩
      | reset =>
        refine ⟨⟨?_, hs.2⟩, 0, ?_⟩
        · show LFNoise2.reset defaultSeed s.vibrato = LFNoise2.reset defaultSeed s.panModulator
          rw [hs.1]
        · show LFNoise2.reset defaultSeed s.panModulator = panStart (LFNoise2.reset defaultSeed s.panModulator).sampleRate
          rw [hm, pan_reset]; rfl
      | tick => exact ⟨ht s hs, hpt 1⟩
      | process buf =>
        show ((process s buf).1.vibrato = (process s buf).1.panModulator ∧ ((process s buf).1.vibratoDepth >. lit 0) = true) ∧
          ∃ n, (process s buf).1.panModulator = tickState LFNoise2.tick n (panStart (process s buf).1.panModulator.sampleRate)
        rw [(blocks_state s buf).1]; exact ⟨hts _ s hs, hpt _⟩
      | processAdd buf =>
        show ((processAdd s buf).1.vibrato = (processAdd s buf).1.panModulator ∧ ((processAdd s buf).1.vibratoDepth >. lit 0) = true) ∧
          ∃ n, (processAdd s buf).1.panModulator = tickState LFNoise2.tick n (panStart (processAdd s buf).1.panModulator.sampleRate)
        rw [(blocks_state s buf).2]; exact ⟨hts _ s hs, hpt _⟩
      | _ => exact ⟨hs, m, hm⟩
  obtain ⟨h1, h2⟩ := key ops (setVibratoRate (lit 1) (setVibratoDepth d (init sr))) ho ⟨⟨rfl, hd⟩, 0, rfl⟩
  refine ⟨h1, ?_, ?_⟩
  · show (modulate v).osc.frequency = _
    unfold modulate
    rw [if_pos (show (v.vibratoDepth >. lit 0) = true from h2)]
    show v.baseFrequency * (lit 1 + (LFNoise2.tick v.vibrato).2 * v.vibratoDepth * lit 0.057762265) = _
    rw [show v.vibrato = v.panModulator from h1]
  · obtain ⟨g1, g2, g3, g4⟩ := modulate_pan v
    show Pan2.process ((SinOsc.tick (modulate v).osc).2 * (EnvelopeAR.tick (modulate v).env).2 * (modulate v).amplitude)
      ((LFNoise2.tick (modulate v).panModulator).2 * (modulate v).panDepth) = _
    rw [g1, g2, g3, g4]

end any

/-! ### The default vibrato is the pan movement, five times as fast -/

/-- Where a generator with phase increment `a` stands after `m` samples. -/
theorem noise_walk (s : LFNoise2.Osc ℝ) (a : ℝ) (h0 : s.phase = 0) (ha : s.phaseIncrement = a) (a0 : 0 ≤ a) (a1 : a ≤ 1)
    (h : At s 0) (m : ℕ) : ∃ k : ℕ, At (tickState LFNoise2.tick m s) k ∧ 0 ≤ (tickState LFNoise2.tick m s).phase ∧
      (tickState LFNoise2.tick m s).phase < 1 ∧ k + (tickState LFNoise2.tick m s).phase = m * a := by
  induction m with
  | zero => exact ⟨0, h, h0.ge, by rw [tickState_zero, h0]; exact one_pos, by rw [tickState_zero, h0]; simp⟩
  | succ m ih =>
    obtain ⟨k, g1, g2, g3, g4⟩ := ih
    have hi := (noise_ticks_fixed s m).2.1
    rw [tickState_succ]
    generalize tickState LFNoise2.tick m s = q at *
    rw [ha] at hi
    have ht := at_tick g1
    have hc : ((q.phase + q.phaseIncrement) >=. lit 1) = true ↔ 1 ≤ q.phase + a := by
      rw [hi]; simp only [real_arith]; norm_num
    by_cases c : 1 ≤ q.phase + a
    · have hp : (LFNoise2.tick q).1.phase = q.phase + a - 1 := by
        unfold LFNoise2.tick
        simp only [if_pos (hc.2 c)]
        rw [hi]; simp only [real_arith]; norm_num
      rw [if_pos (hc.2 c)] at ht
      refine ⟨k + 1, ht, by rw [hp]; linarith, by rw [hp]; linarith, by rw [hp]; push_cast; linarith⟩
    · have hn : ¬ ((q.phase + q.phaseIncrement) >=. lit 1) = true := fun g => c (hc.1 g)
      have hp : (LFNoise2.tick q).1.phase = q.phase + a := by
        unfold LFNoise2.tick
        simp only [if_neg hn]
        rw [hi]
      rw [if_neg hn] at ht
      refine ⟨k, ht, by rw [hp]; linarith, by rw [hp]; linarith, by rw [hp]; push_cast; linarith⟩

/-- **C95** (exact arithmetic): with a vibrato of `r` points per second the pan modulator repeats what the vibrato did, `r` times as
slowly: its value at sample `r n` is the vibrato's value at sample `n`. `init` sets `r = 5`. -/
theorem C95_stretched (sr : ℝ) (r : ℕ) (r0 : 0 < r) (hr : (r : ℝ) ≤ sr) (n : ℕ) :
    tickOut LFNoise2.tick (r * n) (init sr).panModulator = tickOut LFNoise2.tick n (setVibratoRate (r : ℝ) (init sr)).vibrato := by
  have hr0 : (0:ℝ) < r := by exact_mod_cast r0
  have hr1 : (1:ℝ) ≤ r := by exact_mod_cast r0
  have hs : 0 < sr := by linarith
  have i1 : (init sr).panModulator.phaseIncrement = 1 / sr := by
    simp [init, LFNoise2.setFrequency, LFNoise2.updatePhaseIncrement, LFNoise2.init, LFNoise2.drawPoints, LFNoise2.nextRandom, real_arith]
  have i2 : (setVibratoRate (r : ℝ) (init sr)).vibrato.phaseIncrement = r / sr := by
    have : ((r:ℝ) >. lit 0) = true := by simp only [real_arith]; norm_num; exact r0
    simp [init, setVibratoRate, LFNoise2.setFrequency, LFNoise2.updatePhaseIncrement, LFNoise2.init, LFNoise2.drawPoints,
      LFNoise2.nextRandom, this]
  have z : (lit 0 : ℝ) = 0 := by simp only [real_arith]; norm_num
  obtain ⟨k, a1, a2, a3, a4⟩ := noise_walk (init sr).panModulator _ z i1 (by positivity)
    (by rw [div_le_one hs]; linarith) (at_drawn _ rfl) (r * n)
  obtain ⟨l, b1, b2, b3, b4⟩ := noise_walk (setVibratoRate (r : ℝ) (init sr)).vibrato _ z i2 (by positivity)
    (by rw [div_le_one hs]; exact hr) (at_drawn _ rfl) n
  have e : (k:ℝ) + (tickState LFNoise2.tick (r * n) (init sr).panModulator).phase =
      l + (tickState LFNoise2.tick n (setVibratoRate (r : ℝ) (init sr)).vibrato).phase := by
    rw [a4, b4]; push_cast; ring
  unfold tickOut
  generalize tickState LFNoise2.tick (r * n) (init sr).panModulator = p at *
  generalize tickState LFNoise2.tick n (setVibratoRate (r : ℝ) (init sr)).vibrato = q at *
  have hk : k = l := by
    have h1 : (k:ℝ) < l + 1 := by linarith
    have h2 : (l:ℝ) < k + 1 := by linarith
    have h3 : k < l + 1 := by exact_mod_cast h1
    have h4 : l < k + 1 := by exact_mod_cast h2
    omega
  subst hk
  obtain ⟨c0, c1, c2, c3, -⟩ := a1
  obtain ⟨d0, d1, d2, d3, -⟩ := b1
  have ep : p.phase = q.phase := by linarith
  simp only [LFNoise2.tick, ep, c0, c1, c2, c3, d0, d1, d2, d3]

/-- As initialised: the pan position at sample 500 is the vibrato's value at sample 100. -/
example : tickOut LFNoise2.tick 500 (init (48000 : ℝ)).panModulator = tickOut LFNoise2.tick 100 (init (48000 : ℝ)).vibrato := by
  have h := C95_stretched 48000 5 (by norm_num) (by norm_num) 100
  have e : setVibratoRate ((5 : ℕ) : ℝ) (init (48000 : ℝ)) = init 48000 := by
    have : (lit 5 : ℝ) = 5 := by simp only [real_arith]; norm_num
    show ({ init (48000 : ℝ) with vibrato := LFNoise2.setFrequency _ (LFNoise2.setFrequency (lit 5) _) } : Voice ℝ) = _
    rw [this]; rfl
  rw [e] at h
  exact h

/-- Two voices at different pitches, one of them rendered in blocks: they stand at the same position. -/
example [Libm F32] : (run (init (lit 48000 : F32)) [.setFrequency (lit 220), .trigger, .tick, .tick, .tick]).panModulator =
    (run (init (lit 44100 : F32)) [.init (lit 48000), .setPanDepth (lit 0.5), .tick, .reset, .process [⟨lit 0, lit 0⟩, ⟨lit 0, lit 0⟩], .release,
      .tick]).panModulator := by
  rw [C95_pan_clock, C95_pan_clock]; rfl

/-- A history that meets the hypotheses of `C95_same_wave`. -/
example [Libm F32] : (run (init (lit 48000 : F32)) [.setVibratoDepth (lit 0.5), .setVibratoRate (lit 1), .trigger, .tick, .reset, .tick]).vibrato =
    (run (init (lit 48000 : F32)) [.setVibratoDepth (lit 0.5), .setVibratoRate (lit 1), .trigger, .tick, .reset, .tick]).panModulator :=
  (C95_same_wave (lit 48000) (lit 0.5) (by decide +kernel) [.trigger, .tick, .reset, .tick] (by
    simp [Steady])).1

end Verif.ExampleVoice
