import Verif.Props.XPlayLoop
import Verif.Props.Envelopes

/-!
# C84: the player starts, holds and stops with its gate (ideal arithmetic)
-/

namespace Verif

namespace EnvelopeADSR

/-- The level a note has `n` samples after its start (0 for the first sample): it comes closer to 1 by the factor `a` each sample and is 1
from the time on it would be within 0.001. -/
noncomputable def rise (a : ℝ) (n : ℕ) : ℝ := if a ^ (n + 1) ≤ 0.001 then 1 else 1 - a ^ (n + 1)

/-- The level `n` samples after a release from `v`: it falls by the factor `ρ` each sample and is 0 from the time on it would be within
0.0001. -/
noncomputable def fall (ρ v : ℝ) (n : ℕ) : ℝ := if ρ ^ (n + 1) * v ≤ 0.0001 then 0 else ρ ^ (n + 1) * v

theorem tickState_succ {σ γ : Type} (t : σ → σ × γ) (n : ℕ) (s : σ) : tickState t (n + 1) s = (t (tickState t n s)).1 :=
  Function.iterate_succ_apply' _ _ _

/-- A held note with full sustain. -/
theorem rise_level (s : Env ℝ) (h1 : s.state = .attack) (h2 : 0 < s.gateValue) (h3 : s.sustainLevel = 1) (h4 : s.value = 0)
    (ha0 : 0 ≤ s.attackCoeff) (ha1 : s.attackCoeff ≤ 1) (n : ℕ) : tickOut tick n s = rise s.attackCoeff n := by
  have q1 : (((0.999 : ℚ)) : ℝ) = 0.999 := by norm_num
  have q2 : (((0.001 : ℚ)) : ℝ) = 0.001 := by norm_num
  have step : ∀ t : Env ℝ, ∀ k, 0 < t.gateValue → t.sustainLevel = 1 → t.attackCoeff = s.attackCoeff →
      (if s.attackCoeff ^ k ≤ 0.001 then (t.state = .decay ∨ t.state = .sustain) ∧ t.value = 1
        else t.state = .attack ∧ t.value = 1 - s.attackCoeff ^ k) →
      (tick t).2 = (tick t).1.value ∧
      (if s.attackCoeff ^ (k + 1) ≤ 0.001 then ((tick t).1.state = .decay ∨ (tick t).1.state = .sustain) ∧ (tick t).1.value = 1
        else (tick t).1.state = .attack ∧ (tick t).1.value = 1 - s.attackCoeff ^ (k + 1)) ∧
      0 < (tick t).1.gateValue ∧ (tick t).1.sustainLevel = 1 ∧ (tick t).1.attackCoeff = s.attackCoeff := by
    intro t k g1 g2 g3 g4
    have hmono : s.attackCoeff ^ (k + 1) ≤ s.attackCoeff ^ k := pow_le_pow_of_le_one ha0 ha1 (Nat.le_succ k)
    have gn : ¬ t.gateValue ≤ 0 := not_le.2 g1
    refine ⟨rfl, ?_⟩
    by_cases c : s.attackCoeff ^ k ≤ 0.001
    · rw [if_pos c] at g4
      rw [if_pos (hmono.trans c)]
      rcases g4 with ⟨e | e, v⟩ <;> simp [tick, e, v, g2, g3, gn, g1, real_arith]
      norm_num
      simp [g1]
    · rw [if_neg c] at g4
      obtain ⟨e, v⟩ := g4
      have hv : 1 - s.attackCoeff * (1 - (1 - s.attackCoeff ^ k)) = 1 - s.attackCoeff ^ (k + 1) := by ring
      by_cases c' : s.attackCoeff ^ (k + 1) ≤ 0.001
      · have : (0.999 : ℝ) ≤ 1 - s.attackCoeff ^ (k + 1) := by norm_num at c' ⊢; linarith
        rw [if_pos c']
        simp only [tick, e, v, g3, real_arith, Rat.cast_one, hv, q1, this, Rat.cast_zero, gn, decide_true, decide_false, if_true,
          Bool.false_eq_true, if_false]
        exact ⟨⟨.inl trivial, trivial⟩, g1, g2, trivial⟩
      · have : ¬ (0.999 : ℝ) ≤ 1 - s.attackCoeff ^ (k + 1) := by norm_num at c' ⊢; linarith
        rw [if_neg c']
        simp only [tick, e, v, g3, real_arith, Rat.cast_one, hv, q1, this, Rat.cast_zero, gn, decide_false, Bool.false_eq_true, if_false]
        exact ⟨⟨trivial, trivial⟩, g1, g2, trivial⟩
  have inv : ∀ k, 0 < (tickState tick k s).gateValue ∧ (tickState tick k s).sustainLevel = 1 ∧
      (tickState tick k s).attackCoeff = s.attackCoeff ∧
      (if s.attackCoeff ^ k ≤ 0.001 then ((tickState tick k s).state = .decay ∨ (tickState tick k s).state = .sustain) ∧ (tickState tick k s).value = 1
        else (tickState tick k s).state = .attack ∧ (tickState tick k s).value = 1 - s.attackCoeff ^ k) := by
    intro k
    induction k with
    | zero => refine ⟨h2, h3, rfl, ?_⟩; rw [pow_zero, if_neg (by norm_num)]; exact ⟨h1, by rw [sub_self]; exact h4⟩
    | succ k ih =>
      obtain ⟨i1, i2, i3, i4⟩ := ih
      obtain ⟨-, a, b, c, d⟩ := step _ k i1 i2 i3 i4
      rw [tickState_succ]
      exact ⟨b, c, d, a⟩
  obtain ⟨i1, i2, i3, i4⟩ := inv n
  obtain ⟨a, b, -⟩ := step _ n i1 i2 i3 i4
  show (tick (tickState tick n s)).2 = _
  rw [a, rise]
  split_ifs at b ⊢
  · exact b.2
  · exact b.2

/-- A released note. -/
theorem fall_level (s : Env ℝ) (h1 : s.state = .release) (h4 : 0 ≤ s.value) (ha0 : 0 ≤ s.releaseCoeff) (ha1 : s.releaseCoeff ≤ 1)
    (hd : s.done = false) (n : ℕ) :
    tickOut tick n s = fall s.releaseCoeff s.value n ∧
      (isDone (tickState tick (n + 1) s) = true ↔ s.releaseCoeff ^ (n + 1) * s.value ≤ 0.0001) := by
  have q1 : (((0.0001 : ℚ)) : ℝ) = 0.0001 := by norm_num
  have step : ∀ t : Env ℝ, ∀ k, t.releaseCoeff = s.releaseCoeff →
      (if 1 ≤ k ∧ s.releaseCoeff ^ k * s.value ≤ 0.0001 then t.state = .idle ∧ t.done = true
        else t.state = .release ∧ t.value = s.releaseCoeff ^ k * s.value ∧ t.done = false) →
      (tick t).1.releaseCoeff = s.releaseCoeff ∧
      (if s.releaseCoeff ^ (k + 1) * s.value ≤ 0.0001 then (tick t).1.state = .idle ∧ (tick t).1.done = true ∧ (tick t).2 = 0
        else (tick t).1.state = .release ∧ (tick t).1.value = s.releaseCoeff ^ (k + 1) * s.value ∧ (tick t).1.done = false ∧
          (tick t).2 = s.releaseCoeff ^ (k + 1) * s.value) := by
    intro t k g3 g4
    have hmono : s.releaseCoeff ^ (k + 1) * s.value ≤ s.releaseCoeff ^ k * s.value :=
      mul_le_mul_of_nonneg_right (pow_le_pow_of_le_one ha0 ha1 (Nat.le_succ k)) h4
    by_cases c : 1 ≤ k ∧ s.releaseCoeff ^ k * s.value ≤ 0.0001
    · rw [if_pos c] at g4
      rw [if_pos (hmono.trans c.2)]
      obtain ⟨e, d⟩ := g4
      simp [tick, e, d, g3, real_arith]
    · rw [if_neg c] at g4
      obtain ⟨e, v, d⟩ := g4
      have hv : s.releaseCoeff * (s.releaseCoeff ^ k * s.value) = s.releaseCoeff ^ (k + 1) * s.value := by ring
      by_cases c' : s.releaseCoeff ^ (k + 1) * s.value ≤ 0.0001
      · rw [if_pos c']
        simp only [tick, e, v, g3, real_arith, hv, q1, c', decide_true, if_true, Rat.cast_zero, and_self]
      · rw [if_neg c']
        simp only [tick, e, v, d, g3, real_arith, hv, q1, c', decide_false, Bool.false_eq_true, if_false, and_self]
  have inv : ∀ k, (tickState tick k s).releaseCoeff = s.releaseCoeff ∧
      (if 1 ≤ k ∧ s.releaseCoeff ^ k * s.value ≤ 0.0001 then (tickState tick k s).state = .idle ∧ (tickState tick k s).done = true
        else (tickState tick k s).state = .release ∧ (tickState tick k s).value = s.releaseCoeff ^ k * s.value ∧
          (tickState tick k s).done = false) := by
    intro k
    induction k with
    | zero => refine ⟨rfl, ?_⟩; rw [if_neg (by simp)]; exact ⟨h1, by simp [tickState], hd⟩
    | succ k ih =>
      obtain ⟨a, b⟩ := step _ k ih.1 ih.2
      rw [tickState_succ]
      refine ⟨a, ?_⟩
      by_cases c : s.releaseCoeff ^ (k + 1) * s.value ≤ 0.0001
      · rw [if_pos c] at b; rw [if_pos ⟨by omega, c⟩]; exact ⟨b.1, b.2.1⟩
      · rw [if_neg c] at b; rw [if_neg (fun h => c h.2)]; exact ⟨b.1, b.2.1, b.2.2.1⟩
  obtain ⟨a, b⟩ := step _ n (inv n).1 (inv n).2
  rw [tickState_succ]
  show (tick (tickState tick n s)).2 = _ ∧ (_ ↔ _)
  rw [fall, isDone]
  split_ifs at b ⊢ with c
  · exact ⟨b.2.2, by simp [b.2.1, c]⟩
  · exact ⟨b.2.2.2, by simp [b.2.2.1, c]⟩

end EnvelopeADSR

namespace XPlay
open BufRd (curve)

/-- The envelope of a sounding player has moved on by one tick a sample. -/
theorem process_env {s s' : Player ℝ} {m : Mem ℝ} {n : ℕ} {out : List (Stereo ℝ)} (h : process s m n = some (s', out)) {b : Buffer ℝ}
    (hb : s.buffer = some b) (hv : b.isValid = true) (hw : InWindow s) (hy : Synced s) (hpos : 0 < s.loopSize)
    (hr : |speed s b| ≤ 2 * s.loopSize) : s'.env = tickState EnvelopeADSR.tick n s.env := by
  induction n generalizing s out with
  | zero =>
    simp only [process, Option.some.injEq, Prod.mk.injEq] at h
    rw [← h.1]; rfl
  | succ n ih =>
    simp only [process] at h
    rw [Option.bind_eq_some_iff] at h
    obtain ⟨⟨s1, y⟩, h1, h⟩ := h
    rw [Option.map_eq_some_iff] at h
    obtain ⟨⟨s2, ys⟩, h2, h⟩ := h
    cases h
    obtain ⟨a1, a2, a3, a4, a5, a6, b1, b2, b3, b4, -⟩ := tick_moves h1 hb hv hw hy hpos hr
    rw [ih h2 a3 a1 a2 (by rw [a5]; exact hpos) (by rw [a6, a5]; exact hr), b4]
    rfl

/-- **C64, rate** (ideal arithmetic): after `setRate(r)` the head moves `r` times the ratio of the sample rates per sample, backwards for
negative `r` and once more turned round if the loop points are swapped. -/
theorem C64_set_rate {s s' : Player ℝ} {m : Mem ℝ} {n : ℕ} {out : List (Stereo ℝ)} (r : ℝ) (h : process (setRate r s) m n = some (s', out))
    {b : Buffer ℝ} (hb : s.buffer = some b) (hv : b.isValid = true) (hw : InWindow s) (hy : Synced s) (hpos : 0 < s.loopSize)
    (hr : |r * (if 0 < b.sampleRate then b.sampleRate / s.sampleRate else 1)| ≤ 2 * s.loopSize) :
    s'.phasor = fold s.loopStart (2 * s.loopSize)
      (s.phasor + n * (r * (if 0 < b.sampleRate then b.sampleRate / s.sampleRate else 1) * (if s.stop < s.start then -1 else 1))) := by
  refine C64_pitch h hb hv hw hy hpos ?_
  show |r * (if 0 < b.sampleRate then b.sampleRate / s.sampleRate else 1) * (if s.stop < s.start then -1 else 1)| ≤ _
  refine le_trans (le_of_eq ?_) hr
  rw [abs_mul]
  split_ifs <;> simp

/-- The factor per sample of an exponential with time constant `max(t, 0.0001)` seconds. -/
noncomputable def coeffOf (t sr : ℝ) : ℝ := Real.exp (-(1 / (max t 0.0001 * sr)))

theorem coeffOf_range {t sr : ℝ} (h : 0 < sr) : 0 ≤ coeffOf t sr ∧ coeffOf t sr ≤ 1 := by
  refine ⟨(Real.exp_pos _).le, ?_⟩
  rw [coeffOf, Real.exp_le_one_iff]
  have : 0 < max t 0.0001 := lt_max_of_lt_right (by norm_num)
  have : 0 ≤ 1 / (max t 0.0001 * sr) := by positivity
  linarith

theorem time_max (t : ℝ) : (if t >. (lit 0.0001 : ℝ) then t else lit 0.0001) = max t 0.0001 := by
  have q1 : (((0.0001 : ℚ)) : ℝ) = 0.0001 := by norm_num
  simp only [real_arith, q1, decide_eq_true_eq]
  split_ifs with h
  · rw [max_eq_left h.le]
  · rw [max_eq_right (not_lt.1 h)]

/-- The state after `init`. -/
theorem init_state (sr : ℝ) (s : Player ℝ) (hg : 0 < s.gateValue) : ∃ s1, init sr s = some s1 ∧ s1.sampleRate = sr ∧ s1.rate = s.rate ∧
    s1.start = s.start ∧ s1.stop = s.stop ∧ s1.playMode = s.playMode ∧ s1.reader.loop = true ∧ s1.reader.interpolation = 2 ∧
    s1.fadeLag.currentValue = -1 ∧ s1.fadeLag.targetValue = -1 ∧ s1.fadeLag.samplesRemaining = 0 ∧
    s1.env.state = .attack ∧ 0 < s1.env.gateValue ∧ s1.env.sustainLevel = 1 ∧ s1.env.value = 0 ∧ s1.env.done = false ∧
    s1.env.attackCoeff = coeffOf s.fadeTime sr ∧ s1.env.releaseCoeff = coeffOf s.fadeTime sr := by
  obtain ⟨l, hl, l1, l2, l3⟩ : ∃ l, LagLinear.init sr (-lit 1) s.fadeTime = some l ∧ l.currentValue = -1 ∧ l.targetValue = -1 ∧
      l.samplesRemaining = 0 := by
    simp only [LagLinear.init, LagLinear.setTime, Arith.ne, real_arith]
    split_ifs with h1 h2
    · exact ⟨_, rfl, by norm_num, by norm_num, rfl⟩
    · simp at h2
    · exact ⟨_, rfl, by norm_num, by norm_num, rfl⟩
  have e1 : -((1 : ℚ) : ℝ) / (max s.fadeTime 0.0001 * sr) = -(1 / (max s.fadeTime 0.0001 * sr)) := by push_cast; rw [neg_div]
  have hcl : clamp (lit 1 : ℝ) (lit 0) (lit 1) = 1 := by
    rw [clamp_real (by simp [real_arith])]
    simp [real_arith]
  have hga : ∀ e : EnvelopeADSR.Env ℝ, e.gateValue = 0 → EnvelopeADSR.gate s.gateValue e = { e with gateValue := s.gateValue, state := .attack, done := false } := by
    intro e he
    have := (C15_adsr_gate_edges e s.gateValue).1 (by rw [he]; simp [real_arith]) (by simp [real_arith, hg])
    exact this
  obtain ⟨E0, hE0⟩ : ∃ E0, E0 = (EnvelopeADSR.setDoneAction .free <| EnvelopeADSR.setRelease s.fadeTime <|
      EnvelopeADSR.setSustain (lit 1) <| EnvelopeADSR.setDecay (lit 0) <| EnvelopeADSR.setAttack s.fadeTime <|
      EnvelopeADSR.init sr : EnvelopeADSR.Env ℝ) := ⟨_, rfl⟩
  have hi : init sr s = updateLoopBounds 0 true { s with sampleRate := sr, reader := BufRd.init none, fadeLag := l,
                                                         env := EnvelopeADSR.gate s.gateValue E0 } := by
    rw [init, hl, Option.bind_some, hE0]
  have hg0 : E0.gateValue = 0 := by
    rw [hE0]
    simp [EnvelopeADSR.setDoneAction, EnvelopeADSR.setRelease, EnvelopeADSR.setSustain, EnvelopeADSR.setDecay, EnvelopeADSR.setAttack,
      EnvelopeADSR.init, EnvelopeADSR.updateReleaseCoefficient, EnvelopeADSR.updateDecayCoefficient, EnvelopeADSR.updateAttackCoefficient,
      EnvelopeADSR.updateCoefficients, real_arith]
  have hv0 : E0.value = 0 := by
    rw [hE0]
    simp [EnvelopeADSR.setDoneAction, EnvelopeADSR.setRelease, EnvelopeADSR.setSustain, EnvelopeADSR.setDecay, EnvelopeADSR.setAttack,
      EnvelopeADSR.init, EnvelopeADSR.updateReleaseCoefficient, EnvelopeADSR.updateDecayCoefficient, EnvelopeADSR.updateAttackCoefficient,
      EnvelopeADSR.updateCoefficients, real_arith]
  have hc0 : E0.attackCoeff = coeffOf s.fadeTime sr ∧ E0.releaseCoeff = coeffOf s.fadeTime sr := by
    rw [hE0]
    simp only [EnvelopeADSR.setDoneAction, EnvelopeADSR.setRelease, EnvelopeADSR.setSustain, EnvelopeADSR.setDecay, EnvelopeADSR.setAttack,
      EnvelopeADSR.init, EnvelopeADSR.updateReleaseCoefficient, EnvelopeADSR.updateDecayCoefficient, EnvelopeADSR.updateAttackCoefficient,
      EnvelopeADSR.updateCoefficients, time_max]
    simp only [real_arith, e1]
    exact ⟨rfl, rfl⟩
  have hs0 : E0.sustainLevel = 1 := by rw [hE0]; exact hcl
  rw [hga E0 hg0, updateLoopBounds_reset] at hi
  exact ⟨_, hi, rfl, rfl, rfl, rfl, rfl, rfl, rfl, l1, l2, l3, rfl, hg, hs0, hv0, rfl, hc0.1, hc0.2⟩

/-- The fader stays at rest while the head is in its first loop length. -/
theorem fade_rests {l : LagLinear.Ramp ℝ} (h : l.currentValue = -1 ∧ l.targetValue = -1 ∧ l.samplesRemaining = 0) :
    LagLinear.tick l (-1) = some (l, -1) := by
  obtain ⟨c1, c2, c3⟩ := h
  simp [LagLinear.tick, LagLinear.advance, c2, c3, real_arith, Arith.ne]
  cases l; simp_all

theorem fade_rests_n {l : LagLinear.Ramp ℝ} (h : l.currentValue = -1 ∧ l.targetValue = -1 ∧ l.samplesRemaining = 0) (n : ℕ) :
    LagLinear.process l (List.replicate n (-1)) = some (l, List.replicate n (-1)) := by
  induction n with
  | zero => rfl
  | succ n ih => simp only [List.replicate_succ, LagLinear.process, fade_rests h, Option.bind_some, ih, Option.map_some]

/-- Within the first loop length a forward-playing player with its fader at rest never fails. -/
theorem first_pass_defined {m : Mem ℝ} {b : Buffer ℝ} (hv : b.isValid = true) (hN : b.numSamples < 2 ^ 62) {x z : ℕ → ℝ}
    (hx : Recording m b x z) {v : ℝ} (hv0 : 0 < v) : ∀ (n : ℕ) (s : Player ℝ), s.buffer = some b → InWindow s → Synced s → 0 < s.loopSize →
    speed s b = v → v ≤ 2 * s.loopSize → s.reader.buffer = some b → s.reader.loop = true →
    (s.fadeLag.currentValue = -1 ∧ s.fadeLag.targetValue = -1 ∧ s.fadeLag.samplesRemaining = 0) →
    s.phasor + n * v ≤ s.loopStart + s.loopSize → ∃ s' out, process s m n = some (s', out) := by
  intro n
  induction n with
  | zero => intro s _ _ _ _ _ _ _ _ _ _; exact ⟨s, [], rfl⟩
  | succ n ih =>
    intro s hb hw hy hpos hsp hr hrd hl hf hn
    have hnv : 0 ≤ n * v := by positivity
    have hn' : s.phasor + n * v + v ≤ s.loopStart + s.loopSize := by push_cast at hn; linarith
    have hlag := fade_rests hf
    have hlt : ¬ s.loopStart + s.loopSize ≤ s.phasor := by linarith
    have habs : |speed s b| ≤ 2 * s.loopSize := by rw [hsp, abs_of_pos hv0]; exact hr
    obtain ⟨s1, y, h1⟩ := tick_defined hb hv hpos hrd hl hN hx (l := s.fadeLag) (c := -1) (by rw [if_neg hlt]; exact hlag)
    obtain ⟨a1, a2, a3, a4, a5, a6, b1, b2, b3, b4, ⟨c, hc, -⟩, a7⟩ := tick_moves h1 hb hv hw hy hpos habs
    rw [if_neg hlt, hlag, Option.some.injEq, Prod.mk.injEq] at hc
    have hw' : s.loopStart ≤ s.phasor := by
      rcases hw with ⟨h0, -⟩ | hw
      · exact absurd h0 hpos.ne'
      · exact hw.1
    have hp1 : s1.phasor = s.phasor + v := by
      rw [a7, hsp, fold_id] <;> linarith
    obtain ⟨s2, ys, h2⟩ := ih s1 a3 a1 a2 (by rw [a5]; exact hpos) (by rw [a6]; exact hsp) (by rw [a5]; exact hr) (by rw [b2]; exact hrd)
      (by rw [b2]; exact hl) (by rw [← hc.1]; exact hf) (by rw [hp1, a4, a5]; linarith)
    exact ⟨s2, y :: ys, by simp [process, h1, h2]⟩

/-- **C84, playing** (ideal arithmetic). A player with an open gate, initialised and then given a recording and a rate, plays the
recording: until the head reaches the end of the loop, sample `j` is the recording at `start + j · rate · (ratio of sample rates)`, read
by linear interpolation, times a fade-in that rises to exactly 1 and stays there. -/
theorem C84_plays (s0 : Player ℝ) (hm : s0.playMode = .loop) (hg : 0 < s0.gateValue) (h0 : 0 ≤ s0.start) (h1 : s0.start < s0.stop)
    (h2 : s0.stop ≤ 1) (sr : ℝ) (hsr : 0 < sr) (b : Buffer ℝ) (hv : b.isValid = true) (hN : b.numSamples < 2 ^ 62) (m : Mem ℝ)
    (x z : ℕ → ℝ) (hx : Recording m b x z) (r : ℝ) (hr : 0 < r) (n : ℕ)
    (hn : n * (r * (if 0 < b.sampleRate then b.sampleRate / sr else 1)) ≤ (s0.stop - s0.start) * b.numSamples) :
    ∃ s1 s2 s3 out, init sr s0 = some s1 ∧ setBuffer (some b) s1 = some s2 ∧ process (setRate r s2) m n = some (s3, out) ∧
      out = (List.range n).map fun (j : ℕ) =>
        let pos := s0.start * b.numSamples + j * (r * (if 0 < b.sampleRate then b.sampleRate / sr else 1))
        let level := EnvelopeADSR.rise (coeffOf s0.fadeTime sr) j
        ⟨level * curve 2 x b.numSamples pos, level * curve 2 z b.numSamples pos⟩ := by
  obtain ⟨s1, i0, i1, i2, i3, i4, i5, i6, i7, i8, i9, i10, i11, i12, i13, i14, i15, i16, i17⟩ := init_state sr s0 hg
  have hb2 : setBuffer (some b) s1 = updateLoopBounds 0 true { s1 with buffer := some b, reader := BufRd.setBuffer (some b) s1.reader } := rfl
  obtain ⟨s2, hs2⟩ : ∃ s2, setBuffer (some b) s1 = some s2 := by rw [hb2, updateLoopBounds_reset]; exact ⟨_, rfl⟩
  have hs2' := hs2
  rw [hb2] at hs2'
  obtain ⟨hw, hy⟩ := update_ok (s := { s1 with buffer := some b, reader := BufRd.setBuffer (some b) s1.reader })
    ⟨by show 0 ≤ s1.start; rw [i3]; exact h0, by show s1.start ≤ 1; rw [i3]; linarith, by show 0 ≤ s1.stop; rw [i4]; linarith,
      by show s1.stop ≤ 1; rw [i4]; exact h2⟩ hs2'
  rw [updateLoopBounds_reset, Option.some.injEq] at hs2'
  obtain ⟨v, hvdef⟩ : ∃ v, v = r * (if 0 < b.sampleRate then b.sampleRate / sr else 1) := ⟨_, rfl⟩
  rw [← hvdef] at hn ⊢
  have hv0 : 0 < v := by
    rw [hvdef]
    split_ifs
    · positivity
    · linarith
  have f1 : s2.buffer = some b := by rw [← hs2']; rfl
  have f2 : s2.reader.buffer = some b := by rw [← hs2']; rfl
  have f3 : s2.reader.loop = true := by rw [← hs2']; exact i6
  have f4 : s2.reader.interpolation = 2 := by rw [← hs2']; exact i7
  have f5 : s2.fadeLag = s1.fadeLag := by rw [← hs2']; rfl
  have f6 : s2.env = s1.env := by rw [← hs2']; rfl
  have f7 : s2.playMode = .loop := by rw [← hs2']; exact i5.trans hm
  have f8 : s2.start = s0.start := by rw [← hs2']; exact i3
  have f9 : s2.stop = s0.stop := by rw [← hs2']; exact i4
  have f10 : s2.phasor = s2.loopStart := by rw [← hs2']
  have f11 : s2.sampleRate = sr := by rw [← hs2']; exact i1
  have hNpos : 0 < b.numSamples := by
    simp only [Buffer.isValid, Bool.and_eq_true, decide_eq_true_eq] at hv; exact hv.1.2
  have hNr : (0:ℝ) < b.numSamples := by exact_mod_cast hNpos
  have hfc : frameCount s2 = b.numSamples := by rw [frameCount, f1]; simp [hv]
  obtain ⟨y1, y2, y3, y4, y5, y6, y7, y8, y9⟩ := id hy
  rw [hfc, f8, f9] at y6 y8
  rw [min_eq_left h1.le] at y6
  rw [abs_sub_comm, abs_of_pos (by linarith)] at y8
  have hpos : 0 < s2.loopSize := by rw [y8]; exact mul_pos (by linarith) hNr
  have hsp : speed (setRate r s2) b = v := by
    show r * (if 0 < b.sampleRate then b.sampleRate / s2.sampleRate else 1) * (if s2.stop < s2.start then -1 else 1) = v
    rw [f8, f9, f11, if_neg (not_lt.2 h1.le), mul_one, hvdef]
  rcases Nat.eq_zero_or_pos n with rfl | hn0
  · exact ⟨s1, s2, _, [], i0, hs2, rfl, rfl⟩
  have hn1 : (1:ℝ) ≤ n := by exact_mod_cast hn0
  have hvl : v ≤ s2.loopSize := by rw [y8]; nlinarith
  have habs : |speed (setRate r s2) b| ≤ 2 * s2.loopSize := by rw [hsp, abs_of_pos hv0]; linarith
  have hrest : s2.fadeLag.currentValue = -1 ∧ s2.fadeLag.targetValue = -1 ∧ s2.fadeLag.samplesRemaining = 0 := by rw [f5]; exact ⟨i8, i9, i10⟩
  obtain ⟨s3, out, hp⟩ := first_pass_defined hv hN hx hv0 n (setRate r s2) f1 hw hy hpos hsp (show v ≤ 2 * s2.loopSize by linarith) f2 f3 hrest
    (by show s2.phasor + n * v ≤ s2.loopStart + s2.loopSize; rw [f10, y8]; linarith)
  obtain ⟨fade, e1, e2⟩ := C64_output hp f1 hv hw hy hpos habs f7 f2 f3 hN hx
  have hhead : ∀ j, j < n → headAt (setRate r s2) b j = s0.start * b.numSamples + j * v ∧ ¬ s2.loopStart + s2.loopSize ≤ headAt (setRate r s2) b j := by
    intro j hj
    have hj1 : (j:ℝ) + 1 ≤ n := by exact_mod_cast hj
    have hlt : (j:ℝ) * v < s2.loopSize := by rw [y8]; nlinarith
    have hj0 : 0 ≤ (j:ℝ) * v := by positivity
    have e : headAt (setRate r s2) b j = s2.loopStart + j * v := by
      show fold s2.loopStart (2 * s2.loopSize) (s2.phasor + j * speed (setRate r s2) b) = _
      rw [hsp, f10, fold_id] <;> linarith
    rw [e, y6]
    exact ⟨rfl, by linarith⟩
  have hin : ((List.range n).map fun j => if s2.loopStart + s2.loopSize ≤ headAt (setRate r s2) b j then (1:ℝ) else -1) = List.replicate n (-1) := by
    refine List.eq_replicate_iff.2 ⟨by simp, ?_⟩
    intro a ha
    obtain ⟨j, hj, rfl⟩ := List.mem_map.1 ha
    rw [if_neg (hhead j (List.mem_range.1 hj)).2]
  have hfade : fade = List.replicate n (-1) := by
    have e3 := fade_rests_n hrest n
    have e4 : LagLinear.process s2.fadeLag (List.replicate n (-1)) = some (s3.fadeLag, fade) := by rw [← hin]; exact e1
    rw [e4, Option.some.injEq, Prod.mk.injEq] at e3
    exact e3.2
  refine ⟨s1, s2, s3, out, i0, hs2, hp, ?_⟩
  rw [e2]
  refine List.map_congr_left fun j hj => ?_
  have hj := List.mem_range.1 hj
  have hfj : fade.getD j 0 = -1 := by
    rw [hfade, List.getD_eq_getElem?_getD, List.getElem?_replicate, if_pos hj]; rfl
  have hlev : tickOut EnvelopeADSR.tick j (setRate r s2).env = EnvelopeADSR.rise (coeffOf s0.fadeTime sr) j := by
    show tickOut EnvelopeADSR.tick j s2.env = _
    rw [f6, EnvelopeADSR.rise_level s1.env i11 i12 i13 i14 (by rw [i16]; exact (coeffOf_range hsr).1) (by rw [i16]; exact (coeffOf_range hsr).2), i16]
  have hint : (setRate r s2).reader.interpolation = 2 := f4
  simp only [hfj, hlev, (hhead j hj).1, panAngle_neg_one, hint]
  simp

/-- **C84, stopping** (ideal arithmetic, loop mode). Closing the gate of a sounding player fades it out from the level `v` it has, by the
factor `ρ` of its release time a sample, while it goes on playing as before; from the sample on where `ρ^(j+1) v ≤ 0.0001` the output is
exactly silent, and that is when `isDone` reports it. -/
theorem C84_stops {s s' : Player ℝ} {m : Mem ℝ} {n : ℕ} {out : List (Stereo ℝ)} (g : ℝ) (hg0 : g ≤ 0)
    (h : process (setGate g s) m n = some (s', out)) {b : Buffer ℝ}
    (hb : s.buffer = some b) (hv : b.isValid = true) (hw : InWindow s) (hy : Synced s) (hpos : 0 < s.loopSize)
    (hr : |speed s b| ≤ 2 * s.loopSize) (hm : s.playMode = .loop) (hrd : s.reader.buffer = some b) (hl : s.reader.loop = true)
    (hN : b.numSamples < 2 ^ 62) {x z : ℕ → ℝ} (hx : Recording m b x z) (hg : 0 < s.env.gateValue) (hst : s.env.state ≠ .idle)
    (hdn : s.env.done = false) (hv0 : 0 ≤ s.env.value) (hρ0 : 0 ≤ s.env.releaseCoeff) (hρ1 : s.env.releaseCoeff ≤ 1) :
    (∃ fade, LagLinear.process s.fadeLag ((List.range n).map fun j => if s.loopStart + s.loopSize ≤ headAt s b j then 1 else -1) =
        some (s'.fadeLag, fade) ∧
      out = (List.range n).map fun j =>
        let mix := fun x => EnvelopeADSR.fall s.env.releaseCoeff s.env.value j *
          (Real.cos (panAngle (fade.getD j 0)) * curve s.reader.interpolation x b.numSamples (headAt s b j) +
           Real.sin (panAngle (fade.getD j 0)) * curve s.reader.interpolation x b.numSamples (headAt s b j - s.loopSize))
        ⟨mix x, mix z⟩) ∧
    (isDone s' = true ↔ 0 < n ∧ s.env.releaseCoeff ^ n * s.env.value ≤ 0.0001) ∧
    (∀ j, s.env.releaseCoeff ^ (j + 1) * s.env.value ≤ 0.0001 → ∀ k, j ≤ k → ∀ y, out[k]? = some y → y = ⟨0, 0⟩) := by
  have hge : (setGate g s).env = { s.env with gateValue := g, state := .release } := by
    have := (C15_adsr_gate_edges s.env g).2.1 (by simp [real_arith, hg]) (by simp [real_arith, hg]) (by simp [real_arith, hg0])
    rw [if_neg hst] at this
    exact this
  have hlev : ∀ j, tickOut EnvelopeADSR.tick j (setGate g s).env = EnvelopeADSR.fall s.env.releaseCoeff s.env.value j ∧
      (EnvelopeADSR.isDone (tickState EnvelopeADSR.tick (j + 1) (setGate g s).env) = true ↔ s.env.releaseCoeff ^ (j + 1) * s.env.value ≤ 0.0001) := by
    intro j
    rw [hge]
    exact EnvelopeADSR.fall_level { s.env with gateValue := g, state := .release } rfl hv0 hρ0 hρ1 hdn j
  obtain ⟨fade, e1, e2⟩ := C64_output (s := setGate g s) h hb hv hw hy hpos hr hm hrd hl hN hx
  have e3 := process_env (s := setGate g s) h hb hv hw hy hpos hr
  have eout : out = (List.range n).map fun j =>
        let mix := fun x => EnvelopeADSR.fall s.env.releaseCoeff s.env.value j *
          (Real.cos (panAngle (fade.getD j 0)) * curve s.reader.interpolation x b.numSamples (headAt s b j) +
           Real.sin (panAngle (fade.getD j 0)) * curve s.reader.interpolation x b.numSamples (headAt s b j - s.loopSize))
        ⟨mix x, mix z⟩ := by
    rw [e2]
    refine List.map_congr_left fun j _ => ?_
    simp only [(hlev j).1]
    rfl
  refine ⟨⟨fade, e1, eout⟩, ?_, ?_⟩
  · show EnvelopeADSR.isDone s'.env = true ↔ _
    rw [e3]
    rcases n with _ | n
    · rw [hge]; simp [tickState, EnvelopeADSR.isDone, hdn]
    · rw [(hlev n).2]; simp
  · intro j hj k hk y hy'
    rw [eout, List.getElem?_map, Option.map_eq_some_iff] at hy'
    obtain ⟨i, hi, rfl⟩ := hy'
    have hik : i = k := by
      have := List.getElem?_eq_some_iff.1 hi
      obtain ⟨a, b⟩ := this
      simpa using b.symm
    subst hik
    have : s.env.releaseCoeff ^ (i + 1) * s.env.value ≤ 0.0001 :=
      le_trans (mul_le_mul_of_nonneg_right (pow_le_pow_of_le_one hρ0 hρ1 (by omega)) hv0) hj
    simp [EnvelopeADSR.fall, this]

/-- **C84, starting again** (any arithmetic): a closed gate opened again starts the envelope and clears `isDone`; nothing else changes. -/
theorem C84_restarts {α : Type} [Arith α] (s : Player α) (g : α) (h : (s.env.gateValue <=. lit 0) = true) (hg : (g >. lit 0) = true) :
    setGate g s = { s with gateValue := g, env := { s.env with gateValue := g, state := .attack, done := false } } ∧ isDone (setGate g s) = false := by
  have : setGate g s = { s with gateValue := g, env := { s.env with gateValue := g, state := .attack, done := false } } := by
    rw [setGate, (C15_adsr_gate_edges s.env g).1 h hg]
  exact ⟨this, by rw [this]; rfl⟩

/-! ### Non-trivial cases -/

/-- Eight frames at 48 kHz played at half speed, sixteen samples. -/
example (reader : BufRd.Reader ℝ) (lag : LagLinear.Ramp ℝ) (env : EnvelopeADSR.Env ℝ) :
    ∃ s1 s2 s3 out, init 48000 (new reader lag env) = some s1 ∧ setBuffer (some ⟨.at 0 0, 1, 48000, 8⟩) s1 = some s2 ∧
      process (setRate (1 / 2) s2) (fun _ => [0, 0, 1, 1, 0, 0, 0, 0]) 16 = some (s3, out) ∧ out.length = 16 := by
  obtain ⟨s1, s2, s3, out, a, b, c, d⟩ := C84_plays (new reader lag env) rfl (by simp [new, real_arith]) (by simp [new, real_arith])
    (by simp [new, real_arith]) (by simp [new, real_arith]) 48000 (by norm_num) ⟨.at 0 0, 1, 48000, 8⟩ rfl (by norm_num)
    (fun _ => [0, 0, 1, 1, 0, 0, 0, 0]) (fun i => if 2 ≤ i ∧ i < 4 then 1 else 0) (fun i => if 2 ≤ i ∧ i < 4 then 1 else 0) (by
      intro i hi
      match i, hi with
      | 0, _ => simp [Buffer.getStereoSample, Mem.load, Stereo.ofMono]
      | 1, _ => simp [Buffer.getStereoSample, Mem.load, Stereo.ofMono]
      | 2, _ => simp [Buffer.getStereoSample, Mem.load, Stereo.ofMono]
      | 3, _ => simp [Buffer.getStereoSample, Mem.load, Stereo.ofMono]
      | 4, _ => simp [Buffer.getStereoSample, Mem.load, Stereo.ofMono]
      | 5, _ => simp [Buffer.getStereoSample, Mem.load, Stereo.ofMono]
      | 6, _ => simp [Buffer.getStereoSample, Mem.load, Stereo.ofMono]
      | 7, _ => simp [Buffer.getStereoSample, Mem.load, Stereo.ofMono]) (1 / 2) (by norm_num) 16 (by norm_num [new, real_arith])
  exact ⟨s1, s2, s3, out, a, b, c, by rw [d]; simp⟩

/-- The envelope of a held note meets the conditions of `C84_stops`. -/
example : let e : EnvelopeADSR.Env ℝ := { EnvelopeADSR.init 48000 with state := .sustain, gateValue := 1, value := 1, releaseCoeff := 1 / 2 }
    0 < e.gateValue ∧ e.state ≠ .idle ∧ e.done = false ∧ 0 ≤ e.value ∧ 0 ≤ e.releaseCoeff ∧ e.releaseCoeff ≤ 1 ∧
      e.releaseCoeff ^ (13 + 1) * e.value ≤ 0.0001 := by
  refine ⟨by norm_num, by simp, rfl, by norm_num, by norm_num, by norm_num, by norm_num⟩

end XPlay

end Verif
