import Verif.Lemmas.Stream
import Verif.Props.Panning
import Verif.Props.Oscillators
import Verif.Props.ExampleVoice
import Verif.Model.SuperSaw
import Mathlib.Algebra.BigOperators.Fin
import Mathlib.Analysis.Complex.ExponentialBounds

/-!
# C88: the two synthesizers are what their parts make of them, tuned and placed as documented
-/

set_option linter.unusedSectionVars false

namespace Verif

/-- A saw oscillator as a unit with an input: the frequency for the next sample. -/
def SawDPW.swept {α : Type} [Arith α] (o : SawDPW.Osc α) (f : α) : SawDPW.Osc α × α := SawDPW.tick (SawDPW.setFrequency f o)

/-- A sine oscillator as a unit with an input: the frequency for the next sample. -/
def SinOsc.swept {α : Type} [Arith α] [Libm α] (o : SinOsc.Osc α) (f : α) : SinOsc.Osc α × α := SinOsc.tick (SinOsc.setFrequency f o)

namespace SuperSaw

section
variable {α : Type} [Arith α] [Libm α]

/-- The pitch of a voice at sample `k`. -/
def pitchAt (s : Synth α) (v : Voice α) (k : ℕ) : α :=
  s.frequency * Libm.pow (lit 2) ((tickOut LFTri.tick k v.vibrato * s.vibrDepth) / lit 12) * Libm.pow (lit 2) (v.detuneOffset / lit 12)

/-- A voice after `n` samples. -/
def voiceAfter (s : Synth α) (n : ℕ) (v : Voice α) : Voice α :=
  { v with vibrato := tickState LFTri.tick n v.vibrato, saw := feed SawDPW.swept v.saw (pitchAt s v) n }

theorem mix_voices (f d x : α) : ∀ (vs : List (Voice α)) (acc : ℕ × Stereo α),
    (forEach (mixStep f d x) acc vs).2 = vs.map fun v => (voiceTick f d v).1 := by
  intro vs
  induction vs with
  | nil => intro acc; rfl
  | cons v vs ih => intro acc; simp only [forEach, List.map_cons, ih]; rfl

theorem state_after (s : Synth α) (n : ℕ) : tickState tick n s =
    { s with envelope := tickState EnvelopeADSR.tick n s.envelope, voices := s.voices.map (voiceAfter s n) } := by
  induction n with
  | zero =>
    have : voiceAfter s 0 = id := rfl
    rw [this, List.map_id]; rfl
  | succ n ih =>
    rw [tickState_succ, ih]
    unfold tick
    simp only [mix_voices, List.map_map]
    congr 1
    · refine List.map_congr_left fun v _ => ?_
      show (voiceTick s.frequency s.vibrDepth (voiceAfter s n v)).1 = voiceAfter s (n + 1) v
      simp only [voiceAfter, tickState_succ]
      rfl
    · rw [tickState_succ]

end

/-- The pan position of voice `i`: the even ones left, the odd ones right. -/
def side (spread : ℝ) (i : Fin 7) : ℝ := if i.val % 2 = 0 then -spread else spread

theorem panOf_real (i : ℕ) (x : ℝ) : panOf i x = if i % 2 = 0 then -x else x := by
  rcases Nat.mod_two_eq_zero_or_one i with h | h <;> simp [panOf, h, Arith.ofNat, real_arith]; ring

theorem mix_sum (f d x : ℝ) : ∀ (vs : List (Voice ℝ)) (j : ℕ) (a : Stereo ℝ),
    (forEach (mixStep f d x) (j, a) vs).1.2 =
      ⟨a.left + ((vs.zipIdx j).map fun p => (voiceTick f d p.1).2 * Real.cos (panAngle (panOf p.2 x))).sum,
       a.right + ((vs.zipIdx j).map fun p => (voiceTick f d p.1).2 * Real.sin (panAngle (panOf p.2 x))).sum⟩ := by
  intro vs
  induction vs with
  | nil => intro j a; simp [forEach]
  | cons v vs ih =>
    intro j a
    simp only [forEach, List.zipIdx_cons, List.map_cons, List.sum_cons]
    have : (mixStep f d x (j, a) v).1 = (j + 1, ⟨a.left + (voiceTick f d v).2 * Real.cos (panAngle (panOf j x)),
        a.right + (voiceTick f d v).2 * Real.sin (panAngle (panOf j x))⟩) := by
      simp only [mixStep, Pan2.process_real]
    rw [this, ih]
    simp only [add_assoc]

/-- **C88** (exact arithmetic): every sample of a synth is the envelope times the sum over the seven voices of a saw, panned with equal
power, divided by `√7`; a voice is a stand-alone saw oscillator whose frequency is set before each sample to the frequency times its
vibrato times its detuning, and the vibrato is a stand-alone triangle. -/
theorem C88_parts (s : Synth ℝ) (v : Fin 7 → Voice ℝ) (hv : s.voices = List.ofFn v) (n : ℕ) :
    let pitch := fun (i : Fin 7) (k : ℕ) =>
      s.frequency * 2 ^ (tickOut LFTri.tick k (v i).vibrato * s.vibrDepth / 12) * 2 ^ ((v i).detuneOffset / 12)
    let saw := fun i => heard SawDPW.swept (v i).saw (pitch i) n
    let env := tickOut EnvelopeADSR.tick n s.envelope
    tickOut tick n s = ⟨(∑ i, saw i * Real.cos (panAngle (side s.spread i))) / √7 * env,
      (∑ i, saw i * Real.sin (panAngle (side s.spread i))) / √7 * env⟩ := by
  intro pitch saw env
  have hp : ∀ i, pitchAt s (v i) = pitch i := by
    intro i
    funext k
    simp only [pitchAt, pitch, real_arith]
    norm_num
  have ht : ∀ i, (voiceTick s.frequency s.vibrDepth (voiceAfter s n (v i))).2 = saw i := by
    intro i
    show (SawDPW.swept (feed SawDPW.swept (v i).saw (pitchAt s (v i)) n) (pitchAt s (v i) n)).2 = _
    rw [hp]
    rfl
  have hn : (lit 1 / Libm.sqrt (Arith.ofNat NUM_VOICES) : ℝ) = 1 / √7 := by
    simp only [NUM_VOICES, real_arith]; push_cast; rfl
  have z : (Stereo.zero : Stereo ℝ) = ⟨0, 0⟩ := by simp [Stereo.zero, real_arith]
  rw [tickOut, state_after]
  unfold tick
  simp only [hn, z, mix_sum, hv, List.map_ofFn]
  have l7 : List.ofFn (voiceAfter s n ∘ v) = [voiceAfter s n (v 0), voiceAfter s n (v 1), voiceAfter s n (v 2), voiceAfter s n (v 3),
      voiceAfter s n (v 4), voiceAfter s n (v 5), voiceAfter s n (v 6)] := by
    simp only [List.ofFn_succ, List.ofFn_zero]; rfl
  rw [l7]
  simp only [List.zipIdx_cons, List.zipIdx_nil, List.map_cons, List.map_nil, List.sum_cons, List.sum_nil, ht, panOf_real, zero_add,
    Fin.sum_univ_seven, side, mul_one_div]
  norm_num
  constructor <;> ring_nf <;> rfl

/-- A triangle of `r` Hz that starts `q` of a period after its lowest point, at sample `k`. -/
noncomputable def vibratoAt (sr r q : ℝ) (k : ℕ) : ℝ := 1 - 4 * |Int.fract (q + k * (r / sr)) - 1 / 2|

theorem note_voices (sr : ℝ) (rand : ℕ → ℝ) (f r e d x : ℝ) :
    (setSpread x (setDetune d (setVibratoDepth e (setVibratoRate r (setFrequency f (init sr rand)))))).voices =
      List.ofFn fun i : Fin 7 => ({ initVoice sr (lit 0.2) (lit 6) rand i with
        vibrato := LFTri.setFrequency r (LFTri.init sr (rand (2 * i) * lit 4)), detuneOffset := detuneOf i d } : Voice ℝ) := by
  simp only [List.ofFn_succ, List.ofFn_zero]
  rfl

/-- **C88** (exact arithmetic), a note from the start: whatever random phases were drawn, a synth that was initialised and given a
frequency, a vibrato rate, a vibrato depth in semitones, a detuning in semitones and a spread plays seven saws; voice `i` has the pitch
`f · 2^(vibrato·depth/12) · 2^((i/6-1/2)·detune/12)`: voice 3 is in tune, the others lie symmetrically around it, the outer ones half the
detuning away. -/
theorem C88_note (sr : ℝ) (rand : ℕ → ℝ) (f r e d x : ℝ) (hsr : 0 < sr) (hr : 0 ≤ r) (hr1 : r ≤ sr) (hx : 0 ≤ x) (hx1 : x ≤ 1)
    (hq : ∀ k, 0 ≤ rand k ∧ rand k < 1) (g : ℝ) (n : ℕ) :
    let s := gate g (setSpread x (setDetune d (setVibratoDepth e (setVibratoRate r (setFrequency f (init sr rand))))))
    let pitch := fun (i : Fin 7) (k : ℕ) => f * 2 ^ (vibratoAt sr r (rand (2 * i)) k * e / 12) * 2 ^ (((i : ℝ) / 6 - 1 / 2) * d / 12)
    let saw := fun i : Fin 7 => heard SawDPW.swept (SawDPW.init sr (2 * rand (2 * i + 1) - 1)) (pitch i) n
    let env := tickOut EnvelopeADSR.tick n s.envelope
    tickOut tick n s = ⟨(∑ i, saw i * Real.cos (panAngle (side x i))) / √7 * env, (∑ i, saw i * Real.sin (panAngle (side x i))) / √7 * env⟩ := by
  intro s pitch saw env
  have hsp : s.spread = x := by
    show clamp x (lit 0) (lit 1) = x
    simp only [clamp, real_arith]
    rw [if_neg (by push_cast; simp [not_lt.2 hx]), if_neg (by push_cast; simp [not_lt.2 hx1])]
  have h := C88_parts s _ (note_voices sr rand f r e d x) n
  rw [hsp] at h
  have hpitch : ∀ i : Fin 7, (fun k => s.frequency * 2 ^ (tickOut LFTri.tick k (LFTri.setFrequency r (LFTri.init sr (rand (2 * i) * lit 4))) *
      s.vibrDepth / 12) * 2 ^ (detuneOf i d / 12)) = pitch i := by
    intro i
    funext k
    obtain ⟨q0, q1⟩ := hq (2 * i)
    have hph : (LFTri.init sr (rand (2 * i) * lit 4)).phase = rand (2 * i) := by
      have : rand (2 * i) * lit 4 * lit 0.25 = rand (2 * i) := by simp only [real_arith]; push_cast; ring
      simp only [LFTri.init, LFTri.updatePhaseIncrement, this]
      have hf : Arith.floor (rand (2 * i)) = 0 := by
        simp only [real_arith]
        rw [Int.floor_eq_zero_iff.2 ⟨q0, q1⟩]; norm_num
      simp only [hf, sub_zero]
    have ht := LFTri.C23_waveform (LFTri.init sr (rand (2 * i) * lit 4)) r hsr hr hr1 (by rw [hph]; exact q0) (by rw [hph]; exact q1) k
    rw [hph] at ht
    have hd : (detuneOf i d : ℝ) = ((i : ℝ) / 6 - 1 / 2) * d := by
      simp only [detuneOf, NUM_VOICES, Arith.ofNat, real_arith]
      push_cast; norm_num
    rw [ht, hd]
    rfl
  have hsaw : ∀ i : Fin 7, (initVoice sr (lit 0.2) (lit 6) rand i).saw = SawDPW.init sr (2 * rand (2 * i + 1) - 1) := by
    intro i
    have : rand (2 * i + 1) * lit 2 - lit 1 = 2 * rand (2 * i + 1) - 1 := by simp only [real_arith]; push_cast; ring
    simp only [initVoice, this]
  simp only [hpitch, hsaw] at h
  exact h

/-- **C88** (exact arithmetic): with the spread at 0 the sound is in the middle: the channels are equal to one part in `10^10`, in every
state with seven voices. -/
theorem C88_mono (s : Synth ℝ) (hv : s.voices.length = 7) (n : ℕ) :
    |(tickOut tick n (setSpread 0 s)).left - (tickOut tick n (setSpread 0 s)).right| ≤ 1e-10 * |(tickOut tick n (setSpread 0 s)).left| := by
  obtain ⟨v, hv⟩ : ∃ v : Fin 7 → Voice ℝ, s.voices = List.ofFn v := by
    refine ⟨fun i => s.voices[i]'(by rw [hv]; exact i.2), ?_⟩
    refine List.ext_getElem (by simp [hv]) fun i h1 h2 => ?_
    rw [List.getElem_ofFn]
    rfl
  have h := C88_parts (setSpread 0 s) v hv n
  have hsp : (setSpread 0 s).spread = 0 := by
    show clamp (0 : ℝ) (lit 0) (lit 1) = 0
    simp [clamp, real_arith]
  have hside : ∀ i, side 0 i = 0 := by intro i; unfold side; split_ifs <;> simp
  dsimp only at h
  simp only [hsp, hside, ← Finset.sum_mul] at h
  rw [h]
  dsimp only
  obtain ⟨t, ht⟩ : ∃ t, t = panAngle 0 := ⟨_, rfl⟩
  have e0 : t = 0.78539816339 := by rw [ht]; unfold panAngle; norm_num
  rw [← ht]
  have p1 := Real.pi_gt_d20
  have p2 := Real.pi_lt_d20
  have hc : (0.7 : ℝ) ≤ Real.cos t := by
    have := Real.one_sub_sq_div_two_le_cos (x := t)
    have h2 : (0.69 : ℝ) ≤ 1 - t ^ 2 / 2 := by rw [e0]; norm_num
    have h3 : Real.cos (Real.pi / 4) ≤ Real.cos t := Real.cos_le_cos_of_nonneg_of_le_pi (by rw [e0]; norm_num) (by linarith) (by rw [e0]; norm_num at *; linarith)
    rw [Real.cos_pi_div_four] at h3
    have h4 : (1.4 : ℝ) ≤ √2 := Real.le_sqrt_of_sq_le (by norm_num)
    linarith
  have hd : |Real.cos t - Real.sin t| ≤ 2e-11 := by
    rw [← Real.sin_pi_div_two_sub t]
    have : |Real.pi / 2 - t - t| ≤ 2e-11 := by
      rw [e0, abs_le]; constructor <;> norm_num at * <;> linarith
    refine le_trans ?_ this
    have h := Real.abs_sin_sub_sin_le (Real.pi / 2 - t) t
    exact h
  generalize (∑ i, heard SawDPW.swept (v i).saw _ n) = S
  generalize tickOut EnvelopeADSR.tick n (setSpread 0 s).envelope = E
  rw [show S * Real.cos t / √7 * E - S * Real.sin t / √7 * E = S / √7 * E * (Real.cos t - Real.sin t) by ring,
    show S * Real.cos t / √7 * E = S / √7 * E * Real.cos t by ring, abs_mul, abs_mul (S / √7 * E) (Real.cos t), abs_of_pos (by linarith : 0 < Real.cos t)]
  have := abs_nonneg (S / √7 * E)
  nlinarith

/-- **C88, negative** (exact arithmetic): with full spread the right channel is made of the three odd voices alone; the four even ones are
heard only on the left, so the sound is not balanced. -/
theorem C88_full_spread (s : Synth ℝ) (v : Fin 7 → Voice ℝ) (hv : s.voices = List.ofFn v) (n : ℕ) :
    ∃ a b : ℝ, 0 ≤ a ∧ a ≤ 2e-11 ∧ b ≤ 1 ∧ 1 - 1e-20 ≤ b ∧
    let s := setSpread 1 s
    let saw := fun i => heard SawDPW.swept (v i).saw (fun k =>
      s.frequency * 2 ^ (tickOut LFTri.tick k (v i).vibrato * s.vibrDepth / 12) * 2 ^ ((v i).detuneOffset / 12)) n
    let env := tickOut EnvelopeADSR.tick n s.envelope
    tickOut tick n s = ⟨(saw 0 + saw 2 + saw 4 + saw 6 + a * (saw 1 + saw 3 + saw 5)) / √7 * env, b * (saw 1 + saw 3 + saw 5) / √7 * env⟩ := by
  have hsp : (setSpread 1 s).spread = 1 := by
    show clamp (1 : ℝ) (lit 0) (lit 1) = 1
    simp [clamp, real_arith]
  have a1 : panAngle (-1) = 0 := by unfold panAngle; norm_num
  have a2 : panAngle 1 = 1.57079632678 := by unfold panAngle; norm_num
  have p1 := Real.pi_gt_d20
  have p2 := Real.pi_lt_d20
  have ec : Real.cos (panAngle 1) = Real.sin (Real.pi / 2 - panAngle 1) := (Real.sin_pi_div_two_sub _).symm
  have es : Real.sin (panAngle 1) = Real.cos (Real.pi / 2 - panAngle 1) := (Real.cos_pi_div_two_sub _).symm
  have d0 : 0 ≤ Real.pi / 2 - panAngle 1 := by linarith [(panAngle_range 1).2]
  have d1 : Real.pi / 2 - panAngle 1 ≤ 2e-11 := by rw [a2]; norm_num at *; linarith
  refine ⟨Real.cos (panAngle 1), Real.sin (panAngle 1), (panAngle_cos_pos 1).le, ?_, Real.sin_le_one _, ?_, ?_⟩
  · rw [ec]; exact (Real.sin_le d0).trans d1
  · rw [es]
    have := Real.one_sub_sq_div_two_le_cos (x := Real.pi / 2 - panAngle 1)
    nlinarith
  · have h := C88_parts (setSpread 1 s) v hv n
    dsimp only at h ⊢
    rw [h, hsp]
    simp only [Fin.sum_univ_seven, side]
    norm_num [a1]
    constructor <;> left <;> ring

/-- A chord note of the super-saw program meets the hypotheses; the middle voice is at 329.63 Hz when its vibrato is at zero. -/
example : (0 : ℝ) < 48000 ∧ (0 : ℝ) ≤ 6 ∧ (6 : ℝ) ≤ 48000 ∧ (0 : ℝ) ≤ 0.6 ∧ (0.6 : ℝ) ≤ 1 ∧ vibratoAt 48000 6 (1 / 4) 0 = 0 ∧
    (329.63 : ℝ) * 2 ^ (vibratoAt 48000 6 (1 / 4) 0 * 0.3 / 12) * 2 ^ ((((3 : Fin 7) : ℕ) / 6 - 1 / 2 : ℝ) * 0.2 / 12) = 329.63 := by
  have h : vibratoAt 48000 6 (1 / 4) 0 = 0 := by
    have : Int.fract ((1 : ℝ) / 4) = 1 / 4 := by rw [Int.fract_eq_iff]; exact ⟨by norm_num, by norm_num, 0, by norm_num⟩
    simp only [vibratoAt, Nat.cast_zero, zero_mul, add_zero, this]
    norm_num [abs_of_neg]
  refine ⟨by norm_num, by norm_num, by norm_num, by norm_num, by norm_num, h, ?_⟩
  rw [h]
  norm_num

end SuperSaw

namespace ExampleVoice

section
variable {α : Type} [Arith α] [Libm α]

/-- The frequency of a voice with vibrato at sample `k`. -/
def pitchAt (s : Voice α) (k : ℕ) : α :=
  s.baseFrequency * (lit 1 + (tickOut LFNoise2.tick k s.vibrato * s.vibratoDepth) * lit 0.057762265)

theorem vibrato_state (s : Voice α) (hd : (s.vibratoDepth >. lit 0) = true) (n : ℕ) : tickState tick n s =
    { s with vibrato := tickState LFNoise2.tick n s.vibrato, osc := feed SinOsc.swept s.osc (pitchAt s) n,
             env := tickState EnvelopeAR.tick n s.env, panModulator := tickState LFNoise2.tick n s.panModulator } := by
  induction n with
  | zero => rfl
  | succ n ih =>
    rw [tickState_succ, ih]
    unfold tick modulate
    rw [if_pos hd]
    simp only [tickState_succ]
    rfl

theorem plain_state (s : Voice α) (hd : (s.vibratoDepth >. lit 0) = false) (n : ℕ) : tickState tick n s =
    { s with osc := tickState SinOsc.tick n s.osc, env := tickState EnvelopeAR.tick n s.env,
             panModulator := tickState LFNoise2.tick n s.panModulator } := by
  induction n with
  | zero => rfl
  | succ n ih =>
    rw [tickState_succ, ih]
    unfold tick modulate
    rw [if_neg (by rw [hd]; simp)]
    simp only [tickState_succ]

/-- **C88** (any arithmetic): every sample of a voice is a stand-alone sine times a stand-alone envelope times the amplitude, panned by a
stand-alone noise. With a vibrato the frequency of the sine is set before each sample from a second noise; without one it is left alone. -/
theorem C88_parts (s : Voice α) (n : ℕ) :
    let pan := tickOut LFNoise2.tick n s.panModulator * s.panDepth
    let env := tickOut EnvelopeAR.tick n s.env
    ((s.vibratoDepth >. lit 0) = true → tickOut tick n s = Pan2.process (heard SinOsc.swept s.osc (fun k =>
      s.baseFrequency * (lit 1 + (tickOut LFNoise2.tick k s.vibrato * s.vibratoDepth) * lit 0.057762265)) n * env * s.amplitude) pan) ∧
    ((s.vibratoDepth >. lit 0) = false → tickOut tick n s = Pan2.process (tickOut SinOsc.tick n s.osc * env * s.amplitude) pan) := by
  intro pan env
  refine ⟨fun hd => ?_, fun hd => ?_⟩
  · rw [tickOut, vibrato_state s hd]
    unfold tick modulate
    rw [if_pos hd]
    rfl
  · rw [tickOut, plain_state s hd]
    unfold tick modulate
    rw [if_neg (by rw [hd]; simp)]
    rfl

/-- **C88, negative** (any arithmetic): vibrato and panning are not independent: both noises start from the same seed, so with the vibrato at
1 Hz, the rate of the panning, the two are the same for every sample: the voice is on the right exactly when its pitch is high. -/
theorem C88_shared_noise (sr : α) (n : ℕ) : let s := setVibratoRate (lit 1) (init sr)
    tickOut LFNoise2.tick n s.vibrato = tickOut LFNoise2.tick n s.panModulator := by
  intro s
  have : s.vibrato = s.panModulator := rfl
  rw [this]

end

/-- **C88** (exact arithmetic): the vibrato depth is in semitones, to `0.0034` times the square of the excursion: for at most a semitone the pitch is within 6 cents of the exact one. -/
theorem C88_semitones (x : ℝ) (hx : |x| ≤ 12) : |(1 + x * 0.057762265) - 2 ^ (x / 12)| ≤ 0.0034 * x ^ 2 + 1e-10 * |x| := by
  have l1 := Real.log_two_gt_d9
  have l2 := Real.log_two_lt_d9
  have e : (2 : ℝ) ^ (x / 12) = Real.exp (x * (Real.log 2 / 12)) := by
    rw [Real.rpow_def_of_pos two_pos]; ring_nf
  have hy : |x * (Real.log 2 / 12)| ≤ 1 := by
    rw [abs_mul, abs_of_pos (by linarith : 0 < Real.log 2 / 12)]
    nlinarith [abs_nonneg x]
  have h := Real.abs_exp_sub_one_sub_id_le hy
  rw [e]
  have h2 : (x * (Real.log 2 / 12)) ^ 2 ≤ 0.0034 * x ^ 2 := by
    rw [mul_pow, mul_comm]
    refine mul_le_mul_of_nonneg_right ?_ (sq_nonneg x)
    nlinarith
  have h3 : |x * 0.057762265 - x * (Real.log 2 / 12)| ≤ 1e-10 * |x| := by
    rw [← mul_sub, abs_mul, mul_comm]
    refine mul_le_mul_of_nonneg_right ?_ (abs_nonneg x)
    rw [abs_le]; constructor <;> linarith
  rw [show (1 + x * 0.057762265) - Real.exp (x * (Real.log 2 / 12)) = (x * 0.057762265 - x * (Real.log 2 / 12)) -
    (Real.exp (x * (Real.log 2 / 12)) - 1 - x * (Real.log 2 / 12)) by ring]
  refine (abs_sub _ _).trans ?_
  linarith

/-- **C88, negative** (exact arithmetic): at large depths the linear law fails: where the vibrato asks for 17.4 semitones down or more the
oscillator is given a frequency below zero. -/
theorem C88_deep_vibrato (s : Voice ℝ) (h0 : 0 < s.baseFrequency) (hd : 0 < s.vibratoDepth)
    (hv : (LFNoise2.tick s.vibrato).2 * s.vibratoDepth ≤ -17.4) : (tick s).1.osc.frequency < 0 := by
  have e : (tick s).1.osc.frequency = s.baseFrequency * (1 + (LFNoise2.tick s.vibrato).2 * s.vibratoDepth * 0.057762265) := by
    unfold tick modulate
    rw [if_pos (by simp [real_arith, hd])]
    simp only [SinOsc.tick, SinOsc.setFrequency, SinOsc.updatePhaseIncrement, real_arith]
    push_cast; norm_num
  rw [e]
  exact mul_neg_of_pos_of_neg h0 (by norm_num at *; linarith)

example : |(1 + (1 : ℝ) * 0.057762265) - 2 ^ ((1 : ℝ) / 12)| ≤ 0.00341 := by
  have := C88_semitones 1 (by norm_num)
  norm_num at this ⊢
  linarith

end ExampleVoice
end Verif
