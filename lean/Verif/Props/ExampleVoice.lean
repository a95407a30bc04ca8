import Verif.Model.ExampleVoice
import Verif.Props.Oscillators
import Verif.Props.Noise
import Verif.Props.Panning
import Verif.Lemmas.EnvInv

/-!
# Properties C42 and C55: ExampleVoice
-/

set_option linter.unusedSectionVars false

namespace Verif.ExampleVoice
open FP

section generic
variable {α : Type} [Arith α] [Libm α]

/-- **C42**, blocks: in any arithmetic `process` writes what successive ticks return, whatever the buffers held, and `processAdd` adds
exactly those frames; both end in the same state, and a block may be split anywhere. -/
theorem C42_blocks (s : Voice α) (xs ys : List (Stereo α)) :
    process s xs = ticks tick xs.length s ∧
    processAdd s xs = ((ticks tick xs.length s).1, List.zipWith (fun b o => ⟨b.left + o.left, b.right + o.right⟩) xs
      (ticks tick xs.length s).2) ∧
    process s (xs ++ ys) = ((process (process s xs).1 ys).1, (process s xs).2 ++ (process (process s xs).1 ys).2) :=
  ⟨forEach_eq_ticks tick s xs, forEach_zip tick (fun b o : Stereo α => (⟨b.left + o.left, b.right + o.right⟩ : Stereo α)) s xs,
    forEach_append _ s xs ys⟩

/-! ### C55: the vibrato depth -/

theorem tick_depth (s : Voice α) : (tick s).1.vibratoDepth = s.vibratoDepth ∧ (tick s).1.baseFrequency = s.baseFrequency := by
  unfold tick modulate
  split_ifs <;> exact ⟨rfl, rfl⟩

/-- **C55** (the defect, any arithmetic): once the depth is zero or negative the oscillator's frequency is whatever the last
modulated sample left, and it stays there for every number of samples. -/
theorem C55_frequency_stuck (s : Voice α) (d : α) (hd : (d >. lit 0) = false) (n : ℕ) :
    (tickState tick n (setVibratoDepth d s)).osc.frequency = s.osc.frequency := by
  have key : (tickState tick n (setVibratoDepth d s)).vibratoDepth = d ∧
      (tickState tick n (setVibratoDepth d s)).osc.frequency = s.osc.frequency := by
    induction n with
    | zero => exact ⟨rfl, rfl⟩
    | succ n ih =>
      rw [tickState_succ]
      obtain ⟨h1, h2⟩ := ih
      generalize tickState tick n (setVibratoDepth d s) = t at h1 h2
      have : modulate t = t := by unfold modulate; rw [h1, hd]; rfl
      refine ⟨(tick_depth t).1.trans h1, ?_⟩
      unfold tick
      simp only [this]
      exact h2
  exact key.2

/-- **C55** (partial): if the depth is not positive when the frequency is set, the voice sounds at that frequency for every number of
samples. Missing: the same when the depth is set to zero after modulated samples, which is false (`C55_pitch_off_forever`). -/
theorem C55_base_frequency_partial (s : Voice α) (d f : α) (hd : (d >. lit 0) = false) (n : ℕ) :
    (tickState tick n (setFrequency f (setVibratoDepth d s))).osc.frequency = f :=
  C55_frequency_stuck (setFrequency f s) d hd n

end generic

/-- **C55, negative**: a fresh voice at 48 kHz is ticked once – the default depth is half a semitone, although the comment in `init`
says there is none – and the vibrato is then switched off. For every later sample the oscillator is not at the 440 Hz the voice
reports. -/
theorem C55_pitch_off_forever [Libm F32] (n : ℕ) :
    let s := tickState tick n (setVibratoDepth (lit 0) (tick (init (lit 48000 : F32))).1)
    s.baseFrequency = lit 440 ∧ s.osc.frequency ≠ lit 440 := by
  intro s
  constructor
  · have : ∀ n, (tickState tick n (setVibratoDepth (lit 0) (tick (init (lit 48000 : F32))).1)).baseFrequency = lit 440 := by
      intro n
      induction n with
      | zero => exact (tick_depth _).2
      | succ n ih => rw [tickState_succ, (tick_depth _).2]; exact ih
    exact this n
  · show (tickState tick n _).osc.frequency ≠ _
    rw [C55_frequency_stuck _ _ (by decide +kernel)]
    have h : (((init (lit 48000 : F32)).vibratoDepth) >. lit 0) = true := by
      show ((lit 0.5 : F32) >. lit 0) = true; decide +kernel
    have e : (tick (init (lit 48000 : F32))).1.osc.frequency =
        lit 440 * (lit 1 + (LFNoise2.tick (LFNoise2.setFrequency (lit 5) (LFNoise2.init (lit 48000) 12345))).2 * lit 0.5 *
          lit 0.057762265) := by
      unfold tick modulate
      rw [h]; rfl
    rw [e]
    have key : (lit 440 * (lit 1 + (LFNoise2.tick (LFNoise2.setFrequency (lit 5) (LFNoise2.init (lit 48000) 12345))).2 * lit 0.5 *
          lit 0.057762265) : F32) ≠ lit 440 := by decide +kernel
    exact key

/-! ### C42: range and silence in single precision -/

/-- Arguments a user may pass at sample rate `sr`: frequencies up to a quarter of the sample rate, a vibrato depth of at most an octave
(any value that is not positive, NaN included, switches it off), vibrato rates up to the sample rate, amplitudes and pan depths that
are numbers. Attack and release times are arbitrary. `init` starts a new history. -/
def Op.Legal (sr : F32) : Op F32 → Prop
  | .init sr' => sr' = sr
  | .setFrequency f => f.In 0 (sr.val / 4)
  | .setVibratoDepth d => (d >. lit 0) = true → d.In 0 12
  | .setVibratoRate r => r ≠ nan ∧ (r >. sr) = false
  | .setAmplitude a => a ≠ nan
  | .setPanDepth d => d ≠ nan
  | _ => True

variable [Libm F32] [LibmSpec]

/-- State invariant. -/
structure Inv (sr : F32) (s : Voice F32) : Prop where
  oscRate : s.osc.sampleRate = sr
  inc : s.osc.phaseIncrement.In 0 4
  phase : s.osc.phase.isFin = true ∧ 0 ≤ s.osc.phase.val ∧ s.osc.phase.val < (TWO_PI : F32).val
  env : EnvelopeAR.Inv s.env
  vib : LFNoise2.Inv sr s.vibrato
  pan : LFNoise2.Inv sr s.panModulator
  base : s.baseFrequency.In 0 (sr.val / 4)
  depth : (s.vibratoDepth >. lit 0) = true → s.vibratoDepth.In 0 12
  panDepth : s.panDepth.In 0 1
  amp : s.amplitude.In 0 1

theorem fin_not_gt {x y : F32} (hx : x.isFin = true) (hy : y.isFin = true) (h : x.val ≤ y.val) : x ≠ nan ∧ (x >. y) = false := by
  refine ⟨(fun e => by rw [e] at hx; cases hx), ?_⟩
  rw [lt_fin hy hx]; exact decide_eq_false (not_lt.2 h)

theorem inv_init {sr : F32} (hsr : sr.In 1760 (2 ^ 100)) : Inv sr (init sr) := by
  have h1 : 1 ≤ sr.val := by linarith [hsr.2.1]
  have hpos : sr.Pos := Or.inr ⟨hsr.1, by linarith⟩
  have h5 : (lit 5 : F32).In 5 5 := lit_rep (by decide +kernel)
  have h440 : (lit 440 : F32).In 440 440 := lit_rep (by decide +kernel)
  have one := lit_one (f := binary32)
  have zero := lit_zero (f := binary32)
  have e0 := EnvelopeAR.inv_init hpos
  refine ⟨rfl, ?_, ⟨zero.1, zero.2.1, ?_⟩, ?_, ?_, ?_, ?_, fun _ => ?_, ?_, ?_⟩
  · exact SinOsc.inc_in (hsr.mono (by norm_num) le_rfl) (h440.mono (by norm_num) (by linarith [hsr.2.1]))
  · show (lit 0 : F32).val < _; rw [zero.val_eq]; linarith [SinOsc.two_pi_in.2.1]
  · exact EnvelopeAR.inv_step (EnvelopeAR.inv_step e0 (.setAttack (lit 0.01)) trivial) (.setRelease (lit 0.3)) trivial
  · have := fin_not_gt h5.1 hsr.1 (by rw [h5.val_eq]; linarith [hsr.2.1])
    exact LFNoise2.inv_setFrequency hsr.1 h1 (LFNoise2.inv_init hsr.1 h1 _) this.1 this.2
  · have := fin_not_gt one.1 hsr.1 (by rw [one.val_eq]; linarith [hsr.2.1])
    exact LFNoise2.inv_setFrequency hsr.1 h1 (LFNoise2.inv_init hsr.1 h1 _) this.1 this.2
  · exact h440.mono (by norm_num) (by linarith [hsr.2.1])
  · show (lit 0.5 : F32).In 0 12; decide +kernel
  · exact one.mono (by norm_num) le_rfl
  · show (lit 0.5 : F32).In 0 1; decide +kernel

theorem mul_unit_in {x y : F32} (hx : x.In (-1) 1) (hy : y.isFin = true) : (x * y).In (-|y.val|) |y.val| ∧ (y * x).In (-|y.val|) |y.val| := by
  have hr : binary32.Rep |y.val| false := by
    rcases abs_cases y.val with ⟨e, _⟩ | ⟨e, _⟩ <;> rw [e]
    · exact rep_val y
    · exact Rep.neg (rep_val y)
  have h1 : |x.val| ≤ 1 := abs_le.2 ⟨hx.2.1, hx.2.2⟩
  have h2 : |x.val * y.val| ≤ |y.val| := by rw [abs_mul]; nlinarith [abs_nonneg y.val, abs_nonneg x.val]
  have h3 := abs_le.1 h2
  refine ⟨mul_in hx.1 hy (Rep.neg hr) hr h3.1 h3.2, mul_in hy hx.1 (Rep.neg hr) hr ?_ ?_⟩ <;> rw [mul_comm] <;> [exact h3.1; exact h3.2]

theorem rep_half {x : F32} (h : 1 ≤ x.val) : binary32.Rep (x.val / 2) false := by
  obtain ⟨g, hb, -⟩ := rep_val x
  refine ⟨?_, ?_, by simp⟩
  · obtain ⟨m, e, hm, he, hv⟩ := g
    rw [hv] at h ⊢
    have he' : binary32.emin + 1 ≤ e := by
      by_contra hc
      have : e = binary32.emin := by omega
      subst this
      have h2 : ((m:ℚ)) * 2 ^ binary32.emin < 2 ^ binary32.prec * 2 ^ binary32.emin := by
        have : (m:ℚ) < 2 ^ binary32.prec := by exact_mod_cast lt_of_le_of_lt (le_abs_self m) hm
        exact mul_lt_mul_of_pos_right this (by positivity)
      have h3 : (2:ℚ) ^ binary32.prec * 2 ^ binary32.emin < 1 := by decide +kernel
      linarith
    refine ⟨m, e - 1, hm, by omega, ?_⟩
    rw [zpow_sub₀ (by norm_num)]; norm_num; ring
  · rw [abs_of_pos (by linarith)]
    rw [abs_of_pos (by linarith)] at hb
    linarith

theorem inv_modulate {sr : F32} (hsr : sr.In 1760 (2 ^ 100)) {s : Voice F32} (h : Inv sr s) : Inv sr (modulate s) := by
  unfold modulate
  split_ifs with hd
  · have hv := LFNoise2.inv_tick h.vib
    generalize LFNoise2.tick s.vibrato = r at hv
    obtain ⟨v, m⟩ := r
    have hdep := h.depth hd
    have r12 : binary32.Rep 12 false := by decide +kernel
    have hsemi : (m * s.vibratoDepth).In (-12) 12 := by
      have := (mul_unit_in hv.2 hdep.1).1
      rw [abs_of_nonneg hdep.2.1] at this
      exact this.mono (by linarith [hdep.2.2]) hdep.2.2
    have hk : (lit 0.057762265 : F32).In 0.05 0.0625 := by decide +kernel
    have hb : ∀ a b : ℚ, |a| ≤ 12 → 0 ≤ b → b ≤ 0.0625 → |a * b| ≤ 0.75 := by
      intro a b ha hb0 hb1
      rw [abs_mul, abs_of_nonneg hb0]; nlinarith [abs_nonneg a]
    have hm := abs_le.1 (hb _ _ (abs_le.2 ⟨hsemi.2.1, hsemi.2.2⟩) (by linarith [hk.2.1]) hk.2.2)
    have r75 : binary32.Rep 0.75 false := by decide +kernel
    have hp : (m * s.vibratoDepth * lit 0.057762265).In (-0.75) 0.75 := mul_in hsemi.1 hk.1 (Rep.neg r75) r75 hm.1 hm.2
    have hratio : (lit 1 + m * s.vibratoDepth * lit 0.057762265).In 0.25 1.75 :=
      add_in lit_one hp (by decide +kernel) (by decide +kernel) (by norm_num) (by norm_num)
    have hsr0 : 0 < sr.val := by linarith [hsr.2.1]
    have hhalf : binary32.Rep (sr.val / 2) false := rep_half (by linarith [hsr.2.1])
    have hf : (s.baseFrequency * (lit 1 + m * s.vibratoDepth * lit 0.057762265)).In 0 (sr.val / 2) :=
      mul_in h.base.1 hratio.1 rep_zero hhalf (mul_nonneg h.base.2.1 (by linarith [hratio.2.1]))
        (by nlinarith [h.base.2.1, h.base.2.2, hratio.2.1, hratio.2.2])
    exact ⟨h.oscRate, by
      show ((TWO_PI * _) / s.osc.sampleRate : F32).In 0 4
      rw [h.oscRate]; exact SinOsc.inc_in (hsr.mono (by norm_num) le_rfl) hf, h.phase, h.env, hv.1, h.pan, h.base, h.depth, h.panDepth, h.amp⟩
  · exact h

theorem modulate_rest (s : Voice F32) : (modulate s).amplitude = s.amplitude ∧ (modulate s).env = s.env := by
  unfold modulate; split_ifs <;> exact ⟨rfl, rfl⟩

theorem inv_tick {sr : F32} (hsr : sr.In 1760 (2 ^ 100)) {s : Voice F32} (h : Inv sr s) :
    Inv sr (tick s).1 ∧ (tick s).2.left.In (-s.amplitude.val) s.amplitude.val ∧ (tick s).2.right.In (-s.amplitude.val) s.amplitude.val ∧
    (s.env.state = .idle → (tick s).2.left.In 0 0 ∧ (tick s).2.right.In 0 0) := by
  have hm := inv_modulate hsr h
  obtain ⟨ea, ee⟩ := modulate_rest s
  rw [← ea, ← ee]
  unfold tick
  generalize modulate s = t at hm
  dsimp only
  have h1 := SinOsc.phase_step hm.phase.1 hm.phase.2.1 hm.phase.2.2 hm.inc
  have ho : (SinOsc.tick t.osc).2.In (-1) 1 := LibmSpec.sin_range _ hm.phase.1
  have h2 := EnvelopeAR.inv_tick hm.env
  have h3 := LFNoise2.inv_tick hm.pan
  have hidle : t.env.state = .idle → (EnvelopeAR.tick t.env).2 = lit 0 := by
    intro hs; unfold EnvelopeAR.tick; rw [hs]
  have hst : (SinOsc.tick t.osc).1.phaseIncrement = t.osc.phaseIncrement ∧ (SinOsc.tick t.osc).1.sampleRate = t.osc.sampleRate := ⟨rfl, rfl⟩
  have hph : (SinOsc.tick t.osc).1.phase.isFin = true ∧ 0 ≤ (SinOsc.tick t.osc).1.phase.val ∧
      (SinOsc.tick t.osc).1.phase.val < (TWO_PI : F32).val := h1
  generalize SinOsc.tick t.osc = o at ho hst hph
  generalize EnvelopeAR.tick t.env = e at h2 hidle
  generalize LFNoise2.tick t.panModulator = p at h3
  have a0 := hm.amp.2.1
  have hoe : (o.2 * e.2).In (-1) 1 := by
    have := (mul_unit_in ho h2.2.1).1
    rw [abs_of_nonneg h2.2.2.1] at this
    exact this.mono (by linarith [h2.2.2.2]) h2.2.2.2
  have hmono : (o.2 * e.2 * t.amplitude).In (-t.amplitude.val) t.amplitude.val := by
    have := (mul_unit_in hoe hm.amp.1).1
    rwa [abs_of_nonneg a0] at this
  have hpan : (p.2 * t.panDepth) ≠ nan := by
    have := (mul_unit_in h3.2 hm.panDepth.1).1
    intro e; rw [e] at this; exact absurd this.1 (by simp)
  have hang := pan_angle_float hpan
  have hc := LibmSpec.cos_range _ hang.1
  have hs := LibmSpec.sin_range _ hang.1
  have hab : |(o.2 * e.2 * t.amplitude).val| ≤ t.amplitude.val := abs_le.2 ⟨hmono.2.1, hmono.2.2⟩
  have out : ∀ g : F32, g.In (-1) 1 → (o.2 * e.2 * t.amplitude * g).In (-t.amplitude.val) t.amplitude.val := by
    intro g hg
    exact (mul_unit_in hg hmono.1).2.mono (by linarith) hab
  refine ⟨⟨hst.2.trans hm.oscRate, by rw [hst.1]; exact hm.inc, hph, h2.1, hm.vib, h3.1, hm.base, hm.depth, hm.panDepth, hm.amp⟩,
    out _ hc, out _ hs, fun hi => ?_⟩
  have z0 : (o.2 * e.2).In 0 0 := by
    rw [hidle hi]
    have := (mul_unit_in ho (lit_zero (f := binary32)).1).1
    rw [(lit_zero (f := binary32)).val_eq] at this
    simpa using this
  have z1 : (o.2 * e.2 * t.amplitude).In 0 0 := by
    have hu : t.amplitude.In (-1) 1 := hm.amp.mono (by norm_num) le_rfl
    have := (mul_unit_in hu z0.1).2
    rw [z0.val_eq] at this
    simpa using this
  have z2 : ∀ g : F32, g.In (-1) 1 → (o.2 * e.2 * t.amplitude * g).In 0 0 := by
    intro g hg
    have := (mul_unit_in hg z1.1).2
    rw [z1.val_eq] at this
    simpa using this
  exact ⟨z2 _ hc, z2 _ hs⟩

theorem inv_step {sr : F32} (hsr : sr.In 1760 (2 ^ 100)) {s : Voice F32} (h : Inv sr s) (op : Op F32) (ho : op.Legal sr) :
    Inv sr (step s op).1 := by
  have h1 : 1 ≤ sr.val := by linarith [hsr.2.1]
  have zero := lit_zero (f := binary32)
  cases op with
  | init sr' => rw [show sr' = sr from ho]; exact inv_init hsr
  | setFrequency f =>
    have hf : f.In 0 (sr.val / 4) := ho
    refine { h with base := hf, inc := ?_ }
    show ((TWO_PI * f) / s.osc.sampleRate : F32).In 0 4
    rw [h.oscRate]
    exact SinOsc.inc_in (hsr.mono (by norm_num) le_rfl) (hf.mono le_rfl (by linarith))
  | setAttack t => exact { h with env := EnvelopeAR.inv_step h.env (.setAttack t) trivial }
  | setRelease t => exact { h with env := EnvelopeAR.inv_step h.env (.setRelease t) trivial }
  | setVibratoDepth d => exact { h with depth := ho }
  | setVibratoRate r => exact { h with vib := LFNoise2.inv_setFrequency hsr.1 h1 h.vib ho.1 ho.2 }
  | setAmplitude a => exact { h with amp := clamp_in ho zero lit_one (by norm_num) }
  | setPanDepth d => exact { h with panDepth := clamp_in ho zero lit_one (by norm_num) }
  | trigger => exact { h with env := EnvelopeAR.inv_step h.env .trigger trivial }
  | release => exact { h with env := EnvelopeAR.inv_step h.env .release trivial }
  | setGate g => exact { h with env := EnvelopeAR.inv_step h.env (.setGate g) trivial }
  | tick => exact (inv_tick hsr h).1
  | process buf =>
    exact (forEach_inv (I := Inv sr) (step := fun s (_ : Stereo F32) => tick s) (P := fun _ _ => True)
      (fun s b hs => ⟨(inv_tick hsr hs).1, trivial⟩) h buf).1
  | processAdd buf =>
    exact (forEach_inv (I := Inv sr) (step := fun s (b : Stereo F32) => ((tick s).1, (⟨b.left + (tick s).2.left, b.right + (tick s).2.right⟩ : Stereo F32)))
      (P := fun _ _ => True) (fun s b hs => ⟨(inv_tick hsr hs).1, trivial⟩) h buf).1
  | reset =>
    have e := EnvelopeAR.inv_step h.env .reset trivial
    refine ⟨h.oscRate, h.inc, ⟨zero.1, zero.2.1, ?_⟩, e, LFNoise2.inv_reset h.vib _, LFNoise2.inv_reset h.pan _, h.base, h.depth,
      h.panDepth, h.amp⟩
    show (lit 0 : F32).val < _; rw [zero.val_eq]; linarith [SinOsc.two_pi_in.2.1]

theorem inv_run {sr : F32} (hsr : sr.In 1760 (2 ^ 100)) {s : Voice F32} (h : Inv sr s) (ops : List (Op F32))
    (ho : ∀ op ∈ ops, op.Legal sr) : Inv sr (run s ops) := by
  induction ops generalizing s with
  | nil => exact h
  | cons op ops ih => exact ih (inv_step hsr h op (ho _ List.mem_cons_self)) fun o hm => ho o (List.mem_cons_of_mem _ hm)

theorem tick_amp (s : Voice F32) : (tick s).1.amplitude = s.amplitude := (modulate_rest s).1

/-- Both channels are numbers of magnitude at most `a`. -/
def Within (a : ℚ) (x : Stereo F32) : Prop := x.left.In (-a) a ∧ x.right.In (-a) a

/-- **C42** in single precision, rounding included: after any history of calls the amplitude is in `[0, 1]` and both channels of every
frame, from `tick` or from a block of any length, are numbers of magnitude at most the amplitude. -/
theorem C42_bounded (sr : F32) (hsr : sr.In 1760 (2 ^ 100)) (ops : List (Op F32)) (ho : ∀ op ∈ ops, op.Legal sr) :
    let s := run (init sr) ops
    s.amplitude.In 0 1 ∧ Within s.amplitude.val (tick s).2 ∧ ∀ buf, ∀ x ∈ (process s buf).2, Within s.amplitude.val x := by
  intro s
  have h := inv_run hsr (inv_init hsr) ops ho
  refine ⟨h.amp, ⟨(inv_tick hsr h).2.1, (inv_tick hsr h).2.2.1⟩, fun buf => ?_⟩
  refine forall₂_right (forEach_inv (I := fun t => Inv sr t ∧ t.amplitude = s.amplitude) (step := fun s (_ : Stereo F32) => tick s)
    (P := fun _ x => Within s.amplitude.val x) (fun t b ht => ?_) ⟨h, rfl⟩ buf).2
  have := inv_tick hsr ht.1
  rw [ht.2] at this
  exact ⟨⟨this.1, (tick_amp t).trans ht.2⟩, this.2.1, this.2.2.1⟩

/-- **C42** in single precision: a voice that is not active is silent, on both channels and for blocks of every length, and stays
inactive; adding its block to a buffer leaves every finite sample as it was. -/
theorem C42_idle_silent (sr : F32) (hsr : sr.In 1760 (2 ^ 100)) (ops : List (Op F32)) (ho : ∀ op ∈ ops, op.Legal sr)
    (hi : isActive (run (init sr) ops) = false) (buf : List (Stereo F32)) :
    let s := run (init sr) ops
    (∀ x ∈ (process s buf).2, Within 0 x) ∧ isActive (process s buf).1 = false ∧
    List.Forall₂ (fun b x : Stereo F32 => (b.left.isFin = true → x.left.isFin = true ∧ x.left.val = b.left.val) ∧
      (b.right.isFin = true → x.right.isFin = true ∧ x.right.val = b.right.val)) buf (processAdd s buf).2 := by
  intro s
  have h := inv_run hsr (inv_init hsr) ops ho
  have hidle : s.env.state = .idle := by
    simpa [isActive, EnvelopeAR.isActive] using hi
  have step1 : ∀ t : Voice F32, Inv sr t ∧ t.env.state = .idle →
      (Inv sr (tick t).1 ∧ (tick t).1.env.state = .idle) ∧ Within 0 (tick t).2 := by
    intro t ht
    have := inv_tick hsr ht.1
    have z := this.2.2.2 ht.2
    refine ⟨⟨this.1, ?_⟩, z.1.mono (by norm_num) le_rfl, z.2.mono (by norm_num) le_rfl⟩
    show (EnvelopeAR.tick (modulate t).env).1.state = .idle
    rw [(modulate_rest t).2]
    unfold EnvelopeAR.tick; rw [ht.2]
  have k1 := forEach_inv (I := fun t => Inv sr t ∧ t.env.state = .idle) (step := fun s (_ : Stereo F32) => tick s)
    (P := fun _ x => Within 0 x) (fun t b ht => step1 t ht) ⟨h, hidle⟩ buf
  have addz : ∀ b x : F32, x.In (-0) 0 → b.isFin = true → (b + x).isFin = true ∧ (b + x).val = b.val := by
    intro b x hx hb
    have hr := rep_val b
    have := add_in (in_val hb) (hx.mono (by norm_num) le_rfl : x.In 0 0) hr hr (by linarith) (by linarith)
    exact ⟨this.1, this.val_eq⟩
  have k2 := forEach_inv (I := fun t => Inv sr t ∧ t.env.state = .idle)
    (step := fun s (b : Stereo F32) => ((tick s).1, (⟨b.left + (tick s).2.left, b.right + (tick s).2.right⟩ : Stereo F32)))
    (P := fun b x : Stereo F32 => (b.left.isFin = true → x.left.isFin = true ∧ x.left.val = b.left.val) ∧
      (b.right.isFin = true → x.right.isFin = true ∧ x.right.val = b.right.val))
    (fun t b ht => ⟨(step1 t ht).1, addz _ _ (step1 t ht).2.1, addz _ _ (step1 t ht).2.2⟩) ⟨h, hidle⟩ buf
  refine ⟨forall₂_right k1.2, ?_, k2.2⟩
  have := k1.1.2
  show EnvelopeAR.isActive _ = false
  unfold EnvelopeAR.isActive
  rw [show (process s buf).1.env.state = .idle from this]
  rfl

/-- An amplitude of NaN is not clamped away: the exclusion is necessary. -/
theorem C42_nan_amplitude (s : Voice F32) : (setAmplitude nan s).amplitude = nan := by
  show clamp (nan : F32) (lit 0) (lit 1) = nan
  decide +kernel

/-- A history that meets the hypotheses. -/
example : (lit 48000 : F32).In 1760 (2 ^ 100) ∧ ∀ op ∈ [Op.setFrequency (lit 11999), .setVibratoDepth (lit 7), .setAmplitude (lit 3),
    .trigger, .tick, .setVibratoDepth (nan : F32), .setAttack nan, .release, .setVibratoRate (lit 48000), .tick, .reset, .init (lit 48000)],
    op.Legal (lit 48000) := by
  have hsr : (lit 48000 : F32).In 48000 48000 := lit_rep (by decide +kernel)
  refine ⟨hsr.mono (by norm_num) (by norm_num), ?_⟩
  simp only [List.forall_mem_cons, List.not_mem_nil, false_imp_iff, implies_true, and_true, Op.Legal, hsr.val_eq]
  refine ⟨?_, ?_, ?_, ?_, ?_, ?_⟩ <;> decide +kernel

end Verif.ExampleVoice
