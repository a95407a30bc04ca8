import Verif.Props.LadderSilence
import Verif.Props.SuperSaw
import Verif.Props.Downsampler
import Verif.Model.Filters
import Verif.Model.Lines
import Verif.Model.Tape
import Verif.Model.CombC

/-!
# Property C57: `reset` forgets the signal

What a unit generator does after `reset` depends on its settings only, not on what was played or processed before. (The seven ladders
are in `C46_reset_forgets`.)
-/

set_option linter.unusedSectionVars false

namespace Verif
section any
variable {α β : Type} [Arith α] [Libm α] [Arith β] [Libm β] [Conv α β] [Conv β α]

/-- `reset` after any block gives exactly the state `reset` would have given before the block. -/
def ResetForgets {σ ι ο : Type} (process : σ → List ι → σ × List ο) (reset : σ → σ) : Prop :=
  ∀ s block, reset (process s block).1 = reset s

/-- **C57**, generators, in any arithmetic (NaN and infinite states included). -/
theorem C57_generators (phase : α) (seed : ℕ) :
    ResetForgets SinOsc.process (SinOsc.reset phase) ∧ ResetForgets SawDPW.process (SawDPW.reset (α := α)) ∧
    ResetForgets LFTri.process (LFTri.reset phase) ∧ ResetForgets LFNoise2.process (LFNoise2.reset (α := α) seed) ∧
    ResetForgets XLine.process (XLine.reset (α := α)) ∧ ResetForgets Phasor.process (Phasor.reset (α := α)) ∧
    ResetForgets Phasor.processTrig (Phasor.resetTo phase) ∧
    ResetForgets EnvelopeAR.process (EnvelopeAR.reset (α := α)) ∧ ResetForgets EnvelopeADSR.process (EnvelopeADSR.reset (α := α)) := by
  refine ⟨fun s => forEach_reset (fun s _ => ?_) s, fun s => forEach_reset (fun s _ => ?_) s, fun s => forEach_reset (fun s _ => ?_) s,
    fun s => forEach_reset (fun s _ => ?_) s, fun s => forEach_reset (fun s _ => ?_) s, fun s => forEach_reset (fun s _ => ?_) s,
    fun s => forEach_reset (fun s x => ?_) s, fun s => forEach_reset (fun s _ => ?_) s, fun s => forEach_reset (fun s _ => ?_) s⟩
  · rfl
  · rfl
  · rfl
  · unfold LFNoise2.tick; dsimp only; split_ifs <;> rfl
  · unfold XLine.tick; dsimp only; split_ifs <;> rfl
  · rfl
  · unfold Phasor.tickTrig Phasor.tick; dsimp only; split_ifs <;> rfl
  · unfold EnvelopeAR.tick; dsimp only; split <;> (try split_ifs) <;> rfl
  · unfold EnvelopeADSR.tick; dsimp only; split <;> (try split_ifs) <;> rfl

/-- **C57**, notes: a trigger, release or gate before `reset` is forgotten as well. -/
theorem C57_notes (g : α) (b : Bool) (e : EnvelopeAR.Env α) (d : EnvelopeADSR.Env α) :
    EnvelopeAR.reset (EnvelopeAR.trigger e) = EnvelopeAR.reset e ∧ EnvelopeAR.reset (EnvelopeAR.release e) = EnvelopeAR.reset e ∧
    EnvelopeAR.reset (EnvelopeAR.setGate b e) = EnvelopeAR.reset e ∧ EnvelopeADSR.reset (EnvelopeADSR.gate g d) = EnvelopeADSR.reset d := by
  refine ⟨rfl, ?_, ?_, ?_⟩
  · unfold EnvelopeAR.release; split_ifs <;> rfl
  · unfold EnvelopeAR.setGate EnvelopeAR.release EnvelopeAR.trigger; split_ifs <;> rfl
  · unfold EnvelopeADSR.gate; dsimp only; split_ifs <;> rfl

/-- **C57**, filters. -/
theorem C57_filters :
    ResetForgets DCBlock.process (DCBlock.reset (α := α)) ∧ ResetForgets DCBlock.processStereo (DCBlock.reset (α := α)) ∧
    ResetForgets OnePoleLPF.process (OnePoleLPF.reset (α := α)) ∧ ResetForgets OnePoleLPF.processMod (OnePoleLPF.reset (α := α)) ∧
    ResetForgets RLPF.process (RLPF.reset (α := α) (β := β)) ∧ ResetForgets Lag.process (Lag.reset (α := α)) ∧
    ResetForgets Tape.process (Tape.reset (α := α)) ∧ ResetForgets Tape.processStereo (Tape.reset (α := α)) := by
  refine ⟨fun s => forEach_reset (fun s _ => ?_) s, fun s => forEach_reset (fun s _ => ?_) s, fun s => forEach_reset (fun s _ => ?_) s,
    fun s => forEach_reset (fun s _ => ?_) s, fun s => forEach_reset (fun s _ => ?_) s, fun s => forEach_reset (fun s _ => ?_) s,
    fun s => forEach_reset (fun s x => ?_) s, fun s => forEach_reset (fun s _ => ?_) s⟩ <;> rfl

theorem LagLinear.reset_advance (s : LagLinear.Ramp α) : LagLinear.reset (LagLinear.advance s).1 = LagLinear.reset s := by
  unfold LagLinear.advance; dsimp only; split_ifs <;> rfl

theorem LagLinear.reset_recalc (s : LagLinear.Ramp α) : LagLinear.reset (LagLinear.recalcIncrement s) = LagLinear.reset s := by
  unfold LagLinear.recalcIncrement; split_ifs <;> rfl

/-- **C57** for the filters whose processing may be undefined: whenever a block has been processed, `reset` forgets it. CombC clears the
whole delay line. -/
theorem C57_checked (fuel : ℕ) (xs : List α) :
    (∀ (s s' : LagLinear.Ramp α) ys, LagLinear.process s xs = some (s', ys) → LagLinear.reset s' = LagLinear.reset s) ∧
    (∀ (s s' : CombC.Comb α) ys, CombC.process fuel s xs = some (s', ys) → CombC.reset s' = CombC.reset s) := by
  constructor
  · induction xs with
    | nil => intro s s' ys h; cases h; rfl
    | cons x xs ih =>
      intro s s' ys h
      simp only [LagLinear.process, Option.bind_eq_some_iff, Option.map_eq_some_iff] at h
      obtain ⟨⟨s1, y⟩, h1, ⟨s2, zs⟩, h2, h3⟩ := h
      cases h3
      rw [ih _ _ _ h2]
      unfold LagLinear.tick at h1
      dsimp only at h1
      split_ifs at h1 with c1 c2
      · cases h1; rfl
      · simp only [Option.map_eq_some_iff] at h1
        obtain ⟨n, _, h1⟩ := h1
        rw [show s1 = (LagLinear.advance _).1 from (congrArg Prod.fst h1).symm, LagLinear.reset_advance, LagLinear.reset_recalc]; rfl
      · simp only [Option.some.injEq] at h1
        rw [show s1 = (LagLinear.advance _).1 from (congrArg Prod.fst h1).symm, LagLinear.reset_advance]
  · induction xs with
    | nil => intro s s' ys h; cases h; rfl
    | cons x xs ih =>
      intro s s' ys h
      simp only [CombC.process, Option.bind_eq_some_iff, Option.map_eq_some_iff] at h
      obtain ⟨⟨s1, y⟩, h1, ⟨s2, zs⟩, h2, h3⟩ := h
      cases h3
      rw [ih _ _ _ h2]
      unfold CombC.tick at h1
      simp only [Option.bind_eq_some_iff] at h1
      obtain ⟨_, _, _, _, h1⟩ := h1
      split_ifs at h1 <;> simp only [Option.bind_eq_some_iff] at h1
      all_goals obtain ⟨_, _, _, _, _, _, _, _, h1⟩ := h1
      all_goals (cases h1; try rfl)

/-- **C57** for the Downsampler: samples written and samples read leave no trace after `reset`. -/
theorem C57_downsampler (xs : List α) (s : Downsampler.Down α) :
    Downsampler.reset (xs.foldl Downsampler.write s) = Downsampler.reset s ∧
    Downsampler.reset (Downsampler.read s).1 = Downsampler.reset s := by
  constructor
  · induction xs generalizing s with
    | nil => rfl
    | cons x xs ih => rw [List.foldl_cons, ih]; rfl
  · unfold Downsampler.read; split_ifs <;> rfl

/-- **C57** for ExampleVoice while its vibrato is on: after `reset` the voice plays what it would have played had the block before the
reset never been asked for. With the vibrato off it need not: the pitch stays where the vibrato left it (`C55`). -/
theorem C57_voice (s : ExampleVoice.Voice α) (hv : (s.vibratoDepth >. lit 0) = true) (before after : List (Stereo α)) :
    (ExampleVoice.process (ExampleVoice.reset (ExampleVoice.process s before).1) after).2 =
      (ExampleVoice.process (ExampleVoice.reset s) after).2 := by
  have noise : ∀ o : LFNoise2.Osc α, LFNoise2.reset ExampleVoice.defaultSeed (LFNoise2.tick o).1 = LFNoise2.reset ExampleVoice.defaultSeed o := by
    intro o; unfold LFNoise2.tick; dsimp only; split_ifs <;> rfl
  have ar : ∀ e : EnvelopeAR.Env α, EnvelopeAR.reset (EnvelopeAR.tick e).1 = EnvelopeAR.reset e := by
    intro e; unfold EnvelopeAR.tick; dsimp only; split <;> (try split_ifs) <;> rfl
  have step : ∀ t : ExampleVoice.Voice α, (t.vibratoDepth >. lit 0) = true →
      ExampleVoice.tick (ExampleVoice.reset (ExampleVoice.tick t).1) = ExampleVoice.tick (ExampleVoice.reset t) ∧
      ((ExampleVoice.tick t).1.vibratoDepth >. lit 0) = true := by
    intro t ht
    have e : ExampleVoice.modulate (ExampleVoice.reset (ExampleVoice.tick t).1) = ExampleVoice.modulate (ExampleVoice.reset t) := by
      simp only [ExampleVoice.tick, ExampleVoice.reset, ExampleVoice.modulate, ht, if_true, noise, ar]
      rfl
    refine ⟨?_, ?_⟩
    · have congr : ∀ a b : ExampleVoice.Voice α, ExampleVoice.modulate a = ExampleVoice.modulate b →
          ExampleVoice.tick a = ExampleVoice.tick b := fun a b h => by unfold ExampleVoice.tick; rw [h]
      exact congr _ _ e
    · simp only [ExampleVoice.tick, ExampleVoice.modulate, ht, if_true]
  have key : ∀ (bs : List (Stereo α)) (t : ExampleVoice.Voice α), (t.vibratoDepth >. lit 0) = true →
      ExampleVoice.tick (ExampleVoice.reset (ExampleVoice.process t bs).1) = ExampleVoice.tick (ExampleVoice.reset t) := by
    intro bs
    induction bs with
    | nil => intro t _; rfl
    | cons b bs ih =>
      intro t ht
      have := step t ht
      rw [← this.1]
      exact ih _ this.2
  cases after with
  | nil => rfl
  | cons a as =>
    simp only [ExampleVoice.process, forEach]
    rw [show ExampleVoice.tick (ExampleVoice.reset (forEach (fun s _ => ExampleVoice.tick s) s before).1) =
      ExampleVoice.tick (ExampleVoice.reset s) from key before s hv]

example (s : ExampleVoice.Voice F32) : ((ExampleVoice.setVibratoDepth (lit 0.5) s).vibratoDepth >. lit 0) = true := by
  have key : ((lit 0.5 : F32) >. lit 0) = true := by decide +kernel
  exact key

/-- **C57, negative**, general form: SuperSaw's `reset` leaves every voice's vibrato oscillator as it is. -/
theorem C57_supersaw_vibrato_kept (s : SuperSaw.Synth α) :
    (SuperSaw.reset s).voices.map (fun v => v.vibrato) = s.voices.map (fun v => v.vibrato) := by
  simp [SuperSaw.reset, Function.comp_def]

/-- `s` with its vibrato oscillators where those of `t` are. -/
def withVibratoOf (s t : SuperSaw.Synth α) : SuperSaw.Synth α :=
  { s with voices := List.zipWith (fun v w => { v with vibrato := w.vibrato }) s.voices t.voices }

/-- The settings of two voices agree. -/
def SameSettings (v w : SuperSaw.Voice α) : Prop :=
  v.saw.sampleRate = w.saw.sampleRate ∧ v.saw.scaleFactor = w.saw.scaleFactor ∧ v.detuneOffset = w.detuneOffset ∧
    v.vibratoPhase = w.vibratoPhase ∧ v.sawPhase = w.sawPhase

theorem supersaw_voices (f d x : α) : ∀ (vs : List (SuperSaw.Voice α)) (a : ℕ × Stereo α),
    (forEach (SuperSaw.mixStep f d x) a vs).2 = vs.map fun v => (SuperSaw.voiceTick f d v).1
  | [], _ => rfl
  | v :: vs, a => by
    simp only [forEach, List.map_cons]
    rw [← supersaw_voices f d x vs]
    rfl

theorem supersaw_settings : ∀ (bs : List (Stereo α)) (s : SuperSaw.Synth α), let t := (SuperSaw.process s bs).1
    List.Forall₂ SameSettings t.voices s.voices ∧ EnvelopeADSR.reset t.envelope = EnvelopeADSR.reset s.envelope ∧
      t = { s with voices := t.voices, envelope := t.envelope }
  | [], s => ⟨List.forall₂_same.2 fun v _ => ⟨rfl, rfl, rfl, rfl, rfl⟩, rfl, rfl⟩
  | b :: bs, s => by
    obtain ⟨h1, h2, h3⟩ := supersaw_settings bs (SuperSaw.tick s).1
    have hv : (SuperSaw.tick s).1.voices = s.voices.map fun v => (SuperSaw.voiceTick s.frequency s.vibrDepth v).1 :=
      supersaw_voices _ _ _ _ _
    rw [hv, List.forall₂_map_right_iff] at h1
    refine ⟨h1.imp fun v w h => h, ?_, ?_⟩
    · refine h2.trans ?_
      have := (C57_generators (lit 0 : α) 0).2.2.2.2.2.2.2.2 s.envelope [lit 0]
      exact this
    · exact h3

/-- **C57_partial**, SuperSaw, in any arithmetic: after `reset` the past shows in nothing but the vibrato oscillators. What is played after
a block and a `reset` is what would have been played after a `reset` alone, had the vibrato oscillators been where they are. Missing: the
vibrato oscillators, which `reset` forgets to reset. -/
theorem C57_supersaw_partial (s : SuperSaw.Synth α) (before after : List (Stereo α)) :
    (SuperSaw.process (SuperSaw.reset (SuperSaw.process s before).1) after).2 =
      (SuperSaw.process (SuperSaw.reset (withVibratoOf s (SuperSaw.process s before).1)) after).2 := by
  cases after with
  | nil => rfl
  | cons a as =>
    obtain ⟨h1, h2, h3⟩ := supersaw_settings before s
    generalize (SuperSaw.process s before).1 = t at *
    have hmix : ∀ (f d x : α) (ts vs : List (SuperSaw.Voice α)) (acc : ℕ × Stereo α), List.Forall₂ SameSettings ts vs →
        forEach (SuperSaw.mixStep f d x) acc (ts.map fun v => { v with saw := SawDPW.reset v.saw }) =
        forEach (SuperSaw.mixStep f d x) acc ((List.zipWith (fun v w => ({ v with vibrato := w.vibrato } : SuperSaw.Voice α)) vs ts).map
          fun v => { v with saw := SawDPW.reset v.saw }) := by
      intro f d x ts vs acc h
      induction h generalizing acc with
      | nil => rfl
      | @cons v w ts vs hvw _ ih =>
        obtain ⟨e1, e2, e3, e4, e5⟩ := hvw
        have hm : SuperSaw.mixStep f d x acc { v with saw := SawDPW.reset v.saw } =
            SuperSaw.mixStep f d x acc { w with vibrato := v.vibrato, saw := SawDPW.reset w.saw } := by
          obtain ⟨⟨_, _, _, _, _, _⟩, _, _, _, _⟩ := v
          obtain ⟨⟨_, _, _, _, _, _⟩, _, _, _, _⟩ := w
          simp only at e1 e2 e3 e4 e5
          subst e1 e2 e3 e4 e5
          rfl
        simp only [List.map_cons, List.zipWith_cons_cons, forEach]
        rw [hm, ih]
    have ht : SuperSaw.tick (SuperSaw.reset t) = SuperSaw.tick (SuperSaw.reset (withVibratoOf s t)) := by
      have f1 := congrArg SuperSaw.Synth.frequency h3
      have f2 := congrArg SuperSaw.Synth.vibrDepth h3
      have f3 := congrArg SuperSaw.Synth.spread h3
      have f4 := congrArg SuperSaw.Synth.vibrRate h3
      have f5 := congrArg SuperSaw.Synth.detune h3
      have f6 := congrArg SuperSaw.Synth.sampleRate h3
      simp only at f1 f2 f3 f4 f5 f6
      simp only [SuperSaw.tick, SuperSaw.reset, withVibratoOf, f1, f2, f3, f4, f5, f6, h2, hmix _ _ _ _ _ _ h1]
    simp only [SuperSaw.process, forEach]
    rw [ht]

end any

/-- **C57, negative**: so SuperSaw does not come back to where it was. At 48 kHz, with all random phases zero, every other setting at its
default: after one sample and a `reset` the first frame is played at other frequencies than after a `reset` alone. -/
theorem C57_supersaw_reset_remembers :
    let s : SuperSaw.Synth ℝ := SuperSaw.init 48000 (fun _ => 0)
    (SuperSaw.tick (SuperSaw.reset (SuperSaw.tick s).1)).1.voices.map (fun v => v.saw.frequency) ≠
      (SuperSaw.tick (SuperSaw.reset s)).1.voices.map (fun v => v.saw.frequency) := by
  intro s h
  have h0 := congrArg (fun l => l[0]?) h
  simp [s, SuperSaw.init, SuperSaw.tick, SuperSaw.reset, SuperSaw.NUM_VOICES, List.range_succ, forEach, SuperSaw.mixStep, SuperSaw.voiceTick,
    SuperSaw.initVoice, LFTri.tick, LFTri.setFrequency, LFTri.init, SawDPW.reset, SawDPW.tick, SawDPW.setFrequency, SawDPW.init,
    LFTri.updatePhaseIncrement, SuperSaw.detuneOf, real_arith] at h0
  rw [if_neg (by norm_num : ¬ (1 : ℝ) ≤ 6 / 48000), if_neg (by norm_num : ¬ (1 : ℝ) ≤ 6 / 48000),
    if_pos (by norm_num : (6 / 48000 : ℝ) < 0.5), if_pos (by norm_num : (0 : ℝ) < 0.5)] at h0
  rcases h0 with h0 | h0
  · have := (Real.strictMono_rpow_of_base_gt_one (by norm_num : (1 : ℝ) < 2)).injective h0
    norm_num at this
  · exact (Real.rpow_pos_of_pos (by norm_num) _).ne' h0

end Verif
