import Verif.Model.MoogLadders
import Verif.Model.Envelopes
import Verif.Model.ExampleVoice
import Verif.Model.SuperSaw
import Verif.Model.CombC
import Verif.Model.XPlay
import Verif.Float.Order
import Verif.Float.Mag

/-!
# C60: setters store the nearest value of the documented range
-/

set_option linter.unusedSectionVars false

namespace Verif
open FP

/-! ## Specification -/

/-- `stored` is the point of `[lo, hi]` nearest to the number `v` on the extended number line: the argument itself if it lies in
the range, never farther from it than any other point of the range, and the end of the range for an infinity. Nothing is nearest
to NaN. -/
def Nearest (lo hi : ℚ) (v stored : F32) : Prop :=
  stored.In lo hi ∧
  match v with
  | .nan => False
  | .inf true => stored.val = lo
  | .inf false => stored.val = hi
  | .fin q _ _ => (lo ≤ q → q ≤ hi → stored = v) ∧ ∀ y, lo ≤ y → y ≤ hi → |stored.val - q| ≤ |y - q|

/-- `stored` is at least `lo` (it may be `+∞`), and it is the argument itself if that is a number above `lo`, else `lo`. -/
def AtLeast (lo : ℚ) (v stored : F32) : Prop :=
  (stored = .inf false ∨ stored.isFin = true ∧ lo ≤ stored.val) ∧
  match v with
  | .nan => stored.val = lo
  | .inf true => stored.val = lo
  | .inf false => stored = .inf false
  | .fin q _ _ => if lo < q then stored = v else stored.val = lo

/-! ## The clamping idioms of the library -/

theorem clamp_nearest {v lo hi : F32} {a b : ℚ} (hv : v ≠ nan) (hlo : lo.In a a) (hhi : hi.In b b) (hab : a ≤ b) :
    Nearest a b v (if v <. lo then lo else if v >. hi then hi else v) := by
  refine ⟨clamp_in hv hlo hhi hab, ?_⟩
  have hl := hlo.val_eq
  have hh := hhi.val_eq
  rcases not_nan_cases hv with rfl | rfl | hf
  · obtain ⟨v, nz, hv, rfl⟩ := isFin_cases hlo.1
    exact hl
  · obtain ⟨v, nz, hv, rfl⟩ := isFin_cases hlo.1
    obtain ⟨w, nw, hw, rfl⟩ := isFin_cases hhi.1
    exact hh
  · obtain ⟨q, nz, h, rfl⟩ := isFin_cases hf
    have e1 : ((fin q nz h : F32) <. lo) = decide (q < a) := by rw [lt_fin rfl hlo.1, hl]; rfl
    have e2 : (hi <. (fin q nz h : F32)) = decide (b < q) := by rw [lt_fin hhi.1 rfl, hh]; rfl
    rw [e1, e2]
    show (a ≤ q → q ≤ b → _) ∧ _
    simp only [decide_eq_true_eq]
    refine ⟨fun h1 h2 => by rw [if_neg (by linarith), if_neg (by linarith)], fun y h1 h2 => ?_⟩
    by_cases h3 : q < a
    · rw [if_pos h3, hl, abs_of_pos (by linarith), abs_of_pos (by linarith)]; linarith
    · rw [if_neg h3]
      by_cases h4 : b < q
      · rw [if_pos h4, hh, abs_of_neg (by linarith), abs_of_neg (by linarith)]; linarith
      · rw [if_neg h4]; show |q - q| ≤ _; rw [sub_self, abs_zero]; exact abs_nonneg _

theorem above_atLeast {v lo d : F32} {a : ℚ} (hlo : lo.In a a) (hd : d = lo) :
    AtLeast a v (if v >. lo then v else d) := by
  subst hd
  have hl := hlo.val_eq
  obtain ⟨w, nw, hw, rfl⟩ := isFin_cases hlo.1
  have hl : w = a := hl
  subst hl
  cases v with
  | nan => exact ⟨.inr ⟨rfl, le_rfl⟩, rfl⟩
  | inf b =>
    cases b
    · exact ⟨.inl rfl, rfl⟩
    · exact ⟨.inr ⟨rfl, le_rfl⟩, rfl⟩
  | fin q nz h =>
    have e1 : ((fin w nw hw : F32) <. (fin q nz h : F32)) = decide (w < q) := rfl
    rw [e1]
    simp only [decide_eq_true_eq]
    by_cases h1 : w < q
    · rw [if_pos h1]
      refine ⟨.inr ⟨rfl, h1.le⟩, ?_⟩
      show if w < q then _ else _
      rw [if_pos h1]
    · rw [if_neg h1]
      refine ⟨.inr ⟨rfl, le_rfl⟩, ?_⟩
      show if w < q then _ else _
      rw [if_neg h1]; rfl

theorem lit01 : (lit 0 : F32).In 0 0 ∧ (lit 1 : F32).In 1 1 := ⟨lit_rep rep_zero, lit_rep rep_one⟩

/-! ## Parameters with the range [0, 1] -/

/-- **C60**, parameters documented as `0` to `1`: after every call with a number or an infinity, whatever the state, each of the
seven ladders, the ADSR envelope, ExampleVoice and SuperSaw hold the value of `[0, 1]` nearest to the argument. (For Stilson the
call is defined as soon as its table index is.) -/
theorem C60_unit [Libm F32] [Libm F64] (v : F32) (hv : v ≠ nan) :
    (∀ s : Microtracker.Ladder F32 F64, Nearest 0 1 v (Microtracker.setResonance v s).resonance) ∧
    (∀ s : Krajeski.Ladder F32 F64, Nearest 0 1 v (Krajeski.setResonance v s).resonance) ∧
    (∀ s : MusicDSP.Ladder F32 F64, Nearest 0 1 v (MusicDSP.setResonance v s).resonance) ∧
    (∀ s : Improved.Ladder F32 F64, Nearest 0 1 v (Improved.setResonance v s).resonance) ∧
    (∀ s s' : Stilson.Ladder F32 F64, Stilson.setResonance v s = some s' → Nearest 0 1 v s'.resonance) ∧
    (∀ s : Oberheim.Ladder F32 F64, Nearest 0 1 v (Oberheim.setResonance v s).resonance) ∧
    (∀ s : RKSimulation.Ladder F32 F64, Nearest 0 1 v (RKSimulation.setResonance v s).resonance) ∧
    (∀ s : EnvelopeADSR.Env F32, Nearest 0 1 v (EnvelopeADSR.setSustain v s).sustainLevel) ∧
    (∀ s : ExampleVoice.Voice F32, Nearest 0 1 v (ExampleVoice.setAmplitude v s).amplitude) ∧
    (∀ s : ExampleVoice.Voice F32, Nearest 0 1 v (ExampleVoice.setPanDepth v s).panDepth) ∧
    (∀ s : SuperSaw.Synth F32, Nearest 0 1 v (SuperSaw.setSpread v s).spread) ∧
    (∀ s : SuperSaw.Synth F32, Nearest 0 1 v (SuperSaw.setSustain v s).envelope.sustainLevel) := by
  have h := clamp_nearest hv lit01.1 lit01.2 (by norm_num)
  refine ⟨fun _ => h, fun _ => h, fun _ => h, fun _ => h, fun s s' e => ?_, fun _ => h, fun _ => h, fun _ => h, fun _ => h,
    fun _ => h, fun _ => h, fun _ => h⟩
  simp only [Stilson.setResonance, Option.bind_eq_some_iff, Option.map_eq_some_iff] at e
  obtain ⟨_, _, _, _, _, _, rfl⟩ := e
  exact h

/-- Concrete case: resonance 3 is stored as 1, minus infinity as 0, one half as it is. -/
example : (clamp01 (lit 3 : F32), clamp01 (inf true : F32), clamp01 (lit 0.5 : F32)) = (lit 1, lit 0, lit 0.5) := by
  decide +kernel

/-- **C60, negation for NaN**: NaN passes every one of these clamps and is stored. -/
theorem C60_nan_stored [Libm F32] [Libm F64] :
    (∀ s : Microtracker.Ladder F32 F64, (Microtracker.setResonance nan s).resonance = nan) ∧
    (∀ s : Krajeski.Ladder F32 F64, (Krajeski.setResonance nan s).resonance = nan) ∧
    (∀ s : MusicDSP.Ladder F32 F64, (MusicDSP.setResonance nan s).resonance = nan) ∧
    (∀ s : Improved.Ladder F32 F64, (Improved.setResonance nan s).resonance = nan) ∧
    (∀ s : Oberheim.Ladder F32 F64, (Oberheim.setResonance nan s).resonance = nan) ∧
    (∀ s : RKSimulation.Ladder F32 F64, (RKSimulation.setResonance nan s).resonance = nan) ∧
    (∀ s : EnvelopeADSR.Env F32, (EnvelopeADSR.setSustain nan s).sustainLevel = nan) ∧
    (∀ s : ExampleVoice.Voice F32, (ExampleVoice.setAmplitude nan s).amplitude = nan) ∧
    (∀ s : ExampleVoice.Voice F32, (ExampleVoice.setPanDepth nan s).panDepth = nan) ∧
    (∀ s : SuperSaw.Synth F32, (SuperSaw.setSpread nan s).spread = nan) :=
  have h0 : (if (nan : F32) <. lit 0 then lit 0 else if (nan : F32) >. lit 1 then lit 1 else nan) = nan := by
    decide +kernel
  ⟨fun _ => h0, fun _ => h0, fun _ => h0, fun _ => h0, fun _ => h0, fun _ => h0, fun _ => h0,
    fun _ => h0, fun _ => h0, fun _ => h0⟩

/-! ## Filter frequencies -/

/-- **C60**, filter frequencies: OnePoleLPF keeps its cutoff between 1 Hz and half the sample rate, RLPF its frequency between 1 Hz
and 0.99 of that and its resonance between 0.1 and 30, the improved ladder its cutoff between 0 and 0.99·sampleRate/π – the upper
ends as the rounded single-precision products. Sample rates from 4 Hz to 2^24 Hz. -/
theorem C60_frequency [Libm F32] [Libm F64] (v : F32) (hv : v ≠ nan) (sr : F32) (hsr : sr.In 4 (2 ^ 24)) :
    (∀ s : OnePoleLPF.Filt F32, s.sampleRate = sr → Nearest 1 (sr * lit 0.5).val v (OnePoleLPF.setCutoff v s).cutoff) ∧
    (∀ s : RLPF.Filt F32 F64, s.sampleRate = sr → Nearest 1 (sr * lit 0.5 * lit 0.99).val v (RLPF.setFreq v s).freq) ∧
    (∀ s : RLPF.Filt F32 F64, Nearest (lit 0.1 : F32).val 30 v (RLPF.setResonance v s).resonance) ∧
    (∀ s : Improved.Ladder F32 F64, s.sampleRate = sr →
      Nearest 0 (sr / PI * lit 0.99).val v (Improved.setCutoff v s).cutoff) := by
  have r1 : binary32.Rep 2 false := by decide +kernel
  have r23 : binary32.Rep (2 ^ 23) false := by decide +kernel
  have r24 : binary32.Rep (2 ^ 24) false := by decide +kernel
  have h05 : (lit 0.5 : F32).In 0.5 0.5 := lit_rep (by decide +kernel)
  have hPI : (PI : F32).In 3 4 := by decide +kernel
  have h99 : (lit 0.99 : F32).In 0.5 1 := by decide +kernel
  obtain ⟨s0, s1, s2⟩ := hsr
  have hny : (sr * lit 0.5).In 2 (2 ^ 23) :=
    mul_in s0 h05.1 r1 r23
      (by rw [h05.val_eq]; linarith) (by rw [h05.val_eq]; linarith)
  have h99n : (sr * lit 0.5 * lit 0.99).In 1 (2 ^ 23) :=
    mul_in hny.1 h99.1 rep_one r23 (by nlinarith [hny.2.1, h99.2.1])
      (by nlinarith [hny.2.2, h99.2.2, hny.2.1, h99.2.1])
  have hdiv : (sr / PI).In 1 (2 ^ 24) := by
    have p0 : (0:ℚ) < (PI : F32).val := by linarith [hPI.2.1]
    refine div_in s0 hPI.1 (ne_of_gt p0) rep_one r24 ?_ ?_
    · rw [le_div_iff₀ p0]; linarith [hPI.2.2]
    · rw [div_le_iff₀ p0]; nlinarith [hPI.2.1]
  have hmax : (sr / PI * lit 0.99).In 0 (2 ^ 24) :=
    mul_in hdiv.1 h99.1 rep_zero r24 (by nlinarith [hdiv.2.1, h99.2.1])
      (by nlinarith [hdiv.2.2, h99.2.2, hdiv.2.1, h99.2.1])
  refine ⟨fun s e => ?_, fun s e => ?_, fun s => ?_, fun s e => ?_⟩
  · subst e
    exact clamp_nearest hv lit01.2 (in_val hny.1) (by linarith [hny.2.1])
  · subst e
    exact clamp_nearest hv lit01.2 (in_val h99n.1) h99n.2.1
  · exact clamp_nearest hv (in_val (by decide +kernel)) (lit_rep (by decide +kernel)) (by decide +kernel)
  · subst e
    exact clamp_nearest hv lit01.1 (in_val hmax.1) hmax.2.1

/-- Concrete case: at 48 kHz one megahertz is stored as 24000 by OnePoleLPF, and as 23760 by RLPF. -/
example : ((clamp (lit 1000000) (lit 1) (lit 48000 * lit 0.5) : F32),
    (clamp (lit 1000000) (lit 1) (lit 48000 * lit 0.5 * lit 0.99) : F32)) = (lit 24000, lit 23760) := by decide +kernel

/-! ## Times, frequencies and drives bounded from below -/

/-- **C60**, envelope times: whatever is passed – NaN included – the attack, decay and release times of both envelopes, and of the
voices that own one, are at least a tenth of a millisecond, and are the argument itself if that is longer. -/
theorem C60_times [Libm F32] (v : F32) :
    (∀ s : EnvelopeAR.Env F32, AtLeast (lit 0.0001 : F32).val v (EnvelopeAR.setAttack v s).attackTime) ∧
    (∀ s : EnvelopeAR.Env F32, AtLeast (lit 0.0001 : F32).val v (EnvelopeAR.setRelease v s).releaseTime) ∧
    (∀ s : EnvelopeADSR.Env F32, AtLeast (lit 0.0001 : F32).val v (EnvelopeADSR.setAttack v s).attackTime) ∧
    (∀ s : EnvelopeADSR.Env F32, AtLeast (lit 0.0001 : F32).val v (EnvelopeADSR.setDecay v s).decayTime) ∧
    (∀ s : EnvelopeADSR.Env F32, AtLeast (lit 0.0001 : F32).val v (EnvelopeADSR.setRelease v s).releaseTime) ∧
    (∀ s : ExampleVoice.Voice F32, AtLeast (lit 0.0001 : F32).val v (ExampleVoice.setAttack v s).env.attackTime) ∧
    (∀ s : ExampleVoice.Voice F32, AtLeast (lit 0.0001 : F32).val v (ExampleVoice.setRelease v s).env.releaseTime) ∧
    (∀ s : SuperSaw.Synth F32, AtLeast (lit 0.0001 : F32).val v (SuperSaw.setAttack v s).envelope.attackTime) ∧
    (∀ s : SuperSaw.Synth F32, AtLeast (lit 0.0001 : F32).val v (SuperSaw.setDecay v s).envelope.decayTime) ∧
    (∀ s : SuperSaw.Synth F32, AtLeast (lit 0.0001 : F32).val v (SuperSaw.setRelease v s).envelope.releaseTime) := by
  have h : AtLeast (lit 0.0001 : F32).val v (if v >. lit 0.0001 then v else lit 0.0001) :=
    above_atLeast (in_val (by decide +kernel)) rfl
  exact ⟨fun _ => h, fun _ => h, fun _ => h, fun _ => h, fun _ => h, fun _ => h, fun _ => h, fun _ => h, fun _ => h, fun _ => h⟩

/-- Concrete case: a negative time and NaN are stored as a tenth of a millisecond, two seconds as they are. -/
example [Libm F32] (s : EnvelopeAR.Env F32) :
    (EnvelopeAR.setAttack (-lit 1) s).attackTime = lit 0.0001 ∧ (EnvelopeAR.setAttack nan s).attackTime = lit 0.0001 ∧
    (EnvelopeAR.setAttack (lit 2) s).attackTime = lit 2 := by
  have h1 : ((-lit 1 : F32) >. lit 0.0001) = false := by decide +kernel
  have h2 : ((lit 2 : F32) >. lit 0.0001) = true := by decide +kernel
  have h3 : ((nan : F32) >. lit 0.0001) = false := by decide +kernel
  refine ⟨?_, ?_, ?_⟩
  · simp only [EnvelopeAR.setAttack, EnvelopeAR.updateAttackCoefficient, h1]; rfl
  · simp only [EnvelopeAR.setAttack, EnvelopeAR.updateAttackCoefficient, h3]; rfl
  · simp only [EnvelopeAR.setAttack, EnvelopeAR.updateAttackCoefficient, h2]; rfl

/-- **C60**, remaining one-sided ranges: LFNoise2 (and the voices' vibrato) keeps a positive frequency for every argument, NaN
included; the drive of the improved and the Runge-Kutta ladder is never negative, and is the argument if that is positive; the
oversampling factor is at least 1. -/
theorem C60_one_sided (v : F32) :
    (∀ s : LFNoise2.Osc F32, let f := (LFNoise2.setFrequency v s).frequency
      (f = inf false ∨ f.isFin = true ∧ 0 < f.val) ∧ ((v >. lit 0) = true → f = v)) ∧
    (v ≠ nan → ∀ s : Improved.Ladder F32 F64, ((Improved.setDrive v s).drive <. lit 0) = false ∧
      (Improved.setDrive v s).drive ≠ nan ∧ (v.isFin = true → 0 ≤ v.val → (Improved.setDrive v s).drive.val = v.val)) ∧
    (v ≠ nan → ∀ s : RKSimulation.Ladder F32 F64, ((RKSimulation.setDrive v s).drive <. lit 0) = false ∧
      (RKSimulation.setDrive v s).drive ≠ nan ∧ (v.isFin = true → 0 ≤ v.val → (RKSimulation.setDrive v s).drive.val = v.val)) ∧
    (∀ (n : ℤ) (s : RKSimulation.Ladder F32 F64), 1 ≤ (RKSimulation.setOversampleFactor n s).oversampleFactor ∧
      (1 ≤ n → (RKSimulation.setOversampleFactor n s).oversampleFactor = n)) := by
  refine ⟨fun s => ?_, fun hv s => ?_, fun hv s => ?_, fun n s => ?_⟩
  · show ((if v >. lit 0 then v else lit 0.001) = inf false ∨ (if v >. lit 0 then v else lit 0.001).isFin = true ∧
      0 < (if v >. lit 0 then v else lit 0.001).val) ∧ (_ → (if v >. lit 0 then v else lit 0.001) = v)
    by_cases hc : (v >. lit 0) = true
    · rw [if_pos hc]
      refine ⟨?_, fun _ => rfl⟩
      cases v with
      | nan => exfalso; revert hc; decide +kernel
      | inf b =>
        cases b
        · exact .inl rfl
        · exfalso; revert hc; decide +kernel
      | fin q nz h =>
        rw [lt_fin lit01.1.1 rfl, lit01.1.val_eq, decide_eq_true_eq] at hc
        exact .inr ⟨rfl, hc⟩
    · rw [if_neg hc]
      exact ⟨.inr (by decide +kernel), fun h => absurd h hc⟩
  · have z64 : (lit 0 : F64).In 0 0 := lit_rep rep_zero
    have zz : ((lit 0 : F64) <. lit 0) = false := by decide +kernel
    by_cases hc : ((Conv.conv v : F64) <. lit 0) = true
    · simp only [Improved.setDrive, hc, if_true]
      refine ⟨zz, by decide +kernel, fun hf h0 => ?_⟩
      rw [lt_fin (conv_up hf).1 z64.1, (conv_up hf).val_eq, z64.val_eq, decide_eq_true_eq] at hc
      linarith
    · rw [Bool.not_eq_true] at hc
      simp only [Improved.setDrive, hc, Bool.false_eq_true, if_false]
      exact ⟨trivial, fun h => hv (conv_nan_iff.1 h), fun hf _ => (conv_up hf).val_eq⟩
  · have z64 : (lit 0 : F64).In 0 0 := lit_rep rep_zero
    have zz : ((Conv.conv (lit 0 : F32) : F64) <. lit 0) = false := by decide +kernel
    by_cases hc : (v <. lit 0) = true
    · simp only [RKSimulation.setDrive, hc, if_true]
      refine ⟨zz, by decide +kernel, fun hf h0 => ?_⟩
      rw [lt_fin hf lit01.1.1, lit01.1.val_eq, decide_eq_true_eq] at hc
      linarith
    · rw [Bool.not_eq_true] at hc
      simp only [RKSimulation.setDrive, hc, Bool.false_eq_true, if_false]
      refine ⟨?_, fun h => hv (conv_nan_iff.1 h), fun hf _ => (conv_up hf).val_eq⟩
      rcases not_nan_cases hv with rfl | rfl | hf
      · exfalso; revert hc; decide +kernel
      · decide +kernel
      · rw [lt_fin hf lit01.1.1, lit01.1.val_eq, decide_eq_false_iff_not] at hc
        rw [lt_fin (conv_up hf).1 z64.1, (conv_up hf).val_eq, z64.val_eq, decide_eq_false_iff_not]
        exact hc
  · simp only [RKSimulation.setOversampleFactor]
    split_ifs with h <;> omega

/-! ## CombC and XPlay -/

/-- **C60, CombC, the setter**: the delay time is kept between 0 and the maximum given to `init`. -/
theorem C60_comb_partial [Libm F32] (v : F32) (hv : v ≠ nan) (s : CombC.Comb F32) (hm : s.maxDelayTime.isFin = true)
    (h0 : 0 ≤ s.maxDelayTime.val) : Nearest 0 s.maxDelayTime.val v (CombC.setDelayTime v s).delayTime :=
  clamp_nearest hv lit01.1 (in_val hm) h0

/-- **C60, negation for CombC**: `init` itself stores a delay of 0.2 s whatever the maximum is. A comb initialised with a maximum
of 50 ms at 48 kHz holds a delay of four times its maximum until `setDelayTime` is called. -/
theorem C60_comb_init_exceeds [Libm F32] :
    ∃ s : CombC.Comb F32, CombC.init (lit 48000) (lit 0.05) = some s ∧ s.maxDelayTime = lit 0.05 ∧
      (s.maxDelayTime <. s.delayTime) = true := by
  have h : Arith.toSize? (Arith.ceil (lit 0.05 * lit 48000 : F32)) = some 2400 := by decide +kernel
  refine ⟨_, by rw [CombC.init, h]; rfl, rfl, ?_⟩
  show ((lit 0.05 : F32) <. lit 0.2) = true
  decide +kernel

theorem updateLoopBounds_points {fuel : ℕ} {r : Bool} {s s' : XPlay.Player F32} (h : XPlay.updateLoopBounds fuel r s = some s') :
    s'.start = s.start ∧ s'.stop = s.stop := by
  unfold XPlay.updateLoopBounds at h
  simp only at h
  split at h
  · cases h; exact ⟨rfl, rfl⟩
  · obtain ⟨p, -, rfl⟩ := Option.map_eq_some_iff.1 h
    exact ⟨rfl, rfl⟩

/-- **C60, XPlay**: after `setStartEnd` with any two numbers or infinities the loop points are the nearest ones in `[0, 1]`, or the
call changed nothing because both were within `1e-9` of the stored ones. -/
theorem C60_xplay_partial (fuel : ℕ) (a b : F32) (ha : a ≠ nan) (hb : b ≠ nan) (p : Bool) (s s' : XPlay.Player F32)
    (hs : XPlay.setStartEnd fuel a b p s = some s') :
    (Nearest 0 1 a s'.start ∧ Nearest 0 1 b s'.stop) ∨
    (s' = s ∧ ∃ x y : F32, Nearest 0 1 a x ∧ Nearest 0 1 b y ∧
      (Arith.fabs (x - s.start) <. lit 1e-9) = true ∧ (Arith.fabs (y - s.stop) <. lit 1e-9) = true) := by
  have ea := clamp_nearest ha lit01.1 lit01.2 (by norm_num)
  have eb := clamp_nearest hb lit01.1 lit01.2 (by norm_num)
  unfold XPlay.setStartEnd at hs
  simp only at hs
  split at hs
  · rename_i hc
    rw [Bool.and_eq_true] at hc
    cases hs
    exact .inr ⟨rfl, _, _, ea, eb, hc.1, hc.2⟩
  · obtain ⟨h1, h2⟩ := updateLoopBounds_points hs
    rw [h1, h2]
    exact .inl ⟨ea, eb⟩

/-- **C60, negation for XPlay**: from the default loop points 0 and 1, setting the end to `2^-31` and then to 0 leaves it at
`2^-31`, because the second change is below the tolerance. -/
theorem C60_xplay_tiny_change_ignored (fuel : ℕ) (s : XPlay.Player F32) (h1 : s.start = lit 0) (h2 : s.stop = lit 1) :
    ∃ s1, XPlay.setStartEnd fuel (lit 0) (lit (2⁻¹ ^ 31)) false s = some s1 ∧
      XPlay.setStartEnd fuel (lit 0) (lit 0) false s1 = some s1 ∧ ¬ Nearest 0 1 (lit 0) s1.stop := by
  have hd : ∃ s1, XPlay.setStartEnd fuel (lit 0) (lit (2⁻¹ ^ 31)) false s = some s1 := by
    unfold XPlay.setStartEnd
    simp only
    rw [h1, h2, if_neg (by decide +kernel)]
    exact ⟨_, rfl⟩
  obtain ⟨s1, e⟩ := hd
  refine ⟨s1, e, ?_, ?_⟩ <;> unfold XPlay.setStartEnd at e <;> simp only at e <;>
    rw [h1, h2, if_neg (by decide +kernel)] at e <;> obtain ⟨k1, k2⟩ := updateLoopBounds_points e <;> dsimp only at k1 k2
  · unfold XPlay.setStartEnd
    simp only
    rw [k1, k2, if_pos (by decide +kernel)]
  · rintro ⟨-, h⟩
    have e : (lit 0 : F32) = fin 0 false rep_zero := by decide +kernel
    rw [e] at h
    have h' := h.1 le_rfl (by norm_num)
    rw [k2] at h'
    revert h'
    decide +kernel

/-- **C60, XPlay fade time**: `setFadeTime` stores a time that is not negative, the argument itself if that is positive. NaN becomes
0, because `std::max(0, NaN)` returns its first argument. -/
theorem C60_fade (v : F32) [Libm F32] (s s' : XPlay.Player F32) (h : XPlay.setFadeTime v s = some s') : AtLeast 0 v s'.fadeTime := by
  obtain ⟨l, -, rfl⟩ := Option.map_eq_some_iff.1 h
  have e := above_atLeast (v := v) lit01.1 rfl
  exact e

end Verif
