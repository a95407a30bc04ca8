import Verif.Model.Oscillators
import Verif.Model.Envelopes
import Verif.Model.Utility

/-!
# SuperSaw.h

* The members `rng` and `dist` (SuperSaw.h:78-79) are used only inside `init`, which seeds the generator anew. What `init` observes of
  them is the sequence of numbers drawn, so `init` takes that sequence as the argument `rand` (`rand k` is the `k`-th draw after
  `rng.seed(seed)`). Theorems assume no more of it than that the draws lie in `[0, 1]`; the standard promises `[0, 1)`, and known
  implementations may return 1.
* `panner` (SuperSaw.h:57) is left out: only `Pan2::process` is called on it, which reads none of its members.
* `voices[NUM_VOICES]` is a list; `init` gives it seven elements and no call changes the length.
-/

namespace Verif.SuperSaw
variable {α : Type} [Arith α] [Libm α]

/-- SuperSaw.h:51 `NUM_VOICES`. -/
def NUM_VOICES : ℕ := 7

/-- SuperSaw.h:54-61 `Voice`. -/
structure Voice (α : Type) where
  saw : SawDPW.Osc α
  vibrato : LFTri.Osc α
  detuneOffset : α
  vibratoPhase : α
  sawPhase : α

/-- SuperSaw.h:63-75 data members. -/
structure Synth (α : Type) where
  voices : List (Voice α)
  envelope : EnvelopeADSR.Env α
  frequency : α
  vibrRate : α
  vibrDepth : α
  detune : α
  spread : α
  sampleRate : α

/-- SuperSaw.h:114 and 158 the detune offset of voice `i`. -/
def detuneOf (i : ℕ) (detune : α) : α := (Arith.ofNat i / Arith.ofNat (NUM_VOICES - 1) - lit 0.5) * detune

/-- SuperSaw.h:109-119 the loop body of `init`. -/
def initVoice (sr detune vibrRate : α) (rand : ℕ → α) (i : ℕ) : Voice α :=
  let vibratoPhase := rand (2 * i)
  let sawPhase := rand (2 * i + 1)
  { vibratoPhase := vibratoPhase
    sawPhase := sawPhase
    detuneOffset := detuneOf i detune
    saw := SawDPW.init sr (sawPhase * lit 2 - lit 1)
    vibrato := LFTri.setFrequency vibrRate (LFTri.init sr (vibratoPhase * lit 4)) }

/-- SuperSaw.h:86-121 `init`. -/
def init (sr : α) (rand : ℕ → α) : Synth α :=
  { sampleRate := sr
    frequency := lit 400
    vibrRate := lit 6
    vibrDepth := lit 0.3
    detune := lit 0.2
    spread := lit 0.6
    envelope := EnvelopeADSR.setRelease (lit 0.3) (EnvelopeADSR.setSustain (lit 0.7) (EnvelopeADSR.setDecay (lit 0.1)
      (EnvelopeADSR.setAttack (lit 0.01) (EnvelopeADSR.init sr))))
    voices := (List.range NUM_VOICES).map (initVoice sr (lit 0.2) (lit 6) rand) }

/-- SuperSaw.h:127-129 `setFrequency`. -/
def setFrequency (freq : α) (s : Synth α) : Synth α := { s with frequency := freq }

/-- SuperSaw.h:135-140 `setVibratoRate`. -/
def setVibratoRate (rate : α) (s : Synth α) : Synth α :=
  { s with vibrRate := rate, voices := s.voices.map fun v => { v with vibrato := LFTri.setFrequency rate v.vibrato } }

/-- SuperSaw.h:146-148 `setVibratoDepth`. -/
def setVibratoDepth (depth : α) (s : Synth α) : Synth α := { s with vibrDepth := depth }

/-- SuperSaw.h:154-160 `setDetune`. -/
def setDetune (det : α) (s : Synth α) : Synth α :=
  { s with detune := det, voices := s.voices.mapIdx fun i v => { v with detuneOffset := detuneOf i det } }

/-- SuperSaw.h:166-168 `setSpread`. -/
def setSpread (x : α) (s : Synth α) : Synth α := { s with spread := clamp x (lit 0) (lit 1) }

/-- SuperSaw.h:174-176 `setAttack`. -/
def setAttack (time : α) (s : Synth α) : Synth α := { s with envelope := EnvelopeADSR.setAttack time s.envelope }
/-- SuperSaw.h:182-184 `setDecay`. -/
def setDecay (time : α) (s : Synth α) : Synth α := { s with envelope := EnvelopeADSR.setDecay time s.envelope }
/-- SuperSaw.h:190-192 `setSustain`. -/
def setSustain (level : α) (s : Synth α) : Synth α := { s with envelope := EnvelopeADSR.setSustain level s.envelope }
/-- SuperSaw.h:198-200 `setRelease`. -/
def setRelease (time : α) (s : Synth α) : Synth α := { s with envelope := EnvelopeADSR.setRelease time s.envelope }
/-- SuperSaw.h:206-208 `gate`. -/
def gate (g : α) (s : Synth α) : Synth α := { s with envelope := EnvelopeADSR.gate g s.envelope }
/-- SuperSaw.h:214-216 `isActive`. -/
def isActive (s : Synth α) : Bool := EnvelopeADSR.isActive s.envelope

/-- SuperSaw.h:231-242 one voice: vibrato, detune and saw sample. -/
def voiceTick (frequency vibrDepth : α) (v : Voice α) : Voice α × α :=
  let (vibrato, vibratoValue) := LFTri.tick v.vibrato
  let vibratoMod := Libm.pow (lit 2) ((vibratoValue * vibrDepth) / lit 12)
  let detuneMod := Libm.pow (lit 2) (v.detuneOffset / lit 12)
  let voiceFreq := frequency * vibratoMod * detuneMod
  let (saw, sawSample) := SawDPW.tick (SawDPW.setFrequency voiceFreq v.saw)
  ({ v with vibrato := vibrato, saw := saw }, sawSample)

/-- SuperSaw.h:245 the pan position of voice `i`. -/
def panOf (i : ℕ) (spread : α) : α := (Arith.ofNat (i % 2) * lit 2 - lit 1) * spread

/-- SuperSaw.h:229-251 the loop over the voices: its state is the index and the mix so far. -/
def mixStep (frequency vibrDepth spread : α) (acc : ℕ × Stereo α) (v : Voice α) : (ℕ × Stereo α) × Voice α :=
  let (v', sawSample) := voiceTick frequency vibrDepth v
  let panned := Pan2.process sawSample (panOf acc.1 spread)
  ((acc.1 + 1, ⟨acc.2.left + panned.left, acc.2.right + panned.right⟩), v')

/-- SuperSaw.h:222-263 `tick`. -/
def tick (s : Synth α) : Synth α × Stereo α :=
  let (envelope, env) := EnvelopeADSR.tick s.envelope
  let (acc, voices) := forEach (mixStep s.frequency s.vibrDepth s.spread) (0, Stereo.zero) s.voices
  let norm := lit 1 / Libm.sqrt (Arith.ofNat NUM_VOICES)
  ({ s with envelope := envelope, voices := voices }, ⟨acc.2.left * norm * env, acc.2.right * norm * env⟩)

/-- SuperSaw.h:271-277 `process`; the two output blocks are given as a list of pairs. -/
def process : Synth α → List (Stereo α) → Synth α × List (Stereo α) := forEach fun s _ => tick s

/-- SuperSaw.h:282-287 `reset`. -/
def reset (s : Synth α) : Synth α :=
  { s with envelope := EnvelopeADSR.reset s.envelope, voices := s.voices.map fun v => { v with saw := SawDPW.reset v.saw } }

/-- The public calls. -/
inductive Op (α : Type)
  | setFrequency (f : α) | setVibratoRate (r : α) | setVibratoDepth (d : α) | setDetune (d : α) | setSpread (x : α)
  | setAttack (t : α) | setDecay (t : α) | setSustain (l : α) | setRelease (t : α) | gate (g : α)
  | tick | process (buf : List (Stereo α)) | reset

/-- Effect of one call: new state and the frames returned or written. -/
def step (s : Synth α) : Op α → Synth α × List (Stereo α)
  | .setFrequency f => (setFrequency f s, [])
  | .setVibratoRate r => (setVibratoRate r s, [])
  | .setVibratoDepth d => (setVibratoDepth d s, [])
  | .setDetune d => (setDetune d s, [])
  | .setSpread x => (setSpread x s, [])
  | .setAttack t => (setAttack t s, [])
  | .setDecay t => (setDecay t s, [])
  | .setSustain l => (setSustain l s, [])
  | .setRelease t => (setRelease t s, [])
  | .gate g => (gate g s, [])
  | .tick => let (s', o) := tick s; (s', [o])
  | .process buf => process s buf
  | .reset => (reset s, [])

/-- State after a history of calls. -/
def run : Synth α → List (Op α) → Synth α
  | s, [] => s
  | s, op :: ops => run (step s op).1 ops

end Verif.SuperSaw
