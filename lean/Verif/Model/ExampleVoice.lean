import Verif.Model.Oscillators
import Verif.Model.Envelopes
import Verif.Model.Utility

/-!
# ExampleVoice.h

The member `panner` (ExampleVoice.h:59) is left out: only `Pan2::process` is called on it, which reads none of its members.
-/

namespace Verif.ExampleVoice
variable {α : Type} [Arith α] [Libm α]

/-- ExampleVoice.h:48-77 data members. -/
structure Voice (α : Type) where
  osc : SinOsc.Osc α
  env : EnvelopeAR.Env α
  vibrato : LFNoise2.Osc α
  panModulator : LFNoise2.Osc α
  baseFrequency : α
  vibratoDepth : α
  panDepth : α
  amplitude : α
  sampleRate : α

/-- LFNoise2.h:65, 170 the default seed of `init` and `reset`. -/
def defaultSeed : ℕ := 12345

/-- ExampleVoice.h:83-107 `init`. -/
def init (sr : α) : Voice α :=
  { sampleRate := sr
    osc := SinOsc.init sr
    env := EnvelopeAR.setRelease (lit 0.3) (EnvelopeAR.setAttack (lit 0.01) (EnvelopeAR.init sr))
    vibrato := LFNoise2.setFrequency (lit 5) (LFNoise2.init sr defaultSeed)
    panModulator := LFNoise2.setFrequency (lit 1) (LFNoise2.init sr defaultSeed)
    baseFrequency := lit 440
    vibratoDepth := lit 0.5
    panDepth := lit 1
    amplitude := lit 0.5 }

/-- ExampleVoice.h:113-116 `setFrequency`. -/
def setFrequency (freq : α) (s : Voice α) : Voice α :=
  { s with baseFrequency := freq, osc := SinOsc.setFrequency freq s.osc }

/-- ExampleVoice.h:122 `setAttack`. -/
def setAttack (time : α) (s : Voice α) : Voice α := { s with env := EnvelopeAR.setAttack time s.env }

/-- ExampleVoice.h:128 `setRelease`. -/
def setRelease (time : α) (s : Voice α) : Voice α := { s with env := EnvelopeAR.setRelease time s.env }

/-- ExampleVoice.h:134 `setVibratoDepth`. -/
def setVibratoDepth (semitones : α) (s : Voice α) : Voice α := { s with vibratoDepth := semitones }

/-- ExampleVoice.h:140 `setVibratoRate`. -/
def setVibratoRate (rate : α) (s : Voice α) : Voice α := { s with vibrato := LFNoise2.setFrequency rate s.vibrato }

/-- ExampleVoice.h:146 `setAmplitude`. -/
def setAmplitude (amp : α) (s : Voice α) : Voice α := { s with amplitude := clamp amp (lit 0) (lit 1) }

/-- ExampleVoice.h:152-154 `setPanDepth`. -/
def setPanDepth (depth : α) (s : Voice α) : Voice α := { s with panDepth := clamp depth (lit 0) (lit 1) }

/-- ExampleVoice.h:159 `trigger`. -/
def trigger (s : Voice α) : Voice α := { s with env := EnvelopeAR.trigger s.env }

/-- ExampleVoice.h:164 `release`. -/
def release (s : Voice α) : Voice α := { s with env := EnvelopeAR.release s.env }

/-- ExampleVoice.h:170 `setGate`. -/
def setGate (gateOn : Bool) (s : Voice α) : Voice α := { s with env := EnvelopeAR.setGate gateOn s.env }

/-- ExampleVoice.h:176 `isActive`. -/
def isActive (s : Voice α) : Bool := EnvelopeAR.isActive s.env

/-- ExampleVoice.h:184-193 the vibrato part of `tick`. -/
def modulate (s : Voice α) : Voice α :=
  if s.vibratoDepth >. lit 0 then
    let (vibrato, vibMod) := LFNoise2.tick s.vibrato
    let semitones := vibMod * s.vibratoDepth
    let ratio := lit 1 + semitones * lit 0.057762265
    { s with vibrato := vibrato, osc := SinOsc.setFrequency (s.baseFrequency * ratio) s.osc }
  else s

/-- ExampleVoice.h:182-209 `tick`. -/
def tick (s : Voice α) : Voice α × Stereo α :=
  let s := modulate s
  let (osc, oscOut) := SinOsc.tick s.osc
  let (env, envOut) := EnvelopeAR.tick s.env
  let monoOut := oscOut * envOut * s.amplitude
  let (panModulator, p) := LFNoise2.tick s.panModulator
  let panPos := p * s.panDepth
  ({ s with osc := osc, env := env, panModulator := panModulator }, Pan2.process monoOut panPos)

/-- ExampleVoice.h:217-223 `process`; the two output blocks are given as a list of pairs. -/
def process : Voice α → List (Stereo α) → Voice α × List (Stereo α) := forEach fun s _ => tick s

/-- ExampleVoice.h:231-238 `processAdd`. -/
def processAdd : Voice α → List (Stereo α) → Voice α × List (Stereo α) :=
  forEach fun s b => let (s', o) := tick s; (s', ⟨b.left + o.left, b.right + o.right⟩)

/-- ExampleVoice.h:243-248 `reset`. -/
def reset (s : Voice α) : Voice α :=
  { s with
    osc := SinOsc.reset (lit 0) s.osc
    env := EnvelopeAR.reset s.env
    vibrato := LFNoise2.reset defaultSeed s.vibrato
    panModulator := LFNoise2.reset defaultSeed s.panModulator }

/-- The public calls. -/
inductive Op (α : Type)
  | init (sr : α) | setFrequency (f : α) | setAttack (t : α) | setRelease (t : α) | setVibratoDepth (d : α)
  | setVibratoRate (r : α) | setAmplitude (a : α) | setPanDepth (d : α) | trigger | release | setGate (g : Bool)
  | tick | process (buf : List (Stereo α)) | processAdd (buf : List (Stereo α)) | reset

/-- Effect of one call: new state and the frames returned or written. -/
def step (s : Voice α) : Op α → Voice α × List (Stereo α)
  | .init sr => (init sr, [])
  | .setFrequency f => (setFrequency f s, [])
  | .setAttack t => (setAttack t s, [])
  | .setRelease t => (setRelease t s, [])
  | .setVibratoDepth d => (setVibratoDepth d s, [])
  | .setVibratoRate r => (setVibratoRate r s, [])
  | .setAmplitude a => (setAmplitude a s, [])
  | .setPanDepth d => (setPanDepth d s, [])
  | .trigger => (trigger s, [])
  | .release => (release s, [])
  | .setGate g => (setGate g s, [])
  | .tick => let (s', o) := tick s; (s', [o])
  | .process buf => process s buf
  | .processAdd buf => processAdd s buf
  | .reset => (reset s, [])

/-- State after a history of calls. -/
def run : Voice α → List (Op α) → Voice α
  | s, [] => s
  | s, op :: ops => run (step s op).1 ops

end Verif.ExampleVoice
