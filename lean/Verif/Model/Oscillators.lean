import Verif.Model.Types

/-!
# SinOsc.h, SawDPW.h, LFTri.h, LFNoise2.h
-/

namespace Verif
variable {α : Type} [Arith α] [Libm α]

namespace SinOsc

/-- SinOsc.h:40-49 data members. -/
structure Osc (α : Type) where
  phase : α
  phaseIncrement : α
  frequency : α
  sampleRate : α

/-- SinOsc.h:76-78 `updatePhaseIncrement`. -/
def updatePhaseIncrement (s : Osc α) : Osc α := { s with phaseIncrement := (TWO_PI * s.frequency) / s.sampleRate }

/-- SinOsc.h:55-60 `init`. -/
def init (sr : α) : Osc α :=
  updatePhaseIncrement { sampleRate := sr, phase := lit 0, frequency := lit 440, phaseIncrement := lit 0 }

/-- SinOsc.h:66-69 `setFrequency`. -/
def setFrequency (freq : α) (s : Osc α) : Osc α := updatePhaseIncrement { s with frequency := freq }

/-- SinOsc.h:84-94 `tick`. -/
def tick (s : Osc α) : Osc α × α :=
  let out := Libm.sin s.phase
  let phase := s.phase + s.phaseIncrement
  let phase := if phase >=. TWO_PI then phase - TWO_PI else phase
  ({ s with phase := phase }, out)

/-- SinOsc.h:101-105 `process`. -/
def process : Osc α → List α → Osc α × List α := forEach fun s _ => tick s

/-- SinOsc.h:112-116 `processAdd`. -/
def processAdd : Osc α → List α → Osc α × List α := forEach fun s b => let (s', o) := tick s; (s', b + o)

/-- SinOsc.h:122-124 `reset`. -/
def reset (newPhase : α) (s : Osc α) : Osc α := { s with phase := newPhase }

end SinOsc

namespace SawDPW

/-- SawDPW.h:49-64 data members. -/
structure Osc (α : Type) where
  phase : α
  phaseIncrement : α
  prevParabolic : α
  frequency : α
  sampleRate : α
  scaleFactor : α

/-- SawDPW.h:71-85 `init`. -/
def init (sr iphase : α) : Osc α :=
  let phase := (iphase + lit 1) * lit 0.5
  let phase := if phase <. lit 0 then lit 0 else phase
  let phase := if phase >. lit 1 then lit 1 else phase
  { sampleRate := sr, frequency := lit 440, scaleFactor := sr * lit 0.5, phase := phase,
    phaseIncrement := lit 440 / sr, prevParabolic := lit 0 }

/-- SawDPW.h:91-94 `setFrequency`. -/
def setFrequency (freq : α) (s : Osc α) : Osc α := { s with frequency := freq, phaseIncrement := freq / s.sampleRate }

/-- SawDPW.h:100-121 `tick`. -/
def tick (s : Osc α) : Osc α × α :=
  let saw := (s.phase * lit 2) - lit 1
  let parabolic := saw * saw
  let diff := parabolic - s.prevParabolic
  let phase := s.phase + s.phaseIncrement
  let phase := if phase >=. lit 1 then phase - lit 1 else phase
  let scale := s.scaleFactor / s.frequency
  ({ s with prevParabolic := parabolic, phase := phase }, diff * scale)

/-- SawDPW.h:128-132 `process`. -/
def process : Osc α → List α → Osc α × List α := forEach fun s _ => tick s

/-- SawDPW.h:137-140 `reset`. -/
def reset (s : Osc α) : Osc α := { s with phase := lit 0, prevParabolic := lit 0 }

end SawDPW

namespace LFTri

/-- LFTri.h:46-55 data members. -/
structure Osc (α : Type) where
  phase : α
  phaseIncrement : α
  frequency : α
  sampleRate : α

/-- LFTri.h:97-99 `updatePhaseIncrement`. -/
def updatePhaseIncrement (s : Osc α) : Osc α := { s with phaseIncrement := s.frequency / s.sampleRate }

/-- LFTri.h:66-81 `init`. -/
def init (sr iphase : α) : Osc α :=
  let phase := iphase * lit 0.25
  let phase := phase - Arith.floor phase
  updatePhaseIncrement { sampleRate := sr, frequency := lit 440, phase := phase, phaseIncrement := lit 0 }

/-- LFTri.h:87-90 `setFrequency`. -/
def setFrequency (freq : α) (s : Osc α) : Osc α := updatePhaseIncrement { s with frequency := freq }

/-- LFTri.h:105-124 `tick`. -/
def tick (s : Osc α) : Osc α × α :=
  let out := if s.phase <. lit 0.5 then lit 4 * s.phase - lit 1 else lit 3 - lit 4 * s.phase
  let phase := s.phase + s.phaseIncrement
  let phase := if phase >=. lit 1 then phase - lit 1 else phase
  ({ s with phase := phase }, out)

/-- LFTri.h:131-135 `process`. -/
def process : Osc α → List α → Osc α × List α := forEach fun s _ => tick s

/-- LFTri.h:142-146 `processAdd`. -/
def processAdd : Osc α → List α → Osc α × List α := forEach fun s b => let (s', o) := tick s; (s', b + o)

/-- LFTri.h:152-154 `reset`. -/
def reset (newPhase : α) (s : Osc α) : Osc α := { s with phase := newPhase }

end LFTri

namespace LFNoise2

/-- LFNoise2.h:43-58 data members; `points[4]` are the fields `p0` … `p3`, `seed` is a `uint32_t`. -/
structure Osc (α : Type) where
  p0 : α
  p1 : α
  p2 : α
  p3 : α
  phase : α
  phaseIncrement : α
  frequency : α
  sampleRate : α
  seed : ℕ

/-- LFNoise2.h:104 the seed update, unsigned 32-bit arithmetic. -/
def nextSeed (seed : ℕ) : ℕ := (seed * 1664525 + 1013904223) % 2 ^ 32

/-- LFNoise2.h:106 the sample made from the updated seed. -/
def seedSample (seed : ℕ) : α := Arith.ofNat seed / LCG_NORM - lit 1

/-- LFNoise2.h:102-107 `nextRandom`: new seed and returned sample. -/
def nextRandom (seed : ℕ) : ℕ × α := (nextSeed seed, seedSample (nextSeed seed))

/-- LFNoise2.h:90-92 `updatePhaseIncrement`. -/
def updatePhaseIncrement (s : Osc α) : Osc α := { s with phaseIncrement := s.frequency / s.sampleRate }

/-- LFNoise2.h:73-75 and 173-175 the loop that draws four points. -/
def drawPoints (s : Osc α) : Osc α :=
  let (s0, a) := nextRandom s.seed
  let (s1, b) := nextRandom s0
  let (s2, c) := nextRandom s1
  let (s3, d) := nextRandom s2
  { s with p0 := a, p1 := b, p2 := c, p3 := d, seed := s3 }

/-- LFNoise2.h:65-76 `init`. -/
def init (sr : α) (initialSeed : ℕ) : Osc α :=
  drawPoints (updatePhaseIncrement
    { sampleRate := sr, seed := initialSeed, frequency := lit 1, phase := lit 0, phaseIncrement := lit 0,
      p0 := lit 0, p1 := lit 0, p2 := lit 0, p3 := lit 0 })

/-- LFNoise2.h:82-85 `setFrequency`. -/
def setFrequency (freq : α) (s : Osc α) : Osc α :=
  updatePhaseIncrement { s with frequency := if freq >. lit 0 then freq else lit 0.001 }

/-- LFNoise2.h:113-115 `setSeed`. -/
def setSeed (newSeed : ℕ) (s : Osc α) : Osc α := { s with seed := newSeed }

/-- LFNoise2.h:126-136 the Catmull-Rom interpolation of the four points. -/
def interp (t p0 p1 p2 p3 : α) : α :=
  let t2 := t * t
  let t3 := t2 * t
  let c0 := -lit 0.5 * t3 + t2 - lit 0.5 * t
  let c1 := lit 1.5 * t3 - lit 2.5 * t2 + lit 1
  let c2 := -lit 1.5 * t3 + lit 2 * t2 + lit 0.5 * t
  let c3 := lit 0.5 * t3 - lit 0.5 * t2
  c0 * p0 + c1 * p1 + c2 * p2 + c3 * p3

/-- LFNoise2.h:124-153 `tick`. -/
def tick (s : Osc α) : Osc α × α :=
  let out := interp s.phase s.p0 s.p1 s.p2 s.p3
  let phase := s.phase + s.phaseIncrement
  let s' :=
    if phase >=. lit 1 then
      let (seed, r) := nextRandom s.seed
      { s with phase := phase - lit 1, p0 := s.p1, p1 := s.p2, p2 := s.p3, p3 := r, seed := seed }
    else { s with phase := phase }
  (s', clamp out (-lit 1) (lit 1))

/-- LFNoise2.h:160-164 `process`. -/
def process : Osc α → List α → Osc α × List α := forEach fun s _ => tick s

/-- LFNoise2.h:170-176 `reset`. -/
def reset (newSeed : ℕ) (s : Osc α) : Osc α := drawPoints { s with seed := newSeed, phase := lit 0 }

end LFNoise2
end Verif
