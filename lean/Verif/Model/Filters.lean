import Verif.Model.Types

/-!
# DCBlock.h, OnePoleLPF.h, RLPF.h, Lag.h, LagLinear.h
-/

namespace Verif
variable {α : Type} [Arith α] [Libm α]

namespace DCBlock

/-- DCBlock.h:21-27 data members. -/
structure Filt (α : Type) where
  sampleRate : α
  cutoff : α
  coeff : α
  prevInputL : α
  prevOutputL : α
  prevInputR : α
  prevOutputR : α

/-- DCBlock.h:38-50 `setCutoff`. -/
def setCutoff (cutoffHz : α) (s : Filt α) : Filt α :=
  if cutoffHz <=. lit 0 then { s with cutoff := cutoffHz, coeff := lit 0 }
  else
    let normalized := cutoffHz / s.sampleRate
    let normalized := if normalized >. lit 0.25 then lit 0.25 else normalized
    { s with cutoff := cutoffHz, coeff := Libm.exp (-lit 2 * PI * normalized) }

/-- DCBlock.h:29-36 `init` (every member is overwritten). -/
def init (sr cutoffHz : α) : Filt α :=
  setCutoff cutoffHz
    { sampleRate := sr, prevInputL := lit 0, prevOutputL := lit 0, prevInputR := lit 0, prevOutputR := lit 0,
      cutoff := lit 0, coeff := lit 0 }

/-- DCBlock.h:52-57 `tick`. -/
def tick (s : Filt α) (input : α) : Filt α × α :=
  let output := input - s.prevInputL + s.coeff * s.prevOutputL
  ({ s with prevInputL := input, prevOutputL := output }, output)

/-- DCBlock.h:59-68 `tickStereo`. -/
def tickStereo (s : Filt α) (inputL inputR : α) : Filt α × Stereo α :=
  let left := inputL - s.prevInputL + s.coeff * s.prevOutputL
  let right := inputR - s.prevInputR + s.coeff * s.prevOutputR
  ({ s with prevInputL := inputL, prevOutputL := left, prevInputR := inputR, prevOutputR := right }, ⟨left, right⟩)

/-- DCBlock.h:70-74 `process`. -/
def process : Filt α → List α → Filt α × List α := forEach tick

/-- DCBlock.h:76-82 `processStereo`; the two blocks are given as a list of pairs. -/
def processStereo : Filt α → List (α × α) → Filt α × List (Stereo α) := forEach fun s b => tickStereo s b.1 b.2

/-- DCBlock.h:84-89 `reset`. -/
def reset (s : Filt α) : Filt α :=
  { s with prevInputL := lit 0, prevOutputL := lit 0, prevInputR := lit 0, prevOutputR := lit 0 }

end DCBlock

namespace OnePoleLPF

/-- OnePoleLPF.h:25-37 data members. -/
structure Filt (α : Type) where
  sampleRate : α
  cutoff : α
  pole : α
  gain : α
  z : α

/-- OnePoleLPF.h:54-59 `setCutoff`. -/
def setCutoff (cutoffHz : α) (s : Filt α) : Filt α :=
  let nyquist := s.sampleRate * lit 0.5
  let cutoff := clamp cutoffHz (lit 1) nyquist
  let pole := Libm.exp (-TWO_PI * cutoff / s.sampleRate)
  { s with cutoff := cutoff, pole := pole, gain := lit 1 - pole }

/-- OnePoleLPF.h:44-48 `init`. -/
def init (sr cutoffHz : α) : Filt α :=
  setCutoff cutoffHz { sampleRate := sr, z := lit 0, cutoff := lit 0, pole := lit 0, gain := lit 0 }

/-- OnePoleLPF.h:66-69 `tick(input)`. -/
def tick (s : Filt α) (input : α) : Filt α × α :=
  let z := s.gain * input + s.pole * s.z
  ({ s with z := z }, z)

/-- OnePoleLPF.h:77-84 `tick(input, cutoffHz)`. -/
def tickMod (s : Filt α) (input cutoffHz : α) : Filt α × α :=
  let nyquist := s.sampleRate * lit 0.5
  let c := clamp cutoffHz (lit 1) nyquist
  let localPole := Libm.exp (-TWO_PI * c / s.sampleRate)
  let localGain := lit 1 - localPole
  let z := localGain * input + localPole * s.z
  ({ s with z := z }, z)

/-- OnePoleLPF.h:91-95 `process`. -/
def process : Filt α → List α → Filt α × List α := forEach tick

/-- OnePoleLPF.h:104-108 `process` with a cutoff block; input and cutoff blocks as a list of pairs. -/
def processMod : Filt α → List (α × α) → Filt α × List α := forEach fun s b => tickMod s b.1 b.2

/-- OnePoleLPF.h:113-115 `reset`. -/
def reset (s : Filt α) : Filt α := { s with z := lit 0 }

end OnePoleLPF

namespace RLPF

/-- RLPF.h:43-49, 120-125 data members; `α` is `Sample` (float), `β` is double. -/
structure Filt (α β : Type) where
  sampleRate : α
  freq : α
  resonance : α
  z1 : β
  z2 : β
  b0 : β
  b1 : β
  b2 : β
  a1 : β
  a2 : β

variable {β : Type} [Arith β] [Libm β] [Conv α β] [Conv β α]

omit [Libm α] [Conv β α] in
/-- RLPF.h:132-156 `updateCoefficients`. -/
def updateCoefficients (s : Filt α β) : Filt α β :=
  let omega : β := lit 2 * Conv.conv (PI : α) * Conv.conv s.freq / Conv.conv s.sampleRate
  let sinOmega := Libm.sin omega
  let cosOmega := Libm.cos omega
  let Q : β := Conv.conv s.resonance
  let alpha := sinOmega / (lit 2 * Q)
  let b0_raw := (lit 1 - cosOmega) / lit 2
  let b1_raw := lit 1 - cosOmega
  let b2_raw := (lit 1 - cosOmega) / lit 2
  let a0_raw := lit 1 + alpha
  let a1_raw := -lit 2 * cosOmega
  let a2_raw := lit 1 - alpha
  { s with b0 := b0_raw / a0_raw, b1 := b1_raw / a0_raw, b2 := b2_raw / a0_raw,
           a1 := a1_raw / a0_raw, a2 := a2_raw / a0_raw }

/-- RLPF.h:55-62 `init`. -/
def init (sr : α) : Filt α β :=
  updateCoefficients
    { sampleRate := sr, z1 := lit 0, z2 := lit 0, freq := lit 440, resonance := lit 0.707,
      b0 := lit 0, b1 := lit 0, b2 := lit 0, a1 := lit 0, a2 := lit 0 }

/-- RLPF.h:68-73 `setFreq`. -/
def setFreq (f : α) (s : Filt α β) : Filt α β :=
  let nyquist := s.sampleRate * lit 0.5
  let freq := if f <. lit 1 then lit 1 else if f >. nyquist * lit 0.99 then nyquist * lit 0.99 else f
  updateCoefficients { s with freq := freq }

/-- RLPF.h:79-83 `setResonance`. -/
def setResonance (r : α) (s : Filt α β) : Filt α β :=
  let resonance := if r <. lit 0.1 then lit 0.1 else if r >. lit 30 then lit 30 else r
  updateCoefficients { s with resonance := resonance }

/-- RLPF.h:90-97 `tick`. -/
def tick (s : Filt α β) (input : α) : Filt α β × α :=
  let inp : β := Conv.conv input
  let out := s.b0 * inp + s.z1
  ({ s with z1 := s.b1 * inp - s.a1 * out + s.z2, z2 := s.b2 * inp - s.a2 * out }, Conv.conv out)

/-- RLPF.h:104-108 `process`. -/
def process : Filt α β → List α → Filt α β × List α := forEach tick

/-- RLPF.h:113-116 `reset`. -/
def reset (s : Filt α β) : Filt α β := { s with z1 := lit 0, z2 := lit 0 }

end RLPF

namespace Lag

/-- Lag.h:51-60 data members. -/
structure Filt (α : Type) where
  sampleRate : α
  lagTime : α
  coeff : α
  prevOutput : α

/-- Lag.h:80-96 `setLagTime`. -/
def setLagTime (lt : α) (s : Filt α) : Filt α :=
  if lt <=. lit 0 then { s with lagTime := lt, coeff := lit 0 }
  else
    let numSamples := lt * s.sampleRate
    { s with lagTime := lt, coeff := Libm.exp (-lit 6.907755 / numSamples) }

/-- Lag.h:67-71 `init`. -/
def init (sr lt : α) : Filt α :=
  setLagTime lt { sampleRate := sr, prevOutput := lit 0, lagTime := lit 0, coeff := lit 0 }

/-- Lag.h:103-107 `tick`. -/
def tick (s : Filt α) (input : α) : Filt α × α :=
  let v := s.coeff * s.prevOutput + (lit 1 - s.coeff) * input
  ({ s with prevOutput := v }, v)

/-- Lag.h:114-118 and 126-130 `process` (in place, or from an input block to an output block). -/
def process : Filt α → List α → Filt α × List α := forEach tick

/-- Lag.h:135-137 `reset`. -/
def reset (s : Filt α) : Filt α := { s with prevOutput := lit 0 }

/-- Lag.h:146-148 `setValue`. -/
def setValue (value : α) (s : Filt α) : Filt α := { s with prevOutput := value }

end Lag

namespace LagLinear

/-- LagLinear.h:30-45 data members (`samplesRemaining` is an `int`). -/
structure Ramp (α : Type) where
  sampleRate : α
  timeSeconds : α
  currentValue : α
  targetValue : α
  increment : α
  samplesRemaining : ℤ
deriving DecidableEq

/-- LagLinear.h:163-169 `recalcIncrement`. -/
def recalcIncrement (s : Ramp α) : Ramp α :=
  if s.samplesRemaining ≤ 0 then { s with increment := lit 0 }
  else { s with increment := (s.targetValue - s.currentValue) / Arith.ofInt s.samplesRemaining }

/-- LagLinear.h:79 and :98 `std::max(1, static_cast<int>(std::round(timeSeconds * sampleRate)))`; `none` is the undefined
conversion. -/
def rampLength (s : Ramp α) : Option ℤ :=
  (Arith.toI32? (Arith.round (s.timeSeconds * s.sampleRate))).map (max 1)

/-- LagLinear.h:68-82 `setTime`. -/
def setTime (time : α) (s : Ramp α) : Option (Ramp α) :=
  let s := { s with timeSeconds := time }
  if time <=. lit 0 then
    some { s with increment := lit 0, samplesRemaining := 0, currentValue := s.targetValue }
  else if Arith.ne s.targetValue s.currentValue then
    (rampLength s).map fun n => recalcIncrement { s with samplesRemaining := n }
  else some s

/-- LagLinear.h:53-60 `init`. -/
def init (sr initialValue time : α) : Option (Ramp α) :=
  setTime time { sampleRate := sr, currentValue := initialValue, targetValue := initialValue, increment := lit 0,
                 samplesRemaining := 0, timeSeconds := lit 0 }

/-- LagLinear.h:102-114, second half of `tick`. -/
def advance (s : Ramp α) : Ramp α × α :=
  let s' :=
    if s.samplesRemaining > 0 then
      let s1 := { s with currentValue := s.currentValue + s.increment, samplesRemaining := s.samplesRemaining - 1 }
      if s1.samplesRemaining = 0 then { s1 with currentValue := s1.targetValue, increment := lit 0 } else s1
    else { s with currentValue := s.targetValue }
  (s', s'.currentValue)

/-- LagLinear.h:89-115 `tick`. -/
def tick (s : Ramp α) (input : α) : Option (Ramp α × α) :=
  if Arith.ne input s.targetValue then
    let s := { s with targetValue := input }
    if s.timeSeconds <=. lit 0 then
      some ({ s with currentValue := s.targetValue, samplesRemaining := 0, increment := lit 0 }, s.targetValue)
    else (rampLength s).map fun n => advance (recalcIncrement { s with samplesRemaining := n })
  else some (advance s)

/-- LagLinear.h:122-127 and 135-139 `process`. -/
def process : Ramp α → List α → Option (Ramp α × List α)
  | s, [] => some (s, [])
  | s, x :: xs => (tick s x).bind fun (s1, y) => (process s1 xs).map fun (s2, ys) => (s2, y :: ys)

/-- LagLinear.h:144-149 `reset`. -/
def reset (s : Ramp α) : Ramp α :=
  { s with currentValue := lit 0, targetValue := lit 0, samplesRemaining := 0, increment := lit 0 }

/-- LagLinear.h:155-160 `setValue`. -/
def setValue (value : α) (s : Ramp α) : Ramp α :=
  { s with currentValue := value, targetValue := value, samplesRemaining := 0, increment := lit 0 }

end LagLinear
end Verif
