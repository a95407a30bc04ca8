import Verif.Model.Memory

/-!
# Downsampler.h
-/

namespace Verif
variable {α : Type} [Arith α] [Libm α]

namespace Downsampler

/-- Downsampler.h:60 `MAX_OVERSAMPLE`. -/
def MAX_OVERSAMPLE : ℕ := 16
/-- Downsampler.h:63 `FILTER_ORDER`. -/
def FILTER_ORDER : ℕ := 4

/-- Downsampler.h:66-81 data members. -/
structure Down (α : Type) where
  outputSampleRate : α
  oversampleFactor : ℕ
  accumulator : α
  sampleCount : ℕ
  filterState : List α
  filterCoeff : α

/-- Downsampler.h:90-105 `init`. -/
def init (outputRate : α) (factor : ℕ) : Down α :=
  let oversampleFactor := if factor > MAX_OVERSAMPLE then MAX_OVERSAMPLE else if factor < 1 then 1 else factor
  let inputRate := outputRate * Arith.ofNat oversampleFactor
  let cutoffFreq := outputRate * lit 0.45
  let omega := TWO_PI * cutoffFreq / inputRate
  { outputSampleRate := outputRate, oversampleFactor := oversampleFactor, accumulator := lit 0, sampleCount := 0,
    filterState := List.replicate FILTER_ORDER (lit 0), filterCoeff := lit 1 - Libm.exp (-omega) }

/-- Downsampler.h:113-115 `setOversampleFactor`. -/
def setOversampleFactor (factor : ℕ) (s : Down α) : Down α := init s.outputSampleRate factor

/-- Downsampler.h:127-131 the filter cascade of `write`: new states and the filtered sample. -/
def cascade (coeff : α) (sample : α) (states : List α) : α × List α :=
  forEach (fun filtered fs => let n := fs + coeff * (filtered - fs); (n, n)) sample states

/-- Downsampler.h:125-136 `write`. -/
def write (s : Down α) (sample : α) : Down α :=
  let (filtered, states) := cascade s.filterCoeff sample s.filterState
  { s with filterState := states, accumulator := s.accumulator + filtered, sampleCount := szAdd s.sampleCount 1 }

/-- Downsampler.h:145-158 `read`. -/
def read (s : Down α) : Down α × α :=
  if s.sampleCount = 0 then (s, lit 0)
  else ({ s with accumulator := lit 0, sampleCount := 0 }, s.accumulator / Arith.ofNat s.sampleCount)

/-- Downsampler.h:166-175 `process`; `input` is the readable memory behind the input pointer, a read outside it is `none`. -/
def process (input : List α) (numOutputSamples : ℕ) (s : Down α) : Option (Down α × List α) :=
  forLoop (fun i (s, out) =>
    (forLoop (fun j s => (input[szAdd (szMul i s.oversampleFactor) j]?).map (write s)) 0 s.oversampleFactor s).map fun s =>
      let (s, y) := read s
      (s, out ++ [y])) 0 numOutputSamples (s, [])

/-- Downsampler.h:181-183 `isReady`. -/
def isReady (s : Down α) : Bool := decide (s.sampleCount ≥ s.oversampleFactor)

/-- Downsampler.h:188-192 `reset`. -/
def reset (s : Down α) : Down α :=
  { s with accumulator := lit 0, sampleCount := 0, filterState := List.replicate FILTER_ORDER (lit 0) }

end Downsampler

namespace StereoDownsampler
open Downsampler (Down)

/-- Downsampler.h:217-219 data members. -/
structure SDown (α : Type) where
  left : Down α
  right : Down α

/-- Downsampler.h:226-229 `init`. -/
def init (outputRate : α) (factor : ℕ) : SDown α := ⟨Downsampler.init outputRate factor, Downsampler.init outputRate factor⟩
/-- Downsampler.h:235-238 `setOversampleFactor`. -/
def setOversampleFactor (factor : ℕ) (s : SDown α) : SDown α :=
  ⟨Downsampler.setOversampleFactor factor s.left, Downsampler.setOversampleFactor factor s.right⟩
/-- Downsampler.h:244-257 `write`. -/
def write (s : SDown α) (x : Stereo α) : SDown α := ⟨Downsampler.write s.left x.left, Downsampler.write s.right x.right⟩
/-- Downsampler.h:263-265 `read`. -/
def read (s : SDown α) : SDown α × Stereo α :=
  let (l, a) := Downsampler.read s.left
  let (r, b) := Downsampler.read s.right
  (⟨l, r⟩, ⟨a, b⟩)
/-- Downsampler.h:275-280 `process`. -/
def process (inputL inputR : List α) (n : ℕ) (s : SDown α) : Option (SDown α × List α × List α) :=
  (Downsampler.process inputL n s.left).bind fun (l, a) =>
    (Downsampler.process inputR n s.right).map fun (r, b) => (⟨l, r⟩, a, b)
/-- Downsampler.h:286-288 `isReady`. -/
def isReady (s : SDown α) : Bool := Downsampler.isReady s.left && Downsampler.isReady s.right
/-- Downsampler.h:293-296 `reset`. -/
def reset (s : SDown α) : SDown α := ⟨Downsampler.reset s.left, Downsampler.reset s.right⟩

end StereoDownsampler
end Verif
