import Verif.Model.Memory

/-!
# BufRd.h
-/

namespace Verif.BufRd
variable {α : Type} [Arith α]

/-- BufRd.h:57-63. The `const Buffer*` is null or points to a buffer description; the description is taken to stay unchanged
while it is being read. `interpolation` is a `uint8_t`. -/
structure Reader (α : Type) where
  buffer : Option (Buffer α)
  loop : Bool
  interpolation : ℕ

/-- BufRd.h:69-73 `init`. -/
def init (buf : Option (Buffer α)) : Reader α := ⟨buf, true, 2⟩
/-- BufRd.h:79-81 `setBuffer`. -/
def setBuffer (buf : Option (Buffer α)) (s : Reader α) : Reader α := { s with buffer := buf }
/-- BufRd.h:87-89 `setLoop`. -/
def setLoop (b : Bool) (s : Reader α) : Reader α := { s with loop := b }
/-- BufRd.h:95-97 `setInterpolation` (the argument is a `uint8_t`). -/
def setInterpolation (mode : ℕ) (s : Reader α) : Reader α := { s with interpolation := mode }

/-- BufRd.h:260-266 `wrapIndex`. -/
def wrapIndex (s : Reader α) (index size : ℕ) : ℕ :=
  if s.loop then index % size else if index < size then index else szSub size 1

/-- BufRd.h:277-289 `cubicInterp`. -/
def cubicInterp (y0 y1 y2 y3 t : α) : α :=
  let t2 := t * t
  let t3 := t2 * t
  let a0 := -lit 0.5 * y0 + lit 1.5 * y1 - lit 1.5 * y2 + lit 0.5 * y3
  let a1 := y0 - lit 2.5 * y1 + lit 2 * y2 - lit 0.5 * y3
  let a2 := -lit 0.5 * y0 + lit 0.5 * y2
  let a3 := y1
  a0 * t3 + a1 * t2 + a2 * t + a3

/-- BufRd.h:116-127 and 176-187: the wrapped or clamped phase. -/
def adjust (s : Reader α) (numSamples : ℕ) (phase : α) : α :=
  let numSamplesF : α := Arith.ofNat numSamples
  if s.loop then
    let p := Arith.fmod phase numSamplesF
    if p <. lit 0 then p + numSamplesF else p
  else clamp phase (lit 0) (numSamplesF - lit 1)

/-- BufRd.h:143, 206: index of the previous frame for cubic interpolation. -/
def prevIndex (s : Reader α) (index0 numSamples : ℕ) : ℕ :=
  if index0 = 0 then wrapIndex s (szSub numSamples 1) numSamples else wrapIndex s (szSub index0 1) numSamples

/-- BufRd.h:108-157 `tick`; `none` is undefined behaviour (conversion of a number outside `size_t`, access outside the
buffer's memory). -/
def tick (s : Reader α) (m : Mem α) (phase : α) : Option α :=
  match s.buffer with
  | none => some (lit 0)
  | some b =>
    if !b.isValid then some (lit 0)
    else
      let adjusted := adjust s b.numSamples phase
      (Arith.toSize? adjusted).bind fun index0 =>
        let frac := adjusted - Arith.ofNat index0
        if s.interpolation = 2 then
          let index1 := wrapIndex s (szAdd index0 1) b.numSamples
          (b.getSample m index0).bind fun s0 => (b.getSample m index1).map fun s1 => lerp s0 s1 frac
        else if s.interpolation = 4 then
          let indexM1 := prevIndex s index0 b.numSamples
          let index1 := wrapIndex s (szAdd index0 1) b.numSamples
          let index2 := wrapIndex s (szAdd index0 2) b.numSamples
          (b.getSample m indexM1).bind fun sM1 => (b.getSample m index0).bind fun s0 =>
          (b.getSample m index1).bind fun s1 => (b.getSample m index2).map fun s2 => cubicInterp sM1 s0 s1 s2 frac
        else b.getSample m index0

/-- BufRd.h:168-223 `tickStereo`. -/
def tickStereo (s : Reader α) (m : Mem α) (phase : α) : Option (Stereo α) :=
  match s.buffer with
  | none => some Stereo.zero
  | some b =>
    if !b.isValid then some Stereo.zero
    else
      let adjusted := adjust s b.numSamples phase
      (Arith.toSize? adjusted).bind fun index0 =>
        let frac := adjusted - Arith.ofNat index0
        if s.interpolation = 2 then
          let index1 := wrapIndex s (szAdd index0 1) b.numSamples
          (b.getStereoSample m index0).bind fun s0 => (b.getStereoSample m index1).map fun s1 =>
            ⟨lerp s0.left s1.left frac, lerp s0.right s1.right frac⟩
        else if s.interpolation = 4 then
          let indexM1 := prevIndex s index0 b.numSamples
          let index1 := wrapIndex s (szAdd index0 1) b.numSamples
          let index2 := wrapIndex s (szAdd index0 2) b.numSamples
          (b.getStereoSample m indexM1).bind fun sM1 => (b.getStereoSample m index0).bind fun s0 =>
          (b.getStereoSample m index1).bind fun s1 => (b.getStereoSample m index2).map fun s2 =>
            ⟨cubicInterp sM1.left s0.left s1.left s2.left frac, cubicInterp sM1.right s0.right s1.right s2.right frac⟩
        else b.getStereoSample m index0

/-- BufRd.h:231-235 `process` (the phases are read before the outputs are written, cell by cell; the output array is taken to
be separate from the buffer's memory). -/
def process (s : Reader α) (m : Mem α) (phases : List α) : Option (List α) := phases.mapM (tick s m)

/-- BufRd.h:244-251 `processStereo`. -/
def processStereo (s : Reader α) (m : Mem α) (phases : List α) : Option (List (Stereo α)) := phases.mapM (tickStereo s m)

end Verif.BufRd
