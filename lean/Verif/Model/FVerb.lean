import Verif.Model.FVerbDSP
import Mathlib.Logic.Function.Basic

/-!
# FVerb.h, fverb/FVerb.cpp: the reverb wrapper, on an explicit heap

`none` is undefined behaviour: dereferencing null, touching or freeing memory that is not live, an access beyond the end of an array,
or an undefined operation inside the DSP. Allocation is assumed to succeed (the functions are `noexcept`: a failing `new` terminates the
program).
-/

namespace Verif.FVerb
open FVerbDSP

variable {α : Type} [Arith α] [Libm α]

/-- A `FVerbDSP` object. -/
structure Dsp (L α : Type) where
  consts : Consts α
  params : Params α
  state : State L α

/-- The setters of FVerb.h:62-126. -/
inductive Setter where
  | predelay
  | inputAmount
  | inputLowPass
  | inputHighPass
  | diffusion1
  | diffusion2
  | tailDensity
  | decay
  | damping
  | modFrequency
  | modDepth
deriving DecidableEq

/-- `x < lo ? lo : (x > hi ? hi : x)` -/
def limit (lo hi : ℚ) (x : α) : α := if x <. lit lo then lit lo else if x >. lit hi then lit hi else x

/-- FVerb.cpp:103-178 the body of the setters on an existing DSP, with FVerbDSP.h:715-751 `SetParamValue`. -/
def setParam (w : Setter) (x : α) (p : Params α) : Params α :=
  match w with
  | .predelay => { p with predelay := limit 0 300 x }
  | .inputAmount => { p with inputAmount := limit 0 100 x }
  | .inputLowPass => { p with lowPass := limit 1 20000 x }
  | .inputHighPass => { p with highPass := limit 1 1000 x }
  | .diffusion1 => { p with diffusion1 := limit 0 100 x }
  | .diffusion2 => { p with diffusion2 := limit 0 100 x }
  | .tailDensity => { p with tailDensity := limit 0 100 x }
  | .decay => { p with decay := limit 0 100 x }
  | .damping => { p with damping := limit 10 20000 x }
  | .modFrequency => { p with modFrequency := limit 0.01 4 x }
  | .modDepth => { p with modDepth := limit 0 10 x }

/-- FVerb.cpp:24-32 with FVerbDSP.h:612-621: a new DSP, initialised for sample rate `sr`, with the wrapper's defaults. -/
def newDsp {L : Type} (I : LineImpl L α) (sr : α) : Option (Dsp L α) :=
  (Arith.toI32? sr).bind fun n => (instanceConstants n).map fun k =>
    { consts := k
      params := setParam .diffusion2 (lit 75) <| setParam .diffusion1 (lit 70) <| setParam .tailDensity (lit 80) <|
        setParam .decay (lit 82) <| setParam .predelay (lit 150) resetUI
      state := clear I }

/-! ### Heap -/

/-- What a heap block holds. -/
inductive Cell (α : Type) where
  | dsp (d : Dsp (List α) α)
  /-- an array of two pointers -/
  | ptrs (a b : Option ℕ)
  | samples (l : List α)

/-- Live blocks by address; addresses are not reused. -/
structure Heap (α : Type) where
  next : ℕ
  cell : ℕ → Option (Cell α)

/-- `new` -/
def Heap.new (h : Heap α) (c : Cell α) : Heap α := ⟨h.next + 1, Function.update h.cell h.next (some c)⟩

/-- Assignment to a live block. -/
def Heap.put (h : Heap α) (a : ℕ) (c : Cell α) : Heap α := { h with cell := Function.update h.cell a (some c) }

/-- `delete p` of a non-null pointer. -/
def Heap.delete (h : Heap α) (a : ℕ) : Option (Heap α) :=
  match h.cell a with
  | some _ => some { h with cell := Function.update h.cell a none }
  | none => none

/-- `if (p) delete p` -/
def Heap.deleteIf (h : Heap α) : Option ℕ → Option (Heap α)
  | none => some h
  | some a => h.delete a

/-- The data members of `FVerb` (FVerb.h:44-46 and 138-142); `sampleRate` is never read and is left out. -/
structure Obj where
  dsp : Option ℕ
  inputBuffers : Option ℕ
  outputBuffers : Option ℕ
  allocatedBlockSize : ℕ

/-- Default member initialisers (FVerb.h:139-142). -/
def Obj.fresh : Obj := ⟨none, none, none, 0⟩

/-- FVerb.cpp:58-67 / 69-78 (the stores of null into an array that is freed at once are left out). -/
def freePair (h : Heap α) : Option ℕ → Option (Heap α)
  | none => some h
  | some p =>
    match h.cell p with
    | some (.ptrs a b) => (h.deleteIf a).bind fun h => (h.deleteIf b).bind fun h => h.delete p
    | _ => none

/-- FVerb.cpp:57-81 `freeBuffers`. -/
def freeBuffers (h : Heap α) (o : Obj) : Option (Heap α × Obj) :=
  (freePair h o.inputBuffers).bind fun h => (freePair h o.outputBuffers).map fun h =>
    (h, { o with inputBuffers := none, outputBuffers := none, allocatedBlockSize := 0 })

/-- FVerb.cpp:35-55 `allocateBuffers`: the two pointer arrays (addresses `n`, `n + 1`) and the four sample arrays, in the order of the
source. -/
def allocateBuffers (h : Heap α) (o : Obj) (numSamples : ℕ) : Option (Heap α × Obj) :=
  if numSamples ≤ o.allocatedBlockSize then some (h, o)
  else (freeBuffers h o).map fun (h, o) =>
    let n := h.next
    let z : Cell α := .samples (List.replicate numSamples (lit 0))
    let h := (h.new (.ptrs (some (n + 2)) (some (n + 4)))).new (.ptrs (some (n + 3)) (some (n + 5)))
    let h := (((h.new z).new z).new z).new z
    (h, { o with inputBuffers := some n, outputBuffers := some (n + 1), allocatedBlockSize := numSamples })

/-- The pointers in a pointer array. -/
def loadPair (h : Heap α) : Option ℕ → Option (Option ℕ × Option ℕ)
  | none => none
  | some p =>
    match h.cell p with
    | some (.ptrs a b) => some (a, b)
    | _ => none

/-- Write `xs` to the beginning of a sample array. -/
def writeSamples (h : Heap α) (p : Option ℕ) (xs : List α) : Option (Heap α) :=
  match p with
  | none => none
  | some a =>
    match h.cell a with
    | some (.samples l) => if xs.length ≤ l.length then some (h.put a (.samples (xs ++ l.drop xs.length))) else none
    | _ => none

/-- Read the first `n` samples of a sample array. -/
def readSamples (h : Heap α) (p : Option ℕ) (n : ℕ) : Option (List α) :=
  match p with
  | none => none
  | some a =>
    match h.cell a with
    | some (.samples l) => if n ≤ l.length then some (l.take n) else none
    | _ => none

/-- The DSP a pointer refers to. -/
def loadDsp (h : Heap α) (a : ℕ) : Option (Dsp (List α) α) :=
  match h.cell a with
  | some (.dsp d) => some d
  | _ => none

/-- FVerb.cpp:83-101 `process`, on the frames `(left[i], right[i])`; returns the frames left in the caller's arrays. `left` and `right` are
distinct arrays of the caller. Blocks of `2^31` frames and more, for which `static_cast<int>(numSamples)` changes the value, are not
covered and count as undefined. -/
def process (h : Heap α) (o : Obj) (frames : List (Stereo α)) : Option (Heap α × Obj × List (Stereo α)) :=
  match o.dsp with
  | none => some (h, o, frames)
  | some d =>
    if 2 ^ 31 ≤ frames.length then none else
    (allocateBuffers h o frames.length).bind fun (h, o) =>
    (loadPair h o.inputBuffers).bind fun (i0, i1) =>
    (writeSamples h i0 (frames.map Stereo.left)).bind fun h =>
    (writeSamples h i1 (frames.map Stereo.right)).bind fun h =>
    (loadDsp h d).bind fun D =>
    (loadPair h o.outputBuffers).bind fun (o0, o1) =>
    (readSamples h i0 frames.length).bind fun ls =>
    (readSamples h i1 frames.length).bind fun rs =>
    (compute arrays D.consts D.params D.state (List.zipWith Stereo.mk ls rs)).bind fun (s, ys) =>
    let h := h.put d (.dsp { D with state := s })
    (writeSamples h o0 (ys.map Stereo.left)).bind fun h =>
    (writeSamples h o1 (ys.map Stereo.right)).bind fun h =>
    (readSamples h o0 frames.length).bind fun ls =>
    (readSamples h o1 frames.length).map fun rs =>
    (h, o, List.zipWith Stereo.mk ls rs)

/-- FVerb.cpp:14-33 `init`. -/
def init (h : Heap α) (o : Obj) (sr : α) : Option (Heap α × Obj) :=
  (h.deleteIf o.dsp).bind fun h => (newDsp arrays sr).map fun D => (h.new (.dsp D), { o with dsp := some h.next })

/-- FVerb.cpp:103-178 the setters. -/
def set (h : Heap α) (o : Obj) (w : Setter) (x : α) : Option (Heap α) :=
  match o.dsp with
  | none => some h
  | some d => (loadDsp h d).map fun D => h.put d (.dsp { D with params := setParam w x D.params })

/-- FVerb.cpp:180-184 `reset`. -/
def reset (h : Heap α) (o : Obj) : Option (Heap α) :=
  match o.dsp with
  | none => some h
  | some d => (loadDsp h d).map fun D => h.put d (.dsp { D with state := clear arrays })

/-- FVerb.cpp:186-192 `~FVerb`. -/
def destroy (h : Heap α) (o : Obj) : Option (Heap α) :=
  (freeBuffers h o).bind fun (h, o) => h.deleteIf o.dsp

/-! ### Programs using several reverbs -/

/-- What a program does with reverbs, which it numbers as it likes. -/
inductive Call (α : Type) where
  /-- `FVerb c;` -/
  | declare (c : ℕ)
  | init (c : ℕ) (sr : α)
  | process (c : ℕ) (frames : List (Stereo α))
  | set (c : ℕ) (w : Setter) (x : α)
  | reset (c : ℕ)
  /-- `FVerb d = c;` (implicitly generated: memberwise) -/
  | copy (c d : ℕ)
  /-- end of the lifetime of `c` -/
  | destroy (c : ℕ)

/-- Heap and existing reverbs. -/
structure World (α : Type) where
  heap : Heap α
  obj : ℕ → Option Obj

/-- Effect of a call and the frames it hands back. Calls on objects that do not exist, and re-declarations, are undefined. -/
def World.step (w : World α) : Call α → Option (World α × List (Stereo α))
  | .declare c =>
    match w.obj c with
    | none => some (⟨w.heap, Function.update w.obj c (some .fresh)⟩, [])
    | some _ => none
  | .init c sr => (w.obj c).bind fun o => (init w.heap o sr).map fun (h, o) => (⟨h, Function.update w.obj c (some o)⟩, [])
  | .process c xs => (w.obj c).bind fun o => (process w.heap o xs).map fun (h, o, ys) => (⟨h, Function.update w.obj c (some o)⟩, ys)
  | .set c s x => (w.obj c).bind fun o => (set w.heap o s x).map fun h => (⟨h, w.obj⟩, [])
  | .reset c => (w.obj c).bind fun o => (reset w.heap o).map fun h => (⟨h, w.obj⟩, [])
  | .copy c d => (w.obj c).bind fun o =>
    match w.obj d with
    | none => some (⟨w.heap, Function.update w.obj d (some o)⟩, [])
    | some _ => none
  | .destroy c => (w.obj c).bind fun o => (destroy w.heap o).map fun h => (⟨h, Function.update w.obj c none⟩, [])

/-- Run a program; the outputs of all calls in order. -/
def World.run : World α → List (Call α) → Option (World α × List (List (Stereo α)))
  | w, [] => some (w, [])
  | w, c :: cs => (w.step c).bind fun (w, ys) => (World.run w cs).map fun (w, zs) => (w, ys :: zs)

/-- Nothing allocated, no reverbs. -/
def World.start : World α := ⟨⟨0, fun _ => none⟩, fun _ => none⟩

end Verif.FVerb
