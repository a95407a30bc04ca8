import Verif.Model.Types

/-!
# Memory objects, pointers, `size_t` and `Buffer`

Memory is a family of arrays ("objects" in the sense of the C++ standard).  A non-null pointer names an object and an
index into it; loading or storing outside the object is undefined behaviour, represented by `none`.
-/

namespace Verif

/-- `size_t` addition (64 bit, wraps). -/
def szAdd (a b : ℕ) : ℕ := (a + b) % 2 ^ 64
/-- `size_t` subtraction (64 bit, wraps). -/
def szSub (a b : ℕ) : ℕ := (a + (2 ^ 64 - b % 2 ^ 64)) % 2 ^ 64
/-- `size_t` multiplication (64 bit, wraps). -/
def szMul (a b : ℕ) : ℕ := (a * b) % 2 ^ 64

/-- A `Sample*`: null, or an index into a memory object. -/
inductive Ptr
  | null
  | at (obj off : ℕ)
deriving DecidableEq

/-- The contents of all memory objects. -/
abbrev Mem (α : Type) := ℕ → List α

/-- `p[i]` as an rvalue; `none` is undefined behaviour (null or out of range). -/
def Mem.load {α : Type} (m : Mem α) (p : Ptr) (i : ℕ) : Option α :=
  match p with
  | .null => none
  | .at o k => (m o)[k + i]?

/-- `p[i] = x`; `none` is undefined behaviour (null or out of range). -/
def Mem.store {α : Type} (m : Mem α) (p : Ptr) (i : ℕ) (x : α) : Option (Mem α) :=
  match p with
  | .null => none
  | .at o k => if k + i < (m o).length then some (Function.update m o ((m o).set (k + i) x)) else none

/-- `for (size_t i = lo; i < lo + n; ++i) body(i)` with a body that may be undefined. -/
def forLoop {σ : Type} (body : ℕ → σ → Option σ) : (lo n : ℕ) → σ → Option σ
  | _, 0, s => some s
  | lo, n + 1, s => (body lo s).bind (forLoop body (lo + 1) n)

/-- Buffer.h:34-46 `struct Buffer`. `channels` is a `uint8_t`, `numSamples` a `size_t`. -/
structure Buffer (α : Type) where
  data : Ptr
  channels : ℕ
  sampleRate : α
  numSamples : ℕ

namespace Buffer
variable {α : Type} [Arith α]

/-- Buffer.h:49-53 default constructor. -/
def empty : Buffer α := ⟨.null, 1, DEFAULT_SAMPLE_RATE, 0⟩

/-- Buffer.h:71-73 `isValid`. -/
def isValid (b : Buffer α) : Bool :=
  (b.data != .null) && decide (b.numSamples > 0) && (b.channels == 1 || b.channels == 2)

/-- Buffer.h:95-97 `totalFloats`. -/
def totalFloats (b : Buffer α) : ℕ := szMul b.numSamples b.channels

/-- Buffer.h:107-112 `getSample`. -/
def getSample (b : Buffer α) (m : Mem α) (index : ℕ) : Option α :=
  if b.data = .null ∨ index ≥ b.numSamples then some (lit 0)
  else m.load b.data (szMul index b.channels)

/-- Buffer.h:122-131 `getStereoSample`. -/
def getStereoSample (b : Buffer α) (m : Mem α) (index : ℕ) : Option (Stereo α) :=
  if b.data = .null ∨ index ≥ b.numSamples then some Stereo.zero
  else if b.channels = 1 then (m.load b.data index).map Stereo.ofMono
  else
    let i := szMul index 2
    (m.load b.data i).bind fun l => (m.load b.data (szAdd i 1)).map fun r => ⟨l, r⟩

/-- Buffer.h:137-142 `duration`. -/
def duration (b : Buffer α) : α :=
  if b.sampleRate <=. lit 0 then lit 0 else Arith.ofNat b.numSamples / b.sampleRate

/-- BufferAllocator.h:172-182 `fillMono`; the result is the memory afterwards and the returned flag. -/
def fillMono (b : Buffer α) (data : Ptr) (count : ℕ) (m : Mem α) : Option (Mem α × Bool) :=
  if !b.isValid || data == .null || b.channels != 1 then some (m, false)
  else
    let toCopy := if count < b.numSamples then count else b.numSamples
    (forLoop (fun i m => (m.load data i).bind fun x => m.store b.data i x) 0 toCopy m).map fun m => (m, true)

/-- BufferAllocator.h:195-206 `fillStereo`. -/
def fillStereo (b : Buffer α) (left right : Ptr) (count : ℕ) (m : Mem α) : Option (Mem α × Bool) :=
  if !b.isValid || left == .null || right == .null || b.channels != 2 then some (m, false)
  else
    let toCopy := if count < b.numSamples then count else b.numSamples
    (forLoop (fun i m =>
      (m.load left i).bind fun x => (m.store b.data (szMul i 2) x).bind fun m =>
        (m.load right i).bind fun y => m.store b.data (szAdd (szMul i 2) 1) y) 0 toCopy m).map fun m => (m, true)

/-- BufferAllocator.h:215-226 `fillStereoInterleaved`. -/
def fillStereoInterleaved (b : Buffer α) (src : Ptr) (count : ℕ) (m : Mem α) : Option (Mem α × Bool) :=
  if !b.isValid || src == .null || b.channels != 2 then some (m, false)
  else
    let toCopy := if count < b.numSamples then count else b.numSamples
    let floats := szMul toCopy 2
    (forLoop (fun i m => (m.load src i).bind fun x => m.store b.data i x) 0 floats m).map fun m => (m, true)

end Buffer
end Verif
