import Verif.Model.Types

/-!
# AudioBuffer.h and AudioLoop.h
-/

namespace Verif
variable {α : Type} [Arith α]

/-- AudioBuffer.h:34-41 `clear` of an `AudioBuffer<N>` (also what its constructor leaves). -/
def AudioBuffer.clear (N : ℕ) : List α := List.replicate N (lit 0)

namespace AudioLoop

/-- Which of the two member arrays a pointer returned by the loop designates. -/
inductive Side | A | B
deriving DecidableEq, Repr

/-- AudioLoop.h:41-56 data members (`currentBuffer` is a `uint8_t`). -/
structure Loop (α : Type) where
  bufferA : List α
  bufferB : List α
  currentBuffer : ℕ
  sampleRate : α

/-- The array designated by a pointer. -/
def Loop.block (s : Loop α) : Side → List α
  | .A => s.bufferA
  | .B => s.bufferB

/-- AudioLoop.h:61-66 `init`. -/
def init (N : ℕ) (sr : α) : Loop α :=
  { sampleRate := sr, currentBuffer := 0, bufferA := AudioBuffer.clear N, bufferB := AudioBuffer.clear N }

/-- AudioLoop.h:72-74 `getOutputBuffer`. -/
def getOutputBuffer (s : Loop α) : Side := if s.currentBuffer = 0 then .B else .A

/-- AudioLoop.h:80-82 `getProcessingBuffer`. -/
def getProcessingBuffer (s : Loop α) : Side := if s.currentBuffer = 0 then .A else .B

/-- AudioLoop.h:87-93 `clearProcessingBuffer`. -/
def clearProcessingBuffer (N : ℕ) (s : Loop α) : Loop α :=
  if s.currentBuffer = 0 then { s with bufferA := AudioBuffer.clear N } else { s with bufferB := AudioBuffer.clear N }

/-- AudioLoop.h:101-103 `swapBuffers`. -/
def swapBuffers (s : Loop α) : Loop α := { s with currentBuffer := if s.currentBuffer = 0 then 1 else 0 }

/-- A client store `p[i] = x` through a pointer returned by the loop; `none` outside the array. -/
def write (p : Side) (i : ℕ) (x : α) (s : Loop α) : Option (Loop α) :=
  if i < (s.block p).length then
    some (match p with
      | .A => { s with bufferA := s.bufferA.set i x }
      | .B => { s with bufferB := s.bufferB.set i x })
  else none

/-- What a client can do with a loop: re-initialise, store one sample through `getProcessingBuffer()`, clear, swap. -/
inductive Op (α : Type)
  | init (sr : α) | store (i : ℕ) (x : α) | clear | swap

/-- Effect of one call. -/
def step (N : ℕ) (s : Loop α) : Op α → Option (Loop α)
  | .init sr => some (init N sr)
  | .store i x => write (getProcessingBuffer s) i x s
  | .clear => some (clearProcessingBuffer N s)
  | .swap => some (swapBuffers s)

/-- A history of calls. -/
def run (N : ℕ) : List (Op α) → Loop α → Option (Loop α)
  | [], s => some s
  | op :: ops, s => (step N s op).bind (run N ops)

end AudioLoop

namespace AudioCallbackHandler

/-- AudioLoop.h:121-131 data members; a callback is the effect it has on the block it is given and on the world `ω` behind
`userData`. `none` is the null function pointer. -/
structure Handler (α ω : Type) where
  callback : Option (List α → ω → List α × ω)
  sampleRate : α

/-- AudioLoop.h:138-142 `init`. -/
def init {ω : Type} (sr : α) : Handler α ω := { sampleRate := sr, callback := none }

/-- AudioLoop.h:149-152 `setCallback`. -/
def setCallback {ω : Type} (cb : Option (List α → ω → List α × ω)) (h : Handler α ω) : Handler α ω :=
  { h with callback := cb }

/-- AudioLoop.h:159-163 `process`. -/
def process {ω : Type} (h : Handler α ω) (buf : List α) (u : ω) : List α × ω :=
  match h.callback with
  | some cb => cb buf u
  | none => (buf, u)

end AudioCallbackHandler
end Verif
