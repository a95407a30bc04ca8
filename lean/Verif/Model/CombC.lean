import Verif.Model.Memory

/-!
# CombC.h
-/

namespace Verif
variable {α : Type} [Arith α] [Libm α]

/-- `std::isinf`: equal to itself but not convertible to an integer (a NaN is not equal to itself, and every finite number
truncates to an integer). -/
def Arith.isInf (x : α) : Bool := (Arith.toInt? x).isNone && (x ==. x)

namespace CombC

/-- CombC.h:46-67 data members; `buffer` is the contents of the memory behind the pointer (ownership is modelled separately in
`CombC.Life`). -/
structure Comb (α : Type) where
  sampleRate : α
  buffer : List α
  maxDelayTime : α
  delayTime : α
  decayTime : α
  feedbackCoeff : α
  bufferSize : ℕ
  writePos : ℕ

/-- CombC.h:196-214 `updateFeedback`. -/
def updateFeedback (s : Comb α) : Comb α :=
  { s with feedbackCoeff :=
      if Arith.isInf s.decayTime then (if s.decayTime >. lit 0 then lit 1 else -lit 1)
      else if s.decayTime ==. lit 0 then lit 0
      else
        let absDecay := Arith.fabs s.decayTime
        let exponent := s.delayTime / absDecay
        let fb := Libm.exp (exponent * -lit 6.907755)
        if s.decayTime <. lit 0 then -fb else fb }

/-- CombC.h:74-88 `init`. The conversion of a NaN, infinite, negative or too large size is undefined (`none`). The allocation
is assumed to succeed; `new[]` and `memset` give `bufferSize` zeros. -/
def init (sr maxDelay : α) : Option (Comb α) :=
  (Arith.toSize? (Arith.ceil (maxDelay * sr))).map fun n =>
    let bufferSize := szAdd n 4
    updateFeedback
      { sampleRate := sr, maxDelayTime := maxDelay, bufferSize := bufferSize, buffer := List.replicate bufferSize (lit 0),
        writePos := 0, delayTime := lit 0.2, decayTime := lit 1, feedbackCoeff := lit 0 }

/-- CombC.h:104-107 `setDelayTime`. -/
def setDelayTime (dt : α) (s : Comb α) : Comb α :=
  updateFeedback { s with delayTime := clamp dt (lit 0) s.maxDelayTime }

/-- CombC.h:113-116 `setDecayTime`. -/
def setDecayTime (dc : α) (s : Comb α) : Comb α := updateFeedback { s with decayTime := dc }

/-- CombC.h:131-133 the `while` loop, executed at most `fuel` times; `none` means that it did not end within `fuel` rounds. -/
def wrapLoop (size : α) : ℕ → α → Option α
  | 0, r => if r <. lit 0 then none else some r
  | fuel + 1, r => if r <. lit 0 then wrapLoop size fuel (r + size) else some r

/-- CombC.h:150-156 the Hermite interpolation. -/
def hermite (y0 y1 y2 y3 frac : α) : α :=
  let c0 := y1
  let c1 := lit 0.5 * (y2 - y0)
  let c2 := y0 - lit 2.5 * y1 + lit 2 * y2 - lit 0.5 * y3
  let c3 := lit 0.5 * (y3 - y0) + lit 1.5 * (y1 - y2)
  ((c3 * frac + c2) * frac + c1) * frac + c0

/-- CombC.h:123-166 `tick`. `none` is undefined behaviour (conversion of a number that does not fit, access outside the delay
line, remainder by zero) or a `while` loop still running after `fuel` rounds. -/
def tick (fuel : ℕ) (s : Comb α) (input : α) : Option (Comb α × α) :=
  let delaySamples := s.delayTime * s.sampleRate
  let readPosFloat := Arith.ofNat s.writePos - delaySamples
  (wrapLoop (Arith.ofNat s.bufferSize) fuel readPosFloat).bind fun readPosFloat =>
  (Arith.toSize? readPosFloat).bind fun readPosInt =>
    let frac := readPosFloat - Arith.ofNat readPosInt
    if s.bufferSize = 0 then none
    else
      let idx0 := szSub (szAdd readPosInt s.bufferSize) 1 % s.bufferSize
      let idx1 := readPosInt % s.bufferSize
      let idx2 := szAdd readPosInt 1 % s.bufferSize
      let idx3 := szAdd readPosInt 2 % s.bufferSize
      (s.buffer[idx0]?).bind fun y0 => (s.buffer[idx1]?).bind fun y1 => (s.buffer[idx2]?).bind fun y2 =>
      (s.buffer[idx3]?).bind fun y3 =>
        let delayed := hermite y0 y1 y2 y3 frac
        let output := input + s.feedbackCoeff * delayed
        if s.writePos < s.buffer.length then
          some ({ s with buffer := s.buffer.set s.writePos output, writePos := szAdd s.writePos 1 % s.bufferSize }, delayed)
        else none

/-- CombC.h:173-177 `process`. -/
def process (fuel : ℕ) : Comb α → List α → Option (Comb α × List α)
  | s, [] => some (s, [])
  | s, x :: xs => (tick fuel s x).bind fun (s, y) => (process fuel s xs).map fun (s, ys) => (s, y :: ys)

/-- CombC.h:182-187 `reset` (of an initialised comb). -/
def reset (s : Comb α) : Comb α := { s with buffer := List.replicate s.bufferSize (lit 0), writePos := 0 }

/-! ### Lifecycle of the pointer -/

/-- The `buffer` pointer: indeterminate (CombC has no constructor, CombC.h:44-49), null, or allocation number `k`. -/
inductive BufPtr where
  | indeterminate
  | null
  | block (k : ℕ)
deriving DecidableEq

/-- The heap as far as combs are concerned: number of blocks ever allocated, which of them are live, and the combs (by number)
that exist. -/
structure Life where
  next : ℕ
  live : Finset ℕ
  comb : ℕ → Option BufPtr

/-- Lifecycle operations on combs numbered by the user. -/
inductive LifeOp where
  /-- `CombC c;` (default initialisation) -/
  | declare (c : ℕ)
  /-- `CombC c{};` (value initialisation: null pointer) -/
  | declareZero (c : ℕ)
  /-- `c.init(…)` -/
  | init (c : ℕ)
  /-- `c.tick(…)` / `c.process(…)` -/
  | use (c : ℕ)
  /-- `c.reset()` -/
  | reset (c : ℕ)
  /-- `CombC d = c;` (implicitly generated copy constructor: memberwise) -/
  | copy (c d : ℕ)
  /-- end of the lifetime of `c`: `~CombC` -/
  | destroy (c : ℕ)

/-- Effect of an operation; `none` is undefined behaviour (use of an indeterminate, null or dangling pointer, double free) or an
operation on an object that does not exist. -/
def Life.step (h : Life) : LifeOp → Option Life
  | .declare c => if h.comb c = none then some { h with comb := Function.update h.comb c (some .indeterminate) } else none
  | .declareZero c => if h.comb c = none then some { h with comb := Function.update h.comb c (some .null) } else none
  /- CombC.h:80: the old pointer is overwritten without being freed -/
  | .init c => if h.comb c = none then none else
      some { next := h.next + 1, live := insert h.next h.live, comb := Function.update h.comb c (some (.block h.next)) }
  /- CombC.h:145-160: dereferences the pointer -/
  | .use c => match h.comb c with
      | some (.block k) => if k ∈ h.live then some h else none
      | _ => none
  /- CombC.h:182-187: tests the pointer, then clears the memory -/
  | .reset c => match h.comb c with
      | some (.block k) => if k ∈ h.live then some h else none
      | some .null => some h
      | _ => none
  | .copy c d => match h.comb c with
      | some .indeterminate => none
      | some p => if h.comb d = none then some { h with comb := Function.update h.comb d (some p) } else none
      | none => none
  /- CombC.h:93-98 -/
  | .destroy c => match h.comb c with
      | some (.block k) =>
        if k ∈ h.live then some { h with live := h.live.erase k, comb := Function.update h.comb c none } else none
      | some .null => some { h with comb := Function.update h.comb c none }
      | _ => none

/-- Run a history. -/
def Life.run (h : Life) (ops : List LifeOp) : Option Life := ops.foldlM Life.step h

/-- Nothing allocated, no combs. -/
def Life.start : Life := ⟨0, ∅, fun _ => none⟩

end CombC
end Verif
