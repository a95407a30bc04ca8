import Verif.Model.Memory

/-!
# BufferAllocator.h

The allocator is modelled at the level of its block table: a fixed array of `M` entries of which the first `count` are
live, with checked accesses (`none` = access outside the table or outside the pool, i.e. undefined behaviour), the
insertion and removal loops written as the loops of the source, and `size_t` arithmetic that wraps at 2^64.
-/

namespace Verif.BufferAllocator
variable {α : Type} [Arith α]

/-- BufferAllocator.h:296-300 `struct Block`. -/
structure Block where
  offset : ℕ
  size : ℕ
  used : Bool
deriving DecidableEq, Repr

/-- BufferAllocator.h:325-329 data members. `pool_` is the memory object `obj` (its contents are in `Mem`); `tab` is
`blocks_`, an array of `M` entries. -/
structure Alloc (α : Type) where
  obj : ℕ
  tab : List Block
  rate : α
  count : ℕ
  inited : Bool

/-- Checked store into the table. -/
def setAt (t : List Block) (i : ℕ) (b : Block) : Option (List Block) :=
  if i < t.length then some (t.set i b) else none

/-- BufferAllocator.h:55-59 constructor. `blocks_` and `pool_` are not initialised: `junk` is whatever the table held. -/
def construct (obj : ℕ) (junk : List Block) : Alloc α := ⟨obj, junk, DEFAULT_SAMPLE_RATE, 0, false⟩

/-- BufferAllocator.h:68-78 `init`. -/
def init (P : ℕ) (sr : α) (a : Alloc α) (m : Mem α) : Option (Alloc α × Mem α) :=
  (setAt a.tab 0 ⟨0, P, false⟩).bind fun t =>
    (forLoop (fun i m => m.store (.at a.obj 0) i (lit 0)) 0 P m).map fun m =>
      ({ a with rate := sr, count := 1, tab := t, inited := true }, m)

/-- BufferAllocator.h:109-111, the loop `for (j = count; j > i + 1; --j) blocks_[j] = blocks_[j - 1]`; here `j` is the
current index and `k = j - (i + 1)` the number of iterations left. -/
def shiftUp : (j k : ℕ) → List Block → Option (List Block)
  | _, 0, t => some t
  | j, k + 1, t => t[szSub j 1]?.bind fun b => (setAt t j b).bind (shiftUp (j - 1) k)

/-- BufferAllocator.h:97-124 the first-fit loop of `allocate`, at index `i` with `k = blockCount_ - i` iterations left. -/
def allocLoop (P M need n ch : ℕ) (a : Alloc α) : (i k : ℕ) → Option (Alloc α × Buffer α)
  | _, 0 => some (a, .empty)
  | i, k + 1 =>
    a.tab[i]?.bind fun b =>
      if !b.used && decide (b.size ≥ need) then
        let remaining := szSub b.size need
        let result : Buffer α := ⟨.at a.obj b.offset, ch, a.rate, n⟩
        if b.offset > P then none
        else if remaining > 0 ∧ a.count < M then
          (setAt a.tab i { b with size := need, used := true }).bind fun t =>
            (shiftUp a.count (a.count - (i + 1)) t).bind fun t =>
              (setAt t (i + 1) ⟨szAdd b.offset need, remaining, false⟩).map fun t =>
                ({ a with tab := t, count := szAdd a.count 1 }, result)
        else
          (setAt a.tab i { b with used := true }).map fun t => ({ a with tab := t }, result)
      else allocLoop P M need n ch a (i + 1) k

/-- BufferAllocator.h:89-125 `allocate`. -/
def allocate (P M n ch : ℕ) (a : Alloc α) : Option (Alloc α × Buffer α) :=
  if !a.inited || n == 0 || (ch != 1 && ch != 2) then some (a, .empty)
  else allocLoop P M (szMul n ch) n ch a 0 a.count

/-- BufferAllocator.h:314-316, the loop `for (j = i + 1; j < blockCount_ - 1; ++j) blocks_[j] = blocks_[j + 1]`. -/
def shiftDown : (j k : ℕ) → List Block → Option (List Block)
  | _, 0, t => some t
  | j, k + 1, t => t[j + 1]?.bind fun b => (setAt t j b).bind (shiftDown (j + 1) k)

/-- BufferAllocator.h:308-322, the `while` loop of `mergeAdjacentFreeBlocks`. `fuel` bounds the number of iterations;
running out of it is reported as `none` (non-termination) and shown not to happen. -/
def mergeLoop : (fuel i count : ℕ) → List Block → Option (ℕ × List Block)
  | 0, _, _, _ => none
  | fuel + 1, i, count, t =>
    if i < szSub count 1 then
      t[i]?.bind fun b => t[i + 1]?.bind fun c =>
        if !b.used && !c.used then
          (setAt t i { b with size := szAdd b.size c.size }).bind fun t =>
            (shiftDown (i + 1) (szSub count 1 - (i + 1)) t).bind fun t =>
              mergeLoop fuel i (szSub count 1) t
        else mergeLoop fuel (i + 1) count t
    else some (count, t)

/-- BufferAllocator.h:303-323 `mergeAdjacentFreeBlocks`. -/
def merge (a : Alloc α) : Option (Alloc α) :=
  if a.count ≤ 1 then some a
  else (mergeLoop (a.count + 1) 0 a.count a.tab).map fun r => { a with count := r.1, tab := r.2 }

/-- BufferAllocator.h:151-159 the search loop of `release`. -/
def releaseLoop (offset : ℕ) (a : Alloc α) : (i k : ℕ) → Option (Alloc α × Bool)
  | _, 0 => some (a, false)
  | i, k + 1 =>
    a.tab[i]?.bind fun b =>
      if b.offset = offset ∧ b.used = true then
        (setAt a.tab i { b with used := false }).bind fun t =>
          (merge { a with tab := t }).map fun a => (a, true)
      else releaseLoop offset a (i + 1) k

/-- BufferAllocator.h:136-160 `release`. Simplification: the test `start < pool_ || start >= pool_ + PoolSamples` compares
pointers; for a pointer into another object the result is unspecified by the standard and is taken to be "outside",
which is what flat address spaces give. -/
def release (P : ℕ) (buf : Buffer α) (a : Alloc α) : Option (Alloc α × Bool) :=
  if !a.inited then some (a, false)
  else match buf.data with
    | .null => some (a, false)
    | .at o k => if o = a.obj ∧ k < P then releaseLoop k a 0 a.count else some (a, false)

/-- BufferAllocator.h:250-254 the loop of `freeSpace`. -/
def freeLoop (t : List Block) : (i k free : ℕ) → Option ℕ
  | _, 0, free => some free
  | i, k + 1, free =>
    t[i]?.bind fun b => freeLoop t (i + 1) k (if b.used then free else szAdd free b.size)

/-- BufferAllocator.h:248-256 `freeSpace`. -/
def freeSpace (a : Alloc α) : Option ℕ := freeLoop a.tab 0 a.count 0
/-- BufferAllocator.h:262-264 `usedSpace`. -/
def usedSpace (P : ℕ) (a : Alloc α) : Option ℕ := (freeSpace a).map (szSub P)
/-- BufferAllocator.h:240-242 `blockCount`. -/
def blockCount (a : Alloc α) : ℕ := a.count

/-- BufferAllocator.h:280-284 `reset`. -/
def reset (P : ℕ) (a : Alloc α) (m : Mem α) : Option (Alloc α × Mem α) :=
  if a.inited then init P a.rate a m else some (a, m)

end Verif.BufferAllocator
