import Verif.Model.BufferAllocator

/-!
# Histories of allocator calls

What a program can do with a `BufferAllocator`, with a record of the buffers it currently holds.  The record is computed
only from what the program can see: the buffers returned by `allocate`, the flag returned by `release`, and
`usedSpace()`.
-/

namespace Verif.BufferAllocator
variable {α : Type} [Arith α]

/-- One call of the program.  `poke` stands for any store of the program into memory. -/
inductive Op (α : Type)
  | init (sr : α)
  | allocate (n ch : ℕ)
  | release (buf : Buffer α)
  | reset
  | poke (obj i : ℕ) (x : α)

/-- The allocator, the memory, and the live buffers: every valid buffer handed out since the last
`init`/`reset` and not released, together with the amount by which `usedSpace()` grew when it was handed out. -/
structure World (α : Type) where
  a : Alloc α
  mem : Mem α
  live : List (Buffer α × ℕ)

/-- One step; `none` is undefined behaviour inside the allocator. -/
def step (P M : ℕ) : Op α → World α → Option (World α)
  | .init sr, w => (init P sr w.a w.mem).map fun r => ⟨r.1, r.2, []⟩
  | .reset, w => (reset P w.a w.mem).map fun r => ⟨r.1, r.2, []⟩
  | .allocate n ch, w =>
    (allocate P M n ch w.a).bind fun r =>
      (usedSpace P w.a).bind fun u0 => (usedSpace P r.1).map fun u1 =>
        ⟨r.1, w.mem, if r.2.isValid then (r.2, u1 - u0) :: w.live else w.live⟩
  | .release buf, w =>
    (release P buf w.a).map fun r =>
      ⟨r.1, w.mem, if r.2 then w.live.filter (fun b => b.1.data ≠ buf.data) else w.live⟩
  | .poke o i x, w => some { w with mem := Function.update w.mem o ((w.mem o).set i x) }

/-- A history of calls. -/
def run (P M : ℕ) : List (Op α) → World α → Option (World α)
  | [], w => some w
  | o :: os, w => (step P M o w).bind (run P M os)

/-- The state right after construction: pool object `obj` of `P` samples and a table of `M` entries, both with arbitrary
contents. -/
structure Fresh (P M : ℕ) (w : World α) : Prop where
  pool : (w.mem w.a.obj).length = P
  table : w.a.tab.length = M
  constructed : w.a = construct w.a.obj w.a.tab
  live : w.live = []

/-- The template arguments make sense: a non-empty pool and table that fit the 64-bit address space (a sample has four
bytes). -/
structure Sizes (P M : ℕ) : Prop where
  pool_pos : 0 < P
  pool_bytes : 4 * P < 2 ^ 64
  table_pos : 0 < M
  table_lt : M < 2 ^ 64

theorem Sizes.pool_lt {P M : ℕ} (h : Sizes P M) : P < 2 ^ 64 := by have := h.pool_bytes; omega

/-- The float count of a request fits in `size_t`. -/
def Op.NoWrap : Op α → Prop
  | .allocate n ch => n * ch < 2 ^ 64
  | _ => True

/-- The pool indices covered by a buffer handed out with grant size `g`: `g` floats from its start. -/
def Covers (obj : ℕ) (b : Buffer α × ℕ) (i : ℕ) : Prop :=
  ∃ k, b.1.data = .at obj k ∧ k ≤ i ∧ i < k + b.2

/-- Pool index `i` holds one of the `numSamples * channels` floats of the buffer. -/
def Occupies (obj : ℕ) (b : Buffer α) (i : ℕ) : Prop :=
  ∃ k, b.data = .at obj k ∧ k ≤ i ∧ i < k + b.numSamples * b.channels

/-- Pool index `i` belongs to no live grant. -/
def Unused (w : World α) (i : ℕ) : Prop := ∀ b ∈ w.live, ¬ Covers w.a.obj b i

/-- A run of `need` floats starting at `p` lies in the pool and is unused. -/
def Feasible (P : ℕ) (w : World α) (need p : ℕ) : Prop :=
  p + need ≤ P ∧ ∀ i, p ≤ i → i < p + need → Unused w i

end Verif.BufferAllocator
