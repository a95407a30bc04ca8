import Verif.Props.AudioLoop

/-!
# C106: is the block read by the audio side ever torn?

The audio side takes the pointer `getOutputBuffer()` once per block and then reads sample by sample, while the processing side goes on
working (AudioLoop.h:26-39). The calls of both sides are interleaved arbitrarily; every single load, store and call is taken to be atomic
and seen in order by both sides.
-/

set_option linter.unusedSectionVars false

namespace Verif.AudioLoop
variable {α : Type} [Arith α]

/-! ### Specification -/

/-- One move of either side: the processing side calls the loop or stores a sample, or the audio side reads sample `i` of the block it has
taken. -/
inductive Move (α : Type)
  | work (op : Op α)
  | read (i : ℕ)

/-- What happens after the audio side has taken the pointer `p`: the samples it reads, in order. A read or store outside the block is
undefined (`none`). -/
def session (N : ℕ) (p : Side) : Loop α → List (Move α) → Option (Loop α × List α)
  | s, [] => some (s, [])
  | s, .work op :: ms => (step N s op).bind fun s => session N p s ms
  | s, .read i :: ms => ((s.block p)[i]?).bind fun x => (session N p s ms).map fun (s, xs) => (s, x :: xs)

/-- The samples asked for. -/
def asked : List (Move α) → List ℕ
  | [] => []
  | .work _ :: ms => asked ms
  | .read i :: ms => i :: asked ms

/-- The processing side may prepare a block and swap, but does not begin the next one before the audio side has finished. -/
def timely : List (Move α) → Prop
  | [] => True
  | .read _ :: ms => timely ms
  | .work .clear :: ms => timely ms
  | .work (.store _ _) :: ms => timely ms
  | .work .swap :: ms => ∀ m ∈ ms, ∃ i, m = .read i
  | .work (.init _) :: _ => False

/-- Nobody reads or stores outside the block. -/
def inside (N : ℕ) : List (Move α) → Prop
  | [] => True
  | .read i :: ms => i < N ∧ inside N ms
  | .work (.store i _) :: ms => i < N ∧ inside N ms
  | .work _ :: ms => inside N ms

/-! ### Proofs -/

theorem session_reads {N : ℕ} (p : Side) {s : Loop α} (hp : (s.block p).length = N) : ∀ ms : List (Move α), (∀ m ∈ ms, ∃ i, m = .read i) →
    inside N ms → session N p s ms = some (s, (asked ms).map fun i => (s.block p).getD i (lit 0))
  | [], _, _ => rfl
  | .work op :: ms, h, _ => by obtain ⟨i, hi⟩ := h (.work op) (by simp); cases hi
  | .read i :: ms, h, hi => by
    have : i < (s.block p).length := hp ▸ hi.1
    have ih := session_reads p hp ms (fun m hm => h m (by simp [hm])) hi.2
    simp only [session, asked, ih, List.map_cons, Option.map_some, List.getElem?_eq_getElem this, Option.bind_some,
      List.getD_eq_getElem?_getD, Option.getD_some]

theorem session_append (N : ℕ) (p : Side) : ∀ (a b : List (Move α)) (s : Loop α), session N p s (a ++ b) =
    (session N p s a).bind fun r => (session N p r.1 b).map fun t => (t.1, r.2 ++ t.2)
  | [], b, s => by simp only [List.nil_append, session, Option.bind_some, Prod.mk.eta, Option.map_id']
  | .work op :: a, b, s => by
    simp only [List.cons_append, session]
    cases step N s op with
    | none => rfl
    | some s1 => simp only [Option.bind_some]; exact session_append N p a b s1
  | .read i :: a, b, s => by
    simp only [List.cons_append, session]
    cases (s.block p)[i]? with
    | none => rfl
    | some x =>
      simp only [Option.bind_some, session_append N p a b]
      cases session N p s a with
      | none => rfl
      | some t =>
        simp only [Option.bind_some, Option.map_some]
        cases session N p t.1 b <;> simp

/-! ### Theorems -/

/-- **C106, partial**: a block is read whole if the processing side keeps out of its way. In any interleaving in which, after the audio side
has taken its pointer, the processing side prepares a block in any way and swaps at most once, but does not begin another block before the
reading is over, every sample read is the sample of the block that was published when the pointer was taken. Missing: nothing in the
library makes the processing side wait, see `C106_torn`. -/
theorem C106_whole_partial (N : ℕ) : ∀ (ms : List (Move α)) (s : Loop α), s.bufferA.length = N → s.bufferB.length = N → timely ms → inside N ms →
    ∃ s', session N (getOutputBuffer s) s ms = some (s', (asked ms).map fun i => (s.block (getOutputBuffer s)).getD i (lit 0))
  | [], s, _, _, _, _ => ⟨s, rfl⟩
  | .read i :: ms, s, hA, hB, ht, hi => by
    obtain ⟨s', h⟩ := C106_whole_partial N ms s hA hB ht hi.2
    have : i < (s.block (getOutputBuffer s)).length := by
      have : (s.block (getOutputBuffer s)).length = N := by cases getOutputBuffer s <;> assumption
      rw [this]; exact hi.1
    refine ⟨s', ?_⟩
    simp only [session, asked, h, List.map_cons, Option.map_some, List.getElem?_eq_getElem this, Option.bind_some,
      List.getD_eq_getElem?_getD, Option.getD_some]
  | .work .clear :: ms, s, hA, hB, ht, hi => by
    obtain ⟨s', h⟩ := C106_whole_partial N ms (clearProcessingBuffer N s) (by by_cases hc : s.currentBuffer = 0 <;> simp [clearProcessingBuffer, hc, hA, AudioBuffer.clear])
      (by by_cases hc : s.currentBuffer = 0 <;> simp [clearProcessingBuffer, hc, hB, AudioBuffer.clear]) ht hi
    have e : getOutputBuffer (clearProcessingBuffer N s) = getOutputBuffer s := by
      by_cases hc : s.currentBuffer = 0 <;> simp [clearProcessingBuffer, getOutputBuffer, hc]
    have b : (clearProcessingBuffer N s).block (getOutputBuffer s) = s.block (getOutputBuffer s) := by
      by_cases hc : s.currentBuffer = 0 <;> simp [clearProcessingBuffer, getOutputBuffer, Loop.block, hc]
    rw [e, b] at h
    exact ⟨s', h⟩
  | .work (.store i x) :: ms, s, hA, hB, ht, hi => by
    obtain ⟨s1, hs1, a, b, e, f⟩ : ∃ s1, write (getProcessingBuffer s) i x s = some s1 ∧ s1.bufferA.length = N ∧ s1.bufferB.length = N ∧
        getOutputBuffer s1 = getOutputBuffer s ∧ s1.block (getOutputBuffer s) = s.block (getOutputBuffer s) := by
      by_cases hc : s.currentBuffer = 0
      · exact ⟨{ s with bufferA := s.bufferA.set i x }, by simp [write, getProcessingBuffer, Loop.block, hc, hA, hi.1], by simp [hA], hB, rfl,
          by simp [getOutputBuffer, Loop.block, hc]⟩
      · exact ⟨{ s with bufferB := s.bufferB.set i x }, by simp [write, getProcessingBuffer, Loop.block, hc, hB, hi.1], hA, by simp [hB], rfl,
          by simp [getOutputBuffer, Loop.block, hc]⟩
    obtain ⟨s', h⟩ := C106_whole_partial N ms s1 a b ht hi.2
    rw [e, f] at h
    exact ⟨s', by simp only [session, step, hs1, Option.bind_some]; exact h⟩
  | .work .swap :: ms, s, hA, hB, ht, hi => by
    have b : (swapBuffers s).block (getOutputBuffer s) = s.block (getOutputBuffer s) := by cases getOutputBuffer s <;> rfl
    have := session_reads (getOutputBuffer s) (s := swapBuffers s) (N := N) (by rw [b]; cases getOutputBuffer s <;> assumption) ms ht hi
    rw [b] at this
    exact ⟨_, this⟩
  | .work (.init _) :: _, _, _, _, ht, _ => ht.elim

/-- Reading while a block is written, swapping, and reading on. -/
example : timely ([.read 0, .work .clear, .work (.store 0 (lit 3)), .read 1, .work .swap, .read 2] : List (Move F32)) ∧
    inside 3 ([.read 0, .work .clear, .work (.store 0 (lit 3)), .read 1, .work .swap, .read 2] : List (Move F32)) := by
  constructor
  · simp [timely]
  · simp [inside]

/-- **C106 negation**: a block can be torn. Whatever is published and wherever the audio side has got to: if
the processing side then swaps and begins its next block with `clearProcessingBuffer()`, the rest of the block is heard as silence. -/
theorem C106_torn (N h : ℕ) (hN : h ≤ N) (s : Loop α) (hA : s.bufferA.length = N) (hB : s.bufferB.length = N) :
    ∃ s', session N (getOutputBuffer s) s ((List.range h).map .read ++ [.work .swap, .work .clear] ++ (List.range' h (N - h)).map .read) =
      some (s', (s.block (getOutputBuffer s)).take h ++ List.replicate (N - h) (lit 0)) := by
  have ask : ∀ l : List ℕ, asked (l.map (Move.read (α := α))) = l := fun l => by
    induction l with
    | nil => rfl
    | cons a l ih => simp [asked, ih]
  have ins : ∀ l : List ℕ, (∀ i ∈ l, i < N) → inside N (l.map (Move.read (α := α))) := fun l hl => by
    induction l with
    | nil => trivial
    | cons a l ih => exact ⟨hl a (by simp), ih fun i hi => hl i (by simp [hi])⟩
  have all : ∀ l : List ℕ, ∀ m ∈ l.map (Move.read (α := α)), ∃ i, m = .read i := fun l m hm => by
    obtain ⟨i, -, rfl⟩ := List.mem_map.1 hm; exact ⟨i, rfl⟩
  have len : (s.block (getOutputBuffer s)).length = N := by cases getOutputBuffer s <;> assumption
  have first := session_reads (getOutputBuffer s) (s := s) len ((List.range h).map .read) (all _) (ins _ fun i hi => by
    have := List.mem_range.1 hi; omega)
  have b : (clearProcessingBuffer N (swapBuffers s)).block (getOutputBuffer s) = List.replicate N (lit 0) := by
    by_cases hc : s.currentBuffer = 0 <;> simp [clearProcessingBuffer, swapBuffers, getOutputBuffer, Loop.block, AudioBuffer.clear, hc]
  have second := session_reads (getOutputBuffer s) (s := clearProcessingBuffer N (swapBuffers s)) (N := N) (by rw [b]; simp)
    ((List.range' h (N - h)).map .read) (all _) (ins _ fun i hi => by
      have := List.mem_range'_1.1 hi; omega)
  refine ⟨clearProcessingBuffer N (swapBuffers s), ?_⟩
  rw [List.append_assoc, session_append, first, Option.bind_some, List.cons_append, List.cons_append, List.nil_append]
  simp only [session, step, Option.bind_some, second, Option.map_some, ask, b]
  congr 3
  · apply List.ext_getElem
    · simp [len, hN]
    · intro i h1 h2
      have : i < (s.block (getOutputBuffer s)).length := by rw [len]; simp at h1; omega
      simp [this]
  · apply List.ext_getElem
    · simp
    · intro i h1 h2
      have : h + i < N := by simp at h1; omega
      simp [List.getElem?_replicate, this]

/-- **C106 negation**: and what the processing side stores next is heard at once. -/
theorem C106_leaks (N i : ℕ) (hi : i < N) (x : α) (s : Loop α) (hA : s.bufferA.length = N) (hB : s.bufferB.length = N) :
    ∃ s', session N (getOutputBuffer s) s [.work .swap, .work (.store i x), .read i] = some (s', [x]) := by
  by_cases hc : s.currentBuffer = 0 <;>
    simp [session, step, write, swapBuffers, getProcessingBuffer, getOutputBuffer, Loop.block, hc, hA, hB, hi]

/-- Two samples of the first block, two of silence. -/
example : ((fun s : Loop F32 => (session 4 (getOutputBuffer s) s [.read 0, .read 1, .work .swap, .work .clear, .read 2, .read 3]).map Prod.snd)
    ⟨[lit 0, lit 0, lit 0, lit 0], [lit 1, lit 2, lit 3, lit 4], 0, lit 48000⟩) = some [lit 1, lit 2, lit 0, lit 0] := by decide +kernel

end Verif.AudioLoop
