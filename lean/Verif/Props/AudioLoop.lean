import Verif.Model.AudioLoop

/-!
# C11: double buffering

The specification is a pair of blocks: the one the audio side plays and the one being prepared.
-/

set_option linter.unusedSectionVars false

namespace Verif.AudioLoop
variable {α : Type} [Arith α]

/-- What the client sees: the published block and the block in preparation. -/
structure View (α : Type) where
  published : List α
  draft : List α

/-- The specification of one call on a block of `N` samples. A store touches the draft only and must be inside it. -/
def View.step (N : ℕ) (v : View α) : Op α → Option (View α)
  | .init _ => some ⟨List.replicate N (lit 0), List.replicate N (lit 0)⟩
  | .store i x => if i < N then some { v with draft := v.draft.set i x } else none
  | .clear => some { v with draft := List.replicate N (lit 0) }
  | .swap => some ⟨v.draft, v.published⟩

/-- The specification of a history. -/
def View.run (N : ℕ) : List (Op α) → View α → Option (View α)
  | [], v => some v
  | op :: ops, v => (v.step N op).bind (View.run N ops)

/-- What the two pointers show. -/
def Loop.view (s : Loop α) : View α := ⟨s.block (getOutputBuffer s), s.block (getProcessingBuffer s)⟩

theorem step_refines {N : ℕ} {s : Loop α} (hA : s.bufferA.length = N) (hB : s.bufferB.length = N) (op : Op α) :
    (step N s op).map Loop.view = s.view.step N op ∧
      ∀ s', step N s op = some s' → s'.bufferA.length = N ∧ s'.bufferB.length = N := by
  cases op with
  | init sr => exact ⟨rfl, by rintro s' ⟨⟩; simp [init, AudioBuffer.clear]⟩
  | store i x =>
    by_cases hc : s.currentBuffer = 0 <;> by_cases hi : i < N <;>
      simp [step, write, getProcessingBuffer, getOutputBuffer, Loop.view, Loop.block, View.step, hc, hA, hB, hi]
  | clear =>
    by_cases hc : s.currentBuffer = 0 <;>
      simp [step, clearProcessingBuffer, getProcessingBuffer, getOutputBuffer, Loop.view, Loop.block, View.step, hc, hA, hB,
        AudioBuffer.clear]
  | swap =>
    by_cases hc : s.currentBuffer = 0 <;>
      simp [step, swapBuffers, getProcessingBuffer, getOutputBuffer, Loop.view, Loop.block, View.step, hc, hA, hB]

theorem run_refines {N : ℕ} (ops : List (Op α)) : ∀ {s : Loop α}, s.bufferA.length = N → s.bufferB.length = N →
    (run N ops s).map Loop.view = s.view.run N ops := by
  induction ops with
  | nil => intro s _ _; rfl
  | cons op ops ih =>
    intro s hA hB
    obtain ⟨h1, h2⟩ := step_refines hA hB op
    rw [run, View.run, ← h1]
    cases hs : step N s op with
    | none => rfl
    | some s' =>
      obtain ⟨h3, h4⟩ := h2 s' hs
      simp only [Option.bind_some, Option.map_some]
      exact ih h3 h4

/-- **C11, refinement.** After any history of calls the audio side sees exactly the published block of the
specification and the processing side exactly its draft; a store is undefined behaviour exactly when it is outside the block.
-/
theorem C11_double_buffer (N : ℕ) (sr : α) (ops : List (Op α)) :
    (run N ops (init N sr)).map (fun s => (s.block (getOutputBuffer s), s.block (getProcessingBuffer s))) =
      (View.run N ops ⟨List.replicate N (lit 0), List.replicate N (lit 0)⟩).map fun v => (v.published, v.draft) := by
  have h := run_refines (N := N) ops (s := init N sr) (by simp [init, AudioBuffer.clear]) (by simp [init, AudioBuffer.clear])
  have h2 : (init N sr).view = ⟨List.replicate N (lit 0), List.replicate N (lit 0)⟩ := rfl
  rw [h2] at h
  rw [← h, Option.map_map]
  rfl

/-- **C11, no aliasing.** The two pointers always designate different arrays, and swapping exchanges them. -/
theorem C11_sides_differ (s : Loop α) :
    getOutputBuffer s ≠ getProcessingBuffer s ∧ getOutputBuffer (swapBuffers s) = getProcessingBuffer s ∧
      getProcessingBuffer (swapBuffers s) = getOutputBuffer s := by
  by_cases hc : s.currentBuffer = 0 <;> simp [getOutputBuffer, getProcessingBuffer, swapBuffers, hc]

/-- **C11, isolation.** Between two swaps nothing the processing side does changes the block the audio side sees, and the
swap publishes precisely what the processing side holds. -/
theorem C11_isolation {N : ℕ} {ops : List (Op α)} {s s' : Loop α} (hno : ∀ op ∈ ops, op = .clear ∨ ∃ i x, op = .store i x)
    (hrun : run N ops s = some s') :
    s'.block (getOutputBuffer s') = s.block (getOutputBuffer s) ∧
      (swapBuffers s').block (getOutputBuffer (swapBuffers s')) = s'.block (getProcessingBuffer s') := by
  refine ⟨?_, ?_⟩
  · induction ops generalizing s with
    | nil => cases hrun; rfl
    | cons op ops ih =>
      rw [run] at hrun
      cases hs : step N s op with
      | none => rw [hs] at hrun; cases hrun
      | some s1 =>
        rw [hs, Option.bind_some] at hrun
        rw [ih (fun o ho => hno o (List.mem_cons_of_mem _ ho)) hrun]
        rcases hno op List.mem_cons_self with rfl | ⟨i, x, rfl⟩
        · cases hs
          by_cases hc : s.currentBuffer = 0 <;> simp [clearProcessingBuffer, getOutputBuffer, Loop.block, hc]
        · simp only [step, write] at hs
          split_ifs at hs with hi
          cases hs
          by_cases hc : s.currentBuffer = 0 <;> simp [getProcessingBuffer, getOutputBuffer, Loop.block, hc]
  · rw [(C11_sides_differ s').2.1]
    generalize getProcessingBuffer s' = p
    cases p <;> rfl

/-- Two stores, a swap, a store, and the published block is the first two stores. -/
example : (run 2 [.store 0 (lit 1), .store 1 (lit 2), .swap, .store 0 (lit 7)] (init 2 (lit 48000 : F32))).map
    (fun s => (s.block (getOutputBuffer s), s.block (getProcessingBuffer s))) =
      some ([lit 1, lit 2], [lit 7, lit 0]) := by decide +kernel
example : ∀ op ∈ ([.store 0 (lit 1), .clear] : List (Op F32)), op = .clear ∨ ∃ i x, op = .store i x := by simp

end Verif.AudioLoop

namespace Verif.AudioCallbackHandler
variable {α : Type} [Arith α]

/-- **C11, the callback.** Whatever callbacks have been set, `process` runs the one set last, once, on the block it is given; when none
was ever set, or the last one set is null, it leaves the block and the world alone. -/
theorem C11_handler {ω : Type} (sr : α) (cbs : List (Option (List α → ω → List α × ω))) (buf : List α) (u : ω) :
    process (cbs.foldl (fun h cb => setCallback cb h) (init sr)) buf u =
      match cbs.getLast? with
      | some (some cb) => cb buf u
      | _ => (buf, u) := by
  rcases List.eq_nil_or_concat cbs with rfl | ⟨cbs, cb, rfl⟩
  · rfl
  · rw [List.concat_eq_append, List.foldl_append]
    simp only [List.foldl_cons, List.foldl_nil, List.getLast?_concat]
    cases cb <;> rfl

example : process (([none, some fun b (n : ℕ) => (b.map fun x => x + x, n + 1)] : List (Option (List F32 → ℕ → List F32 × ℕ))).foldl
    (fun h cb => setCallback cb h) (init (lit 48000))) [lit 1, lit 2] 5 = ([lit 2, lit 4], 6) := by decide +kernel

end Verif.AudioCallbackHandler
