import Verif.Model.Types

/-! # Lemmas about the block loops -/

namespace Verif
variable {σ β γ : Type}

theorem forEach_append (step : σ → β → σ × γ) (s : σ) (xs ys : List β) :
    forEach step s (xs ++ ys) =
      (let r1 := forEach step s xs
       let r2 := forEach step r1.1 ys
       (r2.1, r1.2 ++ r2.2)) := by
  induction xs generalizing s with
  | nil => simp [forEach]
  | cons x xs ih => simp [forEach, ih]

@[simp] theorem forEach_length (step : σ → β → σ × γ) (s : σ) (xs : List β) :
    (forEach step s xs).2.length = xs.length := by
  induction xs generalizing s with
  | nil => simp [forEach]
  | cons x xs ih => simp [forEach, ih]

/-- A loop whose body ignores the old cell contents is a sequence of ticks. -/
theorem forEach_eq_ticks (tick : σ → σ × γ) (s : σ) (xs : List β) :
    forEach (fun s _ => tick s) s xs = ticks tick xs.length s := by
  induction xs generalizing s with
  | nil => simp [forEach, ticks]
  | cons x xs ih => simp [forEach, ticks, ih]

/-- A loop that combines each cell with a tick. -/
theorem forEach_zip {δ : Type} (tick : σ → σ × γ) (op : β → γ → δ) (s : σ) (xs : List β) :
    forEach (fun s b => ((tick s).1, op b (tick s).2)) s xs =
      ((ticks tick xs.length s).1, List.zipWith op xs (ticks tick xs.length s).2) := by
  induction xs generalizing s with
  | nil => simp [forEach, ticks]
  | cons x xs ih => simp [forEach, ticks, ih]

/-- An invariant of the step is an invariant of the loop, and holds of every output. -/
theorem forEach_inv {step : σ → β → σ × γ} {I : σ → Prop} {P : β → γ → Prop}
    (h : ∀ s b, I s → I (step s b).1 ∧ P b (step s b).2) {s : σ} (hs : I s) (xs : List β) :
    I (forEach step s xs).1 ∧ List.Forall₂ P xs (forEach step s xs).2 := by
  induction xs generalizing s with
  | nil => exact ⟨hs, by simp [forEach]⟩
  | cons x xs ih =>
    have h1 := h s x hs
    have h2 := ih h1.1
    exact ⟨h2.1, .cons h1.2 h2.2⟩

theorem ticks_add (tick : σ → σ × γ) (n m : ℕ) (s : σ) :
    ticks tick (n + m) s =
      (let r1 := ticks tick n s
       let r2 := ticks tick m r1.1
       (r2.1, r1.2 ++ r2.2)) := by
  induction n generalizing s with
  | zero => simp [ticks]
  | succ n ih =>
    rw [Nat.add_right_comm]
    simp [ticks, ih]

theorem ticks_state (tick : σ → σ × γ) (n : ℕ) (s : σ) : (ticks tick n s).1 = tickState tick n s := by
  induction n generalizing s with
  | zero => rfl
  | succ n ih => simp [ticks, tickState, ih]

@[simp] theorem ticks_length (tick : σ → σ × γ) (n : ℕ) (s : σ) : (ticks tick n s).2.length = n := by
  induction n generalizing s with
  | zero => rfl
  | succ n ih => simp [ticks, ih]

theorem tickState_zero (tick : σ → σ × γ) (s : σ) : tickState tick 0 s = s := rfl

theorem tickState_succ (tick : σ → σ × γ) (n : ℕ) (s : σ) :
    tickState tick (n + 1) s = (tick (tickState tick n s)).1 := by
  simp [tickState, Function.iterate_succ_apply']

theorem tickState_succ' (tick : σ → σ × γ) (n : ℕ) (s : σ) :
    tickState tick (n + 1) s = tickState tick n (tick s).1 := by
  simp [tickState]

theorem tickState_add (tick : σ → σ × γ) (n m : ℕ) (s : σ) :
    tickState tick (n + m) s = tickState tick m (tickState tick n s) := by
  simp only [tickState, Nat.add_comm n m, Function.iterate_add_apply]

theorem ticks_get (tick : σ → σ × γ) (n : ℕ) (s : σ) (i : ℕ) (h : i < n) :
    (ticks tick n s).2[i]? = some (tickOut tick i s) := by
  induction n generalizing s i with
  | zero => omega
  | succ n ih =>
    cases i with
    | zero => rfl
    | succ i =>
      have := ih (tick s).1 i (by omega)
      simpa [ticks, tickOut, tickState_succ'] using this

theorem tickState_inv {tick : σ → σ × γ} {I : σ → Prop} (h : ∀ s, I s → I (tick s).1) {s : σ}
    (hs : I s) (n : ℕ) : I (tickState tick n s) := by
  induction n with
  | zero => exact hs
  | succ n ih => rw [tickState_succ]; exact h _ ih

end Verif
