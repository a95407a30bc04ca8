import Verif.Model.Envelopes
import Verif.Lemmas.RealArith
import Verif.Lemmas.Loops

/-!
# C91: how an ADSR envelope reports the end of a note, and what the done action does
-/

set_option linter.unusedSectionVars false

namespace Verif.EnvelopeADSR

section
variable {α : Type} [Arith α]

/-- Specification: the last value given to `gate` since `init` or `reset`, and whether a note was started since then, that is whether the
gate went from not positive to positive. -/
def noteStarted : α × Bool → Op α → α × Bool
  | _, .init _ => (lit 0, false)
  | _, .reset => (lit 0, false)
  | (g, b), .gate x => (x, b || (g <=. lit 0 && x >. lit 0))
  | p, _ => p

/-- Specification: all samples a list of calls returns or writes. -/
def played [Libm α] (s : Env α) : List (Op α) → List α
  | [] => []
  | op :: ops => (step s op).2 ++ played (step s op).1 ops

/-- Specification: the calls other than `setDoneAction`. -/
def Op.sounds : Op α → Bool
  | .setDoneAction _ => false
  | _ => true
end

section
variable {α : Type} [Arith α] [Libm α]

/-- What holds between the state of the envelope and the history. -/
def Tracks (s : Env α) (p : α × Bool) : Prop :=
  s.gateValue = p.1 ∧ s.done = (p.2 && !isActive s) ∧ (isActive s = true → p.2 = true)

theorem tracks_tick {s : Env α} {p : α × Bool} (h : Tracks s p) : Tracks (tick s).1 p := by
  obtain ⟨h1, h2, h3⟩ := h
  obtain ⟨v, ac, dc, rc, at', dt, sl, rt, sr, st, gv, da, dn⟩ := s
  simp only [isActive] at h1 h2 h3
  cases st
  · exact ⟨h1, by simpa [tick, isActive] using h2, by simp [tick, isActive]⟩
  all_goals
    simp only [ne_eq, reduceCtorEq, not_false_eq_true, decide_true, forall_const, Bool.not_true, Bool.and_false] at h2 h3
    subst h2
    simp only [Tracks, tick, isActive, h3]
    split_ifs <;> simp_all

theorem tracks_forEach {β γ : Type} {f : Env α → β → Env α × γ} (hf : ∀ s b, (f s b).1 = (tick s).1) (l : List β) : ∀ {s : Env α} {p : α × Bool},
    Tracks s p → Tracks (forEach f s l).1 p := by
  induction l with
  | nil => intro s p h; exact h
  | cons b l ih =>
    intro s p h
    simp only [forEach]
    exact ih (by rw [hf]; exact tracks_tick h)

theorem tracks_step {s : Env α} {p : α × Bool} (h : Tracks s p) (op : Op α) : Tracks (step s op).1 (noteStarted p op) := by
  cases op with
  | init sr => exact ⟨rfl, rfl, fun h => by simp [step, init, updateCoefficients, updateAttackCoefficient, updateDecayCoefficient, updateReleaseCoefficient, isActive] at h⟩
  | setAttack t => exact h
  | setDecay t => exact h
  | setSustain l => exact h
  | setRelease t => exact h
  | setDoneAction a => exact h
  | tick => exact tracks_tick h
  | process b => exact tracks_forEach (fun _ _ => rfl) b h
  | processMul b => exact tracks_forEach (f := fun (s : Env α) (b : α) => ((tick s).1, b * (tick s).2)) (fun _ _ => rfl) b h
  | reset => exact ⟨rfl, rfl, fun h => by simp [step, reset, isActive] at h⟩
  | gate x =>
    obtain ⟨g, b⟩ := p
    obtain ⟨h1, h2, h3⟩ := h
    obtain ⟨v, ac, dc, rc, at', dt, sl, rt, sr, st, gv, da, dn⟩ := s
    simp only [isActive] at h1 h2 h3
    subst h1
    simp only [Tracks, step, gate, isActive, noteStarted]
    by_cases c1 : (gv <=. lit 0 && x >. lit 0) = true
    · simp [c1]
    · by_cases c2 : (gv >. lit 0 && x <=. lit 0) = true
      · rw [if_neg c1, if_pos c2]
        rw [Bool.not_eq_true] at c1
        rw [c1]
        cases st <;> simp_all
      · rw [if_neg c1, if_neg c2]
        rw [Bool.not_eq_true] at c1
        rw [c1]
        simp_all

/-- **C91** (every number format): after any history of calls, `isDone` is true exactly when a note was started since the last `init` or
`reset` and the envelope has become inactive. In particular it is false on a fresh envelope, from the start of a note until the end of its
release, and again as soon as the next note starts. -/
theorem C91_done_iff (sr : α) (ops : List (Op α)) :
    isDone (run (init sr) ops) = ((ops.foldl noteStarted (lit 0, false)).2 && !isActive (run (init sr) ops)) := by
  have key : ∀ (ops : List (Op α)) (s : Env α) (p : α × Bool), Tracks s p → Tracks (run s ops) (ops.foldl noteStarted p) := by
    intro ops
    induction ops with
    | nil => intro s p h; exact h
    | cons op ops ih => intro s p h; exact ih _ _ (tracks_step h op)
  exact (key ops (init sr) (lit 0, false) (tracks_step (s := init sr) (p := (lit 0, false))
    ⟨rfl, rfl, fun h => by simp [init, updateCoefficients, updateAttackCoefficient, updateDecayCoefficient, updateReleaseCoefficient, isActive] at h⟩
    (.setDoneAction .none))).2.1

theorem tick_action (s : Env α) (a : DoneAction) : tick (setDoneAction a s) = (setDoneAction a (tick s).1, (tick s).2) := by
  obtain ⟨v, ac, dc, rc, at', dt, sl, rt, sr, st, gv, da, dn⟩ := s
  cases st <;> simp only [tick, setDoneAction]
  · by_cases c1 : (lit 1 - ac * (lit 1 - v) >=. lit 0.999) = true <;> by_cases c2 : (gv <=. lit 0) = true <;> simp [c1, c2]
  · by_cases c1 : (Arith.fabs (sl + dc * (v - sl) - sl) <. lit 0.001) = true <;> by_cases c2 : (gv <=. lit 0) = true <;> simp [c1, c2]
  · by_cases c2 : (gv <=. lit 0) = true <;> simp [c2]
  · by_cases c2 : (rc * v <=. lit 0.0001) = true <;> simp [c2]

theorem forEach_action {β γ : Type} {f : Env α → β → Env α × γ} (hf : ∀ s b a, f (setDoneAction a s) b = (setDoneAction a (f s b).1, (f s b).2))
    (l : List β) : ∀ (s : Env α) (a : DoneAction),
    forEach f (setDoneAction a s) l = (setDoneAction a (forEach f s l).1, (forEach f s l).2) := by
  induction l with
  | nil => intro s a; rfl
  | cons b l ih => intro s a; simp only [forEach, hf, ih]

theorem step_action (s : Env α) (a : DoneAction) (op : Op α) :
    (step (setDoneAction a s) op).2 = (step s op).2 ∧ ∃ b, (step (setDoneAction a s) op).1 = setDoneAction b (step s op).1 := by
  cases op with
  | init sr => exact ⟨rfl, .none, rfl⟩
  | setAttack t => exact ⟨rfl, a, rfl⟩
  | setDecay t => exact ⟨rfl, a, rfl⟩
  | setSustain l => exact ⟨rfl, a, rfl⟩
  | setRelease t => exact ⟨rfl, a, rfl⟩
  | setDoneAction b => exact ⟨rfl, b, rfl⟩
  | reset => exact ⟨rfl, a, rfl⟩
  | gate x => exact ⟨rfl, a, by
    simp only [step, gate, setDoneAction]
    by_cases c1 : (s.gateValue <=. lit 0 && x >. lit 0) = true <;> by_cases c2 : (s.gateValue >. lit 0 && x <=. lit 0) = true <;>
      simp only [c1, c2, if_true, if_false, Bool.false_eq_true]
    rfl⟩
  | tick =>
    have := tick_action s a
    exact ⟨by simp only [step, this], a, by simp only [step, this]⟩
  | process b =>
    have := forEach_action (f := fun (s : Env α) (_ : α) => tick s) (fun s _ a => tick_action s a) b s a
    exact ⟨(congrArg Prod.snd this :), a, (congrArg Prod.fst this :)⟩
  | processMul b =>
    have := forEach_action (f := fun (s : Env α) (b : α) => ((tick s).1, b * (tick s).2)) (fun s _ a => by simp only [tick_action s a]) b s a
    exact ⟨(congrArg Prod.snd this :), a, (congrArg Prod.fst this :)⟩

/-- **C91, negative** (every number format): the done action does nothing. Whatever actions are set, and whenever, the samples, `isDone` and
`isActive` are those of the same calls without any `setDoneAction`. -/
theorem C91_action_ignored (s : Env α) (ops : List (Op α)) :
    let rest := ops.filter Op.sounds
    played s ops = played s rest ∧ isDone (run s ops) = isDone (run s rest) ∧ isActive (run s ops) = isActive (run s rest) := by
  have key : ∀ (ops : List (Op α)) (s : Env α) (a : DoneAction), played (setDoneAction a s) ops = played s (ops.filter Op.sounds) ∧
      ∃ b, run (setDoneAction a s) ops = setDoneAction b (run s (ops.filter Op.sounds)) := by
    intro ops
    induction ops with
    | nil => intro s a; exact ⟨rfl, a, rfl⟩
    | cons op ops ih =>
      intro s a
      obtain ⟨h1, b, h2⟩ := step_action s a op
      by_cases hs : op.sounds = true
      · obtain ⟨i1, c, i2⟩ := ih (step s op).1 b
        rw [List.filter_cons_of_pos hs]
        refine ⟨?_, c, ?_⟩
        · simp only [played, h1, h2, i1]
        · show run (step (setDoneAction a s) op).1 ops = setDoneAction c (run (step s op).1 _)
          rw [h2, i2]
      · rw [List.filter_cons_of_neg hs]
        cases op with
        | setDoneAction b =>
          obtain ⟨i1, c, i2⟩ := ih s b
          exact ⟨by simp only [played]; exact i1, c, i2⟩
        | _ => exact absurd rfl hs
  obtain ⟨h1, b, h2⟩ := key ops s s.doneAction
  have e : setDoneAction s.doneAction s = s := rfl
  rw [e] at h1 h2
  exact ⟨h1, by rw [h2]; rfl, by rw [h2]; rfl⟩

end

/-- Concrete case (exact arithmetic): a note that is released before its first sample is done after one tick and not done any more when the
next one starts. -/
example : isDone (run (init 48000) [.setDoneAction .free, .gate 1, .gate 0] : Env ℝ) = false ∧
    isDone (run (init 48000) [.setDoneAction .free, .gate 1, .gate 0, .tick] : Env ℝ) = true ∧
    isDone (run (init 48000) [.setDoneAction .free, .gate 1, .gate 0, .tick, .gate 1] : Env ℝ) = false := by
  simp [run, step, init, updateCoefficients, updateAttackCoefficient, updateDecayCoefficient, updateReleaseCoefficient, gate, tick, isDone,
    setDoneAction, real_arith, show (0:ℝ) ≤ 1e-4 by norm_num]

end Verif.EnvelopeADSR
