import Verif.Model.CombC
import Mathlib.Data.Finset.Card
import Mathlib.Data.Finset.Insert
import Mathlib.Tactic.Tauto

/-!
# C50: ownership of the comb's delay line
-/

namespace Verif
open CombC

/-! ### Specification: the discipline under which ownership is safe -/

/-- Stages of a comb object as its user sees it. -/
inductive Stage where
  | absent
  /-- `CombC c;` – not initialised -/
  | raw
  /-- `CombC c{};` – not initialised, pointer null -/
  | zeroed
  | ready
deriving DecidableEq

/-- The safe discipline: every object is initialised exactly once before it is used, an object that was never initialised is
only destroyed if it was declared with `{}`, and objects are never copied. -/
def allowed (st : ℕ → Stage) : LifeOp → Option (ℕ → Stage)
  | .declare c => if st c = .absent then some (Function.update st c .raw) else none
  | .declareZero c => if st c = .absent then some (Function.update st c .zeroed) else none
  | .init c => if st c = .raw ∨ st c = .zeroed then some (Function.update st c .ready) else none
  | .use c => if st c = .ready then some st else none
  | .reset c => if st c = .ready ∨ st c = .zeroed then some st else none
  | .copy _ _ => none
  | .destroy c => if st c = .ready ∨ st c = .zeroed then some (Function.update st c .absent) else none

/-- A whole history follows the discipline and ends in the given stages. -/
def follows (ops : List LifeOp) : Option (ℕ → Stage) := ops.foldlM allowed (fun _ => .absent)

/-! ### Proof -/

namespace CombC

/-- The heap agrees with the stages: initialised combs own pairwise different live blocks and nothing else is live. -/
structure Agree (h : Life) (st : ℕ → Stage) : Prop where
  absent : ∀ c, st c = .absent ↔ h.comb c = none
  raw : ∀ c, st c = .raw ↔ h.comb c = some .indeterminate
  zeroed : ∀ c, st c = .zeroed ↔ h.comb c = some .null
  inj : ∀ c d k, h.comb c = some (.block k) → h.comb d = some (.block k) → c = d
  live : ∀ k, k ∈ h.live ↔ ∃ c, h.comb c = some (.block k)
  fresh : ∀ c k, h.comb c = some (.block k) → k < h.next

theorem Agree.ready {h : Life} {st : ℕ → Stage} (a : Agree h st) (c : ℕ) :
    st c = .ready ↔ ∃ k, h.comb c = some (.block k) := by
  have h1 := a.absent c
  have h2 := a.raw c
  have h3 := a.zeroed c
  cases hs : st c <;> cases hc : h.comb c with
  | none => simp_all
  | some p => cases p <;> simp_all

theorem step_agree {h : Life} {st st' : ℕ → Stage} (a : Agree h st) (op : LifeOp) (ho : allowed st op = some st') :
    ∃ h', h.step op = some h' ∧ Agree h' st' := by
  cases op with
  | declare c =>
    simp only [allowed] at ho
    split_ifs at ho with h0
    cases ho
    have hc := (a.absent c).1 h0
    refine ⟨_, if_pos hc, ?_⟩
    constructor
    · intro d; by_cases e : d = c
      · subst e; simp
      · simp [Function.update_of_ne e, a.absent d]
    · intro d; by_cases e : d = c
      · subst e; simp
      · simp [Function.update_of_ne e, a.raw d]
    · intro d; by_cases e : d = c
      · subst e; simp
      · simp [Function.update_of_ne e, a.zeroed d]
    · intro d e k hd he
      simp only [Function.update_apply] at hd he
      split_ifs at hd he <;> first | exact a.inj d e k hd he | simp_all
    · intro k
      rw [a.live k]
      constructor
      · rintro ⟨d, hd⟩
        refine ⟨d, ?_⟩
        have : d ≠ c := by rintro rfl; simp_all
        simpa [Function.update_of_ne this] using hd
      · rintro ⟨d, hd⟩
        simp only [Function.update_apply] at hd
        split_ifs at hd
        · simp at hd
        · exact ⟨d, hd⟩
    · intro d k hd
      simp only [Function.update_apply] at hd
      split_ifs at hd
      · simp at hd
      · exact a.fresh d k hd
  | declareZero c =>
    simp only [allowed] at ho
    split_ifs at ho with h0
    cases ho
    have hc := (a.absent c).1 h0
    refine ⟨_, if_pos hc, ?_⟩
    constructor
    · intro d; by_cases e : d = c
      · subst e; simp
      · simp [Function.update_of_ne e, a.absent d]
    · intro d; by_cases e : d = c
      · subst e; simp
      · simp [Function.update_of_ne e, a.raw d]
    · intro d; by_cases e : d = c
      · subst e; simp
      · simp [Function.update_of_ne e, a.zeroed d]
    · intro d e k hd he
      simp only [Function.update_apply] at hd he
      split_ifs at hd he <;> first | exact a.inj d e k hd he | simp_all
    · intro k
      rw [a.live k]
      constructor
      · rintro ⟨d, hd⟩
        refine ⟨d, ?_⟩
        have : d ≠ c := by rintro rfl; simp_all
        simpa [Function.update_of_ne this] using hd
      · rintro ⟨d, hd⟩
        simp only [Function.update_apply] at hd
        split_ifs at hd
        · simp at hd
        · exact ⟨d, hd⟩
    · intro d k hd
      simp only [Function.update_apply] at hd
      split_ifs at hd
      · simp at hd
      · exact a.fresh d k hd
  | init c =>
    simp only [allowed] at ho
    split_ifs at ho with h0
    cases ho
    have hne : ¬ h.comb c = none := by
      rw [← a.absent c]; rcases h0 with h0 | h0 <;> simp [h0]
    have hnb : ∀ k, h.comb c ≠ some (.block k) := by
      intro k hk
      have := (a.ready c).2 ⟨k, hk⟩
      rcases h0 with h0 | h0 <;> simp [h0] at this
    refine ⟨_, if_neg hne, ?_⟩
    constructor
    · intro d; by_cases e : d = c
      · subst e; simp
      · simp [Function.update_of_ne e, a.absent d]
    · intro d; by_cases e : d = c
      · subst e; simp
      · simp [Function.update_of_ne e, a.raw d]
    · intro d; by_cases e : d = c
      · subst e; simp
      · simp [Function.update_of_ne e, a.zeroed d]
    · intro d e k hd he
      simp only [Function.update_apply] at hd he
      split_ifs at hd he with h1 h2 h2
      · rw [h1, h2]
      · have := a.fresh e k he; simp at hd; omega
      · have := a.fresh d k hd; simp at he; omega
      · exact a.inj d e k hd he
    · intro k
      simp only [Finset.mem_insert, a.live k]
      constructor
      · rintro (rfl | ⟨d, hd⟩)
        · exact ⟨c, by simp⟩
        · refine ⟨d, ?_⟩
          have : d ≠ c := by rintro rfl; exact hnb k hd
          simpa [Function.update_of_ne this] using hd
      · rintro ⟨d, hd⟩
        simp only [Function.update_apply] at hd
        split_ifs at hd
        · left; simpa using hd.symm
        · exact Or.inr ⟨d, hd⟩
    · intro d k hd
      simp only [Function.update_apply] at hd
      split_ifs at hd
      · simp at hd; show k < h.next + 1; omega
      · exact lt_trans (a.fresh d k hd) (Nat.lt_succ_self _)
  | use c =>
    simp only [allowed] at ho
    split_ifs at ho with h0
    cases ho
    obtain ⟨k, hk⟩ := (a.ready c).1 h0
    exact ⟨h, by simp only [Life.step, hk]; exact if_pos ((a.live k).2 ⟨c, hk⟩), a⟩
  | reset c =>
    simp only [allowed] at ho
    split_ifs at ho with h0
    cases ho
    rcases h0 with h0 | h0
    · obtain ⟨k, hk⟩ := (a.ready c).1 h0
      exact ⟨h, by simp only [Life.step, hk]; exact if_pos ((a.live k).2 ⟨c, hk⟩), a⟩
    · exact ⟨h, by simp only [Life.step, (a.zeroed c).1 h0], a⟩
  | copy c d => cases ho
  | destroy c =>
    simp only [allowed] at ho
    split_ifs at ho with h0
    cases ho
    have base : ∀ d, (Function.update st c Stage.absent d = .absent ↔ Function.update h.comb c none d = none) ∧
        (Function.update st c Stage.absent d = .raw ↔ Function.update h.comb c none d = some .indeterminate) ∧
        (Function.update st c Stage.absent d = .zeroed ↔ Function.update h.comb c none d = some .null) := by
      intro d; by_cases e : d = c
      · subst e; simp
      · simp [Function.update_of_ne e, a.absent d, a.raw d, a.zeroed d]
    have binj : ∀ d e k, Function.update h.comb c none d = some (.block k) →
        Function.update h.comb c none e = some (.block k) → d = e := by
      intro d e k hd he
      simp only [Function.update_apply] at hd he
      split_ifs at hd he
      exact a.inj d e k hd he
    have bfresh : ∀ d k, Function.update h.comb c none d = some (.block k) → k < h.next := by
      intro d k hd
      simp only [Function.update_apply] at hd
      split_ifs at hd
      exact a.fresh d k hd
    rcases h0 with h0 | h0
    · obtain ⟨k, hk⟩ := (a.ready c).1 h0
      refine ⟨{ h with live := h.live.erase k, comb := Function.update h.comb c none }, ?_, ?_⟩
      · simp only [Life.step, hk]; exact if_pos ((a.live k).2 ⟨c, hk⟩)
      · refine ⟨fun d => (base d).1, fun d => (base d).2.1, fun d => (base d).2.2, binj, ?_, bfresh⟩
        intro j
        simp only [Finset.mem_erase, a.live j]
        constructor
        · rintro ⟨hj, d, hd⟩
          refine ⟨d, ?_⟩
          have : d ≠ c := by rintro rfl; rw [hk] at hd; simp at hd; exact hj hd.symm
          simpa [Function.update_of_ne this] using hd
        · rintro ⟨d, hd⟩
          simp only [Function.update_apply] at hd
          split_ifs at hd with e
          refine ⟨?_, d, hd⟩
          rintro rfl
          exact e (a.inj d c j hd hk)
    · have hk := (a.zeroed c).1 h0
      refine ⟨{ h with comb := Function.update h.comb c none }, by simp only [Life.step, hk], ?_⟩
      refine ⟨fun d => (base d).1, fun d => (base d).2.1, fun d => (base d).2.2, binj, ?_, bfresh⟩
      intro j
      simp only [a.live j]
      constructor
      · rintro ⟨d, hd⟩
        refine ⟨d, ?_⟩
        have : d ≠ c := by rintro rfl; rw [hk] at hd; simp at hd
        simpa [Function.update_of_ne this] using hd
      · rintro ⟨d, hd⟩
        simp only [Function.update_apply] at hd
        split_ifs at hd with e
        exact ⟨d, hd⟩

theorem run_agree : ∀ (ops : List LifeOp) {h : Life} {st st' : ℕ → Stage}, Agree h st → ops.foldlM allowed st = some st' →
    ∃ h', h.run ops = some h' ∧ Agree h' st' := by
  intro ops
  induction ops with
  | nil => intro h st st' a e; cases e; exact ⟨h, rfl, a⟩
  | cons op ops ih =>
    intro h st st' a e
    simp only [List.foldlM_cons, Option.bind_eq_bind, Option.bind_eq_some_iff] at e
    obtain ⟨s1, e1, e2⟩ := e
    obtain ⟨h1, e3, a1⟩ := step_agree a op e1
    obtain ⟨h2, e4, a2⟩ := ih a1 e2
    exact ⟨h2, by simp only [Life.run, List.foldlM_cons, e3]; exact e4, a2⟩

theorem start_agree : Agree Life.start (fun _ => .absent) := by
  constructor <;> simp [Life.start]

end CombC

/-- **C50** (partial: the property also covers repeated `init`, destruction without `init` and copies, which are unsafe – see
the negations). Every history in which each comb is initialised exactly once before use or destruction and never copied runs
without touching or freeing foreign memory; distinct combs never share a delay line; and once all combs are gone nothing is
leaked. -/
theorem C50_ownership_partial (ops : List LifeOp) (st : ℕ → Stage) (h : follows ops = some st) :
    ∃ w, Life.start.run ops = some w ∧
      (∀ c d k, w.comb c = some (.block k) → w.comb d = some (.block k) → c = d) ∧
      (∀ k, k ∈ w.live ↔ ∃ c, st c = .ready ∧ w.comb c = some (.block k)) ∧
      ((∀ c, st c = .absent) → w.live = ∅) := by
  obtain ⟨w, h1, a⟩ := CombC.run_agree ops CombC.start_agree h
  have hl : ∀ k, k ∈ w.live ↔ ∃ c, st c = .ready ∧ w.comb c = some (.block k) := by
    intro k
    rw [a.live k]
    constructor
    · rintro ⟨c, hc⟩; exact ⟨c, (a.ready c).2 ⟨k, hc⟩, hc⟩
    · rintro ⟨c, _, hc⟩; exact ⟨c, hc⟩
  refine ⟨w, h1, a.inj, hl, ?_⟩
  intro h0
  ext k
  simp only [Finset.notMem_empty, iff_false]
  intro hk
  obtain ⟨c, hc, -⟩ := (hl k).1 hk
  rw [h0 c] at hc
  cases hc

/-- Two combs with interleaved lifetimes, and one declared with `{}` that is never initialised. -/
example : ((follows [.declare 0, .init 0, .declareZero 1, .use 0, .init 1, .use 1, .declareZero 2, .destroy 0, .reset 1, .destroy 2,
    .destroy 1]).map fun st => (st 0, st 1, st 2)) = some (.absent, .absent, .absent) := by decide

/-- **C50 negation**: a comb that is declared and goes out of scope without `init` frees an indeterminate pointer. -/
theorem C50_destroy_without_init (h : Life) (c : ℕ) : h.run [.declare c, .destroy c] = none := by
  by_cases hc : h.comb c = none <;> simp [Life.run, Life.step, hc]

/-- **C50 negation**: calling `init` twice leaks the first delay line: after the comb is destroyed a block is still live although no
comb exists. -/
theorem C50_reinit_leaks : ∃ w, Life.start.run [.declare 0, .init 0, .init 0, .destroy 0] = some w ∧
    w.live = {0} ∧ w.comb 0 = none := by
  refine ⟨_, rfl, ?_, ?_⟩
  · decide
  · simp

/-- **C50 negation**: in general, `n + 1` calls of `init` on one comb leave `n` blocks that no comb refers to. -/
theorem C50_reinit_leaks_all (n : ℕ) : ∃ w, Life.start.run (.declare 0 :: List.replicate (n + 1) (.init 0) ++ [.destroy 0]) = some w ∧
    w.live.card = n ∧ ∀ c, w.comb c = none := by
  have key : ∀ (m : ℕ) (h : Life), (∀ k ∈ h.live, k < h.next) → h.comb 0 ≠ none → (∀ c, c ≠ 0 → h.comb c = none) →
      ∃ w, h.run (List.replicate (m + 1) (.init 0) ++ [.destroy 0]) = some w ∧ w.live.card = h.live.card + m ∧ ∀ c, w.comb c = none := by
    intro m
    induction m with
    | zero =>
      intro h hl h0 hc
      have hn : h.next ∉ h.live := fun hk => lt_irrefl _ (hl _ hk)
      refine ⟨{ next := h.next + 1, live := h.live, comb := fun _ => none }, ?_, rfl, fun _ => rfl⟩
      simp [Life.run, Life.step, h0, Finset.erase_insert hn]
      funext c
      by_cases e : c = 0
      · subst e; simp
      · simp [Function.update_of_ne e, hc c e]
    | succ m ih =>
      intro h hl h0 hc
      have hn : h.next ∉ h.live := fun hk => lt_irrefl _ (hl _ hk)
      obtain ⟨w, h1, h2, h3⟩ := ih
        { next := h.next + 1, live := insert h.next h.live, comb := Function.update h.comb 0 (some (.block h.next)) }
        (by
          intro k hk
          simp only [Finset.mem_insert] at hk
          rcases hk with rfl | hk
          · exact Nat.lt_succ_self _
          · exact lt_trans (hl k hk) (Nat.lt_succ_self _))
        (by simp) (by intro c e; simp [Function.update_of_ne e, hc c e])
      refine ⟨w, ?_, ?_, h3⟩
      · rw [List.replicate_succ]
        simp only [List.cons_append, Life.run, List.foldlM_cons, Life.step, if_neg h0]
        exact h1
      · rw [h2, Finset.card_insert_of_notMem hn]; omega
  obtain ⟨w, h1, h2, h3⟩ := key n ⟨0, ∅, Function.update (fun _ => none) 0 (some .indeterminate)⟩ (by simp) (by simp)
    (by intro c e; simp [Function.update_of_ne e])
  refine ⟨w, ?_, by simpa using h2, h3⟩
  simp only [List.cons_append, Life.run, List.foldlM_cons, Life.step, Life.start]
  exact h1

/-- **C50 negation**: copying a comb and letting both go out of scope frees the delay line twice. -/
theorem C50_copy_double_free : Life.start.run [.declare 0, .init 0, .copy 0 1, .destroy 0] ≠ none ∧
    Life.start.run [.declare 0, .init 0, .copy 0 1, .destroy 0, .destroy 1] = none := by
  constructor
  · intro h
    have : ((Life.start.run [.declare 0, .init 0, .copy 0 1, .destroy 0]).isSome) = true := by decide
    rw [h] at this; cases this
  · have : ((Life.start.run [.declare 0, .init 0, .copy 0 1, .destroy 0, .destroy 1]).isNone) = true := by decide
    simpa using this

end Verif
