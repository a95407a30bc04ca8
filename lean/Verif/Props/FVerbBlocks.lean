import Verif.Props.FVerbProgram

/-!
# C17, C57 for the reverb: block splitting and reset
-/

namespace Verif.FVerb
open FVerbDSP

variable {α : Type} [Arith α] [Libm α]

/-! ### Specification -/

/-- The same call, possibly with other samples in the block. -/
def SameButAudio : Call α → Call α → Prop
  | .process c xs, .process d ys => c = d ∧ (xs = [] ↔ ys = [])
  | .process _ _, _ => False
  | _, .process _ _ => False
  | p, q => p = q

/-- A call on the existing reverb `c` only. -/
def OnlyOn (c : ℕ) : Call α → Prop
  | .process d _ => d = c
  | .set d _ _ => d = c
  | .reset d => d = c
  | _ => False

/-! ### Proof -/

theorem loop_append {L : Type} (I : LineImpl L α) (k : Consts α) (sl : Slow α) (xs ys : List (Stereo α)) :
    ∀ s, loop I k sl s (xs ++ ys) = (loop I k sl s xs).bind fun (s, us) => (loop I k sl s ys).map fun (s, vs) => (s, us ++ vs) := by
  induction xs with
  | nil => intro s; simp [loop]
  | cons x xs ih =>
    intro s
    simp only [List.cons_append, loop]
    cases step I k sl s x with
    | none => rfl
    | some r =>
      simp only [Option.bind_some, ih]
      cases loop I k sl r.1 xs with
      | none => rfl
      | some r' =>
        simp only [Option.bind_some, Option.map_some]
        cases loop I k sl r'.1 ys <;> rfl

theorem specRun_append (ps qs : List (Call α)) : ∀ u : ℕ → Option (Unit' α),
    specRun u (ps ++ qs) = (specRun u ps).bind fun (v, a) => (specRun v qs).map fun (w, b) => (w, a ++ b) := by
  induction ps with
  | nil => intro u; simp [specRun]
  | cons p ps ih =>
    intro u
    simp only [List.cons_append, specRun]
    cases specStep u p with
    | none => rfl
    | some r =>
      simp only [Option.bind_some, ih]
      cases specRun r.1 ps with
      | none => rfl
      | some r' =>
        simp only [Option.bind_some, Option.map_some]
        cases specRun r'.1 qs <;> rfl

theorem specRun_length (qs : List (Call α)) : ∀ {u v : ℕ → Option (Unit' α)} {outs : List (List (Stereo α))},
    specRun u qs = some (v, outs) → outs.length = qs.length := by
  induction qs with
  | nil => intro u v outs h; cases h; rfl
  | cons q qs ih =>
    intro u v outs h
    simp only [specRun, Option.bind_eq_some_iff, Option.map_eq_some_iff, Prod.exists, Prod.mk.injEq] at h
    obtain ⟨u1, ys, -, u2, zs, h2, -, rfl⟩ := h
    simp [ih h2]

theorem spec_split {u v : ℕ → Option (Unit' α)} {c : ℕ} {xs ys out : List (Stereo α)} (hx : xs ≠ [])
    (h : specStep u (.process c (xs ++ ys)) = some (v, out)) :
    ∃ v1 o1 o2, specStep u (.process c xs) = some (v1, o1) ∧ specStep v1 (.process c ys) = some (v, o2) ∧ out = o1 ++ o2 ∧
      o1.length = xs.length := by
  simp only [specStep, Option.bind_eq_some_iff] at h
  obtain ⟨r, hr, h⟩ := h
  cases hd : r.dsp with
  | none =>
    rw [hd] at h
    cases h
    exact ⟨u, xs, ys, by simp [specStep, hr, hd], by simp [specStep, hr, hd], rfl, rfl⟩
  | some D =>
    rw [hd] at h
    dsimp only at h
    split_ifs at h with hg
    push Not at hg
    rw [List.length_append] at hg
    simp only [compute, loop_append, Option.map_eq_some_iff, Prod.exists, Prod.mk.injEq, Option.bind_eq_some_iff] at h
    obtain ⟨S, zs, ⟨s1, us, e1, s2, vs, e2, hs, rfl⟩, rfl, rfl⟩ := h
    subst hs
    refine ⟨Function.update u c (some ⟨some { D with state := s1 }, true⟩), us, vs, ?_, ?_, rfl, loop_length _ _ _ _ _ _ _ e1⟩
    · simp only [specStep, hr, Option.bind_some, hd]
      rw [if_neg (by push Not; exact ⟨by omega, fun h => absurd h hx⟩)]
      simp only [compute, e1, Option.map_some]
    · simp only [specStep, Function.update_self, Option.bind_some]
      rw [if_neg (by push Not; exact ⟨by omega, fun _ => by simp⟩)]
      simp only [compute, e2, Option.map_some, Function.update_idem]

/-- The two programs have the same reverbs in the same configuration. -/
def Twin (u v : ℕ → Option (Unit' α)) : Prop :=
  ∀ c, OptRel (fun r t => r.warm = t.warm ∧ OptRel (fun D E => D.consts = E.consts ∧ D.params = E.params) r.dsp t.dsp) (u c) (v c)

theorem twin_step {u v u' v' : ℕ → Option (Unit' α)} {p q : Call α} {xs ys : List (Stereo α)} (T : Twin u v) (h : SameButAudio p q)
    (hu : specStep u p = some (u', xs)) (hv : specStep v q = some (v', ys)) : Twin u' v' := by
  have upd : ∀ (c : ℕ) {r t : Option (Unit' α)},
      OptRel (fun r t => r.warm = t.warm ∧ OptRel (fun D E => D.consts = E.consts ∧ D.params = E.params) r.dsp t.dsp) r t →
      Twin (Function.update u c r) (Function.update v c t) := by
    intro c r t H d
    by_cases e : d = c
    · subst e; simpa only [Function.update_self] using H
    · simpa only [Function.update_of_ne e] using T d
  have get : ∀ {c : ℕ} {r t : Unit' α}, u c = some r → v c = some t →
      r.warm = t.warm ∧ OptRel (fun D E => D.consts = E.consts ∧ D.params = E.params) r.dsp t.dsp := by
    intro c r t h1 h2
    have := T c
    rw [h1, h2] at this
    exact this
  by_cases hp : ∃ c zs, p = .process c zs
  · obtain ⟨c, zs, rfl⟩ := hp
    cases q with
    | process d ws =>
      obtain ⟨rfl, he⟩ := h
      simp only [specStep, Option.bind_eq_some_iff] at hu hv
      obtain ⟨r, hr, hu⟩ := hu
      obtain ⟨t, ht, hv⟩ := hv
      obtain ⟨g1, g2⟩ := get hr ht
      cases hd : r.dsp with
      | none =>
        cases hd' : t.dsp with
        | none =>
          rw [hd] at hu; rw [hd'] at hv
          cases hu; cases hv
          exact T
        | some E => rw [hd, hd'] at g2; exact g2.elim
      | some D =>
        cases hd' : t.dsp with
        | none => rw [hd, hd'] at g2; exact g2.elim
        | some E =>
          rw [hd] at hu; rw [hd'] at hv
          dsimp only at hu hv
          split_ifs at hu hv
          simp only [Option.map_eq_some_iff, Prod.exists, Prod.mk.injEq] at hu hv
          obtain ⟨S, _, -, rfl, -⟩ := hu
          obtain ⟨S', _, -, rfl, -⟩ := hv
          rw [hd, hd'] at g2
          exact upd c ⟨rfl, g2⟩
    | _ => exact h.elim
  · have e : p = q := by
      cases p <;> cases q <;> first | exact h | exact h.elim | exact absurd ⟨_, _, rfl⟩ hp
    subst e
    cases p with
    | process c zs => exact absurd ⟨_, _, rfl⟩ hp
    | declare c =>
      simp only [specStep] at hu hv
      split_ifs at hu hv
      cases hu; cases hv
      exact upd c ⟨rfl, trivial⟩
    | init c sr =>
      simp only [specStep, Option.bind_eq_some_iff, Option.map_eq_some_iff, Prod.mk.injEq] at hu hv
      obtain ⟨r, hr, D, hD, rfl, -⟩ := hu
      obtain ⟨t, ht, E, hE, rfl, -⟩ := hv
      rw [hD] at hE
      cases hE
      exact upd c ⟨(get hr ht).1, rfl, rfl⟩
    | set c w x =>
      simp only [specStep, Option.map_eq_some_iff, Prod.mk.injEq] at hu hv
      obtain ⟨r, hr, rfl, -⟩ := hu
      obtain ⟨t, ht, rfl, -⟩ := hv
      obtain ⟨g1, g2⟩ := get hr ht
      exact upd c ⟨g1, g2.map fun D E h => ⟨h.1, by dsimp only; rw [h.2]⟩⟩
    | reset c =>
      simp only [specStep, Option.map_eq_some_iff, Prod.mk.injEq] at hu hv
      obtain ⟨r, hr, rfl, -⟩ := hu
      obtain ⟨t, ht, rfl, -⟩ := hv
      obtain ⟨g1, g2⟩ := get hr ht
      exact upd c ⟨g1, g2.map fun D E h => h⟩
    | copy c d => cases hu
    | destroy c =>
      simp only [specStep, Option.map_eq_some_iff, Prod.mk.injEq] at hu hv
      obtain ⟨r, hr, rfl, -⟩ := hu
      obtain ⟨t, ht, rfl, -⟩ := hv
      exact upd c trivial

theorem twin_run {ps qs : List (Call α)} (h : List.Forall₂ SameButAudio ps qs) : ∀ {u v u' v' : ℕ → Option (Unit' α)}
    {xs ys : List (List (Stereo α))}, Twin u v → specRun u ps = some (u', xs) → specRun v qs = some (v', ys) → Twin u' v' := by
  induction h with
  | nil => intro u v u' v' xs ys T hu hv; cases hu; cases hv; exact T
  | cons hpq _ ih =>
    intro u v u' v' xs ys T hu hv
    simp only [specRun, Option.bind_eq_some_iff, Option.map_eq_some_iff, Prod.exists, Prod.mk.injEq] at hu hv
    obtain ⟨u1, _, h1, _, _, h2, rfl, -⟩ := hu
    obtain ⟨v1, _, h3, _, _, h4, rfl, -⟩ := hv
    exact ih (twin_step T hpq h1 h3) h2 h4

theorem only_step {u v : ℕ → Option (Unit' α)} {c : ℕ} (e : u c = v c) {q : Call α} (hq : OnlyOn c q) :
    OptRel (fun a b => a.1 c = b.1 c ∧ a.2 = b.2) (specStep u q) (specStep v q) := by
  cases q with
  | process d xs =>
    obtain rfl : d = c := hq
    simp only [specStep, ← e]
    cases hu : u d with
    | none => trivial
    | some r =>
      simp only [Option.bind_some]
      cases r.dsp with
      | none => exact ⟨e, rfl⟩
      | some D =>
        dsimp only
        split_ifs
        · trivial
        · cases compute arrays D.consts D.params D.state xs with
          | none => trivial
          | some s => exact ⟨by simp only [Function.update_self], rfl⟩
  | set d w x =>
    obtain rfl : d = c := hq
    simp only [specStep, ← e]
    cases u d with
    | none => trivial
    | some r => exact ⟨by simp only [Function.update_self], rfl⟩
  | reset d =>
    obtain rfl : d = c := hq
    simp only [specStep, ← e]
    cases u d with
    | none => trivial
    | some r => exact ⟨by simp only [Function.update_self], rfl⟩
  | _ => exact hq.elim

theorem only_run (qs : List (Call α)) {c : ℕ} (hq : ∀ q ∈ qs, OnlyOn c q) : ∀ {u v : ℕ → Option (Unit' α)}, u c = v c →
    (specRun u qs).map Prod.snd = (specRun v qs).map Prod.snd := by
  induction qs with
  | nil => intro u v _; rfl
  | cons q qs ih =>
    intro u v e
    simp only [List.mem_cons, forall_eq_or_imp] at hq
    have h := only_step e hq.1
    simp only [specRun]
    cases hu : specStep u q with
    | none =>
      cases hv : specStep v q with
      | none => rfl
      | some b => rw [hu, hv] at h; exact h.elim
    | some a =>
      cases hv : specStep v q with
      | none => rw [hu, hv] at h; exact h.elim
      | some b =>
        rw [hu, hv] at h
        obtain ⟨h1, h2⟩ := h
        have := ih hq.2 h1
        simp only [Option.bind_some, Option.map_map, h2]
        cases ha : specRun a.1 qs <;> cases hb : specRun b.1 qs <;> rw [ha, hb] at this <;> simp_all

/-! ### Theorems -/

/-- **C17** for the reverb, in every arithmetic and inside any program: processing a block at once or as two blocks makes no difference to
this output, to any later output, or to whether the program is defined. (The first part must not be empty: `C49_empty_block`.) -/
theorem C17_reverb (pre post : List (Call α)) (c : ℕ) (xs ys : List (Stereo α)) (hx : xs ≠ [])
    (hc : NoCopy (pre ++ .process c (xs ++ ys) :: post)) (w : World α) (outs : List (List (Stereo α)))
    (h : World.start.run (pre ++ .process c (xs ++ ys) :: post) = some (w, outs)) :
    ∃ w' a o1 o2 b, World.start.run (pre ++ .process c xs :: .process c ys :: post) = some (w', a ++ o1 :: o2 :: b) ∧
      outs = a ++ (o1 ++ o2) :: b ∧ a.length = pre.length ∧ o1.length = xs.length := by
  have e := C49_exact _ hc
  rw [h] at e
  cases hs : specRun (fun _ => none) (pre ++ .process c (xs ++ ys) :: post) with
  | none => rw [hs] at e; cases e
  | some r =>
    obtain ⟨u, outs'⟩ := r
    rw [hs] at e
    cases e
    simp only [specRun_append, specRun, Option.bind_eq_some_iff, Option.map_eq_some_iff, Prod.exists, Prod.mk.injEq] at hs
    obtain ⟨u1, a, h1, u3, t, ⟨u2, o, h2, u4, b, h3, e1, e2⟩, -, hout⟩ := hs
    obtain ⟨v, o1, o2, s1, s2, ho, hl⟩ := spec_split hx h2
    have hspec : specRun (fun _ => none) (pre ++ .process c xs :: .process c ys :: post) = some (u4, a ++ o1 :: o2 :: b) := by
      rw [specRun_append, h1]
      simp only [Option.bind_some, specRun, s1, s2, h3, Option.map_some]
    obtain ⟨w', ew, -⟩ := C49_refines_partial _ _ _ hspec
    exact ⟨w', a, o1, o2, b, ew, by rw [← hout, ← e2, ho], specRun_length _ h1, hl⟩

/-- **C57** for the reverb, in every arithmetic: `reset` forgets the signal. Two programs that differ only in the samples they process before
a reset of reverb `c` (with setter calls, re-initialisations, other reverbs in any order) give the same outputs for all further calls on
`c`. -/
theorem C57_reverb (pre pre' post : List (Call α)) (c : ℕ) (hp : List.Forall₂ SameButAudio pre pre') (hq : ∀ q ∈ post, OnlyOn c q)
    (hc : NoCopy (pre ++ .reset c :: post)) (w w' : World α) (outs outs' : List (List (Stereo α)))
    (h : World.start.run (pre ++ .reset c :: post) = some (w, outs)) (h' : World.start.run (pre' ++ .reset c :: post) = some (w', outs')) :
    outs.drop pre.length = outs'.drop pre.length := by
  have hc' : NoCopy (pre' ++ .reset c :: post) := by
    intro a b hm
    rw [List.mem_append] at hm
    rcases hm with hm | hm
    · obtain ⟨i, hi, hget⟩ := List.getElem_of_mem hm
      have hi' : i < pre.length := by rw [hp.length_eq]; exact hi
      have := hp.get hi' hi
      simp only [List.get_eq_getElem] at this
      rw [hget] at this
      have hcopy : pre[i] = .copy a b := by
        cases hpi : pre[i] <;> rw [hpi] at this <;> first | exact this | exact this.elim
      exact hc a b (List.mem_append_left _ (hcopy ▸ List.getElem_mem hi'))
    · exact hc a b (List.mem_append_right _ hm)
  have e := C49_exact _ hc
  have e' := C49_exact _ hc'
  rw [h] at e
  rw [h'] at e'
  cases hs : specRun (fun _ => none) (pre ++ .reset c :: post) with
  | none => rw [hs] at e; cases e
  | some r =>
    cases hs' : specRun (fun _ => none) (pre' ++ .reset c :: post) with
    | none => rw [hs'] at e'; cases e'
    | some r' =>
      obtain ⟨u, o⟩ := r
      obtain ⟨v, o'⟩ := r'
      rw [hs] at e
      rw [hs'] at e'
      cases e; cases e'
      simp only [specRun_append, specRun, Option.bind_eq_some_iff, Option.map_eq_some_iff, Prod.exists, Prod.mk.injEq] at hs hs'
      obtain ⟨u1, a, h1, u3, t, ⟨u2, z, h2, u4, b, h3, e1, rfl⟩, -, rfl⟩ := hs
      obtain ⟨v1, a', g1, v3, t', ⟨v2, z', g2, v4, b', g3, e1', rfl⟩, -, rfl⟩ := hs'
      have T := twin_run hp (u := fun _ => none) (v := fun _ => none) (fun _ => trivial) h1 g1
      have hz : u2 c = v2 c ∧ z = z' := by
        simp only [specStep, Option.map_eq_some_iff, Prod.mk.injEq] at h2 g2
        obtain ⟨r, hr, rfl, rfl⟩ := h2
        obtain ⟨t, ht, rfl, rfl⟩ := g2
        have := T c
        rw [hr, ht] at this
        obtain ⟨hw, hd⟩ := this
        refine ⟨?_, rfl⟩
        simp only [Function.update_self]
        rw [hw]
        congr 2
        revert hd
        cases r.dsp <;> cases t.dsp <;> intro hd
        · rfl
        · exact hd.elim
        · exact hd.elim
        · simp only [Option.map_some]
          rw [hd.1, hd.2]
      have hb : b = b' := by
        have := only_run post hq hz.1
        rw [h3, g3] at this
        cases this
        rfl
      have l1 := specRun_length _ h1
      have l2 := specRun_length _ g1
      rw [← hp.length_eq] at l2
      rw [List.drop_left' l1, List.drop_left' l2, hz.2, hb]

/-- Two programs that differ in the samples before a reset. -/
example (x y z sr : α) : List.Forall₂ SameButAudio [.declare 0, .init 0 sr, .process 0 [⟨x, y⟩], .set 0 .decay z]
    [.declare 0, .init 0 sr, .process 0 [⟨y, x⟩, ⟨x, z⟩], .set 0 .decay z] :=
  .cons rfl (.cons rfl (.cons ⟨rfl, by simp⟩ (.cons rfl .nil)))

end Verif.FVerb
