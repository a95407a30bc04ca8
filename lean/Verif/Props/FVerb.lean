import Verif.Spec.FVerb
import Verif.Props.FVerbRun
import Mathlib.Data.Finset.Insert
import Mathlib.Tactic.Tauto

/-!
# C49: lifecycle of the reverb wrapper
-/

namespace Verif.FVerb
open FVerbDSP

set_option linter.unusedSectionVars false

variable {α : Type} [Arith α] [Libm α]

/-! ### Heap bookkeeping -/

/-- Nothing lives above `next`. -/
def HOk (h : Heap α) : Prop := ∀ a, h.next ≤ a → h.cell a = none

/-- A change of the heap by the owner of the blocks `s`, who owns `t` afterwards. -/
structure Upd (h h' : Heap α) (s t : Finset ℕ) : Prop where
  next : h.next ≤ h'.next
  same : ∀ a, a ∉ s → a < h.next → h'.cell a = h.cell a
  ok : HOk h'
  sub : ∀ a ∈ t, a ∈ s ∨ h.next ≤ a
  live : ∀ a, h'.cell a ≠ none → a ∈ t ∨ (a ∉ s ∧ a < h.next)

theorem lt_of_live {h : Heap α} (H : HOk h) {a : ℕ} (ha : h.cell a ≠ none) : a < h.next := by
  by_contra hc
  exact ha (H a (by omega))

theorem Upd.refl {h : Heap α} (H : HOk h) (s : Finset ℕ) : Upd h h s s :=
  ⟨le_rfl, fun _ _ _ => rfl, H, fun _ h => Or.inl h, fun a ha => by
    by_cases hs : a ∈ s
    · exact Or.inl hs
    · exact Or.inr ⟨hs, lt_of_live H ha⟩⟩

theorem Upd.trans {h h1 h2 : Heap α} {s t u : Finset ℕ} (A : Upd h h1 s t) (B : Upd h1 h2 t u) : Upd h h2 s u := by
  refine ⟨A.next.trans B.next, ?_, B.ok, ?_, ?_⟩
  · intro a ha hl
    have ht : a ∉ t := fun ht => by
      rcases A.sub a ht with h | h
      · exact ha h
      · omega
    rw [B.same a ht (lt_of_lt_of_le hl A.next), A.same a ha hl]
  · intro a ha
    rcases B.sub a ha with h | h
    · exact A.sub a h
    · exact Or.inr (A.next.trans h)
  · intro a ha
    rcases B.live a ha with h | ⟨h3, h4⟩
    · exact Or.inl h
    · rw [B.same a h3 h4] at ha
      rcases A.live a ha with h | h
      · exact absurd h h3
      · exact Or.inr h

theorem upd_new {h : Heap α} (H : HOk h) (s : Finset ℕ) (c : Cell α) : Upd h (h.new c) s (insert h.next s) := by
  refine ⟨Nat.le_succ _, ?_, ?_, ?_, ?_⟩
  · intro a _ hl
    exact Function.update_of_ne (by omega) _ _
  · intro a ha
    have ha' : h.next + 1 ≤ a := ha
    exact (Function.update_of_ne (by omega) _ _).trans (H a (by omega))
  · intro a ha
    rcases Finset.mem_insert.1 ha with rfl | ha
    · exact Or.inr le_rfl
    · exact Or.inl ha
  · intro a ha
    by_cases e : a = h.next
    · exact Or.inl (Finset.mem_insert.2 (Or.inl e))
    · by_cases hs : a ∈ s
      · exact Or.inl (Finset.mem_insert.2 (Or.inr hs))
      · refine Or.inr ⟨hs, lt_of_live H ?_⟩
        intro hc
        exact ha ((Function.update_of_ne e _ _).trans hc)

theorem upd_put {h : Heap α} (H : HOk h) {s : Finset ℕ} {a : ℕ} (hs : a ∈ s) (hl : h.cell a ≠ none) (c : Cell α) :
    Upd h (h.put a c) s s := by
  have hlt := lt_of_live H hl
  refine ⟨le_rfl, ?_, ?_, fun _ h => Or.inl h, ?_⟩
  · intro b hb _
    exact Function.update_of_ne (by rintro rfl; exact hb hs) _ _
  · intro b hb
    have hb' : h.next ≤ b := hb
    exact (Function.update_of_ne (by omega) _ _).trans (H b hb')
  · intro b hb
    by_cases e : b ∈ s
    · exact Or.inl e
    · refine Or.inr ⟨e, lt_of_live H ?_⟩
      intro hc
      exact hb ((Function.update_of_ne (by rintro rfl; exact e hs) _ _).trans hc)

/-- The heap after `delete`. -/
def Heap.without (h : Heap α) (a : ℕ) : Heap α := { h with cell := Function.update h.cell a none }

theorem delete_eq {h : Heap α} {a : ℕ} (hl : h.cell a ≠ none) : h.delete a = some (h.without a) := by
  unfold Heap.delete
  cases e : h.cell a with
  | none => exact absurd e hl
  | some c => rfl

theorem upd_del {h : Heap α} (H : HOk h) {s : Finset ℕ} {a : ℕ} (hs : a ∈ s) : Upd h (h.without a) s (s.erase a) := by
  refine ⟨le_rfl, ?_, ?_, fun b hb => Or.inl (Finset.mem_of_mem_erase hb), ?_⟩
  · intro b hb _
    exact Function.update_of_ne (by rintro rfl; exact hb hs) _ _
  · intro b hb
    by_cases e : b = a
    · subst e; exact Function.update_self _ _ _
    · exact (Function.update_of_ne e _ _).trans (H b hb)
  · intro b hb
    have e : b ≠ a := by
      rintro rfl
      exact hb (Function.update_self _ _ _)
    have hb' : h.cell b ≠ none := fun hc => hb ((Function.update_of_ne e _ _).trans hc)
    by_cases hsb : b ∈ s
    · exact Or.inl (Finset.mem_erase.2 ⟨e, hsb⟩)
    · exact Or.inr ⟨hsb, lt_of_live H hb'⟩

/-! ### Representation of a reverb in memory -/

/-- Addresses of the six blocks of buffers. -/
structure Bufs where
  i : ℕ
  u : ℕ
  i0 : ℕ
  u0 : ℕ
  i1 : ℕ
  u1 : ℕ

def Bufs.ids (b : Bufs) : List ℕ := [b.i, b.u, b.i0, b.u0, b.i1, b.u1]

/-- The buffers are in memory, with room for `n` samples. -/
structure BufsAt (h : Heap α) (b : Bufs) (n : ℕ) : Prop where
  i : h.cell b.i = some (.ptrs (some b.i0) (some b.i1))
  u : h.cell b.u = some (.ptrs (some b.u0) (some b.u1))
  i0 : ∃ l, h.cell b.i0 = some (.samples l) ∧ l.length = n
  i1 : ∃ l, h.cell b.i1 = some (.samples l) ∧ l.length = n
  u0 : ∃ l, h.cell b.u0 = some (.samples l) ∧ l.length = n
  u1 : ∃ l, h.cell b.u1 = some (.samples l) ∧ l.length = n

/-- The DSP pointer. -/
def DspAt (h : Heap α) : Option ℕ → Option (Dsp (List α) α) → List ℕ → Prop
  | none, none, l => l = []
  | some a, some D, l => l = [a] ∧ h.cell a = some (.dsp D)
  | _, _, _ => False

/-- The buffer pointers. -/
def BufAt (h : Heap α) (o : Obj) (warm : Bool) (l : List ℕ) : Prop :=
  (o.inputBuffers = none ∧ o.outputBuffers = none ∧ o.allocatedBlockSize = 0 ∧ warm = false ∧ l = []) ∨
  ∃ b : Bufs, o.inputBuffers = some b.i ∧ o.outputBuffers = some b.u ∧ BufsAt h b o.allocatedBlockSize ∧ warm = true ∧ l = b.ids

/-- Object `o` in heap `h` represents the reverb `r` and owns exactly the blocks `s`. -/
def Rep (h : Heap α) (o : Obj) (r : Unit' α) (s : Finset ℕ) : Prop :=
  ∃ l m, (l ++ m).Nodup ∧ s = (l ++ m).toFinset ∧ DspAt h o.dsp r.dsp l ∧ BufAt h o r.warm m

theorem DspAt.live {h : Heap α} {p : Option ℕ} {D : Option (Dsp (List α) α)} {l : List ℕ} (H : DspAt h p D l) :
    ∀ a ∈ l, h.cell a ≠ none := by
  cases p <;> cases D <;> simp only [DspAt] at H
  · subst H; simp
  · obtain ⟨rfl, e⟩ := H
    intro a ha
    rw [List.mem_singleton.1 ha, e]; simp

theorem BufsAt.live {h : Heap α} {b : Bufs} {n : ℕ} (H : BufsAt h b n) : ∀ a ∈ b.ids, h.cell a ≠ none := by
  intro a ha
  obtain ⟨l0, e0, -⟩ := H.i0
  obtain ⟨l1, e1, -⟩ := H.i1
  obtain ⟨l2, e2, -⟩ := H.u0
  obtain ⟨l3, e3, -⟩ := H.u1
  simp only [Bufs.ids, List.mem_cons, List.not_mem_nil, or_false] at ha
  rcases ha with rfl | rfl | rfl | rfl | rfl | rfl
  · rw [H.i]; simp
  · rw [H.u]; simp
  · rw [e0]; simp
  · rw [e2]; simp
  · rw [e1]; simp
  · rw [e3]; simp

theorem BufAt.live {h : Heap α} {o : Obj} {w : Bool} {l : List ℕ} (H : BufAt h o w l) : ∀ a ∈ l, h.cell a ≠ none := by
  rcases H with ⟨-, -, -, -, rfl⟩ | ⟨b, -, -, H, -, rfl⟩
  · simp
  · exact H.live

theorem Rep.live {h : Heap α} {o : Obj} {r : Unit' α} {s : Finset ℕ} (H : Rep h o r s) : ∀ a ∈ s, h.cell a ≠ none := by
  obtain ⟨l, m, -, rfl, H1, H2⟩ := H
  intro a ha
  rcases List.mem_append.1 (List.mem_toFinset.1 ha) with h | h
  · exact H1.live a h
  · exact H2.live a h

theorem DspAt.frame {h h' : Heap α} {p : Option ℕ} {D : Option (Dsp (List α) α)} {l : List ℕ} (H : DspAt h p D l)
    (e : ∀ a ∈ l, h'.cell a = h.cell a) : DspAt h' p D l := by
  cases p <;> cases D <;> simp only [DspAt] at H ⊢
  · exact H
  · obtain ⟨rfl, e1⟩ := H
    exact ⟨rfl, by rw [e _ (by simp), e1]⟩

theorem BufsAt.frame {h h' : Heap α} {b : Bufs} {n : ℕ} (H : BufsAt h b n) (e : ∀ a ∈ b.ids, h'.cell a = h.cell a) :
    BufsAt h' b n := by
  constructor
  · rw [e _ (by simp [Bufs.ids])]; exact H.i
  · rw [e _ (by simp [Bufs.ids])]; exact H.u
  · rw [e _ (by simp [Bufs.ids])]; exact H.i0
  · rw [e _ (by simp [Bufs.ids])]; exact H.i1
  · rw [e _ (by simp [Bufs.ids])]; exact H.u0
  · rw [e _ (by simp [Bufs.ids])]; exact H.u1

theorem BufAt.frame {h h' : Heap α} {o : Obj} {w : Bool} {l : List ℕ} (H : BufAt h o w l) (e : ∀ a ∈ l, h'.cell a = h.cell a) :
    BufAt h' o w l := by
  rcases H with H | ⟨b, e1, e2, H, hw, rfl⟩
  · exact Or.inl H
  · exact Or.inr ⟨b, e1, e2, H.frame e, hw, rfl⟩

theorem Rep.frame {h h' : Heap α} {o : Obj} {r : Unit' α} {s : Finset ℕ} (H : Rep h o r s) (e : ∀ a ∈ s, h'.cell a = h.cell a) :
    Rep h' o r s := by
  obtain ⟨l, m, hn, rfl, H1, H2⟩ := H
  exact ⟨l, m, hn, rfl, H1.frame fun a ha => e a (by simp [ha]), H2.frame fun a ha => e a (by simp [ha])⟩

/-! ### The member functions -/

theorem deleteIf_dsp {h : Heap α} (H : HOk h) {p : Option ℕ} {D : Option (Dsp (List α) α)} {l m : List ℕ} (hn : (l ++ m).Nodup)
    (H1 : DspAt h p D l) :
    ∃ h', h.deleteIf p = some h' ∧ Upd h h' (l ++ m).toFinset m.toFinset ∧ ∀ a ∈ m, h'.cell a = h.cell a := by
  cases p <;> cases D <;> simp only [DspAt] at H1
  · subst H1
    exact ⟨h, rfl, Upd.refl H _, fun _ _ => rfl⟩
  · obtain ⟨rfl, e⟩ := H1
    rename_i a D
    have ha : a ∉ m := by simpa using (List.nodup_cons.1 hn).1
    refine ⟨h.without a, delete_eq (by rw [e]; simp), ?_, ?_⟩
    · have := upd_del H (s := ([a] ++ m).toFinset) (a := a) (by simp)
      have e2 : ([a] ++ m).toFinset.erase a = m.toFinset := by
        ext x; simp only [Finset.mem_erase, List.mem_toFinset, List.mem_append, List.mem_singleton]
        constructor
        · tauto
        · intro hx; exact ⟨by rintro rfl; exact ha hx, Or.inr hx⟩
      rwa [e2] at this
    · intro x hx
      exact Function.update_of_ne (by rintro rfl; exact ha hx) _ _

theorem freeBuffers_rep {h : Heap α} (H : HOk h) {o : Obj} {w : Bool} {l m : List ℕ} (hn : (l ++ m).Nodup) (H2 : BufAt h o w m) :
    ∃ h', freeBuffers h o = some (h', { o with inputBuffers := none, outputBuffers := none, allocatedBlockSize := 0 }) ∧
      Upd h h' (l ++ m).toFinset l.toFinset ∧ ∀ a ∈ l, h'.cell a = h.cell a := by
  rcases H2 with ⟨e1, e2, e3, -, rfl⟩ | ⟨b, e1, e2, B, -, rfl⟩
  · refine ⟨h, ?_, by simpa using Upd.refl H l.toFinset, fun _ _ => rfl⟩
    simp [freeBuffers, freePair, e1, e2]
  · obtain ⟨l0, f0, -⟩ := B.i0
    obtain ⟨l1, f1, -⟩ := B.i1
    obtain ⟨l2, f2, -⟩ := B.u0
    obtain ⟨l3, f3, -⟩ := B.u1
    have hl : ∀ a ∈ l, a ∉ b.ids := fun a ha hb => (List.nodup_append.1 hn).2.2 a ha a hb rfl
    have hnb : b.ids.Nodup := (List.nodup_append.1 hn).2.1
    simp only [Bufs.ids, List.nodup_cons, List.mem_cons, List.not_mem_nil, or_false, not_or, not_false_eq_true, List.nodup_nil,
      and_true] at hnb
    obtain ⟨⟨a1, a2, a3, a4, a5⟩, ⟨b2, b3, b4, b5⟩, ⟨c3, c4, c5⟩, ⟨d4, d5⟩, g5⟩ := hnb
    refine ⟨((((((h.without b.i0).without b.i1).without b.i).without b.u0).without b.u1).without b.u), ?_, ?_, ?_⟩
    · simp only [freeBuffers, freePair, e1, e2, B.i, Heap.deleteIf]
      rw [delete_eq (by rw [f0]; simp), Option.bind_some,
        delete_eq (a := b.i1) (by simp [Heap.without, f1, Ne.symm c4]), Option.bind_some,
        delete_eq (a := b.i) (by simp [Heap.without, B.i, a2, a4]), Option.bind_some]
      have hu : (((h.without b.i0).without b.i1).without b.i).cell b.u = some (.ptrs (some b.u0) (some b.u1)) := by
        simp [Heap.without, B.u, Ne.symm a1, b2, b4]
      simp only [hu]
      rw [delete_eq (a := b.u0) (by simp [Heap.without, f2, Ne.symm a3, Ne.symm c3, d4]), Option.bind_some,
        delete_eq (a := b.u1) (by simp [Heap.without, f3, Ne.symm a5, Ne.symm c5, Ne.symm d5, Ne.symm g5]),
        Option.bind_some,
        delete_eq (a := b.u) (by simp [Heap.without, B.u, Ne.symm a1, b2, b3, b4, b5])]
      rfl
    · have u1 := upd_del H (s := (l ++ b.ids).toFinset) (a := b.i0) (by simp [Bufs.ids])
      have u2 := u1.trans (upd_del u1.ok (a := b.i1) (by simp [Bufs.ids, Ne.symm c4]))
      have u3 := u2.trans (upd_del u2.ok (a := b.i) (by simp [Bufs.ids, a2, a4]))
      have u4 := u3.trans (upd_del u3.ok (a := b.u0) (by simp [Bufs.ids, Ne.symm a3, Ne.symm c3, d4]))
      have u5 := u4.trans (upd_del u4.ok (a := b.u1) (by simp [Bufs.ids, Ne.symm a5, Ne.symm c5, Ne.symm d5, Ne.symm g5]))
      have u6 := u5.trans (upd_del u5.ok (a := b.u) (by simp [Bufs.ids, Ne.symm a1, b2, b3, b4, b5]))
      convert u6 using 1
      ext x
      have hx : x ∈ l → x ∉ b.ids := hl x
      simp only [Bufs.ids, List.mem_cons, List.not_mem_nil, or_false, not_or] at hx
      simp only [Finset.mem_erase, List.mem_toFinset, List.mem_append, Bufs.ids, List.mem_cons, List.not_mem_nil, or_false]
      tauto
    · intro x hx
      have := hl x hx
      simp only [Bufs.ids, List.mem_cons, List.not_mem_nil, or_false, not_or] at this
      simp [Heap.without, this]

theorem destroy_rep {h : Heap α} (H : HOk h) {o : Obj} {r : Unit' α} {s : Finset ℕ} (R : Rep h o r s) :
    ∃ h', destroy h o = some h' ∧ Upd h h' s ∅ := by
  obtain ⟨l, m, hn, rfl, H1, H2⟩ := R
  obtain ⟨h1, e1, U1, f1⟩ := freeBuffers_rep H hn H2
  obtain ⟨h2, e2, U2, -⟩ := deleteIf_dsp (m := []) U1.ok (by simpa using (List.nodup_append.1 hn).1) (H1.frame f1)
  refine ⟨h2, by simp only [destroy, e1, Option.bind_some, e2], ?_⟩
  simp only [List.append_nil, List.toFinset_nil] at U2
  exact U1.trans U2

theorem init_rep {h : Heap α} (H : HOk h) {o : Obj} {r : Unit' α} {s : Finset ℕ} (R : Rep h o r s) {sr : α} {D : Dsp (List α) α}
    (hD : newDsp arrays sr = some D) :
    ∃ h' o' t, init h o sr = some (h', o') ∧ Upd h h' s t ∧ Rep h' o' { r with dsp := some D } t := by
  obtain ⟨l, m, hn, rfl, H1, H2⟩ := R
  obtain ⟨h1, e1, U1, f1⟩ := deleteIf_dsp H hn H1
  have hm : ∀ a ∈ m, a < h1.next := fun a ha => lt_of_live U1.ok (by rw [f1 a ha]; exact H2.live a ha)
  refine ⟨h1.new (.dsp D), { o with dsp := some h1.next }, insert h1.next m.toFinset, ?_, U1.trans (upd_new U1.ok _ _), ?_⟩
  · simp only [init, e1, hD, Option.bind_some, Option.map_some]
  · refine ⟨[h1.next], m, ?_, by ext; simp, ⟨rfl, Function.update_self _ _ _⟩, ?_⟩
    · simp only [List.cons_append, List.nil_append, List.nodup_cons]
      exact ⟨fun hc => absurd (hm _ hc) (lt_irrefl _), (List.nodup_append.1 hn).2.1⟩
    · have : BufAt (h1.new (.dsp D)) o r.warm m := H2.frame fun a ha => by
        rw [← f1 a ha]
        exact Function.update_of_ne (hm a ha).ne _ _
      exact this

theorem dsp_rep {h : Heap α} (H : HOk h) {o : Obj} {r : Unit' α} {s : Finset ℕ} (R : Rep h o r s) (f : Dsp (List α) α → Dsp (List α) α) :
    ∃ h', (match o.dsp with
        | none => some h
        | some d => (loadDsp h d).map fun D => h.put d (.dsp (f D))) = some h' ∧
      Upd h h' s s ∧ Rep h' o { r with dsp := r.dsp.map f } s := by
  obtain ⟨l, m, hn, rfl, H1, H2⟩ := R
  cases ho : o.dsp <;> cases hr : r.dsp <;> rw [ho, hr] at H1 <;> simp only [DspAt] at H1
  · subst H1
    refine ⟨h, rfl, Upd.refl H _, [], m, hn, rfl, ?_, H2⟩
    rw [ho]; rfl
  · obtain ⟨rfl, e⟩ := H1
    rename_i a D
    have ha : a ∉ m := by simpa using (List.nodup_cons.1 hn).1
    refine ⟨h.put a (.dsp (f D)), by simp only [loadDsp, e, Option.map_some], upd_put H (by simp) (by rw [e]; simp) _, [a], m, hn, rfl, ?_, ?_⟩
    · rw [ho]; exact ⟨rfl, Function.update_self _ _ _⟩
    · exact H2.frame fun x hx => Function.update_of_ne (by rintro rfl; exact ha hx) _ _

/-- After `allocateBuffers` there is room, if a block of this size was allowed. -/
theorem allocate_rep {h : Heap α} (H : HOk h) {o : Obj} {w : Bool} {a : ℕ} {m : List ℕ} (hn : (a :: m).Nodup) {D : Dsp (List α) α}
    (hd : o.dsp = some a) (H1 : h.cell a = some (.dsp D)) (H2 : BufAt h o w m) {n : ℕ} (hw : n = 0 → w = true) :
    ∃ h' o' b, allocateBuffers h o n = some (h', o') ∧ o'.dsp = some a ∧ h'.cell a = some (.dsp D) ∧
      o'.inputBuffers = some b.i ∧ o'.outputBuffers = some b.u ∧ BufsAt h' b o'.allocatedBlockSize ∧ n ≤ o'.allocatedBlockSize ∧
      (a :: b.ids).Nodup ∧ Upd h h' (a :: m).toFinset (a :: b.ids).toFinset := by
  by_cases hle : n ≤ o.allocatedBlockSize
  · rcases H2 with ⟨-, -, e3, e4, -⟩ | ⟨b, e1, e2, B, -, rfl⟩
    · rw [e3] at hle
      have := hw (by omega)
      rw [e4] at this; cases this
    · exact ⟨h, o, b, if_pos hle, hd, H1, e1, e2, B, hle, hn, Upd.refl H _⟩
  · obtain ⟨h1, e1, U1, f1⟩ := freeBuffers_rep (l := [a]) H hn H2
    have H1' : h1.cell a = some (.dsp D) := by rw [f1 a (by simp), H1]
    have hlt : a < h1.next := lt_of_live U1.ok (by rw [H1']; simp)
    set N := h1.next with hN
    refine ⟨_, { o with inputBuffers := some N, outputBuffers := some (N + 1), allocatedBlockSize := n },
      ⟨N, N + 1, N + 2, N + 3, N + 4, N + 5⟩, by
      rw [allocateBuffers, if_neg hle, e1]; rfl, hd, ?_, rfl, rfl, ?_, le_rfl, ?_, ?_⟩
    · simp only [Heap.new, Function.update_apply, ← hN]
      rw [if_neg (by omega), if_neg (by omega), if_neg (by omega), if_neg (by omega), if_neg (by omega), if_neg (by omega)]
      exact H1'
    · constructor
      · simp [Heap.new, ← hN, Nat.add_assoc]
      · simp [Heap.new, ← hN]
      · refine ⟨List.replicate n (lit 0), ?_, List.length_replicate⟩
        simp [Heap.new, ← hN]
      · refine ⟨List.replicate n (lit 0), ?_, List.length_replicate⟩
        simp [Heap.new, ← hN]
      · refine ⟨List.replicate n (lit 0), ?_, List.length_replicate⟩
        simp [Heap.new, ← hN]
      · refine ⟨List.replicate n (lit 0), ?_, List.length_replicate⟩
        simp [Heap.new, ← hN]
    · simp only [Bufs.ids, List.nodup_cons, List.mem_cons, List.not_mem_nil, or_false, not_or, not_false_eq_true, List.nodup_nil, and_true]
      omega
    · have v1 := upd_new U1.ok [a].toFinset (.ptrs (some (N + 2)) (some (N + 4)))
      have v2 := v1.trans (upd_new v1.ok _ (.ptrs (some (N + 3)) (some (N + 5))))
      have v3 := v2.trans (upd_new v2.ok _ (.samples (List.replicate n (lit 0))))
      have v4 := v3.trans (upd_new v3.ok _ (.samples (List.replicate n (lit 0))))
      have v5 := v4.trans (upd_new v4.ok _ (.samples (List.replicate n (lit 0))))
      have v6 := v5.trans (upd_new v5.ok _ (.samples (List.replicate n (lit 0))))
      have v := U1.trans v6
      have hs : (a :: Bufs.ids ⟨N, N + 1, N + 2, N + 3, N + 4, N + 5⟩).toFinset =
          insert (N + 5) (insert (N + 4) (insert (N + 3) (insert (N + 2) (insert (N + 1) (insert N [a].toFinset))))) := by
        ext x
        simp only [Bufs.ids, List.mem_toFinset, List.mem_cons, List.not_mem_nil, or_false, Finset.mem_insert]
        tauto
      rw [hs]
      exact v

theorem loop_length {L : Type} (I : LineImpl L α) (k : Consts α) (sl : Slow α) (xs : List (Stereo α)) :
    ∀ s s' ys, loop I k sl s xs = some (s', ys) → ys.length = xs.length := by
  induction xs with
  | nil => intro s s' ys h; cases h; rfl
  | cons x xs ih =>
    intro s s' ys h
    simp only [loop, Option.bind_eq_some_iff, Option.map_eq_some_iff] at h
    obtain ⟨⟨s1, y⟩, -, ⟨s2, zs⟩, h2, h3⟩ := h
    cases h3
    simp [ih _ _ _ h2]

theorem zip_frames (xs : List (Stereo α)) : List.zipWith Stereo.mk (xs.map Stereo.left) (xs.map Stereo.right) = xs := by
  induction xs with
  | nil => rfl
  | cons x xs ih => simp [ih]

theorem process_rep {h : Heap α} (H : HOk h) {o : Obj} {r : Unit' α} {s : Finset ℕ} (R : Rep h o r s) {D : Dsp (List α) α}
    (hr : r.dsp = some D) {xs ys : List (Stereo α)} (hlt : ¬ 2 ^ 31 ≤ xs.length) (hw : xs = [] → r.warm = true) {S : State (List α) α}
    (hc : compute arrays D.consts D.params D.state xs = some (S, ys)) :
    ∃ h' o' t, process h o xs = some (h', o', ys) ∧ Upd h h' s t ∧ Rep h' o' ⟨some { D with state := S }, true⟩ t := by
  obtain ⟨l, m, hn, rfl, H1, H2⟩ := R
  cases ho : o.dsp with
  | none => rw [ho, hr] at H1; exact H1.elim
  | some a =>
  rw [ho, hr] at H1
  obtain ⟨rfl, H1⟩ := H1
  obtain ⟨h1, o1, b, ea, d1, c1, ei, eu, B, hle, hnd, U⟩ :=
    allocate_rep H (n := xs.length) hn ho H1 H2 (fun e => hw (List.length_eq_zero_iff.1 e))
  obtain ⟨l0, f0, g0⟩ := B.i0
  obtain ⟨l1, f1, g1⟩ := B.i1
  obtain ⟨l2, f2, g2⟩ := B.u0
  obtain ⟨l3, f3, g3⟩ := B.u1
  have hlen := loop_length _ _ _ _ _ _ _ hc
  have hnd' := hnd
  simp only [Bufs.ids, List.nodup_cons, List.mem_cons, List.not_mem_nil, or_false, not_or, not_false_eq_true, List.nodup_nil,
    and_true] at hnd'
  obtain ⟨⟨y1, y2, y3, y4, y5, y6⟩, ⟨a1, a2, a3, a4, a5⟩, ⟨b2, b3, b4, b5⟩, ⟨c3, c4, c5⟩, ⟨d4, d5⟩, e5⟩ := hnd'
  have k0 : (xs.map Stereo.left).length ≤ l0.length := by rw [List.length_map]; omega
  have k1 : (xs.map Stereo.right).length ≤ l1.length := by rw [List.length_map]; omega
  have k2 : (ys.map Stereo.left).length ≤ l2.length := by rw [List.length_map]; omega
  have k3 : (ys.map Stereo.right).length ≤ l3.length := by rw [List.length_map]; omega
  set m0 := xs.map Stereo.left ++ l0.drop (xs.map Stereo.left).length with hm0
  set m1 := xs.map Stereo.right ++ l1.drop (xs.map Stereo.right).length with hm1
  set m2 := ys.map Stereo.left ++ l2.drop (ys.map Stereo.left).length with hm2
  set m3 := ys.map Stereo.right ++ l3.drop (ys.map Stereo.right).length with hm3
  have n0 : m0.length = o1.allocatedBlockSize := by rw [hm0, List.length_append, List.length_drop]; omega
  have n1 : m1.length = o1.allocatedBlockSize := by rw [hm1, List.length_append, List.length_drop]; omega
  have n2 : m2.length = o1.allocatedBlockSize := by rw [hm2, List.length_append, List.length_drop]; omega
  have n3 : m3.length = o1.allocatedBlockSize := by rw [hm3, List.length_append, List.length_drop]; omega
  have t0 : m0.take xs.length = xs.map Stereo.left := by
    rw [hm0, List.take_left' (by rw [List.length_map])]
  have t1 : m1.take xs.length = xs.map Stereo.right := by
    rw [hm1, List.take_left' (by rw [List.length_map])]
  have t2 : m2.take xs.length = ys.map Stereo.left := by
    rw [hm2, List.take_left' (by rw [List.length_map, hlen])]
  have t3 : m3.take xs.length = ys.map Stereo.right := by
    rw [hm3, List.take_left' (by rw [List.length_map, hlen])]
  set h2 := h1.put b.i0 (.samples m0) with h2d
  have p2 : ∀ x, x ≠ b.i0 → h2.cell x = h1.cell x := fun x hx => Function.update_of_ne hx _ _
  have p2' : h2.cell b.i0 = some (.samples m0) := Function.update_self _ _ _
  set h3 := h2.put b.i1 (.samples m1) with h3d
  have p3 : ∀ x, x ≠ b.i1 → h3.cell x = h2.cell x := fun x hx => Function.update_of_ne hx _ _
  have p3' : h3.cell b.i1 = some (.samples m1) := Function.update_self _ _ _
  set h4 := h3.put a (.dsp { D with state := S }) with h4d
  have p4 : ∀ x, x ≠ a → h4.cell x = h3.cell x := fun x hx => Function.update_of_ne hx _ _
  have p4' : h4.cell a = some (.dsp { D with state := S }) := Function.update_self _ _ _
  set h5 := h4.put b.u0 (.samples m2) with h5d
  have p5 : ∀ x, x ≠ b.u0 → h5.cell x = h4.cell x := fun x hx => Function.update_of_ne hx _ _
  have p5' : h5.cell b.u0 = some (.samples m2) := Function.update_self _ _ _
  set h6 := h5.put b.u1 (.samples m3) with h6d
  have p6 : ∀ x, x ≠ b.u1 → h6.cell x = h5.cell x := fun x hx => Function.update_of_ne hx _ _
  have p6' : h6.cell b.u1 = some (.samples m3) := Function.update_self _ _ _
  have q1 : h2.cell b.i1 = some (.samples l1) := by rw [p2 _ (Ne.symm c4), f1]
  have q2 : h3.cell a = some (.dsp D) := by rw [p3 _ y5, p2 _ y3, c1]
  have q3 : h3.cell b.u = some (.ptrs (some b.u0) (some b.u1)) := by rw [p3 _ b4, p2 _ b2, B.u]
  have q4 : h3.cell b.i0 = some (.samples m0) := by rw [p3 _ c4, p2']
  have q5 : h4.cell b.u0 = some (.samples l2) := by rw [p4 _ (Ne.symm y4), p3 _ d4, p2 _ (Ne.symm c3), f2]
  have q6 : h5.cell b.u1 = some (.samples l3) := by
    rw [p5 _ (Ne.symm d5), p4 _ (Ne.symm y6), p3 _ (Ne.symm e5), p2 _ (Ne.symm c5), f3]
  have q7 : h6.cell b.u0 = some (.samples m2) := by rw [p6 _ d5, p5']
  refine ⟨h6, o1, (a :: b.ids).toFinset, ?_, ?_, [a], b.ids, hnd, rfl, ?_, ?_⟩
  · have w0 : writeSamples h1 (some b.i0) (xs.map Stereo.left) = some h2 := by simp only [writeSamples, f0, if_pos k0]; rfl
    have w1 : writeSamples h2 (some b.i1) (xs.map Stereo.right) = some h3 := by simp only [writeSamples, q1, if_pos k1]; rfl
    have w2 : writeSamples h4 (some b.u0) (ys.map Stereo.left) = some h5 := by simp only [writeSamples, q5, if_pos k2]; rfl
    have w3 : writeSamples h5 (some b.u1) (ys.map Stereo.right) = some h6 := by simp only [writeSamples, q6, if_pos k3]; rfl
    have r0 : readSamples h3 (some b.i0) xs.length = some (xs.map Stereo.left) := by
      simp only [readSamples, q4, n0, if_pos hle, t0]
    have r1 : readSamples h3 (some b.i1) xs.length = some (xs.map Stereo.right) := by
      simp only [readSamples, p3', n1, if_pos hle, t1]
    have r2 : readSamples h6 (some b.u0) xs.length = some (ys.map Stereo.left) := by
      simp only [readSamples, q7, n2, if_pos hle, t2]
    have r3 : readSamples h6 (some b.u1) xs.length = some (ys.map Stereo.right) := by
      simp only [readSamples, p6', n3, if_pos hle, t3]
    have l0' : loadPair h1 o1.inputBuffers = some (some b.i0, some b.i1) := by simp only [loadPair, ei, B.i]
    have l1' : loadPair h3 o1.outputBuffers = some (some b.u0, some b.u1) := by simp only [loadPair, eu, q3]
    have ld : loadDsp h3 a = some D := by simp only [loadDsp, q2]
    simp only [process, ho, if_neg hlt, ea, Option.bind_some, l0', w0, w1, ld, l1', r0, r1, zip_frames, hc, ← h4d, w2, w3, r2, r3,
      Option.map_some]
  · have lv : ∀ x ∈ a :: b.ids, h1.cell x ≠ none := by
      intro x hx
      rcases List.mem_cons.1 hx with rfl | hx
      · rw [c1]; simp
      · exact B.live x hx
    have v1 := U.trans (upd_put U.ok (a := b.i0) (by simp [Bufs.ids]) (by rw [f0]; simp) (.samples m0))
    have v2 := v1.trans (upd_put v1.ok (a := b.i1) (by simp [Bufs.ids]) (by rw [← h2d, q1]; simp) (.samples m1))
    have v3 := v2.trans (upd_put v2.ok (a := a) (by simp) (by rw [← h2d, ← h3d, q2]; simp) (.dsp { D with state := S }))
    have v4 := v3.trans (upd_put v3.ok (a := b.u0) (by simp [Bufs.ids]) (by rw [← h2d, ← h3d, ← h4d, q5]; simp) (.samples m2))
    exact v4.trans (upd_put v4.ok (a := b.u1) (by simp [Bufs.ids]) (by rw [← h2d, ← h3d, ← h4d, ← h5d, q6]; simp) (.samples m3))
  · rw [d1]
    refine ⟨rfl, ?_⟩
    rw [p6 _ y6, p5 _ y4, p4']
  · refine Or.inr ⟨b, ei, eu, ⟨?_, ?_, ⟨m0, ?_, n0⟩, ⟨m1, ?_, n1⟩, ⟨m2, q7, n2⟩, ⟨m3, p6', n3⟩⟩, rfl, rfl⟩
    · rw [p6 _ a5, p5 _ a3, p4 _ (Ne.symm y1), p3 _ a4, p2 _ a2, B.i]
    · rw [p6 _ b5, p5 _ b3, p4 _ (Ne.symm y2), q3]
    · rw [p6 _ c5, p5 _ c3, p4 _ (Ne.symm y3), q4]
    · rw [p6 _ e5, p5 _ (Ne.symm d4), p4 _ (Ne.symm y5), p3']

/-- `process` fails when the DSP does. -/
theorem process_dsp_none {h : Heap α} (H : HOk h) {o : Obj} {r : Unit' α} {s : Finset ℕ} (R : Rep h o r s) {D : Dsp (List α) α}
    (hr : r.dsp = some D) {xs : List (Stereo α)} (hw : xs = [] → r.warm = true)
    (hc : compute arrays D.consts D.params D.state xs = none) : process h o xs = none := by
  obtain ⟨l, m, hn, rfl, H1, H2⟩ := R
  cases ho : o.dsp with
  | none => rw [ho, hr] at H1; exact H1.elim
  | some a =>
  rw [ho, hr] at H1
  obtain ⟨rfl, H1⟩ := H1
  by_cases hlt : 2 ^ 31 ≤ xs.length
  · simp only [process, ho, if_pos hlt]
  obtain ⟨h1, o1, b, ea, d1, c1, ei, eu, B, hle, hnd, U⟩ :=
    allocate_rep H (n := xs.length) hn ho H1 H2 (fun e => hw (List.length_eq_zero_iff.1 e))
  obtain ⟨l0, f0, g0⟩ := B.i0
  obtain ⟨l1, f1, g1⟩ := B.i1
  simp only [Bufs.ids, List.nodup_cons, List.mem_cons, List.not_mem_nil, or_false, not_or, not_false_eq_true, List.nodup_nil,
    and_true] at hnd
  obtain ⟨⟨y1, y2, y3, y4, y5, y6⟩, ⟨a1, a2, a3, a4, a5⟩, ⟨b2, b3, b4, b5⟩, ⟨c3, c4, c5⟩, ⟨d4, d5⟩, e5⟩ := hnd
  have k0 : (xs.map Stereo.left).length ≤ l0.length := by rw [List.length_map]; omega
  have k1 : (xs.map Stereo.right).length ≤ l1.length := by rw [List.length_map]; omega
  set m0 := xs.map Stereo.left ++ l0.drop (xs.map Stereo.left).length with hm0
  set m1 := xs.map Stereo.right ++ l1.drop (xs.map Stereo.right).length with hm1
  have n0 : m0.length = o1.allocatedBlockSize := by rw [hm0, List.length_append, List.length_drop]; omega
  have n1 : m1.length = o1.allocatedBlockSize := by rw [hm1, List.length_append, List.length_drop]; omega
  have t0 : m0.take xs.length = xs.map Stereo.left := by
    rw [hm0, List.take_left' (by rw [List.length_map])]
  have t1 : m1.take xs.length = xs.map Stereo.right := by
    rw [hm1, List.take_left' (by rw [List.length_map])]
  set h2 := h1.put b.i0 (.samples m0) with h2d
  have p2 : ∀ x, x ≠ b.i0 → h2.cell x = h1.cell x := fun x hx => Function.update_of_ne hx _ _
  have p2' : h2.cell b.i0 = some (.samples m0) := Function.update_self _ _ _
  set h3 := h2.put b.i1 (.samples m1) with h3d
  have p3 : ∀ x, x ≠ b.i1 → h3.cell x = h2.cell x := fun x hx => Function.update_of_ne hx _ _
  have p3' : h3.cell b.i1 = some (.samples m1) := Function.update_self _ _ _
  have q1 : h2.cell b.i1 = some (.samples l1) := by rw [p2 _ (Ne.symm c4), f1]
  have q2 : h3.cell a = some (.dsp D) := by rw [p3 _ y5, p2 _ y3, c1]
  have q3 : h3.cell b.u = some (.ptrs (some b.u0) (some b.u1)) := by rw [p3 _ b4, p2 _ b2, B.u]
  have q4 : h3.cell b.i0 = some (.samples m0) := by rw [p3 _ c4, p2']
  have w0 : writeSamples h1 (some b.i0) (xs.map Stereo.left) = some h2 := by simp only [writeSamples, f0, if_pos k0]; rfl
  have w1 : writeSamples h2 (some b.i1) (xs.map Stereo.right) = some h3 := by simp only [writeSamples, q1, if_pos k1]; rfl
  have r0 : readSamples h3 (some b.i0) xs.length = some (xs.map Stereo.left) := by
    simp only [readSamples, q4, n0, if_pos hle, t0]
  have r1 : readSamples h3 (some b.i1) xs.length = some (xs.map Stereo.right) := by
    simp only [readSamples, p3', n1, if_pos hle, t1]
  have l0' : loadPair h1 o1.inputBuffers = some (some b.i0, some b.i1) := by simp only [loadPair, ei, B.i]
  have l1' : loadPair h3 o1.outputBuffers = some (some b.u0, some b.u1) := by simp only [loadPair, eu, q3]
  have ld : loadDsp h3 a = some D := by simp only [loadDsp, q2]
  simp only [process, ho, if_neg hlt, ea, Option.bind_some, l0', w0, w1, ld, l1', r0, r1, zip_frames, hc, Option.bind_none]

/-- An empty block before the first non-empty one fails. -/
theorem process_cold {h : Heap α} {o : Obj} {r : Unit' α} {s : Finset ℕ} (R : Rep h o r s) (hr : r.dsp ≠ none) (hw : r.warm = false) :
    process h o [] = none := by
  obtain ⟨l, m, hn, rfl, H1, H2⟩ := R
  cases ho : o.dsp with
  | none =>
    rw [ho] at H1
    cases hd : r.dsp with
    | none => exact absurd hd hr
    | some D => rw [hd] at H1; exact H1.elim
  | some a =>
    rcases H2 with ⟨e1, -, e3, -, -⟩ | ⟨b, -, -, -, hw', -⟩
    · have ea : allocateBuffers h o ([] : List (Stereo α)).length = some (h, o) := if_pos (Nat.zero_le _)
      have hp : ¬ 2 ^ 31 ≤ ([] : List (Stereo α)).length := by simp
      simp only [process, ho, if_neg hp, ea, Option.bind_some, e1, loadPair, Option.bind_none]
    · rw [hw] at hw'; cases hw'

/-! ### Programs -/

/-- The program state represents the specification state. -/
structure WRep (w : World α) (u : ℕ → Option (Unit' α)) (ids : ℕ → Finset ℕ) : Prop where
  ok : HOk w.heap
  rep : ∀ c, match w.obj c, u c with
    | none, none => ids c = ∅
    | some o, some r => Rep w.heap o r (ids c)
    | _, _ => False
  disj : ∀ c d, c ≠ d → ∀ a ∈ ids c, a ∉ ids d
  owned : ∀ a, w.heap.cell a ≠ none → ∃ c, a ∈ ids c

theorem WRep.live {w : World α} {u : ℕ → Option (Unit' α)} {ids : ℕ → Finset ℕ} (W : WRep w u ids) (c a : ℕ) (ha : a ∈ ids c) :
    a < w.heap.next := by
  have := W.rep c
  revert this
  cases w.obj c <;> cases u c <;> intro this
  · dsimp only at this; rw [this] at ha; simp at ha
  · exact this.elim
  · exact this.elim
  · exact lt_of_live W.ok (this.live a ha)

/-- One object changes. -/
theorem WRep.change {w : World α} {u : ℕ → Option (Unit' α)} {ids : ℕ → Finset ℕ} (W : WRep w u ids) (c : ℕ) {h' : Heap α}
    {t : Finset ℕ} (U : Upd w.heap h' (ids c) t) (o' : Option Obj) (r' : Option (Unit' α))
    (R : match o', r' with
      | none, none => t = ∅
      | some o, some r => Rep h' o r t
      | _, _ => False) :
    WRep ⟨h', Function.update w.obj c o'⟩ (Function.update u c r') (Function.update ids c t) := by
  refine ⟨U.ok, ?_, ?_, ?_⟩
  · intro d
    by_cases e : d = c
    · subst e
      simpa only [Function.update_self] using R
    · simp only [Function.update_of_ne e]
      have hd := W.rep d
      have hf : ∀ a ∈ ids d, h'.cell a = w.heap.cell a := fun a ha => U.same a (W.disj d c e a ha) (W.live d a ha)
      revert hd
      cases w.obj d <;> cases u d <;> intro hd
      · exact hd
      · exact hd
      · exact hd
      · exact hd.frame hf
  · intro d e hde a ha
    by_cases hd : d = c
    · subst hd
      rw [Function.update_self] at ha
      rw [Function.update_of_ne (Ne.symm hde)]
      intro he
      rcases U.sub a ha with h | h
      · exact W.disj _ _ hde a h he
      · exact absurd (W.live e a he) (by omega)
    · rw [Function.update_of_ne hd] at ha
      by_cases he : e = c
      · subst he
        rw [Function.update_self]
        intro hta
        rcases U.sub a hta with h | h
        · exact W.disj _ _ hde a ha h
        · exact absurd (W.live d a ha) (by omega)
      · rw [Function.update_of_ne he]
        exact W.disj d e hde a ha
  · intro a ha
    rcases U.live a ha with h | ⟨h1, h2⟩
    · exact ⟨c, by rwa [Function.update_self]⟩
    · have ha' : w.heap.cell a ≠ none := by
        rw [← U.same a h1 h2]; exact ha
      obtain ⟨d, hd⟩ := W.owned a ha'
      have e : d ≠ c := by rintro rfl; exact h1 hd
      exact ⟨d, by rwa [Function.update_of_ne e]⟩

theorem WRep.get {w : World α} {u : ℕ → Option (Unit' α)} {ids : ℕ → Finset ℕ} (W : WRep w u ids) {c : ℕ} {r : Unit' α}
    (hc : u c = some r) : ∃ o, w.obj c = some o ∧ Rep w.heap o r (ids c) := by
  have := W.rep c
  rw [hc] at this
  cases ho : w.obj c with
  | none => rw [ho] at this; exact this.elim
  | some o => rw [ho] at this; exact ⟨o, rfl, this⟩

theorem step_refines {w : World α} {u u' : ℕ → Option (Unit' α)} {ids : ℕ → Finset ℕ} (W : WRep w u ids) (q : Call α)
    {ys : List (Stereo α)} (hs : specStep u q = some (u', ys)) : ∃ w' ids', w.step q = some (w', ys) ∧ WRep w' u' ids' := by
  cases q with
  | declare c =>
    simp only [specStep] at hs
    cases hc : u c with
    | some r => simp [hc] at hs
    | none =>
      rw [hc] at hs
      cases hs
      have ho : w.obj c = none := by
        have := W.rep c
        rw [hc] at this
        cases ho : w.obj c with
        | none => rfl
        | some o => rw [ho] at this; exact this.elim
      refine ⟨_, _, by simp only [World.step, ho], W.change c (Upd.refl W.ok _) (some .fresh) (some ⟨none, false⟩) ?_⟩
      have he : ids c = ∅ := by
        have := W.rep c
        rw [hc, ho] at this
        exact this
      exact ⟨[], [], by simp, by simp [he], rfl, Or.inl ⟨rfl, rfl, rfl, rfl, rfl⟩⟩
  | init c sr =>
    simp only [specStep, Option.bind_eq_some_iff, Option.map_eq_some_iff] at hs
    obtain ⟨r, hc, D, hD, e⟩ := hs
    cases e
    obtain ⟨o, ho, R⟩ := W.get hc
    obtain ⟨h', o', t, e, U, R'⟩ := init_rep W.ok R hD
    exact ⟨_, _, by simp only [World.step, ho, Option.bind_some, e, Option.map_some], W.change c U (some o') (some _) R'⟩
  | process c xs =>
    simp only [specStep, Option.bind_eq_some_iff] at hs
    obtain ⟨r, hc, hs⟩ := hs
    obtain ⟨o, ho, R⟩ := W.get hc
    cases hr : r.dsp with
    | none =>
      rw [hr] at hs
      cases hs
      have hod : o.dsp = none := by
        obtain ⟨l, m, -, -, H1, -⟩ := R
        rw [hr] at H1
        cases hod : o.dsp with
        | none => rfl
        | some a => rw [hod] at H1; exact H1.elim
      refine ⟨⟨w.heap, Function.update w.obj c (some o)⟩, ids, ?_, ?_⟩
      · simp only [World.step, ho, Option.bind_some, process, hod, Option.map_some]
      · rw [← ho, Function.update_eq_self]
        exact W
    | some D =>
      rw [hr] at hs
      dsimp only at hs
      split_ifs at hs with hg
      · simp only [Option.map_eq_some_iff] at hs
        obtain ⟨⟨S, zs⟩, hcmp, e⟩ := hs
        cases e
        have hlt : ¬ 2 ^ 31 ≤ xs.length := fun h => hg (Or.inl h)
        have hw : xs = [] → r.warm = true := fun h => by
          by_contra hw
          exact hg (Or.inr ⟨h, by simpa using hw⟩)
        obtain ⟨h', o', t, e, U, R'⟩ := process_rep W.ok R hr hlt hw hcmp
        exact ⟨_, _, by simp only [World.step, ho, Option.bind_some, e, Option.map_some], W.change c U (some o') (some _) R'⟩
  | set c q x =>
    simp only [specStep, Option.map_eq_some_iff] at hs
    obtain ⟨r, hc, e⟩ := hs
    cases e
    obtain ⟨o, ho, R⟩ := W.get hc
    obtain ⟨h', e, U, R'⟩ := dsp_rep W.ok R fun D => { D with params := setParam q x D.params }
    refine ⟨⟨h', w.obj⟩, Function.update ids c (ids c), ?_, ?_⟩
    · have e' : set w.heap o q x = some h' := e
      simp only [World.step, ho, Option.bind_some, e', Option.map_some]
    · have := W.change c U (some o) (some _) R'
      rwa [← ho, Function.update_eq_self] at this
  | reset c =>
    simp only [specStep, Option.map_eq_some_iff] at hs
    obtain ⟨r, hc, e⟩ := hs
    cases e
    obtain ⟨o, ho, R⟩ := W.get hc
    obtain ⟨h', e, U, R'⟩ := dsp_rep W.ok R fun D => { D with state := clear arrays }
    refine ⟨⟨h', w.obj⟩, Function.update ids c (ids c), ?_, ?_⟩
    · have e' : reset w.heap o = some h' := e
      simp only [World.step, ho, Option.bind_some, e', Option.map_some]
    · have := W.change c U (some o) (some _) R'
      rwa [← ho, Function.update_eq_self] at this
  | copy c d => simp [specStep] at hs
  | destroy c =>
    simp only [specStep, Option.map_eq_some_iff] at hs
    obtain ⟨r, hc, e⟩ := hs
    cases e
    obtain ⟨o, ho, R⟩ := W.get hc
    obtain ⟨h', e, U⟩ := destroy_rep W.ok R
    exact ⟨_, _, by simp only [World.step, ho, Option.bind_some, e, Option.map_some], W.change c U none none rfl⟩

/-- No reverb is copied. -/
def NoCopy (qs : List (Call α)) : Prop := ∀ c d, Call.copy c d ∉ qs

theorem step_fails {w : World α} {u : ℕ → Option (Unit' α)} {ids : ℕ → Finset ℕ} (W : WRep w u ids) (q : Call α)
    (hq : ∀ c d, q ≠ .copy c d) (hs : specStep u q = none) : w.step q = none := by
  have absent : ∀ c, u c = none → w.obj c = none := by
    intro c hc
    have := W.rep c
    rw [hc] at this
    cases ho : w.obj c with
    | none => rfl
    | some o => rw [ho] at this; exact this.elim
  cases q with
  | declare c =>
    cases hc : u c with
    | none => simp [specStep, hc] at hs
    | some r =>
      obtain ⟨o, ho, -⟩ := W.get hc
      simp only [World.step, ho]
  | init c sr =>
    cases hc : u c with
    | none => simp only [World.step, absent c hc, Option.bind_none]
    | some r =>
      obtain ⟨o, ho, R⟩ := W.get hc
      simp only [specStep, hc, Option.bind_some, Option.map_eq_none_iff] at hs
      obtain ⟨l, m, hn, -, H1, -⟩ := R
      obtain ⟨h', e, -⟩ := deleteIf_dsp W.ok hn H1
      simp only [World.step, ho, Option.bind_some, init, e, hs, Option.map_none]
  | process c xs =>
    cases hc : u c with
    | none => simp only [World.step, absent c hc, Option.bind_none]
    | some r =>
      obtain ⟨o, ho, R⟩ := W.get hc
      simp only [specStep, hc, Option.bind_some] at hs
      cases hr : r.dsp with
      | none => rw [hr] at hs; cases hs
      | some D =>
        rw [hr] at hs
        have key : process w.heap o xs = none := by
          dsimp only at hs
          by_cases hlt : 2 ^ 31 ≤ xs.length
          · have hod : o.dsp ≠ none := by
              obtain ⟨l, m, -, -, H1, -⟩ := R
              intro hod
              rw [hr, hod] at H1
              exact H1.elim
            cases hd : o.dsp with
            | none => exact absurd hd hod
            | some a => simp only [process, hd, if_pos hlt]
          · by_cases hw : xs = [] ∧ r.warm = false
            · obtain ⟨rfl, hw⟩ := hw
              exact process_cold R (by rw [hr]; simp) hw
            · rw [if_neg (by tauto), Option.map_eq_none_iff] at hs
              refine process_dsp_none W.ok R hr (fun e => ?_) hs
              by_contra hc
              exact hw ⟨e, by simpa using hc⟩
        simp only [World.step, ho, Option.bind_some, key, Option.map_none]
  | set c q x =>
    cases hc : u c with
    | none => simp only [World.step, absent c hc, Option.bind_none]
    | some r => simp [specStep, hc] at hs
  | reset c =>
    cases hc : u c with
    | none => simp only [World.step, absent c hc, Option.bind_none]
    | some r => simp [specStep, hc] at hs
  | copy c d => exact absurd rfl (hq c d)
  | destroy c =>
    cases hc : u c with
    | none => simp only [World.step, absent c hc, Option.bind_none]
    | some r => simp [specStep, hc] at hs

theorem run_fails (qs : List (Call α)) : ∀ {w : World α} {u : ℕ → Option (Unit' α)} {ids : ℕ → Finset ℕ} (_ : WRep w u ids)
    (_ : NoCopy qs) (_ : specRun u qs = none), w.run qs = none := by
  induction qs with
  | nil => intro w u ids W _ hs; cases hs
  | cons q qs ih =>
    intro w u ids W hq hs
    cases h1 : specStep u q with
    | none =>
      have := step_fails W q (fun c d e => hq c d (by rw [e]; exact List.mem_cons_self)) h1
      simp only [World.run, this, Option.bind_none]
    | some r =>
      obtain ⟨u1, ys⟩ := r
      simp only [specRun, h1, Option.bind_some, Option.map_eq_none_iff] at hs
      obtain ⟨w1, ids1, e1, W1⟩ := step_refines W q h1
      have := ih W1 (fun c d hm => hq c d (List.mem_cons_of_mem _ hm)) hs
      simp only [World.run, e1, Option.bind_some, this, Option.map_none]

theorem run_refines (qs : List (Call α)) : ∀ {w : World α} {u u' : ℕ → Option (Unit' α)} {ids : ℕ → Finset ℕ} (_ : WRep w u ids)
    {zs : List (List (Stereo α))} (_ : specRun u qs = some (u', zs)), ∃ w' ids', w.run qs = some (w', zs) ∧ WRep w' u' ids' := by
  induction qs with
  | nil =>
    intro w u u' ids W zs hs
    cases hs
    exact ⟨w, ids, rfl, W⟩
  | cons q qs ih =>
    intro w u u' ids W zs hs
    simp only [specRun, Option.bind_eq_some_iff, Option.map_eq_some_iff] at hs
    obtain ⟨⟨u1, ys⟩, h1, ⟨u2, ws⟩, h2, e⟩ := hs
    cases e
    obtain ⟨w1, ids1, e1, W1⟩ := step_refines W q h1
    obtain ⟨w2, ids2, e2, W2⟩ := ih W1 h2
    exact ⟨w2, ids2, by simp only [World.run, e1, Option.bind_some, e2, Option.map_some], W2⟩

theorem start_rep : WRep (World.start : World α) (fun _ => none) (fun _ => ∅) :=
  ⟨fun _ _ => rfl, fun _ => rfl, fun _ _ _ a ha => by simp at ha, fun a ha => absurd rfl ha⟩

/-- **C49.** Any program that declares, initialises (also repeatedly), processes, adjusts, resets and destroys any number of reverbs, in
any order and with blocks of any (changing) size, does to them and hands back what the memory-free reverbs of the specification do (so
reverbs do not disturb each other), without touching memory it does not own, and when every reverb has been destroyed, every block has
been freed.

Missing: copying a reverb, and an empty block between `init` and the first non-empty one (`specRun` is `none` there). Both go wrong:
`C49_copy`, `C49_empty_block`. -/
theorem C49_refines_partial (qs : List (Call α)) (u : ℕ → Option (Unit' α)) (outs : List (List (Stereo α)))
    (hs : specRun (fun _ => none) qs = some (u, outs)) :
    ∃ w, World.start.run qs = some (w, outs) ∧ (∀ c, (w.obj c).isSome = (u c).isSome) ∧
      ((∀ c, u c = none) → ∀ a, w.heap.cell a = none) := by
  obtain ⟨w, ids, e, W⟩ := run_refines qs start_rep hs
  refine ⟨w, e, ?_, ?_⟩
  · intro c
    have := W.rep c
    revert this
    cases w.obj c <;> cases u c <;> intro this
    · rfl
    · exact this.elim
    · exact this.elim
    · rfl
  · intro hn a
    by_contra ha
    obtain ⟨c, hc⟩ := W.owned a ha
    have := W.rep c
    rw [hn c] at this
    cases ho : w.obj c with
    | none =>
      rw [ho] at this
      have : ids c = ∅ := this
      rw [this] at hc; simp at hc
    | some o => rw [ho] at this; exact this

/-- **C49**: for programs that do not copy reverbs the specification is exact, also about which programs are undefined. -/
theorem C49_exact (qs : List (Call α)) (hq : NoCopy qs) :
    (World.start.run qs).map Prod.snd = (specRun (fun _ => none) qs).map Prod.snd := by
  cases hs : specRun (fun _ => none) qs with
  | none => rw [run_fails qs start_rep hq hs]; rfl
  | some r =>
    obtain ⟨u, outs⟩ := r
    obtain ⟨w, e, -⟩ := C49_refines_partial qs u outs hs
    rw [e]; rfl

example (sr : α) (x : Stereo α) : NoCopy [.declare 0, .declare 1, .init 0 sr, .process 1 [x], .init 0 sr, .destroy 0, .destroy 1] := by
  intro c d
  simp

end Verif.FVerb
