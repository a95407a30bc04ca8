import Verif.Lemmas.AllocList
import Mathlib.Data.List.Perm.Basic
import Mathlib.Tactic.Linarith

/-! # Invariants of the list-level allocator -/

namespace Verif.BufferAllocator

/-- The blocks tile `[lo, hi)` from left to right. -/
def Tiles : ℕ → List Block → ℕ → Prop
  | lo, [], hi => lo = hi
  | lo, b :: bs, hi => b.offset = lo ∧ Tiles (lo + b.size) bs hi

/-- No two neighbouring blocks are free. -/
def NoAdj : List Block → Prop
  | [] => True
  | [_] => True
  | b :: c :: bs => ¬ (b.used = false ∧ c.used = false) ∧ NoAdj (c :: bs)

/-- All sizes are positive. -/
def Pos (bs : List Block) : Prop := ∀ b ∈ bs, 0 < b.size

/-- Extents of the blocks in use. -/
def usedList (bs : List Block) : List (ℕ × ℕ) := (bs.filter (fun b => b.used)).map fun b => (b.offset, b.size)

theorem usedList_cons_used {b : Block} {bs : List Block} (h : b.used = true) :
    usedList (b :: bs) = (b.offset, b.size) :: usedList bs := by simp [usedList, h]

theorem usedList_cons_free {b : Block} {bs : List Block} (h : b.used = false) :
    usedList (b :: bs) = usedList bs := by simp [usedList, h]

theorem lfreeSpace_cons_used {b : Block} {bs : List Block} (h : b.used = true) :
    lfreeSpace (b :: bs) = lfreeSpace bs := by simp [lfreeSpace, h]

theorem lfreeSpace_cons_free {b : Block} {bs : List Block} (h : b.used = false) :
    lfreeSpace (b :: bs) = b.size + lfreeSpace bs := by simp [lfreeSpace, h]

theorem Tiles.bounds {lo hi : ℕ} {bs : List Block} (h : Tiles lo bs hi) :
    lo ≤ hi ∧ ∀ b ∈ bs, lo ≤ b.offset ∧ b.offset + b.size ≤ hi := by
  induction bs generalizing lo with
  | nil => exact ⟨le_of_eq h, by simp⟩
  | cons b bs ih =>
    obtain ⟨h1, h2⟩ := h
    obtain ⟨h3, h4⟩ := ih h2
    refine ⟨by omega, ?_⟩
    intro c hc
    rcases List.mem_cons.mp hc with rfl | hc
    · omega
    · have := h4 c hc; omega

theorem Tiles.sum {lo hi : ℕ} {bs : List Block} (h : Tiles lo bs hi) : lo + (bs.map Block.size).sum = hi := by
  induction bs generalizing lo with
  | nil => simp only [Tiles] at h; simpa using h
  | cons b bs ih =>
    have := ih h.2
    simp; omega

theorem free_add_used (bs : List Block) :
    lfreeSpace bs + ((usedList bs).map Prod.snd).sum = (bs.map Block.size).sum := by
  induction bs with
  | nil => simp [lfreeSpace, usedList]
  | cons b bs ih =>
    cases hb : b.used
    · rw [lfreeSpace_cons_free hb, usedList_cons_free hb]; simp; omega
    · rw [lfreeSpace_cons_used hb, usedList_cons_used hb]; simp; omega

/-- Extents in use are disjoint and inside the tiled range. -/
theorem Tiles.used_disjoint {lo hi : ℕ} {bs : List Block} (h : Tiles lo bs hi) :
    (usedList bs).Pairwise (fun x y => x.1 + x.2 ≤ y.1) ∧ ∀ x ∈ usedList bs, lo ≤ x.1 ∧ x.1 + x.2 ≤ hi := by
  induction bs generalizing lo with
  | nil => simp [usedList]
  | cons b bs ih =>
    obtain ⟨h1, h2⟩ := h
    obtain ⟨h3, h4⟩ := ih h2
    have hle := h2.bounds.1
    cases hb : b.used
    · rw [usedList_cons_free hb]
      exact ⟨h3, fun x hx => by have := h4 x hx; omega⟩
    · rw [usedList_cons_used hb]
      refine ⟨List.pairwise_cons.mpr ⟨fun y hy => ?_, h3⟩, ?_⟩
      · have := h4 y hy; simp only; omega
      · intro x hx
        rcases List.mem_cons.mp hx with rfl | hx
        · simp only; omega
        · have := h4 x hx; omega

/-! ## allocate -/

theorem lalloc_spec {full : Bool} {need : ℕ} : ∀ {bs bs' : List Block} {off lo hi : ℕ},
    lalloc full need bs = some (bs', off) → Tiles lo bs hi → NoAdj bs →
    ∃ g, need ≤ g ∧ (full = false → g = need) ∧ Tiles lo bs' hi ∧ (0 < need → Pos bs → Pos bs') ∧ NoAdj bs' ∧
      (usedList bs').Perm ((off, g) :: usedList bs) ∧ lfreeSpace bs' + g = lfreeSpace bs ∧
      (∃ b ∈ bs, b.used = false ∧ b.offset = off ∧ need ≤ b.size ∧ g ≤ b.size ∧ (full = true → g = b.size)) ∧
      (∀ b ∈ bs, b.used = false → need ≤ b.size → off ≤ b.offset) ∧
      (∀ b bs1, bs = b :: bs1 → ∃ b' bs1', bs' = b' :: bs1' ∧ (b.used = true → b'.used = true)) ∧
      bs'.length ≤ bs.length + 1 ∧ (full = true → bs'.length = bs.length) := by
  intro bs
  induction bs with
  | nil => intro bs' off lo hi h; simp [lalloc] at h
  | cons b bs ih =>
    intro bs' off lo hi h ht hn
    obtain ⟨ht1, ht2⟩ := ht
    have hmin : ∀ c ∈ b :: bs, b.offset ≤ c.offset := by
      intro c hc
      rcases List.mem_cons.mp hc with rfl | hc
      · exact le_refl _
      · have := ht2.bounds.2 c hc; omega
    rw [lalloc] at h
    by_cases hfit : (!b.used && decide (b.size ≥ need)) = true
    · rw [if_pos hfit] at h
      simp only [Bool.and_eq_true, Bool.not_eq_eq_eq_not, Bool.not_true, ge_iff_le, decide_eq_true_eq] at hfit
      obtain ⟨hbf, hbs⟩ := hfit
      by_cases hsplit : b.size - need > 0 ∧ full = false
      · rw [if_pos hsplit] at h
        simp only [Option.some.injEq, Prod.mk.injEq] at h
        obtain ⟨rfl, rfl⟩ := h
        refine ⟨need, le_refl _, fun _ => rfl, ⟨ht1, by simp only; omega, ?_⟩, ?_, ?_, ?_, ?_, ?_, ?_, ?_, ?_, ?_⟩
        · simp only
          rw [show lo + need + (b.size - need) = lo + b.size by omega]; exact ht2
        · intro hneed hp c hc
          simp only [List.mem_cons] at hc
          rcases hc with rfl | rfl | hc
          · exact hneed
          · exact hsplit.1
          · exact hp c (by simp [hc])
        · refine ⟨by simp, ?_⟩
          cases bs with
          | nil => trivial
          | cons c cs => exact ⟨by simpa [hbf] using hn.1, hn.2⟩
        · rw [usedList_cons_used rfl, usedList_cons_free rfl, usedList_cons_free hbf]
        · rw [lfreeSpace_cons_used rfl, lfreeSpace_cons_free rfl, lfreeSpace_cons_free hbf]; simp only; omega
        · exact ⟨b, by simp, hbf, rfl, hbs, hbs, by simp [hsplit.2]⟩
        · intro c hc _ _; exact hmin c hc
        · rintro _ _ h; cases h; exact ⟨_, _, rfl, fun _ => rfl⟩
        · simp
        · simp [hsplit.2]
      · rw [if_neg hsplit] at h
        simp only [Option.some.injEq, Prod.mk.injEq] at h
        obtain ⟨rfl, rfl⟩ := h
        refine ⟨b.size, hbs, ?_, ⟨ht1, ht2⟩, ?_, ?_, ?_, ?_, ?_, ?_, ?_, ?_, ?_⟩
        · intro hf
          have : ¬ b.size - need > 0 := fun h => hsplit ⟨h, hf⟩
          omega
        · intro _ hp c hc
          simp only [List.mem_cons] at hc
          rcases hc with rfl | hc
          · exact hp b (by simp)
          · exact hp c (by simp [hc])
        · cases bs with
          | nil => trivial
          | cons c cs => exact ⟨by simp, hn.2⟩
        · rw [usedList_cons_used rfl, usedList_cons_free hbf]
        · rw [lfreeSpace_cons_used rfl, lfreeSpace_cons_free hbf]; omega
        · exact ⟨b, by simp, hbf, rfl, hbs, le_refl _, fun _ => rfl⟩
        · intro c hc _ _; exact hmin c hc
        · rintro _ _ h; cases h; exact ⟨_, _, rfl, fun _ => rfl⟩
        · simp
        · simp
    · rw [if_neg hfit] at h
      cases hl : lalloc full need bs with
      | none => rw [hl] at h; simp at h
      | some r =>
        obtain ⟨cs, o⟩ := r
        rw [hl] at h
        simp only [Option.map_some, Option.some.injEq, Prod.mk.injEq] at h
        obtain ⟨rfl, rfl⟩ := h
        have hn' : NoAdj bs := by
          cases bs with
          | nil => trivial
          | cons c cs => exact hn.2
        obtain ⟨g, g1, g2, g3, g4, g5, g6, g7, g8, g9, g10, g11, g12⟩ := ih hl ht2 hn'
        refine ⟨g, g1, g2, ⟨ht1, g3⟩, ?_, ?_, ?_, ?_, ?_, ?_, ?_, ?_, ?_⟩
        · intro hneed hp c hc
          rcases List.mem_cons.mp hc with rfl | hc
          · exact hp _ (by simp)
          · exact g4 hneed (fun d hd => hp d (by simp [hd])) c hc
        · cases bs with
          | nil => simp [lalloc] at hl
          | cons c ds =>
            obtain ⟨c', ds', rfl, hc'⟩ := g10 c ds rfl
            refine ⟨?_, g5⟩
            rintro ⟨h1, h2⟩
            apply hn.1
            refine ⟨h1, ?_⟩
            cases hcu : c.used
            · rfl
            · rw [hc' hcu] at h2; simp at h2
        · cases hb : b.used
          · rw [usedList_cons_free hb, usedList_cons_free hb]; exact g6
          · rw [usedList_cons_used hb, usedList_cons_used hb]
            exact (g6.cons _).trans (List.Perm.swap _ _ _)
        · cases hb : b.used
          · rw [lfreeSpace_cons_free hb, lfreeSpace_cons_free hb]; omega
          · rw [lfreeSpace_cons_used hb, lfreeSpace_cons_used hb]; exact g7
        · obtain ⟨c, hc, hrest⟩ := g8
          exact ⟨c, by simp [hc], hrest⟩
        · intro c hc hcf hcn
          rcases List.mem_cons.mp hc with rfl | hc
          · exfalso; apply hfit; simp [hcf, hcn]
          · exact g9 c hc hcf hcn
        · rintro _ _ h; cases h; exact ⟨_, _, rfl, fun h => h⟩
        · simp; omega
        · intro hf; simp [g12 hf]

theorem lalloc_none {full : Bool} {need : ℕ} {bs : List Block} (h : lalloc full need bs = none) :
    ∀ b ∈ bs, b.used = false → ¬ need ≤ b.size := by
  induction bs with
  | nil => simp
  | cons b bs ih =>
    rw [lalloc] at h
    by_cases hfit : (!b.used && decide (b.size ≥ need)) = true
    · rw [if_pos hfit] at h
      split_ifs at h
    · rw [if_neg hfit] at h
      intro c hc hcf hcn
      rcases List.mem_cons.mp hc with rfl | hc
      · apply hfit; simp [hcf, hcn]
      · exact ih (by simpa using h) c hc hcf hcn

/-- A run of unused floats lies inside one free block. -/
theorem gap_in_block {bs : List Block} {lo hi p need : ℕ} (ht : Tiles lo bs hi) (hp : Pos bs) (hn : NoAdj bs)
    (hneed : 0 < need) (h1 : lo ≤ p) (h2 : p + need ≤ hi)
    (hfree : ∀ i, p ≤ i → i < p + need → ∀ x ∈ usedList bs, ¬ (x.1 ≤ i ∧ i < x.1 + x.2)) :
    ∃ b ∈ bs, b.used = false ∧ b.offset ≤ p ∧ p + need ≤ b.offset + b.size := by
  induction bs generalizing lo with
  | nil => simp only [Tiles] at ht; omega
  | cons b bs ih =>
    obtain ⟨ht1, ht2⟩ := ht
    by_cases hin : lo + b.size ≤ p
    · obtain ⟨c, hc, hrest⟩ := ih ht2 (fun c hc => hp c (by simp [hc]))
        (by cases bs with
          | nil => trivial
          | cons c cs => exact hn.2) hin (by
          intro i hi1 hi2 x hx
          refine hfree i hi1 hi2 x ?_
          cases hb : b.used
          · rwa [usedList_cons_free hb]
          · rw [usedList_cons_used hb]; exact List.mem_cons_of_mem _ hx)
      exact ⟨c, by simp [hc], hrest⟩
    · have hbf : b.used = false := by
        by_contra hb
        simp only [Bool.not_eq_false] at hb
        refine hfree p (le_refl _) (by omega) (b.offset, b.size) ?_ ⟨by simp only; omega, by simp only; omega⟩
        rw [usedList_cons_used hb]; simp
      refine ⟨b, by simp, hbf, by omega, ?_⟩
      by_contra hlong
      cases bs with
      | nil => simp only [Tiles] at ht2; omega
      | cons c cs =>
        have hcu : c.used = true := by
          by_contra hc
          exact hn.1 ⟨hbf, by simpa using hc⟩
        have hc1 := ht2.1
        have hc2 := hp c (by simp)
        refine hfree (lo + b.size) (by omega) (by omega) (c.offset, c.size) ?_
          ⟨by simp only; omega, by simp only; omega⟩
        rw [usedList_cons_free hbf, usedList_cons_used hcu]; simp

/-- A free block contains no used float. -/
theorem free_block_unused {bs : List Block} {lo hi : ℕ} (ht : Tiles lo bs hi) {b : Block} (hb : b ∈ bs)
    (hbf : b.used = false) {i : ℕ} (h1 : b.offset ≤ i) (h2 : i < b.offset + b.size) :
    ∀ x ∈ usedList bs, ¬ (x.1 ≤ i ∧ i < x.1 + x.2) := by
  induction bs generalizing lo with
  | nil => simp at hb
  | cons c cs ih =>
    obtain ⟨ht1, ht2⟩ := ht
    rintro x hx ⟨hx1, hx2⟩
    rcases List.mem_cons.mp hb with rfl | hb
    · rw [usedList_cons_free hbf] at hx
      have := ht2.used_disjoint.2 x hx
      omega
    · have hbb := ht2.bounds.2 b hb
      cases hc : c.used
      · rw [usedList_cons_free hc] at hx
        exact ih ht2 hb x hx ⟨hx1, hx2⟩
      · rw [usedList_cons_used hc] at hx
        rcases List.mem_cons.mp hx with rfl | hx
        · simp only at hx1 hx2; omega
        · exact ih ht2 hb x hx ⟨hx1, hx2⟩

/-! ## release -/

theorem lfree_none {off : ℕ} {bs : List Block} (h : lfree off bs = none) : ∀ x ∈ usedList bs, x.1 ≠ off := by
  induction bs with
  | nil => simp [usedList]
  | cons b bs ih =>
    rw [lfree] at h
    by_cases hb : b.offset = off ∧ b.used = true
    · rw [if_pos hb] at h; simp at h
    · rw [if_neg hb] at h
      intro x hx
      have h' := ih (by simpa using h)
      cases hu : b.used
      · rw [usedList_cons_free hu] at hx; exact h' x hx
      · rw [usedList_cons_used hu] at hx
        rcases List.mem_cons.mp hx with rfl | hx
        · exact fun he => hb ⟨he, hu⟩
        · exact h' x hx

theorem lfree_spec {off : ℕ} : ∀ {bs bs' : List Block} {lo hi : ℕ}, lfree off bs = some bs' → Tiles lo bs hi →
    ∃ g, Tiles lo bs' hi ∧ (Pos bs → Pos bs') ∧ (usedList bs).Perm ((off, g) :: usedList bs') ∧
      lfreeSpace bs' = lfreeSpace bs + g ∧ bs'.length = bs.length ∧
      (bs'.map Block.size).sum = (bs.map Block.size).sum := by
  intro bs
  induction bs with
  | nil => intro bs' lo hi h; simp [lfree] at h
  | cons b bs ih =>
    intro bs' lo hi h ht
    obtain ⟨ht1, ht2⟩ := ht
    rw [lfree] at h
    by_cases hb : b.offset = off ∧ b.used = true
    · rw [if_pos hb] at h
      simp only [Option.some.injEq] at h
      subst h
      refine ⟨b.size, ⟨ht1, ht2⟩, ?_, ?_, ?_, by simp, by simp⟩
      · intro hp c hc
        rcases List.mem_cons.mp hc with rfl | hc
        · exact hp b (by simp)
        · exact hp c (by simp [hc])
      · rw [usedList_cons_used hb.2, usedList_cons_free rfl, hb.1]
      · rw [lfreeSpace_cons_used hb.2, lfreeSpace_cons_free rfl]; simp only; omega
    · rw [if_neg hb] at h
      cases hl : lfree off bs with
      | none => rw [hl] at h; simp at h
      | some cs =>
        rw [hl] at h
        simp only [Option.map_some, Option.some.injEq] at h
        subst h
        obtain ⟨g, g1, g2, g3, g4, g5, g6⟩ := ih hl ht2
        refine ⟨g, ⟨ht1, g1⟩, ?_, ?_, ?_, by simp [g5], by simp [g6]⟩
        · intro hp c hc
          rcases List.mem_cons.mp hc with rfl | hc
          · exact hp _ (by simp)
          · exact g2 (fun d hd => hp d (by simp [hd])) c hc
        · cases hu : b.used
          · rw [usedList_cons_free hu, usedList_cons_free hu]; exact g3
          · rw [usedList_cons_used hu, usedList_cons_used hu]
            exact (g3.cons _).trans (List.Perm.swap _ _ _)
        · cases hu : b.used
          · rw [lfreeSpace_cons_free hu, lfreeSpace_cons_free hu]; omega
          · rw [lfreeSpace_cons_used hu, lfreeSpace_cons_used hu]; exact g4

theorem lmerge_spec : ∀ (bs : List Block) (b : Block) {lo hi : ℕ}, Tiles lo (b :: bs) hi →
    Tiles lo (lmerge b bs) hi ∧ (Pos (b :: bs) → Pos (lmerge b bs)) ∧ NoAdj (lmerge b bs) ∧
      usedList (lmerge b bs) = usedList (b :: bs) ∧ lfreeSpace (lmerge b bs) = lfreeSpace (b :: bs) ∧
      (∃ b' bs', lmerge b bs = b' :: bs' ∧ b'.used = b.used) ∧ (lmerge b bs).length ≤ bs.length + 1 := by
  intro bs
  induction bs with
  | nil => intro b lo hi ht; exact ⟨ht, id, trivial, rfl, rfl, ⟨b, [], rfl, rfl⟩, by simp [lmerge]⟩
  | cons c cs ih =>
    intro b lo hi ht
    obtain ⟨ht1, ht2, ht3⟩ := ht
    by_cases hf : (!b.used && !c.used) = true
    · have e : lmerge b (c :: cs) = lmerge { b with size := b.size + c.size } cs := by rw [lmerge, if_pos hf]
      simp only [Bool.and_eq_true, Bool.not_eq_eq_eq_not, Bool.not_true] at hf
      obtain ⟨g1, g2, g3, g4, g5, ⟨b', bs', g6, g7⟩, g8⟩ := ih { b with size := b.size + c.size } (lo := lo) (hi := hi)
        ⟨ht1, by simp only; rw [← Nat.add_assoc]; exact ht3⟩
      rw [e]
      refine ⟨g1, fun hp => g2 ?_, g3, ?_, ?_, ⟨b', bs', g6, g7⟩, by simp; omega⟩
      · intro d hd
        rcases List.mem_cons.mp hd with rfl | hd
        · simp only; have := hp b (by simp); omega
        · exact hp d (by simp [hd])
      · rw [g4, usedList_cons_free (b := { b with size := b.size + c.size }) hf.1, usedList_cons_free hf.1,
          usedList_cons_free hf.2]
      · rw [g5, lfreeSpace_cons_free (b := { b with size := b.size + c.size }) hf.1, lfreeSpace_cons_free hf.1,
          lfreeSpace_cons_free hf.2]; simp only; omega
    · have e : lmerge b (c :: cs) = b :: lmerge c cs := by rw [lmerge, if_neg hf]
      obtain ⟨g1, g2, g3, g4, g5, ⟨b', bs', g6, g7⟩, g8⟩ := ih c ⟨ht2, ht3⟩
      rw [e]
      refine ⟨⟨ht1, g1⟩, ?_, ?_, ?_, ?_, ⟨b, _, rfl, rfl⟩, by simp; omega⟩
      · intro hp d hd
        rcases List.mem_cons.mp hd with rfl | hd
        · exact hp _ (by simp)
        · exact g2 (fun d hd => hp d (by simp at hd ⊢; tauto)) d hd
      · rw [g6] at g3 ⊢
        refine ⟨?_, g3⟩
        rintro ⟨h1, h2⟩
        rw [g7] at h2
        simp [h1, h2] at hf
      · cases hu : b.used
        · rw [usedList_cons_free hu, usedList_cons_free hu, g4]
        · rw [usedList_cons_used hu, usedList_cons_used hu, g4]
      · cases hu : b.used
        · rw [lfreeSpace_cons_free hu, lfreeSpace_cons_free hu, g5]
        · rw [lfreeSpace_cons_used hu, lfreeSpace_cons_used hu, g5]

/-- Without used blocks a tiling without free neighbours is a single block. -/
theorem no_used_single {bs : List Block} {P : ℕ} (hP : 0 < P) (ht : Tiles 0 bs P) (hn : NoAdj bs)
    (hu : usedList bs = []) : bs = [⟨0, P, false⟩] := by
  have hall : ∀ b ∈ bs, b.used = false := by
    intro b hb
    by_contra h
    simp only [Bool.not_eq_false] at h
    have : (b.offset, b.size) ∈ usedList bs := by
      simp only [usedList, List.mem_map, List.mem_filter]
      exact ⟨b, ⟨hb, h⟩, rfl⟩
    rw [hu] at this; simp at this
  match bs, ht, hn, hall with
  | [], ht, _, _ => simp only [Tiles] at ht; omega
  | [b], ht, _, hall =>
    have h1 := ht.1
    have h2 := ht.2
    simp only [Tiles] at h2
    have h3 := hall b (by simp)
    cases b
    simp only at h1 h2 h3
    subst h1 h3
    simp only [Nat.zero_add] at h2
    simp [h2]
  | b :: c :: cs, _, hn, hall => exact absurd ⟨hall b (by simp), hall c (by simp)⟩ hn.1

end Verif.BufferAllocator
