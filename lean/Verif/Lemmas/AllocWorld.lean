import Verif.Lemmas.AllocInv

/-! # World-level invariants of the allocator -/

namespace Verif.BufferAllocator
variable {α : Type} [Arith α]

/-- The allocator is initialised and its table represents the block list `bs`. -/
structure Ready (P M : ℕ) (a : Alloc α) (bs : List Block) : Prop where
  inited : a.inited = true
  tab : ∃ junk, a.tab = bs ++ junk
  len : a.tab.length = M
  count : a.count = bs.length
  tiles : Tiles 0 bs P
  noadj : NoAdj bs

/-- Number of used floats. -/
def lused (bs : List Block) : ℕ := ((usedList bs).map Prod.snd).sum

section
omit [Arith α]
variable {P M : ℕ} {a : Alloc α} {bs : List Block}

theorem Ready.count_le (h : Ready P M a bs) : bs.length ≤ M := by
  obtain ⟨junk, ht⟩ := h.tab
  rw [← h.len, ht]; simp

theorem Ready.count_pos (hS : Sizes P M) (h : Ready P M a bs) : 0 < bs.length := by
  cases bs with
  | nil => have := h.tiles; simp only [Tiles] at this; have := hS.pool_pos; omega
  | cons b bs => simp

theorem Ready.sum (h : Ready P M a bs) : lfreeSpace bs + lused bs = P := by
  have := free_add_used bs
  have h2 := h.tiles.sum
  unfold lused; omega

theorem Ready.freeSpace (hS : Sizes P M) (h : Ready P M a bs) : freeSpace a = some (lfreeSpace bs) := by
  obtain ⟨junk, ht⟩ := h.tab
  have hs := h.sum
  have := hS.pool_lt
  have := freeLoop_spec junk bs [] 0 (by omega)
  simp only [List.nil_append, List.length_nil, Nat.zero_add] at this
  rw [BufferAllocator.freeSpace, ht, h.count, this]

theorem Ready.usedSpace (hS : Sizes P M) (h : Ready P M a bs) : usedSpace P a = some (lused bs) := by
  have hs := h.sum
  rw [BufferAllocator.usedSpace, h.freeSpace hS]
  simp only [Option.map_some]
  rw [szSub_eq (by omega) hS.pool_lt]; congr 1; omega

end

theorem zeroLoop (o P : ℕ) : ∀ (k i : ℕ) (m : Mem α), i + k = P → (m o).length = P →
    forLoop (fun i m => m.store (.at o 0) i (lit 0)) i k m =
      some (Function.update m o ((m o).take i ++ List.replicate k (lit 0))) := by
  intro k
  induction k with
  | zero =>
    intro i m h hl
    simp only [forLoop, List.replicate_zero, List.append_nil]
    rw [List.take_of_length_le (by omega), Function.update_eq_self]
  | succ k ih =>
    intro i m h hl
    rw [forLoop]
    have hst : m.store (.at o 0) i (lit 0) = some (Function.update m o ((m o).set i (lit 0))) := by
      simp only [Mem.store, Nat.zero_add]
      rw [if_pos (by omega)]
    rw [hst, Option.bind_some, ih (i + 1) _ (by omega) (by simp [hl])]
    simp only [Function.update_self, Function.update_idem]
    congr 2
    rw [List.take_set, List.take_add_one, show (m o)[i]? = some ((m o)[i]'(by omega)) by simp,
      List.set_append_right _ _ (by simp)]
    simp [List.replicate_succ, Nat.min_eq_left (show i ≤ (m o).length by omega)]

theorem ready_init {P M : ℕ} (hS : Sizes P M) {a : Alloc α} {m : Mem α} (hlen : a.tab.length = M)
    (hpool : (m a.obj).length = P) (sr : α) :
    ∃ a', init P sr a m = some (a', Function.update m a.obj (List.replicate P (lit 0))) ∧
      Ready P M a' [⟨0, P, false⟩] ∧ a'.obj = a.obj ∧ a'.rate = sr := by
  have hM := hS.table_pos
  obtain ⟨x, junk, ht⟩ : ∃ x junk, a.tab = x :: junk := by
    cases h : a.tab with
    | nil => rw [h] at hlen; simp at hlen; omega
    | cons x j => exact ⟨x, j, rfl⟩
  refine ⟨{ a with rate := sr, count := 1, tab := ⟨0, P, false⟩ :: junk, inited := true }, ?_, ?_, rfl, rfl⟩
  · have hz := zeroLoop (α := α) a.obj P P 0 m (by omega) hpool
    simp only [List.take_zero, List.nil_append] at hz
    have hset : setAt a.tab 0 ⟨0, P, false⟩ = some (⟨0, P, false⟩ :: junk) := by
      rw [ht]; exact setAt_split (pre := []) rfl
    rw [init, hset, Option.bind_some, hz]
    rfl
  · refine ⟨rfl, ⟨junk, rfl⟩, ?_, rfl, ⟨rfl, ?_⟩, trivial⟩
    · rw [← hlen, ht]; simp
    · simp [Tiles]

theorem ready_allocate {P M : ℕ} (hS : Sizes P M) {a : Alloc α} {bs : List Block} (h : Ready P M a bs) {n ch : ℕ}
    (hn : n ≠ 0) (hch : ch = 1 ∨ ch = 2) :
    match lalloc (decide (¬ bs.length < M)) (szMul n ch) bs with
    | none => allocate P M n ch a = some (a, .empty)
    | some (bs', off) => ∃ a', allocate P M n ch a = some (a', ⟨.at a.obj off, ch, a.rate, n⟩) ∧
        Ready P M a' bs' ∧ a'.obj = a.obj ∧ a'.rate = a.rate := by
  obtain ⟨junk, ht⟩ := h.tab
  have hcond : (!a.inited || n == 0 || (ch != 1 && ch != 2)) = false := by
    rw [h.inited]; rcases hch with rfl | rfl <;> simp [hn]
  have hal : allocate P M n ch a = allocLoop P M (szMul n ch) n ch a 0 a.count := by
    rw [allocate, hcond]; simp
  have := allocLoop_spec (need := szMul n ch) (n := n) (ch := ch) hS.pool_lt hS.table_lt a bs [] junk (by simpa using ht)
    (by simpa using h.count) h.len (fun b hb => (h.tiles.bounds.2 b hb).2)
  simp only [List.length_nil, Nat.zero_add, List.nil_append, h.count] at this
  rw [hal, h.count]
  cases hl : lalloc (decide (¬ bs.length < M)) (szMul n ch) bs with
  | none => rw [hl] at this; exact this
  | some r =>
    obtain ⟨bs', off⟩ := r
    rw [hl] at this
    obtain ⟨junk', h1, h2⟩ := this
    obtain ⟨g, g1, g2, g3, g4, g5, _⟩ := lalloc_spec hl h.tiles h.noadj
    exact ⟨_, h2, ⟨h.inited, ⟨junk', rfl⟩, by simp; omega, rfl, g3, g5⟩, rfl, rfl⟩

omit [Arith α] in
theorem ready_release {P M : ℕ} (hS : Sizes P M) {a : Alloc α} {bs : List Block} (h : Ready P M a bs) {buf : Buffer α}
    {k : ℕ} (hk : k < P) (hb : buf.data = .at a.obj k) :
    match lfree k bs with
    | none => release P buf a = some (a, false)
    | some bs1 => ∃ b cs, bs1 = b :: cs ∧ ∃ a', release P buf a = some (a', true) ∧
        Ready P M a' (lmerge b cs) ∧ a'.obj = a.obj ∧ a'.rate = a.rate := by
  obtain ⟨junk, ht⟩ := h.tab
  have hM := h.count_le
  have hM2 := hS.table_lt
  have hP2 := hS.pool_lt
  have hsum := h.tiles.sum
  have hr : release P buf a = releaseLoop k a 0 a.count := by
    rw [release, hb, h.inited]; simp [hk]
  have := releaseLoop_spec a k bs [] junk (by simpa using ht) (by simpa using h.count) (by simp; omega)
    (by simp; omega)
  simp only [List.length_nil, Nat.zero_add, List.nil_append] at this
  rw [hr, h.count]
  cases hl : lfree k bs with
  | none => rw [hl] at this; exact this
  | some bs1 =>
    rw [hl] at this
    obtain ⟨b, cs, junk', h1, h2, h3⟩ := this
    obtain ⟨g, g1, _⟩ := lfree_spec hl h.tiles
    rw [h1] at g1
    obtain ⟨m1, m2, m3, m4, _⟩ := lmerge_spec cs b g1
    refine ⟨b, cs, h1, _, h3, ⟨h.inited, ⟨junk', rfl⟩, ?_, rfl, m1, m3⟩, rfl, rfl⟩
    have := h.len
    rw [ht] at this
    simp at this ⊢; omega

omit [Arith α] in
theorem release_foreign {P : ℕ} {a : Alloc α} {buf : Buffer α} (h : ∀ k, buf.data = .at a.obj k → P ≤ k) :
    release P buf a = some (a, false) := by
  rw [release]
  split_ifs
  · rfl
  · split
    · rfl
    · next o k hd =>
      rw [if_neg]
      rintro ⟨rfl, hk⟩
      have := h k hd; omega

/-- Table-level invariant of every history. -/
structure InvT (P M : ℕ) (w : World α) : Prop where
  len : w.a.tab.length = M
  pool : (w.mem w.a.obj).length = P
  uninit : w.a.inited = false → w.a.count = 0 ∧ w.live = []
  ready : w.a.inited = true → ∃ bs, Ready P M w.a bs

omit [Arith α] in
theorem usedSpace_uninit {P M : ℕ} (hS : Sizes P M) {w : World α} (h : InvT P M w) (hi : w.a.inited = false) :
    usedSpace P w.a = some P := by
  have := (h.uninit hi).1
  have hlt := hS.pool_lt
  rw [usedSpace, freeSpace, this]
  simp only [freeLoop, Option.map_some]
  rw [szSub_eq (by omega) hlt]; simp

/-- What an `allocate` call does, in every reachable state. -/
theorem allocate_cases {P M : ℕ} (hS : Sizes P M) {w : World α} (h : InvT P M w) (n ch : ℕ) :
    (allocate P M n ch w.a = some (w.a, .empty) ∧ step P M (.allocate n ch) w = some w ∧
      (w.a.inited = false ∨ n = 0 ∨ (ch ≠ 1 ∧ ch ≠ 2) ∨
        ∃ bs, Ready P M w.a bs ∧ lalloc (decide (¬ bs.length < M)) (szMul n ch) bs = none)) ∨
    (n ≠ 0 ∧ (ch = 1 ∨ ch = 2) ∧ ∃ bs bs' off g a', Ready P M w.a bs ∧ Ready P M a' bs' ∧
      lalloc (decide (¬ bs.length < M)) (szMul n ch) bs = some (bs', off) ∧
      (usedList bs').Perm ((off, g) :: usedList bs) ∧
      a'.obj = w.a.obj ∧ a'.rate = w.a.rate ∧
      allocate P M n ch w.a = some (a', ⟨.at w.a.obj off, ch, w.a.rate, n⟩) ∧
      step P M (.allocate n ch) w =
        some ⟨a', w.mem, (⟨.at w.a.obj off, ch, w.a.rate, n⟩, g) :: w.live⟩) := by
  have hu : ∃ u, usedSpace P w.a = some u := by
    cases hi : w.a.inited
    · exact ⟨_, usedSpace_uninit hS h hi⟩
    · obtain ⟨bs, hb⟩ := h.ready hi
      exact ⟨_, hb.usedSpace hS⟩
  obtain ⟨u, hu⟩ := hu
  have hfail : allocate P M n ch w.a = some (w.a, .empty) → step P M (.allocate n ch) w = some w := by
    intro he
    rw [step, he, Option.bind_some, hu]
    simp [Buffer.isValid, Buffer.empty]
  by_cases hc : w.a.inited = false ∨ n = 0 ∨ (ch ≠ 1 ∧ ch ≠ 2)
  · left
    have he : allocate P M n ch w.a = some (w.a, .empty) := by
      rw [allocate, if_pos]
      rcases hc with hc | hc | hc <;> simp [hc]
    exact ⟨he, hfail he, by tauto⟩
  · push Not at hc
    obtain ⟨h1, h2, h3⟩ := hc
    have hch : ch = 1 ∨ ch = 2 := by tauto
    obtain ⟨bs, hb⟩ := h.ready (by simpa using h1)
    have := ready_allocate hS hb h2 hch
    cases hl : lalloc (decide (¬ bs.length < M)) (szMul n ch) bs with
    | none =>
      rw [hl] at this
      left
      exact ⟨this, hfail this, Or.inr (Or.inr (Or.inr ⟨bs, hb, hl⟩))⟩
    | some r =>
      obtain ⟨bs', off⟩ := r
      rw [hl] at this
      obtain ⟨a', e1, e2, e3, e4⟩ := this
      obtain ⟨g, g1, g2, g3, g4, g5, g6, g7, _⟩ := lalloc_spec hl hb.tiles hb.noadj
      right
      refine ⟨h2, hch, bs, bs', off, g, a', hb, e2, hl, g6, e3, e4, e1, ?_⟩
      have hv : (⟨.at w.a.obj off, ch, w.a.rate, n⟩ : Buffer α).isValid = true := by
        rcases hch with rfl | rfl <;> simp [Buffer.isValid] <;> omega
      have hg : lused bs' - lused bs = g := by
        have := (g6.map Prod.snd).sum_eq
        simp at this
        unfold lused; omega
      rw [step, e1, Option.bind_some, hb.usedSpace hS, Option.bind_some, e2.usedSpace hS, Option.map_some, if_pos hv, hg]

/-- Everything a `release` call does, in every reachable state. -/
theorem release_cases {P M : ℕ} (hS : Sizes P M) {w : World α} (h : InvT P M w) (buf : Buffer α) :
    (release P buf w.a = some (w.a, false) ∧ step P M (.release buf) w = some w ∧
      (w.a.inited = false ∨ ∃ bs, Ready P M w.a bs ∧ ∀ x ∈ usedList bs, P ≤ x.1 ∨ buf.data ≠ .at w.a.obj x.1)) ∨
    (∃ bs bs' k g a', Ready P M w.a bs ∧ Ready P M a' bs' ∧ k < P ∧ buf.data = .at w.a.obj k ∧
      (usedList bs).Perm ((k, g) :: usedList bs') ∧ (Pos bs → Pos bs') ∧
      a'.obj = w.a.obj ∧ a'.rate = w.a.rate ∧ release P buf w.a = some (a', true) ∧
      step P M (.release buf) w = some ⟨a', w.mem, w.live.filter (fun b => b.1.data ≠ buf.data)⟩) := by
  have hfail : release P buf w.a = some (w.a, false) → step P M (.release buf) w = some w := by
    intro he
    rw [step, he]
    simp
  cases hi : w.a.inited with
  | false =>
    left
    have he : release P buf w.a = some (w.a, false) := by rw [release, hi]; simp
    exact ⟨he, hfail he, Or.inl rfl⟩
  | true =>
    obtain ⟨bs, hb⟩ := h.ready hi
    by_cases hk : ∃ k, buf.data = .at w.a.obj k ∧ k < P
    · obtain ⟨k, hd, hk⟩ := hk
      have := ready_release hS hb hk hd
      cases hl : lfree k bs with
      | none =>
        rw [hl] at this
        left
        refine ⟨this, hfail this, Or.inr ⟨bs, hb, ?_⟩⟩
        intro x hx
        right
        intro he
        rw [hd] at he
        simp only [Ptr.at.injEq, true_and] at he
        exact lfree_none hl x hx he.symm
      | some bs1 =>
        rw [hl] at this
        obtain ⟨b, cs, hbc, a', e1, e2, e3, e4⟩ := this
        obtain ⟨g, g1, g2, g3, _⟩ := lfree_spec hl hb.tiles
        rw [hbc] at g1 g2 g3
        obtain ⟨m1, m2, m3, m4, _⟩ := lmerge_spec cs b g1
        right
        refine ⟨bs, _, k, g, a', hb, e2, hk, hd, ?_, fun hp => m2 (g2 hp), e3, e4, e1, ?_⟩
        · rw [m4]; exact g3
        · rw [step, e1]; simp
    · left
      push Not at hk
      have he := release_foreign (P := P) (a := w.a) (buf := buf) hk
      refine ⟨he, hfail he, Or.inr ⟨bs, hb, ?_⟩⟩
      intro x hx
      by_cases h2 : buf.data = .at w.a.obj x.1
      · exact Or.inl (hk _ h2)
      · exact Or.inr h2

theorem invT_step {P M : ℕ} (hS : Sizes P M) {w : World α} (h : InvT P M w) (o : Op α) :
    ∃ w', step P M o w = some w' ∧ InvT P M w' ∧ w'.a.obj = w.a.obj := by
  cases o with
  | init sr =>
    obtain ⟨a', h1, h2, h3, h4⟩ := ready_init hS h.len h.pool sr
    refine ⟨⟨a', _, []⟩, by rw [step, h1]; rfl, ⟨h2.len, ?_, ?_, fun _ => ⟨_, h2⟩⟩, h3⟩
    · simp [h3]
    · intro hi; have := h2.inited; rw [this] at hi; simp at hi
  | reset =>
    cases hi : w.a.inited with
    | false =>
      refine ⟨⟨w.a, w.mem, []⟩, by simp [step, reset, hi], ⟨h.len, h.pool, fun hi => ⟨(h.uninit hi).1, rfl⟩, ?_⟩, rfl⟩
      intro h'; simp only at h'; rw [hi] at h'; simp at h'
    | true =>
      obtain ⟨a', h1, h2, h3, h4⟩ := ready_init hS h.len h.pool w.a.rate
      refine ⟨⟨a', _, []⟩, by rw [step, reset, hi, if_pos rfl, h1]; rfl, ⟨h2.len, ?_, ?_, fun _ => ⟨_, h2⟩⟩, h3⟩
      · simp [h3]
      · intro hi; have := h2.inited; rw [this] at hi; simp at hi
  | allocate n ch =>
    rcases allocate_cases hS h n ch with ⟨_, h2, _⟩ | ⟨_, _, bs, bs', off, g, a', hb, hb', _, _, ho, _, _, h2⟩
    · exact ⟨w, h2, h, rfl⟩
    · refine ⟨_, h2, ⟨hb'.len, ?_, ?_, fun _ => ⟨_, hb'⟩⟩, ho⟩
      · simp only [ho]; exact h.pool
      · intro hi; simp only at hi; have := hb'.inited; rw [this] at hi; simp at hi
  | release buf =>
    rcases release_cases hS h buf with ⟨_, h2, _⟩ | ⟨bs, bs', k, g, a', hb, hb', _, _, _, _, ho, _, _, h2⟩
    · exact ⟨w, h2, h, rfl⟩
    · refine ⟨_, h2, ⟨hb'.len, ?_, ?_, fun _ => ⟨_, hb'⟩⟩, ho⟩
      · simp only [ho]; exact h.pool
      · intro hi; simp only at hi; have := hb'.inited; rw [this] at hi; simp at hi
  | poke o i x =>
    refine ⟨_, rfl, ⟨h.len, ?_, h.uninit, h.ready⟩, rfl⟩
    simp only
    by_cases ho : w.a.obj = o
    · subst ho; simp [h.pool]
    · rw [Function.update_of_ne ho]; exact h.pool

theorem invT_run {P M : ℕ} (hS : Sizes P M) : ∀ (ops : List (Op α)) {w : World α}, InvT P M w →
    ∃ w', run P M ops w = some w' ∧ InvT P M w' ∧ w'.a.obj = w.a.obj := by
  intro ops
  induction ops with
  | nil => intro w h; exact ⟨w, rfl, h, rfl⟩
  | cons o os ih =>
    intro w h
    obtain ⟨w1, h1, h2, h3⟩ := invT_step hS h o
    obtain ⟨w2, h4, h5, h6⟩ := ih h2
    exact ⟨w2, by rw [run, h1, Option.bind_some, h4], h5, h6.trans h3⟩

theorem invT_fresh {P M : ℕ} {w : World α} (h : Fresh P M w) : InvT P M w := by
  have hc := h.constructed
  refine ⟨h.table, h.pool, fun _ => ⟨?_, h.live⟩, ?_⟩
  · rw [hc]; rfl
  · intro hi; rw [hc] at hi; simp [construct] at hi

/-- Live buffers are exactly the used blocks. -/
structure InvL (P M : ℕ) (w : World α) : Prop extends InvT P M w where
  live : ∀ bs, Ready P M w.a bs → Pos bs ∧
    (w.live.map fun x => (x.1.data, x.2)).Perm ((usedList bs).map fun x => (.at w.a.obj x.1, x.2))
  grant : ∀ x ∈ w.live, x.1.isValid = true ∧ x.1.numSamples * x.1.channels ≤ x.2

omit [Arith α] in
theorem Ready.unique {P M : ℕ} {a : Alloc α} {bs cs : List Block} (h1 : Ready P M a bs) (h2 : Ready P M a cs) :
    bs = cs := by
  obtain ⟨j1, e1⟩ := h1.tab
  obtain ⟨j2, e2⟩ := h2.tab
  exact (List.append_inj (e1.symm.trans e2) (h1.count.symm.trans h2.count)).1

theorem filter_perm {γ δ : Type} [DecidableEq δ] (key : γ → δ × ℕ) (d : δ) (g : ℕ) (rest : List (δ × ℕ))
    (live : List γ) (h : (live.map key).Perm ((d, g) :: rest)) (hd : ∀ x ∈ rest, x.1 ≠ d) :
    ((live.filter (fun x => (key x).1 ≠ d)).map key).Perm rest := by
  have h1 := h.filter (fun y => decide (y.1 ≠ d))
  rw [List.filter_map] at h1
  refine (List.Perm.trans (List.Perm.of_eq ?_) h1).trans (List.Perm.of_eq ?_)
  · rfl
  · rw [List.filter_cons_of_neg (by simp)]
    exact List.filter_eq_self.mpr fun x hx => by simpa using hd x hx

theorem invL_step {P M : ℕ} (hS : Sizes P M) {w : World α} (h : InvL P M w) (o : Op α) (ho : o.NoWrap) :
    ∃ w', step P M o w = some w' ∧ InvL P M w' ∧ w'.a.obj = w.a.obj := by
  obtain ⟨w', hs, hT, hobj⟩ := invT_step hS h.toInvT o
  refine ⟨w', hs, ⟨hT, ?_, ?_⟩, hobj⟩
  · -- live
    cases o with
    | init sr =>
      obtain ⟨a', h1, h2, h3, h4⟩ := ready_init hS h.len h.pool sr
      rw [step, h1] at hs
      simp only [Option.map_some, Option.some.injEq] at hs
      subst hs
      intro bs hb
      rw [hb.unique h2]
      refine ⟨?_, by simp [usedList]⟩
      intro b hb; simp at hb; subst hb; exact hS.pool_pos
    | reset =>
      cases hi : w.a.inited with
      | false =>
        simp only [step, reset, hi, Bool.false_eq_true, if_false, Option.map_some, Option.some.injEq] at hs
        subst hs
        intro bs hb
        have := hb.inited; simp only at this; rw [hi] at this; simp at this
      | true =>
        obtain ⟨a', h1, h2, h3, h4⟩ := ready_init hS h.len h.pool w.a.rate
        rw [step, reset, hi, if_pos rfl, h1] at hs
        simp only [Option.map_some, Option.some.injEq] at hs
        subst hs
        intro bs hb
        rw [hb.unique h2]
        refine ⟨?_, by simp [usedList]⟩
        intro b hb; simp at hb; subst hb; exact hS.pool_pos
    | allocate n ch =>
      rcases allocate_cases hS h.toInvT n ch with
        ⟨_, h2, _⟩ | ⟨hn, hch, bs, bs', off, g, a', hb, hb', hl, hp, ho', _, _, h2⟩
      · rw [h2] at hs; cases hs; exact h.live
      · rw [h2] at hs; cases hs
        intro cs hcs
        rw [hcs.unique hb']
        obtain ⟨h3, h4⟩ := h.live bs hb
        simp only [Op.NoWrap] at ho
        have hneed : 0 < szMul n ch := by
          rw [szMul_eq ho]
          rcases hch with rfl | rfl <;> omega
        obtain ⟨_, _, _, _, g4, _⟩ := lalloc_spec hl hb.tiles hb.noadj
        refine ⟨g4 hneed h3, ?_⟩
        simp only [List.map_cons, ho']
        refine List.Perm.trans (h4.cons _) ?_
        have := (hp.map fun x : ℕ × ℕ => (Ptr.at w.a.obj x.1, x.2)).symm
        simpa using this
    | release buf =>
      rcases release_cases hS h.toInvT buf with
        ⟨_, h2, _⟩ | ⟨bs, bs', k, g, a', hb, hb', hk, hd, hp, hpos, ho', _, _, h2⟩
      · rw [h2] at hs; cases hs; exact h.live
      · rw [h2] at hs; cases hs
        intro cs hcs
        rw [hcs.unique hb']
        obtain ⟨h3, h4⟩ := h.live bs hb
        refine ⟨hpos h3, ?_⟩
        simp only [ho']
        have hperm : (w.live.map fun x => (x.1.data, x.2)).Perm
            ((Ptr.at w.a.obj k, g) :: (usedList bs').map fun x => (Ptr.at w.a.obj x.1, x.2)) := by
          refine h4.trans ?_
          simpa using hp.map fun x : ℕ × ℕ => (Ptr.at w.a.obj x.1, x.2)
        have hne : ∀ x ∈ (usedList bs').map fun x : ℕ × ℕ => (Ptr.at w.a.obj x.1, x.2), x.1 ≠ buf.data := by
          intro x hx
          simp only [List.mem_map] at hx
          obtain ⟨y, hy, rfl⟩ := hx
          rw [hd]
          simp only [ne_eq, Ptr.at.injEq, true_and]
          intro hyk
          -- two used blocks with the same start would overlap
          have hdis := hb.tiles.used_disjoint.1
          have hmemk : (k, g) ∈ usedList bs := hp.symm.subset (by simp)
          have hposU : ∀ z ∈ usedList bs, 0 < z.2 := by
            intro z hz
            simp only [usedList, List.mem_map, List.mem_filter] at hz
            obtain ⟨b, ⟨hb1, _⟩, rfl⟩ := hz
            exact h3 b hb1
          have hyU : y ∈ usedList bs := hp.symm.subset (by simp [hy])
          have hp2 : ((k, g) :: usedList bs').Pairwise (fun x y => x.1 + x.2 ≤ y.1 ∨ y.1 + y.2 ≤ x.1) := by
            refine (hp.pairwise_iff ?_).mp ?_
            · intro a b h; tauto
            · exact hdis.imp fun h => Or.inl h
          rcases (List.pairwise_cons.mp hp2).1 y hy with h | h
          · have := hposU _ hmemk; simp only at h this; omega
          · have := hposU _ hyU; simp only at h; omega
        have := filter_perm (fun x : Buffer α × ℕ => (x.1.data, x.2)) buf.data g _ w.live (by rw [hd]; exact hperm) hne
        exact this
    | poke o i x =>
      simp only [step, Option.some.injEq] at hs; subst hs; exact h.live
  · -- grant
    cases o with
    | init sr =>
      obtain ⟨a', h1, h2, h3, h4⟩ := ready_init hS h.len h.pool sr
      rw [step, h1] at hs
      simp only [Option.map_some, Option.some.injEq] at hs
      subst hs; simp
    | reset =>
      rw [step] at hs
      cases hr : reset P w.a w.mem with
      | none => rw [hr] at hs; simp at hs
      | some r => rw [hr] at hs; simp only [Option.map_some, Option.some.injEq] at hs; subst hs; simp
    | allocate n ch =>
      rcases allocate_cases hS h.toInvT n ch with
        ⟨_, h2, _⟩ | ⟨hn, hch, bs, bs', off, g, a', hb, hb', hl, hp, ho', _, _, h2⟩
      · rw [h2] at hs; cases hs; exact h.grant
      · rw [h2] at hs; cases hs
        intro x hx
        rcases List.mem_cons.mp hx with rfl | hx
        · obtain ⟨g', g1, _, _, _, _, g6, _⟩ := lalloc_spec hl hb.tiles hb.noadj
          have : g = g' := by
            have h5 := (hp.symm.trans g6)
            have h6 := (List.Perm.map Prod.snd h5).sum_eq
            simpa using h6
          simp only [Op.NoWrap] at ho
          rw [szMul_eq ho] at g1
          refine ⟨?_, by simp only; omega⟩
          rcases hch with rfl | rfl <;> simp [Buffer.isValid] <;> omega
        · exact h.grant x hx
    | release buf =>
      rcases release_cases hS h.toInvT buf with ⟨_, h2, _⟩ | ⟨_, _, _, _, _, _, _, _, _, _, _, _, _, _, h2⟩
      · rw [h2] at hs; cases hs; exact h.grant
      · rw [h2] at hs; cases hs
        intro x hx
        exact h.grant x (List.mem_of_mem_filter hx)
    | poke o i x =>
      simp only [step, Option.some.injEq] at hs; subst hs; exact h.grant

theorem invL_run {P M : ℕ} (hS : Sizes P M) : ∀ (ops : List (Op α)) {w : World α}, (∀ o ∈ ops, o.NoWrap) → InvL P M w →
    ∃ w', run P M ops w = some w' ∧ InvL P M w' ∧ w'.a.obj = w.a.obj := by
  intro ops
  induction ops with
  | nil => intro w _ h; exact ⟨w, rfl, h, rfl⟩
  | cons o os ih =>
    intro w ho h
    obtain ⟨w1, h1, h2, h3⟩ := invL_step hS h o (ho o (by simp))
    obtain ⟨w2, h4, h5, h6⟩ := ih (fun o h => ho o (by simp [h])) h2
    exact ⟨w2, by rw [run, h1, Option.bind_some, h4], h5, h6.trans h3⟩

theorem invL_fresh {P M : ℕ} {w : World α} (h : Fresh P M w) : InvL P M w := by
  refine ⟨invT_fresh h, ?_, by simp [h.live]⟩
  intro bs hb
  have := hb.inited
  rw [h.constructed] at this; simp [construct] at this

end Verif.BufferAllocator
