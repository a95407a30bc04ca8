import Verif.Spec.Allocator

/-! # List-level allocator and refinement of the table-level code to it -/

namespace Verif.BufferAllocator
variable {α : Type} [Arith α]

theorem szSub_eq {a b : ℕ} (h : b ≤ a) (ha : a < 2 ^ 64) : szSub a b = a - b := by
  unfold szSub
  rw [Nat.mod_eq_of_lt (lt_of_le_of_lt h ha)]
  omega

theorem szAdd_eq {a b : ℕ} (h : a + b < 2 ^ 64) : szAdd a b = a + b := Nat.mod_eq_of_lt h
theorem szMul_eq {a b : ℕ} (h : a * b < 2 ^ 64) : szMul a b = a * b := Nat.mod_eq_of_lt h

theorem setAt_split {pre post : List Block} {x y : Block} {i : ℕ} (hi : i = pre.length) :
    setAt (pre ++ x :: post) i y = some (pre ++ y :: post) := by
  subst hi; simp [setAt]

theorem get_split {pre post : List Block} {x : Block} {i : ℕ} (hi : i = pre.length) :
    (pre ++ x :: post)[i]? = some x := by
  subst hi; simp

/-- The insertion loop moves `rest` up by one cell, overwriting the first unused cell. -/
theorem shiftUp_spec (pre : List Block) : ∀ (rest : List Block) (x : Block) (junk : List Block) (j : ℕ),
    j = pre.length + rest.length → j < 2 ^ 64 →
    ∃ y, shiftUp j rest.length (pre ++ rest ++ x :: junk) = some (pre ++ y :: (rest ++ junk)) := by
  intro rest
  induction rest using List.reverseRecOn with
  | nil => intro x junk j _ _; exact ⟨x, by simp [shiftUp]⟩
  | append_singleton init l ih =>
    intro x junk j hj hlt
    simp only [List.length_append, List.length_singleton] at hj ⊢
    have hs : szSub j 1 = j - 1 := szSub_eq (by omega) hlt
    have hget : (pre ++ (init ++ [l]) ++ x :: junk)[szSub j 1]? = some l := by
      rw [hs, show pre ++ (init ++ [l]) ++ x :: junk = (pre ++ init) ++ l :: (x :: junk) by simp]
      exact get_split (by simp; omega)
    have hset : setAt (pre ++ (init ++ [l]) ++ x :: junk) j l = some (pre ++ init ++ l :: (l :: junk)) := by
      rw [setAt_split (by simp; omega)]; simp
    obtain ⟨y, hy⟩ := ih l (l :: junk) (j - 1) (by omega) (by omega)
    refine ⟨y, ?_⟩
    rw [shiftUp, hget, Option.bind_some, hset, Option.bind_some, hy]
    simp

/-- The removal loop moves `rest` down by one cell. -/
theorem shiftDown_spec : ∀ (rest pre : List Block) (x : Block) (junk : List Block) (j : ℕ), j = pre.length →
    ∃ y, shiftDown j rest.length (pre ++ x :: (rest ++ junk)) = some (pre ++ rest ++ y :: junk) := by
  intro rest
  induction rest with
  | nil => intro pre x junk j _; exact ⟨x, by simp [shiftDown]⟩
  | cons r rest ih =>
    intro pre x junk j hj
    have hget : (pre ++ x :: ((r :: rest) ++ junk))[j + 1]? = some r := by
      rw [show pre ++ x :: ((r :: rest) ++ junk) = (pre ++ [x]) ++ r :: (rest ++ junk) by simp]
      exact get_split (by simp; omega)
    obtain ⟨y, hy⟩ := ih (pre ++ [r]) r junk (j + 1) (by simp; omega)
    refine ⟨y, ?_⟩
    rw [List.length_cons, shiftDown, hget, Option.bind_some, setAt_split hj, Option.bind_some,
      show pre ++ r :: ((r :: rest) ++ junk) = (pre ++ [r]) ++ r :: (rest ++ junk) by simp, hy]
    simp

/-! ## List-level operations -/

/-- First fit on a list of blocks; `full` says whether the table is full. -/
def lalloc (full : Bool) (need : ℕ) : List Block → Option (List Block × ℕ)
  | [] => none
  | b :: bs =>
    if !b.used && decide (b.size ≥ need) then
      if b.size - need > 0 ∧ full = false then
        some ({ b with size := need, used := true } :: ⟨b.offset + need, b.size - need, false⟩ :: bs, b.offset)
      else some ({ b with used := true } :: bs, b.offset)
    else (lalloc full need bs).map fun r => (b :: r.1, r.2)

/-- Merging neighbours, `b` being the current block. -/
def lmerge : Block → List Block → List Block
  | b, [] => [b]
  | b, c :: cs =>
    if !b.used && !c.used then lmerge { b with size := b.size + c.size } cs else b :: lmerge c cs

/-- Clearing the flag of the used block at `offset`; `none` if there is none. -/
def lfree (offset : ℕ) : List Block → Option (List Block)
  | [] => none
  | b :: bs =>
    if b.offset = offset ∧ b.used = true then some ({ b with used := false } :: bs)
    else (lfree offset bs).map (b :: ·)

/-- Every block ends at or before `P`. -/
def Within (P : ℕ) (bs : List Block) : Prop := ∀ b ∈ bs, b.offset + b.size ≤ P

theorem allocLoop_spec {P M need n ch : ℕ} (hP : P < 2 ^ 64) (hM : M < 2 ^ 64) (a : Alloc α) :
    ∀ (bs pre junk : List Block), a.tab = pre ++ (bs ++ junk) → a.count = pre.length + bs.length →
      a.tab.length = M → Within P bs →
      match lalloc (decide (¬ a.count < M)) need bs with
      | none => allocLoop P M need n ch a pre.length bs.length = some (a, .empty)
      | some (bs', off) => ∃ junk', pre.length + bs'.length + junk'.length = M ∧
          allocLoop P M need n ch a pre.length bs.length =
          some ({ a with tab := pre ++ (bs' ++ junk'), count := pre.length + bs'.length },
            ⟨.at a.obj off, ch, a.rate, n⟩) := by
  intro bs
  induction bs with
  | nil => intro pre junk _ _ _ _; simp [lalloc, allocLoop]
  | cons b bs ih =>
    intro pre junk htab hcount hlen hw
    have hb := hw b (by simp)
    have htab' : a.tab = pre ++ b :: (bs ++ junk) := by simpa using htab
    have hget : a.tab[pre.length]? = some b := by rw [htab']; exact get_split rfl
    have hlen' : pre.length + (bs.length + 1) + junk.length = M := by
      rw [← hlen, htab']; simp; omega
    simp only [List.length_cons] at hcount
    simp only [lalloc, List.length_cons, allocLoop, hget, Option.bind_some]
    by_cases hfit : (!b.used && decide (b.size ≥ need)) = true
    · rw [if_pos hfit, if_pos hfit]
      have hsz : need ≤ b.size := by simp at hfit; exact hfit.2
      have hrem : szSub b.size need = b.size - need := szSub_eq hsz (by omega)
      have hoff : ¬ b.offset > P := by omega
      simp only [hrem, if_neg hoff]
      by_cases hsplit : b.size - need > 0 ∧ a.count < M
      · rw [if_pos hsplit, if_pos ⟨hsplit.1, by simpa using hsplit.2⟩]
        simp only
        -- the table has room
        obtain ⟨x, junk1, rfl⟩ : ∃ x junk1, junk = x :: junk1 := by
          cases junk with
          | nil => simp at hlen'; omega
          | cons x j => exact ⟨x, j, rfl⟩
        simp only [List.length_cons] at hlen'
        refine ⟨junk1, by simp; omega, ?_⟩
        rw [htab', setAt_split rfl, Option.bind_some]
        obtain ⟨y, hy⟩ := shiftUp_spec (pre ++ [{ b with size := need, used := true }]) bs x junk1 a.count
          (by simp; omega) (by omega)
        rw [show a.count - (pre.length + 1) = bs.length by omega,
          show pre ++ { b with size := need, used := true } :: (bs ++ x :: junk1) =
            pre ++ [{ b with size := need, used := true }] ++ bs ++ x :: junk1 by simp, hy, Option.bind_some,
          setAt_split (by simp), szAdd_eq (by omega), szAdd_eq (by omega)]
        simp; omega
      · rw [if_neg hsplit, if_neg (by simpa using hsplit)]
        simp only
        refine ⟨junk, by simp; omega, ?_⟩
        rw [htab', setAt_split rfl]
        simp; omega
    · rw [if_neg hfit, if_neg hfit]
      have := ih (pre ++ [b]) junk (by rw [htab']; simp) (by simp; omega) hlen
        (fun c hc => hw c (by simp [hc]))
      simp only [List.length_append, List.length_singleton] at this
      cases hl : lalloc (decide (¬ a.count < M)) need bs with
      | none => rw [hl] at this; simpa using this
      | some r =>
        obtain ⟨bs', off⟩ := r
        rw [hl] at this
        obtain ⟨junk', h1, h2⟩ := this
        refine ⟨junk', by simp; omega, ?_⟩
        rw [h2]
        simp; omega

theorem mergeLoop_spec : ∀ (bs pre junk : List Block) (b : Block) (fuel : ℕ),
    pre.length + bs.length + 1 < 2 ^ 64 → bs.length < fuel →
    (b.size + (bs.map Block.size).sum < 2 ^ 64) →
    ∃ junk', (lmerge b bs).length + junk'.length = bs.length + 1 + junk.length ∧
      mergeLoop fuel pre.length (pre.length + bs.length + 1) (pre ++ b :: (bs ++ junk)) =
        some (pre.length + (lmerge b bs).length, pre ++ (lmerge b bs ++ junk')) := by
  intro bs
  induction bs with
  | nil =>
    intro pre junk b fuel h1 h2 h3
    refine ⟨junk, by simp [lmerge], ?_⟩
    obtain ⟨f, rfl⟩ : ∃ f, fuel = f + 1 := ⟨fuel - 1, by simp at h2; omega⟩
    rw [mergeLoop, if_neg (by rw [szSub_eq (by simp) (by simpa using h1)]; simp)]
    simp [lmerge]
  | cons c cs ih =>
    intro pre junk b fuel h1 h2 h3
    simp only [List.length_cons] at h1 h2
    simp only [List.map_cons, List.sum_cons] at h3
    obtain ⟨f, rfl⟩ : ∃ f, fuel = f + 1 := ⟨fuel - 1, by omega⟩
    have hs : szSub (pre.length + (c :: cs).length + 1) 1 = pre.length + cs.length + 1 := by
      rw [szSub_eq (by omega) (by simp; omega)]; simp; omega
    rw [mergeLoop, hs, if_pos (by omega), get_split rfl, Option.bind_some,
      show (pre ++ b :: ((c :: cs) ++ junk))[pre.length + 1]? = some c by
        rw [show pre ++ b :: ((c :: cs) ++ junk) = (pre ++ [b]) ++ c :: (cs ++ junk) by simp]
        exact get_split (by simp), Option.bind_some]
    by_cases hf : (!b.used && !c.used) = true
    · rw [if_pos hf, setAt_split rfl, Option.bind_some, szAdd_eq (by omega)]
      obtain ⟨y, hy⟩ := shiftDown_spec cs (pre ++ [{ b with size := b.size + c.size }]) c junk (pre.length + 1) (by simp)
      rw [show pre.length + cs.length + 1 - (pre.length + 1) = cs.length by omega,
        show pre ++ { b with size := b.size + c.size } :: ((c :: cs) ++ junk) =
          (pre ++ [{ b with size := b.size + c.size }]) ++ c :: (cs ++ junk) by simp, hy, Option.bind_some]
      obtain ⟨junk', h4, h5⟩ := ih pre (y :: junk) { b with size := b.size + c.size } f (by omega) (by omega)
        (by simp only; omega)
      refine ⟨junk', ?_, ?_⟩
      · simp only [lmerge, if_pos hf]; simp at h4 ⊢; omega
      · rw [show (pre ++ [{ b with size := b.size + c.size }]) ++ cs ++ y :: junk =
          pre ++ { b with size := b.size + c.size } :: (cs ++ y :: junk) by simp, h5]
        simp only [lmerge, if_pos hf]
    · rw [if_neg hf]
      obtain ⟨junk', h4, h5⟩ := ih (pre ++ [b]) junk c f (by simp; omega) (by omega) (by omega)
      refine ⟨junk', ?_, ?_⟩
      · simp only [lmerge, if_neg hf]; simp at h4 ⊢; omega
      · simp only [List.length_append, List.length_singleton] at h5
        rw [show pre.length + (c :: cs).length + 1 = pre.length + 1 + cs.length + 1 by simp; omega,
          show pre ++ b :: ((c :: cs) ++ junk) = pre ++ [b] ++ c :: (cs ++ junk) by simp, h5]
        have e : lmerge b (c :: cs) = b :: lmerge c cs := by rw [lmerge, if_neg hf]
        rw [e]
        simp; omega

omit [Arith α] in
theorem merge_spec (a : Alloc α) (b : Block) (bs junk : List Block) (htab : a.tab = b :: (bs ++ junk))
    (hcount : a.count = bs.length + 1) (hlt : bs.length + 1 < 2 ^ 64)
    (hsum : b.size + (bs.map Block.size).sum < 2 ^ 64) :
    ∃ junk', (lmerge b bs).length + junk'.length = bs.length + 1 + junk.length ∧
      merge a = some { a with tab := lmerge b bs ++ junk', count := (lmerge b bs).length } := by
  unfold merge
  by_cases h1 : a.count ≤ 1
  · have : bs = [] := by cases bs with
      | nil => rfl
      | cons c cs => simp at hcount; omega
    subst this
    refine ⟨junk, by simp [lmerge], ?_⟩
    rw [if_pos h1]
    cases a; simp_all [lmerge]
  · obtain ⟨junk', h4, h5⟩ := mergeLoop_spec bs [] junk b (a.count + 1) (by simpa using hlt) (by omega) hsum
    refine ⟨junk', h4, ?_⟩
    rw [if_neg h1, htab, hcount]
    simp only [List.length_nil, Nat.zero_add, List.nil_append] at h5
    rw [hcount] at h5
    rw [h5]
    simp

omit [Arith α] in
theorem releaseLoop_spec (a : Alloc α) (offset : ℕ) : ∀ (bs pre junk : List Block),
    a.tab = pre ++ (bs ++ junk) → a.count = pre.length + bs.length → pre.length + bs.length < 2 ^ 64 →
    ((pre ++ bs).map Block.size).sum < 2 ^ 64 →
      match lfree offset bs with
      | none => releaseLoop offset a pre.length bs.length = some (a, false)
      | some bs1 => ∃ b cs junk', pre ++ bs1 = b :: cs ∧
          (lmerge b cs).length + junk'.length = pre.length + bs.length + junk.length ∧
          releaseLoop offset a pre.length bs.length =
            some ({ a with tab := lmerge b cs ++ junk', count := (lmerge b cs).length }, true) := by
  intro bs
  induction bs with
  | nil => intro pre junk _ _ _ _; simp [lfree, releaseLoop]
  | cons x bs ih =>
    intro pre junk htab hcount hlt hsum
    have htab' : a.tab = pre ++ x :: (bs ++ junk) := by simpa using htab
    have hget : a.tab[pre.length]? = some x := by rw [htab']; exact get_split rfl
    simp only [lfree, List.length_cons, releaseLoop, hget, Option.bind_some]
    by_cases hfit : x.offset = offset ∧ x.used = true
    · rw [if_pos hfit, if_pos hfit]
      simp only
      obtain ⟨b, cs, hbc⟩ : ∃ b cs, pre ++ { x with used := false } :: bs = b :: cs := by
        cases pre with
        | nil => exact ⟨_, _, rfl⟩
        | cons p ps => exact ⟨_, _, rfl⟩
      have hlen : pre.length + (bs.length + 1) = cs.length + 1 := by
        have := congrArg List.length hbc; simp at this; omega
      have hsz : b.size + (cs.map Block.size).sum = ((pre ++ x :: bs).map Block.size).sum := by
        have := congrArg (fun l => (l.map Block.size).sum) hbc
        simp at this ⊢; omega
      obtain ⟨junk', h1, h2⟩ := merge_spec { a with tab := pre ++ { x with used := false } :: (bs ++ junk) } b cs junk
        (by
          show pre ++ { x with used := false } :: (bs ++ junk) = _
          have := congrArg (· ++ junk) hbc
          simpa using this)
        (by simp only [hcount, List.length_cons]; omega)
        (by simp only [List.length_cons] at hlt; omega) (by omega)
      refine ⟨b, cs, junk', hbc, by omega, ?_⟩
      rw [htab', setAt_split rfl, Option.bind_some, h2]
      simp
    · rw [if_neg hfit, if_neg hfit]
      have := ih (pre ++ [x]) junk (by rw [htab']; simp) (by simp [hcount]; omega) (by simp at hlt ⊢; omega)
        (by simpa using hsum)
      simp only [List.length_append, List.length_singleton] at this
      cases hl : lfree offset bs with
      | none => rw [hl] at this; simpa using this
      | some bs1 =>
        rw [hl] at this
        obtain ⟨b, cs, junk', h1, h2, h3⟩ := this
        refine ⟨b, cs, junk', ?_, ?_, h3⟩
        · simpa using h1
        · omega

/-- Total size of the free blocks. -/
def lfreeSpace (bs : List Block) : ℕ := ((bs.filter (fun b => !b.used)).map Block.size).sum

theorem freeLoop_spec (junk : List Block) : ∀ (bs pre : List Block) (f : ℕ), f + lfreeSpace bs < 2 ^ 64 →
    freeLoop (pre ++ (bs ++ junk)) pre.length bs.length f = some (f + lfreeSpace bs) := by
  intro bs
  induction bs with
  | nil => intro pre f _; simp [freeLoop, lfreeSpace]
  | cons x bs ih =>
    intro pre f hf
    rw [List.length_cons, freeLoop, show pre ++ ((x :: bs) ++ junk) = pre ++ x :: (bs ++ junk) by simp, get_split rfl,
      Option.bind_some]
    have h := ih (pre ++ [x])
    simp only [List.length_append, List.length_singleton] at h
    rw [show pre ++ x :: (bs ++ junk) = pre ++ [x] ++ (bs ++ junk) by simp]
    cases hx : x.used
    · have e : lfreeSpace (x :: bs) = x.size + lfreeSpace bs := by simp [lfreeSpace, hx]
      rw [e] at hf
      simp only [Bool.false_eq_true, if_false]
      rw [szAdd_eq (by omega), h _ (by omega), e]; congr 1; omega
    · have e : lfreeSpace (x :: bs) = lfreeSpace bs := by simp [lfreeSpace, hx]
      rw [e] at hf ⊢
      simp only [if_true]
      exact h _ hf

end Verif.BufferAllocator
