import Verif.Model.Blocks
import Verif.Model.SuperSaw
import Verif.Model.Filters
import Verif.Lemmas.Loops

/-!
# Property C56: block processing on memory

The loops of `Model/Blocks` replace the destination block by what the list functions of the model give on the source block, touch
nothing else, and are defined, provided the blocks exist and do not overlap in the harmful direction.
-/

namespace Verif
variable {α σ : Type}

/-- The memory `m` with the cells from index `k` of object `o` on replaced by `ys`. -/
def overwrite (m : Mem α) (o k : ℕ) (ys : List α) : Mem α :=
  fun o' => if o' = o then (m o).take k ++ ys ++ (m o).drop (k + ys.length) else m o'

/-- The `n` cells from index `k` of object `o` on. -/
def block (m : Mem α) (o k n : ℕ) : List α := ((m o).drop k).take n

theorem overwrite_get {m : Mem α} {o k : ℕ} {ys : List α} (h : k + ys.length ≤ (m o).length) (o' j : ℕ) :
    (overwrite m o k ys o')[j]? = if o' = o ∧ k ≤ j ∧ j < k + ys.length then ys[j - k]? else (m o')[j]? := by
  unfold overwrite
  by_cases ho : o' = o
  · subst ho
    rw [if_pos rfl]
    have hk : ((m o').take k).length = k := by rw [List.length_take]; omega
    by_cases h1 : j < k
    · rw [if_neg (by omega), List.append_assoc, List.getElem?_append_left (by omega), List.getElem?_take_of_lt h1]
    · by_cases h2 : j < k + ys.length
      · rw [if_pos ⟨rfl, by omega, h2⟩, List.append_assoc, List.getElem?_append_right (by omega), hk,
          List.getElem?_append_left (by omega)]
      · rw [if_neg (by omega), List.getElem?_append_right (by rw [List.length_append]; omega), List.length_append, hk,
          List.getElem?_drop]
        congr 1; omega
  · rw [if_neg ho, if_neg (fun c => ho c.1)]

theorem overwrite_length {m : Mem α} {o k : ℕ} {ys : List α} (h : k + ys.length ≤ (m o).length) (o' : ℕ) :
    (overwrite m o k ys o').length = (m o').length := by
  unfold overwrite
  split_ifs with ho
  · subst ho; simp only [List.length_append, List.length_take, List.length_drop]; omega
  · rfl

theorem mem_ext {m m' : Mem α} (h : ∀ o j : ℕ, (m o)[j]? = (m' o)[j]?) : m = m' := by
  funext o; exact List.ext_getElem? (h o)

theorem overwrite_nil (m : Mem α) (o k : ℕ) : overwrite m o k [] = m := by
  funext o'; unfold overwrite; split_ifs with h
  · subst h; simp
  · rfl

theorem overwrite_cons {m : Mem α} {o k : ℕ} {y : α} {ys : List α} (h : k + 1 + ys.length ≤ (m o).length) :
    overwrite (overwrite m o k [y]) o (k + 1) ys = overwrite m o k (y :: ys) := by
  have h1 : k + [y].length ≤ (m o).length := by simp; omega
  refine mem_ext fun o' j => ?_
  rw [overwrite_get (by rw [overwrite_length h1]; omega), overwrite_get h1, overwrite_get (by simp; omega)]
  simp only [List.length_cons, List.length_nil]
  by_cases ho : o' = o
  · simp only [ho, true_and]
    rcases lt_trichotomy j k with hj | hj | hj
    · rw [if_neg (by omega), if_neg (by omega), if_neg (by omega)]
    · rw [if_neg (by omega), if_pos (by omega), if_pos (by omega)]; subst hj; simp
    · by_cases h2 : j < k + 1 + ys.length
      · rw [if_pos (by omega), if_pos (by omega), show j - k = (j - (k + 1)) + 1 by omega, List.getElem?_cons_succ]
      · rw [if_neg (by omega), if_neg (by omega), if_neg (by omega)]
  · simp [ho]

/-- Two blocks of cells have no cell in common. -/
def Apart (o k n o' k' n' : ℕ) : Prop := o ≠ o' ∨ k + n ≤ k' ∨ k' + n' ≤ k

theorem overwrite_comm {m : Mem α} {o k o' k' : ℕ} {ys zs : List α} (h : k + ys.length ≤ (m o).length)
    (h' : k' + zs.length ≤ (m o').length) (hd : Apart o k ys.length o' k' zs.length) :
    overwrite (overwrite m o k ys) o' k' zs = overwrite (overwrite m o' k' zs) o k ys := by
  refine mem_ext fun a j => ?_
  rw [overwrite_get (by rw [overwrite_length h]; exact h'), overwrite_get h,
    overwrite_get (by rw [overwrite_length h']; exact h), overwrite_get h']
  unfold Apart at hd
  by_cases c1 : a = o ∧ k ≤ j ∧ j < k + ys.length
  · have c2 : ¬ (a = o' ∧ k' ≤ j ∧ j < k' + zs.length) := by
      rintro ⟨e, _, _⟩
      obtain ⟨e', _, _⟩ := c1
      rcases hd with hd | hd | hd
      · exact hd (e'.symm.trans e)
      · omega
      · omega
    rw [if_neg c2, if_pos c1, if_pos c1]
  · rw [if_neg c1]; split_ifs <;> rfl

theorem block_get {m : Mem α} {o k n i : ℕ} (h : i < n) : (block m o k n)[i]? = (m o)[k + i]? := by
  unfold block; rw [List.getElem?_take_of_lt h, List.getElem?_drop]

theorem block_length {m : Mem α} {o k n : ℕ} (h : k + n ≤ (m o).length) : (block m o k n).length = n := by
  unfold block; rw [List.length_take, List.length_drop]; omega

theorem block_succ {m : Mem α} {o k n : ℕ} (h : k + (n + 1) ≤ (m o).length) :
    ∃ x, (m o)[k]? = some x ∧ block m o k (n + 1) = x :: block m o (k + 1) n := by
  have hk : k < (m o).length := by omega
  exact ⟨(m o)[k], List.getElem?_eq_getElem hk, by unfold block; rw [List.drop_eq_getElem_cons hk]; rfl⟩

theorem block_overwrite {m : Mem α} {o k n o' k' : ℕ} {ys : List α} (h : k + n ≤ (m o).length)
    (h' : k' + ys.length ≤ (m o').length) (hd : Apart o k n o' k' ys.length) : block (overwrite m o' k' ys) o k n = block m o k n := by
  apply List.ext_getElem?
  intro i
  by_cases hi : i < n
  · rw [block_get hi, block_get hi, overwrite_get h', if_neg]
    rintro ⟨e, h1, h2⟩
    rcases hd with hd | hd | hd
    · exact hd e
    · omega
    · omega
  · rw [List.getElem?_eq_none (by rw [block_length (by rw [overwrite_length h']; exact h)]; omega),
      List.getElem?_eq_none (by rw [block_length h]; omega)]

theorem store_eq {m : Mem α} {o k i : ℕ} (x : α) (h : k + i < (m o).length) :
    m.store (.at o k) i x = some (overwrite m o (k + i) [x]) := by
  have h' : k + i + [x].length ≤ (m o).length := by simp; omega
  simp only [Mem.store, if_pos h, Option.some.injEq]
  refine mem_ext fun o' j => ?_
  rw [overwrite_get h']
  by_cases ho : o' = o
  · subst ho
    rw [Function.update_self, List.getElem?_set]
    simp only [List.length_cons, List.length_nil, true_and]
    by_cases hj : k + i = j
    · subst hj; simp [h]
    · rw [if_neg hj, if_neg (by omega)]
  · rw [Function.update_of_ne ho, if_neg (fun c => ho c.1)]

theorem forLoop_shift (body : ℕ → σ → Option σ) (lo n : ℕ) (s : σ) :
    forLoop body (lo + 1) n s = forLoop (fun i => body (i + 1)) lo n s := by
  induction n generalizing lo s with
  | zero => rfl
  | succ n ih => simp only [forLoop]; congr 1; funext t; exact ih (lo + 1) t

theorem load_succ (m : Mem α) (o k i : ℕ) : m.load (.at o k) (i + 1) = m.load (.at o (k + 1)) i := by
  simp only [Mem.load]; congr 1; omega

theorem store_succ (m : Mem α) (o k i : ℕ) (x : α) : m.store (.at o k) (i + 1) x = m.store (.at o (k + 1)) i x := by
  simp only [Mem.store]; rw [show k + (i + 1) = k + 1 + i by omega]

/-- **C56**, `dst[i] = step(src[i])`: if both blocks exist and the destination does not start inside the source block after its first
cell (equal pointers are fine), the loop is defined, its final state is that of the list function on the source block, the destination
block becomes its output and no other cell changes. -/
theorem C56_map (step : σ → α → σ × α) (o k o' k' n : ℕ) (s : σ) (m : Mem α) (hs : k + n ≤ (m o).length) (hd : k' + n ≤ (m o').length)
    (hov : o ≠ o' ∨ k' ≤ k ∨ k + n ≤ k') :
    let r := forEach step s (block m o k n)
    loopMap step (.at o k) (.at o' k') n s m = some (r.1, overwrite m o' k' r.2) := by
  induction n generalizing s m k k' with
  | zero =>
    have e : block m o k 0 = [] := by simp [block]
    simp only [e, forEach, overwrite_nil]; rfl
  | succ n ih =>
    obtain ⟨x, hx, hb⟩ := block_succ hs
    have hst : m.store (.at o' k') 0 (step s x).2 = some (overwrite m o' k' [(step s x).2]) := store_eq _ (by omega)
    have h1 : k' + [(step s x).2].length ≤ (m o').length := by simp; omega
    have hlen := overwrite_length h1
    have key := ih (k + 1) (k' + 1) (step s x).1 (overwrite m o' k' [(step s x).2]) (by rw [hlen]; omega) (by rw [hlen]; omega)
      (by rcases hov with h | h | h
          · exact Or.inl h
          · exact Or.inr (Or.inl (by omega))
          · exact Or.inr (Or.inr (by omega)))
    have hbl : block (overwrite m o' k' [(step s x).2]) o (k + 1) n = block m o (k + 1) n :=
      block_overwrite (by omega) h1 (by
        rcases hov with h | h | h
        · exact Or.inl h
        · exact Or.inr (Or.inr (by simp; omega))
        · exact Or.inr (Or.inl (by omega)))
    rw [hbl] at key
    have hl : (forEach step (step s x).1 (block m o (k + 1) n)).2.length = n := by
      rw [forEach_length, block_length (by omega)]
    intro r
    have hr : r = ((forEach step (step s x).1 (block m o (k + 1) n)).1, (step s x).2 :: (forEach step (step s x).1 (block m o (k + 1) n)).2) := by
      show forEach step s (block m o k (n + 1)) = _
      rw [hb]; rfl
    rw [hr]
    dsimp only at key ⊢
    rw [overwrite_cons (by rw [hl]; omega)] at key
    rw [← key]
    unfold loopMap
    rw [forLoop]
    have hx' : m.load (.at o k) 0 = some x := hx
    simp only [hx', Option.bind_some, hst, Option.map_some]
    rw [forLoop_shift]
    simp only [load_succ, store_succ]

/-- Calling a filter in place and on a separate output give the same samples: for both calls of `Lag` the output block is the list
function on the input block. -/
example [Arith α] [Libm α] (s : Lag.Filt α) (m : Mem α) (h0 : (m 0).length = 64) (h1 : (m 1).length = 64) :
    loopMap Lag.tick (.at 0 0) (.at 0 0) 64 s m = some ((Lag.process s (block m 0 0 64)).1, overwrite m 0 0 (Lag.process s (block m 0 0 64)).2) ∧
    loopMap Lag.tick (.at 0 0) (.at 1 0) 64 s m = some ((Lag.process s (block m 0 0 64)).1, overwrite m 1 0 (Lag.process s (block m 0 0 64)).2) :=
  ⟨C56_map Lag.tick 0 0 0 0 64 s m (by omega) (by omega) (by omega), C56_map Lag.tick 0 0 1 0 64 s m (by omega) (by omega) (by omega)⟩

/-- **C56, negative**: the condition is needed. With the output one cell behind the input, copying a block of three (`Lag` with lag time
zero, or any pass-through) repeats the first sample instead. -/
theorem C56_overlap_smears :
    ∃ m : Mem ℕ, (loopMap (fun (s : Unit) x => (s, x)) (.at 0 0) (.at 0 1) 3 () m).map (fun r => r.2 0) = some [1, 1, 1, 1] ∧
      overwrite m 0 1 (forEach (fun (s : Unit) x => (s, x)) () (block m 0 0 3)).2 0 = [1, 1, 2, 3] :=
  ⟨fun _ => [1, 2, 3, 4], by decide, by decide⟩

/-- **C56**, `dst[i] = tick()`: if the block exists the loop is defined and replaces it by the list of successive ticks. -/
theorem C56_gen (tick : σ → σ × α) (o k n : ℕ) (s : σ) (m : Mem α) (hd : k + n ≤ (m o).length) :
    loopGen tick (.at o k) n s m = some ((ticks tick n s).1, overwrite m o k (ticks tick n s).2) := by
  induction n generalizing s m k with
  | zero => simp only [ticks, overwrite_nil]; rfl
  | succ n ih =>
    have hst : m.store (.at o k) 0 (tick s).2 = some (overwrite m o k [(tick s).2]) := store_eq _ (by omega)
    have h1 : k + [(tick s).2].length ≤ (m o).length := by simp; omega
    have key := ih (k + 1) (tick s).1 (overwrite m o k [(tick s).2]) (by rw [overwrite_length h1]; omega)
    rw [overwrite_cons (by rw [ticks_length]; omega)] at key
    show _ = some ((ticks tick n (tick s).1).1, overwrite m o k ((tick s).2 :: (ticks tick n (tick s).1).2))
    rw [← key]
    unfold loopGen
    rw [forLoop]
    simp only [hst, Option.map_some, Option.bind_some]
    rw [forLoop_shift]
    simp only [store_succ]

/-- **C56**, `Stereo s = tick(); l[i] = s.left; r[i] = s.right`: with two separate blocks each channel ends in its block. -/
theorem C56_gen_stereo (tick : σ → σ × Stereo α) (o k o' k' n : ℕ) (s : σ) (m : Mem α) (hl : k + n ≤ (m o).length)
    (hr : k' + n ≤ (m o').length) (hap : Apart o k n o' k' n) :
    loopGenStereo tick (.at o k) (.at o' k') n s m = some ((ticks tick n s).1,
      overwrite (overwrite m o k ((ticks tick n s).2.map Stereo.left)) o' k' ((ticks tick n s).2.map Stereo.right)) := by
  induction n generalizing s m k k' with
  | zero => simp only [ticks, List.map_nil, overwrite_nil]; rfl
  | succ n ih =>
    have hst : m.store (.at o k) 0 (tick s).2.left = some (overwrite m o k [(tick s).2.left]) := store_eq _ (by omega)
    have h1 : k + [(tick s).2.left].length ≤ (m o).length := by simp; omega
    have hst' : (overwrite m o k [(tick s).2.left]).store (.at o' k') 0 (tick s).2.right =
        some (overwrite (overwrite m o k [(tick s).2.left]) o' k' [(tick s).2.right]) :=
      store_eq _ (by rw [overwrite_length h1]; omega)
    have h2 : k' + [(tick s).2.right].length ≤ (overwrite m o k [(tick s).2.left] o').length := by
      rw [overwrite_length h1]; simp; omega
    have hlen : ∀ a, (overwrite (overwrite m o k [(tick s).2.left]) o' k' [(tick s).2.right] a).length = (m a).length := fun a => by
      rw [overwrite_length h2, overwrite_length h1]
    have hap' : Apart o (k + 1) n o' (k' + 1) n := by unfold Apart at *; omega
    have key := ih (k + 1) (k' + 1) (tick s).1 (overwrite (overwrite m o k [(tick s).2.left]) o' k' [(tick s).2.right])
      (by rw [hlen]; omega) (by rw [hlen]; omega) hap'
    have e : overwrite (overwrite (overwrite (overwrite m o k [(tick s).2.left]) o' k' [(tick s).2.right]) o (k + 1)
          ((ticks tick n (tick s).1).2.map Stereo.left)) o' (k' + 1) ((ticks tick n (tick s).1).2.map Stereo.right) =
        overwrite (overwrite m o k ((tick s).2.left :: (ticks tick n (tick s).1).2.map Stereo.left)) o' k'
          ((tick s).2.right :: (ticks tick n (tick s).1).2.map Stereo.right) := by
      have l1 : ((ticks tick n (tick s).1).2.map Stereo.left).length = n := by simp
      have l2 : ((ticks tick n (tick s).1).2.map Stereo.right).length = n := by simp
      rw [overwrite_comm (ys := [(tick s).2.right]) (zs := (ticks tick n (tick s).1).2.map Stereo.left) h2
        (by rw [overwrite_length h1, l1]; omega) (by rw [l1]; unfold Apart at *; simp; omega)]
      rw [overwrite_cons (m := m) (by rw [l1]; omega), overwrite_cons (by rw [overwrite_length (by simp; omega), l2]; omega)]
    rw [e] at key
    show _ = some ((ticks tick n (tick s).1).1, overwrite (overwrite m o k ((tick s).2.left :: (ticks tick n (tick s).1).2.map Stereo.left)) o' k'
          ((tick s).2.right :: (ticks tick n (tick s).1).2.map Stereo.right))
    rw [← key]
    unfold loopGenStereo
    rw [forLoop]
    simp only [hst, hst', Option.map_some, Option.bind_some]
    rw [forLoop_shift]
    simp only [store_succ]

/-- **C56**: with one pointer passed for both channels the block ends with the right channel; the left one is lost. -/
theorem C56_gen_stereo_same (tick : σ → σ × Stereo α) (o k n : ℕ) (s : σ) (m : Mem α) (hl : k + n ≤ (m o).length) :
    loopGenStereo tick (.at o k) (.at o k) n s m =
      some ((ticks tick n s).1, overwrite m o k ((ticks tick n s).2.map Stereo.right)) := by
  induction n generalizing s m k with
  | zero => simp only [ticks, List.map_nil, overwrite_nil]; rfl
  | succ n ih =>
    have hst : m.store (.at o k) 0 (tick s).2.left = some (overwrite m o k [(tick s).2.left]) := store_eq _ (by omega)
    have h1 : k + [(tick s).2.left].length ≤ (m o).length := by simp; omega
    have hst' : (overwrite m o k [(tick s).2.left]).store (.at o k) 0 (tick s).2.right = some (overwrite m o k [(tick s).2.right]) := by
      rw [store_eq _ (by rw [overwrite_length h1]; omega)]
      congr 1
      refine mem_ext fun a j => ?_
      rw [overwrite_get (by rw [overwrite_length h1]; simp; omega), overwrite_get h1, overwrite_get (by simp; omega)]
      simp only [List.length_cons, List.length_nil, Nat.add_zero]
      split_ifs <;> rfl
    have key := ih (k + 1) (tick s).1 (overwrite m o k [(tick s).2.right]) (by rw [overwrite_length (by simp; omega)]; omega)
    rw [overwrite_cons (by rw [List.length_map, ticks_length]; omega)] at key
    show _ = some ((ticks tick n (tick s).1).1, overwrite m o k ((tick s).2.right :: (ticks tick n (tick s).1).2.map Stereo.right))
    rw [← key]
    unfold loopGenStereo
    rw [forLoop]
    simp only [hst, hst', Option.map_some, Option.bind_some]
    rw [forLoop_shift]
    simp only [store_succ]

/-- **C56**, `Stereo s = tick(l[i], r[i]); l[i] = s.left; r[i] = s.right`: with two separate blocks the frames of the two blocks are
replaced by the list function on them. -/
theorem C56_map_stereo (step : σ → Stereo α → σ × Stereo α) (o k o' k' n : ℕ) (s : σ) (m : Mem α) (hl : k + n ≤ (m o).length)
    (hr : k' + n ≤ (m o').length) (hap : Apart o k n o' k' n) :
    let r := forEach step s (List.zipWith Stereo.mk (block m o k n) (block m o' k' n))
    loopMapStereo step (.at o k) (.at o' k') n s m = some (r.1,
      overwrite (overwrite m o k (r.2.map Stereo.left)) o' k' (r.2.map Stereo.right)) := by
  induction n generalizing s m k k' with
  | zero =>
    have e : block m o k 0 = [] := by simp [block]
    simp only [e, List.zipWith_nil_left, forEach, List.map_nil, overwrite_nil]; rfl
  | succ n ih =>
    obtain ⟨x, hx, hb⟩ := block_succ hl
    obtain ⟨z, hz, hb'⟩ := block_succ hr
    set f := step s ⟨x, z⟩ with hf
    have hst : m.store (.at o k) 0 f.2.left = some (overwrite m o k [f.2.left]) := store_eq _ (by omega)
    have h1 : k + [f.2.left].length ≤ (m o).length := by simp; omega
    have hst' : (overwrite m o k [f.2.left]).store (.at o' k') 0 f.2.right =
        some (overwrite (overwrite m o k [f.2.left]) o' k' [f.2.right]) := store_eq _ (by rw [overwrite_length h1]; omega)
    have h2 : k' + [f.2.right].length ≤ (overwrite m o k [f.2.left] o').length := by
      rw [overwrite_length h1]; simp; omega
    have hlen : ∀ a, (overwrite (overwrite m o k [f.2.left]) o' k' [f.2.right] a).length = (m a).length := fun a => by
      rw [overwrite_length h2, overwrite_length h1]
    have hap' : Apart o (k + 1) n o' (k' + 1) n := by unfold Apart at *; omega
    have key := ih (k + 1) (k' + 1) f.1 (overwrite (overwrite m o k [f.2.left]) o' k' [f.2.right])
      (by rw [hlen]; omega) (by rw [hlen]; omega) hap'
    have b1 : block (overwrite (overwrite m o k [f.2.left]) o' k' [f.2.right]) o (k + 1) n = block m o (k + 1) n := by
      rw [block_overwrite (by rw [overwrite_length h1]; omega) h2 (by unfold Apart at *; simp; omega),
        block_overwrite (by omega) h1 (by unfold Apart at *; simp)]
    have b2 : block (overwrite (overwrite m o k [f.2.left]) o' k' [f.2.right]) o' (k' + 1) n = block m o' (k' + 1) n := by
      rw [block_overwrite (by rw [overwrite_length h1]; omega) h2 (by unfold Apart at *; simp),
        block_overwrite (by omega) h1 (by unfold Apart at *; simp; omega)]
    rw [b1, b2] at key
    intro r
    have hrr : r = ((forEach step f.1 (List.zipWith Stereo.mk (block m o (k + 1) n) (block m o' (k' + 1) n))).1,
        f.2 :: (forEach step f.1 (List.zipWith Stereo.mk (block m o (k + 1) n) (block m o' (k' + 1) n))).2) := by
      show forEach step s (List.zipWith Stereo.mk (block m o k (n + 1)) (block m o' k' (n + 1))) = _
      rw [hb, hb']; rfl
    rw [hrr]
    dsimp only at key ⊢
    have ln : (forEach step f.1 (List.zipWith Stereo.mk (block m o (k + 1) n) (block m o' (k' + 1) n))).2.length = n := by
      rw [forEach_length, List.length_zipWith, block_length (by omega), block_length (by omega), min_self]
    generalize forEach step f.1 (List.zipWith Stereo.mk (block m o (k + 1) n) (block m o' (k' + 1) n)) = q at key ln
    have l1 : (q.2.map Stereo.left).length = n := by simp [ln]
    have l2 : (q.2.map Stereo.right).length = n := by simp [ln]
    rw [overwrite_comm (ys := [f.2.right]) (zs := q.2.map Stereo.left) h2
        (by rw [overwrite_length h1, l1]; omega) (by rw [l1]; unfold Apart at *; simp; omega),
      overwrite_cons (m := m) (by rw [l1]; omega), overwrite_cons (by rw [overwrite_length (by simp [ln]; omega), l2]; omega)] at key
    simp only [List.map_cons]
    rw [← key]
    unfold loopMapStereo
    rw [forLoop]
    have hx' : m.load (.at o k) 0 = some x := hx
    have hz' : m.load (.at o' k') 0 = some z := hz
    simp only [hx', hz', Option.bind_some, ← hf, hst, hst', Option.map_some]
    rw [forLoop_shift]
    simp only [load_succ, store_succ]

/-- **C56**: a block that does not fit its object is undefined behaviour for a generator, after the cells that fit; so is a null
pointer unless the block is empty. -/
theorem C56_gen_outside (tick : σ → σ × α) (o k n : ℕ) (s : σ) (m : Mem α) (hn : 0 < n) :
    loopGen tick .null n s m = none ∧ ((m o).length < k + n → loopGen tick (.at o k) n s m = none) := by
  constructor
  · obtain ⟨j, rfl⟩ : ∃ j, n = j + 1 := ⟨n - 1, by omega⟩
    rfl
  · induction n generalizing s m k with
    | zero => omega
    | succ n ih =>
      intro h
      unfold loopGen
      rw [forLoop]
      by_cases hk : k < (m o).length
      · have hst : m.store (.at o k) 0 (tick s).2 = some (overwrite m o k [(tick s).2]) := store_eq _ (by omega)
        have h1 : k + [(tick s).2].length ≤ (m o).length := by simp; omega
        simp only [hst, Option.map_some, Option.bind_some]
        rw [forLoop_shift]
        simp only [store_succ]
        exact ih (k + 1) (tick s).1 (overwrite m o k [(tick s).2]) (by omega) (by rw [overwrite_length h1]; omega)
      · have : m.store (.at o k) 0 (tick s).2 = none := by simp only [Mem.store]; rw [if_neg (by omega)]
        simp only [this, Option.map_none, Option.bind_none]

/-- SuperSaw on two separate blocks of 64: the call is defined and writes the frames of the list function. -/
example [Arith α] [Libm α] (s : SuperSaw.Synth α) (m : Mem α) (h0 : (m 0).length = 64) (h1 : (m 1).length = 64) :
    loopGenStereo SuperSaw.tick (.at 0 0) (.at 1 0) 64 s m = some ((ticks SuperSaw.tick 64 s).1,
      overwrite (overwrite m 0 0 ((ticks SuperSaw.tick 64 s).2.map Stereo.left)) 1 0 ((ticks SuperSaw.tick 64 s).2.map Stereo.right)) :=
  C56_gen_stereo SuperSaw.tick 0 0 1 0 64 s m (by omega) (by omega) (Or.inl (by omega))

end Verif
