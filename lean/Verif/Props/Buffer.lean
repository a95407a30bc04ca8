import Verif.Props.Allocator

/-!
# C07 (fills), C09, C10: buffer access
-/

set_option linter.unusedSectionVars false

namespace Verif
variable {α : Type} [Arith α]

/-- Invariant rule for a counted loop that must not run into undefined behaviour. -/
theorem forLoop_inv {σ : Type} {body : ℕ → σ → Option σ} (I : ℕ → σ → Prop) :
    ∀ (n lo : ℕ) (s : σ), (∀ i s, lo ≤ i → i < lo + n → I i s → ∃ s', body i s = some s' ∧ I (i + 1) s') → I lo s →
      ∃ s', forLoop body lo n s = some s' ∧ I (lo + n) s' := by
  intro n
  induction n with
  | zero => intro lo s _ hs; exact ⟨s, rfl, hs⟩
  | succ n ih =>
    intro lo s h hs
    obtain ⟨s1, h1, h2⟩ := h lo s (le_refl _) (by omega) hs
    obtain ⟨s2, h3, h4⟩ := ih (lo + 1) s1 (fun i s hi1 hi2 => h i s (by omega) (by omega)) h2
    exact ⟨s2, by rw [forLoop, h1, Option.bind_some, h3], by rw [show lo + (n + 1) = lo + 1 + n by omega]; exact h4⟩

namespace Buffer

/-- The buffer describes `numSamples * channels` floats that exist, in an object of a 64-bit address space, and has one or
two channels: what a program is entitled to assume of a valid buffer. -/
structure Backed (b : Buffer α) (m : Mem α) (o k : ℕ) : Prop where
  data : b.data = .at o k
  ch : b.channels = 1 ∨ b.channels = 2
  room : k + b.numSamples * b.channels ≤ (m o).length
  addr : (m o).length < 2 ^ 62

/-- `count` floats can be read from `src`, and none of them is among the `floats` floats at `(o, k)`. -/
def Source (m : Mem α) (src : Ptr) (count o k floats : ℕ) : Prop :=
  ∃ o' k', src = .at o' k' ∧ k' + count ≤ (m o').length ∧ (o' ≠ o ∨ k' + count ≤ k ∨ k + floats ≤ k')

/-- The buffer's frame count is limited by its memory. -/
theorem Backed.small {b : Buffer α} {m : Mem α} {o k : ℕ} (h : b.Backed m o k) :
    k + b.numSamples * b.channels < 2 ^ 62 ∧ b.numSamples < 2 ^ 62 := by
  have h1 := h.room
  have h2 := h.addr
  refine ⟨by omega, ?_⟩
  rcases h.ch with h3 | h3 <;> rw [h3] at h1 <;> omega

/-! ## C10 -/

/-- **C10, memory safety and range.** For a backed buffer no index makes the accessors leave the buffer's memory; indices at
or beyond `numSamples` give zero; the result depends only on the buffer's own floats. -/
theorem C10_accessors_safe {b : Buffer α} {m : Mem α} {o k : ℕ} (h : b.Backed m o k) (i : ℕ) :
    (∃ x, b.getSample m i = some x) ∧ (∃ s, b.getStereoSample m i = some s) ∧
      (b.numSamples ≤ i → b.getSample m i = some (lit 0) ∧ b.getStereoSample m i = some Stereo.zero) ∧
      (∀ m' : Mem α, (∀ j, k ≤ j → j < k + b.numSamples * b.channels → (m' o)[j]? = (m o)[j]?) →
        b.getSample m' i = b.getSample m i ∧ b.getStereoSample m' i = b.getStereoSample m i) := by
  have hs := h.small
  have hr := h.room
  rcases Nat.lt_or_ge i b.numSamples with hi | hi
  · have hc : ¬ (b.data = .null ∨ i ≥ b.numSamples) := by rw [h.data]; simp; omega
    have hget : ∀ j, j < k + b.numSamples * b.channels → ∃ x, (m o)[j]? = some x := fun j hj =>
      ⟨(m o)[j]'(by omega), by simp⟩
    have e1 : ∀ m : Mem α, b.getSample m i = (m o)[k + szMul i b.channels]? := by
      intro m; rw [getSample, if_neg hc, h.data]; rfl
    rcases h.ch with hch | hch
    · have e2 : ∀ m : Mem α, b.getStereoSample m i = (m o)[k + i]?.map Stereo.ofMono := by
        intro m; rw [getStereoSample, if_neg hc, if_pos hch, h.data]; rfl
      have e3 : szMul i b.channels = i := by
        rw [hch, BufferAllocator.szMul_eq (by omega)]; omega
      obtain ⟨x, hx⟩ := hget (k + i) (by rw [hch]; omega)
      refine ⟨⟨x, by rw [e1, e3, hx]⟩, ⟨_, by rw [e2, hx]; rfl⟩, fun hi' => by omega, ?_⟩
      intro m' hm
      rw [e1, e1, e2, e2, e3, hm (k + i) (by omega) (by rw [hch]; omega)]
      exact ⟨rfl, rfl⟩
    · have e0 : szMul i 2 = 2 * i := by rw [BufferAllocator.szMul_eq (by omega)]; omega
      have e00 : szAdd (2 * i) 1 = 2 * i + 1 := BufferAllocator.szAdd_eq (by omega)
      have e2 : ∀ m : Mem α, b.getStereoSample m i =
          (m o)[k + 2 * i]?.bind fun l => (m o)[k + (2 * i + 1)]?.map fun r => (⟨l, r⟩ : Stereo α) := by
        intro m; rw [getStereoSample, if_neg hc, if_neg (by omega), h.data]
        simp only [Mem.load, e0, e00]
      have e3 : szMul i b.channels = 2 * i := by rw [hch, e0]
      obtain ⟨x, hx⟩ := hget (k + 2 * i) (by rw [hch]; omega)
      obtain ⟨y, hy⟩ := hget (k + (2 * i + 1)) (by rw [hch]; omega)
      refine ⟨⟨x, by rw [e1, e3, hx]⟩, ⟨_, by rw [e2, hx, hy]; rfl⟩, fun hi' => by omega, ?_⟩
      intro m' hm
      rw [e1, e1, e2, e2, e3, hm (k + 2 * i) (by omega) (by rw [hch]; omega),
        hm (k + (2 * i + 1)) (by omega) (by rw [hch]; omega)]
      exact ⟨rfl, rfl⟩
  · have e1 : ∀ m : Mem α, b.getSample m i = some (lit 0) := by
      intro m; rw [getSample, if_pos (Or.inr hi)]
    have e2 : ∀ m : Mem α, b.getStereoSample m i = some Stereo.zero := by
      intro m; rw [getStereoSample, if_pos (Or.inr hi)]
    exact ⟨⟨_, e1 m⟩, ⟨_, e2 m⟩, fun _ => ⟨e1 m, e2 m⟩, fun m' _ => ⟨by rw [e1, e1], by rw [e2, e2]⟩⟩

/-- **C10, channels.** A mono buffer gives the same sample on both channels; for a stereo buffer `getSample` is the left
channel. -/
theorem C10_mono_stereo_agree {b : Buffer α} {m : Mem α} {o k : ℕ} (h : b.Backed m o k) (i : ℕ) :
    (b.channels = 1 → b.getStereoSample m i = (b.getSample m i).map Stereo.ofMono) ∧
      (b.channels = 2 → b.getSample m i = (b.getStereoSample m i).map Stereo.left) := by
  have hs := h.small
  have hr := h.room
  by_cases hc : b.data = .null ∨ i ≥ b.numSamples
  · simp only [getSample, getStereoSample, if_pos hc]
    exact ⟨fun _ => rfl, fun _ => rfl⟩
  · have hi : i < b.numSamples := by
      by_contra hi
      exact hc (Or.inr (by omega))
    constructor
    · intro hch
      rw [getSample, getStereoSample, if_neg hc, if_neg hc, if_pos hch, hch, BufferAllocator.szMul_eq (by omega), Nat.mul_one]
    · intro hch
      obtain ⟨s, hs⟩ := (C10_accessors_safe h i).2.1
      rw [hs]
      rw [getStereoSample, if_neg hc, if_neg (by omega)] at hs
      rw [getSample, if_neg hc, hch]
      simp only at hs
      cases hl : m.load b.data (szMul i 2) with
      | none => rw [hl] at hs; simp at hs
      | some l =>
        rw [hl] at hs
        cases hr : m.load b.data (szAdd (szMul i 2) 1) with
        | none => rw [hr] at hs; simp at hs
        | some r => rw [hr] at hs; simp at hs; subst hs; rfl

/-- **C10, null or empty buffers** give zero for every index, whatever the memory. -/
theorem C10_null_or_empty_silent {b : Buffer α} (h : b.data = .null ∨ b.numSamples = 0) (m : Mem α) (i : ℕ) :
    b.getSample m i = some (lit 0) ∧ b.getStereoSample m i = some Stereo.zero := by
  have hc : b.data = .null ∨ i ≥ b.numSamples := by
    rcases h with h | h
    · exact Or.inl h
    · exact Or.inr (by omega)
  exact ⟨by rw [getSample, if_pos hc], by rw [getStereoSample, if_pos hc]⟩

/-- **C10, negation for buffers with a bad channel count.** The accessors do not look at `isValid()`: a buffer with
`channels = 0` is invalid and owns no float, yet `getStereoSample(0)` reads memory (here outside the object). -/
theorem C10_bad_channels_read :
    ∃ (b : Buffer F32) (m : Mem F32), b.isValid = false ∧ b.totalFloats = 0 ∧ b.getStereoSample m 0 = none :=
  ⟨⟨.at 0 0, 0, lit 48000, 1⟩, fun _ => [], by decide, by decide, by decide⟩

/-! ## C09 -/

/-- `min(count, numSamples)`. -/
def frames (b : Buffer α) (count : ℕ) : ℕ := min count b.numSamples

theorem toCopy_eq (b : Buffer α) (count : ℕ) :
    (if count < b.numSamples then count else b.numSamples) = b.frames count := by
  unfold frames; split_ifs <;> omega

theorem isValid_of {b : Buffer α} {m : Mem α} {o k : ℕ} (h : b.Backed m o k) (hn : 0 < b.numSamples) :
    b.isValid = true := by
  rw [isValid, h.data]
  rcases h.ch with hc | hc <;> simp [hc] <;> omega

/-- Copying `n` floats from `src` to `(o, k)`. -/
theorem copy_spec {m : Mem α} {src : Ptr} {o k n : ℕ} (hroom : k + n ≤ (m o).length) (hsrc : Source m src n o k n) :
    ∃ m', forLoop (fun i m => (m.load src i).bind fun x => m.store (.at o k) i x) 0 n m = some m' ∧
      ∀ o2 j, (m' o2)[j]? = if o2 = o ∧ k ≤ j ∧ j < k + n then m.load src (j - k) else (m o2)[j]? := by
  obtain ⟨o', k', rfl, hlen, hdis⟩ := hsrc
  have := forLoop_inv (body := fun i m => (Mem.load m (.at o' k') i).bind fun x => m.store (.at o k) i x)
    (I := fun i m' => ∀ o2 j, (m' o2)[j]? =
      if o2 = o ∧ k ≤ j ∧ j < k + i then (m o')[k' + (j - k)]? else (m o2)[j]?) n 0 m ?_ ?_
  · rw [Nat.zero_add] at this; exact this
  · intro i m1 _ hi hI
    simp only [Nat.zero_add] at hi
    have hld : (m1 o')[k' + i]? = some ((m o')[k' + i]'(by omega)) := by
      rw [hI, if_neg]
      · simp
      · rintro ⟨rfl, h1, h2⟩
        rcases hdis with h | h | h
        · exact h rfl
        · omega
        · omega
    have hlen1 : k + i < (m1 o).length := by
      by_contra hge
      have h1 := List.getElem?_eq_none (l := m1 o) (i := k + i) (by omega)
      rw [hI, if_neg (by omega)] at h1
      have := List.getElem?_eq_none_iff.mp h1
      omega
    refine ⟨Function.update m1 o ((m1 o).set (k + i) ((m o')[k' + i]'(by omega))), ?_, ?_⟩
    · simp only [Mem.load, hld, Option.bind_some, Mem.store, if_pos hlen1]
    · intro o2 j
      by_cases ho : o2 = o
      · subst ho
        rw [Function.update_self, List.getElem?_set]
        by_cases hj : k + i = j
        · subst hj
          rw [if_pos rfl, if_pos hlen1, if_pos ⟨rfl, by omega, by omega⟩]
          rw [show k + i - k = i by omega]; simp
        · rw [if_neg hj, hI]
          by_cases hj2 : k ≤ j ∧ j < k + i
          · rw [if_pos ⟨rfl, hj2⟩, if_pos ⟨rfl, by omega, by omega⟩]
          · rw [if_neg (by tauto), if_neg (by rintro ⟨_, h1, h2⟩; omega)]
      · rw [Function.update_of_ne ho, hI, if_neg (by tauto), if_neg (by tauto)]
  · intro o2 j
    rw [if_neg (by omega)]

/-- Interleaving `n` frames from `left` and `right` to `(o, k)`. -/
theorem interleave_spec {m : Mem α} {left right : Ptr} {o k n : ℕ} (hroom : k + 2 * n ≤ (m o).length)
    (hsmall : (m o).length < 2 ^ 62) (hl : Source m left n o k (2 * n)) (hr : Source m right n o k (2 * n)) :
    ∃ m', forLoop (fun i m => (m.load left i).bind fun x => (m.store (.at o k) (szMul i 2) x).bind fun m =>
        (m.load right i).bind fun y => m.store (.at o k) (szAdd (szMul i 2) 1) y) 0 n m = some m' ∧
      ∀ o2 j, (m' o2)[j]? = if o2 = o ∧ k ≤ j ∧ j < k + 2 * n then
          (if (j - k) % 2 = 0 then m.load left ((j - k) / 2) else m.load right ((j - k) / 2)) else (m o2)[j]? := by
  obtain ⟨ol, kl, rfl, hllen, hldis⟩ := hl
  obtain ⟨or, kr, rfl, hrlen, hrdis⟩ := hr
  have := forLoop_inv (body := fun i m => (Mem.load m (.at ol kl) i).bind fun x =>
        (m.store (.at o k) (szMul i 2) x).bind fun m =>
        (m.load (.at or kr) i).bind fun y => m.store (.at o k) (szAdd (szMul i 2) 1) y)
    (I := fun i m' => ∀ o2 j, (m' o2)[j]? = if o2 = o ∧ k ≤ j ∧ j < k + 2 * i then
          (if (j - k) % 2 = 0 then (m ol)[kl + (j - k) / 2]? else (m or)[kr + (j - k) / 2]?) else (m o2)[j]?) n 0 m ?_ ?_
  · rw [Nat.zero_add] at this; exact this
  · intro i m1 _ hi hI
    simp only [Nat.zero_add] at hi
    have e0 : szMul i 2 = 2 * i := by rw [BufferAllocator.szMul_eq (by omega)]; omega
    have e00 : szAdd (2 * i) 1 = 2 * i + 1 := BufferAllocator.szAdd_eq (by omega)
    have hld : (m1 ol)[kl + i]? = some ((m ol)[kl + i]'(by omega)) := by
      rw [hI, if_neg]
      · simp
      · rintro ⟨rfl, h1, h2⟩
        rcases hldis with h | h | h
        · exact h rfl
        · omega
        · omega
    have hlenj : ∀ j, k + 2 * i ≤ j → j < k + 2 * n → j < (m1 o).length := by
      intro j h1 h2
      by_contra hge
      have h3 := List.getElem?_eq_none (l := m1 o) (i := j) (by omega)
      rw [hI, if_neg (by omega)] at h3
      have := List.getElem?_eq_none_iff.mp h3
      omega
    have hlen1 := hlenj (k + 2 * i) (by omega) (by omega)
    have hlen2 := hlenj (k + (2 * i + 1)) (by omega) (by omega)
    set x := (m ol)[kl + i]'(by omega) with hx
    set y := (m or)[kr + i]'(by omega) with hy
    have hrd : (Function.update m1 o ((m1 o).set (k + 2 * i) x) or)[kr + i]? = some y := by
      have hbase : (m1 or)[kr + i]? = some y := by
        rw [hI, if_neg]
        · simp [hy]
        · rintro ⟨rfl, h1, h2⟩
          rcases hrdis with h | h | h
          · exact h rfl
          · omega
          · omega
      by_cases ho : or = o
      · subst ho
        rw [Function.update_self, List.getElem?_set_ne, hbase]
        rcases hrdis with h | h | h
        · exact absurd rfl h
        · omega
        · omega
      · rw [Function.update_of_ne ho, hbase]
    refine ⟨Function.update m1 o (((m1 o).set (k + 2 * i) x).set (k + (2 * i + 1)) y), ?_, ?_⟩
    · simp only [Mem.load, Mem.store, e0, e00] at *
      rw [hld, Option.bind_some, if_pos hlen1, Option.bind_some, hrd, Option.bind_some, Function.update_self,
        if_pos (by simpa using hlen2), Function.update_idem]
    · intro o2 j
      by_cases ho : o2 = o
      · subst ho
        rw [Function.update_self, List.getElem?_set, List.getElem?_set]
        by_cases hj : k + (2 * i + 1) = j
        · subst hj
          rw [if_pos rfl, if_pos (by simpa using hlen2), if_pos ⟨rfl, by omega, by omega⟩,
            show k + (2 * i + 1) - k = 2 * i + 1 by omega, if_neg (by omega),
            show (2 * i + 1) / 2 = i by omega]
          simp [hy]
        · rw [if_neg hj]
          by_cases hj2 : k + 2 * i = j
          · subst hj2
            rw [if_pos rfl, if_pos hlen1, if_pos ⟨rfl, by omega, by omega⟩,
              show k + 2 * i - k = 2 * i by omega, if_pos (by omega), show (2 * i) / 2 = i by omega]
            simp [hx]
          · rw [if_neg hj2, hI]
            by_cases hj3 : k ≤ j ∧ j < k + 2 * i
            · rw [if_pos ⟨rfl, hj3⟩, if_pos (c := o2 = o2 ∧ k ≤ j ∧ j < k + 2 * (i + 1)) ⟨rfl, by omega, by omega⟩]
            · rw [if_neg (by tauto), if_neg (by rintro ⟨_, h1, h2⟩; omega)]
      · rw [Function.update_of_ne ho, hI, if_neg (by tauto), if_neg (by tauto)]
  · intro o2 j
    rw [if_neg (by omega)]

/-- **C09, mono.** Filling a backed mono buffer succeeds; the first `min(count, numSamples)` samples read back as the
source, the others and all other memory are unchanged. -/
theorem C09_fillMono_roundtrip {b : Buffer α} {m : Mem α} {o k : ℕ} (h : b.Backed m o k) (hn : 0 < b.numSamples)
    (hch : b.channels = 1) {src : Ptr} {count : ℕ} (hsrc : Source m src (b.frames count) o k (b.frames count)) :
    ∃ m', b.fillMono src count m = some (m', true) ∧
      (∀ i, i < b.frames count → b.getSample m' i = m.load src i) ∧
      (∀ i, b.frames count ≤ i → b.getSample m' i = b.getSample m i) ∧
      (∀ o2 j, ¬ (o2 = o ∧ k ≤ j ∧ j < k + b.frames count) → (m' o2)[j]? = (m o2)[j]?) := by
  have hr := h.room
  rw [hch] at hr
  have hs := h.small
  have hf : b.frames count ≤ b.numSamples := by unfold frames; omega
  obtain ⟨o', k', hsrcdef, _⟩ := id hsrc
  obtain ⟨m', h1, h2⟩ := copy_spec (by omega) hsrc
  have hcond : (!b.isValid || src == .null || b.channels != 1) = false := by
    rw [isValid_of h hn, hsrcdef, hch]; rfl
  refine ⟨m', ?_, ?_, ?_, ?_⟩
  · rw [fillMono, hcond]
    simp only [Bool.false_eq_true, if_false, toCopy_eq, h.data, h1, Option.map_some]
  · intro i hi
    rw [getSample, if_neg (by rw [h.data]; simp; omega), hch, BufferAllocator.szMul_eq (by omega), h.data]
    simp only [Mem.load, Nat.mul_one]
    rw [h2, if_pos ⟨rfl, by omega, by omega⟩, show k + i - k = i by omega]
    rfl
  · intro i hi
    rcases Nat.lt_or_ge i b.numSamples with hi2 | hi2
    · have hc : ¬ (b.data = .null ∨ i ≥ b.numSamples) := by rw [h.data]; simp; omega
      rw [getSample, getSample, if_neg hc, if_neg hc, hch, BufferAllocator.szMul_eq (by omega), h.data]
      simp only [Mem.load, Nat.mul_one]
      rw [h2, if_neg (by omega)]
    · rw [getSample, getSample, if_pos (Or.inr hi2), if_pos (Or.inr hi2)]
  · intro o2 j hj
    rw [h2, if_neg hj]

/-- **C09, stereo from two sources.** -/
theorem C09_fillStereo_roundtrip {b : Buffer α} {m : Mem α} {o k : ℕ} (h : b.Backed m o k) (hn : 0 < b.numSamples)
    (hch : b.channels = 2) {left right : Ptr} {count : ℕ}
    (hl : Source m left (b.frames count) o k (2 * b.frames count))
    (hr : Source m right (b.frames count) o k (2 * b.frames count)) :
    ∃ m', b.fillStereo left right count m = some (m', true) ∧
      (∀ i, i < b.frames count → b.getStereoSample m' i =
        (m.load left i).bind fun x => (m.load right i).map fun y => ⟨x, y⟩) ∧
      (∀ i, b.frames count ≤ i → b.getStereoSample m' i = b.getStereoSample m i) ∧
      (∀ o2 j, ¬ (o2 = o ∧ k ≤ j ∧ j < k + 2 * b.frames count) → (m' o2)[j]? = (m o2)[j]?) := by
  have hroom := h.room
  rw [hch] at hroom
  have hs := h.small
  have hf : b.frames count ≤ b.numSamples := by unfold frames; omega
  obtain ⟨ol, kl, hldef, _⟩ := id hl
  obtain ⟨or, kr, hrdef, _⟩ := id hr
  obtain ⟨m', h1, h2⟩ := interleave_spec (by omega) h.addr hl hr
  have hcond : (!b.isValid || left == .null || right == .null || b.channels != 2) = false := by
    rw [isValid_of h hn, hldef, hrdef, hch]; rfl
  have hget : ∀ (m : Mem α) i, i < b.numSamples → b.getStereoSample m i =
      (m o)[k + 2 * i]?.bind fun l => (m o)[k + (2 * i + 1)]?.map fun r => (⟨l, r⟩ : Stereo α) := by
    intro m i hi
    have hc : ¬ (b.data = .null ∨ i ≥ b.numSamples) := by rw [h.data]; simp; omega
    have e0 : szMul i 2 = 2 * i := by rw [BufferAllocator.szMul_eq (by omega)]; omega
    have e00 : szAdd (2 * i) 1 = 2 * i + 1 := BufferAllocator.szAdd_eq (by omega)
    rw [getStereoSample, if_neg hc, if_neg (by omega), h.data]
    simp only [Mem.load, e0, e00]
  refine ⟨m', ?_, ?_, ?_, ?_⟩
  · rw [fillStereo, hcond]
    simp only [Bool.false_eq_true, if_false, toCopy_eq, h.data, h1, Option.map_some]
  · intro i hi
    rw [hget _ i (by omega), h2, h2, if_pos ⟨rfl, by omega, by omega⟩,
      if_pos (c := o = o ∧ k ≤ k + (2 * i + 1) ∧ k + (2 * i + 1) < k + 2 * b.frames count) ⟨rfl, by omega, by omega⟩,
      show k + 2 * i - k = 2 * i by omega, show k + (2 * i + 1) - k = 2 * i + 1 by omega, if_pos (by omega),
      if_neg (by omega), show 2 * i / 2 = i by omega, show (2 * i + 1) / 2 = i by omega]
  · intro i hi
    rcases Nat.lt_or_ge i b.numSamples with hi2 | hi2
    · rw [hget _ i hi2, hget _ i hi2, h2, h2, if_neg (by omega), if_neg (by omega)]
    · rw [getStereoSample, getStereoSample, if_pos (Or.inr hi2), if_pos (Or.inr hi2)]
  · intro o2 j hj
    rw [h2, if_neg hj]

/-- **C09, stereo from an interleaved source.** -/
theorem C09_fillInterleaved_roundtrip {b : Buffer α} {m : Mem α} {o k : ℕ} (h : b.Backed m o k) (hn : 0 < b.numSamples)
    (hch : b.channels = 2) {src : Ptr} {count : ℕ}
    (hsrc : Source m src (2 * b.frames count) o k (2 * b.frames count)) :
    ∃ m', b.fillStereoInterleaved src count m = some (m', true) ∧
      (∀ i, i < b.frames count → b.getStereoSample m' i =
        (m.load src (2 * i)).bind fun x => (m.load src (2 * i + 1)).map fun y => ⟨x, y⟩) ∧
      (∀ i, b.frames count ≤ i → b.getStereoSample m' i = b.getStereoSample m i) ∧
      (∀ o2 j, ¬ (o2 = o ∧ k ≤ j ∧ j < k + 2 * b.frames count) → (m' o2)[j]? = (m o2)[j]?) := by
  have hroom := h.room
  rw [hch] at hroom
  have hs := h.small
  have hf : b.frames count ≤ b.numSamples := by unfold frames; omega
  obtain ⟨o', k', hsrcdef, _⟩ := id hsrc
  obtain ⟨m', h1, h2⟩ := copy_spec (by omega) hsrc
  have hcond : (!b.isValid || src == .null || b.channels != 2) = false := by
    rw [isValid_of h hn, hsrcdef, hch]; rfl
  have hget : ∀ (m : Mem α) i, i < b.numSamples → b.getStereoSample m i =
      (m o)[k + 2 * i]?.bind fun l => (m o)[k + (2 * i + 1)]?.map fun r => (⟨l, r⟩ : Stereo α) := by
    intro m i hi
    have hc : ¬ (b.data = .null ∨ i ≥ b.numSamples) := by rw [h.data]; simp; omega
    have e0 : szMul i 2 = 2 * i := by rw [BufferAllocator.szMul_eq (by omega)]; omega
    have e00 : szAdd (2 * i) 1 = 2 * i + 1 := BufferAllocator.szAdd_eq (by omega)
    rw [getStereoSample, if_neg hc, if_neg (by omega), h.data]
    simp only [Mem.load, e0, e00]
  have hfl : szMul (b.frames count) 2 = 2 * b.frames count := by
    rw [BufferAllocator.szMul_eq (by omega)]; omega
  refine ⟨m', ?_, ?_, ?_, ?_⟩
  · rw [fillStereoInterleaved, hcond]
    simp only [Bool.false_eq_true, if_false, toCopy_eq, hfl, h.data, h1, Option.map_some]
  · intro i hi
    rw [hget _ i (by omega), h2, h2, if_pos ⟨rfl, by omega, by omega⟩, if_pos ⟨rfl, by omega, by omega⟩,
      show k + 2 * i - k = 2 * i by omega, show k + (2 * i + 1) - k = 2 * i + 1 by omega]
  · intro i hi
    rcases Nat.lt_or_ge i b.numSamples with hi2 | hi2
    · rw [hget _ i hi2, hget _ i hi2, h2, h2, if_neg (by omega), if_neg (by omega)]
    · rw [getStereoSample, getStereoSample, if_pos (Or.inr hi2), if_pos (Or.inr hi2)]
  · intro o2 j hj
    rw [h2, if_neg hj]

/-- **C09, `fillStereo` = `fillStereoInterleaved` of the interleaved source**, cell by cell. -/
theorem C09_stereo_eq_interleaved {b : Buffer α} {m : Mem α} {o k : ℕ} (h : b.Backed m o k) (hn : 0 < b.numSamples)
    (hch : b.channels = 2) {left right src : Ptr} {count : ℕ}
    (hl : Source m left (b.frames count) o k (2 * b.frames count))
    (hr : Source m right (b.frames count) o k (2 * b.frames count))
    (hsrc : Source m src (2 * b.frames count) o k (2 * b.frames count))
    (hint : ∀ i, i < b.frames count → m.load src (2 * i) = m.load left i ∧ m.load src (2 * i + 1) = m.load right i) :
    ∃ m1 m2 : Mem α, b.fillStereo left right count m = some (m1, true) ∧ b.fillStereoInterleaved src count m = some (m2, true) ∧
      ∀ o2 j : ℕ, (m1 o2)[j]? = (m2 o2)[j]? := by
  have hroom := h.room
  rw [hch] at hroom
  have hs := h.small
  have hf : b.frames count ≤ b.numSamples := by unfold frames; omega
  obtain ⟨ol, kl, hldef, _⟩ := id hl
  obtain ⟨or, kr, hrdef, _⟩ := id hr
  obtain ⟨o', k', hsrcdef, _⟩ := id hsrc
  obtain ⟨m1, h1, h2⟩ := interleave_spec (by omega) h.addr hl hr
  obtain ⟨m2, h3, h4⟩ := copy_spec (by omega) hsrc
  have hcond1 : (!b.isValid || left == .null || right == .null || b.channels != 2) = false := by
    rw [isValid_of h hn, hldef, hrdef, hch]; rfl
  have hcond2 : (!b.isValid || src == .null || b.channels != 2) = false := by
    rw [isValid_of h hn, hsrcdef, hch]; rfl
  have hfl : szMul (b.frames count) 2 = 2 * b.frames count := by
    rw [BufferAllocator.szMul_eq (by omega)]; omega
  refine ⟨m1, m2, ?_, ?_, ?_⟩
  · rw [fillStereo, hcond1]
    simp only [Bool.false_eq_true, if_false, toCopy_eq, h.data, h1, Option.map_some]
  · rw [fillStereoInterleaved, hcond2]
    simp only [Bool.false_eq_true, if_false, toCopy_eq, hfl, h.data, h3, Option.map_some]
  · intro o2 j
    rw [h2, h4]
    by_cases hj : o2 = o ∧ k ≤ j ∧ j < k + 2 * b.frames count
    · rw [if_pos hj, if_pos hj]
      obtain ⟨_, hj1, hj2⟩ := hj
      have := hint ((j - k) / 2) (by omega)
      by_cases hpar : (j - k) % 2 = 0
      · rw [if_pos hpar, ← this.1]; congr 1; omega
      · rw [if_neg hpar, ← this.2]; congr 1; omega
    · rw [if_neg hj, if_neg hj]

/-- **C09, wrong format.** Invalid buffers, null sources and buffers with the wrong channel count are rejected and nothing
is written. -/
theorem C09_wrong_format_rejected (b : Buffer α) (m : Mem α) (p q : Ptr) (count : ℕ) :
    ((b.isValid = false ∨ p = .null ∨ b.channels ≠ 1) → b.fillMono p count m = some (m, false)) ∧
      ((b.isValid = false ∨ p = .null ∨ q = .null ∨ b.channels ≠ 2) → b.fillStereo p q count m = some (m, false)) ∧
      ((b.isValid = false ∨ p = .null ∨ b.channels ≠ 2) → b.fillStereoInterleaved p count m = some (m, false)) := by
  refine ⟨fun h => ?_, fun h => ?_, fun h => ?_⟩
  · rw [fillMono, if_pos]
    rcases h with h | h | h <;> simp [h]
  · rw [fillStereo, if_pos]
    rcases h with h | h | h | h <;> simp [h]
  · rw [fillStereoInterleaved, if_pos]
    rcases h with h | h | h <;> simp [h]

/-- The hypotheses are met by a stereo buffer of two frames at index 1 of object 0, filled from object 1. -/
example : (⟨.at 0 1, 2, lit 48000, 2⟩ : Buffer F32).Backed (fun o => if o = 0 then List.replicate 6 (lit 0) else [lit 1, lit 2]) 0 1 :=
  ⟨rfl, Or.inr rfl, by decide, by decide⟩
example : Source (fun o => if o = 0 then List.replicate 6 (lit 0 : F32) else [lit 1, lit 2]) (.at 1 0)
    (frames (⟨.at 0 1, 2, lit 48000, 2⟩ : Buffer F32) 5) 0 1 4 := ⟨1, 0, rfl, by decide, Or.inl (by decide)⟩

end Buffer

/-! ## C07, fills -/

namespace BufferAllocator

/-- Live buffers of a history without wrapped requests are backed by the pool. -/
theorem live_backed {P M : ℕ} (hS : Sizes P M) {w0 w : World α} (hF : Fresh P M w0) {ops : List (Op α)}
    (hno : ∀ o ∈ ops, o.NoWrap) (hrun : run P M ops w0 = some w) {x : Buffer α × ℕ} (hx : x ∈ w.live) :
    ∃ k, x.1.Backed w.mem w.a.obj k ∧ 0 < x.1.numSamples ∧ x.1.data = .at w.a.obj k := by
  have h := reachL hS hF hno hrun
  obtain ⟨bs, hb⟩ := live_inited h hx
  obtain ⟨k, h1, h2, h3⟩ := live_in_pool h hb hx
  have hv := (h.grant x hx).1
  have hg := (h.grant x hx).2
  have hP := hS.pool_bytes
  simp only [Buffer.isValid, Bool.and_eq_true, decide_eq_true_eq, Bool.or_eq_true, beq_iff_eq] at hv
  exact ⟨k, ⟨h1, hv.2, by rw [h.pool]; omega, by rw [h.pool]; omega⟩, hv.1.2, h1⟩

/-- **C07, fills.** Filling a live buffer by any of the three fill functions, from any memory outside it, changes no sample
of any other live buffer. -/
theorem C07_fill_keeps_others {P M : ℕ} (hS : Sizes P M) {w0 w : World α} (hF : Fresh P M w0) {ops : List (Op α)}
    (hno : ∀ o ∈ ops, o.NoWrap) (hrun : run P M ops w0 = some w) {x y : Buffer α × ℕ} (hx : x ∈ w.live)
    (hy : y ∈ w.live) (hxy : x.1.data ≠ y.1.data) {m' : Mem α} {count : ℕ} {k : ℕ} (hk : x.1.data = .at w.a.obj k)
    (hfill :
      (∃ src, Buffer.Source w.mem src (x.1.frames count) w.a.obj k (x.1.frames count) ∧ x.1.channels = 1 ∧
        x.1.fillMono src count w.mem = some (m', true)) ∨
      (∃ l r, Buffer.Source w.mem l (x.1.frames count) w.a.obj k (2 * x.1.frames count) ∧
        Buffer.Source w.mem r (x.1.frames count) w.a.obj k (2 * x.1.frames count) ∧ x.1.channels = 2 ∧
        x.1.fillStereo l r count w.mem = some (m', true)) ∨
      (∃ src, Buffer.Source w.mem src (2 * x.1.frames count) w.a.obj k (2 * x.1.frames count) ∧ x.1.channels = 2 ∧
        x.1.fillStereoInterleaved src count w.mem = some (m', true))) (i : ℕ) :
    y.1.getSample m' i = y.1.getSample w.mem i ∧ y.1.getStereoSample m' i = y.1.getStereoSample w.mem i := by
  have h := reachL hS hF hno hrun
  obtain ⟨bs, hb⟩ := live_inited h hx
  obtain ⟨kx, bx, nx, dx⟩ := live_backed hS hF hno hrun hx
  obtain ⟨ky, by', ny, dy⟩ := live_backed hS hF hno hrun hy
  have hkx : kx = k := by rw [dx] at hk; simpa using hk
  subst hkx
  -- the two buffers are disjoint
  have hdis : ∀ i, ¬ (Covers w.a.obj x i ∧ Covers w.a.obj y i) := by
    have hp := live_pairwise h hb
    have hsymm : ∀ {u v : Buffer α × ℕ}, (∀ i, ¬ (Covers w.a.obj u i ∧ Covers w.a.obj v i)) →
        ∀ i, ¬ (Covers w.a.obj v i ∧ Covers w.a.obj u i) := fun huv i hi => huv i ⟨hi.2, hi.1⟩
    have hsub : ∀ {u v : Buffer α × ℕ}, List.Sublist [u, v] w.live → ∀ i, ¬ (Covers w.a.obj u i ∧ Covers w.a.obj v i) :=
      fun huv => List.pairwise_iff_forall_sublist.mp hp huv
    have : List.Sublist [x, y] w.live ∨ List.Sublist [y, x] w.live := by
      obtain ⟨l1, l2, hl⟩ := List.append_of_mem hx
      rw [hl] at hy ⊢
      rcases List.mem_append.mp hy with hy | hy
      · right
        have : List.Sublist [y] l1 := List.singleton_sublist.mpr hy
        simpa using this.append (List.Sublist.cons_cons x (List.nil_sublist l2))
      · rcases List.mem_cons.mp hy with rfl | hy
        · exact absurd rfl hxy
        · left
          exact List.Sublist.trans (List.Sublist.cons_cons x (List.singleton_sublist.mpr hy)) (List.sublist_append_right _ _)
    rcases this with hs | hs
    · exact hsub hs
    · exact hsymm (hsub hs)
  -- the fill only touches cells of `x`
  have hframe : ∀ j, ky ≤ j → j < ky + y.1.numSamples * y.1.channels → (m' w.a.obj)[j]? = (w.mem w.a.obj)[j]? := by
    have hcy : ∀ j, ky ≤ j → j < ky + y.1.numSamples * y.1.channels → Covers w.a.obj y j := fun j h1 h2 =>
      covers_of_occupies h hy ⟨ky, dy, h1, h2⟩
    have hfx : x.1.frames count ≤ x.1.numSamples := by unfold Buffer.frames; omega
    have hcx : ∀ j, kx ≤ j → j < kx + x.1.numSamples * x.1.channels → Covers w.a.obj x j := fun j h1 h2 =>
      covers_of_occupies h hx ⟨kx, dx, h1, h2⟩
    intro j h1 h2
    rcases hfill with ⟨src, hs, hch, hf⟩ | ⟨l, r, hl, hr, hch, hf⟩ | ⟨src, hs, hch, hf⟩
    · obtain ⟨m2, q1, _, _, q4⟩ := Buffer.C09_fillMono_roundtrip bx nx hch hs
      rw [hf] at q1; cases q1
      refine q4 _ _ ?_
      rintro ⟨_, h3, h4⟩
      exact hdis j ⟨hcx j h3 (by rw [hch]; omega), hcy j h1 h2⟩
    · obtain ⟨m2, q1, _, _, q4⟩ := Buffer.C09_fillStereo_roundtrip bx nx hch hl hr
      rw [hf] at q1; cases q1
      refine q4 _ _ ?_
      rintro ⟨_, h3, h4⟩
      exact hdis j ⟨hcx j h3 (by rw [hch]; omega), hcy j h1 h2⟩
    · obtain ⟨m2, q1, _, _, q4⟩ := Buffer.C09_fillInterleaved_roundtrip bx nx hch hs
      rw [hf] at q1; cases q1
      refine q4 _ _ ?_
      rintro ⟨_, h3, h4⟩
      exact hdis j ⟨hcx j h3 (by rw [hch]; omega), hcy j h1 h2⟩
  exact (Buffer.C10_accessors_safe by' i).2.2.2 m' hframe

end BufferAllocator
end Verif
