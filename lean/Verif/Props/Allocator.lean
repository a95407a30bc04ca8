import Verif.Lemmas.AllocWorld
import Mathlib.Order.Interval.Finset.Nat
import Mathlib.Order.Bounds.Basic

/-!
# C01–C06, C08, C12: the buffer allocator

All theorems speak about every pool size `P`, table size `M` and every finite history `ops` of calls, starting from a
freshly constructed allocator with arbitrary memory contents (`Fresh`).
-/

set_option linter.unusedSectionVars false

namespace Verif.BufferAllocator
variable {α : Type} [Arith α]

section helpers
variable {P M : ℕ} {w0 w : World α} {ops : List (Op α)}

theorem reachT (hS : Sizes P M) (hF : Fresh P M w0) (hrun : run P M ops w0 = some w) : InvT P M w := by
  obtain ⟨w', h1, h2, _⟩ := invT_run hS ops (invT_fresh hF)
  rw [hrun] at h1; cases h1; exact h2

theorem reachL (hS : Sizes P M) (hF : Fresh P M w0) (hno : ∀ o ∈ ops, o.NoWrap) (hrun : run P M ops w0 = some w) :
    InvL P M w := by
  obtain ⟨w', h1, h2, _⟩ := invL_run hS ops hno (invL_fresh hF)
  rw [hrun] at h1; cases h1; exact h2

/-- With used blocks = live buffers, a float is unused iff no used block covers it. -/
theorem unused_iff {bs : List Block} (h : InvL P M w) (hb : Ready P M w.a bs) (i : ℕ) :
    Unused w i ↔ ∀ x ∈ usedList bs, ¬ (x.1 ≤ i ∧ i < x.1 + x.2) := by
  have hp := (h.live bs hb).2
  constructor
  · rintro hu x hx ⟨h1, h2⟩
    have : (Ptr.at w.a.obj x.1, x.2) ∈ w.live.map fun x => (x.1.data, x.2) :=
      hp.symm.subset (List.mem_map.mpr ⟨x, hx, rfl⟩)
    obtain ⟨b, hb, he⟩ := List.mem_map.mp this
    simp only [Prod.mk.injEq] at he
    exact hu b hb ⟨x.1, he.1, h1, by rw [he.2]; exact h2⟩
  · rintro hu b hb ⟨k, h1, h2, h3⟩
    have : (b.1.data, b.2) ∈ (usedList bs).map fun x => (Ptr.at w.a.obj x.1, x.2) :=
      hp.subset (List.mem_map.mpr ⟨b, hb, rfl⟩)
    obtain ⟨x, hx, he⟩ := List.mem_map.mp this
    simp only [Prod.mk.injEq, h1, Ptr.at.injEq, true_and] at he
    exact hu x hx ⟨by omega, by omega⟩

theorem live_pairwise {bs : List Block} (h : InvL P M w) (hb : Ready P M w.a bs) :
    w.live.Pairwise (fun x y => ∀ i, ¬ (Covers w.a.obj x i ∧ Covers w.a.obj y i)) := by
  have hp := (h.live bs hb).2
  have h1 : ((usedList bs).map fun x => (Ptr.at w.a.obj x.1, x.2)).Pairwise
      (fun x y => ∀ i, ¬ ((∃ k, x.1 = .at w.a.obj k ∧ k ≤ i ∧ i < k + x.2) ∧
        (∃ k, y.1 = .at w.a.obj k ∧ k ≤ i ∧ i < k + y.2))) := by
    rw [List.pairwise_map]
    refine hb.tiles.used_disjoint.1.imp ?_
    rintro x y hxy i ⟨⟨k, e1, e2, e3⟩, ⟨k', e4, e5, e6⟩⟩
    simp only [Ptr.at.injEq, true_and] at e1 e4
    simp only at e3 e6
    omega
  have h2 := (hp.pairwise_iff (fun hxy i hi => hxy i ⟨hi.2, hi.1⟩)).mpr h1
  rw [List.pairwise_map] at h2
  exact h2

theorem live_in_pool {bs : List Block} (h : InvL P M w) (hb : Ready P M w.a bs) {x : Buffer α × ℕ} (hx : x ∈ w.live) :
    ∃ k, x.1.data = .at w.a.obj k ∧ k + x.2 ≤ P ∧ k < P := by
  obtain ⟨h3, hp⟩ := h.live bs hb
  have : (x.1.data, x.2) ∈ (usedList bs).map fun x => (Ptr.at w.a.obj x.1, x.2) :=
    hp.subset (List.mem_map.mpr ⟨x, hx, rfl⟩)
  obtain ⟨y, hy, he⟩ := List.mem_map.mp this
  simp only [Prod.mk.injEq] at he
  have h4 := (hb.tiles.used_disjoint.2 y hy).2
  have h5 : 0 < y.2 := by
    simp only [usedList, List.mem_map, List.mem_filter] at hy
    obtain ⟨b, ⟨hb1, _⟩, rfl⟩ := hy
    exact h3 b hb1
  exact ⟨y.1, he.1.symm, by omega, by omega⟩

theorem covers_of_occupies (h : InvL P M w) {x : Buffer α × ℕ} (hx : x ∈ w.live) {i : ℕ}
    (ho : Occupies w.a.obj x.1 i) : Covers w.a.obj x i := by
  obtain ⟨k, h1, h2, h3⟩ := ho
  exact ⟨k, h1, h2, by have := (h.grant x hx).2; omega⟩

theorem live_inited (h : InvL P M w) {x : Buffer α × ℕ} (hx : x ∈ w.live) : ∃ bs, Ready P M w.a bs := by
  cases hi : w.a.inited with
  | false => have := (h.uninit hi).2; rw [this] at hx; simp at hx
  | true => exact h.ready hi

end helpers

/-! ## C01 -/

/-- **C01, partial.** In every history whose requests have a float count that fits in `size_t`: every live buffer lies in
the pool, no two live buffers share a float, and the same holds for the (possibly larger) regions reserved for them.
Missing: requests whose float count wraps around, for which the claim is false (`C01_wrapped_request_escapes`). -/
theorem C01_live_disjoint_partial {P M : ℕ} (hS : Sizes P M) {w0 w : World α} (hF : Fresh P M w0) {ops : List (Op α)}
    (hno : ∀ o ∈ ops, o.NoWrap) (hrun : run P M ops w0 = some w) :
    (∀ x ∈ w.live, ∃ k, x.1.data = .at w.a.obj k ∧ k + x.1.numSamples * x.1.channels ≤ k + x.2 ∧ k + x.2 ≤ P) ∧
      w.live.Pairwise (fun x y => ∀ i, ¬ (Occupies w.a.obj x.1 i ∧ Occupies w.a.obj y.1 i)) ∧
      w.live.Pairwise (fun x y => ∀ i, ¬ (Covers w.a.obj x i ∧ Covers w.a.obj y i)) := by
  have h := reachL hS hF hno hrun
  cases hi : w.a.inited with
  | false => simp [(h.uninit hi).2]
  | true =>
    obtain ⟨bs, hb⟩ := h.ready hi
    refine ⟨?_, ?_, live_pairwise h hb⟩
    · intro x hx
      obtain ⟨k, h1, h2, _⟩ := live_in_pool h hb hx
      exact ⟨k, h1, by have := (h.grant x hx).2; omega, h2⟩
    · refine (live_pairwise h hb).imp_of_mem ?_
      rintro x y hx hy hxy i ⟨h1, h2⟩
      exact hxy i ⟨covers_of_occupies h hx h1, covers_of_occupies h hy h2⟩

/-- **C01, negation.** `allocate(2^63, 2)` needs `2^64` floats, which `size_t` wraps to `0`: on every allocator, right
after `init`, it returns a *valid* buffer whose samples lie outside the pool; reading its frame number
`poolSize()` through `getSample` is out-of-bounds access. -/
theorem C01_wrapped_request_escapes {P M : ℕ} (hS : Sizes P M) {w0 : World α} (hF : Fresh P M w0) (sr : α) :
    ∃ w b g, run P M [.init sr, .allocate (2 ^ 63) 2] w0 = some w ∧ w.live = [(b, g)] ∧ b.isValid = true ∧
      P < b.numSamples * b.channels ∧ b.getSample w.mem P = none := by
  obtain ⟨a1, h1, h2, h3, h4⟩ := ready_init hS hF.table hF.pool sr
  have hst : step P M (.init sr) w0 = some ⟨a1, Function.update w0.mem w0.a.obj (List.replicate P (lit 0)), []⟩ := by
    rw [step, h1]; rfl
  obtain ⟨w1, e1, e2, e3⟩ := invT_step hS (invT_fresh hF) (.init sr)
  rw [hst] at e1; cases e1
  have hpool := e2.pool
  have hP := hS.pool_bytes
  have hwrap : szMul (2 ^ 63) 2 = 0 := by decide +kernel
  rcases allocate_cases hS e2 (2 ^ 63) 2 with ⟨_, _, hbad⟩ | ⟨hn, hch, bs, bs', off, g, a', hb, hb', hl, hp, ho', _, _, h5⟩
  · exfalso
    rcases hbad with h | h | h | ⟨bs, hb, hl⟩
    · rw [h2.inited] at h; simp at h
    · omega
    · omega
    · rw [hb.unique h2, hwrap] at hl
      have := lalloc_none hl ⟨0, P, false⟩ (by simp) rfl
      omega
  · refine ⟨_, _, g, by rw [run, hst, Option.bind_some, run, h5, Option.bind_some, run], rfl, ?_, ?_, ?_⟩
    · simp [Buffer.isValid]
    · simp only; omega
    · rw [Buffer.getSample, if_neg (by simp; omega)]
      simp only [Mem.load]
      rw [szMul_eq (by omega)]
      simp only at hpool
      apply List.getElem?_eq_none
      omega

/-! ## C02 -/

theorem count_free {bs : List Block} {lo hi : ℕ} (ht : Tiles lo bs hi) :
    ((Finset.Ico lo hi).filter (fun i => ∀ x ∈ usedList bs, ¬ (x.1 ≤ i ∧ i < x.1 + x.2))).card = lfreeSpace bs := by
  induction bs generalizing lo with
  | nil => simp only [Tiles] at ht; subst ht; simp [lfreeSpace]
  | cons b bs ih =>
    obtain ⟨h1, h2⟩ := ht
    have hle := h2.bounds.1
    have hsplit : Finset.Ico lo hi = Finset.Ico lo (lo + b.size) ∪ Finset.Ico (lo + b.size) hi :=
      (Finset.Ico_union_Ico_eq_Ico (by omega) hle).symm
    have hdisj : Disjoint (Finset.Ico lo (lo + b.size)) (Finset.Ico (lo + b.size) hi) :=
      Finset.Ico_disjoint_Ico_consecutive _ _ _
    rw [hsplit, Finset.filter_union, Finset.card_union_of_disjoint (Finset.disjoint_filter_filter hdisj)]
    have hused := h2.used_disjoint.2
    cases hb : b.used
    · rw [lfreeSpace_cons_free hb, usedList_cons_free hb, ih h2]
      congr 1
      rw [Finset.filter_true_of_mem]
      · simp
      · intro i hi x hx
        have := hused x hx
        simp only [Finset.mem_Ico] at hi
        omega
    · rw [lfreeSpace_cons_used hb, usedList_cons_used hb]
      have e1 : (Finset.Ico lo (lo + b.size)).filter
          (fun i => ∀ x ∈ (b.offset, b.size) :: usedList bs, ¬ (x.1 ≤ i ∧ i < x.1 + x.2)) = ∅ := by
        rw [Finset.filter_eq_empty_iff]
        intro i hi h
        simp only [Finset.mem_Ico] at hi
        exact h (b.offset, b.size) (by simp) ⟨by simp only; omega, by simp only; omega⟩
      rw [e1, Finset.card_empty, Nat.zero_add, ← ih h2]
      congr 1
      apply Finset.filter_congr
      intro i hi
      simp only [Finset.mem_Ico] at hi
      constructor
      · intro h x hx; exact h x (by simp [hx])
      · intro h x hx
        rcases List.mem_cons.mp hx with rfl | hx
        · simp only; omega
        · exact h x hx

open Classical in
/-- **C02.** In every initialised state `freeSpace() + usedSpace() = poolSize()` (whatever the requests); if no request
wrapped, `freeSpace()` is the number of pool floats reserved by no live buffer, and `usedSpace()` is the sum of the
reserved sizes, each of which is at least what the buffer asked for. -/
theorem C02_accounting {P M : ℕ} (hS : Sizes P M) {w0 w : World α} (hF : Fresh P M w0) {ops : List (Op α)}
    (hrun : run P M ops w0 = some w) (hi : w.a.inited = true) :
    ∃ f u, freeSpace w.a = some f ∧ usedSpace P w.a = some u ∧ f + u = P ∧
      ((∀ o ∈ ops, o.NoWrap) →
        f = ((Finset.range P).filter (Unused w)).card ∧ u = (w.live.map Prod.snd).sum ∧
        ∀ x ∈ w.live, x.1.numSamples * x.1.channels ≤ x.2) := by
  obtain ⟨bs, hb⟩ := (reachT hS hF hrun).ready hi
  refine ⟨_, _, hb.freeSpace hS, hb.usedSpace hS, hb.sum, fun hno => ?_⟩
  have h := reachL hS hF hno hrun
  refine ⟨?_, ?_, fun x hx => (h.grant x hx).2⟩
  · rw [← count_free hb.tiles, Finset.range_eq_Ico]
    congr 1
    apply Finset.filter_congr
    intro i _
    exact (unused_iff h hb i).symm
  · have := ((h.live bs hb).2.map Prod.snd).sum_eq
    simp only [List.map_map] at this
    unfold lused
    exact this.symm

/-! ## C04, C05 -/

/-- **C04.** A well-formed request that fits in `size_t` succeeds exactly when some run of that many consecutive pool
floats is reserved by no live buffer. -/
theorem C04_alloc_iff_gap {P M : ℕ} (hS : Sizes P M) {w0 w : World α} (hF : Fresh P M w0) {ops : List (Op α)}
    (hno : ∀ o ∈ ops, o.NoWrap) (hrun : run P M ops w0 = some w) (hi : w.a.inited = true) {n ch : ℕ} (hn : 0 < n)
    (hch : ch = 1 ∨ ch = 2) (hfit : n * ch < 2 ^ 64) :
    ∃ a' b, allocate P M n ch w.a = some (a', b) ∧
      (b.isValid = true ↔ ∃ p, Feasible P w (n * ch) p) ∧ (b.isValid = false → a' = w.a) := by
  have h := reachL hS hF hno hrun
  have hpos : 0 < n * ch := by rcases hch with rfl | rfl <;> omega
  rcases allocate_cases hS h.toInvT n ch with ⟨h1, _, h3⟩ | ⟨hn, hch, bs, bs', off, g, a', hb, hb', hl, hp, ho', _, h1, _⟩
  · refine ⟨_, _, h1, ?_, fun _ => rfl⟩
    constructor
    · intro hv; simp [Buffer.isValid, Buffer.empty] at hv
    · rintro ⟨p, hp1, hp2⟩
      exfalso
      rcases h3 with h3 | h3 | h3 | ⟨bs, hb, hl⟩
      · rw [hi] at h3; simp at h3
      · omega
      · tauto
      · obtain ⟨hpos', _⟩ := h.live bs hb
        obtain ⟨b, hbm, hbf, hb1, hb2⟩ := gap_in_block hb.tiles hpos' hb.noadj hpos (Nat.zero_le p) hp1
          (fun i hi1 hi2 => (unused_iff h hb i).mp (hp2 i hi1 hi2))
        rw [szMul_eq hfit] at hl
        exact lalloc_none hl b hbm hbf (by omega)
  · have hv : (⟨.at w.a.obj off, ch, w.a.rate, n⟩ : Buffer α).isValid = true := by
      rcases hch with rfl | rfl <;> simp [Buffer.isValid] <;> omega
    refine ⟨_, _, h1, ⟨fun _ => ?_, fun _ => hv⟩, fun hf => by rw [hv] at hf; simp at hf⟩
    rw [szMul_eq hfit] at hl
    obtain ⟨_, _, _, _, _, _, _, _, ⟨b, hbm, hbf, hbo, hbs, _⟩, _⟩ := lalloc_spec hl hb.tiles hb.noadj
    refine ⟨off, ?_, ?_⟩
    · have := (hb.tiles.bounds.2 b hbm).2; omega
    · intro i hi1 hi2
      rw [unused_iff h hb]
      exact free_block_unused hb.tiles hbm hbf (by omega) (by omega)

/-- **C05.** A successful request returns the lowest feasible offset. -/
theorem C05_first_fit_lowest {P M : ℕ} (hS : Sizes P M) {w0 w : World α} (hF : Fresh P M w0) {ops : List (Op α)}
    (hno : ∀ o ∈ ops, o.NoWrap) (hrun : run P M ops w0 = some w) {n ch : ℕ} (hfit : n * ch < 2 ^ 64)
    {a' : Alloc α} {b : Buffer α} (hal : allocate P M n ch w.a = some (a', b)) (hv : b.isValid = true) :
    ∃ p, b.data = .at w.a.obj p ∧ b.numSamples = n ∧ b.channels = ch ∧ b.sampleRate = w.a.rate ∧
      IsLeast {p | Feasible P w (n * ch) p} p := by
  have h := reachL hS hF hno hrun
  rcases allocate_cases hS h.toInvT n ch with ⟨h1, _, _⟩ | ⟨hn, hch, bs, bs', off, g, a'', hb, hb', hl, hp, ho', _, h1, _⟩
  · rw [hal] at h1; cases h1; simp [Buffer.isValid, Buffer.empty] at hv
  · have hpos : 0 < n * ch := by rcases hch with rfl | rfl <;> omega
    rw [hal] at h1; cases h1
    rw [szMul_eq hfit] at hl
    obtain ⟨_, _, _, _, _, _, _, _, ⟨b, hbm, hbf, hbo, hbs, _⟩, hlow, _⟩ := lalloc_spec hl hb.tiles hb.noadj
    refine ⟨off, rfl, rfl, rfl, rfl, ⟨?_, ?_⟩, ?_⟩
    · have := (hb.tiles.bounds.2 b hbm).2; omega
    · intro i hi1 hi2
      rw [unused_iff h hb]
      exact free_block_unused hb.tiles hbm hbf (by omega) (by omega)
    · rintro p ⟨hp1, hp2⟩
      obtain ⟨hpos', _⟩ := h.live bs hb
      obtain ⟨c, hcm, hcf, hc1, hc2⟩ := gap_in_block hb.tiles hpos' hb.noadj hpos (Nat.zero_le p) hp1
        (fun i hi1 hi2 => (unused_iff h hb i).mp (hp2 i hi1 hi2))
      have := hlow c hcm hcf (by omega)
      omega

/-! ## C06 -/

/-- **C06.** `release(buf)` returns `true` exactly when `buf.data` is the data pointer of a live buffer; otherwise it
returns `false` and the allocator is unchanged. -/
theorem C06_release_iff_live {P M : ℕ} (hS : Sizes P M) {w0 w : World α} (hF : Fresh P M w0) {ops : List (Op α)}
    (hno : ∀ o ∈ ops, o.NoWrap) (hrun : run P M ops w0 = some w) (buf : Buffer α) :
    ∃ a' r, release P buf w.a = some (a', r) ∧ (r = true ↔ ∃ x ∈ w.live, x.1.data = buf.data) ∧
      (r = false → a' = w.a) := by
  have h := reachL hS hF hno hrun
  rcases release_cases hS h.toInvT buf with
    ⟨h1, h2, h3⟩ | ⟨bs, bs', k, g, a', hb, hb', hk, hd, hp, hpos, ho', _, h1, h2⟩
  · refine ⟨_, _, h1, ?_, fun _ => rfl⟩
    simp only [Bool.false_eq_true, false_iff, not_exists, not_and]
    intro x hx he
    rcases h3 with h3 | ⟨bs, hb, h3⟩
    · have := (h.uninit h3).2; rw [this] at hx; simp at hx
    · have hm : (x.1.data, x.2) ∈ (usedList bs).map fun x => (Ptr.at w.a.obj x.1, x.2) :=
        (h.live bs hb).2.subset (List.mem_map.mpr ⟨x, hx, rfl⟩)
      obtain ⟨y, hy, hye⟩ := List.mem_map.mp hm
      simp only [Prod.mk.injEq] at hye
      obtain ⟨k, hk1, hk2, hk3⟩ := live_in_pool h hb hx
      rcases h3 y hy with h4 | h4
      · rw [hk1] at hye; simp only [Ptr.at.injEq, true_and] at hye; omega
      · exact h4 (by rw [← he, hye.1])
  · refine ⟨_, _, h1, ?_, fun h => by simp at h⟩
    simp only [true_iff]
    have hm : (Ptr.at w.a.obj k, g) ∈ w.live.map fun x => (x.1.data, x.2) := by
      refine (h.live bs hb).2.symm.subset (List.mem_map.mpr ⟨(k, g), hp.symm.subset (by simp), rfl⟩)
    obtain ⟨x, hx, he⟩ := List.mem_map.mp hm
    simp only [Prod.mk.injEq] at he
    exact ⟨x, hx, by rw [he.1, hd]⟩

/-- **C06, double release.** After a successful release the very next release of the same handle fails. -/
theorem C06_double_release {P M : ℕ} (hS : Sizes P M) {w0 w : World α} (hF : Fresh P M w0) {ops : List (Op α)}
    (hno : ∀ o ∈ ops, o.NoWrap) {buf : Buffer α} (hrun : run P M (ops ++ [.release buf]) w0 = some w) :
    release P buf w.a = some (w.a, false) := by
  obtain ⟨a', r, h1, h2, h3⟩ := C06_release_iff_live hS hF (ops := ops ++ [.release buf]) (by
    intro o ho
    rcases List.mem_append.mp ho with ho | ho
    · exact hno o ho
    · simp only [List.mem_singleton] at ho; subst ho; trivial) hrun buf
  have hr : r = false := by
    cases r with
    | false => rfl
    | true =>
      exfalso
      obtain ⟨x, hx, he⟩ := h2.mp rfl
      -- the state before the last release
      obtain ⟨w1, e1, e2, _⟩ := invL_run hS ops hno (invL_fresh hF)
      have hsplit : ∀ (os : List (Op α)) (v : World α),
          run P M (os ++ [.release buf]) v = (run P M os v).bind (step P M (.release buf)) := by
        intro os
        induction os with
        | nil => intro v; simp only [List.nil_append, run, Option.bind_some]; cases step P M (.release buf) v <;> rfl
        | cons o os ih =>
          intro v
          simp only [List.cons_append, run]
          cases step P M o v with
          | none => rfl
          | some v1 => simp only [Option.bind_some]; exact ih v1
      rw [hsplit, e1, Option.bind_some] at hrun
      rcases release_cases hS e2.toInvT buf with ⟨q1, q2, q3⟩ | ⟨bs, bs', k, g, a'', _, _, _, _, _, _, _, _, _, q2⟩
      · rw [q2] at hrun; cases hrun
        obtain ⟨a3, r3, t1, t2, _⟩ := C06_release_iff_live hS hF hno e1 buf
        rw [q1] at t1; cases t1
        have := t2.mpr ⟨x, hx, he⟩
        simp at this
      · rw [q2] at hrun; cases hrun
        simp only [List.mem_filter] at hx
        simp [he] at hx
  subst hr
  rw [h1, h3 rfl]

/-! ## C03 -/

/-- **C03.** In every history without wrapped requests: as soon as no buffer is live, the initialised allocator has one
block, all of the pool free, and can hand out the entire pool. -/
theorem C03_release_all_pristine {P M : ℕ} (hS : Sizes P M) {w0 w : World α} (hF : Fresh P M w0) {ops : List (Op α)}
    (hno : ∀ o ∈ ops, o.NoWrap) (hrun : run P M ops w0 = some w) (hi : w.a.inited = true) (hl : w.live = []) :
    blockCount w.a = 1 ∧ freeSpace w.a = some P ∧ usedSpace P w.a = some 0 ∧
      ∃ a' b, allocate P M P 1 w.a = some (a', b) ∧ b.isValid = true ∧ b.data = .at w.a.obj 0 := by
  have h := reachL hS hF hno hrun
  obtain ⟨bs, hb⟩ := h.ready hi
  have hu : usedList bs = [] := by
    have := (h.live bs hb).2
    rw [hl] at this
    have := this.symm.eq_nil
    simpa using this
  have hbs := no_used_single hS.pool_pos hb.tiles hb.noadj hu
  have hlu : lused bs = 0 := by simp [lused, hu]
  have hfs : lfreeSpace bs = P := by have := hb.sum; omega
  refine ⟨by rw [blockCount, hb.count, hbs]; rfl, by rw [hb.freeSpace hS, hfs], by rw [hb.usedSpace hS, hlu], ?_⟩
  have hfeas : Feasible P w (P * 1) 0 := by
    refine ⟨by omega, ?_⟩
    intro i _ _; rw [Unused, hl]; simp
  have hP := hS.pool_lt
  obtain ⟨a', b, h1, h2, _⟩ := C04_alloc_iff_gap hS hF hno hrun hi (n := P) (ch := 1) hS.pool_pos (Or.inl rfl) (by omega)
  have hv := h2.mpr ⟨0, hfeas⟩
  obtain ⟨p, e1, _, _, _, _, e2⟩ := C05_first_fit_lowest hS hF hno hrun (n := P) (ch := 1) (by omega) h1 hv
  have := e2 hfeas
  have : p = 0 := by omega
  subst this
  exact ⟨a', b, h1, hv, e1⟩

/-- **C03, order independence.** Releasing the live buffers in any order (and nothing else) leaves no live buffer; the
previous theorem then applies. -/
theorem C03_release_any_order {P M : ℕ} (hS : Sizes P M) {w0 w : World α} (hF : Fresh P M w0) {ops : List (Op α)}
    (hno : ∀ o ∈ ops, o.NoWrap) (hrun : run P M ops w0 = some w) {order : List (Buffer α)}
    (hord : order.Perm (w.live.map Prod.fst)) :
    ∃ w', run P M (order.map .release) w = some w' ∧ w'.live = [] ∧ w'.a.inited = w.a.inited := by
  have h := reachL hS hF hno hrun
  have key : ∀ (order : List (Buffer α)) (v : World α), InvL P M v →
      (∀ x ∈ v.live, ∃ b ∈ order, b.data = x.1.data) →
      ∃ w', run P M (order.map .release) v = some w' ∧ w'.live = [] ∧ w'.a.inited = v.a.inited := by
    intro order
    induction order with
    | nil =>
      intro v _ hsub
      refine ⟨v, rfl, ?_, rfl⟩
      cases hv : v.live with
      | nil => rfl
      | cons x xs => exfalso; obtain ⟨b, hb, _⟩ := hsub x (by simp [hv]); simp at hb
    | cons b order ih =>
      intro v hv hsub
      obtain ⟨v1, s1, s2, _⟩ := invL_step hS hv (.release b) trivial
      have hinit : v1.a.inited = v.a.inited := by
        rcases release_cases hS hv.toInvT b with ⟨_, q2, _⟩ | ⟨bs, bs', k, g, a'', q1, q1', _, _, _, _, _, _, _, q2⟩
        · rw [s1] at q2; cases q2; rfl
        · rw [s1] at q2; cases q2; exact q1'.inited.trans q1.inited.symm
      obtain ⟨w', r1, r2, r3⟩ := ih v1 s2 (by
        intro x hx
        rcases release_cases hS hv.toInvT b with ⟨q1, q2, q3⟩ | ⟨bs, bs', k, g, a'', _, _, _, _, _, _, _, _, _, q2⟩
        · rw [s1] at q2; cases q2
          obtain ⟨c, hc, hce⟩ := hsub x hx
          rcases List.mem_cons.mp hc with rfl | hc
          · exfalso
            rcases q3 with q3 | ⟨bs, hb, q3⟩
            · rw [(hv.uninit q3).2] at hx; simp at hx
            · have hm : (x.1.data, x.2) ∈ (usedList bs).map fun x => (Ptr.at v.a.obj x.1, x.2) :=
                (hv.live bs hb).2.subset (List.mem_map.mpr ⟨x, hx, rfl⟩)
              obtain ⟨y, hy, hye⟩ := List.mem_map.mp hm
              simp only [Prod.mk.injEq] at hye
              obtain ⟨k, hk1, hk2, hk3⟩ := live_in_pool hv hb hx
              rcases q3 y hy with h4 | h4
              · rw [hk1] at hye; simp only [Ptr.at.injEq, true_and] at hye; omega
              · exact h4 (by rw [hce, hye.1])
          · exact ⟨c, hc, hce⟩
        · rw [s1] at q2; cases q2
          simp only [List.mem_filter, decide_eq_true_eq] at hx
          obtain ⟨c, hc, hce⟩ := hsub x hx.1
          rcases List.mem_cons.mp hc with rfl | hc
          · exact absurd hce.symm hx.2
          · exact ⟨c, hc, hce⟩)
      exact ⟨w', by rw [List.map_cons, run, s1, Option.bind_some, r1], r2, r3.trans hinit⟩
  refine key order w h ?_
  intro x hx
  exact ⟨x.1, hord.symm.subset (List.mem_map.mpr ⟨x, hx, rfl⟩), rfl⟩

/-! ## C07 (allocator part) -/

/-- **C07 (allocator calls).** Allocating keeps every live buffer live and the memory unchanged; releasing keeps every
live buffer with another data pointer live and the memory unchanged. -/
theorem C07_calls_keep_others {P M : ℕ} (hS : Sizes P M) {w0 w : World α} (hF : Fresh P M w0) {ops : List (Op α)}
    (hno : ∀ o ∈ ops, o.NoWrap) (hrun : run P M ops w0 = some w) (x : Buffer α × ℕ) (hx : x ∈ w.live) :
    (∀ n ch, ∃ w', step P M (.allocate n ch) w = some w' ∧ x ∈ w'.live ∧ w'.mem = w.mem) ∧
      (∀ buf : Buffer α, x.1.data ≠ buf.data →
        ∃ w', step P M (.release buf) w = some w' ∧ x ∈ w'.live ∧ w'.mem = w.mem) := by
  have h := reachL hS hF hno hrun
  constructor
  · intro n ch
    rcases allocate_cases hS h.toInvT n ch with ⟨_, q, _⟩ | ⟨_, _, bs, bs', off, g, a', _, _, _, _, _, _, _, q⟩
    · exact ⟨w, q, hx, rfl⟩
    · exact ⟨_, q, List.mem_cons_of_mem _ hx, rfl⟩
  · intro buf hne
    rcases release_cases hS h.toInvT buf with ⟨_, q, _⟩ | ⟨bs, bs', k, g, a'', _, _, _, _, _, _, _, _, _, q⟩
    · exact ⟨w, q, hx, rfl⟩
    · exact ⟨_, q, List.mem_filter.mpr ⟨hx, by simpa using hne⟩, rfl⟩

/-! ## C08 -/

/-- **C08.** Every history (wrapped requests included) runs without undefined behaviour, and between `init` and
the end `blockCount()` stays between 1 and `MaxBlocks`. -/
theorem C08_table_never_overrun {P M : ℕ} (hS : Sizes P M) {w0 : World α} (hF : Fresh P M w0) (ops : List (Op α)) :
    ∃ w, run P M ops w0 = some w ∧ blockCount w.a ≤ M ∧ (w.a.inited = true → 1 ≤ blockCount w.a) := by
  obtain ⟨w, h1, h2, _⟩ := invT_run hS ops (invT_fresh hF)
  refine ⟨w, h1, ?_, ?_⟩
  · cases hi : w.a.inited with
    | false => rw [blockCount, (h2.uninit hi).1]; omega
    | true =>
      obtain ⟨bs, hb⟩ := h2.ready hi
      rw [blockCount, hb.count]; exact hb.count_le
  · intro hi
    obtain ⟨bs, hb⟩ := h2.ready hi
    rw [blockCount, hb.count]; exact hb.count_pos hS

/-- **C08**: `MaxBlocks >= 1` is needed: nothing in the class rules out an empty table, and then `init` itself writes outside it. -/
theorem C08_empty_table (P : ℕ) (sr : α) (a : Alloc α) (h : a.tab = []) (m : Mem α) : init P sr a m = none := by
  simp [init, setAt, h]

/-- **C08, grants.** A buffer receives exactly the floats it asked for, unless the table is full, in which case it receives
the whole free run that was found and the number of blocks does not grow. -/
theorem C08_grant_size {P M : ℕ} (hS : Sizes P M) {w0 w : World α} (hF : Fresh P M w0) {ops : List (Op α)}
    (hrun : run P M ops w0 = some w) {n ch : ℕ} (hfit : n * ch < 2 ^ 64) {a' : Alloc α} {b : Buffer α}
    (hal : allocate P M n ch w.a = some (a', b)) (hv : b.isValid = true) :
    ∃ g, step P M (.allocate n ch) w = some ⟨a', w.mem, (b, g) :: w.live⟩ ∧ n * ch ≤ g ∧
      (blockCount w.a < M → g = n * ch ∧ blockCount a' ≤ blockCount w.a + 1) ∧
      (blockCount w.a = M → blockCount a' = M) := by
  have h := reachT hS hF hrun
  rcases allocate_cases hS h n ch with ⟨h1, _, _⟩ | ⟨hn, hch, bs, bs', off, g, a'', hb, hb', hl, hp, ho', _, h1, h2⟩
  · rw [hal] at h1; cases h1; simp [Buffer.isValid, Buffer.empty] at hv
  · rw [hal] at h1; cases h1
    rw [szMul_eq hfit] at hl
    obtain ⟨g', g1, g2, _, _, _, g6, _, _, _, _, g11, g12⟩ := lalloc_spec hl hb.tiles hb.noadj
    have hgg : g = g' := by
      have h6 := (List.Perm.map Prod.snd (hp.symm.trans g6)).sum_eq
      simpa using h6
    subst hgg
    refine ⟨g, h2, g1, ?_, ?_⟩
    · intro hlt
      rw [blockCount, hb.count] at hlt
      refine ⟨g2 (by simp [hlt]), ?_⟩
      rw [blockCount, blockCount, hb.count, hb'.count]; exact g11
    · intro heq
      rw [blockCount, hb.count] at heq
      rw [blockCount, hb'.count, g12 (by simp [heq]), heq]

/-! ## C12 -/

/-- **C12, before `init`.** Without an `init` in the history every request returns an invalid buffer and every release
returns `false`; both leave the allocator unchanged. -/
theorem C12_uninitialised {P M : ℕ} {w0 w : World α} (hF : Fresh P M w0) {ops : List (Op α)}
    (hops : ∀ o ∈ ops, ∀ sr, o ≠ .init sr) (hrun : run P M ops w0 = some w) :
    (∀ n ch, allocate P M n ch w.a = some (w.a, .empty)) ∧ (∀ buf, release P buf w.a = some (w.a, false)) := by
  have hkeep : ∀ (ops : List (Op α)) (v : World α), (∀ o ∈ ops, ∀ sr, o ≠ .init sr) → v.a.inited = false →
      run P M ops v = some w → w.a.inited = false := by
    intro ops
    induction ops with
    | nil => intro v _ hv hr; simp only [run, Option.some.injEq] at hr; subst hr; exact hv
    | cons o os ih =>
      intro v ho hv hr
      rw [run] at hr
      cases hs : step P M o v with
      | none => rw [hs] at hr; simp at hr
      | some v1 =>
        rw [hs, Option.bind_some] at hr
        refine ih v1 (fun o h => ho o (by simp [h])) ?_ hr
        cases o with
        | init sr => exact absurd rfl (ho _ (by simp) sr)
        | reset => simp [step, reset, hv] at hs; subst hs; exact hv
        | allocate n ch =>
          have : allocate P M n ch v.a = some (v.a, .empty) := by simp [allocate, hv]
          rw [step, this, Option.bind_some] at hs
          cases hu : usedSpace P v.a with
          | none => rw [hu] at hs; simp at hs
          | some u => rw [hu] at hs; simp at hs; subst hs; exact hv
        | release buf =>
          have : release P buf v.a = some (v.a, false) := by simp [release, hv]
          rw [step, this] at hs
          simp at hs; subst hs; exact hv
        | poke o i x => simp [step] at hs; subst hs; exact hv
  have hw := hkeep ops w0 hops (by rw [hF.constructed]; rfl) hrun
  exact ⟨fun n ch => by simp [allocate, hw], fun buf => by simp [release, hw]⟩

/-- **C12, `init` and `reset`.** From every reachable state `init(sr)` (and `reset()` once initialised) succeeds, leaves one
block and the whole pool free, no live buffer, every pool sample zero, every other memory object unchanged; `reset`
keeps the sample rate. -/
theorem C12_init_reset {P M : ℕ} (hS : Sizes P M) {w0 w : World α} (hF : Fresh P M w0) {ops : List (Op α)}
    (hrun : run P M ops w0 = some w) :
    (∀ sr, ∃ a', init P sr w.a w.mem = some (a', Function.update w.mem w.a.obj (List.replicate P (lit 0))) ∧
      blockCount a' = 1 ∧ freeSpace a' = some P ∧ a'.rate = sr ∧ a'.inited = true) ∧
    (w.a.inited = true → reset P w.a w.mem = init P w.a.rate w.a w.mem) ∧
    (w.a.inited = false → reset P w.a w.mem = some (w.a, w.mem)) := by
  have h := reachT hS hF hrun
  refine ⟨fun sr => ?_, fun hi => by simp [reset, hi], fun hi => by simp [reset, hi]⟩
  obtain ⟨a', h1, h2, h3, h4⟩ := ready_init hS h.len h.pool sr
  exact ⟨a', h1, h2.count, by rw [h2.freeSpace hS]; simp [lfreeSpace], h4, h2.inited⟩

/-! ## Non-trivial instance

A pool of 10 floats with a table of 3 blocks, uninitialised contents `7`.  The history fragments the pool, merges it
and hands out a whole block when the table is full. -/

/-- the freshly constructed allocator of the example -/
def exWorld : World F32 :=
  { a := construct 0 [⟨9, 9, true⟩, ⟨8, 8, true⟩, ⟨7, 7, true⟩], mem := fun _ => List.replicate 10 (lit 7), live := [] }

example : Fresh 10 3 exWorld := ⟨by decide, rfl, rfl, rfl⟩
example : Sizes 10 3 := ⟨by decide, by decide, by decide, by decide⟩

/-- the history of the example: three mono buffers (the last takes the rest of the pool), one release, a stereo one -/
def exOps : List (Op F32) :=
  [.init (lit 48000), .allocate 3 1, .allocate 2 1, .allocate 4 1, .release ⟨.at 0 0, 1, lit 0, 3⟩, .allocate 1 2]

example : ∀ o ∈ exOps, o.NoWrap := by simp [exOps, Op.NoWrap]

/-- The third and fourth request are granted more than they asked for because the table is full. -/
example : (run 10 3 exOps exWorld).map (fun w => (w.live.map fun x => (x.1.data, x.1.numSamples * x.1.channels, x.2),
    w.a.count)) = some ([(.at 0 0, 2, 3), (.at 0 5, 4, 5), (.at 0 3, 2, 2)], 3) := by decide +kernel

end Verif.BufferAllocator
