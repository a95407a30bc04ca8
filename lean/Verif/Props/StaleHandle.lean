import Verif.Props.Allocator

/-!
# C100: handles of released buffers

A `Buffer` is a plain value; copies of it survive `release`. Until the next allocation such a stale copy is harmless. After an allocation
it may designate somebody else's buffer, and the allocator cannot tell the two apart.
-/

set_option linter.unusedSectionVars false

namespace Verif.BufferAllocator
variable {α : Type} [Arith α]

theorem run_append {P M : ℕ} : ∀ (os os' : List (Op α)) (v : World α),
    run P M (os ++ os') v = (run P M os v).bind (run P M os') := by
  intro os os'
  induction os with
  | nil => intro v; rfl
  | cons o os ih =>
    intro v
    simp only [List.cons_append, run]
    cases step P M o v with
    | none => rfl
    | some v1 => simp only [Option.bind_some]; exact ih v1

/-- Calls that hand out no memory: releases of anything and stores into memory. -/
def Op.Quiet : Op α → Prop
  | .release _ => True
  | .poke _ _ _ => True
  | _ => False

theorem quiet_live {P M : ℕ} (hS : Sizes P M) {w : World α} (h : InvL P M w) {o : Op α} (ho : o.Quiet) :
    ∃ w', step P M o w = some w' ∧ InvL P M w' ∧ ∀ x ∈ w'.live, x ∈ w.live := by
  obtain ⟨w', h1, h2, -⟩ := invL_step hS h o (by cases o <;> trivial)
  refine ⟨w', h1, h2, ?_⟩
  cases o with
  | release buf =>
    rcases release_cases hS h.toInvT buf with ⟨_, q, _⟩ | ⟨bs, bs', k, g, a'', _, _, _, _, _, _, _, _, _, q⟩
    · rw [q] at h1; cases h1; exact fun x hx => hx
    · rw [q] at h1; cases h1; exact fun x hx => (List.mem_filter.1 hx).1
  | poke o i x => simp only [step] at h1; cases h1; exact fun x hx => hx
  | _ => exact ho.elim

theorem quiet_run {P M : ℕ} (hS : Sizes P M) : ∀ (ops : List (Op α)) {w : World α}, InvL P M w → (∀ o ∈ ops, o.Quiet) →
    ∃ w', run P M ops w = some w' ∧ InvL P M w' ∧ ∀ x ∈ w'.live, x ∈ w.live := by
  intro ops
  induction ops with
  | nil => intro w h _; exact ⟨w, rfl, h, fun x hx => hx⟩
  | cons o ops ih =>
    intro w h hq
    obtain ⟨w1, a, b, c⟩ := quiet_live hS h (hq o (by simp))
    obtain ⟨w2, d, e, f⟩ := ih b (fun p hp => hq p (by simp [hp]))
    exact ⟨w2, by rw [run, a, Option.bind_some, d], e, fun x hx => c x (f x hx)⟩

theorem quiet_nowrap {o : Op α} (h : o.Quiet) : o.NoWrap := by cases o <;> trivial

/-- **C100.** Once a handle has been released it stays refused, and refusing changes nothing, however many further releases (of
anything) and stores follow, as long as nothing is allocated. -/
theorem C100_stays_refused {P M : ℕ} (hS : Sizes P M) {w0 w : World α} (hF : Fresh P M w0) {ops quiet : List (Op α)}
    (hno : ∀ o ∈ ops, o.NoWrap) (hq : ∀ o ∈ quiet, o.Quiet) {buf : Buffer α}
    (hrun : run P M (ops ++ .release buf :: quiet) w0 = some w) : release P buf w.a = some (w.a, false) := by
  obtain ⟨w1, e1, i1, -⟩ := invL_run hS ops hno (invL_fresh hF)
  obtain ⟨w2, e2, i2, l2⟩ := quiet_live hS i1 (o := .release buf) trivial
  obtain ⟨w3, e3, i3, l3⟩ := quiet_run hS quiet i2 hq
  have hw : w3 = w := by
    rw [run_append, e1, Option.bind_some, run, e2, Option.bind_some, e3] at hrun
    exact Option.some.inj hrun
  subst hw
  have hno' : ∀ o ∈ ops ++ .release buf :: quiet, o.NoWrap := by
    intro o ho
    rcases List.mem_append.1 ho with h | h
    · exact hno o h
    · rcases List.mem_cons.1 h with rfl | h
      · trivial
      · exact quiet_nowrap (hq o h)
  obtain ⟨a', r, h1, h2, h3⟩ := C06_release_iff_live hS hF hno' hrun buf
  have hr : r = false := by
    cases r with
    | false => rfl
    | true =>
      exfalso
      obtain ⟨x, hx, he⟩ := h2.1 rfl
      have hx2 := l3 x hx
      have hrel : run P M (ops ++ [.release buf]) w0 = some w2 := by
        rw [run_append, e1, Option.bind_some, run, e2]; rfl
      have hd := C06_double_release hS hF hno hrel
      obtain ⟨a2, r2, t1, t2, -⟩ := C06_release_iff_live hS hF (ops := ops ++ [.release buf]) (fun o ho => by
        rcases List.mem_append.1 ho with h | h
        · exact hno o h
        · rw [List.mem_singleton.1 h]; trivial) hrel buf
      rw [hd] at t1; cases t1
      have := t2.2 ⟨x, hx2, he⟩
      simp at this
  subst hr
  rw [h1, h3 rfl]

/-- **C100.** Releasing a buffer at once and asking for the same amount again returns the very same handle, in every reachable state:
`allocate` → `release` → `allocate` gives back the same address, size, channels and rate, and the record of the live buffers is what it
was with one `allocate`. -/
theorem C100_same_handle {P M : ℕ} (hS : Sizes P M) {w0 w : World α} (hF : Fresh P M w0) {ops : List (Op α)}
    (hno : ∀ o ∈ ops, o.NoWrap) (hrun : run P M ops w0 = some w) {n ch : ℕ} (hfit : n * ch < 2 ^ 64) {a' : Alloc α} {b : Buffer α}
    (hal : allocate P M n ch w.a = some (a', b)) (hv : b.isValid = true) :
    ∃ w1 w2 a2 g g', run P M [.allocate n ch] w = some w1 ∧ w1.live = (b, g) :: w.live ∧
      run P M [.allocate n ch, .release b] w = some w2 ∧ w2.live = w.live ∧
      allocate P M n ch w2.a = some (a2, b) ∧
      ∃ w3, run P M [.allocate n ch, .release b, .allocate n ch] w = some w3 ∧ w3.live = (b, g') :: w.live := by
  have h := reachL hS hF hno hrun
  -- the first allocation
  obtain ⟨p, hp1, hp2, hp3, hp4, hp5⟩ := C05_first_fit_lowest hS hF hno hrun hfit hal hv
  rcases allocate_cases hS h.toInvT n ch with ⟨h1, _, _⟩ | ⟨hn, hch, bs, bs', off, g, a1, hb, hb', hl, hpm, ho', hr', h1, hst⟩
  · rw [hal] at h1; cases h1; simp [Buffer.isValid, Buffer.empty] at hv
  rw [hal] at h1
  obtain ⟨rfl, hbd⟩ := Prod.mk.inj (Option.some.inj h1)
  rw [← hbd] at hst
  have hpos : 0 < n * ch := by rcases hch with rfl | rfl <;> omega
  set w1 : World α := ⟨a', w.mem, (b, g) :: w.live⟩ with hw1
  obtain ⟨w1', t1, i1, -⟩ := invL_step hS h (.allocate n ch) hfit
  rw [hst] at t1; cases t1
  -- no buffer live before starts where the new one does
  have hfresh : ∀ x ∈ w.live, x.1.data ≠ b.data := by
    intro x hx he
    obtain ⟨bs0, hb0⟩ := live_inited h hx
    obtain ⟨k, hk1, hk2, hk3⟩ := live_in_pool h hb0 hx
    rw [hp1] at he
    rw [hk1] at he
    simp only [Ptr.at.injEq, true_and] at he
    subst he
    have hg := (h.grant x hx).2
    have hval := (h.grant x hx).1
    have hx0 : 0 < x.2 := by
      have : 0 < x.1.numSamples * x.1.channels := by
        simp only [Buffer.isValid, Bool.and_eq_true, Bool.or_eq_true, decide_eq_true_eq, beq_iff_eq] at hval
        obtain ⟨⟨_, h1⟩, h2⟩ := hval
        exact Nat.mul_pos h1 (by rcases h2 with h2 | h2 <;> omega)
      omega
    exact hp5.1.2 k le_rfl (by omega) x hx ⟨k, hk1, le_rfl, by omega⟩
  -- the release
  rcases release_cases hS i1.toInvT b with ⟨_, _, q⟩ | ⟨cs, cs', k, g2, a2, hc, hc', hk, hd, hpm2, _, ho2, hr2, q1, q2⟩
  · exfalso
    obtain ⟨x, r, t1, t2, -⟩ := C06_release_iff_live hS hF (ops := ops ++ [.allocate n ch]) (w := w1) (fun o ho => by
      rcases List.mem_append.1 ho with h | h
      · exact hno o h
      · rw [List.mem_singleton.1 h]; exact hfit) (by rw [run_append, hrun, Option.bind_some, run, hst]; rfl) b
    have := t2.2 ⟨(b, g), by simp [hw1], rfl⟩
    subst this
    rcases release_cases hS i1.toInvT b with ⟨z, _, _⟩ | ⟨_, _, _, _, _, _, _, _, _, _, _, _, _, z, _⟩
    · rw [z] at t1; cases t1
    · rcases q with q | ⟨cs, hc, q⟩
      · have e := (i1.uninit q).2; simp [hw1] at e
      · have hm : (b.data, g) ∈ (usedList cs).map fun x => (Ptr.at w1.a.obj x.1, x.2) :=
          (i1.live cs hc).2.subset (List.mem_map.2 ⟨(b, g), by simp [hw1], rfl⟩)
        obtain ⟨y, hy, hye⟩ := List.mem_map.1 hm
        simp only [Prod.mk.injEq] at hye
        obtain ⟨k, hk1, hk2, hk3⟩ := live_in_pool i1 hc (x := (b, g)) (by simp [hw1])
        rcases q y hy with h4 | h4
        · rw [hk1] at hye; simp only [Ptr.at.injEq, true_and] at hye; omega
        · exact h4 hye.1.symm
  have hlive2 : w1.live.filter (fun x => x.1.data ≠ b.data) = w.live := by
    rw [hw1]
    simp only [List.filter_cons, ne_eq, not_true_eq_false, decide_false, Bool.false_eq_true, if_false]
    exact List.filter_eq_self.2 fun x hx => by simpa using hfresh x hx
  rw [hlive2] at q2
  set w2 : World α := ⟨a2, w1.mem, w.live⟩ with hw2
  have run2 : run P M [.allocate n ch, .release b] w = some w2 := by
    rw [run, hst, Option.bind_some, run, q2]; rfl
  have hrun2 : run P M (ops ++ [.allocate n ch, .release b]) w0 = some w2 := by
    rw [run_append, hrun, Option.bind_some, run2]
  have hno2 : ∀ o ∈ ops ++ [.allocate n ch, .release b], o.NoWrap := by
    intro o ho
    rcases List.mem_append.1 ho with h | h
    · exact hno o h
    · simp only [List.mem_cons, List.not_mem_nil, or_false] at h
      rcases h with rfl | rfl
      · exact hfit
      · trivial
  have hobj : w2.a.obj = w.a.obj := ho2.trans ho'
  have hfeas : ∀ q, Feasible P w2 (n * ch) q ↔ Feasible P w (n * ch) q := by
    intro q; simp only [Feasible, Unused, hobj]; exact Iff.rfl
  -- the second allocation
  obtain ⟨a3, b3, hal3, hiff, -⟩ := C04_alloc_iff_gap hS hF hno2 hrun2 hc'.inited (by omega : 0 < n) hch hfit
  have hv3 : b3.isValid = true := hiff.2 ⟨p, (hfeas p).2 hp5.1⟩
  obtain ⟨p3, r1, r2, r3, r4, r5⟩ := C05_first_fit_lowest hS hF hno2 hrun2 hfit hal3 hv3
  have hpp : p3 = p := by
    apply le_antisymm
    · exact r5.2 ((hfeas p).2 hp5.1)
    · exact hp5.2 ((hfeas p3).1 r5.1)
  have hrate : w2.a.rate = w.a.rate := hr2.trans hr'
  have hbb : b3 = b := by
    cases b3; cases b
    simp only at r1 r2 r3 r4 hp1 hp2 hp3 hp4
    subst r1 r2 r3 r4 hp1 hp2 hp3 hp4
    rw [hpp, hobj, hrate]
  subst hbb
  rcases allocate_cases hS (reachL hS hF hno2 hrun2).toInvT n ch with ⟨z, _, _⟩ | ⟨_, _, _, _, off3, g3, a4, _, _, _, _, _, _, z, hst3⟩
  · rw [hal3] at z; cases z; simp [Buffer.isValid, Buffer.empty] at hv
  rw [hal3] at z
  obtain ⟨rfl, hbd3⟩ := Prod.mk.inj (Option.some.inj z)
  rw [← hbd3] at hst3
  refine ⟨w1, w2, a3, g, g3, by rw [run, hst]; rfl, rfl, run2, rfl, hal3, ⟨a3, w2.mem, (b3, g3) :: w2.live⟩, ?_, rfl⟩
  rw [show ([.allocate n ch, .release b3, .allocate n ch] : List (Op α)) = [.allocate n ch, .release b3] ++ [.allocate n ch] from rfl,
    run_append, run2, Option.bind_some, run, hst3]
  rfl

/-- **C100 negation.** A stale copy of a released handle does not stay invalid: after an allocation of the same size it names the new
owner's buffer, and releasing the stale copy succeeds and takes that buffer away. -/
theorem C100_stale_release {P M : ℕ} (hS : Sizes P M) {w0 w : World α} (hF : Fresh P M w0) {ops : List (Op α)}
    (hno : ∀ o ∈ ops, o.NoWrap) (hrun : run P M ops w0 = some w) {n ch : ℕ} (hfit : n * ch < 2 ^ 64) {a' : Alloc α} {stale : Buffer α}
    (hal : allocate P M n ch w.a = some (a', stale)) (hv : stale.isValid = true) :
    ∃ w3 own g, run P M [.allocate n ch, .release stale, .allocate n ch] w = some w3 ∧ w3.live = (own, g) :: w.live ∧
      ∃ w4, release P stale w3.a = some (w4.a, true) ∧
        run P M [.allocate n ch, .release stale, .allocate n ch, .release stale] w = some w4 ∧ w4.live = w.live := by
  obtain ⟨w1, w2, a2, g, g', r1, l1, r2, l2, hal2, w3, r3, l3⟩ := C100_same_handle hS hF hno hrun hfit hal hv
  have hrun2 : run P M (ops ++ [.allocate n ch, .release stale]) w0 = some w2 := by
    rw [run_append, hrun, Option.bind_some, r2]
  have hno2 : ∀ o ∈ ops ++ [.allocate n ch, .release stale], o.NoWrap := by
    intro o ho
    rcases List.mem_append.1 ho with h | h
    · exact hno o h
    · simp only [List.mem_cons, List.not_mem_nil, or_false] at h
      rcases h with rfl | rfl
      · exact hfit
      · trivial
  obtain ⟨v1, v2, a4, k, k', s1, m1, s2, m2, -, -⟩ := C100_same_handle hS hF hno2 hrun2 hfit hal2 hv
  have e3 : v1 = w3 := by
    rw [show ([.allocate n ch, .release stale, .allocate n ch] : List (Op α)) = [.allocate n ch, .release stale] ++ [.allocate n ch]
      from rfl, run_append, r2, Option.bind_some, s1] at r3
    exact Option.some.inj r3
  subst e3
  have hstep : step P M (.release stale) v1 = some v2 := by
    have : run P M ([.allocate n ch] ++ [.release stale]) w2 = some v2 := s2
    rw [run_append, s1, Option.bind_some, run] at this
    cases hh : step P M (.release stale) v1 with
    | none => rw [hh] at this; simp at this
    | some z => rw [hh] at this; simpa [run] using this
  refine ⟨v1, stale, g', r3, l3, v2, ?_, ?_, m2.trans l2⟩
  · simp only [step] at hstep
    cases hh : release P stale v1.a with
    | none => rw [hh] at hstep; simp at hstep
    | some z =>
      obtain ⟨za, zr⟩ := z
      rw [hh] at hstep
      simp only [Option.map_some, Option.some.injEq] at hstep
      cases zr with
      | true => rw [← hstep]
      | false =>
        exfalso
        rw [← hstep] at m2
        simp only [Bool.false_eq_true, if_false] at m2
        rw [l3, l2] at m2
        exact absurd (congrArg List.length m2) (by simp)
  · rw [show ([.allocate n ch, .release stale, .allocate n ch, .release stale] : List (Op α)) =
      [.allocate n ch, .release stale, .allocate n ch] ++ [.release stale] from rfl, run_append, r3, Option.bind_some, run, hstep]
    rfl

/-- Concrete case: a second mono buffer of two floats in the pool of ten floats is handed out, released, handed out again and taken away
by the stale handle. -/
example : Fresh 10 3 exWorld ∧ Sizes 10 3 ∧ (∀ o ∈ ([.init (lit 48000), .allocate 3 1] : List (Op F32)), o.NoWrap) ∧
    ((run 10 3 [.init (lit 48000), .allocate 3 1] exWorld).bind fun w => allocate 10 3 2 1 w.a).map (fun r => (r.2.data, r.2.isValid)) =
      some (.at 0 3, true) :=
  ⟨⟨by decide, rfl, rfl, rfl⟩, ⟨by decide, by decide, by decide, by decide⟩, by simp [Op.NoWrap], by decide +kernel⟩

end Verif.BufferAllocator
