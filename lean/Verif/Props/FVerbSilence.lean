import Verif.Props.FVerbProgram
import Verif.Props.FVerbRun
import Verif.Lemmas.LinearBlocks

/-!
# C59: silence in, silence out
-/

namespace Verif.FVerbDSP
open FP

/-! ### Silent states -/

/-- A result, if there is one, satisfies `R`. -/
def OptP {A : Type} (R : A → Prop) : Option A → Prop
  | none => True
  | some a => R a

theorem OptP.bind {A B : Type} {R : A → Prop} {S : B → Prop} {x : Option A} {f : A → Option B} (H : OptP R x)
    (hf : ∀ a, R a → OptP S (f a)) : OptP S (x.bind f) := by
  cases x
  · trivial
  · exact hf _ H

theorem OptP.map {A B : Type} {R : A → Prop} {S : B → Prop} {x : Option A} {f : A → B} (H : OptP R x)
    (hf : ∀ a, R a → S (f a)) : OptP S (x.map f) := by
  cases x
  · trivial
  · exact hf _ H

/-- A delay that holds silence. -/
def ZL (l : ℤ → F32) : Prop := ∀ t, (l t).Zero

/-- A silent channel. -/
structure ZH (h : Half (ℤ → F32) F32) : Prop where
  preLine : ZL h.preLine
  lp : h.lp.Zero
  hp : h.hp.Zero
  line1 : ZL h.line1
  ap1 : h.ap1.Zero
  line2 : ZL h.line2
  ap2 : h.ap2.Zero
  line3 : ZL h.line3
  ap3 : h.ap3.Zero
  line4 : ZL h.line4
  ap4 : h.ap4.Zero
  modLine : ZL h.modLine
  modOut : h.modOut.Zero
  dampLine : ZL h.dampLine
  damp : h.damp.Zero
  tailLine : ZL h.tailLine
  tail : h.tail.Zero
  outA : ZL h.outA
  outB : ZL h.outB
  outC : ZL h.outC

/-- The control values that multiply audio are finite. -/
structure ZC (c : Ctrl F32) : Prop where
  rec8 : c.rec8.In 0 8
  rec12 : c.rec12.In 0 8
  rec15 : c.rec15.In 0 8
  rec20 : c.rec20.In 0 8
  rec24 : c.rec24.In 0 8
  rec25 : c.rec25.In 0 8
  rec27 : c.rec27.In 0 8
  rec29 : c.rec29.In 0 8
  mixR : c.fadeR.mix.In 0 1
  slopeR : c.fadeR.slope ≠ .nan
  mixL : c.fadeL.mix.In 0 1
  slopeL : c.fadeL.slope ≠ .nan

theorem ZL.wr {N : ℕ} {t : ℤ} {l : ℤ → F32} {x : F32} (H : ZL l) (h : x.Zero) : OptP ZL (ideal.wr N l t x) := by
  intro i
  by_cases e : i = t
  · subst e; simp only [Function.update_self]; exact h
  · simp only [Function.update_of_ne e]; exact H i

theorem ZL.rd {N : ℕ} {t d : ℤ} {l : ℤ → F32} (H : ZL l) : OptP FP.Zero (ideal.rd N l t d) := H _

theorem allpass_z {N : ℕ} {t d : ℤ} {g x p : F32} {l : ℤ → F32} (hg : g.isFin = true) (H : ZL l) (hx : x.Zero) (hp : p.Zero) :
    OptP (fun u => ZL u.1 ∧ u.2.1.Zero ∧ u.2.2.Zero) (allpass ideal N t d g x p l) := by
  unfold allpass
  have ht := zero_sub_zero hx (mul_zero' hg hp)
  refine (H.wr ht).bind fun l L => ?_
  exact L.rd.map fun u U => ⟨L, U, mul_zero' hg ht⟩

theorem fin_add8 {x : F32} (h : x.In 0 8) : (x + lit 1).isFin = true ∧ (lit 1 - x).isFin = true ∧ (lit 0.5 * (x + lit 1)).isFin = true := by
  have r8 : binary32.Rep 8 false := by decide +kernel
  have r9 : binary32.Rep 9 false := by decide +kernel
  have ho := lit_one (f := binary32)
  have hh : (lit 0.5 : F32).In 0.5 0.5 := by decide +kernel
  have h1 : (x + lit 1).In 0 9 := add_in h ho rep_zero r9 (by norm_num) (by norm_num)
  refine ⟨h1.1, (sub_in ho h (Rep.neg r8) r8 (by norm_num) (by norm_num)).1, ?_⟩
  exact (mul_in hh.1 h1.1 rep_zero r9 (by rw [hh.val_eq]; linarith [h1.2.1]) (by rw [hh.val_eq]; linarith [h1.2.2])).1

theorem inputStep_z {t pre d1 d2 d3 d4 : ℤ} {c : Ctrl F32} (C : ZC c) {f : F32 → F32} {x : F32} {h : Half (ℤ → F32) F32}
    (H : ZH h) (hx : x.Zero) (hf : ∀ {u}, u.Zero → (f u).Zero) :
    OptP (fun u => ZH u.1 ∧ u.2.Zero) (inputStep ideal t pre d1 d2 d3 d4 c f x h) := by
  unfold inputStep
  refine (H.preLine.wr (zero_mul' hx C.rec27.1)).bind fun p P => ?_
  refine P.rd.bind fun q Q => ?_
  have hlp := zero_add_zero Q (mul_zero' C.rec25.1 H.lp)
  have hhp := zero_add_zero (hf hlp) (mul_zero' C.rec24.1 H.hp)
  refine (allpass_z C.rec20.1 H.line1 (mul_zero' (fin_add8 C.rec24).2.2 (zero_sub_zero hhp H.hp)) H.ap1).bind ?_
  rintro ⟨l1, y1, z1⟩ ⟨L1, Y1, Z1⟩
  refine (allpass_z C.rec20.1 H.line2 (zero_add_zero Z1 H.ap1) H.ap2).bind ?_
  rintro ⟨l2, y2, z2⟩ ⟨L2, Y2, Z2⟩
  refine (allpass_z C.rec15.1 H.line3 (zero_add_zero Z2 H.ap2) H.ap3).bind ?_
  rintro ⟨l3, y3, z3⟩ ⟨L3, Y3, Z3⟩
  refine (allpass_z C.rec15.1 H.line4 (zero_add_zero Z3 H.ap3) H.ap4).map ?_
  rintro ⟨l4, y4, z4⟩ ⟨L4, Y4, Z4⟩
  exact ⟨⟨P, hlp, hhp, L1, Y1, L2, Y2, L3, Y3, L4, Y4, H.modLine, H.modOut, H.dampLine, H.damp, H.tailLine, H.tail, H.outA, H.outB,
    H.outC⟩, Z4⟩

theorem temp14_fin {x : F32} (h : x.In 0 8) : (Arith.stdMin (lit 0.5) (Arith.stdMax (lit 0.25) (x + lit 0.15)) : F32).isFin = true := by
  have r9 : binary32.Rep 9 false := by decide +kernel
  have hh : (lit 0.15 : F32).In 0 1 := by decide +kernel
  have h1 : (x + lit 0.15 : F32).In 0 9 := add_in h hh rep_zero r9 (by norm_num) (by norm_num)
  unfold Arith.stdMin Arith.stdMax
  split_ifs <;> first | exact h1.1 | decide +kernel

theorem tankStep_z {tN bN : ℕ} {t d dT : ℤ} {c : Ctrl F32} (C : ZC c) {f : Fade F32} (hm : f.mix.isFin = true) {u v : F32 → F32}
    {fb x4 : F32} {p h : Half (ℤ → F32) F32} (P : ZH p) (H : ZH h) (hb : fb.Zero) (hx : x4.Zero)
    (hu : ∀ {x}, x.Zero → (u x).Zero) (hv : ∀ {x}, x.Zero → (v x).Zero) :
    OptP ZH (tankStep ideal tN bN t d dT c f u v fb x4 p h) := by
  unfold tankStep
  have h8 := zero_add_zero (zero_add_zero (zero_add_zero P.ap4 (mul_zero' C.rec29.1 hb)) hx) (mul_zero' C.rec12.1 P.modOut)
  refine (H.modLine.wr h8).bind fun m M => ?_
  refine M.rd.bind fun a A => ?_
  refine M.rd.bind fun c' C' => ?_
  have h13 := zero_add_zero (zero_neg' (mul_zero' C.rec12.1 h8)) P.modOut
  refine (H.dampLine.wr h13).bind fun d1 D => ?_
  refine D.rd.bind fun y Y => ?_
  have hd := zero_add_zero Y (mul_zero' C.rec8.1 P.damp)
  have h15 := zero_add_zero (mul_zero' (temp14_fin C.rec29) P.tail) (hu hd)
  refine (H.tailLine.wr h15).bind fun e E => ?_
  refine E.rd.bind fun tl T => ?_
  refine (H.outA.wr (zero_add_zero (zero_neg' (mul_zero' (temp14_fin C.rec29) h15)) P.tail)).bind fun f1 F => ?_
  refine (H.outB.wr (hv hd)).bind fun g G => ?_
  refine (H.outC.wr h13).map fun k K => ?_
  exact ⟨H.preLine, H.lp, H.hp, H.line1, H.ap1, H.line2, H.ap2, H.line3, H.ap3, H.line4, H.ap4, M,
    zero_add_zero A (mul_zero' hm (zero_sub_zero C' A)), D, hd, E, T, F, G, K⟩

theorem tap_z {t : ℤ} {n1 n2 n3 n4 n5 n6 n7 : ℕ} {d1 d2 d3 d4 d5 d6 d7 : ℤ} {x1 x2 x3 x4 x5 x6 x7 : ℤ → F32}
    (h1 : ZL x1) (h2 : ZL x2) (h3 : ZL x3) (h4 : ZL x4) (h5 : ZL x5) (h6 : ZL x6) (h7 : ZL x7) :
    OptP FP.Zero (tap ideal t (n1, x1, d1) (n2, x2, d2) (n3, x3, d3) (n4, x4, d4) (n5, x5, d5) (n6, x6, d6) (n7, x7, d7)) := by
  unfold tap
  refine h1.rd.bind fun _ A => ?_
  refine h2.rd.bind fun _ B => ?_
  refine h3.rd.bind fun _ C => ?_
  refine h4.rd.bind fun _ D => ?_
  refine h5.rd.bind fun _ E => ?_
  refine h6.rd.bind fun _ F => ?_
  refine h7.rd.map fun _ G => ?_
  exact mul_zero' (by decide +kernel) (zero_sub_zero (zero_add_zero (zero_add_zero A B) C)
    (zero_add_zero (zero_add_zero (zero_add_zero D E) F) G))

/-! ### Controls -/

theorem mix_in {m t : F32} (hm : m.In 0 1) (ht : t ≠ .nan) : (Arith.stdMax (lit 0) (Arith.stdMin (lit 1) (m + t)) : F32).In 0 1 := by
  have hz := lit_zero (f := binary32)
  have ho := lit_one (f := binary32)
  have key : ∀ v : F32, v ≠ .nan → (Arith.stdMax (lit 0) (Arith.stdMin (lit 1) v) : F32).In 0 1 := by
    intro v hv
    rcases not_nan_cases hv with rfl | rfl | hf
    · decide +kernel
    · decide +kernel
    · unfold Arith.stdMin
      split_ifs with h
      · rw [lt_fin hf ho.1, decide_eq_true_eq, ho.val_eq] at h
        unfold Arith.stdMax
        split_ifs with h'
        · rw [lt_fin hz.1 hf, decide_eq_true_eq, hz.val_eq] at h'
          exact ⟨hf, h'.le, h.le⟩
        · exact hz.mono le_rfl (by norm_num)
      · unfold Arith.stdMax
        split_ifs
        · exact ho.mono (by norm_num) le_rfl
        · exact hz.mono le_rfl (by norm_num)
  refine key _ ?_
  rcases not_nan_cases ht with rfl | rfl | hf
  · obtain ⟨v, nz, hv, rfl⟩ := isFin_cases hm.1
    intro h; cases h
  · obtain ⟨v, nz, hv, rfl⟩ := isFin_cases hm.1
    intro h; cases h
  · obtain ⟨v, nz, hv, rfl⟩ := isFin_cases hm.1
    obtain ⟨v', nz', hv', rfl⟩ := isFin_cases hf
    exact ofRat_ne_nan

theorem fadeStep_z {c12 : F32} (hc : c12 ≠ .nan) {target : ℤ} {f : Fade F32} (hm : f.mix.In 0 1) (hs : f.slope ≠ .nan) :
    (fadeStep c12 target f).mix.In 0 1 ∧ (fadeStep c12 target f).slope ≠ .nan := by
  have hz : (lit 0 : F32) ≠ .nan := by decide +kernel
  have hneg : -c12 ≠ .nan := by
    rcases not_nan_cases hc with rfl | rfl | h
    · intro h; cases h
    · intro h; cases h
    · obtain ⟨v, nz, hv, rfl⟩ := isFin_cases h
      intro h; cases h
  have ht : (fadeStep c12 target f).slope ≠ .nan := by
    unfold fadeStep
    dsimp only
    split_ifs <;> assumption
  exact ⟨mix_in hm ht, ht⟩

/-- All parameters are in the ranges of the setters. -/
structure Ranged (p : Params F32) : Prop where
  conv : InRange p
  damping : p.damping.In 0 20000
  tailDensity : p.tailDensity.In 0 100
  diffusion2 : p.diffusion2.In 0 100
  diffusion1 : p.diffusion1.In 0 100
  highPass : p.highPass.In 0 1000
  lowPass : p.lowPass.In 0 20000
  inputAmount : p.inputAmount.In 0 100
  decay : p.decay.In 0 100

theorem c12_ne_nan {sr : ℤ} (h1 : -2 ^ 31 ≤ sr) (h2 : sr < 2 ^ 31) {k : Consts F32} (hk : instanceConstants sr = some k) :
    k.c12 ≠ .nan := by
  obtain ⟨n, hn, n0, n1, -⟩ := n12_in (c0_in h1 h2)
  have e : k.c12 = lit 1 / Arith.ofInt n := by
    unfold instanceConstants at hk
    dsimp only at hk
    iterate 5 obtain ⟨_, -, hk⟩ := Option.bind_eq_some_iff.1 hk
    obtain ⟨n', hn', hk⟩ := Option.bind_eq_some_iff.1 hk
    rw [hn] at hn'
    cases hn'
    iterate 23 obtain ⟨_, -, hk⟩ := Option.bind_eq_some_iff.1 hk
    cases hk
    rfl
  rw [e]
  rcases n0.eq_or_lt with rfl | hp
  · decide +kernel
  · have hi : (Arith.ofInt n : F32).In 1 1920 := by
      refine ofRat_in rep_one (by exact_mod_cast rep32_nat (n := 1920) (by norm_num)) ?_ (by exact_mod_cast n1)
      exact_mod_cast hp
    have ho := lit_one (f := binary32)
    have hv : 0 < (Arith.ofInt n : F32).val := by linarith [hi.2.1]
    have := div_in ho.1 hi.1 hv.ne' rep_zero rep_one (by rw [ho.val_eq]; positivity)
      (by rw [ho.val_eq, div_le_one hv]; exact hi.2.1)
    intro hn
    rw [hn] at this
    exact absurd this.1 (by decide)

section Controls
variable [Libm F32] [LibmSpec]

theorem expSlow_in {k : Consts F32} (K : Good k) {p : F32} (hp : p.In 0 20000) :
    (k.c1 * Libm.exp (-(k.c3 * p))).In 0 8 ∧ (k.c1 * Libm.exp (-(k.c3 * p))).val * k.c0.val ≤ 300 := by
  have r : binary32.Rep 20000 false := by exact_mod_cast rep32_nat (n := 20000) (by norm_num)
  have h1 : (k.c3 * p).In 0 20000 := mul_in K.c3.1 hp.1 rep_zero r (mul_nonneg K.c3.2.1 hp.2.1)
    (by nlinarith [K.c3.2.1, K.c3.2.2, hp.2.1, hp.2.2])
  have h2 := neg_in h1
  have h3 := LibmSpec.exp_nonpos (-(k.c3 * p)) (Or.inr ⟨h2.1, by linarith [h2.2.2]⟩)
  exact slow_in K 1 K.c1 h3 (by linarith [K.c1.2.2]) (by linarith [K.c1'])

theorem ctrl_z {k : Consts F32} (K : Good k) (h12 : k.c12 ≠ .nan) {p : Params F32} (P : Ranged p) {c c' : Ctrl F32} {pre : ℤ} (C : ZC c)
    (h : ctrlStep k (slow k p) c = some (c', pre)) : ZC c' := by
  simp only [ctrlStep, Option.bind_eq_some_iff, Option.some.injEq, Prod.mk.injEq] at h
  obtain ⟨_, -, _, -, _, -, _, -, _, -, _, -, _, -, _, -, _, -, rfl, -⟩ := h
  have h4 : ∀ {x : F32}, x.In 0 100 → (k.c4 * x).In 0 8 ∧ (k.c4 * x).val * k.c0.val ≤ 300 := fun hx =>
    slow_in K 100 K.c4 hx (by nlinarith [K.c4', K.c0.2.1, K.c4.2.1]) (by linarith [K.c4'])
  have hd := expSlow_in K P.damping
  have hh := expSlow_in K (P.highPass.mono le_rfl (by norm_num))
  have hl := expSlow_in K P.lowPass
  have fR := fun t => fadeStep_z (target := t) h12 C.mixR C.slopeR
  have fL := fun t => fadeStep_z (target := t) h12 C.mixL C.slopeL
  exact ⟨smooth_in K hd.1 hd.2 C.rec8, smooth_in K (h4 P.tailDensity).1 (h4 P.tailDensity).2 C.rec12,
    smooth_in K (h4 P.diffusion2).1 (h4 P.diffusion2).2 C.rec15, smooth_in K (h4 P.diffusion1).1 (h4 P.diffusion1).2 C.rec20,
    smooth_in K hh.1 hh.2 C.rec24, smooth_in K hl.1 hl.2 C.rec25, smooth_in K (h4 P.inputAmount).1 (h4 P.inputAmount).2 C.rec27,
    smooth_in K (h4 P.decay).1 (h4 P.decay).2 C.rec29, (fR _).1, (fR _).2, (fL _).1, (fL _).2⟩

/-- A silent reverb. -/
structure ZS (s : State (ℤ → F32) F32) : Prop where
  ctrl : ZC s.ctrl
  r : ZH s.r
  l : ZH s.l

/-- A silent frame. -/
def ZF (x : Stereo F32) : Prop := x.left.Zero ∧ x.right.Zero

omit [Libm F32] [LibmSpec] in
theorem clear_z : ZS (clear ideal) := by
  have z := zero_lit (f := binary32)
  have l : ZL (fun _ => lit 0) := fun _ => z
  have w : (lit 0 : F32).In 0 8 := z.mono le_rfl (by norm_num)
  have u : (lit 0 : F32).In 0 1 := z.mono le_rfl (by norm_num)
  have n : (lit 0 : F32) ≠ .nan := by decide +kernel
  exact ⟨⟨w, w, w, w, w, w, w, w, u, n, u, n⟩, ⟨l, z, z, l, z, l, z, l, z, l, z, l, z, l, z, l, z, l, l, l⟩,
    ⟨l, z, z, l, z, l, z, l, z, l, z, l, z, l, z, l, z, l, l, l⟩⟩

theorem step_z {k : Consts F32} (K : Good k) (h12 : k.c12 ≠ .nan) {p : Params F32} (P : Ranged p) {s : State (ℤ → F32) F32} (S : ZS s)
    {x : Stereo F32} (X : ZF x) : OptP (fun u => ZS u.1 ∧ ZF u.2) (step ideal k (slow k p) s x) := by
  unfold step
  cases hc : ctrlStep k (slow k p) s.ctrl with
  | none => trivial
  | some cp =>
    obtain ⟨c, pre⟩ := cp
    rw [Option.bind_some]
    dsimp only
    have C := ctrl_z K h12 P S.ctrl hc
    have t0 := (fin_add8 C.rec8).2.1
    have t1 := (fin_add8 C.rec25).2.1
    refine (inputStep_z C S.r X.2 (fun h => zero_mul' h t1)).bind ?_
    rintro ⟨r1, u1⟩ ⟨R, U⟩
    refine S.l.outA.rd.bind fun f F => ?_
    refine (tankStep_z C C.mixR.1 S.r R F U (fun h => zero_mul' (mul_zero' C.rec29.1 h) t0) (fun h => zero_mul' h t0)).bind fun q Q => ?_
    refine (inputStep_z C S.l X.1 (fun h => mul_zero' t1 h)).bind ?_
    rintro ⟨l1, v1⟩ ⟨Lh, V⟩
    refine Q.outA.rd.bind fun g G => ?_
    refine (tankStep_z C C.mixL.1 S.l Lh G V (fun h => mul_zero' ?_ h) (fun h => mul_zero' t0 h)).bind fun p P => ?_
    · have r := fin_add8 C.rec8
      have r8 : binary32.Rep 8 false := by decide +kernel
      have r64 : binary32.Rep 64 false := by decide +kernel
      have ho := lit_one (f := binary32)
      have hs : (lit 1 - c.rec8 : F32).In (-8) 8 := sub_in ho C.rec8 (Rep.neg r8) r8 (by norm_num) (by norm_num)
      exact (mul_in C.rec29.1 hs.1 (Rep.neg r64) r64 (by nlinarith [C.rec29.2.1, C.rec29.2.2, hs.2.1, hs.2.2])
        (by nlinarith [C.rec29.2.1, C.rec29.2.2, hs.2.1, hs.2.2])).1
    refine (tap_z Q.outC Q.outC Q.outA Q.outB P.outC P.outB P.outA).bind fun o O => ?_
    refine (tap_z P.outC P.outC P.outA P.outB Q.outC Q.outB Q.outA).bind fun w W => ?_
    cases FVerbDSP.i32 (s.iota + 1) with
    | none => trivial
    | some n => exact ⟨⟨C, Q, P⟩, O, W⟩

theorem loop_z {k : Consts F32} (K : Good k) (h12 : k.c12 ≠ .nan) {p : Params F32} (P : Ranged p) (xs : List (Stereo F32)) :
    ∀ {s : State (ℤ → F32) F32}, ZS s → (∀ x ∈ xs, ZF x) →
      OptP (fun u => ZS u.1 ∧ ∀ y ∈ u.2, ZF y) (loop ideal k (slow k p) s xs) := by
  induction xs with
  | nil => intro s S _; exact ⟨S, by simp⟩
  | cons x xs ih =>
    intro s S hx
    simp only [List.mem_cons, forall_eq_or_imp] at hx
    refine (step_z K h12 P S hx.1).bind ?_
    rintro ⟨t, y⟩ ⟨T, Y⟩
    refine (ih T hx.2).map ?_
    rintro ⟨u, z⟩ ⟨U, Z⟩
    refine ⟨U, ?_⟩
    simp only [List.mem_cons, forall_eq_or_imp]
    exact ⟨Y, Z⟩

end Controls

end Verif.FVerbDSP

namespace Verif.FVerb
open FP FVerbDSP

/-! ### Specification -/

/-- A zero, of either sign. -/
def Silent (x : Stereo F32) : Prop := x.left.isFin = true ∧ x.left.val = 0 ∧ x.right.isFin = true ∧ x.right.val = 0

/-- A call that brings in no sound: the samples are zeros, setters get numbers, sample rates are at least 45 Hz. -/
def Hush : Call F32 → Prop
  | .init _ sr => sr.isFin = true ∧ 45 ≤ sr.val
  | .process _ xs => ∀ x ∈ xs, Silent x
  | .set _ _ x => x ≠ .nan
  | .copy _ _ => False
  | _ => True

/-! ### Proof -/

theorem silent_iff {x : Stereo F32} : Silent x ↔ ZF x := by
  unfold Silent ZF FP.Zero FP.In
  constructor
  · rintro ⟨a, b, c, d⟩
    exact ⟨⟨a, b.ge, b.le⟩, c, d.ge, d.le⟩
  · rintro ⟨⟨a, b, c⟩, d, e, f⟩
    exact ⟨a, le_antisymm c b, d, le_antisymm f e⟩

variable [Libm F32] [LibmSpec]

theorem setParam_ranged (w : Setter) (x : F32) (hx : x ≠ .nan) {p : Params F32} (P : Ranged p) : Ranged (setParam w x p) := by
  have h0 := lit_zero (f := binary32)
  have h1 := lit_one (f := binary32)
  have h10 : (lit 10 : F32).In 10 10 := by decide +kernel
  have h100 : (lit 100 : F32).In 100 100 := by decide +kernel
  have h1000 : (lit 1000 : F32).In 1000 1000 := by decide +kernel
  have h20000 : (lit 20000 : F32).In 20000 20000 := by decide +kernel
  have hc : InRange (setParam w x p) := setParam_inRange w x hx P.conv
  obtain ⟨-, p1, p2, p3, p4, p5, p6, p7, p8⟩ := P
  have u : (limit 0 100 x : F32).In 0 100 := clamp_in hx h0 h100 (by norm_num)
  cases w
  case predelay => exact ⟨hc, p1, p2, p3, p4, p5, p6, p7, p8⟩
  case modFrequency => exact ⟨hc, p1, p2, p3, p4, p5, p6, p7, p8⟩
  case modDepth => exact ⟨hc, p1, p2, p3, p4, p5, p6, p7, p8⟩
  case inputAmount => exact ⟨hc, p1, p2, p3, p4, p5, p6, u, p8⟩
  case inputLowPass =>
    exact ⟨hc, p1, p2, p3, p4, p5, (clamp_in hx h1 h20000 (by norm_num)).mono (by norm_num) le_rfl, p7, p8⟩
  case inputHighPass =>
    exact ⟨hc, p1, p2, p3, p4, (clamp_in hx h1 h1000 (by norm_num)).mono (by norm_num) le_rfl, p6, p7, p8⟩
  case diffusion1 => exact ⟨hc, p1, p2, p3, u, p5, p6, p7, p8⟩
  case diffusion2 => exact ⟨hc, p1, p2, u, p4, p5, p6, p7, p8⟩
  case tailDensity => exact ⟨hc, p1, u, p3, p4, p5, p6, p7, p8⟩
  case decay => exact ⟨hc, p1, p2, p3, p4, p5, p6, p7, u⟩
  case damping =>
    exact ⟨hc, (clamp_in hx h10 h20000 (by norm_num)).mono (by norm_num) le_rfl, p2, p3, p4, p5, p6, p7, p8⟩

/-- A running reverb that has heard nothing. -/
structure Quiet (D : Dsp (List F32) F32) : Prop where
  rate : ∃ sr : ℤ, 45 ≤ sr ∧ sr < 2 ^ 31 ∧ instanceConstants sr = some D.consts
  params : Ranged D.params
  state : ∃ S, StateRel D.state S ∧ ZS S

theorem newDsp_quiet {sr : F32} (hf : sr.isFin = true) (h1 : 45 ≤ sr.val) {D : Dsp (List F32) F32} (h : newDsp arrays sr = some D) :
    Quiet D := by
  have h0 : 0 ≤ sr.val := by linarith
  have ht : truncQ sr.val = ⌊sr.val⌋ := truncQ_nonneg h0
  simp only [newDsp, Option.bind_eq_some_iff, Option.map_eq_some_iff] at h
  obtain ⟨n, hn, k, hk, rfl⟩ := h
  have hn' : n = truncQ sr.val ∧ n < 2 ^ 31 := by
    unfold Arith.toI32? at hn
    rw [toInt_fin hf] at hn
    dsimp only at hn
    split_ifs at hn with hb
    cases hn
    exact ⟨rfl, hb.2⟩
  refine ⟨⟨n, ?_, hn'.2, hk⟩, ?_, _, clear_rel, clear_z⟩
  · rw [hn'.1, ht]; exact Int.le_floor.2 (by exact_mod_cast h1)
  · have h : Ranged (resetUI : Params F32) := by
      constructor
      · constructor <;> decide +kernel
      all_goals decide +kernel
    exact setParam_ranged .diffusion2 (lit 75) (by decide +kernel) (setParam_ranged .diffusion1 (lit 70) (by decide +kernel)
      (setParam_ranged .tailDensity (lit 80) (by decide +kernel) (setParam_ranged .decay (lit 82) (by decide +kernel)
      (setParam_ranged .predelay (lit 150) (by decide +kernel) h))))

theorem compute_quiet {D : Dsp (List F32) F32} (Q : Quiet D) {xs ys : List (Stereo F32)} (hx : ∀ x ∈ xs, ZF x)
    {S : State (List F32) F32} (h : compute arrays D.consts D.params D.state xs = some (S, ys)) :
    Quiet { D with state := S } ∧ ∀ y ∈ ys, ZF y := by
  obtain ⟨sr, h1, h2, hk⟩ := Q.rate
  obtain ⟨T, hT, hz⟩ := Q.state
  obtain ⟨K, G⟩ := good_of_rate h1 h2 hk
  have hl := loop_z G (c12_ne_nan (by omega) h2 hk) Q.params xs hz hx
  have hr := loop_rel K (slow D.consts D.params) xs hT
  have h' : loop arrays D.consts (slow D.consts D.params) D.state xs = some (S, ys) := h
  rw [h'] at hr
  cases hi : loop ideal D.consts (slow D.consts D.params) T xs with
  | none => rw [hi] at hr; exact hr.elim
  | some r =>
    rw [hi] at hr hl
    obtain ⟨T', zs⟩ := r
    obtain ⟨hr1, hr2⟩ := hr
    dsimp only at hr2
    subst hr2
    exact ⟨⟨Q.rate, Q.params, T', hr1, hl.1⟩, hl.2⟩

theorem spec_quiet (qs : List (Call F32)) : ∀ {u u' : ℕ → Option (Unit' F32)} {outs : List (List (Stereo F32))},
    (∀ c r D, u c = some r → r.dsp = some D → Quiet D) → (∀ q ∈ qs, Hush q) → specRun u qs = some (u', outs) →
    ∀ o ∈ outs, ∀ y ∈ o, ZF y := by
  induction qs with
  | nil => intro u u' outs _ _ h; cases h; simp
  | cons q qs ih =>
    intro u u' outs U hq h
    simp only [List.mem_cons, forall_eq_or_imp] at hq
    obtain ⟨hq1, hq2⟩ := hq
    simp only [specRun, Option.bind_eq_some_iff, Option.map_eq_some_iff, Prod.exists, Prod.mk.injEq] at h
    obtain ⟨u1, ys, h1, u2, zs, h2, -, rfl⟩ := h
    have upd : ∀ (c : ℕ) (v : Option (Unit' F32)), (∀ r D, v = some r → r.dsp = some D → Quiet D) →
        ∀ d r D, Function.update u c v d = some r → r.dsp = some D → Quiet D := by
      intro c v hv d r D hr hD
      by_cases e : d = c
      · subst e; rw [Function.update_self] at hr; exact hv r D hr hD
      · rw [Function.update_of_ne e] at hr; exact U d r D hr hD
    suffices key : (∀ c r D, u1 c = some r → r.dsp = some D → Quiet D) ∧ ∀ y ∈ ys, ZF y by
      simp only [List.mem_cons, forall_eq_or_imp]
      exact ⟨key.2, ih key.1 hq2 h2⟩
    cases q with
    | declare c =>
      simp only [specStep] at h1
      split_ifs at h1
      cases h1
      exact ⟨upd _ _ (by rintro r D h hD; cases h; cases hD), by simp⟩
    | init c sr =>
      simp only [specStep, Option.bind_eq_some_iff, Option.map_eq_some_iff, Prod.mk.injEq] at h1
      obtain ⟨r, hr, D, hD, rfl, rfl⟩ := h1
      refine ⟨upd _ _ ?_, by simp⟩
      rintro r' D' h hD'
      cases h; cases hD'
      exact newDsp_quiet hq1.1 hq1.2 hD
    | process c xs =>
      have hx : ∀ x ∈ xs, ZF x := fun x h => silent_iff.1 (hq1 x h)
      simp only [specStep, Option.bind_eq_some_iff] at h1
      obtain ⟨r, hr, h1⟩ := h1
      cases hd : r.dsp with
      | none =>
        rw [hd] at h1
        cases h1
        exact ⟨U, hx⟩
      | some D =>
        rw [hd] at h1
        dsimp only at h1
        split_ifs at h1
        simp only [Option.map_eq_some_iff, Prod.exists, Prod.mk.injEq] at h1
        obtain ⟨S, zs, e, rfl, rfl⟩ := h1
        obtain ⟨Q, Z⟩ := compute_quiet (U c r D hr hd) hx e
        refine ⟨upd _ _ ?_, Z⟩
        rintro r' D' h hD'
        cases h; cases hD'
        exact Q
    | set c w x =>
      simp only [specStep, Option.map_eq_some_iff, Prod.mk.injEq] at h1
      obtain ⟨r, hr, rfl, rfl⟩ := h1
      refine ⟨upd _ _ ?_, by simp⟩
      rintro r' D' h hD'
      cases h
      simp only [Option.map_eq_some_iff] at hD'
      obtain ⟨D, hD, rfl⟩ := hD'
      have Q := U c r D hr hD
      exact ⟨Q.rate, setParam_ranged w x hq1 Q.params, Q.state⟩
    | reset c =>
      simp only [specStep, Option.map_eq_some_iff, Prod.mk.injEq] at h1
      obtain ⟨r, hr, rfl, rfl⟩ := h1
      refine ⟨upd _ _ ?_, by simp⟩
      rintro r' D' h hD'
      cases h
      simp only [Option.map_eq_some_iff] at hD'
      obtain ⟨D, hD, rfl⟩ := hD'
      have Q := U c r D hr hD
      exact ⟨Q.rate, Q.params, _, clear_rel, clear_z⟩
    | copy c d => exact hq1.elim
    | destroy c =>
      simp only [specStep, Option.map_eq_some_iff, Prod.mk.injEq] at h1
      obtain ⟨r, hr, rfl, rfl⟩ := h1
      exact ⟨upd _ _ (by rintro r D h; cases h), by simp⟩

/-! ### Theorem -/

/-- **C59** (bit-exact): reverbs make no sound of their own. In every program that only processes zeros, with any number of reverbs, any
setter calls (no NaN), re-initialisations and resets, every output sample is a zero: no constant is added, and no control value ever
becomes infinite or NaN and turns `0 * x` into NaN. -/
theorem C59_silent (qs : List (Call F32)) (hq : ∀ q ∈ qs, Hush q) (w : World F32) (outs : List (List (Stereo F32)))
    (h : World.start.run qs = some (w, outs)) : ∀ o ∈ outs, ∀ y ∈ o, Silent y := by
  have hc : NoCopy qs := fun c d hm => hq _ hm
  have e := C49_exact qs hc
  rw [h] at e
  cases hs : specRun (fun _ => none) qs with
  | none => rw [hs] at e; cases e
  | some r =>
    obtain ⟨u, outs'⟩ := r
    rw [hs] at e
    cases e
    intro o ho y hy
    exact silent_iff.2 (spec_quiet qs (fun c r D h => by cases h) hq hs o ho y hy)

example : ∃ w outs, World.start.run [.declare 0, .init 0 (lit 44100), .process 0 [⟨lit 0, -lit 0⟩], .set 0 .decay (.inf false), .process 0 []]
    = some (w, outs) ∧ ∀ o ∈ outs, ∀ y ∈ o, Silent y := by
  obtain ⟨w, outs, e, -⟩ := C58_program [.declare 0, .init 0 (lit 44100), .process 0 [⟨lit 0, -lit 0⟩], .set 0 .decay (.inf false),
    .process 0 []] (by
      simp only [Contract]
      refine ⟨trivial, ⟨false, false, 0⟩, by simp, by decide +kernel, by decide +kernel, by decide +kernel, ⟨true, false, 0⟩, by simp,
        Or.inr ⟨rfl, by simp, by simp, ⟨⟨true, true, 1⟩, by simp⟩, by simp, ⟨true, true, 1⟩, by simp,
        Or.inr ⟨rfl, by simp, by simp, trivial⟩⟩⟩)
  refine ⟨w, outs, e, C59_silent _ ?_ w outs e⟩
  simp only [List.mem_cons, List.not_mem_nil, or_false, forall_eq_or_imp, forall_eq, Hush, Silent]
  refine ⟨trivial, ⟨by decide +kernel, by decide +kernel⟩, ⟨by decide +kernel, by decide +kernel, by decide +kernel, by decide +kernel⟩,
    by simp, by simp⟩

end Verif.FVerb
