import Verif.Props.Stilson
import Verif.Float.LibmSpec64

/-!
# One tick of a ladder at rest fed with zero
-/

set_option linter.unusedSectionVars false

namespace Verif
open FP

theorem fin_lit {q : ℚ} (h : (lit q : F64).isFin = true := by decide +kernel) : (lit q : F64).isFin = true := h

theorem conv_zero {x : F32} (h : x.Zero) : (Conv.conv x : F64).Zero := zero_convert h
theorem conv_zero' {x : F64} (h : x.Zero) : (Conv.conv x : F32).Zero := zero_convert h

namespace Microtracker

/-- All state variables are zero and the coefficients are finite. -/
structure Quiet (s : Ladder F32 F64) : Prop where
  k : (Conv.conv (s.resonance * lit 4) : F64).isFin = true
  c : s.cutoffCoeff.isFin = true
  p0 : s.p0.Zero
  p1 : s.p1.Zero
  p2 : s.p2.Zero
  p3 : s.p3.Zero
  p32 : s.p32.Zero
  p33 : s.p33.Zero
  p34 : s.p34.Zero

theorem fastTanh_zero {x : F64} (h : x.Zero) : (fastTanh x).Zero := by
  have h2 : (x * x).Zero := mul_zero' h.1 h
  have l27 : (lit 27 : F64).In 27 27 := by decide +kernel
  have l9 : (lit 9 : F64).isFin = true := by decide +kernel
  have e1 := add_zero' l27.1 h2
  have e2 := add_zero' l27.1 (mul_zero' l9 h2)
  exact zero_div' (zero_mul' h e1.1) e2.1 (by rw [e2.val_eq, l27.val_eq]; norm_num)

theorem tick_quiet {s : Ladder F32 F64} {x : F32} (h : Quiet s) (hx : x.Zero) : Quiet (tick s x).1 ∧ (tick s x).2.Zero := by
  have ho : (s.p3 * lit 0.360891 + s.p32 * lit 0.417290 + s.p33 * lit 0.177896 + s.p34 * lit 0.0439725 : F64).Zero :=
    zero_add_zero (zero_add_zero (zero_add_zero (zero_mul' h.p3 fin_lit) (zero_mul' h.p32 fin_lit)) (zero_mul' h.p33 fin_lit))
      (zero_mul' h.p34 fin_lit)
  have upd : ∀ a b : F64, a.Zero → b.Zero → (b + (fastTanh a - fastTanh b) * s.cutoffCoeff).Zero := fun a b ha hb =>
    zero_add_zero hb (zero_mul' (zero_sub_zero (fastTanh_zero ha) (fastTanh_zero hb)) h.c)
  have h0 := upd _ _ (zero_sub_zero (conv_zero hx) (mul_zero' h.k ho)) h.p0
  have h1 := upd _ _ h0 h.p1
  have h2 := upd _ _ h1 h.p2
  have h3 := upd _ _ h2 h.p3
  exact ⟨⟨h.k, h.c, h0, h1, h2, h3, h.p3, h.p32, h.p33⟩, conv_zero' ho⟩

end Microtracker

namespace Krajeski

/-- All state variables are zero and the coefficients are finite. -/
structure Quiet (s : Ladder F32 F64) : Prop where
  g : s.g.isFin = true
  gRes : (lit 4 * s.gRes : F64).isFin = true
  gComp : s.gComp.isFin = true
  drive : s.drive.isFin = true
  s1 : s.s1.Zero
  s2 : s.s2.Zero
  s3 : s.s3.Zero
  s4 : s.s4.Zero
  d0 : s.d0.Zero
  d1 : s.d1.Zero
  d2 : s.d2.Zero
  d3 : s.d3.Zero

theorem fclamp_id {x lo hi : F64} (hx : x.isFin = true) (hl : lo.isFin = true) (hh : hi.isFin = true) (h1 : lo.val ≤ x.val)
    (h2 : x.val ≤ hi.val) : fclamp x lo hi = x := by
  have e : ∀ y : F64, y.isFin = true → (y ==. y) = true := fun y hy => by rw [eq_fin hy hy]; simp
  have a : cFmax x lo = x := by
    simp [cFmax, e x hx, e lo hl, lt_fin hx hl, not_lt.2 h1]
  rw [fclamp, a]
  simp [cFmin, e x hx, e hi hh, lt_fin hh hx, not_lt.2 h2]

theorem fclamp_zero {x : F64} (h : x.Zero) : (fclamp x (lit (-1e30)) (lit 1e30)).Zero := by
  have l : (lit (-1e30) : F64).isFin = true ∧ (lit (-1e30) : F64).val ≤ 0 := by decide +kernel
  have u : (lit 1e30 : F64).isFin = true ∧ 0 ≤ (lit 1e30 : F64).val := by decide +kernel
  rw [fclamp_id h.1 l.1 u.1 (by rw [h.val]; exact l.2) (by rw [h.val]; exact u.2)]
  exact h

theorem stage_zero {g a b c : F64} (hg : g.isFin = true) (ha : a.Zero) (hb : b.Zero) (hc : c.Zero) : (stage g a b c).Zero := by
  have l1 : (lit 0.3 / lit 1.3 : F64).isFin = true := by decide +kernel
  have l2 : (lit 1 / lit 1.3 : F64).isFin = true := by decide +kernel
  exact fclamp_zero (zero_add_zero (mul_zero' hg (zero_sub_zero (zero_add_zero (mul_zero' l1 ha) (mul_zero' l2 hb)) hc)) hc)

theorem tick_quiet [Libm F64] [Libm64Spec] {s : Ladder F32 F64} {x : F32} (h : Quiet s) (hx : x.Zero) :
    Quiet (tick s x).1 ∧ (tick s x).2.Zero := by
  have hx' := conv_zero hx
  have h0 := Libm64Spec.tanh_zero _ (mul_zero' h.drive (zero_sub_zero hx' (mul_zero' h.gRes (zero_sub_zero h.s4 (mul_zero' h.gComp hx')))))
  have h1 := stage_zero h.g h0 h.d0 h.s1
  have h2 := stage_zero h.g h1 h.d1 h.s2
  have h3 := stage_zero h.g h2 h.d2 h.s3
  have h4 := stage_zero h.g h3 h.d3 h.s4
  exact ⟨⟨h.g, h.gRes, h.gComp, h.drive, h1, h2, h3, h4, h0, h1, h2, h3⟩, conv_zero' h4⟩

end Krajeski

namespace MusicDSP

/-- All state variables are zero and the coefficients are finite. -/
structure Quiet (s : Ladder F32 F64) : Prop where
  p : s.p.isFin = true
  k : s.k.isFin = true
  rc : s.resonanceCoeff.isFin = true
  s0 : s.s0.Zero
  s1 : s.s1.Zero
  s2 : s.s2.Zero
  s3 : s.s3.Zero
  d0 : s.d0.Zero
  d1 : s.d1.Zero
  d2 : s.d2.Zero
  d3 : s.d3.Zero

theorem tick_quiet {s : Ladder F32 F64} {x : F32} (h : Quiet s) (hx : x.Zero) : Quiet (tick s x).1 ∧ (tick s x).2.Zero := by
  have st : ∀ a b c : F64, a.Zero → b.Zero → c.Zero → (a * s.p + b * s.p - s.k * c).Zero := fun a b c ha hb hc =>
    zero_sub_zero (zero_add_zero (zero_mul' ha h.p) (zero_mul' hb h.p)) (mul_zero' h.k hc)
  have hx' := zero_sub_zero (conv_zero hx) (mul_zero' h.rc h.s3)
  have h0 := st _ _ _ hx' h.d0 h.s0
  have h1 := st _ _ _ h0 h.d1 h.s1
  have h2 := st _ _ _ h1 h.d2 h.s2
  have h3 := st _ _ _ h2 h.d3 h.s3
  have l6 : (lit 6 : F64).In 6 6 := by decide +kernel
  have h3' := zero_sub_zero h3 (zero_div' (mul_zero' (mul_zero' h3.1 h3).1 h3) l6.1 (by rw [l6.val_eq]; norm_num))
  exact ⟨⟨h.p, h.k, h.rc, h0, h1, h2, h3', hx', h0, h1, h2⟩, conv_zero' h3'⟩

end MusicDSP

namespace Improved

/-- All state variables are zero and the coefficients are finite. -/
structure Quiet (s : Ladder F32 F64) : Prop where
  res : (Conv.conv s.resonance * lit 4 : F64).isFin = true
  sr : (lit 2 * Conv.conv s.sampleRate : F64).isFin = true
  sr0 : (lit 2 * Conv.conv s.sampleRate : F64).val ≠ 0
  g : s.g.isFin = true
  drive : s.drive.isFin = true
  gain : s.makeupGain.isFin = true
  V0 : s.V0.Zero
  V1 : s.V1.Zero
  V2 : s.V2.Zero
  V3 : s.V3.Zero
  dV0 : s.dV0.Zero
  dV1 : s.dV1.Zero
  dV2 : s.dV2.Zero
  dV3 : s.dV3.Zero
  tV0 : s.tV0.Zero
  tV1 : s.tV1.Zero
  tV2 : s.tV2.Zero
  tV3 : s.tV3.Zero

theorem tick_quiet [Libm F64] [Libm64Spec] {s : Ladder F32 F64} {x : F32} (h : Quiet s) (hx : x.Zero) :
    Quiet (tick s x).1 ∧ (tick s x).2.Zero := by
  have l : (lit 2 * VT : F64).isFin = true ∧ (lit 2 * VT : F64).val ≠ 0 := by decide +kernel
  have th : ∀ a : F64, a.Zero → (Libm.tanh (a / (lit 2 * VT))).Zero := fun a ha =>
    Libm64Spec.tanh_zero _ (zero_div' ha l.1 l.2)
  have st : ∀ a b c : F64, a.Zero → b.Zero → c.Zero → (a + (b + c) / (lit 2 * Conv.conv s.sampleRate)).Zero := fun a b c ha hb hc =>
    zero_add_zero ha (zero_div' (zero_add_zero hb hc) h.sr h.sr0)
  have d0 : (-s.g * (Libm.tanh ((s.drive * Conv.conv x + Conv.conv s.resonance * lit 4 * s.V3) / (lit 2 * VT)) + s.tV0)).Zero :=
    mul_zero' (isFin_neg h.g) (zero_add_zero (th _ (zero_add_zero (mul_zero' h.drive (conv_zero hx)) (mul_zero' h.res h.V3))) h.tV0)
  have v0 := st _ _ _ h.V0 d0 h.dV0
  have t0 := th _ v0
  have d1 := mul_zero' h.g (zero_sub_zero t0 h.tV1)
  have v1 := st _ _ _ h.V1 d1 h.dV1
  have t1 := th _ v1
  have d2 := mul_zero' h.g (zero_sub_zero t1 h.tV2)
  have v2 := st _ _ _ h.V2 d2 h.dV2
  have t2 := th _ v2
  have d3 := mul_zero' h.g (zero_sub_zero t2 h.tV3)
  have v3 := st _ _ _ h.V3 d3 h.dV3
  have t3 := th _ v3
  exact ⟨⟨h.res, h.sr, h.sr0, h.g, h.drive, h.gain, v0, v1, v2, v3, d0, d1, d2, d3, t0, t1, t2, t3⟩,
    conv_zero' (zero_mul' v3 h.gain)⟩

end Improved

namespace Stilson

/-- All state variables are zero and the coefficients are finite. -/
structure Quiet (s : Ladder F32 F64) : Prop where
  p : s.p.isFin = true
  Q : s.Q.isFin = true
  s0 : s.s0.Zero
  s1 : s.s1.Zero
  s2 : s.s2.Zero
  s3 : s.s3.Zero
  output : s.output.Zero

theorem saturate_zero {x : F64} (h : x.Zero) : (saturate x).Zero := by
  obtain ⟨c1, c2, -⟩ := c95
  have e1 := zero_add' h c1
  have e2 : (x - lit 0.95 : F64).In (-(lit 0.95 : F64).val) (-(lit 0.95 : F64).val) := by
    have := zero_add' h (isFin_neg c1)
    rwa [val_neg] at this
  have a1 := abs_fin e1.1
  have a2 := abs_fin e2.1
  rw [e1.val_eq] at a1
  rw [e2.val_eq, abs_neg] at a2
  have hd : (Arith.fabs (x + lit 0.95) - Arith.fabs (x - lit 0.95) : F64).Zero := by
    obtain ⟨zs, e⟩ := sub_def a1.1 a2.1
    rw [e, a1.val_eq, a2.val_eq, sub_self]
    exact ofRat_rep rep_zero
  exact mul_zero' fin_lit hd

theorem pole_zero {p o l : F64} (hp : p.isFin = true) (ho : o.Zero) (hl : l.Zero) : (pole p o l).1.Zero ∧ (pole p o l).2.Zero := by
  have h := saturate_zero (zero_add_zero ho (mul_zero' hp (zero_sub_zero ho hl)))
  exact ⟨h, saturate_zero (zero_add_zero h hl)⟩

theorem snap_zero {x : F64} (h : x.Zero) : (snapToZero x).Zero := by
  unfold snapToZero
  split_ifs
  · exact lit_zero
  · exact h

theorem tick_quiet {s : Ladder F32 F64} {x : F32} (h : Quiet s) (hx : x.Zero) : Quiet (tick s x).1 ∧ (tick s x).2.Zero := by
  have h0 := pole_zero h.p (mul_zero' (fin_lit (q := 0.25)) (zero_sub_zero (zero_mul' (conv_zero hx) (fin_lit (q := 0.65))) h.output)) h.s0
  have h1 := pole_zero h.p h0.2 h.s1
  have h2 := pole_zero h.p h1.2 h.s2
  have h3 := pole_zero h.p h2.2 h.s3
  have hr := snap_zero h3.2
  exact ⟨⟨h.p, h.Q, h0.1, h1.1, h2.1, h3.1, zero_mul' hr h.Q⟩, conv_zero' hr⟩

end Stilson

namespace Oberheim

/-- A one-pole at rest with finite coefficients. -/
structure OnePole.Quiet (f : OnePole F64) : Prop where
  alpha : f.alpha.isFin = true
  beta : f.beta.isFin = true
  gamma : f.gamma.isFin = true
  delta : f.delta.isFin = true
  epsilon : f.epsilon.isFin = true
  a0 : f.a0.isFin = true
  feedback : f.feedback.Zero
  z1 : f.z1.Zero

/-- All state variables are zero and the coefficients are finite. -/
structure Quiet (s : Ladder F32 F64) : Prop where
  f0 : s.f0.Quiet
  f1 : s.f1.Quiet
  f2 : s.f2.Quiet
  f3 : s.f3.Quiet
  K : s.K.isFin = true
  K1 : (lit 1 + s.K : F64).isFin = true
  alpha0 : s.alpha0.isFin = true
  saturation : s.saturation.isFin = true
  c0 : s.c0.isFin = true
  c1 : s.c1.isFin = true
  c2 : s.c2.isFin = true
  c3 : s.c3.isFin = true
  c4 : s.c4.isFin = true

theorem OnePole.fb_zero {f : OnePole F64} (h : f.Quiet) : f.feedbackOutput.Zero :=
  mul_zero' h.beta (zero_add_zero h.z1 (zero_mul' h.feedback h.delta))

theorem OnePole.tick_quiet {f : OnePole F64} {x : F64} (h : f.Quiet) (hx : x.Zero) : (f.tick x).1.Quiet ∧ (f.tick x).2.Zero := by
  have hs := zero_add_zero (zero_add_zero (zero_mul' hx h.gamma) h.feedback) (mul_zero' h.epsilon (fb_zero h))
  have hv := zero_mul' (zero_sub_zero (mul_zero' h.a0 hs) h.z1) h.alpha
  have ho := zero_add_zero hv h.z1
  exact ⟨⟨h.alpha, h.beta, h.gamma, h.delta, h.epsilon, h.a0, h.feedback, zero_add_zero hv ho⟩, ho⟩

theorem tick_quiet [Libm F64] [Libm64Spec] {s : Ladder F32 F64} {x : F32} (h : Quiet s) (hx : x.Zero) :
    Quiet (tick s x).1 ∧ (tick s x).2.Zero := by
  have hsig := zero_add_zero (zero_add_zero (zero_add_zero (OnePole.fb_zero h.f0) (OnePole.fb_zero h.f1)) (OnePole.fb_zero h.f2))
    (OnePole.fb_zero h.f3)
  have hu := Libm64Spec.tanh_zero _ (mul_zero' h.saturation
    (zero_mul' (zero_sub_zero (zero_mul' (conv_zero hx) h.K1) (mul_zero' h.K hsig)) h.alpha0))
  have q0 := OnePole.tick_quiet h.f0 hu
  have q1 := OnePole.tick_quiet h.f1 q0.2
  have q2 := OnePole.tick_quiet h.f2 q1.2
  have q3 := OnePole.tick_quiet h.f3 q2.2
  exact ⟨⟨q0.1, q1.1, q2.1, q3.1, h.K, h.K1, h.alpha0, h.saturation, h.c0, h.c1, h.c2, h.c3, h.c4⟩,
    conv_zero' (zero_add_zero (zero_add_zero (zero_add_zero (zero_add_zero (mul_zero' h.c0 hu) (mul_zero' h.c1 q0.2))
      (mul_zero' h.c2 q1.2)) (mul_zero' h.c3 q2.2)) (mul_zero' h.c4 q3.2))⟩

end Oberheim

namespace RKSimulation

/-- All four components are zero. -/
structure Vec.Zero (x : Vec F64) : Prop where
  x0 : x.x0.Zero
  x1 : x.x1.Zero
  x2 : x.x2.Zero
  x3 : x.x3.Zero

/-- All state variables are zero and the coefficients are finite. -/
structure Quiet (s : Ladder F32 F64) : Prop where
  res : (Conv.conv s.resonance * lit 10 : F64).isFin = true
  drive : s.drive.isFin = true
  gain : s.makeupGain.isFin = true
  sat : s.saturation.isFin = true
  satInv : s.saturationInv.isFin = true
  c : s.cutoffCoeff.isFin = true
  h : s.stepSize.isFin = true
  h2 : (lit 0.5 * s.stepSize : F64).isFin = true
  h6 : (lit 1 / lit 6 * s.stepSize : F64).isFin = true
  state : s.state.Zero

theorem clip_zero {s : Ladder F32 F64} {x : F64} (hs : s.saturation.isFin = true) (hi : s.saturationInv.isFin = true) (hx : x.Zero) :
    (clip s x).Zero := by
  have h := zero_mul' hx hi
  have l1 : (lit 1 : F64).In 1 1 := lit_one
  have l1n : (-lit 1 : F64).In (-1) (-1) := neg_in lit_one
  unfold clip
  simp only [lt_fin l1.1 h.1, lt_fin h.1 l1n.1, h.val, l1.val_eq, l1n.val_eq]
  norm_num
  have l3 : (lit 1 / lit 3 : F64).isFin = true := by decide +kernel
  exact mul_zero' hs (zero_sub_zero h (mul_zero' (mul_zero' (mul_zero' l3 h).1 h).1 h))

theorem derivatives_zero {s : Ladder F32 F64} (h : Quiet s) {i : F64} (hi : i.Zero) {x : Vec F64} (hx : x.Zero) :
    (derivatives s i x).Zero := by
  have c := fun {x : F64} (hx : x.Zero) => clip_zero h.sat h.satInv hx
  exact ⟨mul_zero' h.c (zero_sub_zero (c (zero_sub_zero (zero_mul' hi h.drive) (mul_zero' h.res hx.x3))) (c hx.x0)),
    mul_zero' h.c (zero_sub_zero (c hx.x0) (c hx.x1)), mul_zero' h.c (zero_sub_zero (c hx.x1) (c hx.x2)),
    mul_zero' h.c (zero_sub_zero (c hx.x2) (c hx.x3))⟩

theorem step_zero {x d : Vec F64} {h : F64} (hx : x.Zero) (hh : h.isFin = true) (hd : d.Zero) : (x.step h d).Zero :=
  ⟨zero_add_zero hx.x0 (mul_zero' hh hd.x0), zero_add_zero hx.x1 (mul_zero' hh hd.x1),
   zero_add_zero hx.x2 (mul_zero' hh hd.x2), zero_add_zero hx.x3 (mul_zero' hh hd.x3)⟩

theorem solver_quiet {s : Ladder F32 F64} (h : Quiet s) {i : F64} (hi : i.Zero) : Quiet (solver i s) := by
  have d1 := derivatives_zero h hi h.state
  have d2 := derivatives_zero h hi (step_zero h.state h.h2 d1)
  have d3 := derivatives_zero h hi (step_zero h.state h.h2 d2)
  have d4 := derivatives_zero h hi (step_zero h.state h.h d3)
  have co : ∀ x a b c d : F64, x.Zero → a.Zero → b.Zero → c.Zero → d.Zero →
      (x + lit 1 / lit 6 * s.stepSize * (a + lit 2 * b + lit 2 * c + d)).Zero := fun x a b c d hx ha hb hc hd =>
    zero_add_zero hx (mul_zero' h.h6 (zero_add_zero (zero_add_zero (zero_add_zero ha (mul_zero' fin_lit hb)) (mul_zero' fin_lit hc)) hd))
  exact ⟨h.res, h.drive, h.gain, h.sat, h.satInv, h.c, h.h, h.h2, h.h6,
    ⟨co _ _ _ _ _ h.state.x0 d1.x0 d2.x0 d3.x0 d4.x0, co _ _ _ _ _ h.state.x1 d1.x1 d2.x1 d3.x1 d4.x1,
     co _ _ _ _ _ h.state.x2 d1.x2 d2.x2 d3.x2 d4.x2, co _ _ _ _ _ h.state.x3 d1.x3 d2.x3 d3.x3 d4.x3⟩⟩

theorem tick_quiet {s : Ladder F32 F64} {x : F32} (h : Quiet s) (hx : x.Zero) : Quiet (tick s x).1 ∧ (tick s x).2.Zero := by
  have it : ∀ n : ℕ, ∀ s : Ladder F32 F64, Quiet s → Quiet ((solver (Conv.conv x))^[n] s) := by
    intro n
    induction n with
    | zero => intro s h; exact h
    | succ n ih => intro s h; rw [Function.iterate_succ_apply]; exact ih _ (solver_quiet h (conv_zero hx))
  have hq := it s.oversampleFactor.toNat s h
  exact ⟨hq, conv_zero' (zero_mul' hq.state.x3 hq.gain)⟩

end RKSimulation

end Verif
