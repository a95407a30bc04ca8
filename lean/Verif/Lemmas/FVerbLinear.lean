import Verif.Spec.Delay
import Verif.Lemmas.DelayLines
import Verif.Lemmas.RealArith

/-!
# The loop body of the reverb is linear in its audio state
-/

namespace Verif.FVerbDSP

/-- Three results of the same program on three inputs: all undefined, or all defined and related. -/
def Opt3 {A : Type} (R : A → A → A → Prop) : Option A → Option A → Option A → Prop
  | none, none, none => True
  | some a, some b, some c => R a b c
  | _, _, _ => False

theorem Opt3.bind {A B : Type} {R : A → A → A → Prop} {S : B → B → B → Prop} {x y z : Option A} {f g h : A → Option B}
    (H : Opt3 R x y z) (hf : ∀ a b c, R a b c → Opt3 S (f a) (g b) (h c)) : Opt3 S (x.bind f) (y.bind g) (z.bind h) := by
  rcases x with _ | x <;> rcases y with _ | y <;> rcases z with _ | z <;> first | trivial | exact H.elim | exact hf _ _ _ H

theorem Opt3.map {A B : Type} {R : A → A → A → Prop} {S : B → B → B → Prop} {x y z : Option A} {f g h : A → B}
    (H : Opt3 R x y z) (hf : ∀ a b c, R a b c → S (f a) (g b) (h c)) : Opt3 S (x.map f) (y.map g) (z.map h) := by
  rcases x with _ | x <;> rcases y with _ | y <;> rcases z with _ | z <;> first | trivial | exact H.elim | exact hf _ _ _ H

theorem Opt3.same {A : Type} (x : Option A) : Opt3 (fun a b c => a = b ∧ a = c) x x x := by
  cases x
  · trivial
  · exact ⟨rfl, rfl⟩

section
variable (a b : ℝ)

/-- `z` is the combination of `x` and `y`. -/
def Lc (x y z : ℝ) : Prop := z = a * x + b * y

/-- The same for the memory of a delay. -/
def LcL (x y z : ℤ → ℝ) : Prop := ∀ t, z t = a * x t + b * y t

/-- The same for a channel. -/
structure LcH (x y z : Half (ℤ → ℝ) ℝ) : Prop where
  preLine : LcL a b x.preLine y.preLine z.preLine
  lp : Lc a b x.lp y.lp z.lp
  hp : Lc a b x.hp y.hp z.hp
  line1 : LcL a b x.line1 y.line1 z.line1
  ap1 : Lc a b x.ap1 y.ap1 z.ap1
  line2 : LcL a b x.line2 y.line2 z.line2
  ap2 : Lc a b x.ap2 y.ap2 z.ap2
  line3 : LcL a b x.line3 y.line3 z.line3
  ap3 : Lc a b x.ap3 y.ap3 z.ap3
  line4 : LcL a b x.line4 y.line4 z.line4
  ap4 : Lc a b x.ap4 y.ap4 z.ap4
  modLine : LcL a b x.modLine y.modLine z.modLine
  modOut : Lc a b x.modOut y.modOut z.modOut
  dampLine : LcL a b x.dampLine y.dampLine z.dampLine
  damp : Lc a b x.damp y.damp z.damp
  tailLine : LcL a b x.tailLine y.tailLine z.tailLine
  tail : Lc a b x.tail y.tail z.tail
  outA : LcL a b x.outA y.outA z.outA
  outB : LcL a b x.outB y.outB z.outB
  outC : LcL a b x.outC y.outC z.outC

/-- The same for the reverb: the controls agree. -/
structure LcS (x y z : State (ℤ → ℝ) ℝ) : Prop where
  ctrl : x.ctrl = y.ctrl ∧ x.ctrl = z.ctrl
  iota : x.iota = y.iota ∧ x.iota = z.iota
  r : LcH a b x.r y.r z.r
  l : LcH a b x.l y.l z.l

/-- The same for a frame. -/
def LcF (x y z : Stereo ℝ) : Prop := Lc a b x.left y.left z.left ∧ Lc a b x.right y.right z.right

end

variable {a b : ℝ}

theorem Lc.add {x y z x' y' z' : ℝ} (h : Lc a b x y z) (h' : Lc a b x' y' z') : Lc a b (x + x') (y + y') (z + z') := by
  unfold Lc at *; rw [h, h']; ring
theorem Lc.sub {x y z x' y' z' : ℝ} (h : Lc a b x y z) (h' : Lc a b x' y' z') : Lc a b (x - x') (y - y') (z - z') := by
  unfold Lc at *; rw [h, h']; ring
theorem Lc.neg {x y z : ℝ} (h : Lc a b x y z) : Lc a b (-x) (-y) (-z) := by
  unfold Lc at *; rw [h]; ring
theorem Lc.mulL {x y z : ℝ} (c : ℝ) (h : Lc a b x y z) : Lc a b (c * x) (c * y) (c * z) := by
  unfold Lc at *; rw [h]; ring
theorem Lc.mulR {x y z : ℝ} (c : ℝ) (h : Lc a b x y z) : Lc a b (x * c) (y * c) (z * c) := by
  unfold Lc at *; rw [h]; ring
theorem Lc.zero : Lc a b (lit 0) (lit 0) (lit 0) := by simp only [Lc, real_arith]; simp
theorem LcL.zero : LcL a b (fun _ => lit 0) (fun _ => lit 0) (fun _ => lit 0) := fun _ => Lc.zero

theorem LcL.wr {N : ℕ} {t : ℤ} {l1 l2 l3 : ℤ → ℝ} {x y z : ℝ} (H : LcL a b l1 l2 l3) (h : Lc a b x y z) :
    Opt3 (LcL a b) (ideal.wr N l1 t x) (ideal.wr N l2 t y) (ideal.wr N l3 t z) := by
  intro i
  by_cases e : i = t
  · subst e; simp only [Function.update_self]; exact h
  · simp only [Function.update_of_ne e]; exact H i

theorem LcL.rd {N : ℕ} {t d : ℤ} {l1 l2 l3 : ℤ → ℝ} (H : LcL a b l1 l2 l3) :
    Opt3 (Lc a b) (ideal.rd N l1 t d) (ideal.rd N l2 t d) (ideal.rd N l3 t d) := H _

theorem allpass_lc {N : ℕ} {t d : ℤ} {g x y z p q r : ℝ} {l1 l2 l3 : ℤ → ℝ} (H : LcL a b l1 l2 l3) (hx : Lc a b x y z)
    (hp : Lc a b p q r) :
    Opt3 (fun u v w => LcL a b u.1 v.1 w.1 ∧ Lc a b u.2.1 v.2.1 w.2.1 ∧ Lc a b u.2.2 v.2.2 w.2.2)
      (allpass ideal N t d g x p l1) (allpass ideal N t d g y q l2) (allpass ideal N t d g z r l3) := by
  unfold allpass
  have ht := hx.sub (hp.mulL g)
  refine (H.wr ht).bind fun l1 l2 l3 L => ?_
  exact L.rd.map fun u v w U => ⟨L, U, ht.mulL g⟩

theorem inputStep_lc {t pre d1 d2 d3 d4 : ℤ} {c : Ctrl ℝ} {f : ℝ → ℝ} {x y z : ℝ} {h1 h2 h3 : Half (ℤ → ℝ) ℝ}
    (H : LcH a b h1 h2 h3) (hx : Lc a b x y z) (hf : ∀ {u v w}, Lc a b u v w → Lc a b (f u) (f v) (f w)) :
    Opt3 (fun u v w => LcH a b u.1 v.1 w.1 ∧ Lc a b u.2 v.2 w.2) (inputStep ideal t pre d1 d2 d3 d4 c f x h1)
      (inputStep ideal t pre d1 d2 d3 d4 c f y h2) (inputStep ideal t pre d1 d2 d3 d4 c f z h3) := by
  unfold inputStep
  refine (H.preLine.wr (hx.mulR _)).bind fun p1 p2 p3 P => ?_
  refine P.rd.bind fun q1 q2 q3 Q => ?_
  have hlp := Q.add (H.lp.mulL c.rec25)
  have hhp := (hf hlp).add (H.hp.mulL c.rec24)
  refine (allpass_lc H.line1 ((hhp.sub H.hp).mulL _) H.ap1).bind ?_
  rintro ⟨l11, y11, z11⟩ ⟨l12, y12, z12⟩ ⟨l13, y13, z13⟩ ⟨L1, Y1, Z1⟩
  refine (allpass_lc H.line2 (Z1.add H.ap1) H.ap2).bind ?_
  rintro ⟨l21, y21, z21⟩ ⟨l22, y22, z22⟩ ⟨l23, y23, z23⟩ ⟨L2, Y2, Z2⟩
  refine (allpass_lc H.line3 (Z2.add H.ap2) H.ap3).bind ?_
  rintro ⟨l31, y31, z31⟩ ⟨l32, y32, z32⟩ ⟨l33, y33, z33⟩ ⟨L3, Y3, Z3⟩
  refine (allpass_lc H.line4 (Z3.add H.ap3) H.ap4).map ?_
  rintro ⟨l41, y41, z41⟩ ⟨l42, y42, z42⟩ ⟨l43, y43, z43⟩ ⟨L4, Y4, Z4⟩
  exact ⟨⟨P, hlp, hhp, L1, Y1, L2, Y2, L3, Y3, L4, Y4, H.modLine, H.modOut, H.dampLine, H.damp, H.tailLine, H.tail, H.outA, H.outB,
    H.outC⟩, Z4⟩

theorem tankStep_lc {tN bN : ℕ} {t d dT : ℤ} {c : Ctrl ℝ} {f : Fade ℝ} {u v : ℝ → ℝ} {b1 b2 b3 x1 x2 x3 : ℝ}
    {p1 p2 p3 h1 h2 h3 : Half (ℤ → ℝ) ℝ} (P : LcH a b p1 p2 p3) (H : LcH a b h1 h2 h3) (hb : Lc a b b1 b2 b3) (hx : Lc a b x1 x2 x3)
    (hu : ∀ {x y z}, Lc a b x y z → Lc a b (u x) (u y) (u z)) (hv : ∀ {x y z}, Lc a b x y z → Lc a b (v x) (v y) (v z)) :
    Opt3 (LcH a b) (tankStep ideal tN bN t d dT c f u v b1 x1 p1 h1) (tankStep ideal tN bN t d dT c f u v b2 x2 p2 h2)
      (tankStep ideal tN bN t d dT c f u v b3 x3 p3 h3) := by
  unfold tankStep
  have h8 := ((P.ap4.add (hb.mulL c.rec29)).add hx).add (P.modOut.mulL c.rec12)
  refine (H.modLine.wr h8).bind fun m1 m2 m3 M => ?_
  refine M.rd.bind fun a1 a2 a3 A => ?_
  refine M.rd.bind fun c1 c2 c3 C => ?_
  have h13 := (h8.mulL c.rec12).neg.add P.modOut
  refine (H.dampLine.wr h13).bind fun d1 d2 d3 D => ?_
  refine D.rd.bind fun y1 y2 y3 Y => ?_
  have hd := Y.add (P.damp.mulL c.rec8)
  have h15 := (P.tail.mulL (Arith.stdMin (lit 0.5) (Arith.stdMax (lit 0.25) (c.rec29 + lit 0.15)))).add (hu hd)
  refine (H.tailLine.wr h15).bind fun e1 e2 e3 E => ?_
  refine E.rd.bind fun t1 t2 t3 T => ?_
  refine (H.outA.wr ((h15.mulL _).neg.add P.tail)).bind fun f1 f2 f3 F => ?_
  refine (H.outB.wr (hv hd)).bind fun g1 g2 g3 G => ?_
  refine (H.outC.wr h13).map fun k1 k2 k3 K => ?_
  exact ⟨H.preLine, H.lp, H.hp, H.line1, H.ap1, H.line2, H.ap2, H.line3, H.ap3, H.line4, H.ap4, M, A.add ((C.sub A).mulL _), D, hd, E, T,
    F, G, K⟩

theorem tap_lc {t : ℤ} {n1 n2 n3 n4 n5 n6 n7 : ℕ} {d1 d2 d3 d4 d5 d6 d7 : ℤ} {x1 x2 x3 x4 x5 x6 x7 y1 y2 y3 y4 y5 y6 y7 z1 z2 z3 z4 z5 z6 z7 : ℤ → ℝ}
    (h1 : LcL a b x1 y1 z1) (h2 : LcL a b x2 y2 z2) (h3 : LcL a b x3 y3 z3) (h4 : LcL a b x4 y4 z4) (h5 : LcL a b x5 y5 z5)
    (h6 : LcL a b x6 y6 z6) (h7 : LcL a b x7 y7 z7) :
    Opt3 (Lc a b) (tap ideal t (n1, x1, d1) (n2, x2, d2) (n3, x3, d3) (n4, x4, d4) (n5, x5, d5) (n6, x6, d6) (n7, x7, d7))
      (tap ideal t (n1, y1, d1) (n2, y2, d2) (n3, y3, d3) (n4, y4, d4) (n5, y5, d5) (n6, y6, d6) (n7, y7, d7))
      (tap ideal t (n1, z1, d1) (n2, z2, d2) (n3, z3, d3) (n4, z4, d4) (n5, z5, d5) (n6, z6, d6) (n7, z7, d7)) := by
  unfold tap
  refine h1.rd.bind fun _ _ _ A => ?_
  refine h2.rd.bind fun _ _ _ B => ?_
  refine h3.rd.bind fun _ _ _ C => ?_
  refine h4.rd.bind fun _ _ _ D => ?_
  refine h5.rd.bind fun _ _ _ E => ?_
  refine h6.rd.bind fun _ _ _ F => ?_
  refine h7.rd.map fun _ _ _ G => ?_
  exact (((A.add B).add C).sub (((D.add E).add F).add G)).mulL _

theorem step_lc {k : Consts ℝ} {sl : Slow ℝ} {s1 s2 s3 : State (ℤ → ℝ) ℝ} {x y z : Stereo ℝ} (S : LcS a b s1 s2 s3)
    (X : LcF a b x y z) : Opt3 (fun u v w => LcS a b u.1 v.1 w.1 ∧ LcF a b u.2 v.2 w.2) (step ideal k sl s1 x) (step ideal k sl s2 y)
      (step ideal k sl s3 z) := by
  unfold step
  rw [← S.ctrl.1, ← S.ctrl.2, ← S.iota.1, ← S.iota.2]
  refine (Opt3.same _).bind ?_
  rintro ⟨c, pre⟩ _ _ ⟨rfl, rfl⟩
  refine (inputStep_lc S.r X.2 (fun h => h.mulR _)).bind ?_
  rintro ⟨r1, u1⟩ ⟨r2, u2⟩ ⟨r3, u3⟩ ⟨R, U⟩
  refine S.l.outA.rd.bind fun f1 f2 f3 F => ?_
  refine (tankStep_lc S.r R F U (fun h => (h.mulL _).mulR _) (fun h => h.mulR _)).bind fun q1 q2 q3 Q => ?_
  refine (inputStep_lc S.l X.1 (fun h => h.mulL _)).bind ?_
  rintro ⟨l1, v1⟩ ⟨l2, v2⟩ ⟨l3, v3⟩ ⟨Lh, V⟩
  refine Q.outA.rd.bind fun g1 g2 g3 G => ?_
  refine (tankStep_lc S.l Lh G V (fun h => h.mulL _) (fun h => h.mulL _)).bind fun p1 p2 p3 P => ?_
  refine (tap_lc Q.outC Q.outC Q.outA Q.outB P.outC P.outB P.outA).bind fun o1 o2 o3 O => ?_
  refine (tap_lc P.outC P.outC P.outA P.outB Q.outC Q.outB Q.outA).bind fun w1 w2 w3 W => ?_
  refine (Opt3.same _).map ?_
  rintro n _ _ ⟨rfl, rfl⟩
  exact ⟨⟨⟨rfl, rfl⟩, ⟨rfl, rfl⟩, Q, P⟩, O, W⟩

theorem clear_lc : LcS a b (clear ideal) (clear ideal) (clear ideal) := by
  have z : Lc a b (lit 0) (lit 0) (lit 0) := Lc.zero
  have l : LcL a b (fun _ => lit 0) (fun _ => lit 0) (fun _ => lit 0) := LcL.zero
  exact ⟨⟨rfl, rfl⟩, ⟨rfl, rfl⟩, ⟨l, z, z, l, z, l, z, l, z, l, z, l, z, l, z, l, z, l, l, l⟩,
    ⟨l, z, z, l, z, l, z, l, z, l, z, l, z, l, z, l, z, l, l, l⟩⟩

end Verif.FVerbDSP
