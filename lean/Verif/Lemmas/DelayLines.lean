import Verif.Spec.Delay
import Mathlib.Tactic.Linarith
import Mathlib.Tactic.Ring

/-!
# Masked circular arrays behave as ideal delays
-/

namespace Verif.FVerbDSP

set_option linter.unusedSectionVars false

theorem i32_some {n : ℤ} (h1 : -2 ^ 31 ≤ n) (h2 : n < 2 ^ 31) : i32 n = some n := if_pos ⟨h1, h2⟩

theorem i32_eq_some {n m : ℤ} (h : i32 n = some m) : m = n ∧ -2 ^ 31 ≤ n ∧ n < 2 ^ 31 := by
  unfold i32 at h
  split_ifs at h with h0
  cases h
  exact ⟨rfl, h0⟩

/-- The mask is a remainder. -/
theorem maskIdx_eq (k : ℕ) (hk : k ≤ 31) (i : ℤ) : ((maskIdx (2 ^ k) i : ℕ) : ℤ) = i % (2 ^ k : ℕ) := by
  have hpow : (2 : ℕ) ^ k ≤ 2 ^ 31 := Nat.pow_le_pow_right (by norm_num) hk
  have hpos : 0 < (2 : ℕ) ^ k := Nat.pos_of_ne_zero (by positivity)
  unfold maskIdx
  rw [BitVec.toNat_and, BitVec.toNat_ofNat, BitVec.toNat_ofInt, Nat.mod_eq_of_lt (a := 2 ^ k - 1) (by omega),
    Nat.and_two_pow_sub_one_eq_mod]
  have h0 : 0 ≤ i % ((2 ^ 32 : ℕ) : ℤ) := Int.emod_nonneg _ (by norm_num)
  rw [Int.natCast_mod, Int.toNat_of_nonneg h0]
  refine Int.emod_emod_of_dvd i ?_
  exact_mod_cast pow_dvd_pow 2 (by omega : k ≤ 32)

/-- Lengths of the lines of the reverb. -/
structure Pow2 (N : ℕ) : Prop where
  ex : ∃ k, k ≤ 17 ∧ N = 2 ^ k

theorem Pow2.le {N : ℕ} (h : Pow2 N) : N ≤ 131072 := by
  obtain ⟨k, hk, rfl⟩ := h.ex
  calc 2 ^ k ≤ 2 ^ 17 := Nat.pow_le_pow_right (by norm_num) hk
    _ = 131072 := by norm_num

theorem Pow2.pos {N : ℕ} (h : Pow2 N) : 0 < N := by
  obtain ⟨k, hk, rfl⟩ := h.ex
  positivity

theorem Pow2.mask {N : ℕ} (h : Pow2 N) (i : ℤ) : ((maskIdx N i : ℕ) : ℤ) = i % (N : ℤ) := by
  obtain ⟨k, hk, rfl⟩ := h.ex
  exact maskIdx_eq k (by omega) i

theorem Pow2.mask_lt {N : ℕ} (h : Pow2 N) (i : ℤ) : maskIdx N i < N := by
  have h1 := h.mask i
  have h2 := Int.emod_lt_of_pos i (by exact_mod_cast h.pos : (0 : ℤ) < N)
  omega

variable {α : Type} [Arith α]

/-- The array holds the last `N` samples written before time `t`. -/
structure Holds (N : ℕ) (t : ℤ) (l : List α) (h : ℤ → α) : Prop where
  len : l.length = N
  get : ∀ i, t - N ≤ i → i < t → l[maskIdx N i]? = some (h i)

theorem Holds.clear (N : ℕ) (hN : Pow2 N) : Holds N 0 ((arrays (α := α)).clear N) ((ideal (α := α)).clear N) := by
  refine ⟨by simp [arrays], ?_⟩
  intro i _ _
  simp [arrays, ideal, hN.mask_lt i]

/-- Two results of the two implementations: both undefined, or both defined and related. -/
def OptRel {A B : Type} (R : A → B → Prop) : Option A → Option B → Prop
  | none, none => True
  | some a, some b => R a b
  | _, _ => False

theorem OptRel.bind {A B C D : Type} {R : A → B → Prop} {S : C → D → Prop} {x : Option A} {y : Option B} {f : A → Option C}
    {g : B → Option D} (h : OptRel R x y) (hf : ∀ a b, R a b → OptRel S (f a) (g b)) : OptRel S (x.bind f) (y.bind g) := by
  cases x <;> cases y
  · trivial
  · exact h.elim
  · exact h.elim
  · exact hf _ _ h

theorem OptRel.map {A B C D : Type} {R : A → B → Prop} {S : C → D → Prop} {x : Option A} {y : Option B} {f : A → C}
    {g : B → D} (h : OptRel R x y) (hf : ∀ a b, R a b → S (f a) (g b)) : OptRel S (x.map f) (y.map g) := by
  cases x <;> cases y
  · trivial
  · exact h.elim
  · exact h.elim
  · exact hf _ _ h

theorem OptRel.self {A : Type} (x : Option A) : OptRel (fun a b => a = b ∧ x = some a) x x := by
  cases x
  · trivial
  · exact ⟨rfl, rfl⟩

/-- A read within the last `N` samples. -/
theorem Holds.rd {N : ℕ} {t now d : ℤ} {l : List α} {h : ℤ → α} (H : Holds N t l h) (hN : Pow2 N) (h0 : 0 ≤ now) (h1 : now < 2 ^ 31)
    (ht : now ≤ t) (h2 : t - N ≤ now - d) (h3 : now - d < t) (h4 : 0 ≤ d) :
    OptRel (fun a b => a = b) ((arrays (α := α)).rd N l now d) ((ideal (α := α)).rd N h now d) := by
  have hle := hN.le
  simp only [arrays, ideal]
  rw [i32_some (by omega) (by omega), Option.bind_some, H.get _ h2 h3]
  rfl

/-- A read after the write of the same sample. -/
theorem Holds.rd_after {N : ℕ} {now d : ℤ} {l : List α} {h : ℤ → α} (H : Holds N (now + 1) l h) (hN : Pow2 N) (h0 : 0 ≤ now)
    (h1 : now < 2 ^ 31) (h2 : 0 ≤ d) (h3 : d < N) :
    OptRel (fun a b => a = b) ((arrays (α := α)).rd N l now d) ((ideal (α := α)).rd N h now d) :=
  H.rd hN h0 h1 (by omega) (by omega) (by omega) h2

/-- A read before the write of the same sample. -/
theorem Holds.rd_before {N : ℕ} {now d : ℤ} {l : List α} {h : ℤ → α} (H : Holds N now l h) (hN : Pow2 N) (h0 : 0 ≤ now)
    (h1 : now < 2 ^ 31) (h2 : 1 ≤ d) (h3 : d ≤ N) :
    OptRel (fun a b => a = b) ((arrays (α := α)).rd N l now d) ((ideal (α := α)).rd N h now d) :=
  H.rd hN h0 h1 (by omega) (by omega) (by omega) (by omega)

/-- The write of a sample. -/
theorem Holds.wr {N : ℕ} {now : ℤ} {l : List α} {h : ℤ → α} (H : Holds N now l h) (hN : Pow2 N) (x : α) :
    OptRel (fun a b => Holds N (now + 1) a b) ((arrays (α := α)).wr N l now x) ((ideal (α := α)).wr N h now x) := by
  have hlt := hN.mask_lt now
  simp only [arrays, ideal]
  rw [if_pos (by rw [H.len]; exact hlt)]
  refine ⟨by rw [List.length_set]; exact H.len, ?_⟩
  intro i h1 h2
  by_cases e : i = now
  · subst e
    rw [Function.update_self, List.getElem?_set_self (by rw [H.len]; exact hlt)]
  · rw [Function.update_of_ne e, List.getElem?_set_ne, H.get i (by omega) (by omega)]
    intro hm
    have a := hN.mask now
    have b := hN.mask i
    have c : (now - i) % (N : ℤ) = 0 := Int.emod_eq_zero_of_dvd (Int.ModEq.dvd (by
      show i % (N : ℤ) = now % (N : ℤ)
      rw [← a, ← b, hm]))
    rw [Int.emod_eq_of_lt (by omega) (by omega)] at c
    omega

variable [Libm α]

/-- A channel of the code and of the specification: input lines up to time `ti`, tank lines up to time `tt`. -/
structure HalfRel (tN bN : ℕ) (ti tt : ℤ) (h : Half (List α) α) (g : Half (ℤ → α) α) : Prop where
  lp : h.lp = g.lp
  hp : h.hp = g.hp
  ap1 : h.ap1 = g.ap1
  ap2 : h.ap2 = g.ap2
  ap3 : h.ap3 = g.ap3
  ap4 : h.ap4 = g.ap4
  modOut : h.modOut = g.modOut
  damp : h.damp = g.damp
  tail : h.tail = g.tail
  preLine : Holds 131072 ti h.preLine g.preLine
  line1 : Holds 1024 ti h.line1 g.line1
  line2 : Holds 1024 ti h.line2 g.line2
  line3 : Holds 4096 ti h.line3 g.line3
  line4 : Holds 2048 ti h.line4 g.line4
  modLine : Holds 131072 tt h.modLine g.modLine
  dampLine : Holds 32768 tt h.dampLine g.dampLine
  tailLine : Holds tN tt h.tailLine g.tailLine
  outA : Holds 32768 tt h.outA g.outA
  outB : Holds bN tt h.outB g.outB
  outC : Holds 32768 tt h.outC g.outC

theorem p1024 : Pow2 1024 := ⟨10, by norm_num, by norm_num⟩
theorem p2048 : Pow2 2048 := ⟨11, by norm_num, by norm_num⟩
theorem p4096 : Pow2 4096 := ⟨12, by norm_num, by norm_num⟩
theorem p8192 : Pow2 8192 := ⟨13, by norm_num, by norm_num⟩
theorem p16384 : Pow2 16384 := ⟨14, by norm_num, by norm_num⟩
theorem p32768 : Pow2 32768 := ⟨15, by norm_num, by norm_num⟩
theorem p131072 : Pow2 131072 := ⟨17, by norm_num, by norm_num⟩

theorem clampDelay_nonneg (n : ℤ) : 0 ≤ clampDelay n := by unfold clampDelay; omega
theorem clampDelay_le (n : ℤ) : clampDelay n ≤ 65536 := by unfold clampDelay; omega

theorem allpass_rel {N : ℕ} {now d : ℤ} {g x prev : α} {l : List α} {h : ℤ → α} (H : Holds N now l h) (hN : Pow2 N) (h0 : 0 ≤ now)
    (h1 : now < 2 ^ 31) (h2 : 0 ≤ d) (h3 : d < N) :
    OptRel (fun a b => Holds N (now + 1) a.1 b.1 ∧ a.2 = b.2) (allpass arrays N now d g x prev l) (allpass ideal N now d g x prev h) := by
  unfold allpass
  refine (H.wr hN _).bind fun l1 g1 H1 => ?_
  refine (H1.rd_after hN h0 h1 h2 h3).map fun a b e => ?_
  exact ⟨H1, by rw [e]⟩

theorem inputStep_rel {tN bN : ℕ} {now tt pre d1 d2 d3 d4 : ℤ} {c : Ctrl α} {f : α → α} {x : α} {h : Half (List α) α}
    {g : Half (ℤ → α) α} (H : HalfRel tN bN now tt h g) (h0 : 0 ≤ now) (h1 : now < 2 ^ 31) (hp : 0 ≤ pre ∧ pre < 131072)
    (e1 : 0 ≤ d1 ∧ d1 < 1024) (e2 : 0 ≤ d2 ∧ d2 < 1024) (e3 : 0 ≤ d3 ∧ d3 < 4096) (e4 : 0 ≤ d4 ∧ d4 < 2048) :
    OptRel (fun a b => HalfRel tN bN (now + 1) tt a.1 b.1 ∧ a.2 = b.2) (inputStep arrays now pre d1 d2 d3 d4 c f x h)
      (inputStep ideal now pre d1 d2 d3 d4 c f x g) := by
  unfold inputStep
  refine (H.preLine.wr p131072 _).bind fun l0 g0 H0 => ?_
  refine (H0.rd_after p131072 h0 h1 hp.1 hp.2).bind fun p q e => ?_
  subst e
  rw [H.lp, H.hp, H.ap1, H.ap2, H.ap3, H.ap4]
  refine (allpass_rel H.line1 p1024 h0 h1 e1.1 e1.2).bind ?_
  rintro ⟨l1, y1⟩ ⟨g1, z1⟩ ⟨H1, r1⟩
  obtain rfl : y1 = z1 := r1
  refine (allpass_rel H.line2 p1024 h0 h1 e2.1 e2.2).bind ?_
  rintro ⟨l2, y2⟩ ⟨g2, z2⟩ ⟨H2, r2⟩
  obtain rfl : y2 = z2 := r2
  refine (allpass_rel H.line3 p4096 h0 h1 e3.1 e3.2).bind ?_
  rintro ⟨l3, y3⟩ ⟨g3, z3⟩ ⟨H3, r3⟩
  obtain rfl : y3 = z3 := r3
  refine (allpass_rel H.line4 p2048 h0 h1 e4.1 e4.2).map ?_
  rintro ⟨l4, y4⟩ ⟨g4, z4⟩ ⟨H4, r4⟩
  obtain rfl : y4 = z4 := r4
  exact ⟨⟨rfl, rfl, rfl, rfl, rfl, rfl, H.modOut, H.damp, H.tail, H0, H1, H2, H3, H4, H.modLine, H.dampLine, H.tailLine, H.outA, H.outB,
    H.outC⟩, rfl⟩

theorem tankStep_rel {tN bN : ℕ} (htN : Pow2 tN) (hbN : Pow2 bN) {now d dT : ℤ} {c : Ctrl α} {f : Fade α} {u v : α → α} {fb x4 : α}
    {ph h : Half (List α) α} {pg g : Half (ℤ → α) α} (P : HalfRel tN bN now now ph pg) (H : HalfRel tN bN (now + 1) now h g)
    (h0 : 0 ≤ now) (h1 : now < 2 ^ 31) (e1 : 0 ≤ d ∧ d < 32768) (e2 : 0 ≤ dT ∧ dT < tN) :
    OptRel (fun a b => HalfRel tN bN (now + 1) (now + 1) a b) (tankStep arrays tN bN now d dT c f u v fb x4 ph h)
      (tankStep ideal tN bN now d dT c f u v fb x4 pg g) := by
  unfold tankStep
  rw [P.ap4, P.modOut, P.damp, P.tail]
  refine (H.modLine.wr p131072 _).bind fun l0 g0 H0 => ?_
  refine (H0.rd_after p131072 h0 h1 (clampDelay_nonneg _) (lt_of_le_of_lt (clampDelay_le _) (by norm_num))).bind fun p q e => ?_
  subst e
  refine (H0.rd_after p131072 h0 h1 (clampDelay_nonneg _) (lt_of_le_of_lt (clampDelay_le _) (by norm_num))).bind fun p' q' e => ?_
  subst e
  refine (H.dampLine.wr p32768 _).bind fun l2 g2 H2 => ?_
  refine (H2.rd_after p32768 h0 h1 e1.1 e1.2).bind fun y z e => ?_
  subst e
  refine (H.tailLine.wr htN _).bind fun l3 g3 H3 => ?_
  refine (H3.rd_after htN h0 h1 e2.1 e2.2).bind fun y' z' e => ?_
  subst e
  refine (H.outA.wr p32768 _).bind fun l4 g4 H4 => ?_
  refine (H.outB.wr hbN _).bind fun l5 g5 H5 => ?_
  refine (H.outC.wr p32768 _).map fun l6 g6 H6 => ?_
  exact ⟨H.lp, H.hp, H.ap1, H.ap2, H.ap3, H.ap4, rfl, rfl, rfl, H.preLine, H.line1, H.line2, H.line3, H.line4, H0, H2, H3, H4, H5, H6⟩

/-- One tap of the output: a line with the delay it is read at. -/
structure TapRel (now : ℤ) (a : ℕ × List α × ℤ) (b : ℕ × (ℤ → α) × ℤ) : Prop where
  len : a.1 = b.1
  pow : Pow2 a.1
  delay : a.2.2 = b.2.2
  line : Holds a.1 (now + 1) a.2.1 b.2.1
  lo : 0 ≤ a.2.2
  hi : a.2.2 < a.1

theorem TapRel.rd {now : ℤ} {a : ℕ × List α × ℤ} {b : ℕ × (ℤ → α) × ℤ} (T : TapRel now a b) (h0 : 0 ≤ now) (h1 : now < 2 ^ 31) :
    OptRel (fun a b => a = b) ((arrays (α := α)).rd a.1 a.2.1 now a.2.2) ((ideal (α := α)).rd b.1 b.2.1 now b.2.2) := by
  rw [← T.len, ← T.delay]
  exact T.line.rd_after T.pow h0 h1 T.lo T.hi

theorem tap_rel {now : ℤ} {a b c d e f g : ℕ × List α × ℤ} {a' b' c' d' e' f' g' : ℕ × (ℤ → α) × ℤ} (h0 : 0 ≤ now) (h1 : now < 2 ^ 31)
    (A : TapRel now a a') (B : TapRel now b b') (C : TapRel now c c') (D : TapRel now d d') (E : TapRel now e e') (F : TapRel now f f')
    (G : TapRel now g g') : OptRel (fun a b => a = b) (tap arrays now a b c d e f g) (tap ideal now a' b' c' d' e' f' g') := by
  unfold tap
  refine (A.rd h0 h1).bind fun x _ r => ?_
  subst r
  refine (B.rd h0 h1).bind fun x _ r => ?_
  subst r
  refine (C.rd h0 h1).bind fun x _ r => ?_
  subst r
  refine (D.rd h0 h1).bind fun x _ r => ?_
  subst r
  refine (E.rd h0 h1).bind fun x _ r => ?_
  subst r
  refine (F.rd h0 h1).bind fun x _ r => ?_
  subst r
  refine (G.rd h0 h1).map fun x _ r => ?_
  subst r
  rfl

/-- Every constant delay lies inside the line it is used with (`i10`, `i19` are at least 1; line `fRec3` is read before the write). -/
structure Fits (k : Consts α) : Prop where
  i6 : 0 ≤ k.i6 ∧ k.i6 < 1024
  i7 : 0 ≤ k.i7 ∧ k.i7 < 1024
  i8 : 0 ≤ k.i8 ∧ k.i8 < 4096
  i9 : 0 ≤ k.i9 ∧ k.i9 < 2048
  i10 : 1 ≤ k.i10 ∧ k.i10 < 32768
  i13 : 0 ≤ k.i13 ∧ k.i13 < 32768
  i14 : 0 ≤ k.i14 ∧ k.i14 < 32768
  i15 : 0 ≤ k.i15 ∧ k.i15 < 1024
  i16 : 0 ≤ k.i16 ∧ k.i16 < 1024
  i17 : 0 ≤ k.i17 ∧ k.i17 < 4096
  i18 : 0 ≤ k.i18 ∧ k.i18 < 2048
  i19 : 1 ≤ k.i19 ∧ k.i19 < 32768
  i20 : 0 ≤ k.i20 ∧ k.i20 < 32768
  i21 : 0 ≤ k.i21 ∧ k.i21 < 16384
  i22 : 0 ≤ k.i22 ∧ k.i22 < 32768
  i23 : 0 ≤ k.i23 ∧ k.i23 < 8192
  i24 : 0 ≤ k.i24 ∧ k.i24 < 32768
  i25 : 0 ≤ k.i25 ∧ k.i25 < 16384
  i26 : 0 ≤ k.i26 ∧ k.i26 < 32768
  i27 : 0 ≤ k.i27 ∧ k.i27 < 32768
  i28 : 0 ≤ k.i28 ∧ k.i28 < 32768
  i29 : 0 ≤ k.i29 ∧ k.i29 < 32768
  i30 : 0 ≤ k.i30 ∧ k.i30 < 16384
  i31 : 0 ≤ k.i31 ∧ k.i31 < 32768
  i32 : 0 ≤ k.i32 ∧ k.i32 < 8192
  i33 : 0 ≤ k.i33 ∧ k.i33 < 32768
  i34 : 0 ≤ k.i34 ∧ k.i34 < 32768
  i35 : 0 ≤ k.i35 ∧ k.i35 < 32768

/-- The two reverbs. -/
structure StateRel (s : State (List α) α) (g : State (ℤ → α) α) : Prop where
  ctrl : s.ctrl = g.ctrl
  iota : s.iota = g.iota
  lo : 0 ≤ s.iota
  hi : s.iota < 2 ^ 31
  r : HalfRel 32768 16384 s.iota s.iota s.r g.r
  l : HalfRel 16384 8192 s.iota s.iota s.l g.l

theorem clear_rel : StateRel (clear (arrays (α := α))) (clear ideal) := by
  refine ⟨rfl, rfl, le_refl _, by norm_num [clear], ?_, ?_⟩
  · exact ⟨rfl, rfl, rfl, rfl, rfl, rfl, rfl, rfl, rfl, .clear _ p131072, .clear _ p1024, .clear _ p1024, .clear _ p4096, .clear _ p2048,
      .clear _ p131072, .clear _ p32768, .clear _ p32768, .clear _ p32768, .clear _ p16384, .clear _ p32768⟩
  · exact ⟨rfl, rfl, rfl, rfl, rfl, rfl, rfl, rfl, rfl, .clear _ p131072, .clear _ p1024, .clear _ p1024, .clear _ p4096, .clear _ p2048,
      .clear _ p131072, .clear _ p32768, .clear _ p16384, .clear _ p32768, .clear _ p8192, .clear _ p32768⟩

theorem ctrlStep_pre {k : Consts α} {sl : Slow α} {c c' : Ctrl α} {pre : ℤ} (h : ctrlStep k sl c = some (c', pre)) :
    0 ≤ pre ∧ pre < 131072 := by
  simp only [ctrlStep, Option.bind_eq_some_iff, Option.some.injEq, Prod.mk.injEq] at h
  obtain ⟨n, -, -, -, -, -, -, -, -, -, -, -, -, -, -, -, -, -, -, rfl⟩ := h
  exact ⟨clampDelay_nonneg _, lt_of_le_of_lt (clampDelay_le _) (by norm_num)⟩

theorem step_rel {k : Consts α} (K : Fits k) (sl : Slow α) {s : State (List α) α} {g : State (ℤ → α) α} (S : StateRel s g)
    (x : Stereo α) : OptRel (fun a b => StateRel a.1 b.1 ∧ a.2 = b.2) (step arrays k sl s x) (step ideal k sl g x) := by
  unfold step
  have h0 := S.lo
  have h1 := S.hi
  rw [← S.ctrl, ← S.iota]
  refine (OptRel.self (ctrlStep k sl s.ctrl)).bind ?_
  rintro ⟨c, pre⟩ _ ⟨rfl, hc⟩
  have hp := ctrlStep_pre hc
  refine (inputStep_rel S.r h0 h1 hp K.i6 K.i7 K.i8 K.i9).bind ?_
  rintro ⟨r, r14⟩ ⟨gr, _⟩ ⟨R, e⟩
  obtain rfl : r14 = _ := e
  refine (S.l.outA.rd_before p32768 h0 h1 K.i10.1 (by have := K.i10.2; push_cast; omega)).bind fun fb _ e => ?_
  subst e
  refine (tankStep_rel p32768 p16384 S.r R h0 h1 K.i13 K.i14).bind fun r1 gr1 R1 => ?_
  refine (inputStep_rel S.l h0 h1 hp K.i15 K.i16 K.i17 K.i18).bind ?_
  rintro ⟨l, r44⟩ ⟨gl, _⟩ ⟨Lr, e⟩
  obtain rfl : r44 = _ := e
  refine (R1.outA.rd_after p32768 h0 h1 (by have := K.i19.1; omega) K.i19.2).bind fun fb' _ e => ?_
  subst e
  refine (tankStep_rel p16384 p8192 S.l Lr h0 h1 K.i20 K.i21).bind fun l1 gl1 L1 => ?_
  refine (tap_rel h0 h1 ⟨rfl, p32768, rfl, R1.outC, K.i28.1, K.i28.2⟩ ⟨rfl, p32768, rfl, R1.outC, K.i27.1, K.i27.2⟩
    ⟨rfl, p32768, rfl, R1.outA, K.i26.1, K.i26.2⟩ ⟨rfl, p16384, rfl, R1.outB, K.i25.1, K.i25.2⟩
    ⟨rfl, p32768, rfl, L1.outC, K.i24.1, K.i24.2⟩ ⟨rfl, p8192, rfl, L1.outB, K.i23.1, K.i23.2⟩
    ⟨rfl, p32768, rfl, L1.outA, K.i22.1, K.i22.2⟩).bind fun o0 _ e => ?_
  subst e
  refine (tap_rel h0 h1 ⟨rfl, p32768, rfl, L1.outC, K.i35.1, K.i35.2⟩ ⟨rfl, p32768, rfl, L1.outC, K.i34.1, K.i34.2⟩
    ⟨rfl, p32768, rfl, L1.outA, K.i33.1, K.i33.2⟩ ⟨rfl, p8192, rfl, L1.outB, K.i32.1, K.i32.2⟩
    ⟨rfl, p32768, rfl, R1.outC, K.i31.1, K.i31.2⟩ ⟨rfl, p16384, rfl, R1.outB, K.i30.1, K.i30.2⟩
    ⟨rfl, p32768, rfl, R1.outA, K.i29.1, K.i29.2⟩).bind fun o1 _ e => ?_
  subst e
  refine (OptRel.self (FVerbDSP.i32 (s.iota + 1))).map ?_
  rintro n _ ⟨rfl, hn⟩
  obtain ⟨rfl, -, hlt⟩ := i32_eq_some hn
  exact ⟨⟨rfl, rfl, by show 0 ≤ s.iota + 1; omega, hlt, R1, L1⟩, rfl⟩

theorem loop_rel {k : Consts α} (K : Fits k) (sl : Slow α) (xs : List (Stereo α)) :
    ∀ {s : State (List α) α} {g : State (ℤ → α) α}, StateRel s g →
      OptRel (fun a b => StateRel a.1 b.1 ∧ a.2 = b.2) (loop arrays k sl s xs) (loop ideal k sl g xs) := by
  induction xs with
  | nil => intro s g S; exact ⟨S, rfl⟩
  | cons x xs ih =>
    intro s g S
    refine (step_rel K sl S x).bind ?_
    rintro ⟨s1, y⟩ ⟨g1, _⟩ ⟨S1, e⟩
    obtain rfl : y = _ := e
    refine (ih S1).map ?_
    rintro ⟨s2, ys⟩ ⟨g2, _⟩ ⟨S2, e⟩
    obtain rfl : ys = _ := e
    exact ⟨S2, rfl⟩

theorem run_rel {k : Consts α} (K : Fits k) (es : List (Event α)) :
    ∀ {s : State (List α) α} {g : State (ℤ → α) α}, StateRel s g →
      OptRel (fun a b => StateRel a.1 b.1 ∧ a.2 = b.2) (run arrays k s es) (run ideal k g es) := by
  induction es with
  | nil => intro s g S; exact ⟨S, rfl⟩
  | cons e es ih =>
    intro s g S
    cases e with
    | clear => exact ih clear_rel
    | block p xs =>
      refine (loop_rel K (slow k p) xs S).bind ?_
      rintro ⟨s1, y⟩ ⟨g1, _⟩ ⟨S1, e⟩
      obtain rfl : y = _ := e
      refine (ih S1).map ?_
      rintro ⟨s2, ys⟩ ⟨g2, _⟩ ⟨S2, e⟩
      obtain rfl : ys = _ := e
      exact ⟨S2, rfl⟩

end Verif.FVerbDSP
