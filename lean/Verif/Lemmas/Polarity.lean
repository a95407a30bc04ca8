import Verif.Arith
import Verif.Float.Lemmas
import Verif.Float.Convex
import Verif.Float.LibmSpec
import Verif.Float.LibmSpec64
import Verif.Lemmas.RealArith

/-!
# Arithmetic with the sign turned round

`Sg true x y` says that `y` is `-x` and `Sg false x y` that `y` is `x`, both up to the sign of a zero.
-/

namespace Verif

/-- Arithmetic in which turning signs commutes with the operations. -/
class Polar (α : Type) [Arith α] where
  Sg : Bool → α → α → Prop
  refl : ∀ a, Sg false a a
  opp : ∀ a, Sg true a (-a)
  opp' : ∀ a, Sg true (-a) a
  zero : Sg true (lit 0) (lit 0)
  add : ∀ {σ a b c d}, Sg σ a b → Sg σ c d → Sg σ (a + c) (b + d)
  sub : ∀ {σ a b c d}, Sg σ a b → Sg σ c d → Sg σ (a - c) (b - d)
  add_sub : ∀ {a b} (c), Sg true a b → Sg true (a + c) (b - c)
  sub_add : ∀ {a b} (c), Sg true a b → Sg true (a - c) (b + c)
  sub_swap : ∀ a b, Sg true (a - b) (b - a)
  mul : ∀ {σ τ a b c d}, Sg σ a b → Sg τ c d → Sg (σ ^^ τ) (a * c) (b * d)
  sq : ∀ {a b}, Sg true a b → a * a = b * b
  div : ∀ {σ a b} (c), Sg σ a b → Sg σ (a / c) (b / c)
  abs : ∀ {a b}, Sg true a b → Arith.fabs a = Arith.fabs b
  lt : ∀ {a b c d}, Sg true a b → Sg true c d → (a <. c) = (d <. b)
  num : ∀ {a b}, Sg true a b → (a ==. a) = (b ==. b)
  apart : ∀ a : α, (lit 1 <. a) = true → (a <. -lit 1) = true → False

/-- Conversions that keep this. -/
class PolarConv (α β : Type) [Arith α] [Arith β] [Polar α] [Polar β] [Conv α β] where
  conv : ∀ {σ} {a b : α}, Polar.Sg σ a b → Polar.Sg σ (Conv.conv a : β) (Conv.conv b)

/-- `tanh` is odd. -/
class OddTanh (β : Type) [Arith β] [Polar β] [Libm β] where
  tanh : ∀ {a b : β}, Polar.Sg true a b → Polar.Sg true (Libm.tanh a) (Libm.tanh b)

namespace FP
variable {f g : Fmt}

/-- `y` is `x` (`σ = false`) or `-x` (`σ = true`), up to the sign of a zero. -/
def Sgn (σ : Bool) : FP f → FP f → Prop
  | nan, nan => True
  | inf a, inf b => b = (a ^^ σ)
  | fin x _ _, fin y _ _ => y = if σ then -x else x
  | _, _ => False

theorem sgn_ofK {K : Type*} [Field K] [LinearOrder K] [IsStrictOrderedRing K] [FloorRing K] (σ z w : Bool) (x : K) :
    Sgn σ (ofK x z : FP f) (ofK (if σ then -x else x) w) := by
  cases σ with
  | false =>
    simp only [Bool.false_eq_true, if_false, ofK]
    by_cases h : |f.rnd x| < 2 ^ f.emaxp1
    · rw [dif_pos h, dif_pos h]; simp [Sgn]
    · rw [dif_neg h, dif_neg h]; simp [Sgn]
  | true =>
    simp only [if_true, ofK]
    by_cases h : |f.rnd x| < 2 ^ f.emaxp1
    · have h' : |f.rnd (-x)| < 2 ^ f.emaxp1 := by rwa [Fmt.rnd_neg, abs_neg]
      rw [dif_pos h, dif_pos h']; simp [Sgn, Fmt.rnd_neg]
    · have h' : ¬ |f.rnd (-x)| < 2 ^ f.emaxp1 := by rwa [Fmt.rnd_neg, abs_neg]
      rw [dif_neg h, dif_neg h']
      have h0 : x ≠ 0 := by
        rintro rfl
        apply h
        rw [Fmt.rnd_zero, abs_zero]
        positivity
      simp only [Sgn, Bool.xor_true]
      rcases lt_or_gt_of_ne h0 with h1 | h1
      · simp [h1, h1.le]
      · simp [h1, h1.le]

theorem sgn_ofRat {σ : Bool} {x y : ℚ} (z w : Bool) (h : y = if σ then -x else x) : Sgn σ (ofRat x z : FP f) (ofRat y w) := by
  subst h; exact sgn_ofK σ z w x

theorem sgn_refl (a : FP f) : Sgn false a a := by cases a <;> simp [Sgn]

theorem sgn_opp (a : FP f) : Sgn true a (-a) := by
  cases a <;> simp [Sgn, Neg.neg, FP.neg]

theorem sgn_opp' (a : FP f) : Sgn true (-a) a := by
  cases a <;> simp [Sgn, Neg.neg, FP.neg]
  exact (neg_neg _).symm

theorem sgn_neg {σ : Bool} {a b : FP f} (h : Sgn σ a b) : Sgn σ (FP.neg a) (FP.neg b) := by
  cases a <;> cases b <;> cases σ <;> simp_all [Sgn, FP.neg]

theorem sgn_add {σ : Bool} {a b c d : FP f} (h : Sgn σ a b) (k : Sgn σ c d) : Sgn σ (FP.add a c) (FP.add b d) := by
  cases a <;> cases b <;> simp only [Sgn] at h <;> cases c <;> cases d <;> simp only [Sgn] at k
  case fin.fin.fin.fin =>
    simp only [FP.add]
    refine sgn_ofRat _ _ ?_
    cases σ <;> simp_all
    ring
  all_goals simp only [FP.add, Sgn]
  case inf.inf.inf.inf x y z w =>
    subst h k
    cases x <;> cases z <;> cases σ <;> simp
  all_goals assumption

theorem sgn_sub {σ : Bool} {a b c d : FP f} (h : Sgn σ a b) (k : Sgn σ c d) : Sgn σ (FP.sub a c) (FP.sub b d) := sgn_add h (sgn_neg k)

theorem sgn_add_sub {a b : FP f} (c : FP f) (h : Sgn true a b) : Sgn true (FP.add a c) (FP.sub b c) := sgn_add h (sgn_opp c)

theorem sgn_sub_add {a b : FP f} (c : FP f) (h : Sgn true a b) : Sgn true (FP.sub a c) (FP.add b c) := sgn_add h (sgn_opp' c)

theorem sgn_comm {σ : Bool} {a b c : FP f} (h : Sgn σ a (FP.add b c)) : Sgn σ a (FP.add c b) := by
  have : FP.add b c = FP.add c b := by
    cases b <;> cases c <;> simp [FP.add, add_comm, Bool.and_comm, eq_comm]
    grind
  rwa [← this]

theorem sgn_sub_swap (a b : FP f) : Sgn true (FP.sub a b) (FP.sub b a) := by
  unfold FP.sub
  exact sgn_comm (sgn_add (sgn_opp a) (sgn_opp' b))

theorem sign_fin {v : ℚ} {nz : Bool} (h : f.Rep v nz) (h0 : v ≠ 0) : sign (fin v nz h) = decide (v < 0) := by
  have : nz = false := by
    cases nz with
    | false => rfl
    | true => exact absurd (h.2.2 rfl) h0
  subst this; simp [sign]

theorem sign_turn (σ : Bool) {v w : ℚ} (h : w = if σ then -v else v) (h0 : v ≠ 0) : decide (w < 0) = (decide (v < 0) ^^ σ) := by
  cases σ
  · simp_all
  · simp only [if_true] at h
    subst h
    rcases lt_or_gt_of_ne h0 with h1 | h1
    · simp [h1, h1.le]
    · simp [h1, h1.le]

theorem turn_zero {σ : Bool} {v w : ℚ} (h : w = if σ then -v else v) : w = 0 ↔ v = 0 := by cases σ <;> simp_all

theorem sgn_mul {σ τ : Bool} {a b c d : FP f} (h : Sgn σ a b) (k : Sgn τ c d) : Sgn (σ ^^ τ) (FP.mul a c) (FP.mul b d) := by
  cases a <;> cases b <;> simp only [Sgn] at h <;> cases c <;> cases d <;> simp only [Sgn] at k
  case fin.fin.fin.fin =>
    simp only [FP.mul]
    refine sgn_ofRat _ _ ?_
    cases σ <;> cases τ <;> simp_all
  all_goals simp only [FP.mul, Sgn]
  case inf.inf.inf.inf x y z w => subst h k; cases x <;> cases z <;> cases σ <;> cases τ <;> rfl
  case inf.inf.fin.fin x y v nz hv w mz hw =>
    by_cases h0 : v = 0
    · rw [if_pos h0, if_pos ((turn_zero k).2 h0)]; trivial
    · have h0' : w ≠ 0 := fun e => h0 ((turn_zero k).1 e)
      rw [if_neg h0, if_neg h0', sign_fin hv h0, sign_fin hw h0', sign_turn τ k h0]
      subst h
      simp only
      cases x <;> cases σ <;> cases τ <;> simp
  case fin.fin.inf.inf v nz hv w mz hw x y =>
    by_cases h0 : v = 0
    · rw [if_pos h0, if_pos ((turn_zero h).2 h0)]; trivial
    · have h0' : w ≠ 0 := fun e => h0 ((turn_zero h).1 e)
      rw [if_neg h0, if_neg h0', sign_fin hv h0, sign_fin hw h0', sign_turn σ h h0]
      subst k
      simp only
      cases x <;> cases σ <;> cases τ <;> simp

theorem sgn_sq {a b : FP f} (h : Sgn true a b) : FP.mul a a = FP.mul b b := by
  cases a <;> cases b <;> simp only [Sgn] at h
  · rfl
  · simp [FP.mul]
  · subst h; simp [FP.mul]

theorem sgn_div {σ : Bool} {a b : FP f} (c : FP f) (h : Sgn σ a b) : Sgn σ (FP.div a c) (FP.div b c) := by
  cases a <;> cases b <;> simp only [Sgn] at h <;> cases c <;> simp only [FP.div, Sgn]
  case inf.inf.fin x y v nz hv => subst h; cases x <;> cases σ <;> cases (sign (fin v nz hv)) <;> rfl
  case fin.fin.inf v nz hv w mz hw x => exact sgn_ofRat _ _ (by cases σ <;> simp)
  case fin.fin.fin v nz hv w mz hw u oz hu =>
    by_cases hu0 : u = 0
    · rw [if_pos hu0, if_pos hu0]
      by_cases h0 : v = 0
      · rw [if_pos h0, if_pos ((turn_zero h).2 h0)]; trivial
      · have h0' : w ≠ 0 := fun e => h0 ((turn_zero h).1 e)
        rw [if_neg h0, if_neg h0', sign_fin hv h0, sign_fin hw h0', sign_turn σ h h0]
        simp only
        cases (sign (fin u oz hu)) <;> cases σ <;> simp
    · rw [if_neg hu0, if_neg hu0]
      refine sgn_ofRat _ _ ?_
      cases σ <;> simp_all [neg_div]

theorem sgn_abs {a b : FP f} (h : Sgn true a b) : FP.abs a = FP.abs b := by
  cases a <;> cases b <;> simp_all [Sgn, FP.abs]

theorem sgn_lt {a b c d : FP f} (h : Sgn true a b) (k : Sgn true c d) : FP.lt a c = FP.lt d b := by
  cases a <;> cases b <;> simp only [Sgn] at h <;> cases c <;> cases d <;> simp only [Sgn] at k <;> simp_all [FP.lt]
  exact Bool.and_comm _ _

theorem sgn_num {a b : FP f} (h : Sgn true a b) : FP.eq a a = FP.eq b b := by
  cases a <;> cases b <;> simp_all [Sgn, FP.eq]

theorem sgn_conv {σ : Bool} {a b : FP f} (h : Sgn σ a b) : Sgn σ (FP.convert a : FP g) (FP.convert b) := by
  cases a <;> cases b <;> simp only [Sgn] at h <;> simp only [FP.convert, Sgn]
  · exact h
  · exact sgn_ofRat _ _ h

end FP

instance (f : Fmt) : Polar (FP f) where
  Sg := FP.Sgn
  refl := FP.sgn_refl
  opp := FP.sgn_opp
  opp' := FP.sgn_opp'
  zero := by
    show FP.Sgn true (FP.ofRat 0) (FP.ofRat 0)
    exact FP.sgn_ofRat _ _ (by simp)
  add := FP.sgn_add
  sub := FP.sgn_sub
  add_sub := FP.sgn_add_sub
  sub_add := FP.sgn_sub_add
  sub_swap := FP.sgn_sub_swap
  mul := FP.sgn_mul
  sq := FP.sgn_sq
  div := FP.sgn_div
  abs := FP.sgn_abs
  lt := FP.sgn_lt
  num := FP.sgn_num
  apart := by
    intro a h k
    have h1 : (lit 1 : FP f).In 1 1 := FP.ofRat_in FP.rep_one FP.rep_one le_rfl le_rfl
    obtain ⟨w, nz, hw, e⟩ := FP.isFin_cases h1.1
    have e1 : w = 1 := by have := h1.val_eq; rw [e] at this; exact this
    have h : FP.lt (lit 1) a = true := h
    have k : FP.lt a (FP.neg (lit 1)) = true := k
    rw [e] at h k
    cases a <;> simp_all [FP.lt, FP.neg]
    linarith

instance (f g : Fmt) : PolarConv (FP f) (FP g) := ⟨FP.sgn_conv⟩

noncomputable instance : Polar ℝ where
  Sg σ a b := b = if σ then -a else a
  refl := by simp
  opp := by simp
  opp' := by simp
  zero := by simp [real_arith]
  add := by intro σ a b c d h k; subst h k; cases σ <;> simp; ring
  sub := by intro σ a b c d h k; subst h k; cases σ <;> simp; ring
  add_sub := by intro a b c h; subst h; simp; ring
  sub_add := by intro a b c h; subst h; simp; ring
  sub_swap := by simp
  mul := by intro σ τ a b c d h k; subst h k; cases σ <;> cases τ <;> simp
  sq := by intro a b h; subst h; simp
  div := by intro σ a b c h; subst h; cases σ <;> simp [neg_div]
  abs := by intro a b h; subst h; simp [real_arith]
  lt := by intro a b c d h k; subst h k; simp [real_arith]
  num := by intro a b h; subst h; simp [real_arith]
  apart := by intro a h k; simp [real_arith] at h k; linarith

instance : PolarConv ℝ ℝ := ⟨fun h => h⟩

instance : OddTanh ℝ := ⟨by
  intro a b h
  have h : b = -a := h
  subst h
  show Real.tanh (-a) = if true then -Real.tanh a else Real.tanh a
  simp [Real.tanh_neg]⟩

/-- What is assumed of `tanh`: `tanh(-x) = -tanh(x)`, where the sign of a zero does not matter. -/
class Tanh64Odd [Libm F64] : Prop where
  zero : ∀ x : F64, x.In 0 0 → (Libm.tanh x).In 0 0
  odd : ∀ x : F64, FP.Sgn true (Libm.tanh x) (Libm.tanh (-x))

/-- The same for single precision. -/
class Tanh32Odd [Libm F32] : Prop where
  zero : ∀ x : F32, x.In 0 0 → (Libm.tanh x).In 0 0
  odd : ∀ x : F32, FP.Sgn true (Libm.tanh x) (Libm.tanh (-x))

namespace FP
variable {f : Fmt}

theorem sgn_zero {a b : FP f} (ha : a.In 0 0) (hb : b.In 0 0) : Sgn true a b := by
  obtain ⟨v, nz, hv, rfl⟩ := isFin_cases ha.1
  obtain ⟨w, mz, hw, rfl⟩ := isFin_cases hb.1
  have e1 : v = 0 := ha.val_eq
  have e2 : w = 0 := hb.val_eq
  simp [Sgn, e1, e2]

theorem sgn_true_cases {a b : FP f} (h : Sgn true a b) : (a.In 0 0 ∧ b.In 0 0) ∨ ¬ a.In 0 0 ∧ b = -a := by
  cases a <;> cases b <;> simp only [Sgn] at h
  · right; exact ⟨fun h => by simpa [isFin] using h.1, rfl⟩
  · right; refine ⟨fun h => by simpa [isFin] using h.1, ?_⟩; subst h; simp [Neg.neg, FP.neg]
  case fin.fin v nz hv w mz hw =>
    subst h
    by_cases h0 : v = 0
    · left; subst h0; exact ⟨⟨rfl, le_rfl, le_rfl⟩, ⟨rfl, by simp [val], by simp [val]⟩⟩
    · right
      refine ⟨fun h => h0 h.val_eq, ?_⟩
      have hm : mz = false := by
        cases mz with
        | false => rfl
        | true => exact absurd (hw.2.2 rfl) (by simpa using h0)
      subst hm
      simp [Neg.neg, FP.neg, h0]

end FP

instance [Libm F64] [Tanh64Odd] : OddTanh F64 := ⟨by
  intro a b h
  rcases FP.sgn_true_cases h with ⟨h1, h2⟩ | ⟨h1, rfl⟩
  · exact FP.sgn_zero (Tanh64Odd.zero a h1) (Tanh64Odd.zero b h2)
  · exact Tanh64Odd.odd a⟩

instance [Libm F32] [Tanh32Odd] : OddTanh F32 := ⟨by
  intro a b h
  rcases FP.sgn_true_cases h with ⟨h1, h2⟩ | ⟨h1, rfl⟩
  · exact FP.sgn_zero (Tanh32Odd.zero a h1) (Tanh32Odd.zero b h2)
  · exact Tanh32Odd.odd a⟩
theorem ideal_tanh_odd {f : Fmt} {t : FP f → FP f} (hf : ∀ v nz h, t (.fin v nz h) = .ofK (Real.tanh v) false)
    (hi : ∀ b, t (.inf b) = if b then .ofRat (-1) else .ofRat 1) (hn : t .nan = .nan) :
    (∀ x : FP f, x.In 0 0 → (t x).In 0 0) ∧ ∀ x, FP.Sgn true (t x) (t (-x)) := by
  constructor
  · intro x hx
    obtain ⟨v, nz, hv, rfl⟩ := FP.isFin_cases hx.1
    have e : v = 0 := hx.val_eq
    rw [hf, e]
    exact FP.ofK_in' FP.rep_zero FP.rep_zero (by simp) (by simp)
  · intro x
    cases x with
    | nan => show FP.Sgn true (t .nan) (t .nan); rw [hn]; trivial
    | inf b =>
      show FP.Sgn true (t (.inf b)) (t (.inf !b))
      rw [hi, hi]
      cases b
      · exact FP.sgn_ofRat _ _ (by simp)
      · exact FP.sgn_ofRat _ _ (by simp)
    | fin v nz h =>
      obtain ⟨mz, hm, e⟩ : ∃ mz hm, -(FP.fin v nz h) = FP.fin (-v) mz hm := ⟨_, _, rfl⟩
      rw [e, hf, hf]
      have := FP.sgn_ofK (f := f) true false false (Real.tanh v)
      simpa [Real.tanh_neg] using this

/-- A correctly rounded `tanh` meets the assumption. -/
theorem idealLibm64_odd : @Tanh64Odd idealLibm64 :=
  let h := ideal_tanh_odd (f := binary64) (t := idealLibm64.tanh) (fun _ _ _ => rfl) (fun _ => rfl) rfl
  @Tanh64Odd.mk idealLibm64 h.1 h.2

theorem idealLibm_odd : @Tanh32Odd idealLibm :=
  let h := ideal_tanh_odd (f := binary32) (t := idealLibm.tanh) (fun _ _ _ => rfl) (fun _ => rfl) rfl
  @Tanh32Odd.mk idealLibm h.1 h.2

end Verif
