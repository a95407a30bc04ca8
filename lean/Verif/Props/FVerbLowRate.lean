import Verif.Props.FVerbRun
import Verif.Props.UtilityFloat

/-!
# C58: sample rates at which the reverb is unstable
-/

namespace Verif.FVerbDSP
open FP

set_option linter.unusedSectionVars false

variable [Libm F32]

/-- The predelay smoother at a sample rate `c`, on its own. -/
def rec28At (c predelay : F32) : ℕ → F32
  | 0 => lit 0
  | n + 1 => (lit 0.0441 / c) * predelay + (lit 1 - lit 44.1 / c) * rec28At c predelay n

theorem loop_rec28 {L : Type} {I : LineImpl L F32} {k : Consts F32} {p : Params F32} (h2 : k.c2 = lit 1 - lit 44.1 / k.c0)
    (h5 : k.c5 = lit 0.0441 / k.c0) (xs : List (Stereo F32)) : ∀ (n : ℕ) {s s' : State L F32} {ys : List (Stereo F32)},
      s.ctrl.rec28 = rec28At k.c0 p.predelay n → loop I k (slow k p) s xs = some (s', ys) →
      ∀ m, n < m → m ≤ n + xs.length → Arith.toI32? (k.c0 * rec28At k.c0 p.predelay m) ≠ none := by
  induction xs with
  | nil => intro n s s' ys _ _ m h1 h2; simp at h2; omega
  | cons x xs ih =>
    intro n s s' ys hs h m hm1 hm2
    simp only [loop, Option.bind_eq_some_iff, Option.map_eq_some_iff, Prod.exists] at h
    obtain ⟨s1, y, e1, s2, zs, e2, -⟩ := h
    obtain ⟨⟨pre, hc⟩, -⟩ := step_some e1
    have hr : s1.ctrl.rec28 = rec28At k.c0 p.predelay (n + 1) ∧ Arith.toI32? (k.c0 * rec28At k.c0 p.predelay (n + 1)) ≠ none := by
      simp only [ctrlStep, slow, Option.bind_eq_some_iff, Option.some.injEq, Prod.mk.injEq] at hc
      obtain ⟨a, ha, _, _, _, _, _, _, _, _, _, _, _, _, _, _, _, _, hc, -⟩ := hc
      rw [← hc]
      rw [h2, h5, hs] at ha
      refine ⟨?_, ?_⟩
      · show k.c5 * p.predelay + k.c2 * s.ctrl.rec28 = _
        rw [h2, h5, hs]; rfl
      · show Arith.toI32? (k.c0 * (lit 0.0441 / k.c0 * p.predelay + (lit 1 - lit 44.1 / k.c0) * rec28At k.c0 p.predelay n)) ≠ none
        rw [ha]; simp
    by_cases e : m = n + 1
    · subst e; exact hr.2
    · simp only [List.length_cons] at hm2
      exact ih (n + 1) hr.1 e2 m (by omega) (by omega)

/-- A number that is converted to an `int` after a multiplication by at least 1 is not large. -/
theorem fits_small {c x : F32} (hc : c.In 1 22) (hx : x.isFin = true) (hb : |(x.val : ℝ)| ≤ 2 ^ 64)
    (h : Arith.toI32? (c * x) ≠ none) : |(x.val : ℝ)| ≤ 2 ^ 32 := by
  have c1 : (1:ℝ) ≤ c.val := by exact_mod_cast hc.2.1
  have c2 : (c.val : ℝ) ≤ 22 := by exact_mod_cast hc.2.2
  have hm : |(c.val : ℝ) * x.val| ≤ 2 ^ 120 := by
    rw [abs_mul, abs_of_nonneg (by linarith)]
    calc (c.val : ℝ) * |(x.val : ℝ)| ≤ 22 * 2 ^ 64 := mul_le_mul c2 hb (abs_nonneg _) (by norm_num)
      _ ≤ 2 ^ 120 := by norm_num
  have hs := step_mul hc.1 hx hm
  have ht : -2 ^ 31 ≤ truncQ (c * x).val ∧ truncQ (c * x).val < 2 ^ 31 := by
    by_contra hn
    apply h
    simp only [Arith.toI32?, toInt_fin hs.1]
    rw [if_neg hn]
  have hv : |((c * x).val : ℝ)| ≤ 2 ^ 31 + 1 := by
    have hq : -(2 ^ 31 + 1) ≤ (c * x).val ∧ (c * x).val ≤ 2 ^ 31 + 1 := by
      revert ht
      unfold truncQ
      split_ifs with h0
      · rintro ⟨-, h2⟩
        have := Int.lt_floor_add_one (c * x).val
        have h3 : (⌊(c * x).val⌋ : ℚ) < 2 ^ 31 := by exact_mod_cast h2
        constructor <;> linarith
      · rintro ⟨h1, -⟩
        have := Int.ceil_lt_add_one (c * x).val
        have h3 : (-2 ^ 31 : ℚ) ≤ (⌈(c * x).val⌉ : ℚ) := by exact_mod_cast h1
        push Not at h0
        constructor <;> linarith
    rw [abs_le]
    constructor
    · have := (Rat.cast_le (K := ℝ)).2 hq.1; push_cast at this; linarith
    · have := (Rat.cast_le (K := ℝ)).2 hq.2; push_cast at this; linarith
  have h1 := abs_sub_abs_le_abs_sub ((c.val : ℝ) * x.val) (c * x).val
  rw [abs_sub_comm] at h1
  have h2 := hs.2
  have h3 : |(x.val : ℝ)| ≤ |(c.val : ℝ) * x.val| := by
    rw [abs_mul, abs_of_nonneg (by linarith : (0:ℝ) ≤ c.val)]
    exact le_mul_of_one_le_left (abs_nonneg _) c1
  generalize |(c.val : ℝ) * x.val| = w at *
  norm_num at *
  linarith

/-- What is used about the smoother: `a` is added in every frame, `b` is the feedback. -/
structure Wild (a b : F32) : Prop where
  ain : a.In 0 8
  bin : b.In (-44) (-10045 / 10000)
  lo : 14 / 100 * (1 - b.val) ≤ a.val
  hi : a.val ≤ 16 / 100 * (1 - b.val)

/-- One frame: the distance from the resting point grows. -/
theorem wild_step {a b x : F32} (W : Wild a b) (hx : x.isFin = true) (hs : |(x.val : ℝ)| ≤ 2 ^ 32) :
    let p : ℝ := a.val / (1 - b.val)
    p ≤ |(x.val : ℝ) - p| → (a + b * x).isFin = true ∧ |((a + b * x).val : ℝ)| ≤ 2 ^ 64 ∧
      2511 / 2500 * |(x.val : ℝ) - p| ≤ |((a + b * x).val : ℝ) - p| := by
  intro p hp
  have hb1 : (b.val : ℝ) ≤ -10045 / 10000 := by
    have := (Rat.cast_le (K := ℝ)).2 W.bin.2.2; push_cast at this; exact this
  have hb2 : (-44 : ℝ) ≤ b.val := by
    have := (Rat.cast_le (K := ℝ)).2 W.bin.2.1; push_cast at this; exact this
  have ha1 : (0:ℝ) ≤ a.val := by exact_mod_cast W.ain.2.1
  have ha2 : (a.val : ℝ) ≤ 8 := by exact_mod_cast W.ain.2.2
  have lo : (14 / 100 : ℝ) * (1 - b.val) ≤ a.val := by
    have := (Rat.cast_le (K := ℝ)).2 W.lo; push_cast at this; exact this
  have hq : (0:ℝ) < 1 - b.val := by linarith
  have ep : (p : ℝ) * (1 - b.val) = a.val := div_mul_cancel₀ _ hq.ne'
  have p1 : 14 / 100 ≤ p := by rw [le_div_iff₀ hq]; exact lo
  generalize hbv : (b.val : ℝ) = bv at *
  generalize hav : (a.val : ℝ) = av at *
  generalize hxv : (x.val : ℝ) = xv at *
  clear_value p
  have habs : |bv| = -bv := abs_of_nonpos (by linarith)
  have m1 : |bv * xv| ≤ 2 ^ 120 := by
    rw [abs_mul, habs]
    calc -bv * |xv| ≤ 44 * 2 ^ 32 := mul_le_mul (by linarith) hs (abs_nonneg _) (by norm_num)
      _ ≤ 2 ^ 120 := by norm_num
  have hm := step_mul W.bin.1 hx (by rw [hbv, hxv]; exact m1)
  rw [hbv, hxv] at hm
  generalize hmv : ((b * x).val : ℝ) = mv at *
  have m2 : |bv * xv| ≤ 2 ^ 38 := by
    rw [abs_mul, habs]
    calc -bv * |xv| ≤ 44 * 2 ^ 32 := mul_le_mul (by linarith) hs (abs_nonneg _) (by norm_num)
      _ ≤ 2 ^ 38 := by norm_num
  have m3 : |mv| ≤ 2 ^ 40 := by
    have := abs_sub_abs_le_abs_sub mv (bv * xv)
    have h2 := hm.2
    have : |bv * xv| / 2 ^ 24 ≤ 2 ^ 38 / 2 ^ 24 := div_le_div_of_nonneg_right m2 (by norm_num)
    norm_num at *
    linarith
  have m4 : |av + mv| ≤ 2 ^ 120 := by
    refine (abs_add_le _ _).trans ?_
    rw [abs_of_nonneg ha1]
    norm_num at *
    linarith
  have hd := step_add W.ain.1 hm.1 (by rw [hav, hmv]; exact m4)
  rw [hav, hmv] at hd
  generalize hyv : ((a + b * x).val : ℝ) = yv at *
  have m5 : |yv| ≤ 2 ^ 64 := by
    have h1 := abs_sub_abs_le_abs_sub yv (av + mv)
    have h2 := hd.2
    have h3 := abs_add_le av mv
    rw [abs_of_nonneg ha1] at h3
    have h4 : |av + mv| ≤ 2 ^ 41 := by norm_num at *; linarith
    norm_num at *
    linarith
  refine ⟨hd.1, m5, ?_⟩
  -- rounding against growth
  set d := |xv - p| with hdd
  have hd0 : 14 / 100 ≤ d := p1.trans hp
  have k1 : |xv| ≤ 2 * d := by
    have := abs_sub_abs_le_abs_sub xv p
    rw [abs_of_nonneg (by linarith : (0:ℝ) ≤ p)] at this
    linarith
  have k2 : |bv * xv| ≤ -bv * (2 * d) := by
    rw [abs_mul, habs]; exact mul_le_mul_of_nonneg_left k1 (by linarith)
  have k3 : |av + bv * xv| ≤ -bv * (4 * d) := by
    refine (abs_add_le _ _).trans ?_
    rw [abs_of_nonneg ha1, ← ep]
    have : p * (1 - bv) ≤ d * (2 * -bv) := mul_le_mul hp (by linarith) hq.le (by linarith)
    linarith
  have k4 : |yv - (av + bv * xv)| ≤ -bv * d / 2 ^ 20 := by
    have t1 : yv - (av + bv * xv) = (yv - (av + mv)) + (mv - bv * xv) := by ring
    have t2 : |av + mv| ≤ |av + bv * xv| + |mv - bv * xv| := by
      have : av + mv = (av + bv * xv) + (mv - bv * xv) := by ring
      rw [this]; exact abs_add_le _ _
    rw [t1]
    refine (abs_add_le _ _).trans ?_
    have h1 := hd.2
    have h2 := hm.2
    have h3 : (14 / 100 : ℝ) ≤ -bv * d := by nlinarith
    have e2 : -bv * (2 * d) = 2 * (-bv * d) := by ring
    have e4 : -bv * (4 * d) = 4 * (-bv * d) := by ring
    rw [e2] at k2
    rw [e4] at k3
    generalize -bv * d = w at *
    have tiny : (1:ℝ) / 2 ^ 149 ≤ 1 / 2 ^ 30 := by norm_num
    generalize (1:ℝ) / 2 ^ 149 = τ at *
    norm_num at *
    linarith
  have k5 : bv * (xv - p) = (av + bv * xv) - p := by linarith
  have k6 : |bv * (xv - p)| = -bv * d := by rw [abs_mul, habs]
  have k7 : |bv * (xv - p)| ≤ |yv - p| + |yv - (av + bv * xv)| := by
    have : bv * (xv - p) = (yv - p) - (yv - (av + bv * xv)) := by rw [k5]; ring
    rw [this]; exact abs_sub _ _
  have k8 : 10045 / 10000 * d ≤ -bv * d := mul_le_mul_of_nonneg_right (by linarith) (by linarith)
  rw [k6] at k7
  have : -bv * d / 2 ^ 20 = -bv * d * (1 / 1048576) := by norm_num; ring
  rw [this] at k4
  linarith

/-- Within 6000 frames the predelay does not fit an `int`. -/
theorem wild_escapes {c predelay : F32} (hc : c.In 1 22) (W : Wild (lit 0.0441 / c * predelay) (lit 1 - lit 44.1 / c)) :
    ∃ m, 0 < m ∧ m ≤ 6000 ∧ Arith.toI32? (c * rec28At c predelay m) = none := by
  by_contra hn
  push Not at hn
  set a := lit 0.0441 / c * predelay
  set b := lit 1 - lit 44.1 / c
  have hq : (0:ℝ) < 1 - b.val := by
    have := (Rat.cast_le (K := ℝ)).2 W.bin.2.2; push_cast at this; linarith
  have lo : (14 / 100 : ℝ) * (1 - b.val) ≤ a.val := by
    have := (Rat.cast_le (K := ℝ)).2 W.lo; push_cast at this; exact this
  have hi : (a.val : ℝ) ≤ 16 / 100 * (1 - b.val) := by
    have := (Rat.cast_le (K := ℝ)).2 W.hi; push_cast at this; exact this
  set p : ℝ := a.val / (1 - b.val) with hp
  have p1 : 14 / 100 ≤ p := by rw [hp, le_div_iff₀ hq]; exact lo
  have p2 : p ≤ 16 / 100 := by rw [hp, div_le_iff₀ hq]; exact hi
  have z := lit_zero (f := binary32)
  have grow : ∀ m ≤ 6000, (rec28At c predelay m).isFin = true ∧ |((rec28At c predelay m).val : ℝ)| ≤ 2 ^ 32 ∧
      p * (2511 / 2500) ^ m ≤ |((rec28At c predelay m).val : ℝ) - p| := by
    intro m
    induction m with
    | zero =>
      intro _
      refine ⟨z.1, ?_, ?_⟩
      · show |((lit 0 : F32).val : ℝ)| ≤ _
        rw [z.val_eq]; norm_num
      · show _ ≤ |((lit 0 : F32).val : ℝ) - p|
        rw [z.val_eq]
        simp only [pow_zero, mul_one, Rat.cast_zero, zero_sub, abs_neg]
        exact le_abs_self p
    | succ m ih =>
      intro hm
      obtain ⟨s1, s2, h⟩ := ih (by omega)
      have h1 : p ≤ p * (2511 / 2500) ^ m := le_mul_of_one_le_right (by linarith) (one_le_pow₀ (by norm_num))
      obtain ⟨t1, t2, t3⟩ := wild_step W s1 s2 (h1.trans h)
      refine ⟨t1, fits_small hc t1 t2 (hn (m + 1) (by omega) hm), ?_⟩
      rw [pow_succ]
      calc p * ((2511 / 2500) ^ m * (2511 / 2500)) = 2511 / 2500 * (p * (2511 / 2500) ^ m) := by ring
        _ ≤ 2511 / 2500 * |((rec28At c predelay m).val : ℝ) - p| := by linarith
        _ ≤ _ := t3
  obtain ⟨-, h2, h1⟩ := grow 6000 le_rfl
  have h3 : (2:ℝ) ^ 37 ≤ (2511 / 2500) ^ 6000 := by
    have e : (2:ℝ) ≤ (2511 / 2500) ^ 160 := by norm_num
    calc (2:ℝ) ^ 37 ≤ ((2511 / 2500) ^ 160) ^ 37 := pow_le_pow_left₀ (by norm_num) e 37
      _ = (2511 / 2500) ^ 5920 := by rw [← pow_mul]
      _ ≤ (2511 / 2500) ^ 6000 := pow_le_pow_right₀ (by norm_num) (by norm_num)
  generalize ((rec28At c predelay 6000).val : ℝ) = x at *
  generalize ((2511 / 2500 : ℝ)) ^ 6000 = g at *
  have h4 := abs_sub x p
  rw [abs_of_nonneg (by linarith : (0:ℝ) ≤ p)] at h4
  have h5 : 14 / 100 * 2 ^ 37 ≤ p * g := mul_le_mul p1 h3 (by norm_num) (by linarith)
  norm_num at *
  linarith

/-- The smoother at the rates from 1 to 22 Hz with the predelay that `FVerb::init` sets. -/
theorem wild_rates : ∀ i : Fin 22, let c : F32 := lit (1 + (i : ℕ) : ℚ)
    let a := lit 0.0441 / c * lit 150
    let b := lit 1 - lit 44.1 / c
    c.In 1 22 ∧ a.In 0 8 ∧ b.In (-44) (-10045 / 10000) ∧ 14 / 100 * (1 - b.val) ≤ a.val ∧ a.val ≤ 16 / 100 * (1 - b.val) := by
  decide +kernel

/-- **C58 negation**: at every sample rate up to 22 Hz (the code raises rates below 1 to 1) with the predelay of 150 that `FVerb::init`
sets, the smoothing filter `x' = s + (1 - 44.1/rate) * x` is unstable; within 6000 frames its value leaves the range of `int`. -/
theorem C58_low_rate (sr : ℤ) (h1 : -2 ^ 31 ≤ sr) (h2 : sr ≤ 22) (k : Consts F32) (hk : instanceConstants sr = some k) {L : Type}
    (I : LineImpl L F32) (p : Params F32) (hp : p.predelay = lit 150) (xs : List (Stereo F32)) (hx : 6000 ≤ xs.length) :
    compute I k p (clear I) xs = none := by
  obtain ⟨k', e, -, e0, e1, e2, -, -, e5, -⟩ := constants_fit (sr := sr) h1 (by omega)
  rw [hk] at e
  cases e
  have hc0 : ∃ i : Fin 22, k.c0 = lit (1 + (i : ℕ) : ℚ) := by
    rw [e0]
    by_cases h : sr ≤ 1
    · refine ⟨0, ?_⟩
      have hr : (Arith.ofInt sr : F32).In (-2 ^ 31) 1 :=
        ofRat_in (Rep.neg (rep_two_pow (by norm_num))) rep_one (by exact_mod_cast h1) (by exact_mod_cast h)
      have lo := lit_one (f := binary32)
      have hm : Arith.stdMax (lit 1) (Arith.ofInt sr : F32) = lit 1 := by
        unfold Arith.stdMax
        rw [if_neg]
        rw [lt_fin lo.1 hr.1, decide_eq_true_eq, lo.val_eq]
        linarith [hr.2.2]
      rw [hm]
      decide +kernel
    · refine ⟨⟨(sr - 1).toNat, by omega⟩, ?_⟩
      have key : ∀ i : Fin 22, Arith.stdMin (lit 1.92e+05) (Arith.stdMax (lit 1) (Arith.ofInt (1 + (i : ℕ) : ℤ) : F32)) =
          lit (1 + (i : ℕ) : ℚ) := by decide +kernel
      have := key ⟨(sr - 1).toNat, by omega⟩
      have hsr : (1 + (((⟨(sr - 1).toNat, by omega⟩ : Fin 22) : ℕ) : ℤ)) = sr := by
        show 1 + ((sr - 1).toNat : ℤ) = sr
        omega
      rwa [hsr] at this
  cases e : compute I k p (clear I) xs with
  | none => rfl
  | some r =>
    exfalso
    obtain ⟨s', ys⟩ := r
    obtain ⟨i, hi⟩ := hc0
    have w := wild_rates i
    dsimp only at w
    rw [← hi, ← hp] at w
    obtain ⟨m, m1, m2, m3⟩ := wild_escapes w.1 ⟨w.2.1, w.2.2.1, w.2.2.2.1, w.2.2.2.2⟩
    exact loop_rec28 (I := I) (k := k) (p := p) (by rw [e2, e1]) e5 xs 0 (s := clear I) rfl e m m1 (by omega) m3

example : ∃ k : Consts F32, instanceConstants 22 = some k := by
  obtain ⟨k, h, -⟩ := C48_delays_fit 22 (by norm_num) (by norm_num)
  exact ⟨k, h⟩

end Verif.FVerbDSP
