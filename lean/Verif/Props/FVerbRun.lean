import Verif.Props.FVerbDSP
import Verif.Float.LibmSpec

/-!
# C58: the reverb's loop is free of undefined behaviour
-/

namespace Verif.FVerbDSP
open FP

set_option linter.unusedSectionVars false

/-! ### Specification -/

/-- The parameters that reach an integer conversion are in the ranges of the setters. -/
structure InRange (p : Params F32) : Prop where
  predelay : p.predelay.In 0 300
  modFrequency : p.modFrequency.In 0 4
  modDepth : p.modDepth.In 0 10

/-- Every block uses such parameters, and fewer than `2^31` frames are processed without a reset (`n` were processed before). -/
def Fine : ℕ → List (Event F32) → Prop
  | _, [] => True
  | n, .block p xs :: es => InRange p ∧ n + xs.length < 2 ^ 31 ∧ Fine (n + xs.length) es
  | _, .clear :: es => Fine 0 es

/-! ### The one-pole smoothers -/

/-- What is used about the constants, relative to the sample rate `c0`. -/
structure Good (k : Consts F32) : Prop where
  c0 : k.c0.In 45 192000
  c1 : k.c1.In 0 1
  c1' : k.c1.val * k.c0.val ≤ 441 / 10 + 1 / 100
  c2 : k.c2.In 0 1
  c2' : 439 / 10 ≤ (1 - k.c2.val) * k.c0.val
  c3 : k.c3.In 0 1
  c4 : k.c4.In 0 1
  c4' : k.c4.val * k.c0.val ≤ 441 / 1000 + 7 / 1000
  c5 : k.c5.In 0 1
  c5' : k.c5.val * k.c0.val ≤ 441 / 10000 + 7 / 1000
  c11 : k.c11.In 0 (1 / 32)

theorem unit_div {x c : F32} (hx : x.isFin = true) (hc : c.In 45 192000) (h0 : 0 ≤ x.val) (h1 : x.val ≤ 45) :
    (x / c).In 0 1 ∧ |(x / c).val - x.val / c.val| ≤ 2 ^ (-25:ℤ) := by
  have hp : 0 < c.val := by linarith [hc.2.1]
  have a : 0 ≤ x.val / c.val := div_nonneg h0 hp.le
  have b : x.val / c.val ≤ 1 := by rw [div_le_one hp]; linarith [hc.2.1]
  refine ⟨div_in hx hc.1 hp.ne' rep_zero rep_one a b, ?_⟩
  have hv := (div_val hx hc.1 hp.ne' rep_zero rep_one a b).2
  have he := rnd_err_unit (x := x.val / c.val) (by rw [abs_le]; constructor <;> linarith)
  rw [hv, abs_sub_comm]
  exact he

theorem unit_div_mul {x c : F32} (hx : x.isFin = true) (hc : c.In 45 192000) (h0 : 0 ≤ x.val) (h1 : x.val ≤ 45) :
    x.val - 6 / 1000 ≤ (x / c).val * c.val ∧ (x / c).val * c.val ≤ x.val + 6 / 1000 := by
  obtain ⟨-, he⟩ := unit_div hx hc h0 h1
  have hp : 0 < c.val := by linarith [hc.2.1]
  have e : x.val = x.val / c.val * c.val := (div_mul_cancel₀ _ hp.ne').symm
  have h2 := abs_le.1 he
  have h25 : (2:ℚ) ^ (-25:ℤ) = 1 / 33554432 := by norm_num
  rw [h25] at h2
  have hle := hc.2.2
  constructor
  · nlinarith [mul_le_mul_of_nonneg_right h2.1 hp.le]
  · nlinarith [mul_le_mul_of_nonneg_right h2.2 hp.le]

theorem good_of_rate {sr : ℤ} (h1 : 45 ≤ sr) (h2 : sr < 2 ^ 31) {k : Consts F32} (hk : instanceConstants sr = some k) :
    Fits k ∧ Good k := by
  obtain ⟨k', e, K, e0, e1, e2, e3, e4, e5, e11⟩ := constants_fit (sr := sr) (by omega) h2
  rw [hk] at e
  cases e
  refine ⟨K, ?_⟩
  have hc : k.c0.In 45 192000 := by
    have h := c0_in (sr := sr) (by omega) h2
    rw [← e0] at h
    refine ⟨h.1, ?_, h.2.2⟩
    rw [e0]
    have hr : (Arith.ofInt sr : F32).In 45 (2 ^ 31) :=
      ofRat_in (by exact_mod_cast rep32_nat (n := 45) (by norm_num)) (rep_two_pow (by norm_num)) (by exact_mod_cast h1)
        (by exact_mod_cast h2.le)
    have hk : (lit 1.92e+05 : F32).In 192000 192000 := by
      have := lit_rep (f := binary32) (rep32_nat (n := 192000) (by norm_num))
      norm_num at this ⊢; exact this
    have ho := lit_one (f := binary32)
    have hm : Arith.stdMax (lit 1) (Arith.ofInt sr : F32) = Arith.ofInt sr := by
      unfold Arith.stdMax
      rw [if_pos]
      rw [lt_fin ho.1 hr.1, decide_eq_true_eq, ho.val_eq]
      linarith [hr.2.1]
    rw [hm]
    unfold Arith.stdMin
    split_ifs
    · exact hr.2.1
    · rw [hk.val_eq]; norm_num
  have l1 : (lit 44.1 : F32).isFin = true ∧ 44.09 ≤ (lit 44.1 : F32).val ∧ (lit 44.1 : F32).val ≤ 44.104 := by decide +kernel
  have l3 : (lit 6.2831855 : F32).isFin = true ∧ 0 ≤ (lit 6.2831855 : F32).val ∧ (lit 6.2831855 : F32).val ≤ 45 := by decide +kernel
  have l4 : (lit 0.441 : F32).isFin = true ∧ 0 ≤ (lit 0.441 : F32).val ∧ (lit 0.441 : F32).val ≤ 0.4411 := by decide +kernel
  have l5 : (lit 0.0441 : F32).isFin = true ∧ 0 ≤ (lit 0.0441 : F32).val ∧ (lit 0.0441 : F32).val ≤ 0.0442 := by decide +kernel
  have lo := lit_one (f := binary32)
  have hp : 0 < k.c0.val := by linarith [hc.2.1]
  have a1 := unit_div (x := lit 44.1) l1.1 hc (by linarith [l1.2.1]) (by linarith [l1.2.2])
  have b1 := unit_div_mul (x := lit 44.1) l1.1 hc (by linarith [l1.2.1]) (by linarith [l1.2.2])
  have a4 := unit_div (x := lit 0.441) l4.1 hc l4.2.1 (by linarith [l4.2.2])
  have b4 := unit_div_mul (x := lit 0.441) l4.1 hc l4.2.1 (by linarith [l4.2.2])
  have a5 := unit_div (x := lit 0.0441) l5.1 hc l5.2.1 (by linarith [l5.2.2])
  have b5 := unit_div_mul (x := lit 0.0441) l5.1 hc l5.2.1 (by linarith [l5.2.2])
  rw [← e1] at a1 b1
  rw [← e4] at a4 b4
  rw [← e5] at a5 b5
  have hs := one_sub_weight a1.1
  rw [← e2] at hs
  have h25 : (2:ℚ) ^ (-25:ℤ) = 1 / 33554432 := by norm_num
  refine ⟨hc, a1.1, by linarith [b1.2, l1.2.2], hs.1, ?_, ?_, a4.1, by linarith [b4.2, l4.2.2], a5.1, by linarith [b5.2, l5.2.2], ?_⟩
  · have h3 : k.c1.val - 1 / 33554432 ≤ 1 - k.c2.val := by have := hs.2; rw [h25] at this; linarith
    have h4 := mul_le_mul_of_nonneg_right h3 hp.le
    nlinarith [b1.1, l1.2.1, hc.2.2]
  · rw [e3]; exact (unit_div l3.1 hc l3.2.1 l3.2.2).1
  · rw [e11]
    refine div_in lo.1 hc.1 hp.ne' rep_zero (by decide +kernel) (by rw [lo.val_eq]; positivity) ?_
    rw [lo.val_eq]
    exact one_div_le_one_div_of_le (by norm_num) (by linarith [hc.2.1])

/-- `x' = s + fConst2 * x` stays in `[0, 8]` when the input is small enough relative to the sample rate. -/
theorem smooth_in {k : Consts F32} (K : Good k) {s x : F32} (hs : s.In 0 8) (hs' : s.val * k.c0.val ≤ 300) (hx : x.In 0 8) :
    (s + k.c2 * x).In 0 8 := by
  have hp : 0 < k.c0.val := by linarith [K.c0.2.1]
  obtain ⟨hm, hm0⟩ := weight_mul (k := 3) (w := k.c2) (x := x) (by norm_num) K.c2 (hx.mono (by norm_num) (by norm_num))
  have hm' : (k.c2 * x).In 0 (k.c2.val * 2 ^ 3) := ⟨hm.1, hm0 hx.2.1, hm.2.2⟩
  have r8 : binary32.Rep 8 false := by have := rep_two_pow (k := 3) (by norm_num); norm_num at this; exact this
  refine add_in (in_val hs.1) hm' rep_zero r8 (by linarith [hs.2.1]) ?_
  have h2 : s.val * k.c0.val ≤ (8 * (1 - k.c2.val)) * k.c0.val := by nlinarith [K.c2']
  have := le_of_mul_le_mul_right h2 hp
  linarith

/-- A product `c * p` as the input of a smoother. -/
theorem slow_in {k : Consts F32} (K : Good k) {c p : F32} (B : ℚ) (hc : c.In 0 1) (hp : p.In 0 B) (hB : c.val * B ≤ 8)
    (h : c.val * k.c0.val * B ≤ 290) : (c * p).In 0 8 ∧ (c * p).val * k.c0.val ≤ 300 := by
  have h0 : 0 < k.c0.val := by linarith [K.c0.2.1]
  have r8 : binary32.Rep 8 false := by have := rep_two_pow (k := 3) (by norm_num); norm_num at this; exact this
  have a : 0 ≤ c.val * p.val := mul_nonneg hc.2.1 hp.2.1
  have b' : c.val * p.val ≤ c.val * B := mul_le_mul_of_nonneg_left hp.2.2 hc.2.1
  have b : c.val * p.val ≤ 8 := b'.trans hB
  refine ⟨mul_in hc.1 hp.1 rep_zero r8 a b, ?_⟩
  have hv := (mul_val hc.1 hp.1 rep_zero r8 a b).2
  have he := binary32.rnd_err_of_lt (K := ℚ) (x := c.val * p.val) (k := 4) (by rw [abs_of_nonneg a]; norm_num; linarith) (by decide)
  simp only [Rat.cast_id] at he
  have h21 : (2:ℚ) ^ ((4:ℤ) - binary32.prec - 1) = 1 / 2097152 := by norm_num [binary32]
  rw [h21] at he
  rw [hv]
  have h3 := (abs_le.1 he).1
  have h4 : binary32.rnd (c.val * p.val) ≤ c.val * B + 1 / 2097152 := by linarith
  have h5 := mul_le_mul_of_nonneg_right h4 h0.le
  nlinarith [K.c0.2.2]

/-! ### Controls that reach a conversion -/

/-- The invariant of the control state. -/
structure Safe (c : Ctrl F32) : Prop where
  rec28 : c.rec28.In 0 8
  rec35 : c.rec35.In 0 1
  rec36 : c.rec36.In 0 8
  rec37 : c.rec37.In 0 8

section Defined
variable [Libm F32] [LibmSpec]

theorem table_in (n : ℤ) : (table (clampIndex n) : F32).In (-1) 1 := by
  refine LibmSpec.sin_range _ ?_
  have h0 : 0 ≤ clampIndex n := by unfold clampIndex; omega
  have h1 : clampIndex n ≤ 65535 := by unfold clampIndex; omega
  have hi : (Arith.ofInt (clampIndex n) : F32).In 0 (2 ^ 16) :=
    ofRat_in rep_zero (rep_two_pow (by norm_num)) (by exact_mod_cast h0) (by
      have : ((clampIndex n : ℤ) : ℚ) ≤ 65535 := by exact_mod_cast h1
      linarith)
  have hl : (lit 9.58738e-05 : F32).isFin = true ∧ 0 ≤ (lit 9.58738e-05 : F32).val ∧ (lit 9.58738e-05 : F32).val ≤ 1 := by decide +kernel
  exact (mul_in hl.1 hi.1 rep_zero (rep_two_pow (k := 16) (by norm_num)) (mul_nonneg hl.2.1 hi.2.1)
    (by nlinarith [hl.2.1, hl.2.2, hi.2.1, hi.2.2])).1

/-- Conversion of a number of moderate size. -/
theorem toI32_small {x : F32} (h : x.In (-2 ^ 24) (2 ^ 24)) :
    Arith.toI32? x = some (truncQ x.val) ∧ -2 ^ 24 ≤ truncQ x.val ∧ truncQ x.val ≤ 2 ^ 24 := by
  have hb : -2 ^ 24 ≤ truncQ x.val ∧ truncQ x.val ≤ 2 ^ 24 := by
    unfold truncQ
    split_ifs with h0
    · refine ⟨le_trans (by norm_num) (Int.floor_nonneg.2 h0), ?_⟩
      have := (Int.floor_le x.val).trans h.2.2
      exact_mod_cast this
    · push Not at h0
      refine ⟨?_, le_trans (Int.ceil_le.2 (by exact_mod_cast h0.le) : ⌈x.val⌉ ≤ 0) (by norm_num)⟩
      have := h.2.1.trans (Int.le_ceil x.val)
      exact_mod_cast this
  exact ⟨toI32_fin h.1 (by omega) (by omega), hb⟩

theorem fl_in {x c : F32} {B : ℚ} {j : ℕ} (hj : j ≤ 24) (hc : c.In 45 192000) (hx : x.In (-B) B) (h : 192000 * B ≤ 2 ^ j) :
    (c * x).In (-2 ^ 24) (2 ^ 24) := by
  have hB : 0 ≤ B := by linarith [hx.2.1, hx.2.2]
  have hle : (2:ℚ) ^ j ≤ 2 ^ 24 := pow_le_pow_right₀ (by norm_num) hj
  have hab : |c.val * x.val| ≤ 192000 * B := by
    rw [abs_mul, abs_of_nonneg (by linarith [hc.2.1])]
    exact mul_le_mul hc.2.2 (abs_le.2 ⟨hx.2.1, hx.2.2⟩) (abs_nonneg _) (by norm_num)
  have := abs_le.1 (hab.trans (h.trans hle))
  exact mul_in hc.1 hx.1 (Rep.neg (rep_two_pow (by norm_num))) (rep_two_pow (by norm_num)) this.1 this.2

theorem depth_in {c r t : F32} {q : ℚ} (hq : (lit q : F32).In 0 1) (hc : c.In 45 192000) (hr : r.In 0 8) (ht : t.In (-1) 1) :
    (c * (r * t + lit q)).In (-2 ^ 24) (2 ^ 24) := by
  have r8 : binary32.Rep 8 false := by have := rep_two_pow (k := 3) (by norm_num); norm_num at this; exact this
  have r16 : binary32.Rep 16 false := by have := rep_two_pow (k := 4) (by norm_num); norm_num at this; exact this
  have h1 : (r * t).In (-8) 8 := mul_in hr.1 ht.1 (Rep.neg r8) r8 (by nlinarith [hr.2.1, hr.2.2, ht.2.1]) (by nlinarith [hr.2.1, hr.2.2, ht.2.2])
  have h2 : (r * t + lit q).In (-16) 16 := add_in h1 hq (Rep.neg r16) r16 (by norm_num) (by norm_num)
  exact fl_in (j := 22) (by norm_num) hc h2 (by norm_num)

theorem ctrl_safe {k : Consts F32} (K : Good k) {p : Params F32} (P : InRange p) {c : Ctrl F32} (C : Safe c) :
    ∃ c' pre, ctrlStep k (slow k p) c = some (c', pre) ∧ Safe c' := by
  have h7 := slow_in K 300 K.c5 P.predelay (by nlinarith [K.c5', K.c0.2.1, K.c5.2.1]) (by nlinarith [K.c5'])
  have h9 := slow_in K 4 K.c1 P.modFrequency (by linarith [K.c1.2.2]) (by nlinarith [K.c1'])
  have h10 := slow_in K 10 K.c5 P.modDepth (by nlinarith [K.c5', K.c0.2.1, K.c5.2.1]) (by nlinarith [K.c5'])
  have s28 := smooth_in K h7.1 h7.2 C.rec28
  have s36 := smooth_in K h9.1 h9.2 C.rec36
  have s37 := smooth_in K h10.1 h10.2 C.rec37
  unfold ctrlStep slow
  dsimp only
  generalize k.c5 * p.predelay + k.c2 * c.rec28 = r28 at *
  generalize k.c1 * p.modFrequency + k.c2 * c.rec36 = r36 at *
  generalize k.c5 * p.modDepth + k.c2 * c.rec37 = r37 at *
  rw [(toI32_small (fl_in (j := 21) (B := 8) (by norm_num) K.c0 (s28.mono (by norm_num) le_rfl) (by norm_num))).1, Option.bind_some]
  -- the phase
  have hq : (lit 0.25 : F32).In 0.25 0.25 := by decide +kernel
  have r14 : binary32.Rep (1 / 4) false := by decide +kernel
  have r54 : binary32.Rep (5 / 4) false := by decide +kernel
  have r2 : binary32.Rep 2 false := by decide +kernel
  have hinc : (k.c11 * r36).In 0 (1 / 4) :=
    mul_in K.c11.1 s36.1 rep_zero r14 (mul_nonneg K.c11.2.1 s36.2.1) (by nlinarith [K.c11.2.1, K.c11.2.2, s36.2.1, s36.2.2])
  have ht9 : (c.rec35 + k.c11 * r36).In 0 (5 / 4) := add_in C.rec35 hinc rep_zero r54 (by norm_num) (by norm_num)
  generalize c.rec35 + k.c11 * r36 = t9 at *
  rw [(toI32_small (ht9.mono (by norm_num) (by norm_num))).1, Option.bind_some, truncQ_nonneg ht9.2.1]
  have whole : ∀ {x : F32}, x.In 0 (5 / 4) → (⌊x.val⌋ = 0 ∧ x.val ≤ 1) ∨ (⌊x.val⌋ = 1 ∧ 1 ≤ x.val) := by
    intro x hx
    by_cases h : x.val < 1
    · left
      exact ⟨Int.floor_eq_zero_iff.2 ⟨hx.2.1, h⟩, h.le⟩
    · right
      push Not at h
      refine ⟨?_, h⟩
      rw [Int.floor_eq_iff]
      constructor
      · exact_mod_cast h
      · push_cast; linarith [hx.2.2]
  have i0 : (Arith.ofInt 0 : F32).In 0 0 := by decide +kernel
  have i1 : (Arith.ofInt 1 : F32).In 1 1 := by decide +kernel
  have h35 : (t9 - Arith.ofInt ⌊t9.val⌋ : F32).In 0 1 := by
    rcases whole ht9 with ⟨e, h⟩ | ⟨e, h⟩
    · rw [e]; exact sub_in (in_val ht9.1) i0 rep_zero rep_one (by linarith [ht9.2.1]) (by linarith)
    · rw [e]; exact sub_in (in_val ht9.1) i1 rep_zero rep_one (by linarith) (by linarith [ht9.2.2])
  generalize (t9 - Arith.ofInt ⌊t9.val⌋ : F32) = r35 at *
  have hquart : (r35 + lit 0.25 : F32).In 0 (5 / 4) := add_in h35 hq rep_zero r54 (by norm_num) (by norm_num)
  rw [(toI32_small (hquart.mono (by norm_num) (by norm_num))).1, Option.bind_some, truncQ_nonneg hquart.2.1]
  have hrot : (lit 0.25 - Arith.ofInt ⌊(r35 + lit 0.25 : F32).val⌋ : F32).In (-1) 1 := by
    rcases whole hquart with ⟨e, -⟩ | ⟨e, -⟩
    · rw [e]; exact sub_in hq i0 (Rep.neg rep_one) rep_one (by norm_num) (by norm_num)
    · rw [e]; exact sub_in hq i1 (Rep.neg rep_one) rep_one (by norm_num) (by norm_num)
  have h655 : (lit 65536 : F32).In 65536 65536 := by decide +kernel
  have hsc : ∀ {x : F32}, x.In (-2) 2 → (lit 65536 * x : F32).In (-2 ^ 24) (2 ^ 24) := by
    intro x hx
    refine mul_in h655.1 hx.1 (Rep.neg (rep_two_pow (by norm_num))) (rep_two_pow (by norm_num)) ?_ ?_
    · rw [h655.val_eq]; nlinarith [hx.2.1]
    · rw [h655.val_eq]; nlinarith [hx.2.2]
  have hph : (r35 + (lit 0.25 - Arith.ofInt ⌊(r35 + lit 0.25 : F32).val⌋) : F32).In (-2) 2 :=
    add_in h35 hrot (Rep.neg r2) r2 (by norm_num) (by norm_num)
  rw [(toI32_small (hsc hph)).1, Option.bind_some]
  have q1 : (lit 0.030509727 : F32).In 0 1 := by decide +kernel
  have q2 : (lit 0.025603978 : F32).In 0 1 := by decide +kernel
  have d1 := toI32_small (depth_in q1 K.c0 s37 (table_in (truncQ (lit 65536 *
    (r35 + (lit 0.25 - Arith.ofInt ⌊(r35 + lit 0.25 : F32).val⌋)) : F32).val)))
  rw [d1.1, Option.bind_some, i32_some (by omega) (by omega), Option.bind_some]
  rw [(toI32_small (hsc (h35.mono (by norm_num) (by norm_num)))).1, Option.bind_some]
  have d2 := toI32_small (depth_in q2 K.c0 s37 (table_in (truncQ (lit 65536 * r35 : F32).val)))
  rw [d2.1, Option.bind_some, i32_some (by omega) (by omega), Option.bind_some]
  exact ⟨_, _, rfl, s28, h35, s36, s37⟩

theorem clear_safe {L : Type} (I : LineImpl L F32) : Safe (clear I).ctrl := by
  have h := lit_zero (f := binary32)
  exact ⟨h.mono le_rfl (by norm_num), h.mono le_rfl (by norm_num), h.mono le_rfl (by norm_num), h.mono le_rfl (by norm_num)⟩

/-! ### Rates from 23 to 44 Hz

There `fConst2` is negative: the smoothers overshoot and swing, but die out. -/

/-- What is used about the constants. -/
structure Low (k : Consts F32) : Prop where
  c0 : k.c0.In 23 44
  c1 : k.c1.In 0 (31 / 16)
  c2 : k.c2.In (-59 / 64) 0
  c5 : k.c5.In 0 (1 / 512)
  c11 : k.c11.In 0 (3 / 64)

theorem low_of_rate {sr : ℤ} (h1 : 23 ≤ sr) (h2 : sr < 45) {k : Consts F32} (hk : instanceConstants sr = some k) : Low k := by
  obtain ⟨k', e, -, e0, e1, e2, -, -, e5, e11⟩ := constants_fit (sr := sr) (by omega) (by omega)
  rw [hk] at e
  cases e
  have key : ∀ i : Fin 22, let c0 : F32 := Arith.stdMin (lit 1.92e+05) (Arith.stdMax (lit 1) (Arith.ofInt (23 + (i : ℕ) : ℤ)))
      c0.In 23 44 ∧ (lit 44.1 / c0).In 0 (31 / 16) ∧ (lit 1 - lit 44.1 / c0).In (-59 / 64) 0 ∧ (lit 0.0441 / c0).In 0 (1 / 512) ∧
        (lit 1 / c0).In 0 (3 / 64) := by decide +kernel
  have := key ⟨(sr - 23).toNat, by omega⟩
  have hsr : (23 + (((⟨(sr - 23).toNat, by omega⟩ : Fin 22) : ℕ) : ℤ)) = sr := by
    show 23 + ((sr - 23).toNat : ℤ) = sr
    omega
  rw [hsr] at this
  dsimp only at this
  rw [← e0, ← e1, ← e2, ← e5, ← e11] at this
  exact ⟨this.1, this.2.1, this.2.2.1, this.2.2.2.1, this.2.2.2.2⟩

/-- The invariant of the control state. -/
structure LowSafe (c : Ctrl F32) : Prop where
  rec28 : c.rec28.In (-128) 128
  rec35 : c.rec35.In (-1) 1
  rec36 : c.rec36.In (-128) 128
  rec37 : c.rec37.In (-128) 128

theorem smooth_low {k : Consts F32} (K : Low k) {s x : F32} (hs : s.In 0 8) (hx : x.In (-128) 128) : (s + k.c2 * x).In (-128) 128 := by
  have r118 : binary32.Rep 118 false := by decide +kernel
  have r128 : binary32.Rep 128 false := by decide +kernel
  have hab : |k.c2.val * x.val| ≤ 118 := by
    rw [abs_mul]
    have a : |k.c2.val| ≤ 59 / 64 := abs_le.2 ⟨by linarith [K.c2.2.1], by linarith [K.c2.2.2]⟩
    have b : |x.val| ≤ 128 := abs_le.2 ⟨hx.2.1, hx.2.2⟩
    calc |k.c2.val| * |x.val| ≤ 59 / 64 * 128 := mul_le_mul a b (abs_nonneg _) (by norm_num)
      _ = 118 := by norm_num
  have hm := mul_in K.c2.1 hx.1 (Rep.neg r118) r118 (abs_le.1 hab).1 (abs_le.1 hab).2
  exact add_in hs hm (Rep.neg r128) r128 (by norm_num) (by norm_num)

theorem slow_low {c p : F32} (A B : ℚ) (hc : c.In 0 A) (hp : p.In 0 B) (h : A * B ≤ 8) : (c * p).In 0 8 := by
  have r8 : binary32.Rep 8 false := by decide +kernel
  refine mul_in hc.1 hp.1 rep_zero r8 (mul_nonneg hc.2.1 hp.2.1) (le_trans ?_ h)
  exact mul_le_mul hc.2.2 hp.2.2 hp.2.1 (hc.2.1.trans hc.2.2)

/-- The fractional part left by a conversion to an integer. -/
theorem frac_low {x : F32} (hx : x.In (-8) 8) : (x - Arith.ofInt (truncQ x.val) : F32).In (-1) 1 := by
  have hb : -8 ≤ truncQ x.val ∧ truncQ x.val ≤ 8 ∧ -1 ≤ x.val - truncQ x.val ∧ x.val - truncQ x.val ≤ 1 := by
    unfold truncQ
    split_ifs with h0
    · have h1 := Int.floor_le x.val
      have h2 := Int.lt_floor_add_one x.val
      refine ⟨le_trans (by norm_num) (Int.floor_nonneg.2 h0), ?_, by linarith, by linarith⟩
      exact_mod_cast h1.trans hx.2.2
    · push Not at h0
      have h1 := Int.le_ceil x.val
      have h2 := Int.ceil_lt_add_one x.val
      refine ⟨?_, le_trans (Int.ceil_le.2 (by exact_mod_cast h0.le) : ⌈x.val⌉ ≤ 0) (by norm_num), by linarith, by linarith⟩
      exact_mod_cast hx.2.1.trans h1
  have hi : (Arith.ofInt (truncQ x.val) : F32).In (truncQ x.val) (truncQ x.val) := by
    have : ∀ i : Fin 17, (Arith.ofInt ((i : ℕ) - 8 : ℤ) : F32).In (((i : ℕ) : ℚ) - 8) (((i : ℕ) : ℚ) - 8) := by decide +kernel
    have h := this ⟨(truncQ x.val + 8).toNat, by omega⟩
    have e : (((truncQ x.val + 8).toNat : ℕ) : ℤ) = truncQ x.val + 8 := by omega
    have eq : (((truncQ x.val + 8).toNat : ℕ) : ℚ) = (truncQ x.val : ℚ) + 8 := by exact_mod_cast e
    simp only [e, eq, add_sub_cancel_right] at h
    exact h
  exact sub_in (in_val hx.1) hi (Rep.neg rep_one) rep_one hb.2.2.1 hb.2.2.2

theorem ctrl_low {k : Consts F32} (K : Low k) {p : Params F32} (P : InRange p) {c : Ctrl F32} (C : LowSafe c) :
    ∃ c' pre, ctrlStep k (slow k p) c = some (c', pre) ∧ LowSafe c' := by
  have s28 := smooth_low K (slow_low _ 300 K.c5 P.predelay (by norm_num)) C.rec28
  have s36 := smooth_low K (slow_low _ 4 K.c1 P.modFrequency (by norm_num)) C.rec36
  have s37 := smooth_low K (slow_low _ 10 K.c5 P.modDepth (by norm_num)) C.rec37
  have rp : ∀ {x : F32} {a b : ℚ}, x.In a b → -2 ^ 24 ≤ a → b ≤ 2 ^ 24 → Arith.toI32? x = some (truncQ x.val) :=
    fun h ha hb => (toI32_small (h.mono ha hb)).1
  have mulB : ∀ {x y : F32} (a b : ℚ), x.In (-a) a → y.In (-b) b → a * b ≤ 2 ^ 24 → (x * y).In (-2 ^ 24) (2 ^ 24) := by
    intro x y a b hx hy h
    have hab : |x.val * y.val| ≤ 2 ^ 24 := by
      rw [abs_mul]
      refine le_trans (mul_le_mul (abs_le.2 ⟨hx.2.1, hx.2.2⟩) (abs_le.2 ⟨hy.2.1, hy.2.2⟩) (abs_nonneg _) ?_) h
      linarith [hx.2.1, hx.2.2]
    exact mul_in hx.1 hy.1 (Rep.neg (rep_two_pow (by norm_num))) (rep_two_pow (by norm_num)) (abs_le.1 hab).1 (abs_le.1 hab).2
  have c0' : k.c0.In (-44) 44 := K.c0.mono (by norm_num) le_rfl
  unfold ctrlStep slow
  dsimp only
  generalize k.c5 * p.predelay + k.c2 * c.rec28 = r28 at *
  generalize k.c1 * p.modFrequency + k.c2 * c.rec36 = r36 at *
  generalize k.c5 * p.modDepth + k.c2 * c.rec37 = r37 at *
  rw [(toI32_small (mulB 44 128 c0' s28 (by norm_num))).1, Option.bind_some]
  -- the phase
  have r6 : binary32.Rep 6 false := by decide +kernel
  have r8 : binary32.Rep 8 false := by decide +kernel
  have r2 : binary32.Rep 2 false := by decide +kernel
  have r128 : binary32.Rep 128 false := by decide +kernel
  have hinc : (k.c11 * r36).In (-6) 6 := by
    have hab : |k.c11.val * r36.val| ≤ 6 := by
      rw [abs_mul, abs_of_nonneg K.c11.2.1]
      have b : |r36.val| ≤ 128 := abs_le.2 ⟨s36.2.1, s36.2.2⟩
      calc k.c11.val * |r36.val| ≤ 3 / 64 * 128 := mul_le_mul K.c11.2.2 b (abs_nonneg _) (by norm_num)
        _ = 6 := by norm_num
    exact mul_in K.c11.1 s36.1 (Rep.neg r6) r6 (abs_le.1 hab).1 (abs_le.1 hab).2
  have ht9 : (c.rec35 + k.c11 * r36).In (-8) 8 := add_in C.rec35 hinc (Rep.neg r8) r8 (by norm_num) (by norm_num)
  generalize c.rec35 + k.c11 * r36 = t9 at *
  rw [rp ht9 (by norm_num) (by norm_num), Option.bind_some]
  have h35 := frac_low ht9
  generalize (t9 - Arith.ofInt (truncQ t9.val) : F32) = r35 at *
  have hq : (lit 0.25 : F32).In 0.25 0.25 := by decide +kernel
  have hquart : (r35 + lit 0.25 : F32).In (-2) 2 := add_in h35 hq (Rep.neg r2) r2 (by norm_num) (by norm_num)
  rw [rp hquart (by norm_num) (by norm_num), Option.bind_some]
  have htr : -2 ≤ truncQ (r35 + lit 0.25 : F32).val ∧ truncQ (r35 + lit 0.25 : F32).val ≤ 2 := by
    unfold truncQ
    split_ifs with h0
    · exact ⟨le_trans (by norm_num) (Int.floor_nonneg.2 h0), by exact_mod_cast (Int.floor_le _).trans hquart.2.2⟩
    · push Not at h0
      exact ⟨by exact_mod_cast hquart.2.1.trans (Int.le_ceil _),
        le_trans (Int.ceil_le.2 (by exact_mod_cast h0.le) : ⌈_⌉ ≤ 0) (by norm_num)⟩
  have hrot : (lit 0.25 - Arith.ofInt (truncQ (r35 + lit 0.25 : F32).val) : F32).In (-6) 6 := by
    have hi : (Arith.ofInt (truncQ (r35 + lit 0.25 : F32).val) : F32).In (-2) 2 :=
      ofRat_in (Rep.neg r2) r2 (by exact_mod_cast htr.1) (by exact_mod_cast htr.2)
    exact sub_in hq hi (Rep.neg r6) r6 (by norm_num) (by norm_num)
  have hph := add_in h35 hrot (Rep.neg r8) r8 (by norm_num) (by norm_num)
  have h655 : (lit 65536 : F32).In (-65536) 65536 := by decide +kernel
  rw [(toI32_small (mulB 65536 8 h655 hph (by norm_num))).1, Option.bind_some]
  have deep : ∀ {t : F32} {q : ℚ}, (lit q : F32).In 0 1 → t.In (-1) 1 → (k.c0 * (r37 * t + lit q)).In (-2 ^ 24) (2 ^ 24) := by
    intro t q hq ht
    have hab : |r37.val * t.val| ≤ 128 := by
      rw [abs_mul]
      have := mul_le_mul (abs_le.2 ⟨s37.2.1, s37.2.2⟩ : |r37.val| ≤ 128) (abs_le.2 ⟨ht.2.1, ht.2.2⟩ : |t.val| ≤ 1) (abs_nonneg _)
        (by norm_num)
      linarith
    have h1 := mul_in s37.1 ht.1 (Rep.neg r128) r128 (abs_le.1 hab).1 (abs_le.1 hab).2
    have r256 : binary32.Rep 256 false := by decide +kernel
    exact mulB 44 256 c0' (add_in h1 hq (Rep.neg r256) r256 (by norm_num) (by norm_num)) (by norm_num)
  have q1 : (lit 0.030509727 : F32).In 0 1 := by decide +kernel
  have q2 : (lit 0.025603978 : F32).In 0 1 := by decide +kernel
  have d1 := toI32_small (deep q1 (table_in (truncQ (lit 65536 *
    (r35 + (lit 0.25 - Arith.ofInt (truncQ (r35 + lit 0.25 : F32).val))) : F32).val)))
  rw [d1.1, Option.bind_some, i32_some (by omega) (by omega), Option.bind_some]
  rw [(toI32_small (mulB 65536 1 h655 h35 (by norm_num))).1, Option.bind_some]
  have d2 := toI32_small (deep q2 (table_in (truncQ (lit 65536 * r35 : F32).val)))
  rw [d2.1, Option.bind_some, i32_some (by omega) (by omega), Option.bind_some]
  exact ⟨_, _, rfl, s28, h35, s36, s37⟩

theorem clear_low {L : Type} (I : LineImpl L F32) : LowSafe (clear I).ctrl := by
  have h := lit_zero (f := binary32)
  exact ⟨h.mono (by norm_num) (by norm_num), h.mono (by norm_num) (by norm_num), h.mono (by norm_num) (by norm_num),
    h.mono (by norm_num) (by norm_num)⟩

/-- The controls are in a state they cannot fail from. -/
def Calm (k : Consts F32) (c : Ctrl F32) : Prop := (Good k ∧ Safe c) ∨ (Low k ∧ LowSafe c)

theorem ctrl_calm {k : Consts F32} {p : Params F32} (P : InRange p) {c : Ctrl F32} (C : Calm k c) :
    ∃ c' pre, ctrlStep k (slow k p) c = some (c', pre) ∧ Calm k c' := by
  rcases C with ⟨K, C⟩ | ⟨K, C⟩
  · obtain ⟨c', pre, e, h⟩ := ctrl_safe K P C
    exact ⟨c', pre, e, Or.inl ⟨K, h⟩⟩
  · obtain ⟨c', pre, e, h⟩ := ctrl_low K P C
    exact ⟨c', pre, e, Or.inr ⟨K, h⟩⟩

theorem clear_calm {L : Type} (I : LineImpl L F32) {sr : ℤ} (h1 : 23 ≤ sr) (h2 : sr < 2 ^ 31) {k : Consts F32}
    (hk : instanceConstants sr = some k) : Calm k (clear I).ctrl := by
  by_cases h : 45 ≤ sr
  · exact Or.inl ⟨(good_of_rate h h2 hk).2, clear_safe I⟩
  · exact Or.inr ⟨low_of_rate h1 (by omega) hk, clear_low I⟩

/-- With ideal delays only the controls and the counter can fail. -/
theorem step_ideal {α : Type} [Arith α] [Libm α] {k : Consts α} {sl : Slow α} {s : State (ℤ → α) α} {c : Ctrl α} {pre : ℤ}
    (h : ctrlStep k sl s.ctrl = some (c, pre)) (h1 : 0 ≤ s.iota) (h2 : s.iota + 1 < 2 ^ 31) (x : Stereo α) :
    ∃ s' y, step ideal k sl s x = some (s', y) ∧ s'.ctrl = c ∧ s'.iota = s.iota + 1 := by
  unfold step
  rw [h]
  simp only [Option.bind_some, inputStep, tankStep, tap, allpass, ideal, Option.map_some, i32_some (show -2 ^ 31 ≤ s.iota + 1 by omega) h2]
  exact ⟨_, _, rfl, rfl, rfl⟩

theorem loop_safe {k : Consts F32} {p : Params F32} (P : InRange p) (xs : List (Stereo F32)) :
    ∀ {s : State (ℤ → F32) F32}, Calm k s.ctrl → 0 ≤ s.iota → s.iota + xs.length < 2 ^ 31 →
      ∃ s' ys, loop ideal k (slow k p) s xs = some (s', ys) ∧ Calm k s'.ctrl ∧ s'.iota = s.iota + xs.length := by
  induction xs with
  | nil => intro s S _ _; exact ⟨s, [], rfl, S, by simp⟩
  | cons x xs ih =>
    intro s S h0 h1
    simp only [List.length_cons, Nat.cast_add, Nat.cast_one] at h1
    obtain ⟨c, pre, hc, C⟩ := ctrl_calm P S
    obtain ⟨s1, y, e1, ec, ei⟩ := step_ideal hc h0 (by omega) x
    obtain ⟨s2, ys, e2, S2, ei2⟩ := ih (s := s1) (by rw [ec]; exact C) (by omega) (by omega)
    refine ⟨s2, y :: ys, by simp only [loop, e1, e2, Option.bind_some, Option.map_some], S2, ?_⟩
    rw [ei2, ei]
    simp only [List.length_cons]
    push_cast
    ring

theorem run_safe {k : Consts F32} (K : Calm k (clear ideal).ctrl) (es : List (Event F32)) :
    ∀ (n : ℕ) {s : State (ℤ → F32) F32}, Calm k s.ctrl → s.iota = n → Fine n es → (run ideal k s es).isSome := by
  induction es with
  | nil => intro n s _ _ _; rfl
  | cons e es ih =>
    intro n s S hn F
    cases e with
    | clear => exact ih 0 K rfl F
    | block p xs =>
      obtain ⟨P, hl, F'⟩ := F
      obtain ⟨s1, ys, e1, S1, i1⟩ := loop_safe P xs S (by omega) (by omega)
      have h := ih (n + xs.length) S1 (by rw [i1, hn]; push_cast; rfl) F'
      simp only [run, compute, e1, Option.bind_some, Option.isSome_map]
      exact h

/-! ### Theorems -/

/-- **C58**, the DSP object on its own. For every sample rate from 23 Hz up, parameters as the setters leave them for arguments that are not
NaN, all inputs (NaN and infinities included), any number of blocks of any length with fewer than `2^31` frames between resets: no integer
conversion, integer addition or array access of the reverb is undefined. -/
theorem C58_defined (sr : ℤ) (h1 : 23 ≤ sr) (h2 : sr < 2 ^ 31) (k : Consts F32) (hk : instanceConstants sr = some k)
    (events : List (Event F32)) (hf : Fine 0 events) : (run arrays k (clear arrays) events).isSome := by
  have K := clear_calm ideal h1 h2 hk
  have h := run_safe K events 0 K rfl hf
  have e := C48_lines sr (by omega) h2 k hk events
  cases ha : run arrays k (clear arrays) events with
  | some r => rfl
  | none =>
    rw [ha] at e
    cases hi : run ideal k (clear ideal) events with
    | none => rw [hi] at h; cases h
    | some r => rw [hi] at e; cases e

/-- The default parameters and a NaN in the input meet the hypotheses. -/
example : Fine 0 [.block resetUI [⟨.nan, lit 1⟩, ⟨lit 0.5, .inf true⟩], .clear, .block resetUI []] := by
  have h : InRange (resetUI : Params F32) := ⟨by decide +kernel, by decide +kernel, by decide +kernel⟩
  exact ⟨h, by norm_num, h, by norm_num, trivial⟩

end Defined

/-! ### Where it is undefined -/

section
variable {α L : Type} [Arith α] [Libm α]

theorem step_some {I : LineImpl L α} {k : Consts α} {sl : Slow α} {s s' : State L α} {x y : Stereo α}
    (h : step I k sl s x = some (s', y)) :
    (∃ pre, ctrlStep k sl s.ctrl = some (s'.ctrl, pre)) ∧ s'.iota = s.iota + 1 ∧ s.iota + 1 < 2 ^ 31 := by
  simp only [step, Option.bind_eq_some_iff, Option.map_eq_some_iff, Prod.exists] at h
  obtain ⟨c, pre, hc, _, _, -, _, -, _, -, _, _, -, _, -, _, -, _, -, _, -, n, hn, e⟩ := h
  obtain ⟨rfl, -, hlt⟩ := i32_eq_some hn
  cases e
  exact ⟨⟨pre, hc⟩, rfl, hlt⟩

theorem loop_count {I : LineImpl L α} {k : Consts α} {sl : Slow α} (xs : List (Stereo α)) :
    ∀ {s s' : State L α} {ys : List (Stereo α)}, loop I k sl s xs = some (s', ys) → s'.iota = s.iota + xs.length ∧
      (xs ≠ [] → s'.iota < 2 ^ 31) := by
  induction xs with
  | nil => intro s s' ys h; cases h; simp
  | cons x xs ih =>
    intro s s' ys h
    simp only [loop, Option.bind_eq_some_iff, Option.map_eq_some_iff, Prod.exists] at h
    obtain ⟨s1, y, h1, s2, zs, h2, e⟩ := h
    cases e
    obtain ⟨-, e1, e2⟩ := step_some h1
    obtain ⟨e3, e4⟩ := ih h2
    refine ⟨by rw [e3, e1]; simp only [List.length_cons]; push_cast; ring, fun _ => ?_⟩
    cases xs with
    | nil => simp only [List.length_nil, Nat.cast_zero, add_zero] at e3; omega
    | cons _ _ => exact e4 (by simp)

/-- **C58 negation**: whatever the arithmetic, the parameters, the sample rate and the input, processing `2^31` frames without a reset
(12.4 hours at 48 kHz) overflows the signed counter `IOTA0`. -/
theorem C58_counter_overflow (I : LineImpl L α) (k : Consts α) (p : Params α) (xs : List (Stereo α)) (h : 2 ^ 31 ≤ xs.length) :
    compute I k p (clear I) xs = none := by
  cases e : compute I k p (clear I) xs with
  | none => rfl
  | some r =>
    exfalso
    obtain ⟨s', ys⟩ := r
    obtain ⟨e1, e2⟩ := loop_count xs e
    have h3 := e2 (by rintro rfl; simp at h)
    have h0 : (clear I).iota = 0 := rfl
    rw [h0] at e1
    have : ((2:ℤ) ^ 31) ≤ xs.length := by exact_mod_cast h
    omega

end

variable [Libm F32]

theorem nan_mul_right (x : F32) : x * (nan : F32) = nan := by
  cases x <;> rfl

theorem nan_add_left (x : F32) : (nan : F32) + x = nan := by
  cases x <;> rfl

/-- **C58 negation**: a NaN predelay (which `setPredelay` lets through, see C49) makes the first frame of the next block convert NaN to
`int`, at every sample rate. -/
theorem C58_nan_predelay {L : Type} (I : LineImpl L F32) (k : Consts F32) (p : Params F32) (hp : p.predelay = .nan) (s : State L F32)
    (x : Stereo F32) (xs : List (Stereo F32)) : compute I k p s (x :: xs) = none := by
  have h : ctrlStep k (slow k p) s.ctrl = none := by
    unfold ctrlStep slow
    dsimp only
    rw [hp, nan_mul_right, nan_add_left, nan_mul_right]
    rfl
  simp only [compute, loop, step, h, Option.bind_none]

example : ({ (resetUI : Params F32) with predelay := .nan }).predelay = .nan := rfl

end Verif.FVerbDSP
