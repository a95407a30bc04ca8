import Verif.Props.KrajeskiFloat
import Verif.Props.RKLadder
import Mathlib.Analysis.Complex.ExponentialBounds

/-!
# C98: the Improved ladder is bounded in the arithmetic it is computed in

Each of its four stages integrates a difference of two `tanh` values.  In exact arithmetic `tanh` never reaches 1, so a stage driven at
full scale keeps creeping upwards; in double precision `tanh` is exactly 1 from 22 on, so the increment vanishes or changes sign there
and the stage is caught.
-/

namespace Verif
open FP

/-- Assumed of the double-precision `tanh`: beyond 22 (where the exact value differs from 1 by less than a tenth of the last place) the
result is exactly one. -/
class Tanh64Sat [Libm F64] : Prop where
  hi : ∀ x : F64, x.isFin = true → 22 ≤ x.val → (Libm.tanh x).val = 1
  lo : ∀ x : F64, x.isFin = true → x.val ≤ -22 → (Libm.tanh x).val = -1

/-- A number of the grid that is almost one is one. -/
theorem grid_near_one {v : ℚ} (h : binary64.Grid v) (h1 : v ≤ 1) (h0 : 1 - 1 / 2 ^ 55 ≤ v) : v = 1 := by
  have e54 : (2:ℚ) ^ (-53 + (binary64.prec : ℤ) - 1) ≤ |v| := by
    rw [abs_of_nonneg (by linarith)]
    have : (-53 + (binary64.prec : ℤ) - 1) = -1 := by decide
    rw [this]; norm_num at *; linarith
  obtain ⟨n, hn⟩ := h.mult e54
  have e : (2:ℚ) ^ (-53:ℤ) = 1 / 2 ^ 53 := by norm_num
  rw [e] at hn
  have u : n ≤ 2 ^ 53 := by
    have : (n:ℚ) ≤ 2 ^ 53 := by rw [hn] at h1; norm_num at *; linarith
    exact_mod_cast this
  have l : 2 ^ 53 - 1 < n := by
    have : ((2 ^ 53 - 1 : ℤ) : ℚ) < n := by rw [hn] at h0; push_cast; norm_num at *; linarith
    exact_mod_cast this
  have : n = 2 ^ 53 := by omega
  rw [hn, this]; norm_num

theorem tanh_22 {x : ℝ} (h : 22 ≤ x) : 1 - 1 / 2 ^ 59 ≤ Real.tanh x := by
  have e1 : (2:ℝ) ^ 60 ≤ Real.exp x * Real.exp x := by
    have h2 : (2.7:ℝ) ≤ Real.exp 1 := by linarith [Real.exp_one_gt_d9]
    have h3 : Real.exp 1 ^ 44 ≤ Real.exp x * Real.exp x := by
      rw [← Real.exp_nat_mul, ← Real.exp_add]
      exact Real.exp_le_exp.2 (by norm_num; linarith)
    refine le_trans ?_ h3
    calc (2:ℝ) ^ 60 ≤ 2.7 ^ 44 := by norm_num
      _ ≤ _ := pow_le_pow_left₀ (by norm_num) h2 44
  rw [Real.tanh_eq_sinh_div_cosh, Real.sinh_eq, Real.cosh_eq, Real.exp_neg]
  have p := Real.exp_pos x
  have q : 0 < Real.exp x + (Real.exp x)⁻¹ := by positivity
  have eq : (Real.exp x - (Real.exp x)⁻¹) / 2 / ((Real.exp x + (Real.exp x)⁻¹) / 2) = 1 - 2 / (Real.exp x * Real.exp x + 1) := by
    have : Real.exp x * Real.exp x + 1 ≠ 0 := by positivity
    field_simp
    ring
  rw [eq]
  have : 2 / (Real.exp x * Real.exp x + 1) ≤ 1 / 2 ^ 59 := by
    rw [div_le_div_iff₀ (by positivity) (by positivity)]
    nlinarith
  linarith

theorem tanh64_round {x : ℝ} (h : 22 ≤ x) (zs : Bool) : (ofK (Real.tanh x) zs : F64).val = 1 := by
  have t0 := tanh_22 h
  have t1 := (Real.tanh_lt_one x).le
  have h' := ofK_in (f := binary64) (x := Real.tanh x) (zs := zs) rep_zero rep_one (by push_cast; norm_num at *; linarith) (by simpa using t1)
  rw [h'.2.1]
  have n := binary64.rnd_nearest (Real.tanh x) (g := 1) binary64.grid_one
  refine grid_near_one (binary64.grid_rnd _) h'.2.2.2 ?_
  rw [← Rat.cast_le (K := ℝ)]
  push_cast at *
  rw [abs_sub_comm (Real.tanh x) 1, abs_of_nonneg (by linarith : (0:ℝ) ≤ 1 - Real.tanh x)] at n
  have n1 := (abs_le.1 n).2
  norm_num at *
  linarith

theorem tanh64_round_neg {x : ℝ} (h : x ≤ -22) (zs : Bool) : (ofK (Real.tanh x) zs : F64).val = -1 := by
  have t0 := tanh_22 (x := -x) (by linarith)
  rw [Real.tanh_neg] at t0
  have t1 := (Real.neg_one_lt_tanh x).le
  have h' := ofK_in (f := binary64) (x := Real.tanh x) (zs := zs) (Rep.neg rep_one) rep_zero (by push_cast; simpa using t1)
    (by push_cast; norm_num at *; linarith)
  rw [h'.2.1]
  have n := binary64.rnd_nearest (Real.tanh x) (g := -1) binary64.grid_one.neg
  have := grid_near_one (binary64.grid_rnd (Real.tanh x)).neg (by linarith [h'.2.2.1]) ?_
  · linarith
  rw [← Rat.cast_le (K := ℝ)]
  push_cast at *
  rw [abs_of_nonneg (by linarith : (0:ℝ) ≤ Real.tanh x - -1)] at n
  have n1 := (abs_le.1 n).1
  norm_num at *
  linarith

theorem idealLibm64_tanh : @Tanh64Sat idealLibm64 := by
  refine @Tanh64Sat.mk idealLibm64 ?_ ?_
  · intro x hf h
    obtain ⟨v, nz, hv, rfl⟩ := isFin_cases hf
    have h' : (22:ℚ) ≤ v := h
    exact tanh64_round (by exact_mod_cast h') false
  · intro x hf h
    obtain ⟨v, nz, hv, rfl⟩ := isFin_cases hf
    have h' : v ≤ (-22:ℚ) := h
    exact tanh64_round_neg (by exact_mod_cast h') false

namespace Improved

/-! ### One stage -/

/-- One stage: its level, its last increment and the `tanh` of the level. Above 14 the `tanh` is saturated; above 16.5 the last increment
cannot have been upwards; and the level never passes 17.75. Likewise below. -/
structure Stage (sr : ℚ) (V dV tV : F64) : Prop where
  v : V.In (-17.75) 17.75
  d : dV.In (-(2.5 * sr)) (2.5 * sr)
  t : tV.In (-1) 1
  up : 16.5 < V.val → dV.val ≤ 0
  down : V.val < -16.5 → 0 ≤ dV.val
  hi : 14 ≤ V.val → tV.val = 1
  lo : V.val ≤ -14 → tV.val = -1

theorem stage_zero {sr : ℚ} (h : 0 < sr) : Stage sr (lit 0) (lit 0) (lit 0) := by
  have e : (lit 0 : F64).val = 0 := lit_zero.val_eq
  exact ⟨lit_zero.mono (by norm_num) (by norm_num), lit_zero.mono (by norm_num; exact h.le) (by norm_num; exact h.le),
    lit_zero.mono (by norm_num) (by norm_num), fun _ => e.le, fun _ => e.ge, fun h => by rw [e] at h; norm_num at h,
    fun h => by rw [e] at h; norm_num at h⟩

/-- The sample rate as the tick uses it. -/
structure Rate (sr : ℚ) (sr2 : F64) : Prop where
  pos : 0 < sr
  eq : sr2.In (2 * sr) (2 * sr)
  rep : binary64.Rep (2.5 * sr) false
  rep2 : binary64.Rep (5 * sr) false

theorem stage_next [Libm F64] [Libm64Spec] [Tanh64Sat] {sr : ℚ} {sr2 V dV tV dN : F64} (R : Rate sr sr2) (h : Stage sr V dV tV)
    (hd : dN.In (-(2.5 * sr)) (2.5 * sr)) (h1 : tV.val = 1 → dN.val ≤ 0) (h2 : tV.val = -1 → 0 ≤ dN.val) :
    Stage sr (V + (dN + dV) / sr2) dN (Libm.tanh ((V + (dN + dV) / sr2) / (lit 2 * VT))) := by
  have p := R.pos
  have hne : sr2.val ≠ 0 := by rw [R.eq.val_eq]; positivity
  have r5 := R.rep2
  have hs : (dN + dV).In (-(5 * sr)) (5 * sr) := add_in hd h.d (Rep.neg r5) r5 (by norm_num; linarith) (by norm_num; linarith)
  -- the sum of the two increments, with a bound on either side if their signs are known
  have q : ∀ l u : ℚ, binary64.Rep l false → binary64.Rep u false → binary64.Rep (2 * l * sr) false → binary64.Rep (2 * u * sr) false →
      2 * l * sr ≤ dN.val + dV.val → dN.val + dV.val ≤ 2 * u * sr → ((dN + dV) / sr2).In l u := by
    intro l u Rl Ru Rl' Ru' hl hu
    have hsum : (dN + dV).In (2 * l * sr) (2 * u * sr) := add_in (in_val hd.1) (in_val h.d.1) Rl' Ru' hl hu
    refine div_in hsum.1 R.eq.1 hne Rl Ru ?_ ?_ <;> rw [R.eq.val_eq]
    · rw [le_div_iff₀ (by positivity)]; linarith [hsum.2.1]
    · rw [div_le_iff₀ (by positivity)]; linarith [hsum.2.2]
  have rr : binary64.Rep 1.25 false ∧ binary64.Rep (-1.25) false ∧ binary64.Rep 2.5 false ∧ binary64.Rep (-2.5) false ∧
    binary64.Rep 17.75 false ∧ binary64.Rep (-17.75) false ∧ binary64.Rep 16.5 false ∧ binary64.Rep (-16.5) false ∧
    binary64.Rep 20.25 false ∧ binary64.Rep (-20.25) false := by decide +kernel
  obtain ⟨ra, ra', rb, rb', rc, rc', re, re', rf, rf'⟩ := rr
  have D1 := hd.2.1
  have D2 := hd.2.2
  have D3 := h.d.2.1
  have D4 := h.d.2.2
  have S5 : binary64.Rep (2 * 2.5 * sr) false := by have e : 2 * (2.5:ℚ) * sr = 5 * sr := by ring
                                                    rw [e]; exact r5
  have S5' : binary64.Rep (2 * -2.5 * sr) false := by have e : 2 * (-2.5:ℚ) * sr = -(5 * sr) := by ring
                                                      rw [e]; exact Rep.neg r5
  have S2 : binary64.Rep (2 * 1.25 * sr) false := by have e : 2 * (1.25:ℚ) * sr = 2.5 * sr := by ring
                                                     rw [e]; exact R.rep
  have S2' : binary64.Rep (2 * -1.25 * sr) false := by have e : 2 * (-1.25:ℚ) * sr = -(2.5 * sr) := by ring
                                                       rw [e]; exact Rep.neg R.rep
  have S0 : binary64.Rep (2 * 0 * sr) false := by rw [mul_zero, zero_mul]; exact rep_zero
  have qa := q (-2.5) 2.5 rb' rb S5' S5 (by linarith) (by linarith)
  have qb : dN.val ≤ 0 → ((dN + dV) / sr2).val ≤ 1.25 := fun hh =>
    (q (-2.5) 1.25 rb' ra S5' S2 (by linarith) (by linarith)).2.2
  have qc : dN.val ≤ 0 → dV.val ≤ 0 → ((dN + dV) / sr2).val ≤ 0 := fun hh hh' =>
    (q (-2.5) 0 rb' rep_zero S5' S0 (by linarith) (by linarith)).2.2
  have qd : 0 ≤ dN.val → -1.25 ≤ ((dN + dV) / sr2).val := fun hh =>
    (q (-1.25) 2.5 ra' rb S2' S5 (by linarith) (by linarith)).2.1
  have qe : 0 ≤ dN.val → 0 ≤ dV.val → 0 ≤ ((dN + dV) / sr2).val := fun hh hh' =>
    (q 0 2.5 rep_zero rb S0 S5 (by linarith) (by linarith)).2.1
  have V1 := h.v.2.1
  have V2 := h.v.2.2
  generalize (dN + dV) / sr2 = Q at *
  have Q1 := qa.2.1
  have Q2 := qa.2.2
  have k0 : (V + Q).In (-20.25) 20.25 := add_in h.v qa rf' rf (by norm_num) (by norm_num)
  have kU : ∀ u, binary64.Rep u false → V.val + Q.val ≤ u → (V + Q).val ≤ u := fun u hu hh =>
    (add_in (in_val h.v.1) (in_val qa.1) rf' hu (by norm_num at *; linarith) hh).2.2
  have kL : ∀ u, binary64.Rep u false → u ≤ V.val + Q.val → u ≤ (V + Q).val := fun u hu hh =>
    (add_in (in_val h.v.1) (in_val qa.1) hu rf hh (by norm_num at *; linarith)).2.1
  have top : (V + Q).val ≤ 17.75 ∧ (16.5 < (V + Q).val → dN.val ≤ 0) := by
    rcases lt_or_ge V.val 14 with hV | hV
    · have := kU 16.5 re (by norm_num at *; linarith)
      exact ⟨this.trans (by norm_num), fun hh => absurd this (not_le.2 hh)⟩
    · have t := h1 (h.hi hV)
      refine ⟨?_, fun _ => t⟩
      rcases le_or_gt V.val 16.5 with hX | hX
      · have := qb t
        exact kU _ rc (by norm_num at *; linarith)
      · have := qc t (h.up hX)
        exact kU _ rc (by norm_num at *; linarith)
  have bot : -17.75 ≤ (V + Q).val ∧ ((V + Q).val < -16.5 → 0 ≤ dN.val) := by
    rcases lt_or_ge (-14) V.val with hV | hV
    · have := kL (-16.5) re' (by norm_num at *; linarith)
      exact ⟨le_trans (by norm_num) this, fun hh => absurd this (not_le.2 hh)⟩
    · have t := h2 (h.lo hV)
      refine ⟨?_, fun _ => t⟩
      rcases le_or_gt (-16.5) V.val with hX | hX
      · have := qd t
        exact kL _ rc' (by norm_num at *; linarith)
      · have := qe t (h.down hX)
        exact kL _ rc' (by norm_num at *; linarith)
  have hden : (lit 2 * VT : F64).In 0.62 0.625 := by decide +kernel
  generalize V + Q = W at *
  have d0 : 0 < (lit 2 * VT : F64).val := lt_of_lt_of_le (by norm_num) hden.2.1
  generalize (lit 2 * VT : F64) = T at *
  have r64 : binary64.Rep 64 false ∧ binary64.Rep (-64) false ∧ binary64.Rep 22 false ∧ binary64.Rep (-22) false := by decide +kernel
  have H1 := hden.2.1
  have H2 := hden.2.2
  have K1 := k0.2.1
  have K2 := k0.2.2
  norm_num at H1 H2 K1 K2
  have bl : -64 ≤ W.val / T.val := by rw [le_div_iff₀ d0]; linarith
  have bu : W.val / T.val ≤ 64 := by rw [div_le_iff₀ d0]; linarith
  have w0 : (W / T).In (-64) 64 := div_in k0.1 hden.1 d0.ne' r64.2.1 r64.1 bl bu
  have wne : W / T ≠ nan := by intro e; rw [e] at w0; exact absurd w0.1 (by simp)
  refine ⟨⟨k0.1, bot.1, top.1⟩, hd, Libm64Spec.tanh_range _ wne, top.2, bot.2, fun hh => ?_, fun hh => ?_⟩
  · refine Tanh64Sat.hi _ w0.1 (div_in k0.1 hden.1 d0.ne' r64.2.2.1 r64.1 ?_ bu).2.1
    rw [le_div_iff₀ d0]; linarith
  · refine Tanh64Sat.lo _ w0.1 (div_in k0.1 hden.1 d0.ne' r64.2.1 r64.2.2.2 bl ?_).2.2
    rw [div_le_iff₀ d0]; linarith

/-- The increment of a stage: the coefficient times a difference of `tanh` values. -/
theorem increment {sr : ℚ} {g a b : F64} (hr : binary64.Rep (2.5 * sr) false) (hg : g.In 0 (1.25 * sr)) (ha : a.In (-1) 1) (hb : b.In (-1) 1) :
    (g * (a - b)).In (-(2.5 * sr)) (2.5 * sr) ∧ (b.val = 1 → (g * (a - b)).val ≤ 0) ∧ (b.val = -1 → 0 ≤ (g * (a - b)).val) := by
  have r2 : binary64.Rep 2 false ∧ binary64.Rep (-2) false := by decide +kernel
  have hab : (a - b).In (-2) 2 := sub_in ha hb r2.2 r2.1 (by norm_num) (by norm_num)
  have g0 := hg.2.1
  have g1 := hg.2.2
  have l : -(2.5 * sr) ≤ g.val * (a - b).val := by norm_num at *; nlinarith [hab.2.1]
  have u : g.val * (a - b).val ≤ 2.5 * sr := by norm_num at *; nlinarith [hab.2.2]
  refine ⟨mul_in hg.1 hab.1 (Rep.neg hr) hr l u, fun e => ?_, fun e => ?_⟩
  · have : (a - b).In (-2) 0 := sub_in ha (in_val hb.1) r2.2 rep_zero (by rw [e]; norm_num) (by rw [e]; norm_num)
    exact (mul_in hg.1 hab.1 (Rep.neg hr) rep_zero l (mul_nonpos_of_nonneg_of_nonpos g0 this.2.2)).2.2
  · have : (a - b).In 0 2 := sub_in ha (in_val hb.1) rep_zero r2.1 (by rw [e]; norm_num) (by rw [e]; norm_num)
    exact (mul_in hg.1 hab.1 rep_zero hr (mul_nonneg g0 this.2.1) u).2.1

/-- The first stage subtracts a sum instead. -/
theorem increment0 {sr : ℚ} {g a b : F64} (hr : binary64.Rep (2.5 * sr) false) (hg : g.In 0 (1.25 * sr)) (ha : a.In (-1) 1) (hb : b.In (-1) 1) :
    (-g * (a + b)).In (-(2.5 * sr)) (2.5 * sr) ∧ (b.val = 1 → (-g * (a + b)).val ≤ 0) ∧ (b.val = -1 → 0 ≤ (-g * (a + b)).val) := by
  have r2 : binary64.Rep 2 false ∧ binary64.Rep (-2) false := by decide +kernel
  have hab : (a + b).In (-2) 2 := add_in ha hb r2.2 r2.1 (by norm_num) (by norm_num)
  have hn := isFin_neg hg.1
  have vn := val_neg g
  have g0 := hg.2.1
  have g1 := hg.2.2
  have l : -(2.5 * sr) ≤ (-g).val * (a + b).val := by rw [vn]; norm_num at *; nlinarith [hab.2.2]
  have u : (-g).val * (a + b).val ≤ 2.5 * sr := by rw [vn]; norm_num at *; nlinarith [hab.2.1]
  refine ⟨mul_in hn hab.1 (Rep.neg hr) hr l u, fun e => ?_, fun e => ?_⟩
  · have : (a + b).In 0 2 := add_in ha (in_val hb.1) rep_zero r2.1 (by rw [e]; norm_num) (by rw [e]; norm_num)
    refine (mul_in hn hab.1 (Rep.neg hr) rep_zero l ?_).2.2
    rw [vn]; nlinarith [this.2.1]
  · have : (a + b).In (-2) 0 := add_in ha (in_val hb.1) r2.2 rep_zero (by rw [e]; norm_num) (by rw [e]; norm_num)
    refine (mul_in hn hab.1 rep_zero hr ?_ u).2.1
    rw [vn]; nlinarith [this.2.2]

/-! ### The coefficient -/

/-- One single-precision rounding from above. -/
theorem up32 {q : ℚ} (zs : Bool) (h0 : 0 ≤ q) (h : q ≤ 2 ^ 100) : (ofRat q zs : F32).In 0 (q * (1 + 1 / 2 ^ 20) + 1 / 2 ^ 100) := by
  have R : binary32.Rep (2 ^ 100) false := rep_two_pow (by norm_num)
  have hin := ofRat_in (f := binary32) (zs := zs) rep_zero R h0 h
  have hv := ofRat_val (f := binary32) (zs := zs) rep_zero R h0 h
  refine ⟨hin.1, hin.2.1, ?_⟩
  have h2 := binary32.rnd_rel_err (K := ℚ) q
  simp only [Rat.cast_id] at h2
  rw [← hv, abs_of_nonneg h0] at h2
  have h3 := (abs_le.1 h2).1
  have e1 : (2:ℚ) ^ (-(binary32.prec : ℤ)) ≤ 1 / 2 ^ 20 := by
    have e : (1:ℚ) / 2 ^ 20 = 2 ^ (-20 : ℤ) := by norm_num
    rw [e]; exact zpow_le_zpow_right₀ (by norm_num) (by decide)
  have e2 : (2:ℚ) ^ (binary32.emin - 1) ≤ 1 / 2 ^ 100 := by
    have e : (1:ℚ) / 2 ^ 100 = 2 ^ (-100 : ℤ) := by norm_num
    rw [e]; exact zpow_le_zpow_right₀ (by norm_num) (by decide)
  have e3 := mul_le_mul_of_nonneg_left e1 h0
  generalize (2:ℚ) ^ (-(binary32.prec : ℤ)) = A at *
  generalize (2:ℚ) ^ (binary32.emin - 1) = B at *
  linarith

/-- Five times a single-precision number is a double-precision number, and so is a quarter of that. -/
theorem rep_five {v : ℚ} (h : binary32.Rep v false) (k : ℕ) (hk : k ≤ 4) : binary64.Rep (5 * v / 2 ^ k) false := by
  obtain ⟨⟨m, e, hm, he, hv⟩, h2, -⟩ := h
  refine ⟨⟨5 * m, e - k, ?_, ?_, ?_⟩, ?_, by simp⟩
  · have h24 : |m| < 2 ^ 24 := hm
    rw [abs_mul]
    show |(5:ℤ)| * |m| < 2 ^ 53
    norm_num at *
    omega
  · have : (-149:ℤ) ≤ e := he
    show (-1074:ℤ) ≤ e - k
    omega
  · rw [hv, zpow_sub₀ (by norm_num)]
    push_cast
    rw [zpow_natCast]
    ring
  · have hp : (1:ℚ) ≤ 2 ^ k := one_le_pow₀ (by norm_num)
    rw [abs_div, abs_mul, abs_of_pos (by norm_num : (0:ℚ) < 5), abs_of_pos (by positivity : (0:ℚ) < 2 ^ k)]
    have h128 : |v| < 2 ^ (128:ℤ) := h2
    calc 5 * |v| / 2 ^ k ≤ 5 * |v| := div_le_self (by positivity) hp
      _ < 2 ^ (131:ℤ) := by norm_num at *; linarith
      _ ≤ 2 ^ (1024:ℤ) := zpow_le_zpow_right₀ (by norm_num) (by norm_num)

/-- The cutoff after clamping, and the normalised angle. -/
theorem cutoff_in {sr c : F32} (hs : sr.In 1 (2 ^ 24)) (hc : c ≠ nan) :
    (clamp c (lit 0) (sr / PI * lit 0.99)).In 0 (0.3153 * sr.val) ∧ (PI * clamp c (lit 0) (sr / PI * lit 0.99) / sr).In 0 1 := by
  have hPI : (PI : F32).In 3.1415 3.1416 := by decide +kernel
  have h99 : (lit 0.99 : F32).In 0.98 0.9901 := by decide +kernel
  have s0 : 0 < sr.val := by linarith [hs.2.1]
  have s1 := hs.2.1
  have s2 := hs.2.2
  have p1 := hPI.2.1
  have p2 := hPI.2.2
  have p0 : 0 < (PI : F32).val := by norm_num at p1; linarith
  have h1 := h99.2.1
  have h2 := h99.2.2
  norm_num at p1 p2 h1 h2 s2
  have a0 : 0 ≤ sr.val / (PI : F32).val := by positivity
  have a1 : sr.val / (PI : F32).val ≤ 0.31832 * sr.val := by
    rw [div_le_iff₀ p0]; norm_num; nlinarith
  have hd : (sr / PI).In 0 (0.31833 * sr.val) := by
    obtain ⟨zs, e⟩ := div_def hs.1 hPI.1 p0.ne'
    rw [e]
    exact (up32 zs a0 (by norm_num at *; linarith)).mono le_rfl (by norm_num at *; linarith)
  have d0 := hd.2.1
  have d1 := hd.2.2
  have hm : (sr / PI * lit 0.99).In 0 (0.3152 * sr.val) := by
    obtain ⟨zs, e⟩ := mul_def hd.1 h99.1
    have b0 : 0 ≤ (sr / PI).val * (lit 0.99 : F32).val := mul_nonneg d0 (by linarith)
    have b1 : (sr / PI).val * (lit 0.99 : F32).val ≤ 0.31519 * sr.val := by
      have : (sr / PI).val * (lit 0.99 : F32).val ≤ (0.31833 * sr.val) * 0.9901 :=
        mul_le_mul d1 (by norm_num; linarith) (by linarith) (by positivity)
      norm_num at *; linarith
    rw [e]
    exact (up32 zs b0 (by norm_num at *; linarith)).mono le_rfl (by norm_num at *; linarith)
  have hcl := (clamp_in hc lit_zero (in_val hm.1) hm.2.1).mono le_rfl hm.2.2
  generalize clamp c (lit 0) (sr / PI * lit 0.99) = k at *
  refine ⟨hcl.mono le_rfl (by norm_num at *; linarith), ?_⟩
  have k0 := hcl.2.1
  have k1 := hcl.2.2
  have hpk : (PI * k).In 0 sr.val := by
    refine mul_in hPI.1 hcl.1 rep_zero (rep_val _) (mul_nonneg p0.le k0) ?_
    have : (PI : F32).val * k.val ≤ 3.1416 * (0.3152 * sr.val) := mul_le_mul (by norm_num; linarith) k1 k0 (by norm_num)
    norm_num at *; linarith
  refine div_in hpk.1 hs.1 s0.ne' rep_zero rep_one (div_nonneg hpk.2.1 s0.le) ?_
  rw [div_le_one s0]
  exact hpk.2.2

/-- The coefficient of the stages. -/
theorem g_in {sr c x : F32} (hs : sr.In 1 (2 ^ 24)) (hc : c.In 0 (0.3153 * sr.val)) (hx : x.In 0 1) :
    (lit 4 * Conv.conv (PI : F32) * VT * Conv.conv c * (lit 1 - Conv.conv x) / (lit 1 + Conv.conv x) : F64).In 0 (1.25 * sr.val) := by
  have hp : (lit 4 * Conv.conv (PI : F32) * VT : F64).In 3.9 3.921 := by decide +kernel
  have hcu := conv_up hc.1
  have hxu := conv_up hx.1
  generalize (lit 4 * Conv.conv (PI : F32) * VT : F64) = P at *
  have hC : (Conv.conv c : F64).In 0 (0.3153 * sr.val) := ⟨hcu.1, by rw [hcu.val_eq]; exact hc.2.1, by rw [hcu.val_eq]; exact hc.2.2⟩
  have hX : (Conv.conv x : F64).In 0 1 := ⟨hxu.1, by rw [hxu.val_eq]; exact hx.2.1, by rw [hxu.val_eq]; exact hx.2.2⟩
  generalize (Conv.conv c : F64) = C at *
  generalize (Conv.conv x : F64) = X at *
  have R : binary64.Rep (1.25 * sr.val) false := by
    have e : 1.25 * sr.val = 5 * sr.val / 2 ^ 2 := by ring
    rw [e]; exact rep_five (rep_val sr) 2 (by norm_num)
  have s0 := hs.2.1
  have p1 := hp.2.1
  have p2 := hp.2.2
  norm_num at p1 p2
  have c0 := hC.2.1
  have c1 := hC.2.2
  have hPC : (P * C).In 0 (1.25 * sr.val) := by
    refine mul_in hp.1 hC.1 rep_zero R (mul_nonneg (by linarith) c0) ?_
    have : P.val * C.val ≤ 3.921 * (0.3153 * sr.val) := mul_le_mul (by norm_num; linarith) c1 c0 (by norm_num)
    norm_num at *; linarith
  have h1X : (lit 1 - X).In 0 1 := sub_in lit_one hX rep_zero rep_one (by norm_num) (by norm_num)
  have h2X : (lit 1 + X).In 1 2 := add_in lit_one hX rep_one (by decide +kernel) (by norm_num) (by norm_num)
  have hq : (P * C * (lit 1 - X)).In 0 (1.25 * sr.val) := by
    refine mul_in hPC.1 h1X.1 rep_zero R (mul_nonneg hPC.2.1 h1X.2.1) ?_
    nlinarith [hPC.2.1, hPC.2.2, h1X.2.1, h1X.2.2]
  have d0 : 0 < (lit 1 + X).val := by linarith [h2X.2.1]
  refine div_in hq.1 h2X.1 d0.ne' rep_zero R (div_nonneg hq.2.1 d0.le) ?_
  rw [div_le_iff₀ d0]
  nlinarith [hq.2.2, h2X.2.1]

/-! ### The whole ladder -/

/-- The calls a program can make of an `ImprovedMoogLadder` after `init`. -/
inductive Op (α : Type) where
  | setCutoff (c : α)
  | setResonance (r : α)
  | setDrive (d : α)
  | reset
  | tick (x : α)

/-- Makes the calls in turn and collects the samples the ticks return. -/
def play {α β : Type} [Arith α] [Arith β] [Libm β] [Conv α β] [Conv β α] : Ladder α β → List (Op α) → List α
  | _, [] => []
  | s, .setCutoff c :: l => play (setCutoff c s) l
  | s, .setResonance r :: l => play (setResonance r s) l
  | s, .setDrive d :: l => play (setDrive d s) l
  | s, .reset :: l => play (reset s) l
  | s, .tick x :: l => (tick s x).2 :: play (tick s x).1 l

/-- Calls with finite inputs and drives, and cutoffs and resonances that are not NaN. -/
def Usable : Op F32 → Prop
  | .setCutoff c => c ≠ nan
  | .setResonance r => r ≠ nan
  | .setDrive d => d.isFin = true
  | .reset => True
  | .tick x => x.isFin = true

/-- The invariant. -/
structure FBdd (sr : F32) (s : Ladder F32 F64) : Prop where
  rate : s.sampleRate = sr
  res : s.resonance.In 0 1
  makeup : s.makeupGain.In 0 5
  g : s.g.In 0 (1.25 * sr.val)
  drive : s.drive.Mag 128
  s0 : Stage sr.val s.V0 s.dV0 s.tV0
  s1 : Stage sr.val s.V1 s.dV1 s.tV1
  s2 : Stage sr.val s.V2 s.dV2 s.tV2
  s3 : Stage sr.val s.V3 s.dV3 s.tV3

theorem rate_of {sr : F32} (hs : sr.In 1 (2 ^ 24)) : Rate sr.val (lit 2 * Conv.conv sr) := by
  have l2 : (lit 2 : F64).In 2 2 := by decide +kernel
  have hu := conv_up hs.1
  have e2 : 2.5 * sr.val = 5 * sr.val / 2 ^ 1 := by ring
  have e5 : 5 * sr.val = 5 * sr.val / 2 ^ 0 := by ring
  have R2 : binary64.Rep (2 * sr.val) false := by
    obtain ⟨⟨m, e, hm, he, hv⟩, h2, -⟩ := rep_val sr
    refine ⟨⟨m, e + 1, lt_trans hm (by decide), ?_, ?_⟩, ?_, by simp⟩
    · have : (-149:ℤ) ≤ e := he
      show (-1074:ℤ) ≤ e + 1
      omega
    · rw [hv, zpow_add₀ (by norm_num)]; ring
    · have h3 : |sr.val| ≤ 2 ^ 24 := abs_le.2 ⟨by linarith [hs.2.1], hs.2.2⟩
      rw [abs_mul]
      calc |(2:ℚ)| * |sr.val| ≤ 2 * 2 ^ 24 := by norm_num at *; linarith
        _ < 2 ^ (26:ℤ) := by norm_num
        _ ≤ 2 ^ (1024:ℤ) := zpow_le_zpow_right₀ (by norm_num) (by norm_num)
  refine ⟨by linarith [hs.2.1], ?_, by rw [e2]; exact rep_five (rep_val sr) 1 (by norm_num),
    by rw [e5]; exact rep_five (rep_val sr) 0 (by norm_num)⟩
  refine mul_in l2.1 hu.1 R2 R2 ?_ ?_ <;> rw [l2.val_eq, hu.val_eq]

theorem tick_fbdd [Libm F64] [Libm64Spec] [Tanh64Sat] {sr : F32} (hs : sr.In 1 (2 ^ 24)) (s : Ladder F32 F64) (x : F32)
    (hx : x.isFin = true) (h : FBdd sr s) : FBdd sr (tick s x).1 ∧ (tick s x).2.In (-88.75) 88.75 := by
  have R := rate_of hs
  rw [← h.rate] at R
  have hg := h.g
  rw [← h.rate] at hg
  have h0 := h.s0
  have h1 := h.s1
  have h2 := h.s2
  have h3 := h.s3
  rw [← h.rate] at h0 h1 h2 h3
  have hres := conv_up h.res.1
  have hres' : (Conv.conv s.resonance : F64).Mag 0 :=
    ⟨hres.1, by rw [hres.val_eq]; norm_num; linarith [h.res.2.1], by rw [hres.val_eq]; norm_num; exact h.res.2.2⟩
  have l4 : (lit 4 : F64).Mag 2 := by decide +kernel
  have v3 : s.V3.Mag 5 := h.s3.v.mono (by norm_num) (by norm_num)
  have a := (h.drive.mul (conv_up_mag hx)).add (((hres'.mul l4).mul v3).up 256)
  have hden : (lit 2 * VT : F64).In 0.5 1 := by decide +kernel
  have ht : (Libm.tanh ((s.drive * Conv.conv x + Conv.conv s.resonance * lit 4 * s.V3) / (lit 2 * VT))).In (-1) 1 := by
    refine Libm64Spec.tanh_range _ (fun e => ?_)
    generalize s.drive * Conv.conv x + Conv.conv s.resonance * lit 4 * s.V3 = A at *
    generalize (lit 2 * VT : F64) = T at *
    have d0 : 0 < T.val := by have := hden.2.1; norm_num at this; linarith
    have t1 := hden.2.1
    norm_num at t1
    have a1 : -2 ^ 257 ≤ A.val := a.2.1
    have a2 : A.val ≤ 2 ^ 257 := a.2.2
    have e258 : (2:ℚ) ^ 258 = 2 * 2 ^ 257 := pow_succ' _ _
    have p257 : (0:ℚ) < 2 ^ 257 := by positivity
    have R258 : binary64.Rep (2 ^ 258) false := rep64_two_pow (by norm_num)
    have : (A / T).In (-2 ^ 258) (2 ^ 258) := by
      refine div_in a.1 hden.1 d0.ne' (Rep.neg R258) R258 ?_ ?_
      · rw [le_div_iff₀ d0, e258]; generalize (2:ℚ) ^ 257 = B at a1 p257 ⊢; nlinarith
      · rw [div_le_iff₀ d0, e258]; generalize (2:ℚ) ^ 257 = B at a2 p257 ⊢; nlinarith
    rw [e] at this
    exact absurd this.1 (by simp)
  obtain ⟨i0, j0, k0⟩ := increment0 R.rep hg ht h0.t
  have n0 := stage_next R h0 i0 j0 k0
  obtain ⟨i1, j1, k1⟩ := increment R.rep hg n0.t h1.t
  have n1 := stage_next R h1 i1 j1 k1
  obtain ⟨i2, j2, k2⟩ := increment R.rep hg n1.t h2.t
  have n2 := stage_next R h2 i2 j2 k2
  obtain ⟨i3, j3, k3⟩ := increment R.rep hg n2.t h3.t
  have n3 := stage_next R h3 i3 j3 k3
  have hV : (tick s x).1.V3.In (-17.75) 17.75 := n3.v
  refine ⟨⟨h.rate, h.res, h.makeup, h.g, h.drive, h.rate ▸ n0, h.rate ▸ n1, h.rate ▸ n2, h.rate ▸ n3⟩, ?_⟩
  have R88 : binary64.Rep 88.75 false ∧ binary32.Rep 88.75 false := by decide +kernel
  have m0 := h.makeup.2.1
  have m1 := h.makeup.2.2
  have hy : ((tick s x).1.V3 * s.makeupGain).In (-88.75) 88.75 := by
    refine mul_in hV.1 h.makeup.1 (Rep.neg R88.1) R88.1 ?_ ?_
    · have := hV.2.1; norm_num at *; nlinarith
    · have := hV.2.2; norm_num at *; nlinarith
  show (Conv.conv ((tick s x).1.V3 * s.makeupGain) : F32).In _ _
  obtain ⟨v, nz, hv, e⟩ := isFin_cases hy.1
  rw [e] at hy ⊢
  exact ofRat_in (Rep.neg R88.2) R88.2 hy.2.1 hy.2.2

theorem setCutoff_fbdd {sr : F32} (hs : sr.In 1 (2 ^ 24)) (c : F32) (hc : c ≠ nan) (s : Ladder F32 F64) (h : FBdd sr s) :
    FBdd sr (setCutoff c s) := by
  obtain ⟨a, b⟩ := cutoff_in hs hc
  have hg := g_in hs a b
  rw [← h.rate] at hg
  refine ⟨h.rate, h.res, ?_, h.rate ▸ hg, h.drive, h.s0, h.s1, h.s2, h.s3⟩
  rw [← h.rate] at a
  exact (RKSimulation.C47_makeup _ _ a.1).mono (by norm_num) le_rfl

theorem setResonance_fbdd {sr : F32} (r : F32) (hr : r ≠ nan) (s : Ladder F32 F64) (h : FBdd sr s) : FBdd sr (setResonance r s) :=
  ⟨h.rate, clamp01_range hr, h.makeup, h.g, h.drive, h.s0, h.s1, h.s2, h.s3⟩

theorem setDrive_fbdd {sr : F32} (d : F32) (hd : d.isFin = true) (s : Ladder F32 F64) (h : FBdd sr s) : FBdd sr (setDrive d s) := by
  refine ⟨h.rate, h.res, h.makeup, h.g, ?_, h.s0, h.s1, h.s2, h.s3⟩
  show (if (Conv.conv d : F64) <. lit 0 then lit 0 else Conv.conv d : F64).Mag 128
  split
  · exact (lit_zero (f := binary64)).mono (by norm_num) (by norm_num)
  · exact conv_up_mag hd

theorem reset_fbdd {sr : F32} (hs : sr.In 1 (2 ^ 24)) (s : Ladder F32 F64) (h : FBdd sr s) : FBdd sr (reset s) := by
  have z := stage_zero (sr := sr.val) (by linarith [hs.2.1])
  exact ⟨h.rate, h.res, h.makeup, h.g, h.drive, z, z, z, z⟩

theorem init_fbdd {sr : F32} (hs : sr.In 1 (2 ^ 24)) (s : Ladder F32 F64) : FBdd sr (init sr s) := by
  have z := stage_zero (sr := sr.val) (by linarith [hs.2.1])
  have h1000 : (lit 1000 : F32) ≠ nan := by decide +kernel
  have h01 : (lit 0.1 : F32) ≠ nan := by decide +kernel
  obtain ⟨a, b⟩ := cutoff_in hs h1000
  exact ⟨rfl, clamp01_range h01, (RKSimulation.C47_makeup _ _ a.1).mono (by norm_num) le_rfl, g_in hs a b,
    (lit_one (f := binary64)).mono (by norm_num) (by norm_num), z, z, z, z⟩

/-- **C98, Improved**: in the program's own arithmetic no output sample of the Improved ladder exceeds 88.75 - whatever finite samples are
fed in, whatever the cutoffs (clamped by the setter), resonances, drives and resets, in whatever order and for however long. -/
theorem C98_improved [Libm F64] [Libm64Spec] [Tanh64Sat] (sr : F32) (hs : sr.In 1 (2 ^ 24)) (s0 : Ladder F32 F64) (l : List (Op F32))
    (hl : ∀ a ∈ l, Usable a) : ∀ y ∈ play (init sr s0) l, y.In (-88.75) 88.75 := by
  have key : ∀ (l : List (Op F32)) (s : Ladder F32 F64), (∀ a ∈ l, Usable a) → FBdd sr s → ∀ y ∈ play s l, y.In (-88.75) 88.75 := by
    intro l
    induction l with
    | nil => intro s _ _ y hy; simp [play] at hy
    | cons a l ih =>
      intro s hl h
      have hl' : ∀ a ∈ l, Usable a := fun b hb => hl b (List.mem_cons_of_mem _ hb)
      have ha := hl a List.mem_cons_self
      cases a with
      | setCutoff c => exact ih _ hl' (setCutoff_fbdd hs c ha s h)
      | setResonance r => exact ih _ hl' (setResonance_fbdd r ha s h)
      | setDrive d => exact ih _ hl' (setDrive_fbdd d ha s h)
      | reset => exact ih _ hl' (reset_fbdd hs s h)
      | tick x =>
        obtain ⟨h1, h2⟩ := tick_fbdd hs s x ha h
        intro y hy
        rcases List.mem_cons.1 hy with rfl | hy
        · exact h2
        · exact ih _ hl' h1 y hy
  exact key l _ hl (init_fbdd hs s0)

/-- Non-trivial case: a huge drive, full resonance, a cutoff far beyond the range, a long constant input. -/
example (s0 : Ladder F32 F64) (n : ℕ) : letI := idealLibm64
    ∀ y ∈ play (init (lit 48000) s0) ([.setCutoff (lit 1e9), .setResonance (lit 1), .setDrive (lit 1e38), .tick (lit (-1e38))]
      ++ List.replicate n (.tick (lit 1)) ++ [.setCutoff (lit (-5)), .reset, .tick (lit 1)]), y.In (-88.75) 88.75 := by
  let _ := idealLibm64
  have := idealLibm64_spec
  have := idealLibm64_tanh
  refine C98_improved (lit 48000) (by decide +kernel) s0 _ (fun a ha => ?_)
  simp only [List.mem_append, List.mem_cons, List.not_mem_nil, or_false, List.mem_replicate] at ha
  rcases ha with ((rfl | rfl | rfl | rfl) | ⟨-, rfl⟩) | (rfl | rfl | rfl) <;> simp only [Usable] <;> decide +kernel

end Improved
end Verif
