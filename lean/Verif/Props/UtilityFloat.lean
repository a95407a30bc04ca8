import Verif.Float.Near
import Verif.Float.IntConv
import Verif.Props.Panning
import Verif.Props.Utility
import Mathlib.Analysis.Real.Pi.Bounds

/-!
# Panning, crossfading, mapping and wrapping in single precision (C96)
-/

namespace Verif
open FP

/-! ### One operation -/

/-- One rounding: a relative part and the smallest subnormal. -/
theorem round_step {q : ℚ} {zs : Bool} (h : |(q:ℝ)| ≤ 2 ^ 120) :
    (ofRat q zs : F32).isFin = true ∧ |((ofRat q zs : F32).val : ℝ) - q| ≤ |(q:ℝ)| / 2 ^ 24 + 1 / 2 ^ 149 := by
  have R := rep_zpow (k := 120) (by norm_num) (by norm_num)
  have hq : |q| ≤ 2 ^ (120:ℤ) := by
    have : ((|q| : ℚ) : ℝ) ≤ ((2 ^ (120:ℤ) : ℚ) : ℝ) := by push_cast; norm_num at h ⊢; exact h
    exact_mod_cast this
  obtain ⟨l, u⟩ := abs_le.1 hq
  have hin := ofRat_in (f := binary32) (zs := zs) (Rep.neg R) R l u
  have hv := ofRat_val (f := binary32) (zs := zs) (Rep.neg R) R l u
  refine ⟨hin.1, ?_⟩
  have := binary32.rnd_rel_err (K := ℚ) q
  simp only [Rat.cast_id] at this
  have h2 := (Rat.cast_le (K := ℝ)).2 this
  push_cast at h2
  rw [hv, abs_sub_comm]
  refine h2.trans (add_le_add (le_of_eq ?_) ?_)
  · norm_num [binary32, div_eq_mul_inv]
  · norm_num [binary32]

theorem step_add {x y : F32} (hx : x.isFin = true) (hy : y.isFin = true) (h : |(x.val : ℝ) + y.val| ≤ 2 ^ 120) :
    (x + y).isFin = true ∧ |((x + y).val : ℝ) - (x.val + y.val)| ≤ |(x.val : ℝ) + y.val| / 2 ^ 24 + 1 / 2 ^ 149 := by
  obtain ⟨zs, e⟩ := add_def hx hy
  rw [e]
  have := round_step (q := x.val + y.val) (zs := zs) (by push_cast; exact h)
  push_cast at this
  exact this

theorem step_sub {x y : F32} (hx : x.isFin = true) (hy : y.isFin = true) (h : |(x.val : ℝ) - y.val| ≤ 2 ^ 120) :
    (x - y).isFin = true ∧ |((x - y).val : ℝ) - (x.val - y.val)| ≤ |(x.val : ℝ) - y.val| / 2 ^ 24 + 1 / 2 ^ 149 := by
  obtain ⟨zs, e⟩ := sub_def hx hy
  rw [e]
  have := round_step (q := x.val - y.val) (zs := zs) (by push_cast; exact h)
  push_cast at this
  exact this

theorem step_mul {x y : F32} (hx : x.isFin = true) (hy : y.isFin = true) (h : |(x.val : ℝ) * y.val| ≤ 2 ^ 120) :
    (x * y).isFin = true ∧ |((x * y).val : ℝ) - (x.val * y.val)| ≤ |(x.val : ℝ) * y.val| / 2 ^ 24 + 1 / 2 ^ 149 := by
  obtain ⟨zs, e⟩ := mul_def hx hy
  rw [e]
  have := round_step (q := x.val * y.val) (zs := zs) (by push_cast; exact h)
  push_cast at this
  exact this

theorem step_div {x y : F32} (hx : x.isFin = true) (hy : y.isFin = true) (h0 : y.val ≠ 0) (h : |(x.val : ℝ) / y.val| ≤ 2 ^ 120) :
    (x / y).isFin = true ∧ |((x / y).val : ℝ) - (x.val / y.val)| ≤ |(x.val : ℝ) / y.val| / 2 ^ 24 + 1 / 2 ^ 149 := by
  obtain ⟨zs, e⟩ := div_def hx hy h0
  rw [e]
  have := round_step (q := x.val / y.val) (zs := zs) (by push_cast; exact h)
  push_cast at this
  exact this

/-! ### Gains -/

/-- The angle of a position between hard left (-1) and hard right (1). -/
noncomputable def panTurn (p : ℝ) : ℝ := (max (-1) (min p 1) + 1) * (Real.pi / 4)

theorem clamp_unit {p : F32} (h : p.isFin = true) :
    (clamp p (-lit 1) (lit 1)).isFin = true ∧ ((clamp p (-lit 1) (lit 1)).val : ℝ) = max (-1) (min (p.val : ℝ) 1) := by
  have h1 := lit_one (f := binary32)
  have hn := neg_in h1
  unfold clamp
  rw [lt_fin h hn.1, lt_fin h1.1 h, hn.val_eq, h1.val_eq]
  by_cases a : p.val < -1
  · have a' : (p.val : ℝ) < -1 := by exact_mod_cast a
    simp only [decide_eq_true_eq, if_pos a]
    exact ⟨hn.1, by rw [hn.val_eq, min_eq_left (by linarith), max_eq_left (by linarith)]; push_cast; rfl⟩
  · have a' : (-1:ℝ) ≤ p.val := by exact_mod_cast not_lt.1 a
    by_cases b : 1 < p.val
    · have b' : (1:ℝ) < p.val := by exact_mod_cast b
      simp only [decide_eq_true_eq, if_neg a, if_pos b]
      exact ⟨h1.1, by rw [h1.val_eq, min_eq_right b'.le, max_eq_right (by norm_num)]; push_cast; rfl⟩
    · have b' : (p.val : ℝ) ≤ 1 := by exact_mod_cast not_lt.1 b
      simp only [decide_eq_true_eq, if_neg a, if_neg b]
      exact ⟨h, by rw [min_eq_left b', max_eq_right a']⟩

theorem angle_near {p : F32} (h : p.isFin = true) :
    ((clamp p (-lit 1) (lit 1) + lit 1) * lit 0.78539816339 : F32).In 0 1.75 ∧
    |(((clamp p (-lit 1) (lit 1) + lit 1) * lit 0.78539816339 : F32).val : ℝ) - panTurn p.val| ≤ 4 / 2 ^ 24 := by
  have hn : p ≠ nan := by rintro rfl; cases h
  refine ⟨pan_angle_float hn, ?_⟩
  have h1 := lit_one (f := binary32)
  obtain ⟨c1, c2⟩ := clamp_unit h
  have hq0 : (0:ℝ) ≤ max (-1) (min (p.val : ℝ) 1) + 1 := by linarith [le_max_left (-1) (min (p.val : ℝ) 1)]
  have hq2 : max (-1) (min (p.val : ℝ) 1) + 1 ≤ 2 := by
    have : max (-1) (min (p.val : ℝ) 1) ≤ 1 := max_le (by norm_num) (min_le_right _ _)
    linarith
  unfold panTurn
  generalize hc : clamp p (-lit 1) (lit 1) = c at *
  have e1 : (c.val : ℝ) + (lit 1 : F32).val = max (-1) (min (p.val : ℝ) 1) + 1 := by rw [c2, h1.val_eq]; push_cast; rfl
  generalize max (-1) (min (p.val : ℝ) 1) + 1 = q at *
  obtain ⟨s1, s2⟩ := step_add c1 h1.1 (by rw [e1, abs_of_nonneg hq0]; norm_num; linarith)
  rw [e1, abs_of_nonneg hq0] at s2
  have hl : (lit 0.78539816339 : F32).isFin = true := by decide +kernel
  have hlv : (lit 0.78539816339 : F32).val = 13176795 / 2 ^ 24 := by decide +kernel
  have hs3 : |((c + lit 1 : F32).val : ℝ)| ≤ 2 + 1 / 2 ^ 20 := by
    rw [abs_le] at s2 ⊢; norm_num at *; constructor <;> linarith
  have hlr : ((lit 0.78539816339 : F32).val : ℝ) = 13176795 / 2 ^ 24 := by rw [hlv]; push_cast; rfl
  have hm : |((c + lit 1 : F32).val : ℝ) * (lit 0.78539816339 : F32).val| ≤ 1.6 := by
    rw [hlr, abs_mul, abs_of_pos (by norm_num : (0:ℝ) < 13176795 / 2 ^ 24)]
    norm_num at *; linarith
  obtain ⟨-, m2⟩ := step_mul s1 hl (hm.trans (by norm_num))
  have p1 := Real.pi_gt_d20
  have p2 := Real.pi_lt_d20
  have m3 : |(((c + lit 1) * lit 0.78539816339 : F32).val : ℝ) - (c + lit 1 : F32).val * (lit 0.78539816339 : F32).val| ≤ 1.61 / 2 ^ 24 := by
    refine m2.trans ?_
    have := div_le_div_of_nonneg_right hm (by norm_num : (0:ℝ) ≤ 2 ^ 24)
    norm_num at *; linarith
  rw [hlr] at m3
  generalize (((c + lit 1) * lit 0.78539816339 : F32).val : ℝ) = y at *
  generalize ((c + lit 1 : F32).val : ℝ) = s at *
  clear * - s2 m3 hq0 hq2 p1 p2
  have k1 : |(13176795 / 2 ^ 24 : ℝ) - Real.pi / 4| ≤ 0.37 / 2 ^ 24 := by
    rw [abs_le]; norm_num at *; constructor <;> linarith
  have e : y - q * (Real.pi / 4) = (y - s * (13176795 / 2 ^ 24)) + (s - q) * (13176795 / 2 ^ 24) + q * (13176795 / 2 ^ 24 - Real.pi / 4) := by ring
  rw [e]
  refine (abs_add_le _ _).trans ?_
  have a1 := abs_add_le (y - s * (13176795 / 2 ^ 24)) ((s - q) * (13176795 / 2 ^ 24))
  have a2 : |(s - q) * (13176795 / 2 ^ 24)| ≤ 1.58 / 2 ^ 24 := by
    rw [abs_mul, abs_of_pos (by norm_num : (0:ℝ) < 13176795 / 2 ^ 24)]
    have : |s - q| ≤ 2.001 / 2 ^ 24 := s2.trans (by norm_num; linarith)
    norm_num at *; linarith
  have a3 : |q * (13176795 / 2 ^ 24 - Real.pi / 4)| ≤ 0.75 / 2 ^ 24 := by
    rw [abs_mul, abs_of_nonneg hq0]
    generalize |(13176795 / 2 ^ 24 : ℝ) - Real.pi / 4| = z at *
    norm_num at *; nlinarith
  norm_num at *
  linarith

/-- Both gains of a position, in single precision, are within `6 / 2^24` of the cosine and the sine. -/
theorem gains_near [Libm F32] [LibmSpec] {p : F32} (h : p.isFin = true) :
    let a : F32 := (clamp p (-lit 1) (lit 1) + lit 1) * lit 0.78539816339
    ((Libm.cos a).In (-1) 1 ∧ |((Libm.cos a).val : ℝ) - Real.cos (panTurn p.val)| ≤ 6 / 2 ^ 24) ∧
    (Libm.sin a).In (-1) 1 ∧ |((Libm.sin a).val : ℝ) - Real.sin (panTurn p.val)| ≤ 6 / 2 ^ 24 := by
  intro a
  obtain ⟨h1, h2⟩ : a.In 0 1.75 ∧ |(a.val : ℝ) - panTurn p.val| ≤ 4 / 2 ^ 24 := angle_near h
  have hb : |a.val| ≤ 4 := by rw [abs_le]; have := h1.2; constructor <;> linarith
  have c := LibmSpec.cos_acc a h1.1 hb
  have s := LibmSpec.sin_acc a h1.1 hb
  have c2 := Real.abs_cos_sub_cos_le (x := (a.val : ℝ)) (y := panTurn p.val)
  have s2 := Real.abs_sin_sub_sin_le (x := (a.val : ℝ)) (y := panTurn p.val)
  refine ⟨⟨LibmSpec.cos_range a h1.1, ?_⟩, LibmSpec.sin_range a h1.1, ?_⟩
  · have := abs_sub_le ((Libm.cos a).val : ℝ) (Real.cos a.val) (Real.cos (panTurn p.val))
    norm_num at *; linarith
  · have := abs_sub_le ((Libm.sin a).val : ℝ) (Real.sin a.val) (Real.sin (panTurn p.val))
    norm_num at *; linarith

/-- A sample times a gain. -/
theorem gain_mul {x g : F32} {G e : ℝ} (hx : x.isFin = true) (hX : |(x.val : ℝ)| ≤ 2 ^ 100) (hg : g.In (-1) 1)
    (hG : |(g.val : ℝ) - G| ≤ e) : (x * g).isFin = true ∧ |((x * g).val : ℝ)| ≤ 1.01 * |(x.val : ℝ)| + 1 / 2 ^ 149 ∧
      |((x * g).val : ℝ) - x.val * G| ≤ |(x.val : ℝ)| * (e + 1 / 2 ^ 24) + 1 / 2 ^ 149 := by
  have g1 : |(g.val : ℝ)| ≤ 1 := by
    rw [abs_le]
    exact ⟨by exact_mod_cast hg.2.1, by exact_mod_cast hg.2.2⟩
  have hxg : |(x.val : ℝ) * g.val| ≤ |(x.val : ℝ)| := by
    rw [abs_mul]; exact mul_le_of_le_one_right (abs_nonneg _) g1
  obtain ⟨m1, m2⟩ := step_mul hx hg.1 (hxg.trans (hX.trans (by norm_num)))
  have m3 : |((x * g).val : ℝ) - x.val * g.val| ≤ |(x.val : ℝ)| / 2 ^ 24 + 1 / 2 ^ 149 :=
    m2.trans (add_le_add_left (div_le_div_of_nonneg_right hxg (by norm_num)) _)
  refine ⟨m1, ?_, ?_⟩
  · have := abs_sub_abs_le_abs_sub ((x * g).val : ℝ) (x.val * g.val)
    have h0 := abs_nonneg (x.val : ℝ)
    generalize |(x.val : ℝ)| = X at *
    generalize (1 : ℝ) / 2 ^ 149 = t at *
    norm_num at *; linarith
  · have e1 : ((x * g).val : ℝ) - x.val * G = (((x * g).val : ℝ) - x.val * g.val) + x.val * (g.val - G) := by ring
    rw [e1]
    refine (abs_add_le _ _).trans ?_
    rw [abs_mul (x.val : ℝ)]
    have := mul_le_mul_of_nonneg_left hG (abs_nonneg (x.val : ℝ))
    generalize (1 : ℝ) / 2 ^ 149 = t at *
    have e2 : |(x.val : ℝ)| * (e + 1 / 2 ^ 24) = |(x.val : ℝ)| * e + |(x.val : ℝ)| / 2 ^ 24 := by ring
    linarith

/-! ### Pan2 -/

/-- **C96** for Pan2 (binary32): both outputs are within `7 / 2^24` of the sample times the exact equal-power gains. -/
theorem Pan2.C96_pan [Libm F32] [LibmSpec] {x p : F32} (hx : x.isFin = true) (hX : |(x.val : ℝ)| ≤ 2 ^ 100) (hp : p.isFin = true) :
    |((Pan2.process x p).left.val : ℝ) - x.val * Real.cos (panTurn p.val)| ≤ 7 / 2 ^ 24 * |(x.val : ℝ)| + 1 / 2 ^ 149 ∧
    |((Pan2.process x p).right.val : ℝ) - x.val * Real.sin (panTurn p.val)| ≤ 7 / 2 ^ 24 * |(x.val : ℝ)| + 1 / 2 ^ 149 := by
  obtain ⟨⟨c1, c2⟩, s1, s2⟩ := gains_near hp
  have a := (gain_mul hx hX c1 c2).2.2
  have b := (gain_mul hx hX s1 s2).2.2
  have e : |(x.val : ℝ)| * (6 / 2 ^ 24 + 1 / 2 ^ 24) = 7 / 2 ^ 24 * |(x.val : ℝ)| := by ring
  rw [e] at a b
  exact ⟨a, b⟩

/-! ### Balance2 -/

/-- Three factors, the gain in the middle. -/
theorem gain_level {x g v : F32} {G : ℝ} (hx : x.isFin = true) (hX : |(x.val : ℝ)| ≤ 2 ^ 60) (hg : g.In (-1) 1)
    (hG : |(g.val : ℝ) - G| ≤ 6 / 2 ^ 24) (hv : v.isFin = true) (hV : |(v.val : ℝ)| ≤ 2 ^ 40) :
    (x * g * v).isFin = true ∧ |((x * g * v).val : ℝ) - x.val * G * v.val| ≤ 8.1 / 2 ^ 24 * |(x.val : ℝ) * v.val| + 1 / 2 ^ 100 := by
  obtain ⟨m1, m2, m3⟩ := gain_mul hx (hX.trans (by norm_num)) hg hG
  have h0 := abs_nonneg (x.val : ℝ)
  have v0 := abs_nonneg (v.val : ℝ)
  have hb : |((x * g).val : ℝ) * v.val| ≤ 1.01 * |(x.val : ℝ) * v.val| + 1 / 2 ^ 109 := by
    rw [abs_mul, abs_mul]
    have := mul_le_mul_of_nonneg_right m2 v0
    have t : (1 / 2 ^ 149 : ℝ) * |(v.val : ℝ)| ≤ 1 / 2 ^ 109 := by
      have := mul_le_mul_of_nonneg_left hV (by norm_num : (0:ℝ) ≤ 1 / 2 ^ 149)
      norm_num at *; linarith
    rw [add_mul, mul_assoc] at this
    linarith
  have hxv : |(x.val : ℝ) * v.val| ≤ 2 ^ 100 := by
    rw [abs_mul]
    calc |(x.val : ℝ)| * |(v.val : ℝ)| ≤ 2 ^ 60 * 2 ^ 40 := mul_le_mul hX hV v0 (by norm_num)
      _ = 2 ^ 100 := by norm_num
  obtain ⟨n1, n2⟩ := step_mul m1 hv (hb.trans (by
    generalize |(x.val : ℝ) * v.val| = q at *
    norm_num at *; linarith))
  refine ⟨n1, ?_⟩
  have e1 : ((x * g * v).val : ℝ) - x.val * G * v.val =
      (((x * g * v).val : ℝ) - (x * g).val * v.val) + ((x * g).val - x.val * G) * v.val := by ring
  rw [e1]
  refine (abs_add_le _ _).trans ?_
  rw [abs_mul (((x * g).val : ℝ) - x.val * G)]
  have b1 := mul_le_mul_of_nonneg_right m3 v0
  have t : (1 / 2 ^ 149 : ℝ) * |(v.val : ℝ)| ≤ 1 / 2 ^ 109 := by
    have := mul_le_mul_of_nonneg_left hV (by norm_num : (0:ℝ) ≤ 1 / 2 ^ 149)
    norm_num at *; linarith
  have b2 : (|(x.val : ℝ)| * (6 / 2 ^ 24 + 1 / 2 ^ 24) + 1 / 2 ^ 149) * |(v.val : ℝ)| ≤ 7 / 2 ^ 24 * |(x.val : ℝ) * v.val| + 1 / 2 ^ 109 := by
    rw [abs_mul]
    have : (|(x.val : ℝ)| * (6 / 2 ^ 24 + 1 / 2 ^ 24) + 1 / 2 ^ 149) * |(v.val : ℝ)| =
      7 / 2 ^ 24 * (|(x.val : ℝ)| * |(v.val : ℝ)|) + 1 / 2 ^ 149 * |(v.val : ℝ)| := by ring
    rw [this]; linarith
  have b3 : |((x * g).val : ℝ) * v.val| / 2 ^ 24 ≤ (1.01 * |(x.val : ℝ) * v.val| + 1 / 2 ^ 109) / 2 ^ 24 :=
    div_le_div_of_nonneg_right hb (by norm_num)
  have b4 := b1.trans b2
  have n3 := n2.trans (add_le_add_left b3 _)
  have q0 := abs_nonneg ((x.val : ℝ) * v.val)
  generalize |((x * g * v).val : ℝ) - (x * g).val * v.val| = A at *
  generalize |((x * g).val : ℝ) - x.val * G| * |(v.val : ℝ)| = B at *
  generalize |(x.val : ℝ) * v.val| = q at *
  clear * - b4 n3 q0
  norm_num at *
  linarith

/-- **C96** for Balance2 (binary32): for levels up to `2^40` both outputs are within `9 / 2^24` of sample times level of the exact
ones. -/
theorem Balance2.C96_balance [Libm F32] [LibmSpec] {l r p v : F32} (hl : l.isFin = true) (hL : |(l.val : ℝ)| ≤ 2 ^ 60)
    (hr : r.isFin = true) (hR : |(r.val : ℝ)| ≤ 2 ^ 60) (hp : p.isFin = true) (hv : v.isFin = true) (hV : |(v.val : ℝ)| ≤ 2 ^ 40) :
    |((Balance2.process l r p v).left.val : ℝ) - l.val * Real.cos (panTurn p.val) * v.val| ≤ 9 / 2 ^ 24 * |(l.val : ℝ) * v.val| + 1 / 2 ^ 100 ∧
    |((Balance2.process l r p v).right.val : ℝ) - r.val * Real.sin (panTurn p.val) * v.val| ≤ 9 / 2 ^ 24 * |(r.val : ℝ) * v.val| + 1 / 2 ^ 100 := by
  obtain ⟨⟨c1, c2⟩, s1, s2⟩ := gains_near hp
  have a := (gain_level hl hL c1 c2 hv hV).2
  have b := (gain_level hr hR s1 s2 hv hV).2
  have q0 := abs_nonneg ((l.val : ℝ) * v.val)
  have q1 := abs_nonneg ((r.val : ℝ) * v.val)
  exact ⟨a.trans (by gcongr; norm_num), b.trans (by gcongr; norm_num)⟩

/-! ### Cached gains -/

/-- A gain times a level, in single precision. -/
theorem level_near {g v : F32} {G : ℝ} (hg : g.In (-1) 1) (hG : |(g.val : ℝ) - G| ≤ 6 / 2 ^ 24) (hv : v.isFin = true)
    (hV : |(v.val : ℝ)| ≤ 2 ^ 40) : (g * v).isFin = true ∧ |((g * v).val : ℝ)| ≤ 1.01 * |(v.val : ℝ)| + 1 / 2 ^ 149 ∧
      |((g * v).val : ℝ) - G * v.val| ≤ 7 / 2 ^ 24 * |(v.val : ℝ)| + 1 / 2 ^ 149 := by
  have hc : ((g * v : F32).isFin = true ∧ ((g * v : F32).val) = ((v * g : F32).val)) := by
    have g1 : |(g.val : ℝ)| ≤ 1 := by
      rw [abs_le]; exact ⟨by exact_mod_cast hg.2.1, by exact_mod_cast hg.2.2⟩
    have h1 : |(g.val : ℝ) * v.val| ≤ 2 ^ 120 := by
      rw [abs_mul]
      calc |(g.val : ℝ)| * |(v.val : ℝ)| ≤ 1 * 2 ^ 40 := mul_le_mul g1 hV (abs_nonneg _) (by norm_num)
        _ ≤ 2 ^ 120 := by norm_num
    refine ⟨(step_mul hg.1 hv h1).1, ?_⟩
    have R := rep_zpow (k := 120) (by norm_num) (by norm_num)
    have hq : |g.val * v.val| ≤ 2 ^ (120:ℤ) := by
      have : ((|g.val * v.val| : ℚ) : ℝ) ≤ ((2 ^ (120:ℤ) : ℚ) : ℝ) := by push_cast; norm_num at h1 ⊢; exact h1
      exact_mod_cast this
    obtain ⟨l, u⟩ := abs_le.1 hq
    rw [(mul_val hg.1 hv (Rep.neg R) R l u).2, (mul_val hv hg.1 (Rep.neg R) R (by rw [mul_comm]; exact l) (by rw [mul_comm]; exact u)).2, mul_comm]
  obtain ⟨-, m2, m3⟩ := gain_mul hv (hV.trans (by norm_num)) hg hG
  rw [hc.2]
  refine ⟨hc.1, m2, ?_⟩
  have e : (v.val : ℝ) * G = G * v.val := mul_comm _ _
  rw [e] at m3
  refine m3.trans (le_of_eq ?_)
  ring

/-- One input times a cached gain. -/
theorem cached_near {x w v : F32} {G : ℝ} (hx : x.isFin = true) (hX : |(x.val : ℝ)| ≤ 2 ^ 60) (hw : w.isFin = true)
    (hW : |(w.val : ℝ)| ≤ 1.01 * |(v.val : ℝ)| + 1 / 2 ^ 149) (hV : |(v.val : ℝ)| ≤ 2 ^ 40)
    (hG : |(w.val : ℝ) - G * v.val| ≤ 7 / 2 ^ 24 * |(v.val : ℝ)| + 1 / 2 ^ 149) :
    (x * w).isFin = true ∧ |((x * w).val : ℝ) - x.val * (G * v.val)| ≤ 8.1 / 2 ^ 24 * |(x.val : ℝ) * v.val| + 1 / 2 ^ 80 := by
  have h0 := abs_nonneg (x.val : ℝ)
  have t : |(x.val : ℝ)| * (1 / 2 ^ 149) ≤ 1 / 2 ^ 89 := by
    have := mul_le_mul_of_nonneg_right hX (by norm_num : (0:ℝ) ≤ 1 / 2 ^ 149)
    norm_num at *; linarith
  have hb : |(x.val : ℝ) * w.val| ≤ 1.01 * |(x.val : ℝ) * v.val| + 1 / 2 ^ 89 := by
    rw [abs_mul, abs_mul]
    have := mul_le_mul_of_nonneg_left hW h0
    have e : |(x.val : ℝ)| * (1.01 * |(v.val : ℝ)| + 1 / 2 ^ 149) = 1.01 * (|(x.val : ℝ)| * |(v.val : ℝ)|) + |(x.val : ℝ)| * (1 / 2 ^ 149) := by ring
    rw [e] at this
    linarith
  have hxv : |(x.val : ℝ) * v.val| ≤ 2 ^ 100 := by
    rw [abs_mul]
    calc |(x.val : ℝ)| * |(v.val : ℝ)| ≤ 2 ^ 60 * 2 ^ 40 := mul_le_mul hX hV (abs_nonneg _) (by norm_num)
      _ = 2 ^ 100 := by norm_num
  obtain ⟨n1, n2⟩ := step_mul hx hw (hb.trans (by
    generalize |(x.val : ℝ) * v.val| = q at *
    norm_num at *; linarith))
  refine ⟨n1, ?_⟩
  have e1 : ((x * w).val : ℝ) - x.val * (G * v.val) = (((x * w).val : ℝ) - x.val * w.val) + x.val * (w.val - G * v.val) := by ring
  rw [e1]
  refine (abs_add_le _ _).trans ?_
  rw [abs_mul (x.val : ℝ) ((w.val : ℝ) - G * v.val)]
  have b1 := mul_le_mul_of_nonneg_left hG h0
  have b2 : |(x.val : ℝ)| * (7 / 2 ^ 24 * |(v.val : ℝ)| + 1 / 2 ^ 149) ≤ 7 / 2 ^ 24 * |(x.val : ℝ) * v.val| + 1 / 2 ^ 89 := by
    rw [abs_mul]
    have : |(x.val : ℝ)| * (7 / 2 ^ 24 * |(v.val : ℝ)| + 1 / 2 ^ 149) = 7 / 2 ^ 24 * (|(x.val : ℝ)| * |(v.val : ℝ)|) + |(x.val : ℝ)| * (1 / 2 ^ 149) := by ring
    rw [this]; linarith
  have n3 := n2.trans (add_le_add_left (div_le_div_of_nonneg_right hb (by norm_num : (0:ℝ) ≤ 2 ^ 24)) _)
  have b4 := b1.trans b2
  have q0 := abs_nonneg ((x.val : ℝ) * v.val)
  generalize |((x * w).val : ℝ) - x.val * w.val| = A at *
  generalize |(x.val : ℝ)| * |(w.val : ℝ) - G * v.val| = B at *
  generalize |(x.val : ℝ) * v.val| = q at *
  clear * - b4 n3 q0
  norm_num at *
  linarith

/-- **C96** for the cached form of Balance2. -/
theorem Balance2.C96_cached [Libm F32] [LibmSpec] {l r p v : F32} (hl : l.isFin = true) (hL : |(l.val : ℝ)| ≤ 2 ^ 60)
    (hr : r.isFin = true) (hR : |(r.val : ℝ)| ≤ 2 ^ 60) (hp : p.isFin = true) (hv : v.isFin = true) (hV : |(v.val : ℝ)| ≤ 2 ^ 40) :
    |((Balance2.tick (Balance2.setPosition p v) l r).left.val : ℝ) - l.val * (Real.cos (panTurn p.val) * v.val)| ≤
      9 / 2 ^ 24 * |(l.val : ℝ) * v.val| + 1 / 2 ^ 80 ∧
    |((Balance2.tick (Balance2.setPosition p v) l r).right.val : ℝ) - r.val * (Real.sin (panTurn p.val) * v.val)| ≤
      9 / 2 ^ 24 * |(r.val : ℝ) * v.val| + 1 / 2 ^ 80 := by
  obtain ⟨⟨c1, c2⟩, s1, s2⟩ := gains_near hp
  obtain ⟨a1, a2, a3⟩ := level_near c1 c2 hv hV
  obtain ⟨b1, b2, b3⟩ := level_near s1 s2 hv hV
  have a := (cached_near hl hL a1 a2 hV a3).2
  have b := (cached_near hr hR b1 b2 hV b3).2
  have q0 := abs_nonneg ((l.val : ℝ) * v.val)
  have q1 := abs_nonneg ((r.val : ℝ) * v.val)
  exact ⟨a.trans (by gcongr; norm_num), b.trans (by gcongr; norm_num)⟩

/-- **C96** for XFade2 (binary32): the crossfade of `a` and `b` is within `10 / 2^24` of `(|a| + |b|) · level` of the exact one. -/
theorem XFade2.C96_fade [Libm F32] [LibmSpec] {a b p v : F32} (ha : a.isFin = true) (hA : |(a.val : ℝ)| ≤ 2 ^ 60)
    (hb : b.isFin = true) (hB : |(b.val : ℝ)| ≤ 2 ^ 60) (hp : p.isFin = true) (hv : v.isFin = true) (hV : |(v.val : ℝ)| ≤ 2 ^ 40) :
    |((XFade2.process a b p v).val : ℝ) - (a.val * (Real.cos (panTurn p.val) * v.val) + b.val * (Real.sin (panTurn p.val) * v.val))| ≤
      10 / 2 ^ 24 * ((|(a.val : ℝ)| + |(b.val : ℝ)|) * |(v.val : ℝ)|) + 1 / 2 ^ 78 := by
  obtain ⟨⟨c1, c2⟩, s1, s2⟩ := gains_near hp
  obtain ⟨a1, a2, a3⟩ := level_near c1 c2 hv hV
  obtain ⟨b1, b2, b3⟩ := level_near s1 s2 hv hV
  obtain ⟨x1, x2⟩ := cached_near ha hA a1 a2 hV a3
  obtain ⟨y1, y2⟩ := cached_near hb hB b1 b2 hV b3
  have hav : |(a.val : ℝ) * v.val| ≤ 2 ^ 100 := by
    rw [abs_mul]
    calc |(a.val : ℝ)| * |(v.val : ℝ)| ≤ 2 ^ 60 * 2 ^ 40 := mul_le_mul hA hV (abs_nonneg _) (by norm_num)
      _ = 2 ^ 100 := by norm_num
  have hbv : |(b.val : ℝ) * v.val| ≤ 2 ^ 100 := by
    rw [abs_mul]
    calc |(b.val : ℝ)| * |(v.val : ℝ)| ≤ 2 ^ 60 * 2 ^ 40 := mul_le_mul hB hV (abs_nonneg _) (by norm_num)
      _ = 2 ^ 100 := by norm_num
  have eA : |(a.val : ℝ) * (Real.cos (panTurn p.val) * v.val)| ≤ |(a.val : ℝ) * v.val| := by
    rw [show (a.val : ℝ) * (Real.cos (panTurn p.val) * v.val) = a.val * v.val * Real.cos (panTurn p.val) by ring, abs_mul]
    exact mul_le_of_le_one_right (abs_nonneg _) (Real.abs_cos_le_one _)
  have eB : |(b.val : ℝ) * (Real.sin (panTurn p.val) * v.val)| ≤ |(b.val : ℝ) * v.val| := by
    rw [show (b.val : ℝ) * (Real.sin (panTurn p.val) * v.val) = b.val * v.val * Real.sin (panTurn p.val) by ring, abs_mul]
    exact mul_le_of_le_one_right (abs_nonneg _) (Real.abs_sin_le_one _)
  rw [add_mul, ← abs_mul, ← abs_mul]
  show |((a * (Libm.cos ((clamp p (-lit 1) (lit 1) + lit 1) * lit 0.78539816339) * v) +
    b * (Libm.sin ((clamp p (-lit 1) (lit 1) + lit 1) * lit 0.78539816339) * v) : F32).val : ℝ) - _| ≤ _
  generalize a * (Libm.cos ((clamp p (-lit 1) (lit 1) + lit 1) * lit 0.78539816339) * v) = X at *
  generalize b * (Libm.sin ((clamp p (-lit 1) (lit 1) + lit 1) * lit 0.78539816339) * v) = Y at *
  generalize (a.val : ℝ) * (Real.cos (panTurn p.val) * v.val) = P at *
  generalize (b.val : ℝ) * (Real.sin (panTurn p.val) * v.val) = Q at *
  have A0 := abs_nonneg ((a.val : ℝ) * v.val)
  have B0 := abs_nonneg ((b.val : ℝ) * v.val)
  generalize |(a.val : ℝ) * v.val| = A at *
  generalize |(b.val : ℝ) * v.val| = B at *
  clear * - x1 x2 y1 y2 A0 B0 hav hbv eA eB
  have hs : |(X.val : ℝ) + Y.val| ≤ 1.1 * (A + B) + 1 / 2 ^ 79 := by
    have e : (X.val : ℝ) + Y.val = (X.val - P) + (Y.val - Q) + (P + Q) := by ring
    rw [e]
    have t1 := abs_add_le ((X.val : ℝ) - P + (Y.val - Q)) (P + Q)
    have t2 := abs_add_le ((X.val : ℝ) - P) (Y.val - Q)
    have t3 := abs_add_le P Q
    norm_num at *
    linarith
  obtain ⟨z1, z2⟩ := step_add x1 y1 (hs.trans (by norm_num at *; linarith))
  have z3 := z2.trans (add_le_add_left (div_le_div_of_nonneg_right hs (by norm_num : (0:ℝ) ≤ 2 ^ 24)) _)
  have e : ((X + Y).val : ℝ) - (P + Q) = (((X + Y).val : ℝ) - (X.val + Y.val)) + ((X.val - P) + (Y.val - Q)) := by ring
  rw [e]
  have t1 := abs_add_le (((X + Y).val : ℝ) - (X.val + Y.val)) ((X.val - P) + (Y.val - Q))
  have t2 := abs_add_le ((X.val : ℝ) - P) (Y.val - Q)
  norm_num at *
  linarith

/-! ### LinLin and Wrap -/

/-- A difference of moderate numbers. -/
theorem diff_near {x y : F32} (hx : x.isFin = true) (hX : |(x.val : ℝ)| ≤ 2 ^ 30) (hy : y.isFin = true) (hY : |(y.val : ℝ)| ≤ 2 ^ 30) :
    (x - y).isFin = true ∧ |(x.val : ℝ) - y.val| ≤ 2 ^ 31 ∧
      |((x - y).val : ℝ) - (x.val - y.val)| ≤ |(x.val : ℝ) - y.val| / 2 ^ 24 + 1 / 2 ^ 149 := by
  have h : |(x.val : ℝ) - y.val| ≤ 2 ^ 31 := (abs_sub _ _).trans (by norm_num at *; linarith)
  obtain ⟨a, b⟩ := step_sub hx hy (h.trans (by norm_num))
  exact ⟨a, h, b⟩

/-- The quotient of two differences: `n` differs from `N / D` by three relative roundings. -/
theorem quot_near {n d : F32} {N D : ℝ} (hn : n.isFin = true) (hd : d.isFin = true) (hN : |N| ≤ 2 ^ 31) (hD0 : 1 / 2 ^ 30 ≤ |D|)
    (h1 : |(n.val : ℝ) - N| ≤ |N| / 2 ^ 24 + 1 / 2 ^ 149) (h2 : |(d.val : ℝ) - D| ≤ |D| / 2 ^ 24 + 1 / 2 ^ 149) :
    d.val ≠ 0 ∧ (n / d).isFin = true ∧ |((n / d).val : ℝ) - N / D| ≤ 3.1 / 2 ^ 24 * |N / D| + 1 / 2 ^ 110 := by
  have hDp : 0 < |D| := lt_of_lt_of_le (by norm_num) hD0
  have hD : D ≠ 0 := abs_pos.1 hDp
  have h2' : |(d.val : ℝ) - D| ≤ 1.001 / 2 ^ 24 * |D| := by
    refine h2.trans ?_
    generalize |D| = z at *
    norm_num at *; linarith
  have hd1 : 0.999 * |D| ≤ |(d.val : ℝ)| := by
    have := abs_sub_abs_le_abs_sub D (d.val : ℝ)
    rw [abs_sub_comm] at this
    generalize |D| = z at *
    norm_num at *; linarith
  have hdp : 0 < |(d.val : ℝ)| := lt_of_lt_of_le (by positivity) hd1
  have hd0 : (d.val : ℝ) ≠ 0 := abs_pos.1 hdp
  have hd0' : d.val ≠ 0 := by exact_mod_cast hd0
  have q0 := abs_nonneg (N / D)
  -- the exact quotient of the rounded differences
  have hq : |(n.val : ℝ) / d.val - N / D| ≤ 2.01 / 2 ^ 24 * |N / D| + 1 / 2 ^ 115 := by
    have e : (n.val : ℝ) / d.val - N / D = ((n.val - N) - (N / D) * (d.val - D)) / d.val := by
      field_simp; ring
    rw [e, abs_div, div_le_iff₀ hdp]
    refine (abs_sub _ _).trans ?_
    rw [abs_mul]
    have a1 := mul_le_mul_of_nonneg_left h2' q0
    have a2 : |N| = |N / D| * |D| := by rw [abs_div, div_mul_cancel₀ _ hDp.ne']
    have a3 : (2.01 / 2 ^ 24 * |N / D| + 1 / 2 ^ 115) * (0.999 * |D|) ≤ (2.01 / 2 ^ 24 * |N / D| + 1 / 2 ^ 115) * |(d.val : ℝ)| :=
      mul_le_mul_of_nonneg_left hd1 (by positivity)
    rw [a2] at h1
    have a4 : 0 ≤ |N / D| * |D| := by positivity
    have e1 : |N / D| * (1.001 / 2 ^ 24 * |D|) = 1.001 / 2 ^ 24 * (|N / D| * |D|) := by ring
    have e2 : (2.01 / 2 ^ 24 * |N / D| + 1 / 2 ^ 115) * (0.999 * |D|) = 2.00799 / 2 ^ 24 * (|N / D| * |D|) + 0.999 / 2 ^ 115 * |D| := by ring
    rw [e1] at a1
    rw [e2] at a3
    refine le_trans ?_ a3
    generalize |N / D| * |D| = w at *
    generalize |N / D| * |(d.val : ℝ) - D| = v at *
    generalize |(n.val : ℝ) - N| = u at *
    generalize |D| = z at *
    clear * - h1 a1 a4 hD0
    norm_num at *; linarith
  have hQ : |N / D| ≤ 2 ^ 61 := by
    rw [abs_div, div_le_iff₀ hDp]
    generalize |D| = z at *
    norm_num at *; linarith
  have hb : |(n.val : ℝ) / d.val| ≤ 1.001 * |N / D| + 1 / 2 ^ 115 := by
    have := abs_sub_abs_le_abs_sub ((n.val : ℝ) / d.val) (N / D)
    generalize |N / D| = z at *
    norm_num at *; linarith
  obtain ⟨s1, s2⟩ := step_div hn hd hd0' (hb.trans (by
    generalize |N / D| = z at *
    norm_num at *; linarith))
  refine ⟨hd0', s1, ?_⟩
  have s3 := s2.trans (add_le_add_left (div_le_div_of_nonneg_right hb (by norm_num : (0:ℝ) ≤ 2 ^ 24)) _)
  have := abs_sub_le ((n / d).val : ℝ) (n.val / d.val) (N / D)
  generalize |N / D| = z at *
  clear * - this s3 hq q0
  norm_num at *; linarith

/-- **C96** for LinLin (binary32): the mapped value is the exact one up to a few roundings of its two terms. All arguments may be as large
as `2^30`, the source range must not be smaller than `2^-30`. -/
theorem C96_linlin {x a b c d : F32} (hx : x.isFin = true) (hX : |(x.val : ℝ)| ≤ 2 ^ 30) (ha : a.isFin = true) (hA : |(a.val : ℝ)| ≤ 2 ^ 30)
    (hb : b.isFin = true) (hB : |(b.val : ℝ)| ≤ 2 ^ 30) (hc : c.isFin = true) (hC : |(c.val : ℝ)| ≤ 2 ^ 30) (hd : d.isFin = true)
    (hD : |(d.val : ℝ)| ≤ 2 ^ 30) (hab : 1 / 2 ^ 30 ≤ |(b.val : ℝ) - a.val|) :
    let moved : ℝ := (x.val - a.val) / (b.val - a.val) * (d.val - c.val)
    (LinLin x a b c d).isFin = true ∧
    |((LinLin x a b c d).val : ℝ) - (c.val + moved)| ≤ (6.2 * |moved| + |(c.val : ℝ)|) / 2 ^ 24 + 1 / 2 ^ 70 := by
  intro moved
  obtain ⟨b1, b2, b3⟩ := diff_near hb hB ha hA
  obtain ⟨n1, n2, n3⟩ := diff_near hx hX ha hA
  obtain ⟨d1, d2, d3⟩ := diff_near hd hD hc hC
  obtain ⟨q0, q1, q2⟩ := quot_near n1 b1 n2 hab n3 b3
  have hL : LinLin x a b c d = c + (x - a) / (b - a) * (d - c) := by
    unfold LinLin
    have z := lit_zero (f := binary32)
    have : ((b - a) ==. lit 0) = false := by
      rw [eq_fin b1 z.1, z.val_eq]; simpa using q0
    simp only [this]; rfl
  rw [hL]
  have hQ : |((x.val : ℝ) - a.val) / (b.val - a.val)| ≤ 2 ^ 61 := by
    rw [abs_div, div_le_iff₀ (lt_of_lt_of_le (by norm_num) hab)]
    generalize |(b.val : ℝ) - a.val| = z at *
    norm_num at *; linarith
  have hM : |moved| ≤ 2 ^ 92 := by
    show |_ * _| ≤ _
    rw [abs_mul]
    calc _ ≤ (2:ℝ) ^ 61 * 2 ^ 31 := mul_le_mul hQ d2 (abs_nonneg _) (by norm_num)
      _ = 2 ^ 92 := by norm_num
  have hMd : moved = ((x.val : ℝ) - a.val) / (b.val - a.val) * (d.val - c.val) := rfl
  clear_value moved
  generalize (x - a) / (b - a) = n at *
  generalize d - c = e at *
  generalize ((x.val : ℝ) - a.val) / (b.val - a.val) = N at *
  generalize (d.val : ℝ) - c.val = E at *
  have hC' := hC
  generalize hcv : (c.val : ℝ) = C at *
  clear * - q1 q2 d1 d2 d3 hQ hM hMd hC hc hcv
  have m0 := abs_nonneg moved
  have hNE : |N| * |E| = |moved| := by rw [hMd, abs_mul]
  have hE0 := abs_nonneg E
  have hN0 := abs_nonneg N
  -- the product of the two rounded factors
  have p1 : |(n.val : ℝ) * e.val - moved| ≤ 4.11 / 2 ^ 24 * |moved| + 1 / 2 ^ 76 := by
    have e1 : (n.val : ℝ) * e.val - moved = (n.val - N) * E + N * (e.val - E) + (n.val - N) * (e.val - E) := by rw [hMd]; ring
    rw [e1]
    have t1 := abs_add_le (((n.val : ℝ) - N) * E + N * (e.val - E)) ((n.val - N) * (e.val - E))
    have t2 := abs_add_le (((n.val : ℝ) - N) * E) (N * (e.val - E))
    rw [abs_mul, abs_mul] at t2
    rw [abs_mul ((n.val : ℝ) - N) (e.val - E)] at t1
    have u1 := mul_le_mul_of_nonneg_right q2 hE0
    have u2 := mul_le_mul_of_nonneg_left d3 hN0
    have u3 := mul_le_mul q2 d3 (abs_nonneg _) (by positivity)
    have v1 : (3.1 / 2 ^ 24 * |N| + 1 / 2 ^ 110) * |E| = 3.1 / 2 ^ 24 * |moved| + |E| / 2 ^ 110 := by rw [← hNE]; ring
    have v2 : |N| * (|E| / 2 ^ 24 + 1 / 2 ^ 149) = |moved| / 2 ^ 24 + |N| / 2 ^ 149 := by rw [← hNE]; ring
    have v3 : (3.1 / 2 ^ 24 * |N| + 1 / 2 ^ 110) * (|E| / 2 ^ 24 + 1 / 2 ^ 149) =
      3.1 / 2 ^ 48 * |moved| + 3.1 / 2 ^ 173 * |N| + 1 / 2 ^ 134 * |E| + 1 / 2 ^ 110 * (1 / 2 ^ 149) := by rw [← hNE]; ring
    rw [v1] at u1
    rw [v2] at u2
    rw [v3] at u3
    generalize |((n.val : ℝ) - N) * E + N * (e.val - E) + (n.val - N) * (e.val - E)| = A at *
    generalize |((n.val : ℝ) - N) * E + N * (e.val - E)| = B at *
    generalize |(n.val : ℝ) - N| * |(e.val : ℝ) - E| = F at *
    generalize |(n.val : ℝ) - N| * |E| = G at *
    generalize |N| * |(e.val : ℝ) - E| = H at *
    generalize |moved| = M at *
    generalize |N| = N' at *
    generalize |E| = E' at *
    clear * - t1 t2 u1 u2 u3 d2 hQ m0
    norm_num at *; linarith
  have p2 : |(n.val : ℝ) * e.val| ≤ 1.001 * |moved| + 1 / 2 ^ 76 := by
    have := abs_sub_abs_le_abs_sub ((n.val : ℝ) * e.val) moved
    generalize |moved| = M at *
    norm_num at *; linarith
  obtain ⟨r1, r2⟩ := step_mul q1 d1 (p2.trans (by
    generalize |moved| = M at *
    norm_num at *; linarith))
  have r3 := r2.trans (add_le_add_left (div_le_div_of_nonneg_right p2 (by norm_num : (0:ℝ) ≤ 2 ^ 24)) _)
  have r4 : |((n * e).val : ℝ) - moved| ≤ 5.12 / 2 ^ 24 * |moved| + 1 / 2 ^ 75 := by
    have := abs_sub_le ((n * e).val : ℝ) (n.val * e.val) moved
    generalize |moved| = M at *
    clear * - this r3 p1 m0
    norm_num at *; linarith
  have c0 := abs_nonneg C
  have s0 : |(c.val : ℝ) + (n * e).val| ≤ 1.001 * |moved| + |C| + 1 / 2 ^ 75 := by
    rw [hcv]
    have t1 := abs_add_le C ((n * e).val : ℝ)
    have t2 := abs_sub_abs_le_abs_sub ((n * e).val : ℝ) moved
    generalize |moved| = M at *
    norm_num at *; linarith
  obtain ⟨s1, s2⟩ := step_add hc r1 (s0.trans (by
    generalize |moved| = M at *
    generalize |C| = C' at *
    norm_num at *; linarith))
  refine ⟨s1, ?_⟩
  have s3 := s2.trans (add_le_add_left (div_le_div_of_nonneg_right s0 (by norm_num : (0:ℝ) ≤ 2 ^ 24)) _)
  rw [hcv] at s3
  have e1 : ((c + n * e).val : ℝ) - (C + moved) = (((c + n * e).val : ℝ) - (C + (n * e).val)) + ((n * e).val - moved) := by ring
  rw [e1]
  have := abs_add_le (((c + n * e).val : ℝ) - (C + (n * e).val)) ((n * e).val - moved)
  generalize |moved| = M at *
  generalize |C| = C' at *
  clear * - this s3 r4 m0 c0
  norm_num at *; linarith

/-- **C96** for Wrap (binary32): the result differs from the input by a whole number of ranges, and lies in the range, up to a rounding
error of `2^-21` of the sizes involved. -/
theorem Wrap.C96_wrap {x lo hi : F32} (hx : x.isFin = true) (hX : |(x.val : ℝ)| ≤ 2 ^ 30) (hl : lo.isFin = true)
    (hL : |(lo.val : ℝ)| ≤ 2 ^ 30) (hh : hi.isFin = true) (hH : |(hi.val : ℝ)| ≤ 2 ^ 30) (hr : 1 / 2 ^ 30 ≤ (hi.val : ℝ) - lo.val) :
    let tol : ℝ := (|(x.val : ℝ)| + 2 * |(lo.val : ℝ)| + 2 * |(hi.val : ℝ)|) / 2 ^ 21
    let y := Wrap.process x lo hi
    y.isFin = true ∧ (∃ k : ℤ, |(y.val : ℝ) - (x.val - k * (hi.val - lo.val))| ≤ tol) ∧
      lo.val - tol ≤ y.val ∧ y.val ≤ hi.val + tol := by
  intro tol y
  have hR : 1 / 2 ^ 30 ≤ |(hi.val : ℝ) - lo.val| := hr.trans (le_abs_self _)
  obtain ⟨b1, b2, b3⟩ := diff_near hh hH hl hL
  obtain ⟨n1, n2, n3⟩ := diff_near hx hX hl hL
  obtain ⟨q0, q1, q2⟩ := quot_near n1 b1 n2 hR n3 b3
  have hRp : 0 < (hi.val : ℝ) - lo.val := lt_of_lt_of_le (by norm_num) hr
  have hy : y = x - (hi - lo) * Arith.floor ((x - lo) / (hi - lo)) := by
    show Wrap.process x lo hi = _
    unfold Wrap.process Wrap.wrapValue
    have z := lit_zero (f := binary32)
    have hpos : 0 < ((hi - lo).val : ℝ) := by
      have b4 := b3
      rw [abs_of_pos hRp] at b4
      have := abs_le.1 b4
      clear * - this hr
      generalize ((hi - lo : F32).val : ℝ) = w at *
      norm_num at *; linarith
    have : ((hi - lo) <=. lit 0) = false := by
      rw [le_fin b1 z.1, z.val_eq]; simpa using (by exact_mod_cast hpos : 0 < (hi - lo).val)
    simp only [this]; rfl
  clear_value y
  subst hy
  obtain ⟨k, hk⟩ : ∃ k : ℤ, k = ⌊((x - lo) / (hi - lo) : F32).val⌋ := ⟨_, rfl⟩
  have hf := floor_in q1 (by decide)
  rw [← hk] at hf
  have hkv : ((Arith.floor ((x - lo) / (hi - lo)) : F32).val : ℝ) = k := by rw [hf.val_eq]; push_cast; rfl
  have k1 : (k:ℝ) ≤ (((x - lo) / (hi - lo) : F32).val : ℝ) := by
    rw [hk]; exact_mod_cast Int.floor_le _
  have k2 : (((x - lo) / (hi - lo) : F32).val : ℝ) < k + 1 := by
    rw [hk]
    have := (Rat.cast_lt (K := ℝ)).2 (Int.lt_floor_add_one ((x - lo) / (hi - lo) : F32).val)
    push_cast at this; exact this
  have hf1 := hf.1
  generalize Arith.floor ((x - lo) / (hi - lo)) = F at *
  generalize (((x - lo) / (hi - lo) : F32).val : ℝ) = nh at *
  have htol : tol = (|(x.val : ℝ)| + 2 * |(lo.val : ℝ)| + 2 * |(hi.val : ℝ)|) / 2 ^ 21 := rfl
  clear_value tol
  have hxl : |(x.val : ℝ) - lo.val| ≤ |(x.val : ℝ)| + |(lo.val : ℝ)| := abs_sub _ _
  have hhl : |(hi.val : ℝ) - lo.val| ≤ |(hi.val : ℝ)| + |(lo.val : ℝ)| := abs_sub _ _
  have lo1 := neg_abs_le (lo.val : ℝ)
  have lo2 := le_abs_self (lo.val : ℝ)
  have hi1 := neg_abs_le (hi.val : ℝ)
  have hi2 := le_abs_self (hi.val : ℝ)
  have x0 := abs_nonneg (x.val : ℝ)
  generalize hgr : hi - lo = r at *
  rw [abs_of_pos hRp] at b2 b3 hhl
  generalize hgl : (lo.val : ℝ) = l at *
  generalize hgh : (hi.val : ℝ) = h at *
  generalize hgx : (x.val : ℝ) = X at *
  -- k ranges, exactly
  have hNR : (X - l) / (h - l) * (h - l) = X - l := div_mul_cancel₀ _ hRp.ne'
  have hNR' : |(X - l) / (h - l)| * (h - l) = |X - l| := by rw [abs_div, abs_of_pos hRp, div_mul_cancel₀ _ hRp.ne']
  generalize (X - l) / (h - l) = N at *
  have q3 := mul_le_mul_of_nonneg_right q2 hRp.le
  rw [add_mul, mul_assoc, hNR'] at q3
  have q4 : |nh * (h - l) - (X - l)| ≤ 3.1 / 2 ^ 24 * |X - l| + 1 / 2 ^ 110 * (h - l) := by
    rw [← hNR, ← sub_mul, abs_mul, abs_of_pos hRp, hNR]; exact q3
  have j1 : (k:ℝ) * (h - l) ≤ nh * (h - l) := mul_le_mul_of_nonneg_right k1 hRp.le
  have j2 : nh * (h - l) ≤ (k:ℝ) * (h - l) + (h - l) := by nlinarith
  have xl0 := abs_nonneg (X - l)
  have l0 := abs_nonneg l
  have h0 := abs_nonneg h
  have q5 := abs_le.1 q4
  have w1 := neg_abs_le (X - l)
  have w2 := le_abs_self (X - l)
  generalize |X - l| = a at *
  generalize |l| = la at *
  generalize |h| = ha at *
  generalize |X| = xa at *
  -- the exact remainder is in the range, almost
  have in1 : l - 3.2 / 2 ^ 24 * (a + (h - l)) ≤ X - k * (h - l) := by
    clear * - q5 j1 hRp xl0
    norm_num at *; linarith
  have in2 : X - k * (h - l) ≤ h + 3.2 / 2 ^ 24 * (a + (h - l)) := by
    clear * - q5 j2 hRp xl0
    norm_num at *; linarith
  have kR : |(k:ℝ) * (h - l)| ≤ 1.01 * a + 1.01 * (h - l) := by
    rw [abs_le]
    clear * - q5 j1 j2 hRp xl0 w1 w2
    norm_num at *; constructor <;> linarith
  have kRa : |(k:ℝ)| * (h - l) = |(k:ℝ) * (h - l)| := by rw [abs_mul, abs_of_pos hRp]
  -- the rounded multiple of the range
  have r1 : |(r.val : ℝ) * k - k * (h - l)| ≤ (1.001 / 2 ^ 24) * |(k:ℝ) * (h - l)| := by
    have e : (r.val : ℝ) * k - k * (h - l) = (r.val - (h - l)) * k := by ring
    rw [e, abs_mul, ← kRa]
    have : |(r.val : ℝ) - (h - l)| ≤ 1.001 / 2 ^ 24 * (h - l) := by
      refine b3.trans ?_
      clear * - hr
      norm_num at *; linarith
    have := mul_le_mul_of_nonneg_right this (abs_nonneg (k:ℝ))
    linarith
  have r2 : |(r.val : ℝ) * F.val| ≤ 1.02 * a + 1.02 * (h - l) := by
    rw [hkv]
    have := abs_sub_abs_le_abs_sub ((r.val : ℝ) * k) (k * (h - l))
    generalize |(k:ℝ) * (h - l)| = K at *
    clear * - this r1 kR hRp xl0
    norm_num at *; linarith
  obtain ⟨s1, s2⟩ := step_mul b1 hf1 (r2.trans (by
    clear * - n2 b2
    norm_num at *; linarith))
  have s3 := s2.trans (add_le_add_left (div_le_div_of_nonneg_right r2 (by norm_num : (0:ℝ) ≤ 2 ^ 24)) _)
  rw [hkv] at s3
  have s4 : |((r * F).val : ℝ) - k * (h - l)| ≤ 2.1 / 2 ^ 24 * (a + (h - l)) := by
    have := abs_sub_le ((r * F).val : ℝ) (r.val * k) (k * (h - l))
    generalize |(k:ℝ) * (h - l)| = K at *
    clear * - this s3 r1 kR hr xl0
    norm_num at *; linarith
  have t1 : |X - ((r * F).val : ℝ)| ≤ la + ha + 5.4 / 2 ^ 24 * (a + (h - l)) := by
    have := abs_le.1 s4
    rw [abs_le]
    clear * - this in1 in2 lo1 lo2 hi1 hi2 l0 h0
    norm_num at *; constructor <;> linarith
  obtain ⟨u1, u2⟩ := step_sub hx s1 (by
    rw [hgx]
    refine t1.trans ?_
    clear * - n2 b2 hL hH
    norm_num at *; linarith)
  rw [hgx] at u2
  have u3 := u2.trans (add_le_add_left (div_le_div_of_nonneg_right t1 (by norm_num : (0:ℝ) ≤ 2 ^ 24)) _)
  have u4 : |((x - r * F).val : ℝ) - (X - k * (h - l))| ≤ 2.2 / 2 ^ 24 * (a + (h - l)) + 1.1 / 2 ^ 24 * (la + ha) := by
    have e : ((x - r * F).val : ℝ) - (X - k * (h - l)) = (((x - r * F).val : ℝ) - (X - (r * F).val)) - ((r * F).val - k * (h - l)) := by ring
    rw [e]
    have := abs_sub (((x - r * F).val : ℝ) - (X - (r * F).val)) ((r * F).val - k * (h - l))
    clear * - this u3 s4 hr xl0 l0 h0
    norm_num at *; linarith
  refine ⟨u1, ⟨k, u4.trans ?_⟩, ?_, ?_⟩
  · rw [htol]
    clear * - hxl hhl x0 l0 h0
    norm_num at *; linarith
  · have := abs_le.1 u4
    rw [htol]
    clear * - this in1 hxl hhl x0 l0 h0
    norm_num at *; linarith
  · have := abs_le.1 u4
    rw [htol]
    clear * - this in2 hxl hhl x0 l0 h0
    norm_num at *; linarith

/-! ### Concrete cases -/

/-- A full-scale sample a quarter to the right. -/
example [Libm F32] [LibmSpec] : |((Pan2.process (lit 1) (lit 0.25) : Stereo F32).left.val : ℝ) - Real.cos (panTurn 0.25)| ≤ 8 / 2 ^ 24 := by
  have h := (Pan2.C96_pan (x := lit 1) (p := lit 0.25) (by decide +kernel) (by rw [lit_one.val_eq]; norm_num) (by decide +kernel)).1
  have e : (lit 0.25 : F32).val = 1 / 4 := by decide +kernel
  rw [lit_one.val_eq, e] at h
  norm_num at *; linarith

/-- MIDI controller 127 mapped to 20 kHz. -/
example : |((LinLin (lit 127) (lit 0) (lit 127) (lit 20) (lit 20000) : F32).val : ℝ) - 20000| ≤ 0.01 := by
  have e1 : (lit 127 : F32).val = 127 := by decide +kernel
  have e2 : (lit 20 : F32).val = 20 := by decide +kernel
  have e3 : (lit 20000 : F32).val = 20000 := by decide +kernel
  have h := (C96_linlin (x := lit 127) (a := lit 0) (b := lit 127) (c := lit 20) (d := lit 20000) (by decide +kernel) (by rw [e1]; norm_num)
    (by decide +kernel) (by rw [lit_zero.val_eq]; norm_num) (by decide +kernel) (by rw [e1]; norm_num) (by decide +kernel)
    (by rw [e2]; norm_num) (by decide +kernel) (by rw [e3]; norm_num) (by rw [e1, lit_zero.val_eq]; norm_num)).2
  rw [e1, e2, e3, lit_zero.val_eq] at h
  norm_num at *
  linarith

/-- Wrapping 100 into `[0, 2π]`. -/
example : ((Wrap.process (lit 100) (lit 0) TWO_PI : F32).val : ℝ) ≤ 6.29 := by
  have e1 : (lit 100 : F32).val = 100 := by decide +kernel
  have e2 : (TWO_PI : F32).val = 13176795 / 2 ^ 21 := by decide +kernel
  have h := (Wrap.C96_wrap (x := lit 100) (lo := lit 0) (hi := TWO_PI) (by decide +kernel) (by rw [e1]; norm_num) (by decide +kernel)
    (by rw [lit_zero.val_eq]; norm_num) (by decide +kernel) (by rw [e2]; norm_num) (by rw [e2, lit_zero.val_eq]; norm_num)).2.2.2
  rw [e1, e2, lit_zero.val_eq] at h
  norm_num at *
  linarith

end Verif
