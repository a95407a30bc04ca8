import Verif.Float.Near64
import Verif.Float.Order
import Verif.Lemmas.RLPFEnergy
import Verif.Model.Filters
import Verif.Props.ImprovedFloat

/-!
# C108: the resonant low pass is bounded in the arithmetic it is computed in

The coefficients, the two state variables and the conversion of the result are the double- and single-precision operations of the program,
with every rounding. `C107` is about ideal arithmetic.
-/

namespace Verif.RLPF
open FP

/-! ### The cutoff angle -/

/-- The cutoff angle as computed in `updateCoefficients`. -/
def angle (f sr : F32) : F64 := lit 2 * Conv.conv (PI : F32) * Conv.conv f / Conv.conv sr

theorem angle_range {f sr : F32} {k : ℚ} (hs : sr.In 1000 384000) (hf : f.In 1 (k * sr.val)) (hk : k ≤ 0.4951) :
    (angle f sr).In 0.00001636 (6.28319 * k + 1 / 2 ^ 30) := by
  have hp : (lit 2 * Conv.conv (PI : F32) : F64).In 6.2831 6.28319 := by decide +kernel
  have h1 := conv_up hs.1
  have h2 := conv_up hf.1
  unfold angle
  generalize (lit 2 * Conv.conv (PI : F32) : F64) = p at *
  generalize (Conv.conv f : F64) = F at *
  generalize (Conv.conv sr : F64) = S at *
  have e1 := h1.val_eq
  have e2 := h2.val_eq
  obtain ⟨fp, p0, p1⟩ := hp
  obtain ⟨-, s0, s1⟩ := hs
  obtain ⟨-, f0, f1⟩ := hf
  have sp : 0 < sr.val := by linarith
  have f2 : f.val ≤ 2 ^ 19 := f1.trans (by nlinarith)
  have m0 : 0 ≤ p.val * f.val := by nlinarith
  have m1 : p.val * f.val ≤ 7 * 2 ^ 19 := by nlinarith
  obtain ⟨a, b⟩ := mul64 fp h2.1 (by rw [e2, abs_of_nonneg m0]; linarith)
  rw [e2, abs_of_nonneg m0] at b
  obtain ⟨b0, b1⟩ := abs_le.1 b
  have n0 : 6.283 * f.val ≤ (p * F).val := by nlinarith
  have n1 : (p * F).val ≤ 6.28319 * f.val * (1 + 1 / 2 ^ 50) := by nlinarith
  have nn : 0 ≤ (p * F).val := by nlinarith
  have q0 : 6.283 / 384000 ≤ (p * F).val / sr.val := by
    rw [div_le_div_iff₀ (by norm_num) sp]; nlinarith
  have q1 : (p * F).val / sr.val ≤ 6.28319 * k * (1 + 1 / 2 ^ 50) := by
    rw [div_le_iff₀ sp]; nlinarith
  have kp : 0 ≤ k := by
    by_contra hn
    push Not at hn
    nlinarith
  have q2 : (p * F).val / sr.val ≤ 4 := by norm_num at *; linarith
  have qn : 0 ≤ (p * F).val / sr.val := div_nonneg nn sp.le
  obtain ⟨c, d⟩ := div64 a h1.1 (by rw [e1]; exact sp.ne') (by rw [e1, abs_of_nonneg qn]; linarith)
  rw [e1, abs_of_nonneg qn] at d
  obtain ⟨d0, d1⟩ := abs_le.1 d
  refine ⟨c, ?_, ?_⟩
  · norm_num at *; linarith
  · norm_num at *; linarith

/-- Sine and cosine of the angle. -/
theorem angle_trig {w : ℝ} (w0 : 0.00001636 ≤ w) (w1 : w ≤ 3.1109) :
    0.00001 ≤ Real.sin w ∧ 505 / (1 + Real.cos w) ≤ 4000000 ∧ 0 < 1 + Real.cos w := by
  have pi0 := Real.pi_gt_d6
  have pi1 := Real.pi_lt_d6
  have c1 : 0.00018 ≤ 1 + Real.cos w := by
    have e : Real.cos w = -Real.cos (Real.pi - w) := by rw [Real.cos_pi_sub]; ring
    have q := Real.cos_le_one_sub_mul_cos_sq (x := Real.pi - w) (by rw [abs_le]; constructor <;> norm_num at * <;> linarith)
    have y0 : 0.03069 ≤ Real.pi - w := by norm_num at *; linarith
    have y2 : 0.03069 ^ 2 ≤ (Real.pi - w) ^ 2 := pow_le_pow_left₀ (by norm_num) y0 2
    have y3 : 0.00018 ≤ 2 / Real.pi ^ 2 * (Real.pi - w) ^ 2 := by
      rw [div_mul_eq_mul_div, le_div_iff₀ (by positivity)]
      have : Real.pi ^ 2 ≤ 3.141593 ^ 2 := pow_le_pow_left₀ (by positivity) pi1.le 2
      norm_num at *
      linarith
    rw [e]; linarith
  refine ⟨?_, ?_, by norm_num at *; linarith⟩
  · rcases le_total w (Real.pi / 2) with h | h
    · have := Real.mul_le_sin (by norm_num at *; linarith) h
      refine le_trans ?_ this
      rw [div_mul_eq_mul_div, le_div_iff₀ (by positivity)]
      norm_num at *; linarith
    · have := Real.mul_le_sin (x := Real.pi - w) (by norm_num at *; linarith) (by linarith)
      rw [Real.sin_pi_sub] at this
      refine le_trans ?_ this
      rw [div_mul_eq_mul_div, le_div_iff₀ (by positivity)]
      norm_num at *; linarith
  · rw [div_le_iff₀ (by norm_num at *; linarith)]
    norm_num at *; linarith

/-! ### The coefficients -/

/-- The coefficients are close to those of a resonant low pass at the angle `w` with the damping `a`. -/
structure Tuned (w a : ℝ) (s : Filt F32 F64) : Prop where
  lo : Real.sin w / 61 ≤ a
  hi : a ≤ 5.1 * Real.sin w
  b0 : Near64 s.b0 ((1 - Real.cos w) / 2 / (1 + a)) (1 / 2 ^ 47)
  b1 : Near64 s.b1 ((1 - Real.cos w) / (1 + a)) (1 / 2 ^ 47)
  b2 : Near64 s.b2 ((1 - Real.cos w) / 2 / (1 + a)) (1 / 2 ^ 47)
  a1 : Near64 s.a1 (-2 * Real.cos w / (1 + a)) (1 / 2 ^ 47)
  a2 : Near64 s.a2 ((1 - a) / (1 + a)) (1 / 2 ^ 47)

/-- The damping. -/
theorem damping {sn Q : F64} {s : ℝ} (s0 : 0.00001 ≤ s) (s1 : s ≤ 1) (hs : Near64 sn s (1 / 2 ^ 50)) (hQ : Q.In 0.0999 30) :
    (sn / (lit 2 * Q)).isFin = true ∧ s / 61 ≤ (((sn / (lit 2 * Q)).val : ℚ) : ℝ) ∧ (((sn / (lit 2 * Q)).val : ℚ) : ℝ) ≤ 5.1 * s := by
  have h2 : (lit 2 : F64).In 2 2 := by decide +kernel
  obtain ⟨fq, q0, q1⟩ := hQ
  have qp : 0 ≤ Q.val := le_trans (by norm_num) q0
  obtain ⟨f2, e2⟩ := mul64 h2.1 fq (by rw [h2.val_eq, abs_of_nonneg (by linarith : 0 ≤ 2 * Q.val)]; linarith)
  rw [h2.val_eq, abs_of_nonneg (by linarith : 0 ≤ 2 * Q.val)] at e2
  generalize (lit 2 * Q : F64) = D at *
  have d0 : 0.1997 ≤ D.val := by have := (abs_le.1 e2).1; norm_num at *; linarith
  have d1 : D.val ≤ 60.01 := by have := (abs_le.1 e2).2; norm_num at *; linarith
  have d0' : (0.1997:ℝ) ≤ ((D.val : ℚ) : ℝ) := by have := (Rat.cast_le (K := ℝ)).2 d0; push_cast at this; exact this
  have d1' : ((D.val : ℚ) : ℝ) ≤ 60.01 := by have := (Rat.cast_le (K := ℝ)).2 d1; push_cast at this; exact this
  have dp : 0 < ((D.val : ℚ) : ℝ) := lt_of_lt_of_le (by norm_num) d0'
  obtain ⟨n0, n1⟩ := abs_le.1 hs.2
  have np : 0 ≤ ((sn.val : ℚ) : ℝ) := by norm_num at n0 s0; linarith
  have u : |((sn.val : ℚ) : ℝ) / ((D.val : ℚ) : ℝ)| ≤ 5.05 * s := by
    rw [abs_of_nonneg (by positivity), div_le_iff₀ dp]
    norm_num at *; nlinarith
  have R := Near64.rounded (z := sn / D) (q := sn.val / D.val) (r := ((sn.val : ℚ) : ℝ) / ((D.val : ℚ) : ℝ)) (A := 5.05 * s) (η := 0)
    (fun k => div64 hs.1 f2 (by intro h; rw [h] at d0; norm_num at d0) k) u (by push_cast; simp) (by norm_num at *; linarith)
  obtain ⟨r0, r1⟩ := abs_le.1 R.2
  refine ⟨R.1, ?_, ?_⟩
  · have l : s / 60.5 ≤ ((sn.val : ℚ) : ℝ) / ((D.val : ℚ) : ℝ) := by
      rw [le_div_iff₀ dp, div_mul_eq_mul_div, div_le_iff₀ (by norm_num)]
      norm_num at *; nlinarith
    norm_num at *; linarith
  · have := (abs_le.1 u).2
    norm_num at *; linarith

theorem coefs {al co : F64} {c sn : ℝ} (a0 : sn / 61 ≤ ((al.val : ℚ) : ℝ)) (a1 : ((al.val : ℚ) : ℝ) ≤ 5.1 * sn) (s0 : 0.00001 ≤ sn)
    (s1 : sn ≤ 1) (c0 : -1 ≤ c) (c1 : c ≤ 1) (fa : al.isFin = true) (C : Near64 co c (1 / 2 ^ 50)) :
    Near64 ((lit 1 - co) / lit 2 / (lit 1 + al)) ((1 - c) / 2 / (1 + ((al.val : ℚ) : ℝ))) (1 / 2 ^ 47) ∧
    Near64 ((lit 1 - co) / (lit 1 + al)) ((1 - c) / (1 + ((al.val : ℚ) : ℝ))) (1 / 2 ^ 47) ∧
    Near64 (-lit 2 * co / (lit 1 + al)) (-2 * c / (1 + ((al.val : ℚ) : ℝ))) (1 / 2 ^ 47) ∧
    Near64 ((lit 1 - al) / (lit 1 + al)) ((1 - ((al.val : ℚ) : ℝ)) / (1 + ((al.val : ℚ) : ℝ))) (1 / 2 ^ 47) := by
  have one : Near64 (lit 1 : F64) 1 0 := by have := Near64.of_in (x := (lit 1 : F64)) (v := 1) (by decide +kernel); simpa using this
  have two : Near64 (lit 2 : F64) 2 0 := by have := Near64.of_in (x := (lit 2 : F64)) (v := 2) (by decide +kernel); simpa using this
  have mtwo : Near64 (-lit 2 : F64) (-2) 0 := by have := Near64.of_in (x := (-lit 2 : F64)) (v := -2) (by decide +kernel); simpa using this
  have A := Near64.self fa
  generalize ((al.val : ℚ) : ℝ) = a at *
  have ap : 0 < a := lt_of_lt_of_le (by norm_num at *; linarith) a0
  have ah : a ≤ 5.1 := a1.trans (by norm_num; linarith)
  have d1 : 1 ≤ 1 + a := by linarith
  have J := Near64.mono (e := 11 / 2 ^ 53) (one.sub C (A := 2) (by rw [abs_le]; constructor <;> linarith) (by norm_num)) (by norm_num)
  have J2 := Near64.mono (e := 24 / 2 ^ 53) (J.div two (A := 1) (by norm_num) (by norm_num) (by rw [abs_le]; constructor <;> linarith) (by norm_num))
    (by norm_num)
  have D := Near64.mono (e := 6.2 / 2 ^ 53) (one.add A (A := 6.1) (by rw [abs_of_pos (by linarith)]; norm_num at *; linarith) (by norm_num)) (by norm_num)
  have E := Near64.mono (e := 5.2 / 2 ^ 53) (one.sub A (A := 5.1) (by rw [abs_le]; constructor <;> norm_num at * <;> linarith) (by norm_num)) (by norm_num)
  have K := Near64.mono (e := 18.1 / 2 ^ 53) (mtwo.mul C (A := 2) (T := 1) (by norm_num) (by rw [abs_le]; constructor <;> linarith) (by norm_num))
    (by norm_num)
  have b0 := Near64.mono (e := 1 / 2 ^ 47) (J2.div D (A := 1) d1 (by norm_num)
    (by rw [abs_of_nonneg (div_nonneg (by linarith) (by linarith)), div_le_iff₀ (by linarith)]; linarith) (by norm_num)) (by norm_num)
  have b1 := Near64.mono (e := 1 / 2 ^ 47) (J.div D (A := 2) d1 (by norm_num)
    (by rw [abs_of_nonneg (div_nonneg (by linarith) (by linarith)), div_le_iff₀ (by linarith)]; linarith) (by norm_num)) (by norm_num)
  have k1 := Near64.mono (e := 1 / 2 ^ 47) (K.div D (A := 2) d1 (by norm_num)
    (by rw [abs_div, abs_of_pos (by linarith : 0 < 1 + a), div_le_iff₀ (by linarith), abs_le]; constructor <;> linarith) (by norm_num)) (by norm_num)
  have k2 := Near64.mono (e := 1 / 2 ^ 47) (E.div D (A := 1) d1 (by norm_num)
    (by rw [abs_div, abs_of_pos (by linarith : 0 < 1 + a), div_le_iff₀ (by linarith), abs_le]; constructor <;> linarith) (by norm_num)) (by norm_num)
  exact ⟨b0, b1, k1, k2⟩

theorem tuned_update [Libm F64] [SinCos64] {s : Filt F32 F64} {k : ℚ} (hs : s.sampleRate.In 1000 384000) (hf : s.freq.In 1 (k * s.sampleRate.val))
    (hk : k ≤ 0.4951) (hr : s.resonance.In 0.0999 30) :
    ∃ a, Tuned (((angle s.freq s.sampleRate).val : ℚ) : ℝ) a (updateCoefficients s) := by
  have hw := angle_range hs hf hk
  have hw' : (angle s.freq s.sampleRate).In 0.00001636 3.1109 := hw.mono le_rfl (by norm_num at *; linarith)
  have w0 : (0.00001636:ℝ) ≤ (((angle s.freq s.sampleRate).val : ℚ) : ℝ) := by
    have := (Rat.cast_le (K := ℝ)).2 hw'.2.1; push_cast at this; exact this
  have w1 : (((angle s.freq s.sampleRate).val : ℚ) : ℝ) ≤ 3.1109 := by
    have := (Rat.cast_le (K := ℝ)).2 hw'.2.2; push_cast at this; exact this
  obtain ⟨s0, -, -⟩ := angle_trig w0 w1
  have hin : (angle s.freq s.sampleRate).In 0 3.15 := hw'.mono (by norm_num) (by norm_num)
  have S := SinCos64.sin_acc _ hin
  have C := SinCos64.cos_acc _ hin
  have hQ : (Conv.conv s.resonance : F64).In 0.0999 30 := (conv_up hr.1).mono hr.2.1 hr.2.2
  obtain ⟨fa, a0, a1⟩ := damping s0 (Real.sin_le_one _) S hQ
  have s1 := Real.sin_le_one (((angle s.freq s.sampleRate).val : ℚ) : ℝ)
  have c0 := Real.neg_one_le_cos (((angle s.freq s.sampleRate).val : ℚ) : ℝ)
  have c1 := Real.cos_le_one (((angle s.freq s.sampleRate).val : ℚ) : ℝ)
  obtain ⟨b0, b1, k1, k2⟩ := coefs a0 a1 s0 s1 c0 c1 fa C
  exact ⟨_, a0, a1, b0, b1, b0, k1, k2⟩

/-! ### One sample -/

/-- The operations of a sample, for coefficients and states that are close to real ones. -/
theorem tick_ops {b0 b1 b2 a1 a2 z1 z2 x : F64} {B0 B1 A1 A2 X Z1 Z2 Y : ℝ} (Y0 : 252 ≤ Y) (Y1 : Y ≤ 2 ^ 50)
    (hb0 : Near64 b0 B0 (1 / 2 ^ 47)) (hb1 : Near64 b1 B1 (1 / 2 ^ 47)) (hb2 : Near64 b2 B0 (1 / 2 ^ 47)) (ha1 : Near64 a1 A1 (1 / 2 ^ 47))
    (ha2 : Near64 a2 A2 (1 / 2 ^ 47)) (B0' : |B0| ≤ 1) (B1' : |B1| ≤ 2) (A1' : |A1| ≤ 2) (A2' : |A2| ≤ 1) (hx : Near64 x X 0) (X' : |X| ≤ 1)
    (hz1 : Near64 z1 Z1 0) (hz2 : Near64 z2 Z2 0) (Z1' : |Z1| ≤ Y) (Z2' : |Z2| ≤ 2 * Y) :
    Near64 (b0 * x + z1) (B0 * X + Z1) (1.3 * Y / 2 ^ 53) ∧
    Near64 (b1 * x - a1 * (b0 * x + z1) + z2) (B1 * X - A1 * (B0 * X + Z1) + Z2) (80 * Y / 2 ^ 53) ∧
    Near64 (b2 * x - a2 * (b0 * x + z1)) (B0 * X - A2 * (B0 * X + Z1)) (80 * Y / 2 ^ 53) := by
  have p0 := Near64.mono (e := 66 / 2 ^ 53) (hb0.mul hx B0' X' (by norm_num)) (by norm_num)
  have p1 := Near64.mono (e := 67 / 2 ^ 53) (hb1.mul hx B1' X' (by norm_num)) (by norm_num)
  have p2 := Near64.mono (e := 66 / 2 ^ 53) (hb2.mul hx B0' X' (by norm_num)) (by norm_num)
  have m0 : |B0 * X| ≤ 1 := by rw [abs_mul]; exact mul_le_one₀ B0' (abs_nonneg _) X'
  have m1 : |B1 * X| ≤ 2 := by rw [abs_mul]; nlinarith [abs_nonneg B1, abs_nonneg X]
  have o' : |B0 * X + Z1| ≤ 1 + Y := (abs_add_le _ _).trans (add_le_add m0 Z1')
  have o := Near64.mono (e := 1.3 * Y / 2 ^ 53) (p0.add hz1 o' (by linarith)) (by norm_num; linarith)
  have q1' : |A1 * (B0 * X + Z1)| ≤ 2 * (1 + Y) := by rw [abs_mul]; exact mul_le_mul A1' o' (abs_nonneg _) (by norm_num)
  have q2' : |A2 * (B0 * X + Z1)| ≤ 1 * (1 + Y) := by rw [abs_mul]; exact mul_le_mul A2' o' (abs_nonneg _) (by norm_num)
  have q1 := Near64.mono (e := 70 * Y / 2 ^ 53) (ha1.mul o A1' o' (by norm_num; linarith)) (by norm_num; linarith)
  have q2 := Near64.mono (e := 70 * Y / 2 ^ 53) (ha2.mul o A2' o' (by norm_num; linarith)) (by norm_num; linarith)
  have d1' : |B1 * X - A1 * (B0 * X + Z1)| ≤ 4 + 2 * Y := (abs_sub _ _).trans (by linarith)
  have d2' : |B0 * X - A2 * (B0 * X + Z1)| ≤ 2 + Y := (abs_sub _ _).trans (by linarith)
  have d1 := Near64.mono (e := 73 * Y / 2 ^ 53) (p1.sub q1 d1' (by norm_num; linarith)) (by norm_num; linarith)
  have d2 := Near64.mono (e := 80 * Y / 2 ^ 53) (p2.sub q2 d2' (by norm_num; linarith)) (by norm_num; linarith)
  have e1' : |B1 * X - A1 * (B0 * X + Z1) + Z2| ≤ 4 + 4 * Y := (abs_add_le _ _).trans (by linarith)
  exact ⟨o, Near64.mono (d1.add hz2 e1' (by norm_num; linarith)) (by norm_num; linarith), d2⟩

/-- What every call keeps true: finite state, and the energy at the cutoff angle below its level. -/
structure Sound (sr : F32) (k : ℚ) (s : Filt F32 F64) : Prop where
  rate : s.sampleRate = sr
  freq : s.freq.In 1 (k * sr.val)
  res : s.resonance.In 0.0999 30
  tuned : ∃ a, Tuned (((angle s.freq sr).val : ℚ) : ℝ) a s
  fin1 : s.z1.isFin = true
  fin2 : s.z2.isFin = true
  low : let w : ℝ := (((angle s.freq sr).val : ℚ) : ℝ)
    tilt (Real.cos w) (Real.sin w) (((s.z2.val : ℚ) : ℝ) + Real.cos w * ((s.z1.val : ℚ) : ℝ)) (Real.sin w * ((s.z1.val : ℚ) : ℝ))
      ≤ level (Real.cos w) (Real.sin w)

theorem Sound.angle {sr : F32} {k : ℚ} (hs : sr.In 1000 384000) (hk : k ≤ 0.4951) {s : Filt F32 F64} (h : Sound sr k s) :
    (0.00001636:ℝ) ≤ (((RLPF.angle s.freq sr).val : ℚ) : ℝ) ∧ (((RLPF.angle s.freq sr).val : ℚ) : ℝ) ≤ 3.1109 := by
  have hw : (RLPF.angle s.freq sr).In 0.00001636 3.1109 := (angle_range hs h.freq hk).mono le_rfl (by norm_num at *; linarith)
  constructor
  · have := (Rat.cast_le (K := ℝ)).2 hw.2.1; push_cast at this; exact this
  · have := (Rat.cast_le (K := ℝ)).2 hw.2.2; push_cast at this; exact this

/-- The step of the energy, with the errors of `tick_ops`. -/
theorem sound_step {c s a z1 z2 x n1 n2 : ℝ} (h : s ^ 2 + c ^ 2 = 1) (s0 : 0.00001 ≤ s) (p : 0 < 1 + c) (a0 : s / 61 ≤ a) (a1 : a ≤ 5.1 * s)
    (hx : |x| ≤ 1)
    (h1 : |n1 - ((1 - c) / (1 + a) * x - -2 * c / (1 + a) * ((1 - c) / 2 / (1 + a) * x + z1) + z2)| ≤ 80 * (505 / (1 + c)) / 2 ^ 53)
    (h2 : |n2 - ((1 - c) / 2 / (1 + a) * x - (1 - a) / (1 + a) * ((1 - c) / 2 / (1 + a) * x + z1))| ≤ 80 * (505 / (1 + c)) / 2 ^ 53)
    (hE : tilt c s (z2 + c * z1) (s * z1) ≤ level c s) : tilt c s (n2 + c * n1) (s * n1) ≤ level c s := by
  have sp : 0 < s := lt_of_lt_of_le (by norm_num) s0
  have ap : 0 < a := lt_of_lt_of_le (by positivity) a0
  have s2 : (0.00001:ℝ) ^ 2 ≤ s ^ 2 := pow_le_pow_left₀ (by norm_num) s0 2
  have cb : |c| ≤ 1 := abs_le.2 ⟨by nlinarith, by nlinarith⟩
  have J : 0 ≤ 1 - c := by linarith [(abs_le.1 cb).2]
  have small : 80 * (505 / (1 + c)) / 2 ^ 53 ≤ (1 - c) / 20 := by
    rw [mul_div_assoc', div_div, div_le_div_iff₀ (by positivity) (by norm_num)]
    norm_num at *
    nlinarith
  have B : |(1 - c) / 2 / (1 + a)| ≤ (1 - c) / 2 := by
    rw [abs_of_nonneg (by positivity)]
    exact div_le_self (by positivity) (by linarith)
  have B1 : |(1 - c) / (1 + a)| ≤ 1 - c := by
    rw [abs_of_nonneg (by positivity)]
    exact div_le_self (by positivity) (by linarith)
  have g : |2 * c / (1 + a)| ≤ 2 := by
    rw [abs_div, abs_of_pos (by linarith : 0 < 1 + a), div_le_iff₀ (by linarith), abs_mul]; norm_num; linarith
  have C1 : |(1 - a) / (1 + a)| ≤ 1 := by
    rw [abs_div, abs_of_pos (by linarith : 0 < 1 + a), div_le_iff₀ (by linarith), abs_le]; constructor <;> linarith
  have hp : |(1 - c) / (1 + a) + 2 * c / (1 + a) * ((1 - c) / 2 / (1 + a))| ≤ 2 * (1 - c) := by
    refine (abs_add_le _ _).trans ?_
    rw [abs_mul (2 * c / (1 + a))]
    have := mul_le_mul g B (abs_nonneg _) (by norm_num)
    linarith
  have hq : |(1 - c) / 2 / (1 + a) - (1 - a) / (1 + a) * ((1 - c) / 2 / (1 + a))| ≤ 1 - c := by
    refine (abs_sub _ _).trans ?_
    rw [abs_mul ((1 - a) / (1 + a))]
    have := mul_le_mul C1 B (abs_nonneg _) (by norm_num)
    linarith
  have key := tilt_step h sp a0 a1 rfl hx hp hq (h1.trans small) (h2.trans small) hE
  have one : (1 + (1 - a) / (1 + a)) * c = 2 * c / (1 + a) := by field_simp; ring
  rw [one] at key
  have e1 : n1 = 2 * c / (1 + a) * z1 + z2 + ((1 - c) / (1 + a) + 2 * c / (1 + a) * ((1 - c) / 2 / (1 + a))) * x +
      (n1 - ((1 - c) / (1 + a) * x - -2 * c / (1 + a) * ((1 - c) / 2 / (1 + a) * x + z1) + z2)) := by ring
  have e2 : n2 = -((1 - a) / (1 + a)) * z1 + ((1 - c) / 2 / (1 + a) - (1 - a) / (1 + a) * ((1 - c) / 2 / (1 + a))) * x +
      (n2 - ((1 - c) / 2 / (1 + a) * x - (1 - a) / (1 + a) * ((1 - c) / 2 / (1 + a) * x + z1))) := by ring
  rw [← e1, ← e2] at key
  exact key

/-- A sample: the calls keep it true, and the result before conversion is bounded. -/
theorem Sound.tick {sr : F32} {k : ℚ} (hs : sr.In 1000 384000) (hk : k ≤ 0.4951) {s : Filt F32 F64} (h : Sound sr k s) {x : F32} (hx : x.In (-1) 1) :
    Sound sr k (tick s x).1 ∧ (s.b0 * Conv.conv x + s.z1).isFin = true ∧
    |(((s.b0 * Conv.conv x + s.z1).val : ℚ) : ℝ)| ≤ 505 / (1 + Real.cos (((RLPF.angle s.freq sr).val : ℚ) : ℝ)) * (1 + 1 / 2 ^ 50) + 1 := by
  obtain ⟨w0, w1⟩ := h.angle hs hk
  obtain ⟨a, T⟩ := h.tuned
  obtain ⟨s0, y1, p⟩ := angle_trig w0 w1
  have low := h.low
  have tr := Real.sin_sq_add_cos_sq (((RLPF.angle s.freq sr).val : ℚ) : ℝ)
  have sp : 0 < Real.sin (((RLPF.angle s.freq sr).val : ℚ) : ℝ) := lt_of_lt_of_le (by norm_num) s0
  obtain ⟨l1, l2⟩ := level_state tr sp low
  have a0 := T.lo
  have a1 := T.hi
  have ap : 0 < a := lt_of_lt_of_le (by positivity) a0
  have hc := Real.cos_le_one (((RLPF.angle s.freq sr).val : ℚ) : ℝ)
  have hc' := Real.neg_one_le_cos (((RLPF.angle s.freq sr).val : ℚ) : ℝ)
  have Y0 : 252 ≤ 505 / (1 + Real.cos (((RLPF.angle s.freq sr).val : ℚ) : ℝ)) := by
    rw [le_div_iff₀ p]; linarith
  have X' : |((x.val : ℚ) : ℝ)| ≤ 1 := by
    have := abs_le.2 hx.2
    rw [← Rat.cast_le (K := ℝ)] at this
    push_cast at this; exact this
  obtain ⟨o, n1, n2⟩ := tick_ops Y0 (y1.trans (by norm_num)) T.b0 T.b1 T.b2 T.a1 T.a2
    (by rw [abs_of_nonneg (div_nonneg (by linarith) (by linarith)), div_le_iff₀ (by linarith)]; linarith)
    (by rw [abs_of_nonneg (div_nonneg (by linarith) (by linarith)), div_le_iff₀ (by linarith)]; linarith)
    (by rw [abs_div, abs_of_pos (by linarith : 0 < 1 + a), div_le_iff₀ (by linarith), abs_le]; constructor <;> linarith)
    (by rw [abs_div, abs_of_pos (by linarith : 0 < 1 + a), div_le_iff₀ (by linarith), abs_le]; constructor <;> linarith)
    (Near64.of_in (conv_up hx.1)) X' (Near64.self h.fin1) (Near64.self h.fin2) l1 (l2.trans (le_of_eq (by ring)))
  refine ⟨⟨h.rate, h.freq, h.res, ⟨a, a0, a1, T.b0, T.b1, T.b2, T.a1, T.a2⟩, n1.1, n2.1, ?_⟩, o.1, ?_⟩
  · exact sound_step tr s0 p a0 a1 X' n1.2 n2.2 low
  · have b : |(1 - Real.cos (((RLPF.angle s.freq sr).val : ℚ) : ℝ)) / 2 / (1 + a) * ((x.val : ℚ) : ℝ)| ≤ 1 := by
      rw [abs_mul]
      refine mul_le_one₀ ?_ (abs_nonneg _) X'
      rw [abs_of_nonneg (div_nonneg (by linarith) (by linarith)), div_le_iff₀ (by linarith)]; linarith
    refine (o.abs_le ((abs_add_le _ _).trans (add_le_add b l1))).trans ?_
    norm_num at *; linarith

/-! ### The setters -/

theorem top_range {sr : F32} (hs : sr.In 1000 384000) : (sr * lit 0.5 * lit 0.99 : F32).In 256 (0.4951 * sr.val) := by
  have h5 : (lit 0.5 : F32).In 0.5 0.5 := lit_rep (by decide +kernel)
  have h9 : (lit 0.99 : F32).In 0.9899 0.990001 := by decide +kernel
  have r1 : binary32.Rep 400 false := by decide +kernel
  have r2 : binary32.Rep (2 ^ 20) false := by decide +kernel
  have r3 : binary32.Rep 256 false := by decide +kernel
  obtain ⟨f, s0, s1⟩ := hs
  have m0 := mul_in f h5.1 r1 r2 (by rw [h5.val_eq]; linarith) (by rw [h5.val_eq]; linarith)
  have m1 : (sr * lit 0.5 : F32).val ≤ sr.val * 0.5 * (1 + 1 / 2 ^ 20) + 1 / 2 ^ 100 := by
    obtain ⟨zs, e⟩ := mul_def f h5.1
    rw [e, h5.val_eq]
    exact (Improved.up32 zs (by linarith) (by linarith)).2.2
  generalize (sr * lit 0.5 : F32) = N at *
  have l := mul_in m0.1 h9.1 r3 r2 (by have := m0.2.1; have := h9.2.1; norm_num at *; nlinarith)
    (by have := m0.2.2; have := m0.2.1; have := h9.2.2; have := h9.2.1; norm_num at *; nlinarith)
  refine ⟨l.1, l.2.1, ?_⟩
  obtain ⟨zs, e⟩ := mul_def m0.1 h9.1
  have n0 : 0 ≤ N.val * (lit 0.99 : F32).val := mul_nonneg (by linarith [m0.2.1]) (le_trans (by norm_num) h9.2.1)
  have n1 : N.val * (lit 0.99 : F32).val ≤ N.val * 0.990001 := mul_le_mul_of_nonneg_left h9.2.2 (by linarith [m0.2.1])
  have u := (Improved.up32 zs n0 (by have := m0.2.2; norm_num at *; linarith)).2.2
  rw [← e] at u
  norm_num at *
  linarith

/-- The cutoff stored by `setFreq`. -/
theorem setFreq_range [Libm F64] {sr f : F32} (hs : sr.In 1000 384000) (hf : f ≠ nan) {s : Filt F32 F64} (h : s.sampleRate = sr) :
    (setFreq f s).freq.In 1 (0.4951 * sr.val) := by
  have t := top_range hs
  have l1 : (lit 1 : F32).In 1 1 := by decide +kernel
  have := clamp_in hf l1 ⟨t.1, le_rfl, le_rfl⟩ (le_trans (by norm_num) t.2.1)
  subst h
  exact this.mono le_rfl t.2.2

theorem setFreq_dark [Libm F64] {sr f : F32} (hs : sr.In 1000 384000) (hf : f.isFin = true) (hq : f.val ≤ 1 / 4 * sr.val) {s : Filt F32 F64}
    (h : s.sampleRate = sr) : (setFreq f s).freq.In 1 (1 / 4 * sr.val) := by
  have t := top_range hs
  have l1 : (lit 1 : F32).In 1 1 := by decide +kernel
  have b := setFreq_range (f := f) hs (by rintro rfl; simp at hf) h
  subst h
  refine ⟨b.1, b.2.1, ?_⟩
  change (clamp f (lit 1) (s.sampleRate * lit 0.5 * lit 0.99)).val ≤ _
  unfold clamp
  rw [lt_fin hf l1.1, lt_fin t.1 hf, l1.val_eq]
  simp only [decide_eq_true_eq]
  split_ifs with h1 h2
  · rw [l1.val_eq]; linarith [hs.2.1]
  · linarith
  · exact hq

theorem setResonance_range [Libm F64] {r : F32} (hr : r ≠ nan) (s : Filt F32 F64) : (setResonance r s).resonance.In 0.0999 30 := by
  have l : (lit 0.1 : F32).In (lit 0.1 : F32).val (lit 0.1 : F32).val := ⟨by decide +kernel, le_rfl, le_rfl⟩
  have u : (lit 30 : F32).In 30 30 := by decide +kernel
  have b : 0.0999 ≤ (lit 0.1 : F32).val ∧ (lit 0.1 : F32).val ≤ 30 := by decide +kernel
  have := clamp_in hr l u b.2
  exact this.mono b.1 le_rfl

/-- With an empty state only the settings matter. -/
theorem sound_silent [Libm F64] [SinCos64] {sr : F32} {k : ℚ} (hs : sr.In 1000 384000) (hk : k ≤ 0.4951) {s : Filt F32 F64} (h : s.sampleRate = sr)
    (hf : s.freq.In 1 (k * sr.val)) (hr : s.resonance.In 0.0999 30) (h1 : s.z1 = lit 0) (h2 : s.z2 = lit 0) :
    Sound sr k (updateCoefficients s) := by
  subst h
  have z : (lit 0 : F64).In 0 0 := by decide +kernel
  refine ⟨rfl, hf, hr, tuned_update hs hf hk hr, ?_, ?_, ?_⟩
  · change s.z1.isFin = true; rw [h1]; exact z.1
  · change s.z2.isFin = true; rw [h2]; exact z.1
  · change tilt _ _ (((s.z2.val : ℚ) : ℝ) + _ * ((s.z1.val : ℚ) : ℝ)) (_ * ((s.z1.val : ℚ) : ℝ)) ≤ _
    rw [h1, h2, z.val_eq]
    unfold tilt level
    simp only [Rat.cast_zero, mul_zero, add_zero]
    norm_num
    positivity

theorem Sound.setResonance [Libm F64] [SinCos64] {sr : F32} {k : ℚ} (hs : sr.In 1000 384000) (hk : k ≤ 0.4951) {s : Filt F32 F64}
    (h : Sound sr k s) {r : F32} (hr : r ≠ nan) : Sound sr k (setResonance r s) := by
  have e := h.rate
  subst e
  have b := setResonance_range hr s
  exact ⟨rfl, h.freq, b, tuned_update (s := { s with resonance := (RLPF.setResonance r s).resonance }) hs h.freq hk b, h.fin1, h.fin2, h.low⟩

theorem Sound.reset {sr : F32} {k : ℚ} {s : Filt F32 F64} (h : Sound sr k s) : Sound sr k (reset s) := by
  have z : (lit 0 : F64).In 0 0 := by decide +kernel
  obtain ⟨a, T⟩ := h.tuned
  refine ⟨h.rate, h.freq, h.res, ⟨a, T.lo, T.hi, T.b0, T.b1, T.b2, T.a1, T.a2⟩, z.1, z.1, ?_⟩
  change tilt _ _ ((((lit 0 : F64).val : ℚ) : ℝ) + _ * (((lit 0 : F64).val : ℚ) : ℝ)) (_ * (((lit 0 : F64).val : ℚ) : ℝ)) ≤ _
  rw [z.val_eq]
  unfold tilt level
  simp only [Rat.cast_zero, mul_zero, add_zero]
  norm_num
  positivity

/-! ### Histories -/

/-- What a program does with the filter: `tune` resets it and sets the cutoff, `setFreq` sets the cutoff while it rings. -/
inductive Action
  | tune (f : F32)
  | setFreq (f : F32)
  | setResonance (r : F32)
  | reset
  | tick (x : F32)

/-- The samples returned. -/
def heard [Libm F64] : Filt F32 F64 → List Action → List F32
  | _, [] => []
  | s, .tune f :: l => heard (setFreq f (reset s)) l
  | s, .setFreq f :: l => heard (setFreq f s) l
  | s, .setResonance r :: l => heard (setResonance r s) l
  | s, .reset :: l => heard (reset s) l
  | s, .tick x :: l => (tick s x).2 :: heard (tick s x).1 l

/-- Input samples within full scale, resonances that are not NaN, cutoffs with `P` and only set together with a reset. -/
def Action.Ok (P : F32 → Prop) : Action → Prop
  | .tune f => P f
  | .setFreq _ => False
  | .setResonance r => r ≠ nan
  | .reset => True
  | .tick x => x.In (-1) 1

theorem heard_bounded [Libm F64] [SinCos64] {sr : F32} {k : ℚ} {P : F32 → Prop} {H : ℚ} (hs : sr.In 1000 384000) (hk : k ≤ 0.4951)
    (hP : ∀ f, P f → ∀ s : Filt F32 F64, s.sampleRate = sr → (setFreq f s).freq.In 1 (k * sr.val)) (R : binary32.Rep H false)
    (hH : ∀ w : ℝ, 0.00001636 ≤ w → w ≤ 6.28319 * k + 1 / 2 ^ 30 → 505 / (1 + Real.cos w) * (1 + 1 / 2 ^ 50) + 1 ≤ H) :
    ∀ (l : List Action) (s : Filt F32 F64), (∀ a ∈ l, a.Ok P) → Sound sr k s → ∀ y ∈ heard s l, y.In (-H) H
  | [], s, _, _ => by intro y hy; simp [heard] at hy
  | .tune f :: l, s, hl, h =>
    heard_bounded hs hk hP R hH l _ (fun a ha => hl a (List.mem_cons_of_mem _ ha))
      (sound_silent (s := { RLPF.reset s with freq := (setFreq f (RLPF.reset s)).freq }) hs hk h.rate
        (hP f (hl _ List.mem_cons_self) (RLPF.reset s) h.rate) h.res rfl rfl)
  | .setFreq f :: l, s, hl, h => (hl (.setFreq f) List.mem_cons_self).elim
  | .setResonance r :: l, s, hl, h =>
    heard_bounded hs hk hP R hH l _ (fun a ha => hl a (List.mem_cons_of_mem _ ha)) (h.setResonance hs hk (hl _ List.mem_cons_self))
  | .reset :: l, s, hl, h => heard_bounded hs hk hP R hH l _ (fun a ha => hl a (List.mem_cons_of_mem _ ha)) h.reset
  | .tick x :: l, s, hl, h => by
    obtain ⟨h', f, b⟩ := h.tick hs hk (hl _ List.mem_cons_self : x.In (-1) 1)
    intro y hy
    rcases List.mem_cons.1 hy with rfl | hy
    · have hw := angle_range hs h.freq hk
      have w0 : (0.00001636:ℝ) ≤ (((angle s.freq sr).val : ℚ) : ℝ) := by
        have := (Rat.cast_le (K := ℝ)).2 hw.2.1; push_cast at this; exact this
      have w1 : (((angle s.freq sr).val : ℚ) : ℝ) ≤ 6.28319 * k + 1 / 2 ^ 30 := by
        have := (Rat.cast_le (K := ℝ)).2 hw.2.2; push_cast at this; exact this
      have b' := b.trans (hH _ w0 w1)
      have q : |(s.b0 * Conv.conv x + s.z1).val| ≤ H := by
        rw [← Rat.cast_le (K := ℝ)]; push_cast; exact b'
      change (Conv.conv (s.b0 * Conv.conv x + s.z1) : F32).In (-H) H
      generalize s.b0 * Conv.conv x + s.z1 = z at *
      obtain ⟨v, nz, hv, rfl⟩ := isFin_cases f
      obtain ⟨l, u⟩ := abs_le.1 q
      exact ofRat_in (Rep.neg R) R l u
    · exact heard_bounded hs hk hP R hH l _ (fun a ha => hl a (List.mem_cons_of_mem _ ha)) h' y hy

/-- The filter as `init` leaves it. -/
theorem sound_init [Libm F64] [SinCos64] {sr : F32} {k : ℚ} (hs : sr.In 1000 384000) (hk : k ≤ 0.4951) (h : 440 ≤ k * sr.val) :
    Sound sr k (init sr : Filt F32 F64) := by
  have f : (lit 440 : F32).In 440 440 := by decide +kernel
  have r : (lit 0.707 : F32).In 0.0999 30 := by decide +kernel
  exact sound_silent hs hk rfl (f.mono (by norm_num) h) r rfl rfl

/-- **C108, every setting**: in the program's own arithmetic no sample of the resonant low pass is infinite, NaN or above `2^22`, however long it
runs at sample rates from 1 to 384 kHz: any cutoff that is not NaN, changed only together with a reset; any resonances that are not NaN, changed
at any time; any input within full scale. -/
theorem C108_finite [Libm F64] [SinCos64] (sr : F32) (hs : sr.In 1000 384000) (l : List Action) (hl : ∀ a ∈ l, a.Ok (· ≠ nan)) :
    ∀ y ∈ heard (init sr) l, y.In (-2 ^ 22) (2 ^ 22) := by
  refine heard_bounded (k := 0.4951) hs le_rfl (fun f hf s h => setFreq_range hs hf h) (by decide +kernel) ?_ l _ hl
    (sound_init hs le_rfl (by have := hs.2.1; norm_num at *; linarith))
  intro w w0 w1
  obtain ⟨-, b, -⟩ := angle_trig w0 (w1.trans (by norm_num))
  push_cast
  norm_num at *
  linarith

/-- **C108, dark settings**: with cutoffs up to a quarter of the sample rate no sample exceeds 512. -/
theorem C108_dark [Libm F64] [SinCos64] (sr : F32) (hs : sr.In 1760 384000) (l : List Action)
    (hl : ∀ a ∈ l, a.Ok fun f => f.isFin = true ∧ f.val ≤ 1 / 4 * sr.val) : ∀ y ∈ heard (init sr) l, y.In (-512) 512 := by
  have hs' : sr.In 1000 384000 := hs.mono (by norm_num) le_rfl
  refine heard_bounded (k := 1 / 4) hs' (by norm_num) (fun f hf s h => setFreq_dark hs' hf.1 hf.2 h) (by decide +kernel) ?_ l _ hl
    (sound_init hs' (by norm_num) (by have := hs.2.1; norm_num at *; linarith))
  intro w w0 w1
  have c : -0.001 ≤ Real.cos w := by
    have := Real.pi_gt_d6
    rcases le_total w (Real.pi / 2) with h | h
    · refine le_trans (by norm_num) (Real.cos_nonneg_of_neg_pi_div_two_le_of_le (by norm_num at *; linarith) h)
    · have e : Real.cos w = -Real.sin (w - Real.pi / 2) := by rw [Real.sin_sub_pi_div_two]; ring
      have := Real.sin_le (x := w - Real.pi / 2) (by linarith)
      rw [e]
      norm_num at *; linarith
  have : 505 / (1 + Real.cos w) ≤ 506 := by
    rw [div_le_iff₀ (by norm_num at *; linarith)]
    norm_num at *; linarith
  push_cast
  norm_num at *
  linarith

/-- Non-trivial case: 48 kHz, a cutoff of 12 kHz, the resonance thrown from one end to the other while a square wave plays. -/
example (n : ℕ) : letI := idealLibm64
    ∀ y ∈ heard (init (lit 48000)) (.tune (lit 12000) ::
      (List.replicate n [.setResonance (lit 1000), .tick (lit 1), .setResonance (lit (-1)), .tick (lit (-1))]).flatten
      ++ [.reset, .tick (lit 1)]), y.In (-512) 512 := by
  let _ := idealLibm64
  have := idealLibm64_sincos
  refine C108_dark (lit 48000) (by decide +kernel) _ (fun a ha => ?_)
  simp only [List.mem_cons, List.mem_append, List.mem_flatten, List.mem_replicate, List.not_mem_nil, or_false] at ha
  rcases ha with (rfl | ⟨k, ⟨-, rfl⟩, hk⟩) | rfl | rfl
  · exact ⟨by decide +kernel, by decide +kernel⟩
  · simp only [List.mem_cons, List.not_mem_nil, or_false] at hk
    rcases hk with rfl | rfl | rfl | rfl <;> simp only [Action.Ok] <;> decide +kernel
  · trivial
  · simp only [Action.Ok]; decide +kernel

end Verif.RLPF
