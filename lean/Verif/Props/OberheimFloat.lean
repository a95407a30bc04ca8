import Verif.Props.KrajeskiFloat

/-!
# C97: the Oberheim ladder is bounded in the arithmetic it is computed in
-/

namespace Verif
open FP

/-- Range assumed of the double-precision `tan` well below π/4: `tan 0.78` is 0.9893. -/
class Tan64Spec [Libm F64] : Prop where
  tan_unit : ∀ x : F64, x.In 0 0.78 → (Libm.tan x).In 0 0.99

theorem tan_small {x : ℝ} (h0 : 0 ≤ x) (h1 : x ≤ 0.78) : 0 ≤ Real.tan x ∧ Real.tan x ≤ 0.9895 := by
  have hpi := Real.pi_gt_d4
  have hpi2 := Real.pi_lt_d4
  refine ⟨Real.tan_nonneg_of_nonneg_of_le_pi_div_two h0 (by norm_num at *; linarith), ?_⟩
  have hm : Real.tan x ≤ Real.tan 0.78 := by
    refine Real.strictMonoOn_tan.monotoneOn ⟨?_, ?_⟩ ⟨?_, ?_⟩ h1 <;> norm_num at * <;> linarith
  refine hm.trans ?_
  obtain ⟨d, hd⟩ : ∃ d, d = Real.pi / 4 - 0.78 := ⟨_, rfl⟩
  have e : (0.78:ℝ) = Real.pi / 4 - d := by rw [hd]; ring
  have d0 : 0.00537 ≤ d := by rw [hd]; norm_num at *; linarith
  have d1 : d ≤ 0.0055 := by rw [hd]; norm_num at *; linarith
  have hs : 0 < Real.sqrt 2 / 2 := by positivity
  have sd := Real.sin_gt_sub_cube (x := d) (by norm_num at d0; linarith)
  have hcube : d ^ 3 ≤ 0.0055 ^ 3 := pow_le_pow_left₀ (by norm_num at d0; linarith) d1 3
  have cd := Real.cos_le_one d
  have cd0 : 0 < Real.cos d := Real.cos_pos_of_mem_Ioo ⟨by norm_num at *; linarith, by norm_num at *; linarith⟩
  have sin1 : Real.sin 0.78 = Real.sqrt 2 / 2 * (Real.cos d - Real.sin d) := by
    rw [e, Real.sin_sub, Real.sin_pi_div_four, Real.cos_pi_div_four]; ring
  have cos1 : Real.cos 0.78 = Real.sqrt 2 / 2 * (Real.cos d + Real.sin d) := by
    rw [e, Real.cos_sub, Real.sin_pi_div_four, Real.cos_pi_div_four]; ring
  have sd0 : 0.00536 ≤ Real.sin d := by norm_num at *; linarith
  have cpos : 0 < Real.cos 0.78 := by rw [cos1]; exact mul_pos hs (by norm_num at sd0; linarith)
  rw [Real.tan_eq_sin_div_cos, div_le_iff₀ cpos, sin1, cos1]
  have : Real.cos d - Real.sin d ≤ 0.9895 * (Real.cos d + Real.sin d) := by norm_num at *; linarith
  calc _ ≤ Real.sqrt 2 / 2 * (0.9895 * (Real.cos d + Real.sin d)) := mul_le_mul_of_nonneg_left this hs.le
    _ = _ := by ring

theorem idealLibm64_tan : @Tan64Spec idealLibm64 := by
  refine @Tan64Spec.mk idealLibm64 ?_
  intro x hx
  obtain ⟨v, nz, hv, rfl⟩ := FP.isFin_cases hx.1
  have hv0 : (0:ℚ) ≤ v := hx.2.1
  have hv8 : v ≤ 0.78 := hx.2.2
  have hv0' : (0:ℝ) ≤ v := by exact_mod_cast hv0
  have hv8' : (v:ℝ) ≤ 0.78 := by
    have : ((v:ℚ):ℝ) ≤ ((0.78:ℚ):ℝ) := by exact_mod_cast hv8
    norm_num at this ⊢; exact this
  obtain ⟨a, b⟩ := tan_small hv0' hv8'
  have R : binary64.Rep (1037900 / 2 ^ 20) false := by decide +kernel
  have := FP.ofK_in' (f := binary64) (zs := false) (x := Real.tan v) rep_zero R (by simpa using a) (by norm_num at *; linarith)
  exact this.mono le_rfl (by norm_num)

namespace Oberheim

/-! ### One pole -/

/-- A product that is exact because one factor is 1. -/
theorem mul_one64 {x y : F64} (hx : x.isFin = true) (hy : y.In 1 1) : (x * y).In x.val x.val := by
  refine mul_in hx hy.1 (rep_val x) (rep_val x) ?_ ?_ <;> rw [hy.val_eq, mul_one]

theorem one_mul64 {x y : F64} (hx : x.In 1 1) (hy : y.isFin = true) : (x * y).In y.val y.val := by
  refine mul_in hx.1 hy (rep_val y) (rep_val y) ?_ ?_ <;> rw [hx.val_eq, one_mul]

theorem zero_mul64 {x y : F64} (hx : x.In 0 0) (hy : y.isFin = true) : (x * y).In 0 0 := by
  refine mul_in hx.1 hy rep_zero rep_zero ?_ ?_ <;> rw [hx.val_eq, zero_mul]

theorem add_zero64 {x y : F64} {v : ℚ} (hx : x.In v v) (hy : y.In 0 0) : (x + y).In v v := by
  have R : binary64.Rep v false := by rw [← hx.val_eq]; exact rep_val x
  exact add_in hx hy R R (by linarith) (by linarith)

theorem zero_add64 {x y : F64} {v : ℚ} (hx : x.In 0 0) (hy : y.In v v) : (x + y).In v v := by
  have R : binary64.Rep v false := by rw [← hy.val_eq]; exact rep_val y
  exact add_in hx hy R R (by linarith) (by linarith)

/-- The state of a pole: the constants of `init`, and coefficients and state within bounds. -/
structure PoleOk (top Z : ℚ) (f : OnePole F64) : Prop where
  alpha : f.alpha.In 0 top
  beta : f.beta.NN 0
  gamma : f.gamma.In 1 1
  delta : f.delta.In 0 0
  epsilon : f.epsilon.In 0 0
  a0 : f.a0.In 1 1
  feedback : f.feedback.In 0 0
  z1 : f.z1.In (-Z) Z

/-- What a pole does with a sample, with the multiplications by one and additions of zero removed. -/
theorem pole_exact {top Z : ℚ} {f : OnePole F64} (h : PoleOk top Z f) (hZ : Z ≤ 2 ^ 28) {s : F64} (hs : s.isFin = true) :
    ∃ t : F64, t.In s.val s.val ∧ (f.tick s).2 = (t - f.z1) * f.alpha + f.z1 ∧
      (f.tick s).1 = { f with z1 := (t - f.z1) * f.alpha + ((t - f.z1) * f.alpha + f.z1) } := by
  have hz : f.z1.Mag 28 := h.z1.mono (by norm_num at *; linarith) hZ
  have hfb : f.feedbackOutput.isFin = true := by
    have a := zero_mul64 h.feedback h.delta.1
    have b := add_zero64 (in_val h.z1.1) a
    have c : (f.z1 + f.feedback * f.delta).Mag 28 := b.mono (hz.2.1) (hz.2.2)
    exact (h.beta.mag.mul c).1
  have h1 := add_zero64 (add_zero64 (mul_one64 hs h.gamma) h.feedback) (zero_mul64 h.epsilon hfb)
  have h2 := one_mul64 h.a0 h1.1
  rw [h1.val_eq] at h2
  exact ⟨_, h2, rfl, rfl⟩

/-- The levels `M` of the input and `Z` of the state of a pole with a gain of at most `top`. -/
structure Fits (top M Z : ℚ) : Prop where
  one : 1 ≤ M
  le : M + Z / 2 ^ 44 ≤ Z
  big : Z ≤ 2 ^ 28
  rep : binary64.Rep Z false
  gain : top ≤ 1 / 2 ∨ top ≤ 1 ∧ 2 * top * (M + Z) + Z / 2 ^ 44 ≤ 2 * Z

/-- The step `vn` of a pole: its rounding error, and its sign. -/
theorem step_near {M Z : ℚ} (hM : 1 ≤ M) (hMZ : M ≤ Z) (hZ : Z ≤ 2 ^ 28) {t z G : F64} (ht : t.In (-M) M) (hz : z.In (-Z) Z)
    (hG : G.In 0 1) :
    ((t - z) * G).isFin = true ∧ |((t - z) * G).val - (t.val - z.val) * G.val| ≤ Z / 2 ^ 48 ∧
    (z.val ≤ t.val → 0 ≤ ((t - z) * G).val) ∧ (t.val ≤ z.val → ((t - z) * G).val ≤ 0) := by
  have a1 := abs_le.2 ht.2
  have a2 := abs_le.2 hz.2
  have d0 : |t.val - z.val| ≤ 2 * Z := (abs_sub _ _).trans (by linarith)
  obtain ⟨f1, e1⟩ := sub64 ht.1 hz.1 (d0.trans (by norm_num at hZ ⊢; linarith))
  have g0 := hG.2.1
  have g1 := hG.2.2
  have d1 : |(t - z).val - (t.val - z.val)| ≤ Z / 2 ^ 51 := e1.trans (by linarith)
  have d2 : |(t - z).val| ≤ 3 * Z := (Krajeski.abs_near d1 d0).trans (by linarith)
  have d3 : |(t - z).val * G.val| ≤ 3 * Z := by
    rw [abs_mul, abs_of_nonneg g0]
    exact (mul_le_mul d2 g1 g0 (by linarith)).trans (by linarith)
  obtain ⟨f2, e2⟩ := mul64 f1 hG.1 (d3.trans (by norm_num at hZ ⊢; linarith))
  have d4 : |((t - z).val - (t.val - z.val)) * G.val| ≤ Z / 2 ^ 51 := by
    rw [abs_mul, abs_of_nonneg g0]
    exact (mul_le_mul d1 g1 g0 (by linarith)).trans (by linarith)
  have R : binary64.Rep (2 ^ 200) false := rep64_two_pow (by norm_num)
  have big : (3:ℚ) * Z ≤ 2 ^ 200 := by norm_num at hZ ⊢; linarith
  refine ⟨f2, ?_, fun h => ?_, fun h => ?_⟩
  · have eq : ((t - z) * G).val - (t.val - z.val) * G.val =
        (((t - z) * G).val - (t - z).val * G.val) + ((t - z).val - (t.val - z.val)) * G.val := by ring
    rw [eq]
    refine (abs_add_le _ _).trans ?_
    linarith
  · have h1 : (t - z).In 0 (2 ^ 200) :=
      sub_in (in_val ht.1) (in_val hz.1) rep_zero R (by linarith) (by have := abs_le.1 d0; linarith)
    exact (mul_in f1 hG.1 rep_zero R (mul_nonneg h1.2.1 g0) ((abs_le.1 d3).2.trans big)).2.1
  · have h1 : (t - z).In (-2 ^ 200) 0 :=
      sub_in (in_val ht.1) (in_val hz.1) (Rep.neg R) rep_zero (by have := abs_le.1 d0; linarith) (by linarith)
    exact (mul_in f1 hG.1 (Rep.neg R) rep_zero (by have := abs_le.1 d3; linarith) (mul_nonpos_of_nonpos_of_nonneg h1.2.2 g0)).2.2

/-- The rounding of a sum within `2 Z`. -/
theorem sum_err {Z : ℚ} (h1 : 1 ≤ Z) (hZ : Z ≤ 2 ^ 28) {x y : F64} (hx : x.isFin = true) (hy : y.isFin = true)
    (h : |x.val + y.val| ≤ 2 * Z) : |(x + y).val - (x.val + y.val)| ≤ Z / 2 ^ 51 := by
  obtain ⟨-, e⟩ := add64 hx hy (h.trans (by norm_num at hZ ⊢; linarith))
  exact e.trans (by linarith)

/-- The state after an exact step towards a larger input. -/
theorem turn_le {top M Z z t G : ℚ} (g0 : 0 ≤ G) (g1 : G ≤ top) (hle : M + Z / 2 ^ 44 ≤ Z) (hM : 1 ≤ M) (h : z ≤ t) (z1 : -Z ≤ z)
    (t2 : t ≤ M) (hgain : top ≤ 1 / 2 ∨ top ≤ 1 ∧ 2 * top * (M + Z) + Z / 2 ^ 44 ≤ 2 * Z) :
    z + 2 * ((t - z) * G) ≤ Z - Z / 2 ^ 44 := by
  rcases le_total G (1 / 2) with hh | hh
  · have := mul_le_mul_of_nonneg_left hh (sub_nonneg.2 h)
    linarith
  · rcases hgain with hg | ⟨-, hg⟩
    · have := mul_le_mul_of_nonneg_left (g1.trans hg) (sub_nonneg.2 h)
      linarith
    · have k1 : G * (M + Z) ≤ top * (M + Z) := mul_le_mul_of_nonneg_right g1 (by linarith)
      have k2 : (2 * G - 1) * (-Z) ≤ (2 * G - 1) * z := mul_le_mul_of_nonneg_left z1 (by linarith)
      have k3 : G * t ≤ G * M := mul_le_mul_of_nonneg_left t2 g0
      linarith

/-- One step of a pole with all roundings: output and state stay within `Z`. -/
theorem pole_in {top M Z : ℚ} (hf : Fits top M Z) {t z G : F64} (ht : t.In (-M) M) (hz : z.In (-Z) Z) (hG : G.In 0 top) :
    ((t - z) * G + z).In (-Z) Z ∧ ((t - z) * G + ((t - z) * G + z)).In (-Z) Z := by
  obtain ⟨hM, hle, hbig, R, hgain⟩ := hf
  have htop : top ≤ 1 := by rcases hgain with h | h <;> linarith [h]
  have Z0 : 1 ≤ Z := by
    have : (0:ℚ) ≤ Z / 2 ^ 44 := by
      by_contra hneg
      have : Z < 0 := by
        by_contra h2
        exact hneg (by have := not_lt.1 h2; positivity)
      have h3 : Z / 2 ^ 44 ≥ Z := by
        rw [ge_iff_le, le_div_iff₀ (by norm_num)]; nlinarith
      linarith
    linarith
  have hMZ : M ≤ Z := by have : (0:ℚ) ≤ Z / 2 ^ 44 := by positivity
                         linarith
  obtain ⟨fv, ev, pos, neg⟩ := step_near hM hMZ hbig ht hz (hG.mono le_rfl htop)
  generalize hv : (t - z) * G = v at *
  have g0 := hG.2.1
  have g1 := hG.2.2
  have t1 := ht.2.1
  have t2 := ht.2.2
  have z1 := hz.2.1
  have z2 := hz.2.2
  obtain ⟨ev1, ev2⟩ := abs_le.1 ev
  have out : -Z ≤ v.val + z.val ∧ v.val + z.val ≤ Z := by
    rcases le_total t.val z.val with h | h
    · have := neg h
      have h3 : t.val - z.val ≤ (t.val - z.val) * G.val := by nlinarith
      exact ⟨by linarith, by linarith⟩
    · have := pos h
      have h3 : (t.val - z.val) * G.val ≤ t.val - z.val := by nlinarith
      exact ⟨by linarith, by linarith⟩
  have ho : (v + z).In (-Z) Z := add_in (in_val fv) (in_val hz.1) (Rep.neg R) R out.1 out.2
  refine ⟨ho, ?_⟩
  have eo := sum_err Z0 hbig fv hz.1 ((abs_le.2 out).trans (by linarith))
  obtain ⟨eo1, eo2⟩ := abs_le.1 eo
  have o1 := ho.2.1
  have o2 := ho.2.2
  refine add_in (in_val fv) (in_val ho.1) (Rep.neg R) R ?_ ?_
  · rcases le_total z.val t.val with h | h
    · linarith [pos h]
    · have key := turn_le (z := -z.val) (t := -t.val) g0 g1 hle (by linarith) (by linarith) (by linarith) (by linarith) hgain
      have e : (-t.val - -z.val) * G.val = -((t.val - z.val) * G.val) := by ring
      rw [e] at key
      linarith
  · rcases le_total t.val z.val with h | h
    · linarith [neg h]
    · have key := turn_le g0 g1 hle hM h z1 t2 hgain
      linarith

/-! ### The coefficients -/

/-- The prewarped gain computed by `setCutoff`. -/
theorem warp_in {T t : F64} {B : ℚ} (hT : T.In (1 / 2 ^ 20) 1) (ht : t.In 0 B) (hB : B ≤ 64) :
    (lit 2 / T * t * T / lit 2 : F64).In 0 (B + 1 / 2 ^ 40) := by
  have l2 : (lit 2 : F64).In 2 2 := by decide +kernel
  have T0 : 0 < T.val := lt_of_lt_of_le (by positivity) hT.2.1
  have T1 := hT.2.1
  have T2 := hT.2.2
  have B0 : 0 ≤ B := ht.2.1.trans ht.2.2
  have t0 := ht.2.1
  have t1 := ht.2.2
  have R : binary64.Rep (2 ^ 100) false := rep64_two_pow (by norm_num)
  -- 2 / T
  have q0 : 0 ≤ 2 / T.val := by positivity
  have q1 : 2 / T.val ≤ 2 ^ 21 := by rw [div_le_iff₀ T0]; norm_num at *; linarith
  have hx := div_in l2.1 hT.1 T0.ne' rep_zero R (by rw [l2.val_eq]; exact q0) (by rw [l2.val_eq]; exact q1.trans (by norm_num))
  obtain ⟨-, ex⟩ := div64 l2.1 hT.1 T0.ne' (by rw [l2.val_eq, abs_of_nonneg q0]; exact q1.trans (by norm_num))
  rw [l2.val_eq, abs_of_nonneg q0] at ex
  generalize (lit 2 / T : F64) = x at *
  have x0 := hx.2.1
  have x1 : x.val * T.val ≤ 2 + 1 / 2 ^ 50 := by
    have h1 := (abs_le.1 ex).2
    have h2 : x.val * T.val ≤ (2 / T.val + (2 / T.val / 2 ^ 53 + 1 / 2 ^ 250)) * T.val := mul_le_mul_of_nonneg_right (by linarith) T0.le
    have h3 : (2 / T.val + (2 / T.val / 2 ^ 53 + 1 / 2 ^ 250)) * T.val = 2 + 2 / 2 ^ 53 + T.val / 2 ^ 250 := by field_simp; norm_num; ring
    rw [h3] at h2
    norm_num at *; linarith
  have x2 : x.val ≤ 2 ^ 22 := by have h1 := (abs_le.1 ex).2; norm_num at *; linarith
  -- * t
  have m0 : 0 ≤ x.val * t.val := mul_nonneg x0 t0
  have m1 : x.val * t.val ≤ x.val * B := mul_le_mul_of_nonneg_left t1 x0
  have m2 : x.val * t.val ≤ 2 ^ 28 := (mul_le_mul x2 (t1.trans hB) t0 (by norm_num)).trans (by norm_num)
  have hy := mul_in hx.1 ht.1 rep_zero R m0 (m2.trans (by norm_num))
  obtain ⟨-, ey⟩ := mul64 hx.1 ht.1 (by rw [abs_of_nonneg m0]; exact m2.trans (by norm_num))
  rw [abs_of_nonneg m0] at ey
  generalize x * t = y at *
  have y0 := hy.2.1
  have y1 : y.val * T.val ≤ 2 * B + 1 / 2 ^ 43 := by
    have h1 := (abs_le.1 ey).2
    have h2 : y.val * T.val ≤ (x.val * B * (1 + 1 / 2 ^ 53) + 1 / 2 ^ 250) * T.val :=
      mul_le_mul_of_nonneg_right (by linarith) T0.le
    have h3 : (x.val * B * (1 + 1 / 2 ^ 53) + 1 / 2 ^ 250) * T.val = x.val * T.val * (B * (1 + 1 / 2 ^ 53)) + T.val / 2 ^ 250 := by ring
    have h4 : x.val * T.val * (B * (1 + 1 / 2 ^ 53)) ≤ (2 + 1 / 2 ^ 50) * (B * (1 + 1 / 2 ^ 53)) :=
      mul_le_mul_of_nonneg_right x1 (by positivity)
    rw [h3] at h2
    norm_num at *; linarith
  -- * T
  have n0 : 0 ≤ y.val * T.val := mul_nonneg y0 T0.le
  have hz := mul_in hy.1 hT.1 rep_zero R n0 (y1.trans (by norm_num at *; linarith))
  obtain ⟨-, ez⟩ := mul64 hy.1 hT.1 (by rw [abs_of_nonneg n0]; exact y1.trans (by norm_num at *; linarith))
  rw [abs_of_nonneg n0] at ez
  generalize y * T = z at *
  have z0 := hz.2.1
  have z1 : z.val ≤ 2 * B + 1 / 2 ^ 42 := by have h1 := (abs_le.1 ez).2; norm_num at *; linarith
  -- / 2
  have o0 : 0 ≤ z.val / 2 := by positivity
  have o1 : z.val / 2 ≤ B + 1 / 2 ^ 43 := by linarith
  have hw := div_in hz.1 l2.1 (by rw [l2.val_eq]; norm_num) rep_zero R (by rw [l2.val_eq]; exact o0)
    (by rw [l2.val_eq]; exact o1.trans (by norm_num at *; linarith))
  obtain ⟨-, ew⟩ := div64 hz.1 l2.1 (by rw [l2.val_eq]; norm_num)
    (by rw [l2.val_eq, abs_of_nonneg o0]; exact o1.trans (by norm_num at *; linarith))
  rw [l2.val_eq, abs_of_nonneg o0] at ew
  exact ⟨hw.1, hw.2.1, by have h1 := (abs_le.1 ew).2; norm_num at *; linarith⟩

/-- The gain of a pole from the prewarped gain. -/
theorem pole_gain {g : F64} {B top : ℚ} (hg : g.In 0 B) (hB : B ≤ 65) (R : binary64.Rep top false) (t0 : 1 / 2 ≤ top)
    (t1 : top ≤ 1) (h : B * (1 - top) + 1 / 2 ^ 40 ≤ top) : (g / (lit 1 + g)).In 0 top := by
  have h1 := lit_one (f := binary64)
  have g0 := hg.2.1
  have g1 := hg.2.2
  have s0 : |(lit 1 : F64).val + g.val| ≤ 66 := by
    rw [h1.val_eq, abs_of_nonneg (by linarith)]; linarith
  obtain ⟨fs, es⟩ := add64 h1.1 hg.1 (s0.trans (by norm_num))
  have lo : 1 + g.val - 1 / 2 ^ 44 ≤ (lit 1 + g).val := by
    have h2 := (abs_le.1 es).1
    rw [h1.val_eq] at *
    norm_num at *; linarith
  have pos : 0 < (lit 1 + g).val := by norm_num at lo ⊢; linarith
  refine div_in hg.1 fs pos.ne' rep_zero R (div_nonneg g0 pos.le) ?_
  rw [div_le_iff₀ pos]
  have k1 : top * (1 + g.val - 1 / 2 ^ 44) ≤ top * (lit 1 + g).val := mul_le_mul_of_nonneg_left lo (by linarith)
  have k2 : g.val * (1 - top) ≤ B * (1 - top) := mul_le_mul_of_nonneg_right g1 (by linarith)
  norm_num at *
  linarith

/-- The argument of `tan` for cutoffs up to 0.248 of the sample rate. -/
theorem arg_dark {sr c : F32} (hs : sr.In 100 (2 ^ 20)) (hc : c.In 0 (0.248 * sr.val)) :
    (lit 2 * Conv.conv (PI : F32) * Conv.conv c * (lit 1 / Conv.conv sr) / lit 2 : F64).In 0 0.78 := by
  have hS : Sane sr c (lit 0) := ⟨hs, hc.mono le_rfl (by have := hs.2.1; norm_num; linarith), by decide +kernel⟩
  obtain ⟨hT, ha⟩ := oberheim_arg hS
  refine ⟨ha.1, ha.2.1, ?_⟩
  have hp : (lit 2 * Conv.conv (PI : F32) : F64).In 6.28 6.2832 := by decide +kernel
  have l1 := lit_one (f := binary64)
  have l2 : (lit 2 : F64).In 2 2 := by decide +kernel
  have h1 := conv_up hs.1
  have h2 := conv_up hc.1
  have s0 : 0 < sr.val := by linarith [hs.2.1]
  have c0 := hc.2.1
  have c1 := hc.2.2
  have s1 := hs.2.2
  have s2 := hs.2.1
  have T0 : 0 ≤ (lit 1 / Conv.conv sr : F64).val := le_trans (by positivity) hT.2.1
  have T1 := hT.2.2
  have i0 : 0 ≤ 1 / sr.val := by positivity
  have i1 : 1 / sr.val ≤ 1 := by rw [div_le_one s0]; linarith
  obtain ⟨fT, eT⟩ := div64 l1.1 h1.1 (by rw [h1.val_eq]; exact s0.ne') (by rw [l1.val_eq, h1.val_eq, abs_of_nonneg i0]; exact i1.trans (by norm_num))
  rw [l1.val_eq, h1.val_eq, abs_of_nonneg i0] at eT
  clear ha hT hS h1
  generalize (lit 1 / Conv.conv sr : F64) = T at *
  generalize (lit 2 * Conv.conv (PI : F32) : F64) = p at *
  have p0 := hp.2.1
  have p1 := hp.2.2
  have hTs : T.val * sr.val ≤ 1.0001 := by
    have a1 := (abs_le.1 eT).2
    have a2 : T.val * sr.val ≤ (1 / sr.val + (1 / sr.val / 2 ^ 53 + 1 / 2 ^ 250)) * sr.val := mul_le_mul_of_nonneg_right (by linarith) s0.le
    have a3 : (1 / sr.val + (1 / sr.val / 2 ^ 53 + 1 / 2 ^ 250)) * sr.val = 1 + 1 / 2 ^ 53 + sr.val / 2 ^ 250 := by field_simp; norm_num; ring
    rw [a3] at a2
    norm_num at *; linarith
  have m0 : 0 ≤ p.val * c.val := mul_nonneg (by norm_num at p0; linarith) c0
  have m1 : p.val * c.val ≤ 6.2832 * (0.248 * sr.val) := mul_le_mul p1 c1 c0 (by norm_num)
  have m2 : p.val * c.val ≤ 2 ^ 30 := by norm_num at *; linarith
  obtain ⟨fx, ex⟩ := mul64 hp.1 h2.1 (by rw [h2.val_eq, abs_of_nonneg m0]; exact m2.trans (by norm_num))
  have x0 := (mul_in hp.1 h2.1 rep_zero (rep64_two_pow (k := 30) (by norm_num)) (by rw [h2.val_eq]; exact m0) (by rw [h2.val_eq]; exact m2)).2.1
  rw [h2.val_eq, abs_of_nonneg m0] at ex
  generalize (p * Conv.conv c : F64) = x at *
  have x1 : x.val ≤ 1.5583 * sr.val := by have := (abs_le.1 ex).2; norm_num at *; linarith
  have n0 : 0 ≤ x.val * T.val := mul_nonneg x0 T0
  have n1 : x.val * T.val ≤ 1.5585 := by
    have a1 : x.val * T.val ≤ 1.5583 * sr.val * T.val := mul_le_mul_of_nonneg_right x1 T0
    norm_num at *; linarith
  obtain ⟨fy, ey⟩ := mul64 fx fT (by rw [abs_of_nonneg n0]; exact n1.trans (by norm_num))
  have y0 := (mul_in fx fT rep_zero (rep64_two_pow (k := 1) (by norm_num)) n0 (n1.trans (by norm_num))).2.1
  rw [abs_of_nonneg n0] at ey
  generalize x * T = y at *
  have y1 : y.val ≤ 1.5586 := by have := (abs_le.1 ey).2; norm_num at *; linarith
  have o0 : 0 ≤ y.val / 2 := by positivity
  obtain ⟨-, ez⟩ := div64 fy l2.1 (by rw [l2.val_eq]; norm_num)
    (by rw [l2.val_eq, abs_of_nonneg o0]; norm_num at *; linarith)
  rw [l2.val_eq, abs_of_nonneg o0] at ez
  have := (abs_le.1 ez).2
  norm_num at *; linarith

/-! ### The whole ladder -/

/-- Levels the four poles stay within, for gains up to `top`. -/
structure Levels (top : ℚ) (M : ℕ → ℚ) : Prop where
  zero : M 0 = 1
  fits : ∀ i, i < 4 → Fits top (M i) (M (i + 1))

/-- The invariant. -/
structure FBdd (sr : F32) (top : ℚ) (M : ℕ → ℚ) (s : Ladder F32 F64) : Prop where
  rate : s.sampleRate = sr
  K : s.K.NN 2
  gamma : s.gamma.NN 0
  alpha0 : s.alpha0.NN 0
  saturation : s.saturation.In 1 1
  c0 : s.c0.In 0 0
  c1 : s.c1.In 0 0
  c2 : s.c2.In 0 0
  c3 : s.c3.In 0 0
  c4 : s.c4.In 1 1
  f0 : PoleOk top (M 1) s.f0
  f1 : PoleOk top (M 2) s.f1
  f2 : PoleOk top (M 3) s.f2
  f3 : PoleOk top (M 4) s.f3

theorem pole_tick {top M Z : ℚ} (hf : Fits top M Z) {f : OnePole F64} (h : PoleOk top Z f) {s : F64} (hs : s.In (-M) M) :
    PoleOk top Z (f.tick s).1 ∧ (f.tick s).2.In (-Z) Z := by
  obtain ⟨t, ht, e1, e2⟩ := pole_exact h hf.big hs.1
  have ht' : t.In (-M) M := ht.mono hs.2.1 hs.2.2
  obtain ⟨a, b⟩ := pole_in hf ht' h.z1 h.alpha
  rw [e1, e2]
  exact ⟨⟨h.alpha, h.beta, h.gamma, h.delta, h.epsilon, h.a0, h.feedback, b⟩, a⟩

theorem feedback_mag {top Z : ℚ} {f : OnePole F64} (h : PoleOk top Z f) (hZ : Z ≤ 2 ^ 28) : f.feedbackOutput.Mag 28 := by
  have hz : f.z1.Mag 28 := h.z1.mono (by norm_num at *; linarith) hZ
  have a := zero_mul64 h.feedback h.delta.1
  have b := add_zero64 (in_val h.z1.1) a
  have c : (f.z1 + f.feedback * f.delta).Mag 28 := b.mono (hz.2.1) (hz.2.2)
  exact (h.beta.mag.mul c).up 28

theorem tick_fbdd [Libm F64] [Libm64Spec] {sr : F32} {top : ℚ} {M : ℕ → ℚ} (L : Levels top M) (s : Ladder F32 F64) (x : F32)
    (hx : x.isFin = true) (h : FBdd sr top M s) :
    FBdd sr top M (tick s x).1 ∧ ∃ y : F64, y.In (-M 4) (M 4) ∧ (tick s x).2 = Conv.conv y := by
  have hxm := conv_up_mag hx
  have F0 := L.fits 0 (by omega)
  have F1 := L.fits 1 (by omega)
  have F2 := L.fits 2 (by omega)
  have F3 := L.fits 3 (by omega)
  have s1 := (feedback_mag h.f0 F0.big).add (feedback_mag h.f1 F1.big)
  have s2 := s1.add ((feedback_mag h.f2 F2.big).up 29)
  have s3 := s2.add ((feedback_mag h.f3 F3.big).up 30)
  have k1 : (lit 1 + s.K).Mag 3 := h.K.one_add.mono (by norm_num) (by norm_num)
  have i1 := hxm.mul k1
  have i2 := h.K.mag.mul s3
  have i3 := (i1.sub (i2.up 131)).mul h.alpha0.mag
  have hsat : s.saturation.Mag 0 := h.saturation.mono (by norm_num) (by norm_num)
  have i4 := hsat.mul i3
  obtain ⟨u, hu⟩ : ∃ u, u = Libm.tanh (s.saturation * ((Conv.conv x * (lit 1 + s.K) - s.K * (s.f0.feedbackOutput + s.f1.feedbackOutput
      + s.f2.feedbackOutput + s.f3.feedbackOutput)) * s.alpha0)) := ⟨_, rfl⟩
  have t0 : u.In (-M 0) (M 0) := by
    rw [L.zero, hu]
    refine Libm64Spec.tanh_range _ (fun e => ?_)
    rw [e] at i4
    exact absurd i4.1 (by simp)
  obtain ⟨p0, o0⟩ := pole_tick F0 h.f0 t0
  obtain ⟨p1, o1⟩ := pole_tick F1 h.f1 o0
  obtain ⟨p2, o2⟩ := pole_tick F2 h.f2 o1
  obtain ⟨p3, o3⟩ := pole_tick F3 h.f3 o2
  have ho := zero_add64 (zero_add_zero (zero_add_zero (zero_add_zero (zero_mul64 h.c0 t0.1) (zero_mul64 h.c1 o0.1)) (zero_mul64 h.c2 o1.1))
    (zero_mul64 h.c3 o2.1)) (one_mul64 h.c4 o3.1)
  have ho' := ho.mono o3.2.1 o3.2.2
  subst hu
  exact ⟨⟨h.rate, h.K, h.gamma, h.alpha0, h.saturation, h.c0, h.c1, h.c2, h.c3, h.c4, p0, p1, p2, p3⟩, _, ho', rfl⟩

theorem setCutoff_fbdd [Libm F64] {sr : F32} {top top' B : ℚ} {M : ℕ → ℚ} (hs : sr.In 100 (2 ^ 20)) (P : F32 → Prop)
    (hP : ∀ c, P c → (Libm.tan (lit 2 * Conv.conv (PI : F32) * Conv.conv c * (lit 1 / Conv.conv sr) / lit 2 : F64)).In 0 B)
    (hB : B ≤ 64) (R : binary64.Rep top false) (t0 : 1 / 2 ≤ top) (t1 : top ≤ 1) (ht : (B + 1 / 2 ^ 40) * (1 - top) + 1 / 2 ^ 40 ≤ top)
    (c : F32) (s : Ladder F32 F64) (hc : P c) (h : FBdd sr top' M s) : FBdd sr top M (setCutoff c s) := by
  have hT : (lit 1 / Conv.conv s.sampleRate : F64).In (1 / 2 ^ 20) 1 := by
    have hS : Sane sr (lit 0) (lit 0) := ⟨hs, lit_zero.mono le_rfl (by have := hs.2.1; norm_num; linarith), by decide +kernel⟩
    have := (oberheim_arg hS).1
    rw [h.rate]
    exact this.mono (by norm_num) le_rfl
  have ht0 := hP c hc
  rw [← h.rate] at ht0
  have hg := warp_in hT ht0 hB
  have hG := pole_gain hg (by linarith) R t0 t1 ht
  have hgn : (lit 2 / (lit 1 / Conv.conv s.sampleRate) * Libm.tan (lit 2 * Conv.conv (PI : F32) * Conv.conv c * (lit 1 / Conv.conv s.sampleRate) / lit 2)
      * (lit 1 / Conv.conv s.sampleRate) / lit 2 : F64).NN 7 := hg.mono le_rfl (by norm_num; linarith)
  have h1g := hgn.one_add
  have hGn := hG.mono (b' := 2 ^ 0) le_rfl (by norm_num; exact t1)
  have hGn' := show NN 0 _ from hGn
  have l1 : (lit 1 : F64).NN 0 := by decide +kernel
  have b0 := ((hGn'.mul hGn').mul hGn').div h1g.1 h1g.2.1
  have b1 := (hGn'.mul hGn').div h1g.1 h1g.2.1
  have b2 := hGn'.div h1g.1 h1g.2.1
  have b3 := l1.div h1g.1 h1g.2.1
  have hga := ((hGn'.mul hGn').mul hGn').mul hGn'
  have hden := (h.K.mul hga).one_add
  have ha0 := l1.div hden.1 hden.2.1
  exact ⟨h.rate, h.K, hga, ha0, h.saturation, lit_zero, lit_zero, lit_zero, lit_zero, lit_one,
    ⟨hG, b0, h.f0.gamma, h.f0.delta, h.f0.epsilon, h.f0.a0, h.f0.feedback, h.f0.z1⟩,
    ⟨hG, b1, h.f1.gamma, h.f1.delta, h.f1.epsilon, h.f1.a0, h.f1.feedback, h.f1.z1⟩,
    ⟨hG, b2, h.f2.gamma, h.f2.delta, h.f2.epsilon, h.f2.a0, h.f2.feedback, h.f2.z1⟩,
    ⟨hG, b3, h.f3.gamma, h.f3.delta, h.f3.epsilon, h.f3.a0, h.f3.feedback, h.f3.z1⟩⟩

theorem setResonance_fbdd {sr : F32} {top : ℚ} {M : ℕ → ℚ} (r : F32) (s : Ladder F32 F64) (hr : r ≠ nan) (h : FBdd sr top M s) :
    FBdd sr top M (setResonance r s) := by
  have hc := clamp01_range hr
  have hc' := conv_up hc.1
  have hc2 : (Conv.conv (clamp01 r) : F64).NN 0 :=
    ⟨hc'.1, by rw [hc'.val_eq]; exact hc.2.1, by rw [hc'.val_eq]; norm_num; exact hc.2.2⟩
  have l4 : (lit 4 : F64).NN 2 := by decide +kernel
  have l1 : (lit 1 : F64).NN 0 := by decide +kernel
  have hK := l4.mul hc2
  have hden := (hK.mul h.gamma).one_add
  exact ⟨h.rate, hK, h.gamma, l1.div hden.1 hden.2.1, h.saturation, h.c0, h.c1, h.c2, h.c3, h.c4, h.f0, h.f1, h.f2, h.f3⟩

theorem Levels.nonneg {top : ℚ} {M : ℕ → ℚ} (L : Levels top M) : ∀ i, i < 4 → 0 ≤ M (i + 1) := by
  intro i hi
  have h := L.fits i hi
  by_contra hneg
  have h1 := not_le.1 hneg
  have h2 := h.one
  have h3 := h.le
  have h4 : M (i + 1) ≤ M (i + 1) / 2 ^ 44 := by rw [le_div_iff₀ (by norm_num)]; nlinarith
  linarith

theorem reset_fbdd {sr : F32} {top : ℚ} {M : ℕ → ℚ} (L : Levels top M) (s : Ladder F32 F64) (h : FBdd sr top M s) :
    FBdd sr top M (reset s) := by
  have z : ∀ i, i < 4 → (lit 0 : F64).In (-M (i + 1)) (M (i + 1)) := fun i hi =>
    lit_zero.mono (by linarith [L.nonneg i hi]) (L.nonneg i hi)
  exact ⟨h.rate, h.K, h.gamma, h.alpha0, h.saturation, h.c0, h.c1, h.c2, h.c3, h.c4,
    ⟨h.f0.alpha, h.f0.beta, h.f0.gamma, h.f0.delta, h.f0.epsilon, h.f0.a0, lit_zero, z 0 (by omega)⟩,
    ⟨h.f1.alpha, h.f1.beta, h.f1.gamma, h.f1.delta, h.f1.epsilon, h.f1.a0, lit_zero, z 1 (by omega)⟩,
    ⟨h.f2.alpha, h.f2.beta, h.f2.gamma, h.f2.delta, h.f2.epsilon, h.f2.a0, lit_zero, z 2 (by omega)⟩,
    ⟨h.f3.alpha, h.f3.beta, h.f3.gamma, h.f3.delta, h.f3.epsilon, h.f3.a0, lit_zero, z 3 (by omega)⟩⟩

theorem play_fbdd [Libm F64] [Libm64Spec] {sr : F32} {top B k : ℚ} {M : ℕ → ℚ} (L : Levels top M) (hs : sr.In 100 (2 ^ 20))
    (hP : ∀ c : F32, c.In 0 (k * sr.val) →
      (Libm.tan (lit 2 * Conv.conv (PI : F32) * Conv.conv c * (lit 1 / Conv.conv sr) / lit 2 : F64)).In 0 B)
    (hB : B ≤ 64) (R : binary64.Rep top false) (t0 : 1 / 2 ≤ top) (t1 : top ≤ 1) (ht : (B + 1 / 2 ^ 40) * (1 - top) + 1 / 2 ^ 40 ≤ top)
    (h1000 : 1000 ≤ k * sr.val) (s0 : Ladder F32 F64) (l : List (LadderCall F32)) (hl : ∀ a ∈ l, Fair sr k a) :
    ∀ y ∈ api.play (init sr s0) l, ∃ z : F64, z.In (-M 4) (M 4) ∧ y = Conv.conv z := by
  have z : ∀ i, i < 4 → (lit 0 : F64).In (-M (i + 1)) (M (i + 1)) := fun i hi =>
    lit_zero.mono (by linarith [L.nonneg i hi]) (L.nonneg i hi)
  have c1 : (lit 1000 : F32).In 1000 1000 := by decide +kernel
  have h01 : (lit 0.1 : F32) ≠ nan := by decide +kernel
  have n0 : (lit 0 : F64).NN 0 := by decide +kernel
  have n2 : (lit 0 : F64).NN 2 := by decide +kernel
  have n1 : (lit 1 : F64).NN 0 := by decide +kernel
  have o1 : (lit 1 : F64).In 0 1 := lit_one.mono (by norm_num) le_rfl
  refine LadderApi.play_all api (FBdd sr top M) (Fair sr k) (fun y => ∃ z : F64, z.In (-M 4) (M 4) ∧ y = Conv.conv z)
    (fun c s hc hb => setCutoff_fbdd hs (fun c => c.In 0 (k * sr.val)) hP hB R t0 t1 ht c s hc hb)
    (fun r s hr hb => setResonance_fbdd r s hr hb) (fun s hb => reset_fbdd L s hb) (fun s x hx hb => tick_fbdd L s x hx hb) l hl _ ?_
  refine setResonance_fbdd _ _ h01 (setCutoff_fbdd (top' := 1) hs (fun c => c.In 0 (k * sr.val)) hP hB R t0 t1 ht _ _
    (c1.mono (by norm_num) h1000) ?_)
  exact ⟨rfl, n2, n0, n1, lit_one, lit_zero, lit_zero, lit_zero, lit_zero, lit_one,
    ⟨o1, n0, lit_one, lit_zero, lit_zero, lit_one, lit_zero, z 0 (by omega)⟩,
    ⟨o1, n0, lit_one, lit_zero, lit_zero, lit_one, lit_zero, z 1 (by omega)⟩,
    ⟨o1, n0, lit_one, lit_zero, lit_zero, lit_one, lit_zero, z 2 (by omega)⟩,
    ⟨o1, n0, lit_one, lit_zero, lit_zero, lit_one, lit_zero, z 3 (by omega)⟩⟩

theorem calm_fits : Levels (1 / 2) Krajeski.calm := by
  refine ⟨by simp [Krajeski.calm], fun i hi => ?_⟩
  have e : Krajeski.calm (i + 1) = Krajeski.calm i + 1 / 2 ^ 40 := by unfold Krajeski.calm; push_cast; ring
  have h1 : 1 ≤ Krajeski.calm i := by unfold Krajeski.calm; have : (0:ℚ) ≤ (i:ℚ) / 2 ^ 40 := by positivity
                                      linarith
  obtain ⟨-, h2⟩ := Krajeski.calm_levels.le (i + 1) (by omega)
  refine ⟨h1, by rw [e] at *; linarith, h2.trans (by norm_num), Krajeski.calm_levels.rep (i + 1) (by omega), Or.inl le_rfl⟩

/-- Levels for gains up to 127/128. -/
def wild (i : ℕ) : ℚ := 128 ^ i

theorem wild_fits : Levels (127 / 128) wild := by
  refine ⟨by simp [wild], fun i hi => ?_⟩
  have h1 : (1:ℚ) ≤ wild i := by unfold wild; exact one_le_pow₀ (by norm_num)
  have e : wild (i + 1) = 128 * wild i := by unfold wild; rw [pow_succ]; ring
  refine ⟨h1, by rw [e]; linarith, ?_, ?_, Or.inr ⟨by norm_num, by rw [e]; linarith⟩⟩
  · interval_cases i <;> norm_num [wild]
  · interval_cases i <;> decide +kernel

/-- **C97, Oberheim, dark settings**: in the program's own arithmetic, with the cutoff kept between 0 and 0.248 of the sample rate, no
output sample of the Oberheim ladder exceeds 1 - whatever finite samples are fed in, whatever the resonances, cutoff changes and resets,
for however long. -/
theorem C97_dark [Libm F64] [Libm64Spec] [Tan64Spec] (sr : F32) (hs : sr.In 4100 (2 ^ 20)) (s0 : Ladder F32 F64)
    (l : List (LadderCall F32)) (hl : ∀ a ∈ l, Fair sr 0.248 a) : ∀ y ∈ api.play (init sr s0) l, y.In (-1) 1 := by
  intro y hy
  have hs' := hs.mono (a' := 100) (by norm_num) le_rfl
  obtain ⟨z, hz, rfl⟩ := play_fbdd (B := 0.99) calm_fits hs' (fun c hc => Tan64Spec.tan_unit _ (arg_dark hs' hc)) (by norm_num)
    (by decide +kernel) le_rfl (by norm_num) (by norm_num) (by have := hs.2.1; norm_num; linarith) s0 l hl y hy
  exact Krajeski.conv_calm hz

/-- **C97, Oberheim, bright settings**: with cutoffs up to 0.45 of the sample rate the output stays below 2^28. -/
theorem C97_bright [Libm F64] [Libm64Spec] (sr : F32) (hs : sr.In 2300 (2 ^ 20)) (s0 : Ladder F32 F64)
    (l : List (LadderCall F32)) (hl : ∀ a ∈ l, Fair sr 0.45 a) : ∀ y ∈ api.play (init sr s0) l, y.In (-2 ^ 28) (2 ^ 28) := by
  intro y hy
  have hs' := hs.mono (a' := 100) (by norm_num) le_rfl
  obtain ⟨z, hz, rfl⟩ := play_fbdd (B := 2 ^ 6) wild_fits hs'
    (fun c hc => Libm64Spec.tan_moderate _ (oberheim_arg (r := lit 0) ⟨hs', hc, by decide +kernel⟩).2) (by norm_num)
    (by decide +kernel) (by norm_num) (by norm_num) (by norm_num) (by have := hs.2.1; norm_num; linarith) s0 l hl y hy
  obtain ⟨v, nz, hv, rfl⟩ := isFin_cases hz.1
  have R : binary32.Rep (wild 4) false := by decide +kernel
  have : (Conv.conv (FP.fin v nz hv : F64) : F32).In (-wild 4) (wild 4) := ofRat_in (Rep.neg R) R hz.2.1 hz.2.2
  exact this.mono (by norm_num [wild]) (by norm_num [wild])

/-- Non-trivial case: a huge sample, full resonance, a cutoff of 11 kHz and one of 0 Hz, at 48 kHz, with a correctly rounded libm. -/
example (s0 : Ladder F32 F64) (n : ℕ) : letI := idealLibm64
    ∀ y ∈ api.play (init (lit 48000) s0) ([.setCutoff (lit 11000), .setResonance (lit 1), .tick (lit 1e38), .tick (lit (-1e38)), .setCutoff (lit 0)]
      ++ List.replicate n (.tick (lit 0.7)) ++ [.reset, .tick (lit 1)]), y.In (-1) 1 := by
  let _ := idealLibm64
  have := idealLibm64_spec
  have := idealLibm64_tan
  refine C97_dark (lit 48000) (by decide +kernel) s0 _ (fun a ha => ?_)
  simp only [List.mem_append, List.mem_cons, List.not_mem_nil, or_false, List.mem_replicate] at ha
  rcases ha with ((rfl | rfl | rfl | rfl | rfl) | ⟨-, rfl⟩) | (rfl | rfl) <;> decide +kernel

/-- Non-trivial case: 19 kHz at 44.1 kHz. -/
example (s0 : Ladder F32 F64) : letI := idealLibm64
    ∀ y ∈ api.play (init (lit 44100) s0) [.setCutoff (lit 19000), .tick (lit 3), .tick (lit (-3)), .tick (lit 3)],
      y.In (-2 ^ 28) (2 ^ 28) := by
  let _ := idealLibm64
  have := idealLibm64_spec
  refine C97_bright (lit 44100) (by decide +kernel) s0 _ (fun a ha => ?_)
  simp only [List.mem_cons, List.not_mem_nil, or_false] at ha
  rcases ha with rfl | rfl | rfl | rfl <;> decide +kernel

end Oberheim
end Verif
