import Verif.Props.OberheimFloat
import Verif.Props.ImprovedFloat

/-!
# C45 in double precision: the divisors of the ladder coefficients

In IEEE arithmetic a division by zero does not trap: it yields an infinity or a NaN, which then stays in the coefficients. The theorems say
that the divisors, as computed with all rounding, are bounded away from zero, and that the coefficients come out finite and in range.
-/

namespace Verif
open FP

/-- As `FP.round64`, up to `2^1000`. -/
theorem FP.round64_big {q : ℚ} {zs : Bool} (h : |q| ≤ 2 ^ 1000) :
    (ofRat q zs : F64).isFin = true ∧ |(ofRat q zs : F64).val - q| ≤ |q| / 2 ^ 53 + 1 / 2 ^ 250 := by
  have R : binary64.Rep (2 ^ 1000) false := rep64_two_pow (by norm_num)
  obtain ⟨l, u⟩ := abs_le.1 h
  have hin := ofRat_in (f := binary64) (zs := zs) (Rep.neg R) R l u
  have hv := ofRat_val (f := binary64) (zs := zs) (Rep.neg R) R l u
  refine ⟨hin.1, ?_⟩
  have h2 := binary64.rnd_rel_err (K := ℚ) q
  simp only [Rat.cast_id] at h2
  rw [hv, abs_sub_comm]
  refine h2.trans (add_le_add (le_of_eq ?_) ?_)
  · norm_num [binary64, div_eq_mul_inv]
  · have e : (1:ℚ) / 2 ^ 250 = 2 ^ (-250 : ℤ) := by norm_num
    rw [e]
    exact zpow_le_zpow_right₀ (by norm_num) (by decide)

namespace MusicDSP

/-- The exact value of the divisor at `t1 = t`. -/
def quad (t : ℚ) : ℚ := t * t - 6 * t + 12

theorem quad_ge (t : ℚ) : 3 ≤ quad t ∧ t * t + 12 ≤ 8 * quad t ∧ |6 * t| ≤ 8 * quad t ∧ quad (-t) ≤ 13.95 * quad t := by
  unfold quad
  refine ⟨by nlinarith [sq_nonneg (t - 3)], by nlinarith [sq_nonneg (7 * t - 24)], ?_, ?_⟩
  · rw [abs_le]; constructor <;> nlinarith [sq_nonneg (t - 3), sq_nonneg (8 * t - 27)]
  · norm_num; nlinarith [sq_nonneg (t - 3.4642)]

/-- Both the divisor and the dividend of the resonance coefficient, computed with all rounding, for any `t1` up to `2^300`. -/
theorem quad_near {t m b : F64} (ht : t.Mag 300) (hb : b = lit 12 + t * t) (hm : m = lit 6 * t) :
    b.Mag 602 ∧ m.Mag 303 ∧ |b.val - m.val - quad t.val| ≤ quad t.val / 2 ^ 47 ∧ |b.val + m.val - quad (-t.val)| ≤ quad (-t.val) / 2 ^ 47 := by
  have l12 : (lit 12 : F64).In 12 12 := by decide +kernel
  have l6 : (lit 6 : F64).In 6 6 := by decide +kernel
  have m12 : (lit 12 : F64).Mag 600 := (show (lit 12 : F64).Mag 4 by decide +kernel).up 600
  have m6 : (lit 6 : F64).Mag 3 := by decide +kernel
  have sq := ht.mul ht
  have bm := m12.add sq
  have mm := (m6.mul ht)
  obtain ⟨zs, e1⟩ := mul_def ht.1 ht.1
  obtain ⟨zs', e2⟩ := add_def l12.1 sq.1
  obtain ⟨zs'', e3⟩ := mul_def l6.1 ht.1
  have p600 : |t.val * t.val| ≤ 2 ^ 600 := by
    rw [abs_mul, show (600:ℕ) = 300 + 300 from rfl, pow_add]
    exact mul_le_mul ht.abs ht.abs (abs_nonneg _) (by positivity)
  have p6 : |6 * t.val| ≤ 2 ^ 303 := by
    rw [abs_mul, show (303:ℕ) = 3 + 300 from rfl, pow_add]
    exact mul_le_mul (by norm_num) ht.abs (abs_nonneg _) (by positivity)
  have p12 : |12 + (t * t).val| ≤ 2 ^ 602 := by
    have h1 := (abs_add_le 12 (t * t).val)
    have h2 := sq.abs
    have h3 : (2:ℚ) ^ 602 = 4 * 2 ^ 600 := by rw [show (602:ℕ) = 2 + 600 from rfl, pow_add]; norm_num
    have h4 : (12:ℚ) ≤ 2 ^ 600 := le_trans (by norm_num) (pow_le_pow_right₀ (by norm_num : (1:ℚ) ≤ 2) (show 4 ≤ 600 by norm_num))
    have h5 : |(12:ℚ)| = 12 := abs_of_pos (by norm_num)
    have h6 : |(t * t).val| ≤ 2 ^ 600 := h2
    rw [h3]
    rw [h5] at h1
    clear h2 h3 h5 p600 p6
    generalize (2:ℚ) ^ 600 = P at *
    linarith
  have up : ∀ {q : ℚ} {k : ℕ}, k ≤ 1000 → |q| ≤ 2 ^ k → |q| ≤ 2 ^ 1000 := fun hk h => h.trans (pow_le_pow_right₀ (by norm_num) hk)
  obtain ⟨-, a1⟩ := round64_big (zs := zs) (up (by norm_num) p600)
  obtain ⟨-, a2⟩ := round64_big (zs := zs') (up (by norm_num) p12)
  obtain ⟨-, a3⟩ := round64_big (zs := zs'') (up (by norm_num) p6)
  rw [← e1] at a1
  rw [← l12.val_eq, ← e2, ← hb, l12.val_eq] at a2
  rw [← l6.val_eq, ← e3, ← hm, l6.val_eq] at a3
  rw [← hb] at bm
  rw [← hm] at mm
  refine ⟨bm.up 602, mm.up 303, ?_⟩
  clear p600 p6 p12 up bm mm e1 e2 e3 hb hm m12 m6
  have t0 : 0 ≤ t.val * t.val := mul_self_nonneg _
  rw [abs_of_nonneg t0] at a1
  obtain ⟨q1, q2, q3, -⟩ := quad_ge t.val
  obtain ⟨r1, r2, r3, -⟩ := quad_ge (-t.val)
  rw [show -t.val * -t.val = t.val * t.val by ring] at r2
  rw [show 6 * -t.val = -(6 * t.val) by ring, abs_neg] at r3
  have e : quad t.val = t.val * t.val - 6 * t.val + 12 := rfl
  have e' : quad (-t.val) = t.val * t.val + 6 * t.val + 12 := by unfold quad; ring
  generalize quad t.val = Q at *
  generalize quad (-t.val) = Q' at *
  generalize t.val * t.val = w at *
  generalize (t * t).val = w' at *
  generalize hx : |6 * t.val| = ax at *
  have b1 : |12 + w'| ≤ 2 * w + 13 := by
    rw [abs_le]; obtain ⟨u, v⟩ := abs_le.1 a1; constructor <;> norm_num at * <;> linarith
  obtain ⟨u1, v1⟩ := abs_le.1 a1
  obtain ⟨u2, v2⟩ := abs_le.1 a2
  obtain ⟨u3, v3⟩ := abs_le.1 a3
  norm_num at *
  constructor <;> rw [abs_le] <;> constructor <;> linarith

/-- The coefficient: `r (t2 + 6 t1) / (t2 - 6 t1)`. -/
theorem coeff_in {t r b m : F64} (ht : t.Mag 300) (hr : r.In 0 1) (hb : b = lit 12 + t * t) (hm : m = lit 6 * t) :
    (b - m).isFin = true ∧ 2.9375 ≤ (b - m).val ∧ (b + m).isFin = true ∧ 2.9375 ≤ (b + m).val ∧ (r * (b + m) / (b - m)).In 0 14 := by
  obtain ⟨h1, h2, n1, n2⟩ := quad_near ht hb hm
  have s1 := h1.sub (h2.up 602)
  have s2 := h1.add (h2.up 602)
  obtain ⟨zs, e1⟩ := sub_def h1.1 h2.1
  obtain ⟨zs', e2⟩ := add_def h1.1 h2.1
  have up : ∀ {q : ℚ}, |q| ≤ 2 ^ 603 → |q| ≤ 2 ^ 1000 := fun h => h.trans (pow_le_pow_right₀ (by norm_num) (by norm_num))
  have w1 : |b.val - m.val| ≤ 2 ^ 603 := by
    have u := (h2.up 602).abs
    have v := h1.abs
    have := abs_sub b.val m.val
    rw [show (603:ℕ) = 602 + 1 from rfl, pow_succ]
    generalize (2:ℚ) ^ 602 = P at *
    linarith
  have w2 : |b.val + m.val| ≤ 2 ^ 603 := by
    have u := (h2.up 602).abs
    have v := h1.abs
    have := abs_add_le b.val m.val
    rw [show (603:ℕ) = 602 + 1 from rfl, pow_succ]
    generalize (2:ℚ) ^ 602 = P at *
    linarith
  obtain ⟨-, a1⟩ := round64_big (zs := zs) (up w1)
  obtain ⟨-, a2⟩ := round64_big (zs := zs') (up w2)
  rw [← e1] at a1
  rw [← e2] at a2
  obtain ⟨q1, -, -, q4⟩ := quad_ge t.val
  obtain ⟨r1, -, -, -⟩ := quad_ge (-t.val)
  have hD : (b - m).isFin = true := s1.1
  have hN : (b + m).isFin = true := s2.1
  have hNr := rep_val (b + m)
  clear w1 w2 up s1 s2 e1 e2 hb hm h1 h2
  generalize quad t.val = Q at *
  generalize quad (-t.val) = Q' at *
  generalize b.val - m.val = x at *
  generalize b.val + m.val = y at *
  have x1 : |x| ≤ 2 * Q := by obtain ⟨u, v⟩ := abs_le.1 n1; rw [abs_le]; constructor <;> norm_num at * <;> linarith
  have y1 : |y| ≤ 2 * Q' := by obtain ⟨u, v⟩ := abs_le.1 n2; rw [abs_le]; constructor <;> norm_num at * <;> linarith
  obtain ⟨u1, v1⟩ := abs_le.1 a1
  obtain ⟨u2, v2⟩ := abs_le.1 a2
  obtain ⟨u3, v3⟩ := abs_le.1 n1
  obtain ⟨u4, v4⟩ := abs_le.1 n2
  have d1 : Q * (1 - 1 / 2 ^ 40) ≤ (b - m).val := by norm_num at *; linarith
  have d2 : (b + m).val ≤ Q' * (1 + 1 / 2 ^ 40) := by norm_num at *; linarith
  have d3 : 2.9375 ≤ (b + m).val := by norm_num at *; linarith
  have d4 : 2.9375 ≤ (b - m).val := by norm_num at *; linarith
  refine ⟨hD, d4, hN, d3, ?_⟩
  have R14 : binary64.Rep 14 false := by decide +kernel
  have pr : (r * (b + m)).In 0 (b + m).val := mul_in hr.1 hN rep_zero hNr (mul_nonneg hr.2.1 (by norm_num at *; linarith))
    (by have := mul_le_mul_of_nonneg_right hr.2.2 (show 0 ≤ (b + m).val by norm_num at *; linarith); linarith)
  have D0 : 0 < (b - m).val := by norm_num at *; linarith
  refine div_in pr.1 hD D0.ne' rep_zero R14 (div_nonneg pr.2.1 D0.le) ?_
  rw [div_le_iff₀ D0]
  refine pr.2.2.trans ?_
  norm_num at *; linarith

/-- **C45, MusicDSP, in double precision**: for every finite cutoff, negative or absurdly high ones included, and every sample rate from
1 Hz, the divisor of the resonance coefficient is at least 2.9375 with all rounding, and the coefficient that comes out is between 0 and
14. -/
theorem C45_musicdsp_divisor_float [Libm F64] (c : F32) (hc : c.isFin = true) (s : Ladder F32 F64) (h1 : 1 ≤ s.sampleRate.val)
    (hfin : s.sampleRate.isFin = true) (hr : s.resonance ≠ nan) :
    let s' := setCutoff c s
    s'.t1.isFin = true ∧ s'.t2.isFin = true ∧
    (s'.t2 - lit 6 * s'.t1).isFin = true ∧ 2.9375 ≤ (s'.t2 - lit 6 * s'.t1).val ∧ s'.resonanceCoeff.In 0 14 ∧
    ∀ r : F32, r ≠ nan → (setResonance r s').resonanceCoeff.In 0 14 := by
  have hcm := conv_up_mag hc
  have hsu := conv_up hfin
  have l2 : (lit 2 : F64).Mag 1 := by decide +kernel
  have l18 : (lit 1.8 : F64).Mag 130 := (show (lit 1.8 : F64).Mag 1 by decide +kernel).up 130
  have l08 : (lit 0.8 : F64).Mag 1 := by decide +kernel
  have l1 : (lit 1 : F64).Mag 261 := (show (lit 1 : F64).Mag 1 by decide +kernel).up 261
  have l13 : (lit 1.386249 : F64).Mag 1 := by decide +kernel
  have fc := (l2.mul hcm).div hsu.1 (by rw [hsu.val_eq]; exact h1.trans (le_abs_self _))
  have hp := fc.mul (l18.sub ((l08.mul fc).up 130))
  have ht := (((l1.sub (hp.up 261)).mul l13)).up 300
  have key : ∀ r : F32, r ≠ nan → _ := fun r hr' => coeff_in (r := Conv.conv (clamp01 r)) ht (by
    have a := clamp01_range hr'
    have b := conv_up a.1
    exact ⟨b.1, by rw [b.val_eq]; exact a.2.1, by rw [b.val_eq]; exact a.2.2⟩) rfl rfl
  obtain ⟨k1, k2, -, -, k5⟩ := key _ hr
  obtain ⟨q1, -⟩ := quad_near ht rfl rfl
  exact ⟨ht.1, q1.1, k1, k2, k5, fun r hr' => (key r hr').2.2.2.2⟩

/-- Concrete cases: 1 kHz and an absurd negative cutoff at 48 kHz. -/
example [Libm F64] (s : Ladder F32 F64) (hs : s.sampleRate = lit 48000) (hr : s.resonance = lit 0.5) :
    (setCutoff (lit 1000) s).resonanceCoeff.In 0 14 ∧ (setCutoff (lit (-3e38)) s).resonanceCoeff.In 0 14 := by
  have h1 : s.sampleRate.In 1 48000 := by rw [hs]; decide +kernel
  have hn : s.resonance ≠ nan := by rw [hr]; decide +kernel
  exact ⟨(C45_musicdsp_divisor_float (lit 1000) (by decide +kernel) s h1.2.1 h1.1 hn).2.2.2.2.1,
    (C45_musicdsp_divisor_float (lit (-3e38)) (by decide +kernel) s h1.2.1 h1.1 hn).2.2.2.2.1⟩

end MusicDSP

namespace Oberheim

/-- **C45, Oberheim, in double precision**: for cutoffs from 0 to 0.45 of the sample rate and any resonance the gains of all four poles
come out in `[0, 127/128]`, their product in `[0, 1]`, the feedback weights and the loop gain are finite and non-negative - nothing was
divided by zero. -/
theorem C45_oberheim_divisor_float [Libm F64] [Libm64Spec] (c r : F32) (s : Ladder F32 F64) (hs : s.sampleRate.In 100 (2 ^ 20))
    (hc : c.In 0 (0.45 * s.sampleRate.val)) (hr : r ≠ nan) (hK : s.K.In 0 4) :
    ∀ s', s' = setCutoff c s ∨ s' = setResonance r (setCutoff c s) ∨ s' = setCutoff c (setResonance r s) →
      (∀ f ∈ [s'.f0, s'.f1, s'.f2, s'.f3], f.alpha.In 0 (127 / 128) ∧ f.beta.In 0 1) ∧ s'.gamma.In 0 1 ∧ s'.alpha0.In 0 1 := by
  have hS : Sane s.sampleRate c r := ⟨hs, hc, hr⟩
  obtain ⟨hT, ha⟩ := oberheim_arg hS
  have hT' : (lit 1 / Conv.conv s.sampleRate : F64).In (1 / 2 ^ 20) 1 := hT.mono (by norm_num) le_rfl
  have hg := warp_in hT' (Libm64Spec.tan_moderate _ ha) (by norm_num)
  have hG := pole_gain (top := 127 / 128) hg (by norm_num) (by decide +kernel) (by norm_num) (by norm_num) (by norm_num)
  have hgn := show NN 7 _ from hg.mono (b' := 2 ^ 7) le_rfl (by norm_num)
  have h1g := hgn.one_add
  have hGn := show NN 0 _ from hG.mono (b' := 2 ^ 0) le_rfl (by norm_num)
  have l1 : (lit 1 : F64).NN 0 := by decide +kernel
  have b0 := ((hGn.mul hGn).mul hGn).div h1g.1 h1g.2.1
  have b1 := (hGn.mul hGn).div h1g.1 h1g.2.1
  have b2 := hGn.div h1g.1 h1g.2.1
  have b3 := l1.div h1g.1 h1g.2.1
  have hga := ((hGn.mul hGn).mul hGn).mul hGn
  have hcl := clamp01_range hr
  have hcu := conv_up hcl.1
  have hc2 : (Conv.conv (clamp01 r) : F64).NN 0 :=
    ⟨hcu.1, by rw [hcu.val_eq]; exact hcl.2.1, by rw [hcu.val_eq]; norm_num; exact hcl.2.2⟩
  have l4 : (lit 4 : F64).NN 2 := by decide +kernel
  have hK1 : s.K.NN 2 := hK.mono le_rfl (by norm_num)
  have hd1 := (hK1.mul hga).one_add
  have hd2 := ((l4.mul hc2).mul hga).one_add
  have z1 := l1.div hd1.1 hd1.2.1
  have z2 := l1.div hd2.1 hd2.2.1
  have one : ∀ {x : F64}, x.NN 0 → x.In 0 1 := fun h => h.mono le_rfl (by norm_num)
  have poles : ∀ f ∈ [(setCutoff c s).f0, (setCutoff c s).f1, (setCutoff c s).f2, (setCutoff c s).f3],
      f.alpha.In 0 (127 / 128) ∧ f.beta.In 0 1 := by
    intro f hf
    simp only [List.mem_cons, List.not_mem_nil, or_false] at hf
    rcases hf with rfl | rfl | rfl | rfl
    · exact ⟨hG, one b0⟩
    · exact ⟨hG, one b1⟩
    · exact ⟨hG, one b2⟩
    · exact ⟨hG, one b3⟩
  rintro s' (rfl | rfl | rfl)
  · exact ⟨poles, one hga, one z1⟩
  · exact ⟨poles, one hga, one z2⟩
  · exact ⟨poles, one hga, one z2⟩

/-- Concrete case: 15 kHz at 48 kHz with full resonance. -/
example [Libm F64] [Libm64Spec] (s : Ladder F32 F64) (hs : s.sampleRate = lit 48000) (hK : s.K = lit 4) :
    (setResonance (lit 1) (setCutoff (lit 15000) s)).alpha0.In 0 1 := by
  refine (C45_oberheim_divisor_float (lit 15000) (lit 1) s (by rw [hs]; decide +kernel) (by rw [hs]; decide +kernel) (by decide +kernel)
    (by rw [hK]; decide +kernel) _ (Or.inr (Or.inl rfl))).2.2

end Oberheim

namespace Improved

/-- **C45, Improved, in double precision**: whatever the cutoff (infinities included), it is stored clamped between 0 and 0.3153 of the
sample rate, the frequency ratio `x` comes out in `[0, 1]`, so the divisor `1 + x` is at least 1, and the integrator gain is finite, not
negative and at most 1.25 times the sample rate. -/
theorem C45_improved_divisor_float (c : F32) (hc : c ≠ nan) (s : Ladder F32 F64) (hs : s.sampleRate.In 1 (2 ^ 24)) :
    let s' := setCutoff c s
    s'.cutoff.In 0 (0.3153 * s.sampleRate.val) ∧ s'.x.In 0 1 ∧ s'.g.In 0 (1.25 * s.sampleRate.val) := by
  obtain ⟨a, b⟩ := cutoff_in hs hc
  have hb := conv_up b.1
  exact ⟨a, hb.mono b.2.1 b.2.2, g_in hs a b⟩

/-- Concrete case: infinity at 44.1 kHz. -/
example (s : Ladder F32 F64) (hs : s.sampleRate = lit 44100) : (setCutoff (inf false) s).x.In 0 1 :=
  (C45_improved_divisor_float (inf false) (by decide) s (by rw [hs]; decide +kernel)).2.1

end Improved
end Verif
