import Verif.Props.RLPFPlayed
import Verif.Lemmas.RLPFEnergy
import Mathlib.Analysis.Convex.SpecificFunctions.Deriv

/-!
# C107: gliding the cutoff (exact arithmetic)

`C107_explodes` needs jumps. A cutoff that moves slowly enough from sample to sample cannot pump, at any resonance: the energies of two
neighbouring cutoffs differ by less than what a tick takes away.
-/

namespace Verif.RLPF

/-! ### Specification -/

/-- From one sample to the next the cutoff, in radians per sample, moves by at most `sin² ω / 300`; `p` is the cutoff at the last sample. -/
noncomputable def glides : ℝ → Filt ℝ ℝ → List Call → Prop
  | _, _, [] => True
  | p, s, .setFreq f :: cs => glides p (setFreq f s) cs
  | p, s, .setResonance r :: cs => glides p (setResonance r s) cs
  | p, s, .tick x :: cs => |radians s.freq s.sampleRate - p| ≤ Real.sin (radians s.freq s.sampleRate) ^ 2 / 300 ∧
      glides (radians s.freq s.sampleRate) (tick s x).1 cs
  | p, s, .reset :: cs => glides p (reset s) cs

/-! ### Two cutoffs -/

/-- The energy of a state at the cutoff `w`. -/
noncomputable def at_ (w z1 z2 : ℝ) : ℝ := tilt (Real.cos w) (Real.sin w) (z2 + Real.cos w * z1) (Real.sin w * z1)

theorem at_eq (w z1 z2 : ℝ) : at_ w z1 z2 = z1 ^ 2 + 2 * Real.cos w * (z1 * z2) + z2 ^ 2 + Real.sin w / 64 * (z2 ^ 2 - z1 ^ 2) := by
  unfold at_ tilt
  linear_combination (z1 ^ 2 * (1 - Real.sin w / 64)) * Real.sin_sq_add_cos_sq w

theorem at_glide {w p : ℝ} (s0 : 0 < Real.sin w) (h : |w - p| ≤ Real.sin w ^ 2 / 300) (z1 z2 : ℝ) :
    (1 - Real.sin w / 145) * at_ w z1 z2 ≤ at_ p z1 z2 := by
  have s1 := Real.sin_le_one w
  have tr := Real.sin_sq_add_cos_sq w
  have dc : |Real.cos w - Real.cos p| ≤ Real.sin w ^ 3 / 299 := by
    rw [Real.cos_sub_cos, abs_mul, abs_mul]
    have a : |Real.sin ((w - p) / 2)| ≤ |w - p| / 2 := by
      refine Real.abs_sin_le_abs.trans (le_of_eq ?_); rw [abs_div]; norm_num
    have b : |Real.sin ((w + p) / 2)| ≤ Real.sin w + |w - p| / 2 := by
      have k := Real.abs_sin_sub_sin_le ((w + p) / 2) w
      rw [show (w + p) / 2 - w = -((w - p) / 2) by ring, abs_neg, abs_div] at k
      have := abs_add_le (Real.sin ((w + p) / 2) - Real.sin w) (Real.sin w)
      rw [sub_add_cancel, abs_of_pos s0] at this
      norm_num at k
      linarith
    have a' : |Real.sin ((w - p) / 2)| ≤ Real.sin w ^ 2 / 600 := a.trans (by linarith)
    have b' : |Real.sin ((w + p) / 2)| ≤ Real.sin w * (601 / 600) := by
      refine b.trans ?_
      nlinarith
    have := mul_le_mul b' a' (abs_nonneg _) (by positivity)
    norm_num
    nlinarith [pow_pos s0 3]
  have ds : |Real.sin w - Real.sin p| ≤ Real.sin w ^ 2 / 300 := (Real.abs_sin_sub_sin_le w p).trans h
  have lo := le_tilt tr s0.le (z2 + Real.cos w * z1) (Real.sin w * z1)
  change _ ≤ at_ w z1 z2 at lo
  set E := (z2 + Real.cos w * z1) ^ 2 + (Real.sin w * z1) ^ 2 with hE
  have E0 : 0 ≤ E := by positivity
  have m1 : Real.sin w ^ 2 * |2 * (z1 * z2)| ≤ 2 * E := by
    have k : Real.sin w ^ 2 * (z1 ^ 2 + z2 ^ 2) ≤ 2 * E := by
      have e2 : 2 * E - Real.sin w ^ 2 * (z1 ^ 2 + z2 ^ 2) = z1 ^ 2 + z2 ^ 2 + 4 * Real.cos w * (z1 * z2) + Real.cos w ^ 2 * (z1 ^ 2 + z2 ^ 2) := by
        rw [hE]; linear_combination (z1 ^ 2 - z2 ^ 2) * tr
      have e3 : z1 ^ 2 + z2 ^ 2 + 4 * Real.cos w * (z1 * z2) + Real.cos w ^ 2 * (z1 ^ 2 + z2 ^ 2) = (z1 + Real.cos w * z2) ^ 2 + (z2 + Real.cos w * z1) ^ 2 := by ring
      have : 0 ≤ (z1 + Real.cos w * z2) ^ 2 + (z2 + Real.cos w * z1) ^ 2 := by positivity
      linarith
    refine le_trans (mul_le_mul_of_nonneg_left ?_ (by positivity)) k
    rw [abs_le]; constructor <;> nlinarith [sq_nonneg (z1 + z2), sq_nonneg (z1 - z2)]
  have m2 : Real.sin w * |z2 ^ 2 - z1 ^ 2| ≤ E := by
    have hi := tilt_le tr s0.le (z2 + Real.cos w * z1) (Real.sin w * z1)
    change at_ w z1 z2 ≤ _ at hi
    rw [at_eq] at hi lo
    have eE : E = z1 ^ 2 + 2 * Real.cos w * (z1 * z2) + z2 ^ 2 := by rw [hE]; linear_combination (z1 ^ 2) * tr
    have : |Real.sin w * (z2 ^ 2 - z1 ^ 2)| ≤ E := by rw [abs_le]; constructor <;> linarith
    rwa [abs_mul, abs_of_pos s0] at this
  have diff : at_ w z1 z2 - at_ p z1 z2 = (Real.cos w - Real.cos p) * (2 * (z1 * z2)) + (Real.sin w - Real.sin p) / 64 * (z2 ^ 2 - z1 ^ 2) := by
    rw [at_eq, at_eq]; ring
  have f1 : (Real.cos w - Real.cos p) * (2 * (z1 * z2)) ≤ Real.sin w / 299 * (2 * E) := by
    refine (le_abs_self _).trans ?_
    rw [abs_mul]
    refine (mul_le_mul_of_nonneg_right dc (abs_nonneg _)).trans ?_
    have := mul_le_mul_of_nonneg_left m1 (by positivity : 0 ≤ Real.sin w / 299)
    linarith
  have f2 : (Real.sin w - Real.sin p) / 64 * (z2 ^ 2 - z1 ^ 2) ≤ Real.sin w / 19200 * E := by
    refine (le_abs_self _).trans ?_
    rw [abs_mul, abs_div]
    have a : |Real.sin w - Real.sin p| / |64| ≤ Real.sin w ^ 2 / 19200 := by norm_num; linarith
    refine (mul_le_mul_of_nonneg_right a (abs_nonneg _)).trans ?_
    have := mul_le_mul_of_nonneg_left m2 (by positivity : 0 ≤ Real.sin w / 19200)
    linarith
  have sE : Real.sin w * (63 / 64 * E) ≤ Real.sin w * at_ w z1 z2 := mul_le_mul_of_nonneg_left lo s0.le
  have : 0 ≤ Real.sin w * E := by positivity
  linarith

/-! ### Histories -/

/-- One tick of a gliding filter. -/
theorem glide_step {w p C a z1 z2 u v σ X : ℝ} (s0 : 0 < Real.sin w) (hσ : 0 < σ) (sσ : σ ≤ Real.sin w) (h : |w - p| ≤ Real.sin w ^ 2 / 300)
    (a0 : Real.sin w / 61 ≤ a) (a1 : a ≤ 5.1 * Real.sin w) (hC : C = (1 - a) / (1 + a)) (hu : |u| ≤ 4 * X) (hv : |v| ≤ 2 * X)
    (hE : at_ p z1 z2 ≤ (2000 * X / σ) ^ 2) : at_ w ((1 + C) * Real.cos w * z1 + z2 + u) (-C * z1 + v) ≤ (2000 * X / σ) ^ 2 := by
  have s1 := Real.sin_le_one w
  have tr := Real.sin_sq_add_cos_sq w
  have X0 : 0 ≤ X := by have := abs_nonneg v; linarith
  have g := (at_glide s0 h z1 z2).trans hE
  have e1 : (-C * z1 + v) + Real.cos w * ((1 + C) * Real.cos w * z1 + z2 + u) =
      (Real.cos w * (z2 + Real.cos w * z1) - Real.sin w * (C * (Real.sin w * z1))) + (v + Real.cos w * u) := by linear_combination (C * z1) * tr
  have e2 : Real.sin w * ((1 + C) * Real.cos w * z1 + z2 + u) =
      (Real.sin w * (z2 + Real.cos w * z1) + Real.cos w * (C * (Real.sin w * z1))) + Real.sin w * u := by ring
  have d0 : 0 < Real.sin w / 264 := by positivity
  unfold at_
  rw [e1, e2]
  refine (tilt_add tr s0.le d0 _ _ _ _).trans ?_
  have f1 := tilt_falls tr s0 a0 a1 hC (z2 + Real.cos w * z1) (Real.sin w * z1)
  change _ ≤ _ * at_ w z1 z2 at f1
  have f2 := tilt_le tr s0.le (v + Real.cos w * u) (Real.sin w * u)
  have cb := Real.abs_cos_le_one w
  have u1 : |v + Real.cos w * u| ≤ 6 * X := by
    refine (abs_add_le _ _).trans ?_
    rw [abs_mul]
    have := mul_le_mul cb hu (abs_nonneg _) zero_le_one
    linarith
  have u2 : |Real.sin w * u| ≤ 4 * X := by
    rw [abs_mul, abs_of_pos s0]
    have := mul_le_mul s1 hu (abs_nonneg _) zero_le_one
    linarith
  have v1 := sq_le_sq' (by linarith [(abs_le.1 u1).1]) (abs_le.1 u1).2
  have v2 := sq_le_sq' (by linarith [(abs_le.1 u2).1]) (abs_le.1 u2).2
  have f3 : tilt (Real.cos w) (Real.sin w) (v + Real.cos w * u) (Real.sin w * u) ≤ 53 * X ^ 2 := by nlinarith [sq_nonneg X]
  have U0 : 0 ≤ at_ w z1 z2 := le_trans (by positivity) (le_tilt tr s0.le (z2 + Real.cos w * z1) (Real.sin w * z1))
  have f4 := mul_le_mul_of_nonneg_left f1 (by positivity : 0 ≤ 1 + Real.sin w / 264)
  have f5 := mul_le_mul_of_nonneg_left f3 (by positivity : 0 ≤ 1 + 1 / (Real.sin w / 264))
  refine (add_le_add f4 f5).trans ?_
  generalize at_ w z1 z2 = U at *
  generalize Real.sin w = s at *
  have f6 : (1 + s / 264) * ((1 - s / 66) * U) ≤ (1 - s / 264) * ((1 - s / 145) * U) := by
    have : (1 - s / 264) * ((1 - s / 145) * U) - (1 + s / 264) * ((1 - s / 66) * U) = (1 / 264 * 3 - 1 / 264 - 1 / 145) * (s * U) + (1 / 38280 + 1 / 17424) * (s ^ 2 * U) := by ring
    have a : 0 ≤ s * U := by positivity
    have b : 0 ≤ s ^ 2 * U := by positivity
    norm_num at this
    linarith
  have f7 := mul_le_mul_of_nonneg_left g (by linarith : 0 ≤ 1 - s / 264)
  have f8 : (1 + 1 / (s / 264)) * (53 * X ^ 2) ≤ s / 264 * (2000 * X / σ) ^ 2 := by
    have k1 : (1 + 1 / (s / 264)) * (53 * X ^ 2) = (s + 264) * (53 * X ^ 2) / s := by field_simp
    have k2 : (2000 * X / s) ^ 2 ≤ (2000 * X / σ) ^ 2 := pow_le_pow_left₀ (by positivity) (div_le_div_of_nonneg_left (by positivity) hσ sσ) 2
    have k3 : s / 264 * (2000 * X / s) ^ 2 = (4000000 / 264) * X ^ 2 / s := by field_simp; ring
    have k4 := mul_le_mul_of_nonneg_left k2 d0.le
    rw [k3] at k4
    refine le_trans ?_ k4
    rw [k1]
    refine div_le_div_of_nonneg_right ?_ s0.le
    nlinarith [mul_nonneg (sub_nonneg.2 s1) (sq_nonneg X), sq_nonneg X]
  linarith

theorem poles_form {w r : ℝ} (s0 : 0 < Real.sin w) (r0 : 1 / 10 ≤ r) (r1 : r ≤ 30) :
    Real.sin w / 61 ≤ Real.sin w / (2 * r) ∧ Real.sin w / (2 * r) ≤ 5.1 * Real.sin w := by
  constructor
  · exact div_le_div_of_nonneg_left s0.le (by linarith) (by linarith)
  · rw [div_le_iff₀ (by linarith)]; norm_num; nlinarith

theorem glide_bounded {sr σ X : ℝ} (hsr : 2.1 ≤ sr) (hσ : 0 < σ) (X0 : 0 ≤ X)
    (hlow : ∀ (f : ℝ) (s : Filt ℝ ℝ), s.sampleRate = sr → σ ≤ Real.sin (radians (setFreq f s).freq sr)) :
    ∀ (cs : List Call) (p : ℝ) (s : Filt ℝ ℝ), Kept sr s → σ ≤ Real.sin (radians s.freq sr) → glides p s cs → (∀ e ∈ cs, e.within X) →
      at_ p s.z1 s.z2 ≤ (2000 * X / σ) ^ 2 → ∀ y ∈ played s cs, |y| ≤ (1 + 2100 / σ ^ 2) * X
  | [], _, s, _, _, _, _, _ => by intro y hy; simp [played] at hy
  | .setFreq f :: cs, p, s, hk, _, h1, h2, hE =>
    glide_bounded hsr hσ X0 hlow cs p _ (kept_setFreq hsr f hk.rate hk.r0 hk.r1) (hlow f s hk.rate) h1 (fun e he => h2 e (by simp [he])) hE
  | .setResonance r :: cs, p, s, hk, hl, h1, h2, hE =>
    glide_bounded hsr hσ X0 hlow cs p _ (hk.setResonance r) hl h1 (fun e he => h2 e (by simp [he])) hE
  | .reset :: cs, p, s, hk, hl, h1, h2, _ => by
    refine glide_bounded hsr hσ X0 hlow cs p _ hk.reset hl h1 (fun e he => h2 e (by simp [he])) ?_
    have : at_ p (reset s).z1 (reset s).z2 = 0 := by rw [at_eq]; simp [reset, real_arith]
    rw [this]; positivity
  | .tick x :: cs, p, s, hk, hl, h1, h2, hE => by
    obtain ⟨g, h1⟩ := h1
    rw [hk.rate] at g h1
    have hx : |x| ≤ X := h2 (.tick x) (by simp)
    have s0 := hk.sin_pos
    obtain ⟨a0, a1⟩ := poles_form s0 hk.r0 hk.r1
    have ap : 0 < Real.sin (radians s.freq sr) / (2 * s.resonance) := lt_of_lt_of_le (by positivity) a0
    have p1 : |poles (radians s.freq sr) s.resonance| ≤ 1 := by
      unfold poles
      rw [abs_div, abs_of_pos (by linarith : 0 < 1 + Real.sin (radians s.freq sr) / (2 * s.resonance)), div_le_iff₀ (by linarith), abs_le]
      constructor <;> linarith
    obtain ⟨t1, t2, t3⟩ := tick_shape hk.shape x
    obtain ⟨q0, q1, q2⟩ := shape_small hk.shape (Real.abs_cos_le_one _) p1
    intro y hy
    rcases List.mem_cons.1 hy with rfl | hy
    · rw [t1]
      have s1 := Real.sin_le_one (radians s.freq sr)
      have gl := (at_glide s0 g s.z1 s.z2).trans hE
      have lo := le_tilt (Real.sin_sq_add_cos_sq (radians s.freq sr)) s0.le (s.z2 + Real.cos (radians s.freq sr) * s.z1) (Real.sin (radians s.freq sr) * s.z1)
      change _ ≤ at_ (radians s.freq sr) s.z1 s.z2 at lo
      generalize at_ (radians s.freq sr) s.z1 s.z2 = U at *
      generalize Real.sin (radians s.freq sr) = sn at *
      have U0 : 0 ≤ U := le_trans (by positivity) lo
      have : (sn * s.z1) ^ 2 ≤ (2100 * X / σ) ^ 2 := by
        have k : (2100 * X / σ) ^ 2 = (2100 / 2000) ^ 2 * (2000 * X / σ) ^ 2 := by ring
        rw [k]
        have := mul_le_mul_of_nonneg_right s1 U0
        nlinarith [sq_nonneg (s.z2 + Real.cos (radians s.freq sr) * s.z1)]
      have h := abs_le_of_sq_le_sq this (by positivity)
      rw [abs_mul, abs_of_pos s0] at h
      have z : |s.z1| ≤ 2100 / σ ^ 2 * X := by
        have : σ * |s.z1| ≤ 2100 * X / σ := (mul_le_mul_of_nonneg_right hl (abs_nonneg _)).trans h
        rw [le_div_iff₀ hσ] at this
        rw [div_mul_eq_mul_div, le_div_iff₀ (by positivity)]
        linarith
      have : |s.b0 * x| ≤ 1 * X := by rw [abs_mul]; gcongr
      have := abs_add_le (s.b0 * x) s.z1
      linarith
    · refine glide_bounded hsr hσ X0 hlow cs (radians s.freq sr) _ (hk.tick x) hl h1 (fun e he => h2 e (by simp [he])) ?_ y hy
      rw [t2, t3]
      refine glide_step s0 hσ hl g a0 a1 rfl ?_ ?_ hE
      · rw [abs_mul]; gcongr
      · rw [abs_mul]; gcongr

/-- The lowest sine of a cutoff that can be set. -/
theorem lowest {sr : ℝ} (hsr : 2.1 ≤ sr) : ∃ σ : ℝ, 0 < σ ∧ ∀ (f : ℝ) (s : Filt ℝ ℝ), s.sampleRate = sr →
    σ ≤ Real.sin (radians (setFreq f s).freq sr) := by
  have sp : 0 < sr := by linarith
  obtain ⟨l0, l1⟩ := radians_range (f := 1) (sr := sr) one_pos (by norm_num at hsr; linarith)
  obtain ⟨u0, u1⟩ := radians_range (f := 0.495 * sr) (sr := sr) (by positivity) (by norm_num; linarith)
  refine ⟨min (Real.sin (radians 1 sr)) (Real.sin (radians (0.495 * sr) sr)),
    lt_min (Real.sin_pos_of_pos_of_lt_pi l0 l1) (Real.sin_pos_of_pos_of_lt_pi u0 u1), fun f s h => ?_⟩
  have r : 1 ≤ (setFreq f s).freq ∧ (setFreq f s).freq ≤ 0.495 * sr := by
    simp only [setFreq, updateCoefficients, real_arith, h]
    norm_num at hsr
    split_ifs with a b
    · norm_num; linarith
    · norm_num; constructor <;> linarith
    · push_cast at a b; push Not at a b
      norm_num at b ⊢
      constructor <;> linarith
  have mono : ∀ {a b : ℝ}, a ≤ b → radians a sr ≤ radians b sr := by
    intro a b h; unfold radians; gcongr
  exact strictConcaveOn_sin_Icc.concaveOn.min_le_of_mem_Icc ⟨l0.le, l1.le⟩ ⟨u0.le, u1.le⟩ ⟨mono r.1, mono r.2⟩

/-- **C107**, gliding: at every resonance, moved about as one likes, the cutoff can be moved while the filter runs as long as it moves by at most
`sin² ω / 300` radians from sample to sample - 20 Hz per millisecond at a cutoff of 1 kHz and a sample rate of 48 kHz: one bound for the gain holds for every such history. -/
theorem C107_glide_partial (sr : ℝ) (hsr : 2.1 ≤ sr) : ∃ B : ℝ, ∀ (f X : ℝ) (cs : List Call), 0 ≤ X →
    glides (radians (setFreq f (init (β := ℝ) sr)).freq sr) (setFreq f (init sr)) cs → (∀ e ∈ cs, e.within X) →
    ∀ y ∈ played (init sr) (.setFreq f :: cs), |y| ≤ B * X := by
  obtain ⟨σ, hσ, hlow⟩ := lowest hsr
  refine ⟨1 + 2100 / σ ^ 2, fun f X cs X0 h1 h2 => glide_bounded hsr hσ X0 hlow cs _ _
    (kept_setFreq hsr f rfl (init_resonance sr).1 (init_resonance sr).2) (hlow f _ rfl) h1 h2 ?_⟩
  have z : (setFreq f (init (β := ℝ) sr)).z1 = 0 ∧ (setFreq f (init (β := ℝ) sr)).z2 = 0 := by
    simp [setFreq, init, updateCoefficients, real_arith]
  rw [z.1, z.2, at_eq]
  norm_num
  positivity

/-- From 12 kHz to 12.01 kHz between two samples, at 48 kHz and full resonance. -/
example : glides (radians (setFreq 12000 (init (α := ℝ) (β := ℝ) 48000)).freq 48000) (setFreq 12000 (init (α := ℝ) (β := ℝ) 48000))
    [.setResonance 30, .tick 1, .setFreq 12010, .tick (-1), .reset, .tick 0] := by
  have a : (setFreq 12000 (init (α := ℝ) (β := ℝ) 48000)).freq = 12000 := setFreq_inside (sr := 48000) (by norm_num) (by norm_num) rfl
  have b : ∀ s : Filt ℝ ℝ, s.sampleRate = 48000 → (setFreq 12010 s).freq = 12010 := fun s h =>
    setFreq_inside (by norm_num) (by norm_num) h
  have p0 := Real.pi_gt_d6
  have p1 := Real.pi_lt_d6
  have s2 : 0.5 ≤ Real.sin (radians 12010 48000) ^ 2 := by
    have c : |Real.cos (radians 12010 48000)| ≤ 0.01 := by
      rw [← Real.sin_pi_div_two_sub]
      refine Real.abs_sin_le_abs.trans ?_
      unfold radians
      rw [abs_le]; constructor <;> norm_num <;> linarith
    have := Real.sin_sq_add_cos_sq (radians 12010 48000)
    have k := sq_le_sq' (abs_le.1 c).1 (abs_le.1 c).2
    norm_num at k ⊢; linarith
  have d : |radians 12010 48000 - radians 12000 48000| ≤ 1 / 600 := by
    unfold radians
    rw [abs_le]; constructor <;> norm_num
  refine ⟨?_, ?_, ?_, trivial⟩
  · change |radians (setFreq 12000 (init (α := ℝ) (β := ℝ) 48000)).freq 48000 - _| ≤ _
    rw [sub_self, abs_zero]; positivity
  · change |radians (setFreq 12010 _).freq 48000 - radians (setFreq 12000 (init (α := ℝ) (β := ℝ) 48000)).freq 48000| ≤
      Real.sin (radians (setFreq 12010 _).freq 48000) ^ 2 / 300
    rw [a, b _ rfl]
    refine d.trans ?_
    norm_num at *; linarith
  · change |radians (setFreq 12010 _).freq 48000 - radians (setFreq 12010 _).freq 48000| ≤ Real.sin (radians (setFreq 12010 _).freq 48000) ^ 2 / 300
    rw [sub_self, abs_zero]; positivity

end Verif.RLPF
