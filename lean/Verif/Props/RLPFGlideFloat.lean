import Verif.Props.RLPFFloat
import Verif.Props.RLPFGlide

/-!
# C108: gliding the cutoff in the arithmetic of the program

`C107_glide_partial` with every rounding.
-/

namespace Verif.RLPF
open FP

/-- The computed cutoff, in radians per sample. -/
noncomputable def turn (s : Filt F32 F64) : ℝ := (((angle s.freq s.sampleRate).val : ℚ) : ℝ)

/-- From one sample to the next the cutoff moves by at most `sin² ω / 300` radians per sample, except with `tune`, which starts afresh; `p` is the
cutoff at the last sample. -/
noncomputable def glidesF [Libm F64] : ℝ → Filt F32 F64 → List Action → Prop
  | _, _, [] => True
  | _, s, .tune f :: l => glidesF (turn (setFreq f (reset s))) (setFreq f (reset s)) l
  | p, s, .setFreq f :: l => glidesF p (setFreq f s) l
  | p, s, .setResonance r :: l => glidesF p (setResonance r s) l
  | _, s, .reset :: l => glidesF (turn s) (reset s) l
  | p, s, .tick x :: l => |turn s - p| ≤ Real.sin (turn s) ^ 2 / 300 ∧ glidesF (turn s) (tick s x).1 l

/-- Input samples within full scale, cutoffs and resonances that are not NaN. -/
def Action.Fine : Action → Prop
  | .tune f => f ≠ nan
  | .setFreq f => f ≠ nan
  | .setResonance r => r ≠ nan
  | .reset => True
  | .tick x => x.In (-1) 1

/-- What every action keeps true. -/
structure Glided (sr : F32) (p : ℝ) (s : Filt F32 F64) : Prop where
  rate : s.sampleRate = sr
  freq : s.freq.In 1 (0.4951 * sr.val)
  res : s.resonance.In 0.0999 30
  tuned : ∃ a, Tuned (turn s) a s
  fin1 : s.z1.isFin = true
  fin2 : s.z2.isFin = true
  low : at_ p ((s.z1.val : ℚ) : ℝ) ((s.z2.val : ℚ) : ℝ) ≤ (2000 * 1.2 / 0.00001) ^ 2

theorem turn_range {sr : F32} (hs : sr.In 1000 384000) {s : Filt F32 F64} (h : s.sampleRate = sr) (hf : s.freq.In 1 (0.4951 * sr.val)) :
    (0.00001636:ℝ) ≤ turn s ∧ turn s ≤ 3.1109 := by
  subst h
  have hw : (angle s.freq s.sampleRate).In 0.00001636 3.1109 := (angle_range hs hf le_rfl).mono le_rfl (by norm_num)
  constructor
  · have := (Rat.cast_le (K := ℝ)).2 hw.2.1; push_cast at this; exact this
  · have := (Rat.cast_le (K := ℝ)).2 hw.2.2; push_cast at this; exact this

theorem at_zero (p : ℝ) : at_ p (((lit 0 : F64).val : ℚ) : ℝ) (((lit 0 : F64).val : ℚ) : ℝ) ≤ (2000 * 1.2 / 0.00001) ^ 2 := by
  have z : (lit 0 : F64).In 0 0 := by decide +kernel
  rw [z.val_eq, at_eq]; norm_num

theorem lit0_fin64 : (lit 0 : F64).isFin = true := by decide +kernel

/-- New settings for an arbitrary state. -/
theorem glided_update [Libm F64] [SinCos64] {sr : F32} {p : ℝ} (hs : sr.In 1000 384000) {s : Filt F32 F64} (h : s.sampleRate = sr)
    (hf : s.freq.In 1 (0.4951 * sr.val)) (hr : s.resonance.In 0.0999 30) (f1 : s.z1.isFin = true) (f2 : s.z2.isFin = true)
    (low : at_ p ((s.z1.val : ℚ) : ℝ) ((s.z2.val : ℚ) : ℝ) ≤ (2000 * 1.2 / 0.00001) ^ 2) : Glided sr p (updateCoefficients s) := by
  subst h
  exact ⟨rfl, hf, hr, tuned_update hs hf le_rfl hr, f1, f2, low⟩

/-- What the level means for the state. -/
theorem glided_state {w z1 z2 U : ℝ} (s0 : 0.00001 ≤ Real.sin w) (hU : (1 - Real.sin w / 145) * at_ w z1 z2 ≤ U)
    (hl : U = (2000 * 1.2 / 0.00001) ^ 2) : |z1| ≤ 25200000000000 ∧ |z2| ≤ 2 * 25200000000000 := by
  have s1 := Real.sin_le_one w
  have sp : 0 < Real.sin w := lt_of_lt_of_le (by norm_num) s0
  have lo := le_tilt (Real.sin_sq_add_cos_sq w) sp.le (z2 + Real.cos w * z1) (Real.sin w * z1)
  change _ ≤ at_ w z1 z2 at lo
  have cb := Real.abs_cos_le_one w
  generalize at_ w z1 z2 = V at *
  generalize Real.sin w = sn at *
  generalize Real.cos w = c at *
  have V0 : 0 ≤ V := le_trans (by positivity) lo
  have k : V ≤ 1.01 * U := by
    have := mul_le_mul_of_nonneg_right s1 V0
    norm_num; linarith
  have g : |sn * z1| ≤ 252000000 := by
    refine abs_le_of_sq_le_sq ?_ (by norm_num)
    rw [hl] at k
    norm_num at k ⊢
    nlinarith [sq_nonneg (z2 + c * z1)]
  have e : |z2 + c * z1| ≤ 252000000 := by
    refine abs_le_of_sq_le_sq ?_ (by norm_num)
    rw [hl] at k
    norm_num at k ⊢
    nlinarith [sq_nonneg (sn * z1)]
  have z : |z1| ≤ 25200000000000 := by
    rw [abs_mul, abs_of_pos sp] at g
    have := mul_le_mul_of_nonneg_right s0 (abs_nonneg z1)
    norm_num at this
    linarith
  refine ⟨z, ?_⟩
  have i : z2 = (z2 + c * z1) - c * z1 := by ring
  rw [i]
  refine (abs_sub _ _).trans ?_
  rw [abs_mul]
  have := mul_le_mul cb z (abs_nonneg _) zero_le_one
  linarith

/-- The rounding errors of a sample taken into the input of `glide_step`. -/
theorem glided_step {w p a z1 z2 x n1 n2 : ℝ} (s0 : 0.00001 ≤ Real.sin w) (g : |w - p| ≤ Real.sin w ^ 2 / 300)
    (a0 : Real.sin w / 61 ≤ a) (a1 : a ≤ 5.1 * Real.sin w) (hx : |x| ≤ 1)
    (h1 : |n1 - ((1 - Real.cos w) / (1 + a) * x - -2 * Real.cos w / (1 + a) * ((1 - Real.cos w) / 2 / (1 + a) * x + z1) + z2)| ≤ 0.4)
    (h2 : |n2 - ((1 - Real.cos w) / 2 / (1 + a) * x - (1 - a) / (1 + a) * ((1 - Real.cos w) / 2 / (1 + a) * x + z1))| ≤ 0.4)
    (hE : at_ p z1 z2 ≤ (2000 * 1.2 / 0.00001) ^ 2) : at_ w n1 n2 ≤ (2000 * 1.2 / 0.00001) ^ 2 := by
  have sp : 0 < Real.sin w := lt_of_lt_of_le (by norm_num) s0
  have ap : 0 < a := lt_of_lt_of_le (by positivity) a0
  have c0 := Real.neg_one_le_cos w
  have c1 := Real.cos_le_one w
  have cb := Real.abs_cos_le_one w
  have B : |(1 - Real.cos w) / 2 / (1 + a)| ≤ 1 := by
    rw [abs_of_nonneg (div_nonneg (by linarith) (by linarith)), div_le_iff₀ (by linarith)]; linarith
  have B1 : |(1 - Real.cos w) / (1 + a)| ≤ 2 := by
    rw [abs_of_nonneg (div_nonneg (by linarith) (by linarith)), div_le_iff₀ (by linarith)]; linarith
  have gc : |2 * Real.cos w / (1 + a)| ≤ 2 := by
    rw [abs_div, abs_of_pos (by linarith : 0 < 1 + a), div_le_iff₀ (by linarith), abs_mul]; norm_num; linarith
  have C1 : |(1 - a) / (1 + a)| ≤ 1 := by
    rw [abs_div, abs_of_pos (by linarith : 0 < 1 + a), div_le_iff₀ (by linarith), abs_le]; constructor <;> linarith
  have one : (1 + (1 - a) / (1 + a)) * Real.cos w = 2 * Real.cos w / (1 + a) := by field_simp; ring
  have e1 : n1 = (1 + (1 - a) / (1 + a)) * Real.cos w * z1 + z2 + (((1 - Real.cos w) / (1 + a) + 2 * Real.cos w / (1 + a) * ((1 - Real.cos w) / 2 / (1 + a))) * x +
      (n1 - ((1 - Real.cos w) / (1 + a) * x - -2 * Real.cos w / (1 + a) * ((1 - Real.cos w) / 2 / (1 + a) * x + z1) + z2))) := by rw [one]; ring
  have e2 : n2 = -((1 - a) / (1 + a)) * z1 + (((1 - Real.cos w) / 2 / (1 + a) - (1 - a) / (1 + a) * ((1 - Real.cos w) / 2 / (1 + a))) * x +
      (n2 - ((1 - Real.cos w) / 2 / (1 + a) * x - (1 - a) / (1 + a) * ((1 - Real.cos w) / 2 / (1 + a) * x + z1)))) := by ring
  rw [e1, e2]
  refine glide_step sp (by norm_num) s0 g a0 a1 rfl ?_ ?_ hE
  · refine (abs_add_le _ _).trans ((add_le_add le_rfl h1).trans ?_)
    rw [abs_mul]
    have k : |(1 - Real.cos w) / (1 + a) + 2 * Real.cos w / (1 + a) * ((1 - Real.cos w) / 2 / (1 + a))| ≤ 4 := by
      refine (abs_add_le _ _).trans ?_
      rw [abs_mul (2 * Real.cos w / (1 + a))]
      have := mul_le_mul gc B (abs_nonneg _) (by norm_num)
      linarith
    have := mul_le_mul k hx (abs_nonneg _) (by norm_num)
    norm_num at this ⊢; linarith
  · refine (abs_add_le _ _).trans ((add_le_add le_rfl h2).trans ?_)
    rw [abs_mul]
    have k : |(1 - Real.cos w) / 2 / (1 + a) - (1 - a) / (1 + a) * ((1 - Real.cos w) / 2 / (1 + a))| ≤ 2 := by
      refine (abs_sub _ _).trans ?_
      rw [abs_mul ((1 - a) / (1 + a))]
      have := mul_le_mul C1 B (abs_nonneg _) (by norm_num)
      linarith
    have := mul_le_mul k hx (abs_nonneg _) (by norm_num)
    norm_num at this ⊢; linarith

theorem Glided.tick {sr : F32} {p : ℝ} (hs : sr.In 1000 384000) {s : Filt F32 F64} (h : Glided sr p s)
    (g : |turn s - p| ≤ Real.sin (turn s) ^ 2 / 300) {x : F32} (hx : x.In (-1) 1) :
    Glided sr (turn s) (tick s x).1 ∧ (tick s x).2.In (-2 ^ 45) (2 ^ 45) := by
  obtain ⟨w0, w1⟩ := turn_range hs h.rate h.freq
  obtain ⟨a, T⟩ := h.tuned
  obtain ⟨s0, -, -⟩ := angle_trig w0 w1
  have sp : 0 < Real.sin (turn s) := lt_of_lt_of_le (by norm_num) s0
  obtain ⟨l1, l2⟩ := glided_state s0 ((at_glide sp g _ _).trans h.low) rfl
  have a0 := T.lo
  have a1 := T.hi
  have ap : 0 < a := lt_of_lt_of_le (by positivity) a0
  have hc := Real.cos_le_one (turn s)
  have hc' := Real.neg_one_le_cos (turn s)
  have X' : |((x.val : ℚ) : ℝ)| ≤ 1 := by
    have := abs_le.2 hx.2
    rw [← Rat.cast_le (K := ℝ)] at this
    push_cast at this; exact this
  have B0 : |(1 - Real.cos (turn s)) / 2 / (1 + a)| ≤ 1 := by
    rw [abs_of_nonneg (div_nonneg (by linarith) (by linarith)), div_le_iff₀ (by linarith)]; linarith
  obtain ⟨o, n1, n2⟩ := tick_ops (Y := 25200000000000) (by norm_num) (by norm_num) T.b0 T.b1 T.b2 T.a1 T.a2 B0
    (by rw [abs_of_nonneg (div_nonneg (by linarith) (by linarith)), div_le_iff₀ (by linarith)]; linarith)
    (by rw [abs_div, abs_of_pos (by linarith : 0 < 1 + a), div_le_iff₀ (by linarith), abs_le]; constructor <;> linarith)
    (by rw [abs_div, abs_of_pos (by linarith : 0 < 1 + a), div_le_iff₀ (by linarith), abs_le]; constructor <;> linarith)
    (Near64.of_in (conv_up hx.1)) X' (Near64.self h.fin1) (Near64.self h.fin2) l1 l2
  refine ⟨⟨h.rate, h.freq, h.res, ⟨a, a0, a1, T.b0, T.b1, T.b2, T.a1, T.a2⟩, n1.1, n2.1, ?_⟩, ?_⟩
  · exact glided_step s0 g a0 a1 X' (n1.2.trans (by norm_num)) (n2.2.trans (by norm_num)) h.low
  · have b : |(1 - Real.cos (turn s)) / 2 / (1 + a) * ((x.val : ℚ) : ℝ)| ≤ 1 := by
      rw [abs_mul]; exact mul_le_one₀ B0 (abs_nonneg _) X'
    have y := o.abs_le ((abs_add_le _ _).trans (add_le_add b l1))
    have q : |(s.b0 * Conv.conv x + s.z1).val| ≤ 2 ^ 45 := by
      rw [← Rat.cast_le (K := ℝ)]; push_cast; exact y.trans (by norm_num)
    have R : binary32.Rep (2 ^ 45) false := rep_two_pow (by norm_num)
    have f := o.1
    change (Conv.conv (s.b0 * Conv.conv x + s.z1) : F32).In _ _
    generalize s.b0 * Conv.conv x + s.z1 = z at *
    obtain ⟨v, nz, hv, rfl⟩ := isFin_cases f
    obtain ⟨l, u⟩ := abs_le.1 q
    exact ofRat_in (Rep.neg R) R l u

theorem glided_bounded [Libm F64] [SinCos64] {sr : F32} (hs : sr.In 1000 384000) :
    ∀ (l : List Action) (p : ℝ) (s : Filt F32 F64), (∀ a ∈ l, a.Fine) → glidesF p s l → Glided sr p s → ∀ y ∈ heard s l, y.In (-2 ^ 45) (2 ^ 45)
  | [], _, s, _, _, _ => by intro y hy; simp [heard] at hy
  | .tune f :: l, p, s, hl, hg, h =>
    glided_bounded hs l _ _ (fun a ha => hl a (List.mem_cons_of_mem _ ha)) hg
      (glided_update (s := { RLPF.reset s with freq := (setFreq f (RLPF.reset s)).freq }) hs h.rate
        (setFreq_range hs (hl _ List.mem_cons_self) h.rate) h.res lit0_fin64 lit0_fin64 (at_zero _))
  | .setFreq f :: l, p, s, hl, hg, h =>
    glided_bounded hs l _ _ (fun a ha => hl a (List.mem_cons_of_mem _ ha)) hg
      (glided_update (s := { s with freq := (setFreq f s).freq }) hs h.rate
        (setFreq_range hs (hl _ List.mem_cons_self) h.rate) h.res h.fin1 h.fin2 h.low)
  | .setResonance r :: l, p, s, hl, hg, h =>
    glided_bounded hs l _ _ (fun a ha => hl a (List.mem_cons_of_mem _ ha)) hg
      (glided_update (s := { s with resonance := (setResonance r s).resonance }) hs h.rate h.freq
        (setResonance_range (hl _ List.mem_cons_self) s) h.fin1 h.fin2 h.low)
  | .reset :: l, p, s, hl, hg, h => by
    obtain ⟨a, T⟩ := h.tuned
    exact glided_bounded hs l _ _ (fun a ha => hl a (List.mem_cons_of_mem _ ha)) hg
      ⟨h.rate, h.freq, h.res, ⟨a, T.lo, T.hi, T.b0, T.b1, T.b2, T.a1, T.a2⟩, lit0_fin64, lit0_fin64, at_zero _⟩
  | .tick x :: l, p, s, hl, hg, h => by
    obtain ⟨h', b⟩ := h.tick hs hg.1 (hl _ List.mem_cons_self : x.In (-1) 1)
    intro y hy
    rcases List.mem_cons.1 hy with rfl | hy
    · exact b
    · exact glided_bounded hs l _ _ (fun a ha => hl a (List.mem_cons_of_mem _ ha)) hg.2 h' y hy

/-- **C108, gliding**: the cutoff may also be moved while the filter rings, by up to `sin² ω / 300` radians per sample from one sample to the
next; at all sample rates from 1 to 384 kHz, all cutoffs and resonances that are not NaN, every sample is finite and at most `2^45`. -/
theorem C108_glide [Libm F64] [SinCos64] (sr : F32) (hs : sr.In 1000 384000) (l : List Action) (hl : ∀ a ∈ l, a.Fine)
    (hg : glidesF (turn (init sr)) (init sr) l) : ∀ y ∈ heard (init sr) l, y.In (-2 ^ 45) (2 ^ 45) := by
  refine glided_bounded hs l _ _ hl hg ?_
  have f : (lit 440 : F32).In 440 440 := by decide +kernel
  have r : (lit 0.707 : F32).In 0.0999 30 := by decide +kernel
  exact glided_update (s := ⟨sr, lit 440, lit 0.707, lit 0, lit 0, lit 0, lit 0, lit 0, lit 0, lit 0⟩) hs rfl
    (f.mono (by norm_num) (by have := hs.2.1; norm_num at *; linarith)) r lit0_fin64 lit0_fin64 (at_zero _)

/-- Non-trivial case: tuned to 12 kHz, full resonance, then moved by 10 Hz between two samples, and tuned to 100 Hz, at 48 kHz. -/
example : letI := idealLibm64
    ∀ y ∈ heard (init (lit 48000)) [.tune (lit 12000), .setResonance (lit 30), .tick (lit 1), .setFreq (lit 12010), .tick (lit (-1)),
      .tune (lit 100), .tick (lit 1)], y.In (-2 ^ 45) (2 ^ 45) := by
  let _ := idealLibm64
  have := idealLibm64_sincos
  refine C108_glide (lit 48000) (by decide +kernel) _ (fun a ha => ?_) ?_
  · simp only [List.mem_cons, List.not_mem_nil, or_false] at ha
    rcases ha with rfl | rfl | rfl | rfl | rfl | rfl | rfl <;> simp only [Action.Fine] <;> decide +kernel
  · have c1 : (clamp (lit 12000) (lit 1) (lit 48000 * lit 0.5 * lit 0.99) : F32) = lit 12000 := by decide +kernel
    have c2 : (clamp (lit 12010) (lit 1) (lit 48000 * lit 0.5 * lit 0.99) : F32) = lit 12010 := by decide +kernel
    have v1 : (angle (lit 12000) (lit 48000)).In 1.5707 1.5708 := by decide +kernel
    have v2 : (angle (lit 12010) (lit 48000)).In 1.572 1.5722 := by decide +kernel
    have w1 : 1.5707 ≤ (((angle (lit 12000) (lit 48000)).val : ℚ) : ℝ) ∧ (((angle (lit 12000) (lit 48000)).val : ℚ) : ℝ) ≤ 1.5708 := by
      have a := (Rat.cast_le (K := ℝ)).2 v1.2.1
      have b := (Rat.cast_le (K := ℝ)).2 v1.2.2
      push_cast at a b; exact ⟨a, b⟩
    have w2 : 1.572 ≤ (((angle (lit 12010) (lit 48000)).val : ℚ) : ℝ) ∧ (((angle (lit 12010) (lit 48000)).val : ℚ) : ℝ) ≤ 1.5722 := by
      have a := (Rat.cast_le (K := ℝ)).2 v2.2.1
      have b := (Rat.cast_le (K := ℝ)).2 v2.2.2
      push_cast at a b; exact ⟨a, b⟩
    refine ⟨?_, ?_, ?_, trivial⟩
    · refine le_trans (le_of_eq ?_) (by positivity : (0:ℝ) ≤ _)
      rw [abs_eq_zero, sub_eq_zero]; rfl
    · change |(((angle (clamp (lit 12010) (lit 1) (lit 48000 * lit 0.5 * lit 0.99) : F32) (lit 48000)).val : ℚ) : ℝ) -
        (((angle (clamp (lit 12000) (lit 1) (lit 48000 * lit 0.5 * lit 0.99) : F32) (lit 48000)).val : ℚ) : ℝ)| ≤
        Real.sin (((angle (clamp (lit 12010) (lit 1) (lit 48000 * lit 0.5 * lit 0.99) : F32) (lit 48000)).val : ℚ) : ℝ) ^ 2 / 300
      rw [c1, c2]
      generalize (((angle (lit 12000) (lit 48000)).val : ℚ) : ℝ) = a at *
      generalize (((angle (lit 12010) (lit 48000)).val : ℚ) : ℝ) = b at *
      have p0 := Real.pi_gt_d6
      have p1 := Real.pi_lt_d6
      have c : |Real.cos b| ≤ 0.01 := by
        rw [← Real.sin_pi_div_two_sub]
        refine Real.abs_sin_le_abs.trans ?_
        norm_num at w2
        rw [abs_le]; constructor <;> norm_num <;> linarith
      have t := Real.sin_sq_add_cos_sq b
      have k := sq_le_sq' (abs_le.1 c).1 (abs_le.1 c).2
      norm_num at k w1 w2
      rw [abs_le]; constructor <;> linarith
    · refine le_trans (le_of_eq ?_) (by positivity : (0:ℝ) ≤ _)
      rw [abs_eq_zero, sub_eq_zero]

end Verif.RLPF
