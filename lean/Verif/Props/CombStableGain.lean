import Verif.Props.CombStableFloat

/-!
# C99 in single precision, in terms of the delay and decay times

`C99_energy_float_partial` with the gain the comb computes from its delay and decay times.
-/

namespace Verif
open FP

namespace CombC
variable [Libm F32] [LibmSpec]

/-- The gain the comb computes: at most `exp(-6.907 dt / |dc|)`, and one unit of the last digit of 1 for `expf`. -/
theorem gain_float {s : Comb F32} (hd : s.delayTime.In (1 / 2 ^ 22) (2 ^ 20)) (hc : s.decayTime.isFin = true) (hc0 : 1 / 2 ^ 60 ≤ |s.decayTime.val|)
    (hc1 : |s.decayTime.val| ≤ 2 ^ 20) :
    (updateFeedback s).feedbackCoeff.isFin = true ∧
    |((updateFeedback s).feedbackCoeff.val : ℝ)| ≤ Real.exp (-6.907 * ((s.delayTime.val : ℝ) / |(s.decayTime.val : ℝ)|)) + 1 / 2 ^ 23 := by
  have hp : 0 < |s.decayTime.val| := lt_of_lt_of_le (by positivity) hc0
  have h0 : s.decayTime.val ≠ 0 := abs_pos.1 hp
  have i1 : Arith.isInf s.decayTime = false := by simp [Arith.isInf, toInt_fin hc]
  simp only [updateFeedback, i1, Bool.false_eq_true, if_false]
  rw [eq_fin hc lit_zero.1, lt_fin hc lit_zero.1, lit_zero.val_eq]
  simp only [h0, decide_false, Bool.false_eq_true, if_false, decide_eq_true_eq]
  obtain ⟨v, nz, hv, hv'⟩ := isFin_cases hc
  have ha : (Arith.fabs s.decayTime).isFin = true ∧ (Arith.fabs s.decayTime).val = |s.decayTime.val| := by
    rw [hv']; exact ⟨rfl, rfl⟩
  generalize Arith.fabs s.decayTime = A at ha ⊢
  set ρ : ℝ := (s.delayTime.val : ℝ) / |(s.decayTime.val : ℝ)| with hρ
  have hpR : (0:ℝ) < |(s.decayTime.val : ℝ)| := by exact_mod_cast hp
  have d0 : (1 / 2 ^ 22 : ℝ) ≤ s.delayTime.val := by
    have := hd.2.1
    rw [← Rat.cast_le (K := ℝ)] at this; push_cast at this; exact this
  have d1 : (s.delayTime.val : ℝ) ≤ 2 ^ 20 := by
    have := hd.2.2
    rw [← Rat.cast_le (K := ℝ)] at this; push_cast at this; exact this
  have c0 : (1 / 2 ^ 60 : ℝ) ≤ |(s.decayTime.val : ℝ)| := by
    rw [← Rat.cast_le (K := ℝ)] at hc0; push_cast at hc0; exact hc0
  have c1 : |(s.decayTime.val : ℝ)| ≤ 2 ^ 20 := by
    rw [← Rat.cast_le (K := ℝ)] at hc1; push_cast at hc1; exact hc1
  have ρ0 : 1 / 2 ^ 42 ≤ ρ := by
    rw [hρ, le_div_iff₀ hpR]
    calc (1 / 2 ^ 42 : ℝ) * |(s.decayTime.val : ℝ)| ≤ 1 / 2 ^ 42 * 2 ^ 20 := mul_le_mul_of_nonneg_left c1 (by positivity)
      _ = 1 / 2 ^ 22 := by norm_num
      _ ≤ _ := d0
  have ρ1 : ρ ≤ 2 ^ 80 := by
    rw [hρ, div_le_iff₀ hpR]
    calc (s.delayTime.val : ℝ) ≤ 2 ^ 20 := d1
      _ = 2 ^ 80 * (1 / 2 ^ 60) := by norm_num
      _ ≤ _ := mul_le_mul_of_nonneg_left c0 (by positivity)
  have ρp : 0 < ρ := lt_of_lt_of_le (by positivity) ρ0
  have hq : Near (s.delayTime / A) ρ (ρ / 2 ^ 24 + 1 / 2 ^ 149) := by
    obtain ⟨zs, k⟩ := div_def hd.1 ha.1 (by rw [ha.2]; exact hp.ne')
    rw [k]
    have := near_rounded (zs := zs) (q := s.delayTime.val / A.val) (r := ρ) (A := ρ) (η := 0) (abs_of_pos ρp).le
      (by rw [ha.2]; push_cast; rw [hρ]; simp) (by norm_num at ρ1 ⊢; linarith)
    exact this.mono (by simp)
  have hl : (-lit 6.907755 : F32).In (-6.908) (-6.9077) := by decide +kernel
  have l0 : (-6.908 : ℝ) ≤ (-lit 6.907755 : F32).val := by
    have := hl.2.1
    rw [← Rat.cast_le (K := ℝ)] at this; push_cast at this; exact this
  have l1 : ((-lit 6.907755 : F32).val : ℝ) ≤ -6.9077 := by
    have := hl.2.2
    rw [← Rat.cast_le (K := ℝ)] at this; push_cast at this; exact this
  have hm := (near_mul_rel hq hl.1 (A := ρ) (B := 7) (abs_of_pos ρp).le (abs_le.2 ⟨by linarith, by linarith⟩)
    (by norm_num at ρ1 ⊢; linarith)).2
  generalize s.delayTime / A * -lit 6.907755 = z at hm ⊢
  have zR : (z.val : ℝ) ≤ -6.907 * ρ := by
    have h1 := (abs_le.1 hm.2).2
    have h2 := mul_le_mul_of_nonneg_left l1 ρp.le
    norm_num at h1 h2 ρ0 ⊢
    linarith
  have z0 : z.val ≤ 0 := by
    have : (z.val : ℝ) ≤ ((0:ℚ) : ℝ) := by push_cast; linarith
    exact_mod_cast this
  have e1 := LibmSpec.exp_nonpos z (Or.inr ⟨hm.1, z0⟩)
  have e2 := (abs_le.1 (LibmSpec.exp_acc z hm.1 z0)).2
  have e3 := Real.exp_le_exp.2 zR
  have e0 : (0:ℝ) ≤ (Libm.exp z : F32).val := by exact_mod_cast e1.2.1
  have e4 : (2:ℝ) ^ (-23 : ℤ) = 1 / 2 ^ 23 := by norm_num
  rw [e4] at e2
  split_ifs
  · refine ⟨isFin_neg e1.1, ?_⟩
    rw [val_neg]
    push_cast
    rw [abs_neg, abs_of_nonneg e0]
    linarith
  · refine ⟨e1.1, ?_⟩
    rw [abs_of_nonneg e0]
    linarith

/-- **C99, partial** (single precision, every rounding and the accuracy of `expf` included), in terms of the delay time `dt` and the decay
time `dc` alone: with a fixed delay of two samples or more the energy of the output up to any moment is at most a constant times the
energy of the input up to that moment, no sample is infinite or NaN. `γ` is the gain `0.001^(dt/|dc|)` up to its rounding, `κ` the room
needed by the roundings of a line of that length. Gains closer to one than `κ` are not covered. -/
theorem C99_stable_float_partial (sr md dt dc : F32) (hsr : sr.In 0 (2 ^ 22)) (hmd : md.In 0 (2 ^ 20))
    (hp : md.val * sr.val ≤ 2 ^ 22) (hdt : dt.In (1 / 2 ^ 22) md.val) (hD : 2 ≤ (dt * sr).val) (hc : dc.isFin = true) (hc0 : 1 / 2 ^ 60 ≤ |dc.val|)
    (hc1 : |dc.val| ≤ 2 ^ 20) (κ γ : ℝ) (hκ : κ = (⌈(md * sr).val⌉ + 36) / 2 ^ 20)
    (hγ : γ = Real.exp (-6.907 * ((dt.val : ℝ) / |(dc.val : ℝ)|)) + 1 / 2 ^ 23) (h1 : γ + κ < 1) (fuel : ℕ) (hf : 1 ≤ fuel) (xs : List F32)
    (hx : ∀ x ∈ xs, x.isFin = true)
    (hE : (xs.map fun x => (|(x.val : ℝ)| + 1 / 2 ^ 100) ^ 2).sum ≤ 2 ^ 149 * (1 - γ - κ) ^ 2) :
    ∃ s0 s' ys, CombC.init sr md = some s0 ∧
      CombC.process fuel (CombC.setDecayTime dc (CombC.setDelayTime dt s0)) xs = some (s', ys) ∧ ys.length = xs.length ∧
      (∀ y ∈ ys, y.isFin = true) ∧
      (ys.map fun y => (y.val : ℝ) ^ 2).sum ≤ ((1 + 2 * κ) / (1 - γ - κ)) ^ 2 * (xs.map fun x => (|(x.val : ℝ)| + 1 / 2 ^ 100) ^ 2).sum := by
  have hdt' : dt.In 0 md.val := hdt.mono (by norm_num) le_rfl
  obtain ⟨s0, a1, s, a2, -, -, -, -, a7, -⟩ := setup_float hsr hmd.1 hmd.2.1 hp hdt' dc
  have hs : s = updateFeedback { CombC.setDelayTime dt s0 with decayTime := dc } := a2
  have hdel : (CombC.setDelayTime dt s0).delayTime = dt := by
    rw [a2] at a7; exact a7
  obtain ⟨g1, g2⟩ := gain_float (s := { CombC.setDelayTime dt s0 with decayTime := dc })
    (by show ((CombC.setDelayTime dt s0).delayTime).In _ _; rw [hdel]; exact hdt.mono le_rfl hmd.2.2) hc hc0 hc1
  rw [← hs] at g1 g2
  have g3 : |(s.feedbackCoeff.val : ℝ)| ≤ γ := by
    rw [hγ]
    have e : ({ CombC.setDelayTime dt s0 with decayTime := dc } : Comb F32).delayTime = dt := hdel
    rw [e] at g2
    exact g2
  have κ0 : 0 ≤ κ := by
    have hm : (md * sr).In 0 (2 ^ 22 : ℚ) := mul_in hmd.1 hsr.1 rep_zero (rep_two_pow (by norm_num)) (mul_nonneg hmd.2.1 hsr.2.1) hp
    have : (0:ℤ) ≤ ⌈(md * sr).val⌉ := Int.ceil_nonneg hm.2.1
    have : (0:ℝ) ≤ ⌈(md * sr).val⌉ := by exact_mod_cast this
    rw [hκ]; positivity
  have A0 : 0 < 1 - γ - κ := by linarith
  have A1 : 1 - γ - κ ≤ 1 - |(s.feedbackCoeff.val : ℝ)| - κ := by linarith
  have A2 : (1 - γ - κ) ^ 2 ≤ (1 - |(s.feedbackCoeff.val : ℝ)| - κ) ^ 2 := pow_le_pow_left₀ A0.le A1 2
  have E0 : 0 ≤ (xs.map fun x => (|(x.val : ℝ)| + 1 / 2 ^ 100) ^ 2).sum := by
    refine List.sum_nonneg fun z hz => ?_
    obtain ⟨x, -, rfl⟩ := List.mem_map.1 hz
    exact sq_nonneg _
  obtain ⟨s0', b1, b2⟩ := C99_energy_float_partial sr md dt dc hsr hmd.1 hmd.2.1 hp hdt' hD κ |(s.feedbackCoeff.val : ℝ)| hκ (by linarith) fuel hf
    xs hx (hE.trans (mul_le_mul_of_nonneg_left A2 (by positivity)))
  rw [a1] at b1
  obtain rfl := Option.some.inj b1
  rw [← a2] at b2
  obtain ⟨s', ys, c1, c2, c3, c4⟩ := b2 g1 rfl
  refine ⟨s0, s', ys, a1, by rw [← a2]; exact c1, c2, c3, c4.trans (mul_le_mul_of_nonneg_right ?_ E0)⟩
  refine pow_le_pow_left₀ (by have : 0 < 1 - |(s.feedbackCoeff.val : ℝ)| - κ := by linarith
                              positivity) ?_ 2
  exact div_le_div_of_nonneg_left (by linarith) A0 A1

/-- **C99, partial** (single precision): after any input the comb falls silent again. However long it runs on with zeros, at most
`K (E + k / 2^200) / ε²` output samples reach the level `ε`, where `E` is the energy of the input, `k` the number of zeros and `K` the
constant of `C99_stable_float_partial`: no standing tone survives, and none is kept alive by roundings. -/
theorem C99_ring_float_partial (sr md dt dc : F32) (hsr : sr.In 0 (2 ^ 22)) (hmd : md.In 0 (2 ^ 20))
    (hp : md.val * sr.val ≤ 2 ^ 22) (hdt : dt.In (1 / 2 ^ 22) md.val) (hD : 2 ≤ (dt * sr).val) (hc : dc.isFin = true) (hc0 : 1 / 2 ^ 60 ≤ |dc.val|)
    (hc1 : |dc.val| ≤ 2 ^ 20) (κ γ : ℝ) (hκ : κ = (⌈(md * sr).val⌉ + 36) / 2 ^ 20)
    (hγ : γ = Real.exp (-6.907 * ((dt.val : ℝ) / |(dc.val : ℝ)|)) + 1 / 2 ^ 23) (h1 : γ + κ < 1) (fuel : ℕ) (hf : 1 ≤ fuel) (xs : List F32)
    (hx : ∀ x ∈ xs, x.isFin = true) (k : ℕ) (E : ℝ) (hE : E = (xs.map fun x => (|(x.val : ℝ)| + 1 / 2 ^ 100) ^ 2).sum + k / 2 ^ 200)
    (hE1 : E ≤ 2 ^ 149 * (1 - γ - κ) ^ 2) (ε : ℝ) (hε : 0 < ε) :
    ∃ s0 s' ys, CombC.init sr md = some s0 ∧
      CombC.process fuel (CombC.setDecayTime dc (CombC.setDelayTime dt s0)) (xs ++ List.replicate k (lit 0)) = some (s', ys) ∧
      (∀ y ∈ ys, y.isFin = true) ∧
      ∀ zs : List F32, zs.Sublist ys → (∀ z ∈ zs, ε ≤ |(z.val : ℝ)|) → (zs.length : ℝ) ≤ ((1 + 2 * κ) / (1 - γ - κ)) ^ 2 * E / ε ^ 2 := by
  have hz : ((xs ++ List.replicate k (lit 0 : F32)).map fun x => (|(x.val : ℝ)| + 1 / 2 ^ 100) ^ 2).sum = E := by
    rw [List.map_append, List.sum_append, List.map_replicate, List.sum_replicate, lit_zero.val_eq, hE]
    simp only [Rat.cast_zero, abs_zero, zero_add, nsmul_eq_mul]
    ring
  obtain ⟨s0, s', ys, a, b, -, c, d⟩ := C99_stable_float_partial sr md dt dc hsr hmd hp hdt hD hc hc0 hc1 κ γ hκ hγ h1 fuel hf
    (xs ++ List.replicate k (lit 0)) (by
      intro x h
      rcases List.mem_append.1 h with h | h
      · exact hx x h
      · rw [List.eq_of_mem_replicate h]; exact lit_zero.1) (by rw [hz]; exact hE1)
  rw [hz] at d
  refine ⟨s0, s', ys, a, b, c, fun zs hs hzs => ?_⟩
  rw [le_div_iff₀ (by positivity)]
  refine le_trans ?_ d
  have h2 : (zs.map fun y => (y.val : ℝ) ^ 2).sum ≤ (ys.map fun y => (y.val : ℝ) ^ 2).sum := by
    refine (hs.map _).sum_le_sum fun y hy => ?_
    obtain ⟨z, -, rfl⟩ := List.mem_map.1 hy
    exact sq_nonneg _
  refine le_trans ?_ h2
  clear hs h2
  induction zs with
  | nil => simp
  | cons z zs ih =>
    rw [List.map_cons, List.sum_cons, List.length_cons]
    have h3 := pow_le_pow_left₀ hε.le (hzs z (by simp)) 2
    rw [sq_abs] at h3
    have := ih fun w hw => hzs w (by simp [hw])
    push_cast
    linarith

end CombC

/-- Concrete case: the line of a fifth of a second at 48 kHz, a delay of 1/64 s and the default decay of one second: the gain is about 0.9,
the roundings cost less than a hundredth. -/
example : (ofRat 48000 : F32).In 0 (2 ^ 22) ∧ (ofRat (1 / 5) : F32).In 0 (2 ^ 20) ∧ (ofRat (1 / 5) : F32).val * (ofRat 48000 : F32).val ≤ 2 ^ 22 ∧
    (ofRat (1 / 64) : F32).In (1 / 2 ^ 22) (ofRat (1 / 5) : F32).val ∧ 2 ≤ ((ofRat (1 / 64) : F32) * ofRat 48000).val ∧
    ((⌈((ofRat (1 / 5) : F32) * ofRat 48000).val⌉ : ℚ) + 36) / 2 ^ 20 ≤ 1 / 100 ∧ (ofRat 1 : F32).In 1 1 ∧
    Real.exp (-6.907 * ((1 / 64 : ℝ) / 1)) + 1 / 2 ^ 23 + 1 / 100 < 1 := by
  refine ⟨by decide +kernel, by decide +kernel, by decide +kernel, by decide +kernel, by decide +kernel, by decide +kernel, by decide +kernel, ?_⟩
  have h := Real.add_one_le_exp (6.907 / 64 : ℝ)
  rw [show (-6.907 * ((1 / 64 : ℝ) / 1)) = -(6.907 / 64) by norm_num, Real.exp_neg]
  have : (Real.exp (6.907 / 64))⁻¹ ≤ (6.907 / 64 + 1 : ℝ)⁻¹ := inv_anti₀ (by norm_num) h
  norm_num at this ⊢
  linarith

end Verif
