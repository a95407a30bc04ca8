import Verif.Props.EnvelopeEnd
import Verif.Float.LibmSpec

/-!
# Property C16: exactly which attacks and which decays finish
-/

namespace Verif
open FP

/-! ## Attack: the exact threshold -/

/-- Values of a single-precision number of at least one half are multiples of `2^-24`. -/
theorem grid24 {v : F32} (h : 1 / 2 ≤ v.val) : ∃ n : ℤ, v.val = n / 16777216 := by
  obtain ⟨n, hn⟩ := (grid_val v).mult (k := -24) (by
    rw [abs_of_nonneg (by linarith)]
    refine le_trans (le_of_eq ?_) h
    norm_num [binary32])
  have e24 : (2:ℚ) ^ (-24:ℤ) = 1 / 16777216 := by norm_num
  rw [e24] at hn
  exact ⟨n, by rw [hn]; ring⟩

/-- With a coefficient of at least `1 - 500/2^24` no level below 0.999 rises to it. -/
theorem attack_stall_sharp {a v : F32} (ha : a.In 0 1) (ha1 : 1 - 500 / 16777216 ≤ a.val) (hv : v.In 0 (1 - 16778 / 16777216)) :
    (lit 1 - a * (lit 1 - v) : F32).In 0 (1 - 16778 / 16777216) := by
  have h1 : (lit 1 : F32).In 1 1 := lit_one
  have hr9 : binary32.Rep (16778 / 16777216) false := by decide +kernel
  have hu : (lit 1 - v : F32).In (16778 / 16777216) 1 := sub_in h1 hv hr9 rep_one (by linarith) (by linarith)
  have hp0 : 0 ≤ a.val * (lit 1 - v : F32).val := mul_nonneg ha.2.1 (by linarith [hu.2.1])
  have hp1 : a.val * (lit 1 - v : F32).val ≤ 1 := mul_le_one₀ ha.2.2 (by linarith [hu.2.1]) hu.2.2
  have hp : (a * (lit 1 - v) : F32).In 0 1 := mul_in ha.1 hu.1 rep_zero rep_one hp0 hp1
  have hpv := (mul_val (x := a) ha.1 hu.1 rep_zero rep_one hp0 hp1).2
  have hlow : binary32.rnd ((1 - 500 / 16777216) * (16778 / 16777216) : ℚ) ≤ (a * (lit 1 - v) : F32).val := by
    rw [hpv]
    exact binary32.rnd_mono (K := ℚ) (mul_le_mul ha1 hu.2.1 (by norm_num) ha.2.1)
  have hfin := sub_in (x := lit 1) h1 hp rep_zero rep_one (by norm_num) (by linarith)
  refine ⟨hfin.1, hfin.2.1, ?_⟩
  rw [(sub_val (x := lit 1) h1.1 hp.1 rep_zero rep_one (by rw [h1.val_eq]; linarith [hp.2.2])
    (by rw [h1.val_eq]; linarith [hp.2.1])).2, h1.val_eq]
  have hm := binary32.rnd_mono (K := ℚ) (x := 1 - (a * (lit 1 - v) : F32).val)
    (y := 1 - binary32.rnd ((1 - 500 / 16777216) * (16778 / 16777216) : ℚ)) (by linarith)
  refine hm.trans ?_
  decide +kernel

/-- From 0.999 on the attack is over at the next sample. -/
theorem attack_over {a v : F32} (ha : a.In 0 1) (hv : v.In 0 1) (h : (lit 0.999 : F32).val ≤ v.val) :
    ((lit 1 - a * (lit 1 - v) : F32) >=. lit 0.999) = true := by
  have h1 : (lit 1 : F32).In 1 1 := lit_one
  have hl : (lit 0.999 : F32).In 0.999 0.9990001 := by decide +kernel
  have hres := attack_in ha hv
  rw [le_fin hl.1 hres.1, decide_eq_true_iff]
  refine h.trans ?_
  have hu01 : (lit 1 - v : F32).In 0 1 := sub_in lit_one hv rep_zero rep_one (by norm_num) (by norm_num)
  have hhalf : (1:ℚ) / 2 ≤ v.val := by linarith [hl.2.1]
  have hex := one_sub_exact (v := v) ⟨hv.1, hhalf, hv.2.2⟩
  have hp0 : 0 ≤ a.val * (lit 1 - v : F32).val := mul_nonneg ha.2.1 hu01.2.1
  have hp1 : a.val * (lit 1 - v : F32).val ≤ 1 := mul_le_one₀ ha.2.2 hu01.2.1 hu01.2.2
  have hp : (a * (lit 1 - v) : F32).In 0 1 := mul_in ha.1 hu01.1 rep_zero rep_one hp0 hp1
  have hpv := (mul_val (x := a) ha.1 hu01.1 rep_zero rep_one hp0 hp1).2
  have hpu : (a * (lit 1 - v) : F32).val ≤ (lit 1 - v : F32).val := by
    rw [hpv]; exact binary32.rnd_le_of_le (grid_val _) (by simp only [Rat.cast_id]; nlinarith [hu01.2.1, ha.2.2])
  rw [(sub_val (x := lit 1) h1.1 hp.1 rep_zero rep_one (by rw [h1.val_eq]; linarith [hp.2.2])
    (by rw [h1.val_eq]; linarith [hp.2.1])).2, h1.val_eq]
  exact binary32.le_rnd_of_le (grid_val v) (by simp only [Rat.cast_id]; linarith)

/-- Not fast enough means at least `1 - 500/2^24`; not yet over means at most `1 - 16778/2^24`. -/
theorem attack_slow {a v : F32} (hv : v.In 0 1) (h : ¬ (a.val ≤ 1 - 501 / 16777216 ∨ (lit 0.999 : F32).val ≤ v.val)) :
    1 - 500 / 16777216 ≤ a.val ∧ v.In 0 (1 - 16778 / 16777216) := by
  obtain ⟨h1, h2⟩ := not_or.1 h
  push Not at h1 h2
  have hl2 : (lit 0.999 : F32).val = 1 - 16777 / 16777216 := by decide +kernel
  rw [hl2] at h2
  constructor
  · obtain ⟨n, hn⟩ := grid24 (v := a) (by linarith)
    rw [hn] at h1 ⊢
    have : (16777216 - 501 : ℚ) < n := by linarith
    have : (16777216 - 501 : ℤ) < n := by exact_mod_cast this
    have : ((16777216 - 500 : ℤ) : ℚ) ≤ n := by exact_mod_cast (by omega : (16777216 - 500 : ℤ) ≤ n)
    push_cast at this
    linarith
  · refine ⟨hv.1, hv.2.1, ?_⟩
    rcases lt_or_ge v.val (1 / 2) with hlow | hhigh
    · linarith
    · obtain ⟨n, hn⟩ := grid24 hhigh
      rw [hn] at h2 ⊢
      have : (n : ℚ) < (16777216 - 16777 : ℤ) := by push_cast; linarith
      have : n < 16777216 - 16777 := by exact_mod_cast this
      have : (n : ℚ) ≤ ((16777216 - 16778 : ℤ) : ℚ) := by exact_mod_cast (by omega : n ≤ 16777216 - 16778)
      push_cast at this
      linarith

theorem stall_below {v : F32} (h : v.In 0 (1 - 16778 / 16777216)) : (v >=. lit 0.999) = false := by
  have hl2 : (lit 0.999 : F32).val = 1 - 16777 / 16777216 := by decide +kernel
  have hl : (lit 0.999 : F32).isFin = true := by decide +kernel
  rw [le_fin hl h.1, decide_eq_false_iff_not, not_le, hl2]
  have := h.2.2
  linarith

theorem adsr_attack_stays (s : EnvelopeADSR.Env F32) (hst : s.state = .attack) (hg : (s.gateValue <=. lit 0) = false)
    (ha : s.attackCoeff.In 0 1) (h1 : 1 - 500 / 16777216 ≤ s.attackCoeff.val) (h2 : s.value.In 0 (1 - 16778 / 16777216)) (n : ℕ) :
    (tickState EnvelopeADSR.tick n s).state = .attack ∧ (tickState EnvelopeADSR.tick n s).value.In 0 (1 - 16778 / 16777216) := by
  have := tickState_inv (tick := EnvelopeADSR.tick)
    (I := fun s => s.state = .attack ∧ s.value.In 0 (1 - 16778 / 16777216) ∧ (s.gateValue <=. lit 0) = false ∧
      s.attackCoeff.In 0 1 ∧ 1 - 500 / 16777216 ≤ s.attackCoeff.val) ?_ ⟨hst, h2, hg, ha, h1⟩ n
  · exact ⟨this.1, this.2.1⟩
  rintro s ⟨hst, hv, hg, ha, ha1⟩
  have hs := attack_stall_sharp ha ha1 hv
  have hnot := stall_below hs
  have ht : (EnvelopeADSR.tick s).1 = { s with value := lit 1 - s.attackCoeff * (lit 1 - s.value) } := by
    cases s; simp only at hst hg hnot; subst hst; simp only [EnvelopeADSR.tick, hg, hnot]; rfl
  rw [ht]
  exact ⟨hst, hs, hg, ha, ha1⟩

/-- **C16, attack, exactly.** While the gate is high, the attack of an ADSR envelope ends if and only if its coefficient is at most
`1 - 501/2^24`, or the level is at 0.999 already. Otherwise it stays in the attack stage for ever. -/
theorem C16_adsr_attack_iff (s : EnvelopeADSR.Env F32) (hst : s.state = .attack) (hg : (s.gateValue <=. lit 0) = false)
    (hv : s.value.In 0 1) (ha : s.attackCoeff.In 0 1) :
    (∃ n, (tickState EnvelopeADSR.tick n s).state ≠ .attack) ↔
      (s.attackCoeff.val ≤ 1 - 501 / 16777216 ∨ (lit 0.999 : F32).val ≤ s.value.val) := by
  constructor
  · rintro ⟨n, hn⟩
    by_contra h
    obtain ⟨h1, h2⟩ := attack_slow hv h
    exact hn (adsr_attack_stays s hst hg ha h1 h2 n).1
  · rintro (h | h)
    · obtain ⟨n, hn, -⟩ := C16_adsr_attack_finishes_partial s hst hg hv ha (by norm_num at h ⊢; exact h)
      exact ⟨n, by rw [hn]; decide⟩
    · refine ⟨1, ?_⟩
      have ho := attack_over ha hv h
      have ht : (EnvelopeADSR.tick s).1.state = .decay := by
        cases s; simp only at hst hg ho; subst hst; simp only [EnvelopeADSR.tick, hg, ho]; rfl
      rw [tickState_succ, tickState_zero, ht]
      decide

/-- **C16, attack, exactly.** The same of the attack-release envelope: it reaches its peak under the same condition. -/
theorem C16_ar_attack_iff (s : EnvelopeAR.Env F32) (hst : s.state = .attack) (hg : s.gate = true)
    (hv : s.value.In 0 1) (ha : s.attackCoeff.In 0 1) :
    (∃ n, (tickState EnvelopeAR.tick n s).value = lit 1) ↔
      (s.attackCoeff.val ≤ 1 - 501 / 16777216 ∨ (lit 0.999 : F32).val ≤ s.value.val) := by
  constructor
  · rintro ⟨n, hn⟩
    by_contra h
    obtain ⟨h1, h2⟩ := attack_slow hv h
    have := tickState_inv (tick := EnvelopeAR.tick)
      (I := fun s => s.state = .attack ∧ s.value.In 0 (1 - 16778 / 16777216) ∧ s.attackCoeff.In 0 1 ∧ 1 - 500 / 16777216 ≤ s.attackCoeff.val) ?_
      ⟨hst, h2, ha, h1⟩ n
    · have h3 := this.2.1.2.2
      rw [hn, lit_one.val_eq] at h3
      norm_num at h3
    rintro s ⟨hst, hv, ha, ha1⟩
    have hs := attack_stall_sharp ha ha1 hv
    have hnot := stall_below hs
    have ht : (EnvelopeAR.tick s).1 = { s with value := lit 1 - s.attackCoeff * (lit 1 - s.value) } := by
      cases s; simp only at hst hnot; subst hst; simp only [EnvelopeAR.tick, hnot]; rfl
    rw [ht]
    exact ⟨hst, hs, ha, ha1⟩
  · rintro (h | h)
    · obtain ⟨n, -, hn⟩ := C16_ar_attack_finishes_partial s hst hg hv ha (by norm_num at h ⊢; exact h)
      exact ⟨n, hn⟩
    · refine ⟨1, ?_⟩
      have ho := attack_over ha hv h
      have ht : (EnvelopeAR.tick s).1.value = lit 1 := by
        cases s; simp only at hst hg ho; subst hst; subst hg; simp only [EnvelopeAR.tick, ho]; rfl
      rw [tickState_succ, tickState_zero, ht]

/-- Instances: a coefficient on each side of the line, half a millionth apart. -/
example : (lit (1 - 501 / 16777216) : F32).In 0 1 ∧ (lit (1 - 501 / 16777216) : F32).val ≤ 1 - 501 / 16777216 ∧
    ¬ (lit (1 - 500 / 16777216) : F32).val ≤ 1 - 501 / 16777216 := by
  refine ⟨⟨by decide +kernel, by decide +kernel, by decide +kernel⟩, by decide +kernel, by decide +kernel⟩

/-! ## Attack times -/

section
variable [Libm F32] [LibmSpec]

/-- The coefficient for a time of `t * sr` samples. -/
theorem attack_coeff_bounds {sr t : F32} (hsr : sr.In 1 (2 ^ 20)) (ht : t.isFin = true) (ht0 : (1:ℚ) / 20000 ≤ t.val) (ht1 : t.val ≤ 2 ^ 40) :
    (Libm.exp (-lit 1 / (t * sr)) : F32).In 0 1 ∧
      (t.val * sr.val ≤ 33300 → (Libm.exp (-lit 1 / (t * sr)) : F32).val ≤ 1 - 501 / 16777216) ∧
      (33700 ≤ t.val * sr.val → 1 - 500 / 16777216 ≤ (Libm.exp (-lit 1 / (t * sr)) : F32).val) := by
  obtain ⟨N, hN⟩ : ∃ N, N = t.val * sr.val := ⟨_, rfl⟩
  have hN0 : 1 / 20000 ≤ N := by rw [hN]; nlinarith [hsr.2.1]
  have hN1 : N ≤ 2 ^ 60 := by
    rw [hN, show (2:ℚ) ^ 60 = 2 ^ 40 * 2 ^ 20 by norm_num]
    exact mul_le_mul ht1 hsr.2.2 (by linarith [hsr.2.1]) (by norm_num)
  have r0 : binary32.Rep (2 ^ (-15:ℤ)) false := by decide +kernel
  have r60 : binary32.Rep (2 ^ 60) false := by decide +kernel
  have hp : (t * sr : F32).In (2 ^ (-15:ℤ)) (2 ^ 60) :=
    mul_in ht hsr.1 r0 r60 (by rw [← hN]; refine le_trans ?_ hN0; norm_num) (by rw [← hN]; exact hN1)
  have hpv := (mul_val (x := t) (y := sr) ht hsr.1 r0 r60 (by rw [← hN]; refine le_trans ?_ hN0; norm_num) (by rw [← hN]; exact hN1)).2
  rw [← hN] at hpv
  obtain ⟨P, hP⟩ : ∃ P, P = (t * sr : F32) := ⟨_, rfl⟩
  rw [← hP] at hp hpv ⊢
  have hm1 : (-lit 1 : F32).In (-1) (-1) := ⟨by decide +kernel, by decide +kernel, by decide +kernel⟩
  have hPpos : 0 < P.val := lt_of_lt_of_le (by positivity) hp.2.1
  have rm : binary32.Rep (-2 ^ 15) false := by decide +kernel
  have hdiv0 : -2 ^ 15 ≤ (-lit 1 : F32).val / P.val := by
    rw [hm1.val_eq, le_div_iff₀ hPpos]
    have : (2:ℚ) ^ (-15:ℤ) * 2 ^ 15 = 1 := by norm_num
    nlinarith [hp.2.1]
  have hdiv1 : (-lit 1 : F32).val / P.val ≤ 0 := by
    rw [hm1.val_eq]
    exact div_nonpos_of_nonpos_of_nonneg (by norm_num) hPpos.le
  have hq : (-lit 1 / P : F32).In (-2 ^ 15) 0 := div_in hm1.1 hp.1 hPpos.ne' rm rep_zero hdiv0 hdiv1
  have hqv := (div_val (x := -lit 1) (y := P) hm1.1 hp.1 hPpos.ne' rm rep_zero hdiv0 hdiv1).2
  rw [hm1.val_eq] at hqv
  obtain ⟨q, hqd⟩ : ∃ q, q = (-lit 1 / P : F32) := ⟨_, rfl⟩
  rw [← hqd] at hq hqv ⊢
  have hin := LibmSpec.exp_nonpos q (Or.inr ⟨hq.1, hq.2.2⟩)
  have hacc := LibmSpec.exp_acc q hq.1 hq.2.2
  have e23 : (2:ℝ) ^ (-23:ℤ) = 1 / 8388608 := by norm_num
  rw [abs_le, e23] at hacc
  refine ⟨hin, fun hle => ?_, fun hge => ?_⟩
  · rw [← hN] at hle
    have hPle : P.val ≤ 33301 := by
      rw [hpv]
      have : binary32.Grid 33301 := by have : binary32.Rep 33301 false := by decide +kernel
                                       exact this.1
      exact binary32.rnd_le_of_le this (by simp only [Rat.cast_id]; linarith)
    have hqle : q.val ≤ -(30029 / 1000000000) := by
      rw [hqv]
      have hx : (-1:ℚ) / P.val ≤ -1 / 33301 := by
        rw [div_le_div_iff₀ hPpos (by norm_num)]; linarith
      refine (binary32.rnd_mono (K := ℚ) hx).trans ?_
      decide +kernel
    have hqR : (q.val : ℝ) ≤ -(30029 / 1000000000) := by
      have := (Rat.cast_le (K := ℝ)).mpr hqle; push_cast at this; exact this
    have hexp : Real.exp (q.val : ℝ) ≤ 1 - 30028 / 1000000000 := by
      refine (Real.exp_le_exp.mpr hqR).trans ?_
      rw [Real.exp_neg]
      have h1 := Real.add_one_le_exp (30029 / 1000000000 : ℝ)
      have h2 : (Real.exp (30029 / 1000000000 : ℝ))⁻¹ ≤ (30029 / 1000000000 + 1 : ℝ)⁻¹ := inv_anti₀ (by norm_num) h1
      refine h2.trans ?_
      norm_num
    rw [← Rat.cast_le (K := ℝ)]
    push_cast
    linarith [hacc.2]
  · rw [← hN] at hge
    have hPge : 33699 ≤ P.val := by
      rw [hpv]
      have : binary32.Grid 33699 := by have : binary32.Rep 33699 false := by decide +kernel
                                       exact this.1
      exact binary32.le_rnd_of_le this (by simp only [Rat.cast_id]; linarith)
    have hqge : -(29675 / 1000000000) ≤ q.val := by
      rw [hqv]
      have hx : (-1:ℚ) / 33699 ≤ -1 / P.val := by
        rw [div_le_div_iff₀ (by norm_num) hPpos]; linarith
      refine le_trans ?_ (binary32.rnd_mono (K := ℚ) hx)
      decide +kernel
    have hqR : (-(29675 / 1000000000) : ℝ) ≤ q.val := by
      have := (Rat.cast_le (K := ℝ)).mpr hqge; push_cast at this; exact this
    have hexp := Real.add_one_le_exp (q.val : ℝ)
    rw [← Rat.cast_le (K := ℝ)]
    push_cast
    linarith [hacc.1]

/-- **C16, attack times.** From silence, with the gate just opened: an attack of up to 33300 samples (0.69 s at 48 kHz) ends; an attack of
33700 samples or more (0.702 s at 48 kHz) never does: the envelope stays in its attack stage below 0.999 for as long as the gate is high, and
never decays. -/
theorem C16_adsr_attack_time (sr t : F32) (hsr : sr.In 1 (2 ^ 20)) (ht : t.isFin = true) (ht1 : t.val ≤ 2 ^ 40) :
    (t.val * sr.val ≤ 33300 →
      ∃ n, (tickState EnvelopeADSR.tick n (EnvelopeADSR.gate (lit 1) (EnvelopeADSR.setAttack t (EnvelopeADSR.init sr)))).state = .decay) ∧
    (33700 ≤ t.val * sr.val → ∀ n,
      (tickState EnvelopeADSR.tick n (EnvelopeADSR.gate (lit 1) (EnvelopeADSR.setAttack t (EnvelopeADSR.init sr)))).state = .attack ∧
      (tickState EnvelopeADSR.tick n (EnvelopeADSR.gate (lit 1) (EnvelopeADSR.setAttack t (EnvelopeADSR.init sr)))).value.val < 0.999) := by
  have hl : (lit 0.0001 : F32).In (1 / 10001) (1 / 9999) := ⟨by decide +kernel, by decide +kernel, by decide +kernel⟩
  obtain ⟨T, hT⟩ : ∃ T : F32, T = if t >. (lit 0.0001 : F32) then t else lit 0.0001 := ⟨_, rfl⟩
  have hTv : T.isFin = true ∧ (1:ℚ) / 20000 ≤ T.val ∧ T.val ≤ 2 ^ 40 ∧ (T = t ∨ t.val ≤ 1 / 9999 ∧ T.val ≤ 1 / 9999) := by
    rw [hT]
    by_cases c : (t >. (lit 0.0001 : F32)) = true
    · rw [if_pos c]
      rw [lt_fin hl.1 ht, decide_eq_true_iff] at c
      exact ⟨ht, by linarith [hl.2.1], ht1, Or.inl rfl⟩
    · rw [if_neg c]
      rw [lt_fin hl.1 ht, decide_eq_true_iff, not_lt] at c
      exact ⟨hl.1, by linarith [hl.2.1], by linarith [hl.2.2], Or.inr ⟨by linarith [hl.2.2], hl.2.2⟩⟩
  obtain ⟨b1, b2, b3⟩ := attack_coeff_bounds hsr hTv.1 hTv.2.1 hTv.2.2.1
  obtain ⟨s, hs⟩ : ∃ s, s = EnvelopeADSR.gate (lit 1) (EnvelopeADSR.setAttack t (EnvelopeADSR.init sr)) := ⟨_, rfl⟩
  have hgate : ((EnvelopeADSR.setAttack t (EnvelopeADSR.init sr)).gateValue <=. (lit 0 : F32) && (lit 1 : F32) >. lit 0) = true := by
    show ((lit 0 : F32) <=. (lit 0 : F32) && (lit 1 : F32) >. lit 0) = true
    decide +kernel
  have e : s = { EnvelopeADSR.setAttack t (EnvelopeADSR.init sr) with gateValue := lit 1, state := .attack, done := false } := by
    rw [hs]
    simp only [EnvelopeADSR.gate]
    rw [if_pos hgate]
  rw [← hs]
  have hst : s.state = .attack := by rw [e]
  have hg : (s.gateValue <=. lit 0) = false := by
    rw [e]
    show ((lit 1 : F32) <=. lit 0) = false
    decide +kernel
  have hv : s.value = lit 0 := by rw [e]; rfl
  have hc : s.attackCoeff = Libm.exp (-lit 1 / (T * sr)) := by rw [e, hT]; rfl
  have hv01 : s.value.In 0 (1 - 16778 / 16777216) := by rw [hv]; exact lit_zero.mono le_rfl (by norm_num)
  rw [← hc] at b1 b2 b3
  constructor
  · intro h
    obtain ⟨n, hn, -⟩ := C16_adsr_attack_finishes_partial s hst hg (hv01.mono le_rfl (by norm_num)) b1 (by
      have := b2 (by
        rcases hTv.2.2.2 with rfl | ⟨-, h2⟩
        · exact h
        · calc T.val * sr.val ≤ 1 / 9999 * 2 ^ 20 := mul_le_mul h2 hsr.2.2 (by linarith [hsr.2.1]) (by norm_num)
            _ ≤ 33300 := by norm_num)
      norm_num at this ⊢
      exact this)
    exact ⟨n, hn⟩
  · intro h n
    have hTt : T = t := by
      rcases hTv.2.2.2 with h1 | ⟨h2, -⟩
      · exact h1
      · exfalso
        have : t.val * sr.val ≤ 1 / 9999 * 2 ^ 20 := by
          rcases le_or_gt 0 t.val with h0 | h0
          · exact mul_le_mul h2 hsr.2.2 (by linarith [hsr.2.1]) (by norm_num)
          · have := mul_nonpos_of_nonpos_of_nonneg h0.le (show 0 ≤ sr.val by linarith [hsr.2.1])
            linarith
        have : (1:ℚ) / 9999 * 2 ^ 20 < 33700 := by norm_num
        linarith
    obtain ⟨h1, h2⟩ := adsr_attack_stays s hst hg b1 (b3 (by rw [hTt]; exact h)) hv01 n
    refine ⟨h1, lt_of_le_of_lt h2.2.2 ?_⟩
    norm_num

/-- Instances: 0.5 s and 1 s at 48 kHz. -/
example : (lit 48000 : F32).In 1 (2 ^ 20) ∧ (lit 0.5 : F32).val * (lit 48000 : F32).val ≤ 33300 ∧
    33700 ≤ (lit 1 : F32).val * (lit 48000 : F32).val := by
  refine ⟨⟨by decide +kernel, by decide +kernel, by decide +kernel⟩, by decide +kernel, by decide +kernel⟩

end

/-! ## Decay -/

theorem fabs_val {x : F32} (h : x.isFin = true) : (Arith.fabs x).isFin = true ∧ (Arith.fabs x).val = |x.val| := by
  obtain ⟨v, nz, hv, rfl⟩ := isFin_cases h
  exact ⟨rfl, rfl⟩

/-- Rounding error of a number below `2^k`. -/
theorem err_lt {x : ℚ} (k : ℤ) (h : |x| < 2 ^ k) (hk : binary32.emin ≤ k - 24) : |x - binary32.rnd x| ≤ 2 ^ (k - 25) := by
  have := binary32.rnd_err_of_lt (K := ℚ) h (by simpa [binary32] using hk)
  simp only [Rat.cast_id] at this
  refine this.trans (le_of_eq ?_)
  congr 1
  show k - ((24 : ℕ) : ℤ) - 1 = k - 25
  push_cast; ring

/-- One decay step with a coefficient of at most `1 - 2^-15` ends within 0.001 of the sustain level or comes closer to it, without crossing
it. -/
theorem decay_step {c S v : F32} (hc : c.In 0 1) (hc1 : c.val ≤ 1 - 1 / 32768) (hS : S.In 0 1) (hv : v.In 0 1) :
    (Arith.fabs (S + c * (v - S) - S : F32) <. lit 0.001) = true ∨
      |(S + c * (v - S) : F32).val - S.val| < |v.val - S.val| := by
  have hl : (lit 0.001 : F32).In (999 / 1000000) (1001 / 1000000) := ⟨by decide +kernel, by decide +kernel, by decide +kernel⟩
  have rm1 : binary32.Rep (-1) false := Rep.neg rep_one
  have r2 : binary32.Rep 2 false := by decide +kernel
  have rm2 : binary32.Rep (-2) false := Rep.neg r2
  have hw := decay_in hc hv hS
  -- the difference
  have x0 : -1 ≤ v.val - S.val := by linarith [hv.2.1, hS.2.2]
  have x1 : v.val - S.val ≤ 1 := by linarith [hv.2.2, hS.2.1]
  obtain ⟨hDf, hDv⟩ := sub_val (x := v) (y := S) hv.1 hS.1 rm1 rep_one x0 x1
  obtain ⟨x, hx⟩ : ∃ x, x = v.val - S.val := ⟨_, rfl⟩
  obtain ⟨D, hDd⟩ : ∃ D : F32, D = v - S := ⟨_, rfl⟩
  rw [← hDd] at hDf hDv hw ⊢
  rw [← hx] at hDv x0 x1 ⊢
  have hD0 : -1 ≤ D.val := by rw [hDv]; exact binary32.le_rnd_of_le rm1.1 (by simpa using x0)
  have hD1 : D.val ≤ 1 := by rw [hDv]; exact binary32.rnd_le_of_le rep_one.1 (by simpa using x1)
  -- the product
  have cD : |c.val * D.val| ≤ 1 := by
    rw [abs_mul, abs_of_nonneg hc.2.1]
    exact mul_le_one₀ hc.2.2 (abs_nonneg _) (abs_le.mpr ⟨hD0, hD1⟩)
  obtain ⟨hpf, hpv⟩ := mul_val (x := c) (y := D) hc.1 hDf rm1 rep_one (abs_le.mp cD).1 (abs_le.mp cD).2
  obtain ⟨p, hp⟩ : ∃ p : F32, p = c * D := ⟨_, rfl⟩
  rw [← hp] at hpf hpv hw ⊢
  have hp0 : -1 ≤ p.val := by rw [hpv]; exact binary32.le_rnd_of_le rm1.1 (by simpa using (abs_le.mp cD).1)
  have hp1 : p.val ≤ 1 := by rw [hpv]; exact binary32.rnd_le_of_le rep_one.1 (by simpa using (abs_le.mp cD).2)
  -- the sum
  obtain ⟨-, hwv⟩ := add_val (x := S) (y := p) hS.1 hpf rm2 r2 (by linarith [hS.2.1]) (by linarith [hS.2.2])
  obtain ⟨w, hwd⟩ : ∃ w : F32, w = S + p := ⟨_, rfl⟩
  rw [← hwd] at hw hwv ⊢
  -- the two roundings before the sum
  have errs : ∀ (k : ℤ), binary32.emin ≤ k - 24 → binary32.Rep (2 ^ k) false → binary32.Rep (-2 ^ k) false → |x| < 2 ^ k →
      |D.val - x| ≤ 2 ^ (k - 25) ∧ |p.val - c.val * D.val| ≤ 2 ^ (k - 25) := by
    intro k hk rk rmk hxk
    have a1 := err_lt k hxk hk
    rw [← hDv, abs_sub_comm] at a1
    have hDk : |D.val| ≤ 2 ^ k := by
      rw [abs_le, hDv]
      exact ⟨binary32.le_rnd_of_le rmk.1 (by simpa using (abs_lt.mp hxk).1.le), binary32.rnd_le_of_le rk.1 (by simpa using (abs_lt.mp hxk).2.le)⟩
    have hpos : (0:ℚ) < 2 ^ k := by positivity
    have hcD : |c.val * D.val| < 2 ^ k := by
      rw [abs_mul, abs_of_nonneg hc.2.1]
      nlinarith [abs_nonneg D.val, hc.2.1]
    have a2 := err_lt k hcD hk
    rw [← hpv, abs_sub_comm] at a2
    exact ⟨a1, a2⟩
  by_cases hsmall : |x| < 981 / 1000000
  · -- close enough already
    left
    obtain ⟨a1, a2⟩ := errs (-9) (by decide) (by decide +kernel) (by decide +kernel) (hsmall.trans (by norm_num))
    have e34 : (2:ℚ) ^ ((-9:ℤ) - 25) = 1 / 17179869184 := by norm_num
    rw [e34] at a1 a2
    have b1 : |p.val| ≤ 981 / 1000000 + 2 / 17179869184 := by
      have h1 : |D.val| ≤ |x| + 1 / 17179869184 := by
        have := abs_add_le (D.val - x) x
        rw [sub_add_cancel] at this
        linarith
      have h2 : |p.val| ≤ |c.val * D.val| + 1 / 17179869184 := by
        have := abs_add_le (p.val - c.val * D.val) (c.val * D.val)
        rw [sub_add_cancel] at this
        linarith
      have h3 : |c.val * D.val| ≤ |D.val| := by
        rw [abs_mul, abs_of_nonneg hc.2.1]
        nlinarith [abs_nonneg D.val, hc.2.2]
      linarith
    have a3 := err_lt 1 (x := S.val + p.val) (by
      rw [abs_lt]; have := abs_le.mp b1; constructor <;> norm_num <;> linarith [hS.2.1, hS.2.2]) (by decide)
    rw [← hwv] at a3
    have e24 : (2:ℚ) ^ ((1:ℤ) - 25) = 1 / 16777216 := by norm_num
    rw [e24] at a3
    have hwS : |w.val - S.val| ≤ 99 / 100000 := by
      have h1 := abs_le.mp a3
      have h2 := abs_le.mp b1
      rw [abs_le]
      constructor <;> linarith
    obtain ⟨hf, hfv⟩ := sub_val (x := w) (y := S) hw.1 hS.1 rm1 rep_one (by linarith [hw.2.1, hS.2.2]) (by linarith [hw.2.2, hS.2.1])
    obtain ⟨g1, g2⟩ := fabs_val hf
    rw [lt_fin g1 hl.1, decide_eq_true_iff, g2, hfv]
    have a4 := err_lt 0 (x := w.val - S.val) (by
      have : (99:ℚ) / 100000 < 2 ^ (0:ℤ) := by norm_num
      linarith) (by decide)
    have e25 : (2:ℚ) ^ ((0:ℤ) - 25) = 1 / 33554432 := by norm_num
    rw [e25] at a4
    have h1 := abs_le.mp a4
    have h2 := abs_le.mp hwS
    have : |binary32.rnd (w.val - S.val)| ≤ 9981 / 10000000 := by
      rw [abs_le]; constructor <;> linarith
    linarith [hl.2.1]
  · -- still away: the step outweighs the rounding
    right
    push Not at hsmall
    have gain : ∃ e : ℚ, |D.val - x| ≤ e ∧ |p.val - c.val * D.val| ≤ e ∧ 2 * e + 1 / 33554432 < 1 / 32768 * |x| := by
      by_cases h9 : |x| < 2 ^ (-9:ℤ)
      · obtain ⟨a1, a2⟩ := errs (-9) (by decide) (by decide +kernel) (by decide +kernel) h9
        refine ⟨_, a1, a2, ?_⟩
        have e34 : (2:ℚ) ^ ((-9:ℤ) - 25) = 1 / 17179869184 := by norm_num
        rw [e34]; linarith
      · push Not at h9
        by_cases h4 : |x| < 2 ^ (-4:ℤ)
        · obtain ⟨a1, a2⟩ := errs (-4) (by decide) (by decide +kernel) (by decide +kernel) h4
          refine ⟨_, a1, a2, ?_⟩
          have e29 : (2:ℚ) ^ ((-4:ℤ) - 25) = 1 / 536870912 := by norm_num
          have e9 : (2:ℚ) ^ (-9:ℤ) = 1 / 512 := by norm_num
          rw [e9] at h9
          rw [e29]; linarith
        · push Not at h4
          have hx2 : |x| < 2 ^ (1:ℤ) := by
            have : |x| ≤ 1 := abs_le.mpr ⟨x0, x1⟩
            norm_num; linarith
          obtain ⟨a1, a2⟩ := errs 1 (by decide) (by decide +kernel) (by decide +kernel) hx2
          refine ⟨_, a1, a2, ?_⟩
          have e24 : (2:ℚ) ^ ((1:ℤ) - 25) = 1 / 16777216 := by norm_num
          have e4 : (2:ℚ) ^ (-4:ℤ) = 1 / 16 := by norm_num
          rw [e4] at h4
          rw [e24]; linarith
    obtain ⟨e, g1, g2, g3⟩ := gain
    have he : 0 ≤ e := (abs_nonneg _).trans g1
    have g1' := abs_le.mp g1
    have g2' := abs_le.mp g2
    rcases le_or_gt 0 x with hpos | hneg
    · have hax : |x| = x := abs_of_nonneg hpos
      rw [hax] at g3 ⊢
      have hDn : 0 ≤ D.val := by rw [hDv]; exact binary32.le_rnd_of_le rep_zero.1 (by simpa using hpos)
      have hpn : 0 ≤ p.val := by
        rw [hpv]; exact binary32.le_rnd_of_le rep_zero.1 (by simpa using mul_nonneg hc.2.1 hDn)
      have hwS : S.val ≤ w.val := by
        rw [hwv]; exact binary32.le_rnd_of_le (grid_val S) (by simp only [Rat.cast_id]; linarith)
      have hpx : p.val ≤ x - 1 / 32768 * x + 2 * e := by nlinarith [hc.2.1, hc.2.2]
      have hsum : |S.val + p.val| ≤ 1 := by
        rw [abs_le]; constructor <;> linarith [hS.2.1, hv.2.2]
      have a3 := rnd_err_unit hsum
      have e25 : (2:ℚ) ^ (-25:ℤ) = 1 / 33554432 := by norm_num
      rw [← hwv, e25] at a3
      have a3' := abs_le.mp a3
      rw [abs_of_nonneg (by linarith)]
      linarith
    · have hax : |x| = -x := abs_of_neg hneg
      rw [hax] at g3 ⊢
      have hDn : D.val ≤ 0 := by rw [hDv]; exact binary32.rnd_le_of_le rep_zero.1 (by simpa using hneg.le)
      have hpn : p.val ≤ 0 := by
        rw [hpv]; exact binary32.rnd_le_of_le rep_zero.1 (by simpa using mul_nonpos_of_nonneg_of_nonpos hc.2.1 hDn)
      have hwS : w.val ≤ S.val := by
        rw [hwv]; exact binary32.rnd_le_of_le (grid_val S) (by simp only [Rat.cast_id]; linarith)
      have hpx : x - 1 / 32768 * x - 2 * e ≤ p.val := by nlinarith [hc.2.1, hc.2.2]
      have hsum : |S.val + p.val| ≤ 1 := by
        rw [abs_le]; constructor <;> linarith [hS.2.2, hv.2.1]
      have a3 := rnd_err_unit hsum
      have e25 : (2:ℚ) ^ (-25:ℤ) = 1 / 33554432 := by norm_num
      rw [← hwv, e25] at a3
      have a3' := abs_le.mp a3
      rw [abs_of_nonpos (by linarith)]
      linarith

/-- **C16, decay (partial).** With the gate high and a decay coefficient of at most `1 - 2^-15` (0.68 s at 48 kHz) the decay ends on the
sustain level after finitely many samples, from above or from below. What is missing: larger coefficients, for which the claim is false
(`C16_decay_can_stall`). -/
theorem C16_adsr_decay_finishes_partial (s : EnvelopeADSR.Env F32) (hst : s.state = .decay) (hg : (s.gateValue <=. lit 0) = false)
    (hv : s.value.In 0 1) (hS : s.sustainLevel.In 0 1) (hc : s.decayCoeff.In 0 1) (hc1 : s.decayCoeff.val ≤ 1 - 1 / 32768) :
    ∃ n, (tickState EnvelopeADSR.tick n s).state = .sustain ∧ (tickState EnvelopeADSR.tick n s).value = s.sustainLevel := by
  have dist : ∀ v S : F32, ∃ k : ℕ, |v.val - S.val| = k * (2:ℚ) ^ (-149:ℤ) := by
    intro v S
    obtain ⟨n, hn⟩ := (grid_val v).mult_emin
    obtain ⟨m, hm⟩ := (grid_val S).mult_emin
    have e : v.val - S.val = ((n - m : ℤ) : ℚ) * (2:ℚ) ^ (-149:ℤ) := by
      rw [hn, hm]; push_cast; simp only [binary32]; ring
    refine ⟨(n - m).natAbs, ?_⟩
    rw [e, abs_mul, abs_of_pos (show (0:ℚ) < 2 ^ (-149:ℤ) by positivity), Nat.cast_natAbs, Int.cast_abs]
  obtain ⟨k, hk⟩ := dist s.value s.sustainLevel
  induction k using Nat.strong_induction_on generalizing s with
  | _ k ih =>
    have ht : (EnvelopeADSR.tick s).1 =
        if Arith.fabs (s.sustainLevel + s.decayCoeff * (s.value - s.sustainLevel) - s.sustainLevel) <. lit 0.001 then
          { s with value := s.sustainLevel, state := .sustain }
        else { s with value := s.sustainLevel + s.decayCoeff * (s.value - s.sustainLevel) } := by
      cases s; simp only at hst hg; subst hst; simp only [EnvelopeADSR.tick, hg]; split_ifs <;> simp_all
    by_cases hdone : (Arith.fabs (s.sustainLevel + s.decayCoeff * (s.value - s.sustainLevel) - s.sustainLevel) <. lit 0.001) = true
    · refine ⟨1, ?_⟩
      rw [tickState_succ, tickState_zero, ht, if_pos hdone]
      exact ⟨rfl, rfl⟩
    · rcases decay_step hc hc1 hS hv with h | h
      · exact absurd h hdone
      rw [if_neg hdone] at ht
      obtain ⟨k', hk'⟩ := dist (s.sustainLevel + s.decayCoeff * (s.value - s.sustainLevel)) s.sustainLevel
      have hlt : k' < k := by
        rw [hk, hk'] at h
        have := lt_of_mul_lt_mul_right h (show (0:ℚ) ≤ 2 ^ (-149:ℤ) by positivity)
        exact_mod_cast this
      obtain ⟨n, hn⟩ := ih k' hlt (EnvelopeADSR.tick s).1 (by rw [ht]; exact hst) (by rw [ht]; exact hg) (by rw [ht]; exact decay_in hc hv hS)
        (by rw [ht]; exact hS) (by rw [ht]; exact hc) (by rw [ht]; exact hc1) (by rw [ht]; exact hk')
      refine ⟨n + 1, ?_⟩
      rw [tickState_succ']
      rw [ht] at hn ⊢
      exact hn

/-- Instance: a decay from 1 to 0.7 with the coefficient of half a second at 48 kHz. -/
example : (lit 0.99995833 : F32).In 0 1 ∧ (lit 0.99995833 : F32).val ≤ 1 - 1 / 32768 ∧ (lit 0.7 : F32).In 0 1 := by
  refine ⟨⟨by decide +kernel, by decide +kernel, by decide +kernel⟩, by decide +kernel, ⟨by decide +kernel, by decide +kernel, by decide +kernel⟩⟩

/-- A slow decay stalls. -/
theorem decay_stall {c S v : F32} (hc : c.In 0 1) (hc1 : 1 - 1 / 131072 ≤ c.val) (hS : S.In (1 / 2) (1 - 1 / 256))
    (hv : v.In (S.val + 1 / 512) 1) : (S + c * (v - S) : F32).In (S.val + 1 / 512) 1 := by
  have rm1 : binary32.Rep (-1) false := Rep.neg rep_one
  have r2 : binary32.Rep 2 false := by decide +kernel
  have hw := decay_in hc (hv.mono (by linarith [hS.2.1]) le_rfl) (hS.mono (by norm_num) (by norm_num))
  have hr9 : binary32.Rep (1 / 512) false := by decide +kernel
  have hD : (v - S : F32).In (1 / 512) 1 := by
    obtain ⟨a, b⟩ := sub_val (x := v) (y := S) hv.1 hS.1 hr9 rep_one (by linarith [hv.2.1]) (by linarith [hv.2.2, hS.2.1])
    exact ⟨a, by rw [b]; exact binary32.le_rnd_of_le hr9.1 (by simp only [Rat.cast_id]; linarith [hv.2.1]),
      by rw [b]; exact binary32.rnd_le_of_le rep_one.1 (by simp only [Rat.cast_id]; linarith [hv.2.2, hS.2.1])⟩
  have hrp : binary32.Rep (1 / 512 - 1 / 67108864) false := by decide +kernel
  have hp : (c * (v - S) : F32).In (1 / 512 - 1 / 67108864) 1 :=
    mul_in hc.1 hD.1 hrp rep_one (by nlinarith [hD.2.1, hc.2.2]) (mul_le_one₀ hc.2.2 (by linarith [hD.2.1]) hD.2.2)
  refine ⟨hw.1, ?_, hw.2.2⟩
  obtain ⟨-, hwv⟩ := add_val (x := S) (y := c * (v - S)) hS.1 hp.1 rep_zero r2 (by linarith [hS.2.1, hp.2.1]) (by linarith [hS.2.2, hp.2.2])
  obtain ⟨w, hwd⟩ : ∃ w : F32, w = S + c * (v - S) := ⟨_, rfl⟩
  rw [← hwd] at hw hwv ⊢
  obtain ⟨n, hn⟩ := grid24 (v := S) hS.2.1
  -- the target is on the grid and as close as half a quarter step
  have hT : binary32.Grid (S.val + 1 / 512) := by
    have e : S.val + 1 / 512 = ((n + 32768 : ℤ) : ℚ) * 2 ^ (-24:ℤ) := by
      rw [hn]; push_cast; norm_num; ring
    rw [e]
    apply binary32.grid_of_mult (by decide)
    have h1 := hS.2.1
    have h2 := hS.2.2
    rw [hn] at h1 h2
    have h1' : (0:ℚ) ≤ n := by linarith
    have h2' : (n:ℚ) ≤ 16777216 - 65536 := by linarith
    have h1'' : 0 ≤ n := by exact_mod_cast h1'
    have h2'' : n ≤ 16777216 - 65536 := by exact_mod_cast h2'
    rw [abs_of_nonneg (by omega)]
    show n + 32768 ≤ 2 ^ 24
    omega
  have hlow : binary32.rnd (S.val + 1 / 512 - 1 / 67108864) ≤ w.val := by
    rw [hwv]; exact binary32.rnd_mono (K := ℚ) (by linarith [hp.2.1])
  have hnear := binary32.rnd_nearest (K := ℚ) (S.val + 1 / 512 - 1 / 67108864) hT
  simp only [Rat.cast_id] at hnear
  have hnear' : |S.val + 1 / 512 - 1 / 67108864 - binary32.rnd (S.val + 1 / 512 - 1 / 67108864)| ≤ 1 / 67108864 := by
    refine hnear.trans ?_
    rw [abs_le]; constructor <;> linarith
  have h1 := (abs_le.mp hnear').2
  have hw2 : S.val + 1 / 512 - 2 / 67108864 ≤ w.val := by linarith
  obtain ⟨m, hm⟩ := grid24 (v := w) (by linarith [hS.2.1])
  rw [hm, hn] at hw2
  rw [hm, hn]
  have : ((n + 32768 - 1 : ℤ) : ℚ) < m := by push_cast; linarith
  have : n + 32768 - 1 < m := by exact_mod_cast this
  have : ((n + 32768 : ℤ) : ℚ) ≤ m := by exact_mod_cast (by omega : n + 32768 ≤ m)
  push_cast at this
  linarith

/-- **C16, negation for decays.** With a decay coefficient of at least `1 - 2^-17` (2.8 s at 48 kHz) and a sustain level from 0.5 to 0.996, a
decay from at least 1/512 above the sustain level never ends: the envelope stays in the decay stage, at least 1/512 above the level, for as
long as the gate is high. -/
theorem C16_decay_can_stall (s : EnvelopeADSR.Env F32) (hst : s.state = .decay) (hg : (s.gateValue <=. lit 0) = false)
    (hS : s.sustainLevel.In (1 / 2) (1 - 1 / 256)) (hv : s.value.In (s.sustainLevel.val + 1 / 512) 1)
    (hc : s.decayCoeff.In 0 1) (hc1 : 1 - 1 / 131072 ≤ s.decayCoeff.val) (n : ℕ) :
    (tickState EnvelopeADSR.tick n s).state = .decay ∧ s.sustainLevel.val + 1 / 512 ≤ (tickState EnvelopeADSR.tick n s).value.val := by
  have := tickState_inv (tick := EnvelopeADSR.tick)
    (I := fun t => t.state = .decay ∧ t.value.In (s.sustainLevel.val + 1 / 512) 1 ∧ (t.gateValue <=. lit 0) = false ∧
      t.sustainLevel = s.sustainLevel ∧ t.decayCoeff = s.decayCoeff) ?_ ⟨hst, hv, hg, rfl, rfl⟩ n
  · exact ⟨this.1, this.2.1.2.1⟩
  rintro t ⟨hst, hv, hg, h1, h2⟩
  have hs := decay_stall hc hc1 hS hv
  have hr9 : binary32.Rep (1 / 512) false := by decide +kernel
  have hl : (lit 0.001 : F32).In (999 / 1000000) (1001 / 1000000) := ⟨by decide +kernel, by decide +kernel, by decide +kernel⟩
  have hnot : (Arith.fabs (t.sustainLevel + t.decayCoeff * (t.value - t.sustainLevel) - t.sustainLevel) <. lit 0.001) = false := by
    rw [h1, h2]
    obtain ⟨hf, hfv⟩ := sub_val (x := s.sustainLevel + s.decayCoeff * (t.value - s.sustainLevel)) (y := s.sustainLevel) hs.1 hS.1 hr9 rep_one
      (by linarith [hs.2.1]) (by linarith [hs.2.2, hS.2.1])
    obtain ⟨g1, g2⟩ := fabs_val hf
    rw [lt_fin g1 hl.1, decide_eq_false_iff_not, not_lt, g2]
    refine le_trans ?_ (le_abs_self _)
    rw [hfv]
    refine le_trans (b := 1 / 512) (by linarith [hl.2.2]) ?_
    exact binary32.le_rnd_of_le hr9.1 (by simp only [Rat.cast_id]; linarith [hs.2.1])
  have ht : (EnvelopeADSR.tick t).1 = { t with value := t.sustainLevel + t.decayCoeff * (t.value - t.sustainLevel) } := by
    cases t; simp only at hst hg hnot; subst hst; simp only [EnvelopeADSR.tick, hg, hnot]; rfl
  rw [ht]
  refine ⟨hst, ?_, hg, h1, h2⟩
  show (t.sustainLevel + t.decayCoeff * (t.value - t.sustainLevel)).In _ _
  rw [h1, h2]
  exact hs

/-- Instance: from 1 towards 0.7 with the coefficient of five seconds at 48 kHz. -/
example : (lit 0.9999958 : F32).In 0 1 ∧ 1 - 1 / 131072 ≤ (lit 0.9999958 : F32).val ∧ (lit 0.7 : F32).In (1 / 2) (1 - 1 / 256) ∧
    (lit 1 : F32).In ((lit 0.7 : F32).val + 1 / 512) 1 := by
  refine ⟨⟨by decide +kernel, by decide +kernel, by decide +kernel⟩, by decide +kernel, ⟨by decide +kernel, by decide +kernel, by decide +kernel⟩,
    ⟨by decide +kernel, by decide +kernel, by decide +kernel⟩⟩

end Verif
