import Verif.Float.Convex
import Verif.Props.Envelopes

/-!
# Property C16: do envelopes finish?
-/

namespace Verif
open FP

/-- A single-precision number below one is at most `1 - 2^-24`. -/
theorem f32_lt_one {c : F32} (h : c.val < 1) : c.val ≤ 1 - 2 ^ (-(binary32.prec : ℤ)) := by
  by_cases h2 : c.val < 1 / 2
  · refine h2.le.trans ?_
    norm_num [binary32]
  push Not at h2
  obtain ⟨n, hn⟩ := (grid_val c).mult (k := -24) (by
    rw [abs_of_nonneg (by linarith)]
    refine le_trans (le_of_eq ?_) h2
    norm_num [binary32])
  have h3 : (n:ℚ) < 2 ^ 24 := by
    rw [hn] at h
    have : (0:ℚ) < 2 ^ (-24:ℤ) := by positivity
    have e : (2:ℚ) ^ (-24:ℤ) * 2 ^ 24 = 1 := by norm_num
    nlinarith
  have h4 : n < 2 ^ 24 := by exact_mod_cast h3
  have h5 : (n:ℚ) ≤ 2 ^ 24 - 1 := by
    have : n ≤ 2 ^ 24 - 1 := by omega
    exact_mod_cast this
  rw [hn]
  have e1 : (2:ℚ) ^ (-(binary32.prec : ℤ)) = 2 ^ (-24:ℤ) := by norm_num [binary32]
  have e2 : (2:ℚ) ^ (-24:ℤ) * 2 ^ 24 = 1 := by norm_num
  have : (0:ℚ) < 2 ^ (-24:ℤ) := by positivity
  rw [e1]
  nlinarith

/-- One release step either ends at or below the threshold or strictly decreases the level. -/
theorem release_step {c v : F32} (hc : c.In 0 1) (hc1 : c.val < 1) (hv : v.In 0 1) :
    ((c * v) <=. lit 0.0001) = true ∨ (c * v).In 0 1 ∧ (c * v).val < v.val := by
  have hcv := release_in hc hv
  have hl : (lit 0.0001 : F32).In (2 ^ (-14:ℤ)) 1 := by decide +kernel
  by_cases h : ((c * v) <=. lit 0.0001) = true
  · exact Or.inl h
  right
  refine ⟨hcv, ?_⟩
  rw [le_fin hcv.1 hl.1, decide_eq_true_iff, not_le] at h
  have hm := (mul_val (x := c) (y := v) hc.1 hv.1 rep_zero rep_one
    (mul_nonneg hc.2.1 hv.2.1) (mul_le_one₀ hc.2.2 hv.2.1 hv.2.2)).2
  rw [hm]
  refine binary32.rnd_mul_lt (grid_val v) ?_ (f32_lt_one hc1)
  have h1 : (2:ℚ) ^ (-14:ℤ) < (c * v).val := lt_of_le_of_lt hl.2.1 h
  have h2 : (c * v).val ≤ v.val := by
    rw [hm]
    exact binary32.rnd_le_of_le (grid_val v) (by simp; nlinarith [hv.2.1])
  have h3 : (2:ℚ) ^ (binary32.emin + binary32.prec) ≤ 2 ^ (-14:ℤ) :=
    zpow_le_zpow_right₀ (by norm_num) (by decide)
  linarith

theorem nonneg_mult_emin {v : F32} (h : 0 ≤ v.val) : ∃ k : ℕ, v.val = k * (2:ℚ) ^ (-149:ℤ) := by
  obtain ⟨n, hn⟩ := (grid_val v).mult_emin
  have e : binary32.emin = -149 := rfl
  rw [e] at hn
  have : 0 ≤ n := by
    by_contra hneg
    push Not at hneg
    have h1 : (n:ℚ) < 0 := by exact_mod_cast hneg
    have h2 : (0:ℚ) < 2 ^ (-149:ℤ) := by positivity
    rw [hn] at h
    nlinarith
  refine ⟨n.toNat, ?_⟩
  rw [hn]
  congr 1
  have : ((n.toNat : ℤ) : ℚ) = n := by rw [Int.toNat_of_nonneg this]
  exact_mod_cast this.symm

/-- **C16 (AR release).** In single precision, from any state in the release stage with level and coefficient in `[0,1]`
(as every reachable state has, C13) and coefficient below one, finitely many ticks reach the idle stage with level
exactly zero. -/
theorem C16_ar_release_finishes (s : EnvelopeAR.Env F32) (hst : s.state = .release)
    (hv : s.value.In 0 1) (hc : s.releaseCoeff.In 0 1) (hc1 : s.releaseCoeff.val < 1) :
    ∃ n, (tickState EnvelopeAR.tick n s).state = .idle ∧ (tickState EnvelopeAR.tick n s).value = lit 0 := by
  obtain ⟨k, hk⟩ := nonneg_mult_emin hv.2.1
  induction k using Nat.strong_induction_on generalizing s with
  | _ k ih =>
    have ht : (EnvelopeAR.tick s).1 =
        if (s.releaseCoeff * s.value) <=. lit 0.0001 then { s with value := lit 0, state := .idle }
        else { s with value := s.releaseCoeff * s.value } := by
      cases s; simp only at hst; subst hst; rfl
    rcases release_step hc hc1 hv with h | ⟨h1, h2⟩
    · refine ⟨1, ?_⟩
      rw [tickState_succ', tickState_zero, ht, if_pos h]
      exact ⟨rfl, rfl⟩
    · by_cases h : ((s.releaseCoeff * s.value) <=. lit 0.0001) = true
      · refine ⟨1, ?_⟩
        rw [tickState_succ', tickState_zero, ht, if_pos h]
        exact ⟨rfl, rfl⟩
      rw [if_neg h] at ht
      obtain ⟨k', hk'⟩ := nonneg_mult_emin h1.2.1
      have hlt : k' < k := by
        rw [hk, hk'] at h2
        have : (0:ℚ) < 2 ^ (-149:ℤ) := by positivity
        have := lt_of_mul_lt_mul_right h2 this.le
        exact_mod_cast this
      obtain ⟨n, hn⟩ := ih k' hlt (EnvelopeAR.tick s).1 (by rw [ht]; exact hst) (by rw [ht]; exact h1)
        (by rw [ht]; exact hc) (by rw [ht]; exact hc1) (by rw [ht]; exact hk')
      exact ⟨n + 1, by rw [tickState_succ']; exact hn⟩

/-- **C16 (ADSR release).** The same for `EnvelopeADSR`, which additionally reports `isDone`. -/
theorem C16_adsr_release_finishes (s : EnvelopeADSR.Env F32) (hst : s.state = .release)
    (hv : s.value.In 0 1) (hc : s.releaseCoeff.In 0 1) (hc1 : s.releaseCoeff.val < 1) :
    ∃ n, (tickState EnvelopeADSR.tick n s).state = .idle ∧ (tickState EnvelopeADSR.tick n s).value = lit 0 ∧
      EnvelopeADSR.isDone (tickState EnvelopeADSR.tick n s) = true := by
  obtain ⟨k, hk⟩ := nonneg_mult_emin hv.2.1
  induction k using Nat.strong_induction_on generalizing s with
  | _ k ih =>
    have ht : (EnvelopeADSR.tick s).1 =
        if (s.releaseCoeff * s.value) <=. lit 0.0001 then { s with value := lit 0, state := .idle, done := true }
        else { s with value := s.releaseCoeff * s.value } := by
      cases s; simp only at hst; subst hst; rfl
    rcases release_step hc hc1 hv with h | ⟨h1, h2⟩
    · refine ⟨1, ?_⟩
      rw [tickState_succ', tickState_zero, ht, if_pos h]
      exact ⟨rfl, rfl, rfl⟩
    · by_cases h : ((s.releaseCoeff * s.value) <=. lit 0.0001) = true
      · refine ⟨1, ?_⟩
        rw [tickState_succ', tickState_zero, ht, if_pos h]
        exact ⟨rfl, rfl, rfl⟩
      rw [if_neg h] at ht
      obtain ⟨k', hk'⟩ := nonneg_mult_emin h1.2.1
      have hlt : k' < k := by
        rw [hk, hk'] at h2
        have : (0:ℚ) < 2 ^ (-149:ℤ) := by positivity
        have := lt_of_mul_lt_mul_right h2 this.le
        exact_mod_cast this
      obtain ⟨n, hn⟩ := ih k' hlt (EnvelopeADSR.tick s).1 (by rw [ht]; exact hst) (by rw [ht]; exact h1)
        (by rw [ht]; exact hc) (by rw [ht]; exact hc1) (by rw [ht]; exact hk')
      exact ⟨n + 1, by rw [tickState_succ']; exact hn⟩

/-- `1 - v` is computed exactly for `1/2 ≤ v ≤ 1`. -/
theorem one_sub_exact {v : F32} (hv : v.In (1/2) 1) : ((lit 1 : F32) - v).val = 1 - v.val := by
  have h1 : (lit 1 : F32).In 1 1 := lit_one
  have hs := (sub_val (x := lit 1) (y := v) h1.1 hv.1 (l := 0) (u := 1) rep_zero rep_one
    (by rw [h1.val_eq]; linarith [hv.2.2]) (by rw [h1.val_eq]; linarith [hv.2.1])).2
  rw [hs, h1.val_eq]
  obtain ⟨n, hn⟩ := (grid_val v).mult (k := -24) (by
    rw [abs_of_nonneg (by linarith [hv.2.1])]
    refine le_trans (le_of_eq ?_) hv.2.1
    norm_num [binary32])
  have hg : binary32.Grid (1 - v.val) := by
    have e : 1 - v.val = ((2 ^ 24 - n : ℤ) : ℚ) * 2 ^ (-24:ℤ) := by
      rw [hn]; push_cast; norm_num; ring
    have e0 : (0:ℚ) < 2 ^ (-24:ℤ) := by positivity
    have e2 : (2:ℚ) ^ (-24:ℤ) * 2 ^ 24 = 1 := by norm_num
    have h0 : (0:ℚ) ≤ n := by
      by_contra hneg; push Not at hneg
      have := hv.2.1; rw [hn] at this; nlinarith
    have h2 : (n:ℚ) ≤ 2 ^ 24 := by
      by_contra hneg; push Not at hneg
      have := hv.2.2; rw [hn] at this; nlinarith
    have h0' : 0 ≤ n := by exact_mod_cast h0
    have h2' : n ≤ 2 ^ 24 := by exact_mod_cast h2
    rw [e]
    apply binary32.grid_of_mult (by decide)
    rw [abs_of_nonneg (by omega)]
    show 2 ^ 24 - n ≤ 2 ^ 24
    omega
  simpa using binary32.rnd_grid (K := ℚ) hg

/-- One attack step with a coefficient of at most `1 - 501/2^24` reaches the threshold or strictly increases the level. -/
theorem attack_step {a v : F32} (ha : a.In 0 1) (ha1 : a.val ≤ 1 - 501 / 2 ^ 24) (hv : v.In 0 1) :
    ((lit 1 - a * (lit 1 - v) : F32) >=. lit 0.999) = true ∨
      v.val < (lit 1 - a * (lit 1 - v) : F32).val := by
  have h1 : (lit 1 : F32).In 1 1 := lit_one
  have hres := attack_in ha hv
  have hl : (lit 0.999 : F32).In 0.999 0.9990001 := by decide +kernel
  by_cases hge : ((lit 1 - a * (lit 1 - v) : F32) >=. lit 0.999) = true
  · exact Or.inl hge
  right
  rw [le_fin hl.1 hres.1, decide_eq_true_iff, not_le] at hge
  set u : F32 := lit 1 - v with hu
  have hu01 : u.In 0 1 := sub_in lit_one hv rep_zero rep_one (by norm_num) (by norm_num)
  have huv := (sub_val (x := lit 1) (y := v) h1.1 hv.1 (l := 0) (u := 1) rep_zero rep_one
    (by rw [h1.val_eq]; linarith [hv.2.2]) (by rw [h1.val_eq]; linarith [hv.2.1])).2
  rw [← hu, h1.val_eq] at huv
  set p : F32 := a * u with hp
  have hpu : 0 ≤ a.val * u.val := mul_nonneg ha.2.1 hu01.2.1
  have hpu1 : a.val * u.val ≤ 1 := mul_le_one₀ ha.2.2 hu01.2.1 hu01.2.2
  have hp01 : p.In 0 1 := mul_in ha.1 hu01.1 rep_zero rep_one hpu hpu1
  have hpv := (mul_val (x := a) (y := u) ha.1 hu01.1 rep_zero rep_one hpu hpu1).2
  rw [← hp] at hpv
  have hrv := (sub_val (x := lit 1) (y := p) h1.1 hp01.1 (l := 0) (u := 1) rep_zero rep_one
    (by rw [h1.val_eq]; linarith [hp01.2.2]) (by rw [h1.val_eq]; linarith [hp01.2.1])).2
  rw [h1.val_eq] at hrv
  have er := rnd_err_unit (x := 1 - p.val) (by rw [abs_le]; constructor <;> linarith [hp01.2.1, hp01.2.2])
  rw [← hrv] at er
  have er1 := (abs_le.mp er).2
  have e25 : (2:ℚ) ^ (-25:ℤ) = 1 / 33554432 := by norm_num
  rw [e25] at er1
  rcases lt_or_ge v.val (1/2) with hlow | hhigh
  · -- far from the target: crude bounds suffice
    have ep := rnd_err_unit (x := a.val * u.val) (by rw [abs_le]; constructor <;> linarith)
    rw [← hpv, e25] at ep
    have ep1 := (abs_le.mp ep).1
    have eu := rnd_err_unit (x := 1 - v.val) (by
      rw [abs_le]; constructor <;> linarith [hv.2.1, hv.2.2])
    rw [← huv, e25] at eu
    have eu1 := (abs_le.mp eu).1
    nlinarith [ha.2.1]
  · -- near the target: the subtraction is exact
    have hex := one_sub_exact (v := v) ⟨hv.1, hhigh, hv.2.2⟩
    rw [← hu] at hex
    -- below the threshold means at least 16778 units below one
    have hl2 : (lit 0.999 : F32).val = 1 - 16777 / 16777216 := by decide +kernel
    have hvl : v.val < 1 - 16777 / 16777216 := by
      by_contra hcon
      push Not at hcon
      have hpu' : p.val ≤ u.val := by
        rw [hpv]; exact binary32.rnd_le_of_le (grid_val u) (by simp; nlinarith [hu01.2.1, ha.2.2])
      have : v.val ≤ (lit 1 - p : F32).val := by
        rw [hrv]; exact binary32.le_rnd_of_le (grid_val v) (by simp; linarith)
      linarith
    obtain ⟨n, hn⟩ := (grid_val v).mult (k := -24) (by
      rw [abs_of_nonneg (by linarith)]
      refine le_trans (le_of_eq ?_) hhigh
      norm_num [binary32])
    have e24 : (2:ℚ) ^ (-24:ℤ) = 1 / 16777216 := by norm_num
    rw [e24] at hn
    have hnq : (n:ℚ) < 16760439 := by rw [hn] at hvl; linarith
    have hnz : n < 16760439 := by exact_mod_cast hnq
    have hnq : (n:ℚ) ≤ 16760438 := by exact_mod_cast (by omega : n ≤ 16760438)
    have hu0 : 16778 / 16777216 ≤ u.val := by rw [hex, hn]; linarith
    have hgap : (1 - a.val) * u.val ≥ 501 / 16777216 * u.val :=
      mul_le_mul_of_nonneg_right (by linarith) hu01.2.1
    rcases lt_or_ge u.val (1 / 512) with hsmall | hbig
    · have hau : |a.val * u.val| < 2 ^ (-9:ℤ) := by
        rw [abs_of_nonneg hpu]; norm_num; nlinarith [hu01.2.1]
      have ep := binary32.rnd_err_of_lt (K := ℚ) hau (by decide)
      simp only [Rat.cast_id] at ep
      rw [← hpv] at ep
      have e34 : (2:ℚ) ^ ((-9:ℤ) - (binary32.prec:ℤ) - 1) = 1 / 17179869184 := by norm_num [binary32]
      rw [e34] at ep
      have ep1 := (abs_le.mp ep).1
      have : v.val = 1 - u.val := by linarith
      linarith
    · have hau : |a.val * u.val| < 2 ^ (-1:ℤ) := by
        rw [abs_of_nonneg hpu]; norm_num; nlinarith [hu01.2.1]
      have ep := binary32.rnd_err_of_lt (K := ℚ) hau (by decide)
      simp only [Rat.cast_id] at ep
      rw [← hpv] at ep
      have e26 : (2:ℚ) ^ ((-1:ℤ) - (binary32.prec:ℤ) - 1) = 1 / 67108864 := by norm_num [binary32]
      rw [e26] at ep
      have ep1 := (abs_le.mp ep).1
      have : v.val = 1 - u.val := by linarith
      linarith

/-- Numbers in `[0,1]` on the grid cannot increase for ever. -/
theorem attack_terminates {σ : Type} (tick : σ → σ) (val : σ → F32) (Att Done : σ → Prop)
    (hstep : ∀ s, Att s → (val s).In 0 1 →
      Done (tick s) ∨ Att (tick s) ∧ (val (tick s)).In 0 1 ∧ (val s).val < (val (tick s)).val)
    (s : σ) (hs : Att s) (hv : (val s).In 0 1) : ∃ n, Done (tick^[n] s) := by
  obtain ⟨k, hk⟩ := nonneg_mult_emin hv.2.1
  have hk1 : k ≤ 2 ^ 149 := by
    have := hv.2.2
    rw [hk] at this
    have e : (2:ℚ) ^ (-149:ℤ) * 2 ^ 149 = 1 := by norm_num
    have e0 : (0:ℚ) < 2 ^ (-149:ℤ) := by positivity
    have : (k:ℚ) ≤ 2 ^ 149 := by nlinarith
    exact_mod_cast this
  obtain ⟨j, hj⟩ : ∃ j, j + k = 2 ^ 149 := ⟨2 ^ 149 - k, by omega⟩
  induction j using Nat.strong_induction_on generalizing s k with
  | _ j ih =>
    rcases hstep s hs hv with h | ⟨h1, h2, h3⟩
    · exact ⟨1, h⟩
    · obtain ⟨k', hk'⟩ := nonneg_mult_emin h2.2.1
      have hlt : k < k' := by
        rw [hk, hk'] at h3
        have : (0:ℚ) < 2 ^ (-149:ℤ) := by positivity
        have := lt_of_mul_lt_mul_right h3 this.le
        exact_mod_cast this
      have hk1' : k' ≤ 2 ^ 149 := by
        have := h2.2.2
        rw [hk'] at this
        have e : (2:ℚ) ^ (-149:ℤ) * 2 ^ 149 = 1 := by norm_num
        have e0 : (0:ℚ) < 2 ^ (-149:ℤ) := by positivity
        have : (k':ℚ) ≤ 2 ^ 149 := by nlinarith
        exact_mod_cast this
      obtain ⟨n, hn⟩ := ih (2 ^ 149 - k') (by omega) (tick s) h1 h2 k' hk' hk1' (by omega)
      exact ⟨n + 1, by rwa [Function.iterate_succ_apply]⟩

/-- **C16 (AR attack, partial).** With gate on and an attack coefficient of at most `1 - 501/2^24` the level becomes exactly
one after finitely many ticks.  What is missing: larger coefficients, for which the claim is false
(`C16_attack_can_stall`). -/
theorem C16_ar_attack_finishes_partial (s : EnvelopeAR.Env F32) (hst : s.state = .attack) (hg : s.gate = true)
    (hv : s.value.In 0 1) (ha : s.attackCoeff.In 0 1) (ha1 : s.attackCoeff.val ≤ 1 - 501 / 2 ^ 24) :
    ∃ n, (tickState EnvelopeAR.tick n s).state = .attack ∧ (tickState EnvelopeAR.tick n s).value = lit 1 := by
  refine attack_terminates (fun s => (EnvelopeAR.tick s).1) (fun s => s.value)
    (fun s => s.state = .attack ∧ s.gate = true ∧ s.attackCoeff.In 0 1 ∧ s.attackCoeff.val ≤ 1 - 501 / 2 ^ 24)
    (fun s => s.state = .attack ∧ s.value = lit 1) ?_ s ⟨hst, hg, ha, ha1⟩ hv
  rintro s ⟨hst, hg, ha, ha1⟩ hv
  have ht : (EnvelopeAR.tick s).1 =
      if (lit 1 - s.attackCoeff * (lit 1 - s.value) : F32) >=. lit 0.999 then { s with value := lit 1 }
      else { s with value := lit 1 - s.attackCoeff * (lit 1 - s.value) } := by
    cases s; simp only at hst hg; subst hst; subst hg; rfl
  rcases attack_step ha ha1 hv with h | h
  · left; simp only [ht, if_pos h]; exact ⟨hst, trivial⟩
  · by_cases h2 : ((lit 1 - s.attackCoeff * (lit 1 - s.value) : F32) >=. lit 0.999) = true
    · left; simp only [ht, if_pos h2]; exact ⟨hst, trivial⟩
    · right; simp only [ht, if_neg h2]
      exact ⟨⟨hst, hg, ha, ha1⟩, attack_in ha hv, h⟩

/-- **C16 (ADSR attack, partial).** As above; the ADSR envelope moves on to the decay stage with level exactly one. -/
theorem C16_adsr_attack_finishes_partial (s : EnvelopeADSR.Env F32) (hst : s.state = .attack)
    (hg : (s.gateValue <=. lit 0) = false)
    (hv : s.value.In 0 1) (ha : s.attackCoeff.In 0 1) (ha1 : s.attackCoeff.val ≤ 1 - 501 / 2 ^ 24) :
    ∃ n, (tickState EnvelopeADSR.tick n s).state = .decay ∧ (tickState EnvelopeADSR.tick n s).value = lit 1 := by
  refine attack_terminates (fun s => (EnvelopeADSR.tick s).1) (fun s => s.value)
    (fun s => s.state = .attack ∧ (s.gateValue <=. lit 0) = false ∧ s.attackCoeff.In 0 1 ∧
      s.attackCoeff.val ≤ 1 - 501 / 2 ^ 24)
    (fun s => s.state = .decay ∧ s.value = lit 1) ?_ s ⟨hst, hg, ha, ha1⟩ hv
  rintro s ⟨hst, hg, ha, ha1⟩ hv
  have ht : (EnvelopeADSR.tick s).1 =
      if (lit 1 - s.attackCoeff * (lit 1 - s.value) : F32) >=. lit 0.999 then
        { s with value := lit 1, state := .decay }
      else { s with value := lit 1 - s.attackCoeff * (lit 1 - s.value) } := by
    cases s; simp only at hst hg; subst hst; simp only [EnvelopeADSR.tick, hg]; split_ifs <;> simp_all
  rcases attack_step ha ha1 hv with h | h
  · left; simp only [ht, if_pos h]; exact ⟨trivial, trivial⟩
  · by_cases h2 : ((lit 1 - s.attackCoeff * (lit 1 - s.value) : F32) >=. lit 0.999) = true
    · left; simp only [ht, if_pos h2]; exact ⟨trivial, trivial⟩
    · right; simp only [ht, if_neg h2]
      exact ⟨⟨hst, hg, ha, ha1⟩, attack_in ha hv, h⟩

/-- The hypotheses of the attack theorems are met by an ordinary 100 ms attack at 48 kHz (coefficient `exp(-1/4800)`
rounded). -/
example : (lit 0.99979 : F32).In 0 1 ∧ (lit 0.99979 : F32).val ≤ 1 - 501 / 2 ^ 24 := by decide +kernel

/-- A slow attack stalls: with a coefficient of at least `1 - 2^-16`, a level of at most `1 - 2^-9` never exceeds
`1 - 2^-9 < 0.999`, because the increment is rounded away. -/
theorem attack_stall {a v : F32} (ha : a.In 0 1) (ha1 : 1 - 2 ^ (-16:ℤ) ≤ a.val) (hv : v.In 0 (1 - 2 ^ (-9:ℤ))) :
    (lit 1 - a * (lit 1 - v) : F32).In 0 (1 - 2 ^ (-9:ℤ)) := by
  have h1 : (lit 1 : F32).In 1 1 := lit_one
  have e9 : (2:ℚ) ^ (-9:ℤ) = 1 / 512 := by norm_num
  have e16 : (2:ℚ) ^ (-16:ℤ) = 1 / 65536 := by norm_num
  rw [e9] at hv ⊢
  rw [e16] at ha1
  have hr9 : binary32.Rep (1/512) false := by decide +kernel
  have hu : (lit 1 - v : F32).In (1/512) 1 := sub_in h1 hv hr9 rep_one (by linarith) (by linarith)
  have hrp : binary32.Rep (1/512 - 1/33554432) false := by decide +kernel
  have hp : (a * (lit 1 - v) : F32).In (1/512 - 1/33554432) 1 :=
    mul_in ha.1 hu.1 hrp rep_one (by nlinarith [hu.2.1, ha.2.2]) (mul_le_one₀ ha.2.2 (by linarith [hu.2.1]) hu.2.2)
  have hfin := sub_in (x := lit 1) h1 hp rep_zero rep_one (by norm_num) (by linarith)
  refine ⟨hfin.1, hfin.2.1, ?_⟩
  rw [(sub_val (x := lit 1) h1.1 hp.1 rep_zero rep_one (by rw [h1.val_eq]; linarith [hp.2.2])
    (by rw [h1.val_eq]; linarith [hp.2.1])).2, h1.val_eq]
  have hm := binary32.rnd_mono (K := ℚ) (x := 1 - (a * (lit 1 - v) : F32).val) (y := 1 - (1/512 - 1/33554432))
    (by linarith [hp.2.1])
  refine hm.trans ?_
  decide +kernel

/-- **C16, negation for attacks.** "With the gate high, attack reaches one in finitely many ticks" is false of the code:
with an attack coefficient of at least `1 - 2^-16` (an attack time of about 1.4 s at 48 kHz or more) an ADSR envelope
started from silence stays in the attack stage for ever, below 0.999, and never decays to its sustain level. -/
theorem C16_attack_can_stall (s : EnvelopeADSR.Env F32) (hst : s.state = .attack)
    (hg : (s.gateValue <=. lit 0) = false) (hv : s.value.In 0 (1 - 2 ^ (-9:ℤ)))
    (ha : s.attackCoeff.In 0 1) (ha1 : 1 - 2 ^ (-16:ℤ) ≤ s.attackCoeff.val) (n : ℕ) :
    (tickState EnvelopeADSR.tick n s).state = .attack ∧
      (tickState EnvelopeADSR.tick n s).value.In 0 (1 - 2 ^ (-9:ℤ)) := by
  have := tickState_inv (tick := EnvelopeADSR.tick)
    (I := fun s => s.state = .attack ∧ s.value.In 0 (1 - 2 ^ (-9:ℤ)) ∧ (s.gateValue <=. lit 0) = false ∧
      s.attackCoeff.In 0 1 ∧ 1 - 2 ^ (-16:ℤ) ≤ s.attackCoeff.val) ?_ ⟨hst, hv, hg, ha, ha1⟩ n
  · exact ⟨this.1, this.2.1⟩
  rintro s ⟨hst, hv, hg, ha, ha1⟩
  have hs := attack_stall ha ha1 hv
  have hl : (lit 0.999 : F32).In 0.999 0.9990001 := by decide +kernel
  have hnot : ((lit 1 - s.attackCoeff * (lit 1 - s.value) : F32) >=. lit 0.999) = false := by
    rw [le_fin hl.1 hs.1, decide_eq_false_iff_not, not_le]
    refine lt_of_le_of_lt hs.2.2 (lt_of_lt_of_le ?_ hl.2.1)
    norm_num
  have ht : (EnvelopeADSR.tick s).1 = { s with value := lit 1 - s.attackCoeff * (lit 1 - s.value) } := by
    cases s; simp only at hst hg hnot; subst hst; simp only [EnvelopeADSR.tick, hg, hnot]; rfl
  rw [ht]
  exact ⟨hst, hs, hg, ha, ha1⟩

end Verif
