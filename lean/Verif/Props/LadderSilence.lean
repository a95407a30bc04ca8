import Verif.Lemmas.LadderQuiet
import Verif.Props.LadderSetters

/-!
# C46: ladders map silence to silence
-/

set_option linter.unusedSectionVars false

namespace Verif
open FP

/-- Ordinary settings: a sample rate between 100 Hz and about 1 MHz, a cutoff up to 0.45 of it, any resonance that is not NaN
(it is clamped to [0, 1] by the setters). -/
structure Sane (sr c r : F32) : Prop where
  hsr : sr.In 100 (2 ^ 20)
  hc : c.In 0 (0.45 * sr.val)
  hr : r ≠ nan

theorem clamp01_range {r : F32} (h : r ≠ nan) : (clamp01 r).In 0 1 := by
  have : clamp01 r = clamp r (lit 0) (lit 1) := rfl
  rw [this]
  exact clamp_in h lit_zero lit_one (by norm_num)

theorem pi_up : (Conv.conv (PI : F32) : F64).NN 2 := by decide +kernel

theorem Sane.facts {sr c r : F32} (h : Sane sr c r) :
    (Conv.conv sr : F64).In 100 (2 ^ 20) ∧ (Conv.conv c : F64).NN 20 ∧ (Conv.conv (clamp01 r) : F64).NN 0 := by
  have h1 := conv_up h.hsr.1
  have h2 := conv_up h.hc.1
  have hr := clamp01_range h.hr
  have h3 := conv_up hr.1
  refine ⟨⟨h1.1, by rw [h1.val_eq]; exact h.hsr.2.1, by rw [h1.val_eq]; exact h.hsr.2.2⟩,
    ⟨h2.1, by rw [h2.val_eq]; exact h.hc.2.1, ?_⟩, ⟨h3.1, by rw [h3.val_eq]; exact hr.2.1, by rw [h3.val_eq]; simpa using hr.2.2⟩⟩
  rw [h2.val_eq]
  have := h.hc.2.2
  have := h.hsr.2.2
  norm_num at *
  linarith

theorem makeup_fin {sr c : F32} (hs : sr.In 100 (2 ^ 20)) (hc : c.In 0 (2 ^ 20)) : (Improved.makeup c sr : F64).NN 4 := by
  have h1 := conv_up hs.1
  have h2 := conv_up hc.1
  have h5 : (lit 0.5 : F64).In (1 / 2) (1 / 2) := by decide +kernel
  have hny : (Conv.conv sr * lit 0.5 : F64).In 50 (2 ^ 19) := by
    refine mul_in h1.1 h5.1 (by decide +kernel) (rep64_two_pow (by norm_num)) ?_ ?_
    · rw [h1.val_eq, h5.val_eq]; linarith [hs.2.1]
    · rw [h1.val_eq, h5.val_eq]; have := hs.2.2; norm_num at *; linarith
  have hcn : (Conv.conv c : F64).NN 20 := ⟨h2.1, by rw [h2.val_eq]; exact hc.2.1, by rw [h2.val_eq]; exact hc.2.2⟩
  have hdiv := hcn.div hny.1 (by linarith [hny.2.1])
  unfold Improved.makeup
  simp only
  have hgt : ((Conv.conv sr * lit 0.5 : F64) >. lit 0) = true := by
    rw [lt_fin lit_zero.1 hny.1, lit_zero.val_eq]; simp; linarith [hny.2.1]
  rw [if_pos hgt]
  have hcl : (if (Conv.conv c / (Conv.conv sr * lit 0.5) : F64) <. lit 0 then lit 0
      else if (Conv.conv c / (Conv.conv sr * lit 0.5) : F64) >. lit 1 then lit 1 else (Conv.conv c / (Conv.conv sr * lit 0.5) : F64)).In 0 1 := by
    have hnn : (Conv.conv c / (Conv.conv sr * lit 0.5) : F64) ≠ nan := by
      intro e; rw [e] at hdiv; exact absurd hdiv.1 (by simp)
    exact clamp_in hnn lit_zero lit_one (by norm_num)
  set n : F64 := (if (Conv.conv c / (Conv.conv sr * lit 0.5) : F64) <. lit 0 then lit 0
      else if (Conv.conv c / (Conv.conv sr * lit 0.5) : F64) >. lit 1 then lit 1 else (Conv.conv c / (Conv.conv sr * lit 0.5) : F64))
  have h02 : (lit 0.2 : F64).In (1 / 8) 1 := by decide +kernel
  have hsum : (lit 0.2 + n : F64).In (1 / 8) 2 := add_in h02 hcl (by decide +kernel) (by decide +kernel) (by norm_num) (by norm_num)
  have hq : (lit 1 / (lit 0.2 + n) : F64).NN 4 := by
    refine div_in lit_one.1 hsum.1 (by linarith [hsum.2.1]) rep_zero (rep64_two_pow (by norm_num)) ?_ ?_
    · rw [lit_one.val_eq]; exact div_nonneg (by norm_num) (by linarith [hsum.2.1])
    · rw [lit_one.val_eq, div_le_iff₀ (by linarith [hsum.2.1])]; linarith [hsum.2.1]
  split_ifs
  · decide +kernel
  · exact hq

/-! ## The coefficients computed from ordinary settings are finite -/

theorem microtracker_quiet {sr c r : F32} (h : Sane sr c r) (s0 : Microtracker.Ladder F32 F64) :
    Microtracker.Quiet (Microtracker.setResonance r (Microtracker.setCutoff c (Microtracker.init sr s0))) := by
  obtain ⟨hs, hc, hr⟩ := h.facts
  have hk : (clamp01 r * lit 4 : F32).In 0 4 := by
    have h4 : (lit 4 : F32).In 4 4 := by decide +kernel
    have := clamp01_range h.hr
    refine mul_in this.1 h4.1 rep_zero (by decide +kernel) ?_ ?_ <;> rw [h4.val_eq] <;> linarith [this.2.1, this.2.2]
  have hco : ((if (Conv.conv c * lit 2 * Conv.conv (PI : F32) / Conv.conv sr : F64) >. lit 1 then lit 1
      else Conv.conv c * lit 2 * Conv.conv (PI : F32) / Conv.conv sr : F64)).isFin = true := by
    have l2 : (lit 2 : F64).NN 1 := by decide +kernel
    split_ifs
    · exact lit_one.1
    · exact (((hc.mul l2).mul pi_up).div hs.1 (by linarith [hs.2.1])).1
  exact ⟨(conv_up hk.1).1, hco, lit_zero, lit_zero, lit_zero, lit_zero, lit_zero, lit_zero, lit_zero⟩

theorem wc_in {sr c r : F32} (h : Sane sr c r) : (lit 2 * Conv.conv (PI : F32) * Conv.conv c / Conv.conv sr : F64).In 0 4 := by
  obtain ⟨hs, hc, hr⟩ := h.facts
  have h1 := conv_up h.hsr.1
  have h2 := conv_up h.hc.1
  have hp : (lit 2 * Conv.conv (PI : F32) : F64).In 0 6.5 := by decide +kernel
  have hrep : binary64.Rep (4 * sr.val) false := by
    have := (rep_val (Conv.conv sr : F64)).1.scale 2
    rw [h1.val_eq] at this
    refine ⟨by rw [mul_comm]; exact_mod_cast this, ?_, by simp⟩
    rw [abs_of_nonneg (by linarith [h.hsr.2.1])]
    have e : (4 : ℚ) * sr.val ≤ 2 ^ 22 := by have := h.hsr.2.2; norm_num at *; linarith
    exact lt_of_le_of_lt e (by decide +kernel)
  have hx : (lit 2 * Conv.conv (PI : F32) * Conv.conv c : F64).In 0 (4 * sr.val) := by
    refine mul_in hp.1 h2.1 rep_zero hrep (mul_nonneg hp.2.1 (by rw [h2.val_eq]; exact h.hc.2.1)) ?_
    rw [h2.val_eq]
    have a := h.hc.2.2
    have b := h.hc.2.1
    have c' := hp.2.2
    have d := hp.2.1
    have : (lit 2 * Conv.conv (PI : F32) : F64).val * c.val ≤ 6.5 * (0.45 * sr.val) := mul_le_mul c' a b (by norm_num)
    have := h.hsr.2.1
    norm_num at *
    linarith
  have hs0 : 0 < sr.val := by linarith [h.hsr.2.1]
  refine div_in hx.1 h1.1 (by rw [h1.val_eq]; exact hs0.ne') rep_zero (by decide +kernel) ?_ ?_
  · rw [h1.val_eq]; exact div_nonneg hx.2.1 hs0.le
  · rw [h1.val_eq, div_le_iff₀ hs0]; exact hx.2.2

theorem krajeski_quiet [Libm F64] [Libm64Spec] {sr c r : F32} (h : Sane sr c r) (s0 : Krajeski.Ladder F32 F64) :
    Krajeski.Quiet (Krajeski.setResonance r (Krajeski.setCutoff c (Krajeski.init sr s0))) := by
  obtain ⟨hs, hc, hr⟩ := h.facts
  have hwc := wc_in h
  set wc : F64 := lit 2 * Conv.conv (PI : F32) * Conv.conv c / Conv.conv sr with hw
  have h8 : wc.In 0 8 := hwc.mono le_rfl (by norm_num)
  have hwm : wc.Mag 13 := h8.mono (by norm_num) (by norm_num)
  have pw : ∀ n : ℕ, n = 2 ∨ n = 3 ∨ n = 4 → (Libm.pow wc (lit n)).Mag 13 := fun n hn =>
    (Libm64Spec.pow_moderate wc n h8 hn).mono (by norm_num) le_rfl
  have p2 := pw 2 (by simp)
  have p3 := pw 3 (by simp)
  have p4 := pw 4 (by simp)
  have l : ∀ q : ℚ, (lit q : F64).Mag 1 → ∀ x : F64, x.Mag 13 → (lit q * x).Mag 14 := fun q hq x hx => hq.mul hx
  have hg : (lit 0.9892 * wc - lit 0.4342 * Libm.pow wc (lit (2:ℕ)) + lit 0.1381 * Libm.pow wc (lit (3:ℕ))
      - lit 0.0202 * Libm.pow wc (lit (4:ℕ)) : F64).Mag 17 := by
    have a := (l 0.9892 (by decide +kernel) _ hwm).sub (l 0.4342 (by decide +kernel) _ p2)
    have b := a.add ((l 0.1381 (by decide +kernel) _ p3).up 15)
    exact b.sub ((l 0.0202 (by decide +kernel) _ p4).up 16)
  have hgr : (lit 4 * (Conv.conv (clamp01 r) * (lit 1.0029 + lit 0.0526 * wc - lit 0.926 * Libm.pow wc (lit (2:ℕ))
      + lit 0.0218 * Libm.pow wc (lit (3:ℕ)))) : F64).Mag 19 := by
    have l1 : (lit 1.0029 : F64).Mag 14 := by decide +kernel
    have a := l1.add (l 0.0526 (by decide +kernel) _ hwm)
    have b := a.sub ((l 0.926 (by decide +kernel) _ p2).up 15)
    have d := b.add ((l 0.0218 (by decide +kernel) _ p3).up 16)
    have l4 : (lit 4 : F64).Mag 2 := by decide +kernel
    exact l4.mul (hr.mag.mul d)
  exact ⟨hg.1, hgr.1, lit_one.1, lit_one.1, lit_zero, lit_zero, lit_zero, lit_zero, lit_zero, lit_zero, lit_zero, lit_zero⟩

theorem musicdsp_quiet [Libm F64] [Libm64Spec] {sr c r : F32} (h : Sane sr c r) (s0 : MusicDSP.Ladder F32 F64) :
    MusicDSP.Quiet (MusicDSP.setResonance r (MusicDSP.setCutoff c (MusicDSP.init sr s0))) := by
  obtain ⟨hs, hc, hr⟩ := h.facts
  have h1 := conv_up h.hsr.1
  have h2 := conv_up h.hc.1
  have l2 : (lit 2 : F64).In 2 2 := by decide +kernel
  have hs0 : 0 < sr.val := by linarith [h.hsr.2.1]
  have hx : (lit 2 * Conv.conv c : F64).In 0 sr.val := by
    refine mul_in l2.1 h2.1 rep_zero (by rw [← h1.val_eq]; exact rep_val _) ?_ ?_
    · rw [l2.val_eq, h2.val_eq]; linarith [h.hc.2.1]
    · rw [l2.val_eq, h2.val_eq]; have := h.hc.2.2; norm_num at this; linarith
  have hfc : (lit 2 * Conv.conv c / Conv.conv sr : F64).In 0 1 := by
    refine div_in hx.1 h1.1 (by rw [h1.val_eq]; exact hs0.ne') rep_zero rep_one ?_ ?_
    · rw [h1.val_eq]; exact div_nonneg hx.2.1 hs0.le
    · rw [h1.val_eq, div_le_one hs0]; exact hx.2.2
  set fc : F64 := lit 2 * Conv.conv c / Conv.conv sr with hfcd
  have l8 : (lit 0.8 : F64).In 0 (13 / 16) := by decide +kernel
  have l18 : (lit 1.8 : F64).In (29 / 16) (31 / 16) ∨ (lit 1.8 : F64).In (28 / 16) (31 / 16) := by decide +kernel
  have l18 : (lit 1.8 : F64).In (28 / 16) (31 / 16) := by decide +kernel
  have a1 : (lit 0.8 * fc : F64).In 0 (13 / 16) := by
    refine mul_in l8.1 hfc.1 rep_zero (by decide +kernel) (mul_nonneg l8.2.1 hfc.2.1) ?_
    nlinarith [l8.2.1, l8.2.2, hfc.2.1, hfc.2.2]
  have a2 : (lit 1.8 - lit 0.8 * fc : F64).In 0 2 := sub_in l18 a1 rep_zero (by decide +kernel) (by norm_num) (by norm_num)
  have hp : (fc * (lit 1.8 - lit 0.8 * fc) : F64).In 0 2 := by
    refine mul_in hfc.1 a2.1 rep_zero (by decide +kernel) (mul_nonneg hfc.2.1 a2.2.1) ?_
    nlinarith [hfc.2.1, hfc.2.2, a2.2.1, a2.2.2]
  set p : F64 := fc * (lit 1.8 - lit 0.8 * fc) with hpd
  have hk : (lit 2 * Libm.sin (fc * Conv.conv (PI : F32) * lit 0.5) - lit 1 : F64).Mag 2 := by
    have hfm : fc.Mag 0 := hfc.mono (by norm_num) (by norm_num)
    have l5 : (lit 0.5 : F64).Mag 0 := by decide +kernel
    have harg := (hfm.mul pi_up.mag).mul l5
    have hsin : (Libm.sin (fc * Conv.conv (PI : F32) * lit 0.5) : F64).Mag 0 :=
      (Libm64Spec.sin_range _ harg.1).mono (by norm_num) (by norm_num)
    have l2' : (lit 2 : F64).Mag 1 := by decide +kernel
    have l1' : (lit 1 : F64).Mag 1 := by decide +kernel
    exact (l2'.mul hsin).sub l1'
  have b1 : (lit 1 - p : F64).In (-1) 1 := sub_in lit_one hp (Rep.neg rep_one) rep_one (by norm_num) (by norm_num)
  have lt : (lit 1.386249 : F64).In 0 1.5 := by decide +kernel
  have ht1 : ((lit 1 - p) * lit 1.386249 : F64).In (-1.5) 1.5 := by
    refine mul_in b1.1 lt.1 (by decide +kernel) (by decide +kernel) ?_ ?_ <;>
      nlinarith [b1.2.1, b1.2.2, lt.2.1, lt.2.2]
  set t1 : F64 := (lit 1 - p) * lit 1.386249 with ht1d
  have hsq : (t1 * t1).In 0 4 := by
    refine mul_in ht1.1 ht1.1 rep_zero (by decide +kernel) (mul_self_nonneg _) ?_
    nlinarith [ht1.2.1, ht1.2.2]
  have l12 : (lit 12 : F64).In 12 12 := by decide +kernel
  have l6 : (lit 6 : F64).In 6 6 := by decide +kernel
  have ht2 : (lit 12 + t1 * t1 : F64).In 12 16 := add_in l12 hsq (by decide +kernel) (by decide +kernel) (by norm_num) (by norm_num)
  have h6 : (lit 6 * t1 : F64).In (-9) 9 := by
    refine mul_in l6.1 ht1.1 (by decide +kernel) (by decide +kernel) ?_ ?_ <;> rw [l6.val_eq] <;>
      [have := ht1.2.1; have := ht1.2.2] <;> norm_num at * <;> linarith
  have hnum : (lit 12 + t1 * t1 + lit 6 * t1 : F64).In 3 32 := add_in ht2 h6 (by decide +kernel) (by decide +kernel) (by norm_num) (by norm_num)
  have hden : (lit 12 + t1 * t1 - lit 6 * t1 : F64).In 3 32 := sub_in ht2 h6 (by decide +kernel) (by decide +kernel) (by norm_num) (by norm_num)
  have hnm : (lit 12 + t1 * t1 + lit 6 * t1 : F64).Mag 5 := hnum.mono (by norm_num) (by norm_num)
  have hrc := (hr.mag.mul hnm).div hden.1 (by rw [abs_of_pos (by linarith [hden.2.1])]; linarith [hden.2.1])
  exact ⟨hp.1, hk.1, hrc.1, lit_zero, lit_zero, lit_zero, lit_zero, lit_zero, lit_zero, lit_zero, lit_zero⟩

theorem improved_quiet {sr c r : F32} (h : Sane sr c r) (s0 : Improved.Ladder F32 F64) :
    Improved.Quiet (Improved.setResonance r (Improved.setCutoff c (Improved.init sr s0))) := by
  obtain ⟨hs, hc, hr⟩ := h.facts
  have hs0 : 0 < sr.val := by linarith [h.hsr.2.1]
  have hPI : (PI : F32).In 3 4 := by decide +kernel
  have h99 : (lit 0.99 : F32).In 0 1 := by decide +kernel
  have hd : (sr / PI : F32).In 0 (2 ^ 20) := by
    refine div_in h.hsr.1 hPI.1 (by linarith [hPI.2.1]) rep_zero (rep_two_pow (by norm_num)) (div_nonneg hs0.le (by linarith [hPI.2.1])) ?_
    rw [div_le_iff₀ (by linarith [hPI.2.1])]
    have := h.hsr.2.2
    nlinarith [hPI.2.1]
  have hm : ((sr / PI) * lit 0.99 : F32).In 0 (2 ^ 20) := by
    refine mul_in hd.1 h99.1 rep_zero (rep_two_pow (by norm_num)) (mul_nonneg hd.2.1 h99.2.1) ?_
    nlinarith [hd.2.1, hd.2.2, h99.2.1, h99.2.2]
  have hcn : c ≠ nan := by intro e; have := h.hc.1; rw [e] at this; simp at this
  have hcut : (clamp c (lit 0) ((sr / PI) * lit 0.99)).In 0 (2 ^ 20) :=
    (clamp_in hcn lit_zero (in_val hm.1) hm.2.1).mono le_rfl hm.2.2
  set k : F32 := clamp c (lit 0) ((sr / PI) * lit 0.99) with hkd
  have hpk : (PI * k : F32).In 0 (2 ^ 22) := by
    refine mul_in hPI.1 hcut.1 rep_zero (rep_two_pow (by norm_num)) (mul_nonneg (by linarith [hPI.2.1]) hcut.2.1) ?_
    have := hcut.2.2
    nlinarith [hPI.2.1, hPI.2.2, hcut.2.1]
  have hx : ((PI * k) / sr : F32).In 0 (2 ^ 22) := by
    refine div_in hpk.1 h.hsr.1 hs0.ne' rep_zero (rep_two_pow (by norm_num)) (div_nonneg hpk.2.1 hs0.le) ?_
    rw [div_le_iff₀ hs0]
    have := hpk.2.2
    have := h.hsr.2.1
    nlinarith
  have hxu := conv_up hx.1
  have hx' : (Conv.conv ((PI * k) / sr) : F64).NN 22 := ⟨hxu.1, by rw [hxu.val_eq]; exact hx.2.1, by rw [hxu.val_eq]; exact hx.2.2⟩
  have hku := conv_up hcut.1
  have hk' : (Conv.conv k : F64).NN 20 := ⟨hku.1, by rw [hku.val_eq]; exact hcut.2.1, by rw [hku.val_eq]; exact hcut.2.2⟩
  have l4 : (lit 4 : F64).Mag 2 := by decide +kernel
  have lv : (Improved.VT : F64).Mag 0 := by decide +kernel
  have l1 : (lit 1 : F64).Mag 22 := by decide +kernel
  have hden := hx'.one_add
  have hg := ((((l4.mul pi_up.mag).mul lv).mul hk'.mag).mul (l1.sub hx'.mag)).div hden.1
    (by rw [abs_of_pos (by linarith [hden.2.1])]; exact hden.2.1)
  have l2 : (lit 2 : F64).In 2 2 := by decide +kernel
  have hsr2 : (lit 2 * Conv.conv sr : F64).In 200 (2 ^ 21) := by
    refine mul_in l2.1 hs.1 (by decide +kernel) (rep64_two_pow (by norm_num)) ?_ ?_ <;> rw [l2.val_eq]
    · linarith [hs.2.1]
    · have := hs.2.2; norm_num at *; linarith
  have l4' : (lit 4 : F64).Mag 2 := by decide +kernel
  exact ⟨(hr.mag.mul l4').1, hsr2.1, ne_of_gt (lt_of_lt_of_le (by norm_num) hsr2.2.1), hg.1, lit_one.1,
    (makeup_fin h.hsr hcut).1, lit_zero, lit_zero, lit_zero, lit_zero, lit_zero, lit_zero, lit_zero, lit_zero, lit_zero, lit_zero,
    lit_zero, lit_zero⟩

theorem rk_quiet {sr c r : F32} (h : Sane sr c r) (s0 : RKSimulation.Ladder F32 F64) :
    RKSimulation.Quiet (RKSimulation.setResonance r (RKSimulation.setCutoff c (RKSimulation.init sr s0))) := by
  obtain ⟨hs, hc, hr⟩ := h.facts
  have l10 : (lit 10 : F64).Mag 4 := by decide +kernel
  have l2 : (lit 2 : F64).Mag 1 := by decide +kernel
  have l1 : (Arith.ofInt 1 : F32).In 1 1 := by decide +kernel
  have hprod : (Arith.ofInt 1 * sr : F32).In sr.val sr.val := by
    refine mul_in l1.1 h.hsr.1 (rep_val _) (rep_val _) ?_ ?_ <;> rw [l1.val_eq, one_mul]
  have hpu := conv_up hprod.1
  have l1' : (lit 1 : F64).Mag 0 := by decide +kernel
  have hst : (RKSimulation.stepSizeOf 1 sr : F64).Mag 0 := by
    refine l1'.div hpu.1 ?_
    rw [hpu.val_eq, hprod.val_eq, abs_of_pos (by linarith [h.hsr.2.1])]
    linarith [h.hsr.2.1]
  have l5 : (lit 0.5 : F64).Mag 0 := by decide +kernel
  have l6 : (lit 1 / lit 6 : F64).Mag 0 := by decide +kernel
  have hcc : c.In 0 (2 ^ 20) := by
    refine h.hc.mono le_rfl ?_
    have := h.hsr.2.2
    norm_num at *
    linarith
  have ls : (lit 3 : F64).isFin = true := by decide +kernel
  have lsi : (lit 1 / lit 3 : F64).isFin = true := by decide +kernel
  exact ⟨(hr.mag.mul l10).1, lit_one.1, (makeup_fin h.hsr hcc).1, ls, lsi, ((l2.mul pi_up.mag).mul hc.mag).1, hst.1,
    (l5.mul hst).1, (l6.mul hst).1, ⟨lit_zero, lit_zero, lit_zero, lit_zero⟩⟩

theorem rnd_near {q e : ℚ} {k : ℤ} (hq : |q| < 2 ^ k) (hk : binary64.emin ≤ k - 53 := by decide) (he : (2:ℚ) ^ (k - 53 - 1) ≤ e) :
    |q - binary64.rnd q| ≤ e := by
  have := binary64.rnd_err_of_lt (K := ℚ) (x := q) (k := k) (by simpa using hq) hk
  simp only [Rat.cast_id] at this
  exact this.trans he

/-- The argument of `tan` in the Oberheim ladder. -/
theorem oberheim_arg {sr c r : F32} (h : Sane sr c r) :
    (lit 1 / Conv.conv sr : F64).In (2 ^ (-20:ℤ)) 1 ∧
    (lit 2 * Conv.conv (PI : F32) * Conv.conv c * (lit 1 / Conv.conv sr) / lit 2 : F64).In 0 1.5 := by
  have h1 := conv_up h.hsr.1
  have h2 := conv_up h.hc.1
  have hs1 := h.hsr.2.1
  have hs2 := h.hsr.2.2
  have hc0 := h.hc.2.1
  have hc1 := h.hc.2.2
  have hs0 : 0 < sr.val := by linarith
  have hp : (lit 2 * Conv.conv (PI : F32) : F64).In 0 6.2832 := by decide +kernel
  have r20 : binary64.Rep (2 ^ (-20:ℤ)) false := by decide +kernel
  obtain ⟨tf, tv⟩ := div_val (x := (lit 1 : F64)) (y := Conv.conv sr) lit_one.1 h1.1 (by rw [h1.val_eq]; exact hs0.ne') r20 rep_one
    (by rw [lit_one.val_eq, h1.val_eq, le_div_iff₀ hs0]; norm_num at hs2 ⊢; linarith)
    (by rw [lit_one.val_eq, h1.val_eq, div_le_one hs0]; linarith)
  have tin := div_in (x := (lit 1 : F64)) (y := Conv.conv sr) lit_one.1 h1.1 (by rw [h1.val_eq]; exact hs0.ne') r20 rep_one
    (by rw [lit_one.val_eq, h1.val_eq, le_div_iff₀ hs0]; norm_num at hs2 ⊢; linarith)
    (by rw [lit_one.val_eq, h1.val_eq, div_le_one hs0]; linarith)
  refine ⟨tin, ?_⟩
  rw [lit_one.val_eq, h1.val_eq] at tv
  set T : F64 := lit 1 / Conv.conv sr with hT
  have hinv : (1:ℚ) / sr.val ≤ 1 / 100 := by
    rw [div_le_div_iff₀ hs0 (by norm_num)]; linarith
  have hinv0 : (0:ℚ) < 1 / sr.val := by positivity
  have herr := rnd_near (q := 1 / sr.val) (e := 1 / 2 ^ 50) (k := 0) (by rw [abs_of_pos hinv0]; exact lt_of_le_of_lt hinv (by norm_num))
    (by decide) (by norm_num)
  have hT1 : T.val * sr.val ≤ 1.001 := by
    rw [tv]
    have a := abs_le.1 herr
    have b : binary64.rnd (1 / sr.val) ≤ 1 / sr.val + 1 / 2 ^ 50 := by linarith
    have c' : binary64.rnd (1 / sr.val) * sr.val ≤ (1 / sr.val + 1 / 2 ^ 50) * sr.val := mul_le_mul_of_nonneg_right b hs0.le
    have d : (1 / sr.val + 1 / 2 ^ 50) * sr.val = 1 + sr.val / 2 ^ 50 := by field_simp
    have e : sr.val / 2 ^ 50 ≤ 0.001 := by norm_num at hs2 ⊢; linarith
    linarith
  have hprod : (lit 2 * Conv.conv (PI : F32) : F64).val * c.val ≤ 6.2832 * (0.45 * sr.val) :=
    mul_le_mul hp.2.2 hc1 hc0 (by norm_num)
  have hprod0 : 0 ≤ (lit 2 * Conv.conv (PI : F32) : F64).val * c.val := mul_nonneg hp.2.1 hc0
  have r23 : binary64.Rep (2 ^ 23) false := rep64_two_pow (by norm_num)
  have hle : (lit 2 * Conv.conv (PI : F32) : F64).val * (Conv.conv c : F64).val ≤ 2 ^ 23 := by
    rw [h2.val_eq]; norm_num at *; linarith
  obtain ⟨wf, wv⟩ := mul_val hp.1 h2.1 rep_zero r23 (by rw [h2.val_eq]; exact hprod0) hle
  have win := mul_in hp.1 h2.1 rep_zero r23 (by rw [h2.val_eq]; exact hprod0) hle
  rw [h2.val_eq] at wv
  set w : F64 := lit 2 * Conv.conv (PI : F32) * Conv.conv c with hw
  have hwerr := rnd_near (q := (lit 2 * Conv.conv (PI : F32) : F64).val * c.val) (e := 1 / 2 ^ 20) (k := 24)
    (by rw [abs_of_nonneg hprod0]; rw [h2.val_eq] at hle; norm_num at *; linarith) (by decide) (by norm_num)
  have hw1 : w.val ≤ 2.9 * sr.val := by
    rw [wv]
    have a := abs_le.1 hwerr
    norm_num at *
    linarith
  have hwT : w.val * T.val ≤ 3 := by
    have hT0 : 0 ≤ T.val := le_trans (by positivity) tin.2.1
    calc w.val * T.val ≤ (2.9 * sr.val) * T.val := mul_le_mul_of_nonneg_right hw1 hT0
      _ = 2.9 * (T.val * sr.val) := by ring
      _ ≤ 2.9 * 1.001 := mul_le_mul_of_nonneg_left hT1 (by norm_num)
      _ ≤ 3 := by norm_num
  have l2 : (lit 2 : F64).In 2 2 := by decide +kernel
  have hm : (w * T).In 0 3 := mul_in wf tf rep_zero (by decide +kernel)
    (mul_nonneg win.2.1 (le_trans (by positivity) tin.2.1)) hwT
  refine div_in hm.1 l2.1 (by rw [l2.val_eq]; norm_num) rep_zero (by decide +kernel) ?_ ?_ <;> rw [l2.val_eq]
  · linarith [hm.2.1]
  · have := hm.2.2; norm_num; linarith

theorem oberheim_quiet [Libm F64] [Libm64Spec] {sr c r : F32} (h : Sane sr c r) (s0 : Oberheim.Ladder F32 F64) :
    Oberheim.Quiet (Oberheim.setResonance r (Oberheim.setCutoff c (Oberheim.init sr s0))) := by
  obtain ⟨hs, hc, hr⟩ := h.facts
  obtain ⟨hT, harg⟩ := oberheim_arg h
  have htan := Libm64Spec.tan_moderate _ harg
  set T : F64 := lit 1 / Conv.conv sr with hTd
  set t : F64 := Libm.tan (lit 2 * Conv.conv (PI : F32) * Conv.conv c * T / lit 2) with htd
  have ht : t.NN 6 := htan
  have l2 : (lit 2 : F64).In 2 2 := by decide +kernel
  have hT0 : 0 < T.val := lt_of_lt_of_le (by positivity) hT.2.1
  have h2T : (lit 2 / T : F64).NN 21 := by
    refine div_in l2.1 hT.1 hT0.ne' rep_zero (rep64_two_pow (by norm_num)) ?_ ?_ <;> rw [l2.val_eq]
    · positivity
    · rw [div_le_iff₀ hT0]
      have := hT.2.1
      norm_num at *
      linarith
  have hTn : T.NN 0 := hT.mono (by norm_num) (by norm_num)
  have hg : (lit 2 / T * t * T / lit 2 : F64).NN 27 := ((h2T.mul ht).mul hTn).div l2.1 (by rw [l2.val_eq]; norm_num)
  set g : F64 := lit 2 / T * t * T / lit 2 with hgd
  have h1g := hg.one_add
  have hG : (g / (lit 1 + g) : F64).NN 27 := hg.div h1g.1 h1g.2.1
  set G : F64 := g / (lit 1 + g) with hGd
  have l1 : (lit 1 : F64).NN 0 := by decide +kernel
  have b0 := ((hG.mul hG).mul hG).div h1g.1 h1g.2.1
  have b1 := (hG.mul hG).div h1g.1 h1g.2.1
  have b2 := hG.div h1g.1 h1g.2.1
  have b3 := l1.div h1g.1 h1g.2.1
  have hga := ((hG.mul hG).mul hG).mul hG
  have l4 : (lit 4 : F64).NN 2 := by decide +kernel
  have hK := l4.mul hr
  have hden := (hK.mul hga).one_add
  have ha0 := l1.div hden.1 hden.2.1
  exact ⟨⟨hG.1, b0.1, lit_one.1, lit_zero.1, lit_zero.1, lit_one.1, lit_zero, lit_zero⟩,
    ⟨hG.1, b1.1, lit_one.1, lit_zero.1, lit_zero.1, lit_one.1, lit_zero, lit_zero⟩,
    ⟨hG.1, b2.1, lit_one.1, lit_zero.1, lit_zero.1, lit_one.1, lit_zero, lit_zero⟩,
    ⟨hG.1, b3.1, lit_one.1, lit_zero.1, lit_zero.1, lit_one.1, lit_zero, lit_zero⟩,
    hK.1, hK.one_add.1, ha0.1, lit_one.1, lit_zero.1, lit_zero.1, lit_zero.1, lit_zero.1, lit_one.1⟩

namespace Stilson

theorem gain_mem {i : ℤ} {x : F32} (h : gainAt i = some x) : x.In 0 1 := by
  have hall : ∀ y ∈ (gainTable : List F32), y.In 0 1 := by decide +kernel
  unfold gainAt at h
  split_ifs at h
  exact hall x (List.mem_of_getElem? h)

theorem setRes_quiet {r : F32} {s s' : Ladder F32 F64} (hr : r ≠ nan) (hp : s.p.Mag 22) (h : setResonance r s = some s') :
    s'.Q.isFin = true := by
  simp only [setResonance, Option.bind_eq_some_iff, Option.map_eq_some_iff] at h
  obtain ⟨n, hn, a, ha, b, hb, rfl⟩ := h
  have ha' := gain_mem ha
  have hb' := gain_mem hb
  have h99 : (lit 99 : F64).Mag 7 := by decide +kernel
  have hix : (s.p * lit 99).Mag 29 := hp.mul h99
  have hfl := floor_in hix.1 prec64
  have hfr : ((s.p * lit 99) - Arith.ofInt n : F64).In 0 1 := by
    have e : truncQ (Arith.floor (s.p * lit 99)).val = ⌊(s.p * lit 99).val⌋ := by rw [hfl.val_eq]; exact truncQ_int _
    have hb1 : -2 ^ 31 ≤ ⌊(s.p * lit 99).val⌋ := by rw [Int.le_floor]; exact le_trans (by norm_num) hix.2.1
    have hb2 : ⌊(s.p * lit 99).val⌋ < 2 ^ 31 := by rw [Int.floor_lt]; exact lt_of_le_of_lt hix.2.2 (by norm_num)
    have hn' : n = ⌊(s.p * lit 99).val⌋ := by
      rw [toI32_fin hfl.1 (by rw [e]; exact hb1) (by rw [e]; exact hb2), e] at hn
      exact (Option.some.inj hn).symm
    have hof : (Arith.ofInt n : F64).In n n := by
      rw [hn']
      have := hfl
      have hrep := rep_val (Arith.floor (s.p * lit 99))
      rw [hfl.val_eq] at hrep
      exact ofRat_rep hrep
    refine sub_in (in_val hix.1) hof rep_zero rep_one ?_ ?_
    · rw [hn']; linarith [Int.floor_le (s.p * lit 99).val]
    · rw [hn']; linarith [Int.lt_floor_add_one (s.p * lit 99).val]
  have hfr' : (Conv.conv ((s.p * lit 99) - Arith.ofInt n : F64) : F32).In 0 1 := by
    obtain ⟨v, nz, hv, e⟩ := isFin_cases hfr.1
    rw [e] at hfr ⊢
    exact ofRat_in rep_zero rep_one hfr.2.1 hfr.2.2
  have hd : (b - a : F32).In (-1) 1 := sub_in hb' ha' (Rep.neg rep_one) rep_one (by norm_num) (by norm_num)
  have hm : (Conv.conv ((s.p * lit 99) - Arith.ofInt n : F64) * (b - a) : F32).In (-1) 1 := by
    refine mul_in hfr'.1 hd.1 (Rep.neg rep_one) rep_one ?_ ?_ <;>
      nlinarith [hfr'.2.1, hfr'.2.2, hd.2.1, hd.2.2]
  have hl : (lerp a b (Conv.conv ((s.p * lit 99) - Arith.ofInt n : F64)) : F32).In (-2) 2 :=
    add_in ha' hm (by decide +kernel) (by decide +kernel) (by norm_num) (by norm_num)
  have hc := clamp01_range hr
  have hq : (clamp01 r * lerp a b (Conv.conv ((s.p * lit 99) - Arith.ofInt n : F64)) : F32).In (-2) 2 := by
    refine mul_in hc.1 hl.1 (by decide +kernel) (by decide +kernel) ?_ ?_ <;>
      nlinarith [hc.2.1, hc.2.2, hl.2.1, hl.2.2]
  exact (conv_up hq.1).1

theorem setCutoff_eq {c : F32} {s s' : Ladder F32 F64} (h : setCutoff c s = some s') :
    s'.s0 = s.s0 ∧ s'.s1 = s.s1 ∧ s'.s2 = s.s2 ∧ s'.s3 = s.s3 ∧ s'.output = s.output ∧ s'.sampleRate = s.sampleRate := by
  simp only [setCutoff, setResonance, Option.bind_eq_some_iff, Option.map_eq_some_iff] at h
  obtain ⟨n, hn, a, ha, b, hb, rfl⟩ := h
  exact ⟨rfl, rfl, rfl, rfl, rfl, rfl⟩

theorem setResonance_eq {r : F32} {s s' : Ladder F32 F64} (h : setResonance r s = some s') :
    s'.s0 = s.s0 ∧ s'.s1 = s.s1 ∧ s'.s2 = s.s2 ∧ s'.s3 = s.s3 ∧ s'.output = s.output ∧ s'.sampleRate = s.sampleRate ∧ s'.p = s.p := by
  simp only [setResonance, Option.bind_eq_some_iff, Option.map_eq_some_iff] at h
  obtain ⟨n, hn, a, ha, b, hb, rfl⟩ := h
  exact ⟨rfl, rfl, rfl, rfl, rfl, rfl, rfl⟩

end Stilson

theorem stilson_quiet {sr c r : F32} (h : Sane sr c r) (s0 : Stilson.Ladder F32 F64) :
    ∃ s, ((Stilson.init sr s0).bind (Stilson.setCutoff c)).bind (Stilson.setResonance r) = some s ∧ Stilson.Quiet s := by
  have hs1 := h.hsr.2.1
  obtain ⟨s1, e1⟩ := Stilson.C44_init_defined sr h.hsr.1 hs1 s0
  have e1' := e1
  unfold Stilson.init at e1'
  rw [Option.bind_eq_some_iff] at e1'
  obtain ⟨t, et, e1''⟩ := e1'
  obtain ⟨a0, a1, a2, a3, ao, ar⟩ := Stilson.setCutoff_eq et
  obtain ⟨b0, b1, b2, b3, bo, br, -⟩ := Stilson.setResonance_eq e1''
  have hsr : s1.sampleRate = sr := br.trans ar
  have hc1 : |c.val| ≤ 64 * s1.sampleRate.val := by
    rw [hsr, abs_of_nonneg h.hc.2.1]
    have := h.hc.2.2
    norm_num at *
    linarith
  have hsf : s1.sampleRate.isFin = true := by rw [hsr]; exact h.hsr.1
  have hs1' : 1 ≤ s1.sampleRate.val := by rw [hsr]; linarith
  obtain ⟨s2, e2, hk⟩ := Stilson.C44_setters_defined s1 c hsf hs1' h.hc.1 hc1
  have hp := Stilson.setCutoff_mag e2 hsf hs1' h.hc.1 hc1
  obtain ⟨s3, e3, ep⟩ := hk r
  obtain ⟨c0, c1, c2, c3, co, -⟩ := Stilson.setCutoff_eq e2
  obtain ⟨d0, d1, d2, d3, do', -, dp⟩ := Stilson.setResonance_eq e3
  refine ⟨s3, by rw [e1, Option.bind_some, e2, Option.bind_some, e3], ?_⟩
  have z : (lit 0 : F64).Zero := lit_zero
  exact ⟨by rw [dp]; exact hp.1, Stilson.setRes_quiet h.hr hp e3, by rw [d0, c0, b0, a0]; exact z, by rw [d1, c1, b1, a1]; exact z,
    by rw [d2, c2, b2, a2]; exact z, by rw [d3, c3, b3, a3]; exact z, by rw [do', co, bo, ao]; exact z⟩

/-! ## Reset forgets the signal history -/

section
variable {α β : Type} [Arith α] [Arith β] [Libm β] [Conv α β] [Conv β α]

theorem forEach_reset {σ ι ο : Type} {tick : σ → ι → σ × ο} {reset : σ → σ} (h : ∀ s x, reset (tick s x).1 = reset s) (s : σ)
    (xs : List ι) : reset (forEach tick s xs).1 = reset s := by
  induction xs generalizing s with
  | nil => rfl
  | cons x xs ih => simp only [forEach]; rw [ih, h]

/-- **C46**: in any number format and for every input, `reset` after processing gives the very state `reset` would have given before it –
nothing of the processed signal survives, and no parameter changes. -/
theorem C46_reset_forgets (xs : List α) (m : Microtracker.Ladder α β) (k : Krajeski.Ladder α β) (d : MusicDSP.Ladder α β)
    (i : Improved.Ladder α β) (t : Stilson.Ladder α β) (o : Oberheim.Ladder α β) (rk : RKSimulation.Ladder α β) :
    Microtracker.reset (Microtracker.process m xs).1 = Microtracker.reset m ∧
    Krajeski.reset (Krajeski.process k xs).1 = Krajeski.reset k ∧
    MusicDSP.reset (MusicDSP.process d xs).1 = MusicDSP.reset d ∧
    Improved.reset (Improved.process i xs).1 = Improved.reset i ∧
    Stilson.reset (Stilson.process t xs).1 = Stilson.reset t ∧
    Oberheim.reset (Oberheim.process o xs).1 = Oberheim.reset o ∧
    RKSimulation.reset (RKSimulation.process rk xs).1 = RKSimulation.reset rk := by
  refine ⟨forEach_reset (fun _ _ => rfl) m xs, forEach_reset (fun _ _ => rfl) k xs, forEach_reset (fun _ _ => rfl) d xs,
    forEach_reset (fun _ _ => rfl) i xs, forEach_reset (fun _ _ => rfl) t xs, forEach_reset (fun _ _ => rfl) o xs,
    forEach_reset (fun s x => ?_) rk xs⟩
  have : ∀ (n : ℕ) (s : RKSimulation.Ladder α β), RKSimulation.reset ((RKSimulation.solver (Conv.conv x))^[n] s) = RKSimulation.reset s := by
    intro n
    induction n with
    | zero => intro s; rfl
    | succ n ih => intro s; rw [Function.iterate_succ_apply, ih]; rfl
  exact this _ s
end

/-! ## Silence -/

/-- **C46**: for every ordinary parameter setting, a freshly configured ladder of each of the seven kinds – and one that has processed
*any* signal (infinities and NaNs included) and has then been `reset` – maps any amount of digital silence to exact digital silence. -/
theorem C46_silence [Libm F64] [Libm64Spec] {sr c r : F32} (h : Sane sr c r) (past silence : List F32) (hz : ∀ x ∈ silence, x.Zero)
    (m0 : Microtracker.Ladder F32 F64) (k0 : Krajeski.Ladder F32 F64) (d0 : MusicDSP.Ladder F32 F64) (i0 : Improved.Ladder F32 F64)
    (o0 : Oberheim.Ladder F32 F64) (rk0 : RKSimulation.Ladder F32 F64) :
    (let s := Microtracker.setResonance r (Microtracker.setCutoff c (Microtracker.init sr m0))
     (∀ y ∈ (Microtracker.process s silence).2, y.Zero) ∧
     ∀ y ∈ (Microtracker.process (Microtracker.reset (Microtracker.process s past).1) silence).2, y.Zero) ∧
    (let s := Krajeski.setResonance r (Krajeski.setCutoff c (Krajeski.init sr k0))
     (∀ y ∈ (Krajeski.process s silence).2, y.Zero) ∧
     ∀ y ∈ (Krajeski.process (Krajeski.reset (Krajeski.process s past).1) silence).2, y.Zero) ∧
    (let s := MusicDSP.setResonance r (MusicDSP.setCutoff c (MusicDSP.init sr d0))
     (∀ y ∈ (MusicDSP.process s silence).2, y.Zero) ∧
     ∀ y ∈ (MusicDSP.process (MusicDSP.reset (MusicDSP.process s past).1) silence).2, y.Zero) ∧
    (let s := Improved.setResonance r (Improved.setCutoff c (Improved.init sr i0))
     (∀ y ∈ (Improved.process s silence).2, y.Zero) ∧
     ∀ y ∈ (Improved.process (Improved.reset (Improved.process s past).1) silence).2, y.Zero) ∧
    (let s := Oberheim.setResonance r (Oberheim.setCutoff c (Oberheim.init sr o0))
     (∀ y ∈ (Oberheim.process s silence).2, y.Zero) ∧
     ∀ y ∈ (Oberheim.process (Oberheim.reset (Oberheim.process s past).1) silence).2, y.Zero) ∧
    (let s := RKSimulation.setResonance r (RKSimulation.setCutoff c (RKSimulation.init sr rk0))
     (∀ y ∈ (RKSimulation.process s silence).2, y.Zero) ∧
     ∀ y ∈ (RKSimulation.process (RKSimulation.reset (RKSimulation.process s past).1) silence).2, y.Zero) := by
  have hm := microtracker_quiet h m0
  have hk := krajeski_quiet h k0
  have hd := musicdsp_quiet h d0
  have hi := improved_quiet h i0
  have ho := oberheim_quiet h o0
  have hr := rk_quiet h rk0
  obtain ⟨r1, r2, r3, r4, -, r6, r7⟩ := C46_reset_forgets past
    (Microtracker.setResonance r (Microtracker.setCutoff c (Microtracker.init sr m0)))
    (Krajeski.setResonance r (Krajeski.setCutoff c (Krajeski.init sr k0)))
    (MusicDSP.setResonance r (MusicDSP.setCutoff c (MusicDSP.init sr d0)))
    (Improved.setResonance r (Improved.setCutoff c (Improved.init sr i0)))
    (Stilson.fresh)
    (Oberheim.setResonance r (Oberheim.setCutoff c (Oberheim.init sr o0)))
    (RKSimulation.setResonance r (RKSimulation.setCutoff c (RKSimulation.init sr rk0)))
  refine ⟨⟨?_, ?_⟩, ⟨?_, ?_⟩, ⟨?_, ?_⟩, ⟨?_, ?_⟩, ⟨?_, ?_⟩, ⟨?_, ?_⟩⟩
  · exact forEach_silent (I := Microtracker.Quiet) (fun _ _ a b => Microtracker.tick_quiet a b) silence _ hm hz
  · rw [r1]; exact forEach_silent (I := Microtracker.Quiet) (fun _ _ a b => Microtracker.tick_quiet a b) silence _ hm hz
  · exact forEach_silent (I := Krajeski.Quiet) (fun _ _ a b => Krajeski.tick_quiet a b) silence _ hk hz
  · rw [r2]; exact forEach_silent (I := Krajeski.Quiet) (fun _ _ a b => Krajeski.tick_quiet a b) silence _ hk hz
  · exact forEach_silent (I := MusicDSP.Quiet) (fun _ _ a b => MusicDSP.tick_quiet a b) silence _ hd hz
  · rw [r3]; exact forEach_silent (I := MusicDSP.Quiet) (fun _ _ a b => MusicDSP.tick_quiet a b) silence _ hd hz
  · exact forEach_silent (I := Improved.Quiet) (fun _ _ a b => Improved.tick_quiet a b) silence _ hi hz
  · rw [r4]; exact forEach_silent (I := Improved.Quiet) (fun _ _ a b => Improved.tick_quiet a b) silence _ hi hz
  · exact forEach_silent (I := Oberheim.Quiet) (fun _ _ a b => Oberheim.tick_quiet a b) silence _ ho hz
  · rw [r6]; exact forEach_silent (I := Oberheim.Quiet) (fun _ _ a b => Oberheim.tick_quiet a b) silence _ ho hz
  · exact forEach_silent (I := RKSimulation.Quiet) (fun _ _ a b => RKSimulation.tick_quiet a b) silence _ hr hz
  · rw [r7]; exact forEach_silent (I := RKSimulation.Quiet) (fun _ _ a b => RKSimulation.tick_quiet a b) silence _ hr hz

/-- **C46** for the Stilson ladder, whose setters can have undefined behaviour in general: for ordinary settings they do not, and the
ladder is silent. -/
theorem C46_stilson_silence {sr c r : F32} (h : Sane sr c r) (past silence : List F32) (hz : ∀ x ∈ silence, x.Zero)
    (t0 : Stilson.Ladder F32 F64) :
    ∃ s, ((Stilson.init sr t0).bind (Stilson.setCutoff c)).bind (Stilson.setResonance r) = some s ∧
      (∀ y ∈ (Stilson.process s silence).2, y.Zero) ∧
      ∀ y ∈ (Stilson.process (Stilson.reset (Stilson.process s past).1) silence).2, y.Zero := by
  obtain ⟨s, e, hq⟩ := stilson_quiet h t0
  have z : (lit 0 : F64).Zero := lit_zero
  refine ⟨s, e, ?_, ?_⟩
  · exact forEach_silent (I := Stilson.Quiet) (fun _ _ a b => Stilson.tick_quiet a b) silence _ hq hz
  · rw [show Stilson.reset (Stilson.process s past).1 = Stilson.reset s from forEach_reset (fun _ _ => rfl) s past]
    exact forEach_silent (I := Stilson.Quiet) (fun _ _ a b => Stilson.tick_quiet a b) silence _
      ⟨hq.p, hq.Q, z, z, z, z, z⟩ hz

/-- **C46** beyond ordinary settings: whatever the coefficients are, as long as they are finite numbers (`Quiet` lists them: every
coefficient finite, every state variable zero), silence gives silence. -/
theorem C46_finite_coefficients [Libm F64] [Libm64Spec] (silence : List F32) (hz : ∀ x ∈ silence, x.Zero) :
    (∀ s, Microtracker.Quiet s → ∀ y ∈ (Microtracker.process s silence).2, y.Zero) ∧
    (∀ s, Krajeski.Quiet s → ∀ y ∈ (Krajeski.process s silence).2, y.Zero) ∧
    (∀ s, MusicDSP.Quiet s → ∀ y ∈ (MusicDSP.process s silence).2, y.Zero) ∧
    (∀ s, Improved.Quiet s → ∀ y ∈ (Improved.process s silence).2, y.Zero) ∧
    (∀ s, Stilson.Quiet s → ∀ y ∈ (Stilson.process s silence).2, y.Zero) ∧
    (∀ s, Oberheim.Quiet s → ∀ y ∈ (Oberheim.process s silence).2, y.Zero) ∧
    (∀ s, RKSimulation.Quiet s → ∀ y ∈ (RKSimulation.process s silence).2, y.Zero) :=
  ⟨fun s h => forEach_silent (I := Microtracker.Quiet) (fun _ _ a b => Microtracker.tick_quiet a b) silence s h hz,
   fun s h => forEach_silent (I := Krajeski.Quiet) (fun _ _ a b => Krajeski.tick_quiet a b) silence s h hz,
   fun s h => forEach_silent (I := MusicDSP.Quiet) (fun _ _ a b => MusicDSP.tick_quiet a b) silence s h hz,
   fun s h => forEach_silent (I := Improved.Quiet) (fun _ _ a b => Improved.tick_quiet a b) silence s h hz,
   fun s h => forEach_silent (I := Stilson.Quiet) (fun _ _ a b => Stilson.tick_quiet a b) silence s h hz,
   fun s h => forEach_silent (I := Oberheim.Quiet) (fun _ _ a b => Oberheim.tick_quiet a b) silence s h hz,
   fun s h => forEach_silent (I := RKSimulation.Quiet) (fun _ _ a b => RKSimulation.tick_quiet a b) silence s h hz⟩

/-- 48 kHz, 1.2 kHz, resonance 0.7 is an ordinary setting; a block of positive and negative zeros is silence. -/
example : Sane (lit 48000) (lit 1200) (lit 0.7) ∧ ∀ x ∈ [(lit 0 : F32), -lit 0, lit 0], x.Zero := by
  refine ⟨⟨by decide +kernel, by decide +kernel, by decide +kernel⟩, ?_⟩
  unfold FP.Zero
  decide +kernel

end Verif
