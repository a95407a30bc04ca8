import Verif.Props.SawFloat
import Mathlib.Analysis.Convex.SpecificFunctions.Basic

/-!
# Property C43 in single precision: how loud SuperSaw gets
-/

set_option linter.unusedSectionVars false

namespace Verif.SuperSaw
open FP
open ExampleVoice (mul_unit_in)

variable [Libm F32] [LibmSpec] [PowSpec] [PowAcc]

/-- The vibrato ratio lies within the depth, in semitones, up to two rounding errors. -/
theorem vibrato_ratio {t d : F32} (ht : t.In (-1) 1) (hd : d.In (-12) 12) :
    (Libm.pow (lit 2) (t * d / lit 12) : F32).In (1 / 2) 2 ∧
      ((Libm.pow (lit 2) (t * d / lit 12) : F32).val : ℝ) ≤ 2 ^ (|(d.val : ℝ)| / 12) * (1 + 1 / 2 ^ 21) ∧
      1 / 2 ^ (|(d.val : ℝ)| / 12) * (1 - 1 / 2 ^ 21) ≤ ((Libm.pow (lit 2) (t * d / lit 12) : F32).val : ℝ) := by
  have hvd : (t * d).In (-12) 12 := by
    have := (mul_unit_in ht hd.1).1
    have hb : |d.val| ≤ 12 := abs_le.2 ⟨hd.2.1, hd.2.2⟩
    exact this.mono (by linarith) hb
  have hz := twelfth_in hvd
  refine ⟨PowSpec.pow_two _ hz, ?_⟩
  have hacc := PowAcc.pow_acc _ hz
  set δ := |(d.val : ℝ)| / 12 with hδ
  have hδ0 : 0 ≤ δ := by positivity
  have hδ1 : δ ≤ 1 := by
    have hb : |d.val| ≤ 12 := abs_le.2 ⟨hd.2.1, hd.2.2⟩
    have : (|(d.val : ℝ)|) ≤ 12 := by exact_mod_cast hb
    rw [hδ, div_le_one (by norm_num)]; exact this
  have hzb : |((t * d / lit 12 : F32).val : ℝ)| ≤ δ + 1 / 2 ^ 23 := by
    have h12 : (lit 12 : F32).In 12 12 := lit_rep (by decide +kernel)
    obtain ⟨zs, e⟩ := div_def hvd.1 h12.1 (by rw [h12.val_eq]; norm_num)
    have hy : |((t * d : F32).val : ℝ)| ≤ |(d.val : ℝ)| := by
      have := (mul_unit_in ht hd.1).1
      have h2 : |(t * d : F32).val| ≤ |d.val| := abs_le.2 ⟨this.2.1, this.2.2⟩
      exact_mod_cast h2
    have := upto_of_rat (q := (t * d : F32).val / (lit 12 : F32).val) (zs := zs) (M := δ) (by
      rw [h12.val_eq]; push_cast
      rw [abs_div, show |(12:ℝ)| = 12 by norm_num, hδ]
      exact div_le_div_of_nonneg_right hy (by norm_num)) (hδ1.trans (by norm_num))
    rw [← e] at this
    refine this.2.trans ?_
    have h150 : (2:ℝ) ^ (-150:ℤ) ≤ 1 / 2 ^ 24 := by norm_num
    generalize (2:ℝ) ^ (-150:ℤ) = A at *
    norm_num at *
    linarith
  generalize (t * d / lit 12 : F32) = z at *
  generalize (Libm.pow (lit 2) z : F32) = V at *
  obtain ⟨z1, z2⟩ := abs_le.1 hzb
  have htwo : (2:ℝ) ^ ((1:ℝ) / 2 ^ 23) ≤ 1 + 1 / 2 ^ 23 := by
    have := rpow_one_add_le_one_add_mul_self (s := 1) (p := (1:ℝ) / 2 ^ 23) (by norm_num) (by norm_num) (by norm_num)
    norm_num at this ⊢
    exact this
  have up : (2:ℝ) ^ (z.val : ℝ) ≤ 2 ^ δ * (1 + 1 / 2 ^ 23) := by
    calc (2:ℝ) ^ (z.val : ℝ) ≤ 2 ^ (δ + 1 / 2 ^ 23) := Real.rpow_le_rpow_of_exponent_le (by norm_num) z2
      _ = 2 ^ δ * 2 ^ ((1:ℝ) / 2 ^ 23) := Real.rpow_add (by norm_num) _ _
      _ ≤ _ := by gcongr
  have lo : 1 / 2 ^ δ * (1 - 1 / 2 ^ 23) ≤ (2:ℝ) ^ (z.val : ℝ) := by
    have h1 : (2:ℝ) ^ (-(δ + 1 / 2 ^ 23)) ≤ 2 ^ (z.val : ℝ) := Real.rpow_le_rpow_of_exponent_le (by norm_num) (by linarith)
    refine le_trans ?_ h1
    rw [Real.rpow_neg (by norm_num), Real.rpow_add (by norm_num), mul_inv, one_div]
    refine mul_le_mul_of_nonneg_left ?_ (by positivity)
    have h2 : (0:ℝ) < 2 ^ ((1:ℝ) / 2 ^ 23) := by positivity
    rw [le_inv_comm₀ (by norm_num) h2]
    refine htwo.trans ?_
    norm_num
  obtain ⟨a1, a2⟩ := abs_le.1 hacc
  have hE : (0:ℝ) < 2 ^ δ := by positivity
  have hI : (0:ℝ) < 1 / 2 ^ δ := by positivity
  have t22 : (2:ℝ) ^ (-22:ℤ) = 1 / 2 ^ 22 := by norm_num
  rw [t22] at a1 a2
  generalize (2:ℝ) ^ δ = E at *
  generalize (1:ℝ) / E = I at *
  generalize (2:ℝ) ^ (z.val : ℝ) = Z at *
  norm_num at *
  constructor <;> linarith

/-- The frequency a voice is set to. -/
theorem voice_freq {sr F V O : F32} (hsr : sr.In 1760 (2 ^ 80)) (hF : F.In 1 (sr.val / 4)) (hV : V.In (1 / 2) 2) (hO : O.In (1 / 2) 2) :
    (F * V * O).In (1 / 4) sr.val ∧
      ((F * V * O : F32).val : ℝ) ≤ F.val * V.val * O.val * (1 + 1 / 2 ^ 22) ∧
      (F.val : ℝ) * V.val * O.val * (1 - 1 / 2 ^ 22) ≤ (F * V * O : F32).val := by
  have h80 : (2:ℚ) ^ 80 ≤ 2 ^ 100 := by norm_num
  refine ⟨voiceFreq_in (hsr.mono le_rfl h80) hF hV hO, ?_⟩
  have F1 : (1:ℝ) ≤ F.val := by exact_mod_cast hF.2.1
  have F2 : (F.val : ℝ) ≤ 2 ^ (80:ℤ) := by
    have h1 : F.val ≤ 2 ^ 80 := by linarith [hF.2.2, hsr.2.2, hsr.2.1]
    have : (F.val : ℝ) ≤ ((2 ^ 80 : ℚ) : ℝ) := by exact_mod_cast h1
    refine this.trans (le_of_eq ?_); push_cast; norm_num
  have V1 : (1:ℝ) / 2 ≤ V.val := by have := (Rat.cast_le (K := ℝ)).2 hV.2.1; push_cast at this; exact this
  have V2 : (V.val : ℝ) ≤ 2 := by exact_mod_cast hV.2.2
  have O1 : (1:ℝ) / 2 ≤ O.val := by have := (Rat.cast_le (K := ℝ)).2 hO.2.1; push_cast at this; exact this
  have O2 : (O.val : ℝ) ≤ 2 := by exact_mod_cast hO.2.2
  have ne : ∀ x : F32, (0:ℝ) < x.val → x.val ≠ 0 := fun x h => by exact_mod_cast h.ne'
  have p1 : (1:ℝ) / 2 ≤ F.val * V.val := by nlinarith
  have p2 : (F.val : ℝ) * V.val ≤ 2 ^ (81:ℤ) := by
    calc (F.val : ℝ) * V.val ≤ 2 ^ (80:ℤ) * 2 := by gcongr
      _ = _ := by norm_num
  have p3 : (1:ℝ) / 4 ≤ F.val * V.val * O.val := by nlinarith
  have p4 : (F.val : ℝ) * V.val * O.val ≤ 2 ^ (82:ℤ) := by
    calc (F.val : ℝ) * V.val * O.val ≤ 2 ^ (81:ℤ) * 2 := by gcongr
      _ = _ := by norm_num
  have lo : (2:ℝ) ^ (-125:ℤ) ≤ 1 / 4 := by norm_num
  have hi1 : (2:ℝ) ^ (81:ℤ) ≤ 2 ^ (126:ℤ) := zpow_le_zpow_right₀ (by norm_num) (by norm_num)
  have hi2 : (2:ℝ) ^ (82:ℤ) ≤ 2 ^ (126:ℤ) := zpow_le_zpow_right₀ (by norm_num) (by norm_num)
  have r1 := (rel_mul (rel_val hF.1 (ne _ (by linarith))) (rel_val hV.1 (ne _ (by linarith))) le_rfl (by norm_num)
    (by rw [abs_of_pos (by linarith)]; exact lo.trans (by linarith)) (by rw [abs_of_pos (by linarith)]; exact p2.trans hi1)).mono
    (e' := 1 / 2 ^ 24) (by norm_num)
  have r2 := (rel_mul r1 (rel_val hO.1 (ne _ (by linarith))) (by norm_num) (by norm_num)
    (by rw [abs_of_pos (by linarith)]; exact lo.trans p3) (by rw [abs_of_pos (by linarith)]; exact p4.trans hi2)).mono
    (e' := 1 / 2 ^ 22) (by norm_num)
  have := abs_le.1 r2.2.2
  rw [abs_of_pos (show (0:ℝ) < F.val * V.val * O.val by linarith)] at this
  constructor <;> linarith

/-- What a tick at pitch `F` and depth `d` leaves in a voice. -/
def LeftF (sr F d : F32) (v : Voice F32) : Prop :=
  |((SawDPW.fparabola v.saw.phase).val : ℝ) - v.saw.prevParabolic.val| ≤
    4 * (F.val * 2 ^ (|(d.val : ℝ)| / 12) * (Libm.pow (lit 2) (v.detuneOffset / lit 12) : F32).val * (1 + 1 / 2 ^ 20) / sr.val) + 9 / 2 ^ 22

/-- The loudest sample of one voice. -/
noncomputable def loud (sr F d : F32) : ℝ := 2.0001 * 2 ^ (|(d.val : ℝ)| / 6) + sr.val / F.val / 2 ^ 17

theorem voice_arith {sr F E O g : ℝ} (hsr : 0 < sr) (hF : 0 < F) (hE1 : 1 ≤ E) (hE2 : E ≤ 2) (hO1 : 1 / 2 ≤ O)
    (hg : F * (1 / E) * O * (1 - 1 / 2 ^ 20) ≤ g) :
    (4 * (F * E * O * (1 + 1 / 2 ^ 20) / sr) + 9 / 2 ^ 22) * (sr / 2 / g) * (1 + 1 / 2 ^ 20) ≤ 2.0001 * E ^ 2 + sr / F / 2 ^ 17 := by
  have hOp : 0 < O := by linarith
  have hEp : 0 < E := by linarith
  have hl : 0 < F * (1 / E) * O * (1 - 1 / 2 ^ 20) := by
    have : (0:ℝ) < 1 - 1 / 2 ^ 20 := by norm_num
    positivity
  have hS : sr / 2 / g ≤ sr / 2 / (F * (1 / E) * O * (1 - 1 / 2 ^ 20)) := by gcongr
  have hA : 0 ≤ 4 * (F * E * O * (1 + 1 / 2 ^ 20) / sr) + 9 / 2 ^ 22 := by positivity
  refine (mul_le_mul_of_nonneg_right (mul_le_mul_of_nonneg_left hS hA) (by norm_num)).trans ?_
  have e : (4 * (F * E * O * (1 + 1 / 2 ^ 20) / sr) + 9 / 2 ^ 22) * (sr / 2 / (F * (1 / E) * O * (1 - 1 / 2 ^ 20))) * (1 + 1 / 2 ^ 20) =
      2 * ((1 + 1 / 2 ^ 20) * (1 + 1 / 2 ^ 20) / (1 - 1 / 2 ^ 20)) * E ^ 2 +
        9 / 2 ^ 23 * (1 + 1 / 2 ^ 20) / (1 - 1 / 2 ^ 20) * (E / O) * (sr / F) := by
    have : (1 - 1 / 2 ^ 20 : ℝ) ≠ 0 := by norm_num
    field_simp
    ring
  rw [e]
  have hEO : E / O ≤ 4 := by rw [div_le_iff₀ hOp]; linarith
  have hsF : 0 < sr / F := by positivity
  have h1 : 2 * ((1 + 1 / 2 ^ 20) * (1 + 1 / 2 ^ 20) / (1 - 1 / 2 ^ 20)) * E ^ 2 ≤ 2.0001 * E ^ 2 :=
    mul_le_mul_of_nonneg_right (by norm_num) (by positivity)
  have h2 : 9 / 2 ^ 23 * (1 + 1 / 2 ^ 20) / (1 - 1 / 2 ^ 20) * (E / O) ≤ 1 / 2 ^ 17 := by
    have : 9 / 2 ^ 23 * (1 + 1 / 2 ^ 20) / (1 - 1 / 2 ^ 20) * (E / O) ≤ 9 / 2 ^ 23 * (1 + 1 / 2 ^ 20) / (1 - 1 / 2 ^ 20) * 4 :=
      mul_le_mul_of_nonneg_left hEO (by norm_num)
    refine this.trans ?_
    norm_num
  have h3 := mul_le_mul_of_nonneg_right h2 hsF.le
  have h4 : 1 / 2 ^ 17 * (sr / F) = sr / F / 2 ^ 17 := by ring
  linarith

/-- One voice. -/
theorem voiceTickF {sr F d : F32} (hsr : sr.In 1760 (2 ^ 80)) (hF : F.In 1 (sr.val / 4)) (hd : d.In (-12) 12) {v : Voice F32} (h : VInv sr v)
    (hsc : v.saw.scaleFactor = sr * lit 0.5) :
    LeftF sr F d (voiceTick F d v).1 ∧ (LeftF sr F d v → Upto (voiceTick F d v).2 (loud sr F d)) := by
  have hv : (LFTri.tick v.vibrato).2.In (-1) 1 := LFTri.shape_in h.vibPhase
  unfold voiceTick
  generalize LFTri.tick v.vibrato = t at hv
  dsimp only
  obtain ⟨v0, v1, v2⟩ := vibrato_ratio hv hd
  have hO := PowSpec.pow_two _ (twelfth_in h.detune)
  generalize (Libm.pow (lit 2) (t.2 * d / lit 12) : F32) = V at *
  have hdef : ∀ saw : SawDPW.Osc F32, LeftF sr F d { v with vibrato := t.1, saw := saw } ↔
      |((SawDPW.fparabola saw.phase).val : ℝ) - saw.prevParabolic.val| ≤
        4 * (F.val * 2 ^ (|(d.val : ℝ)| / 12) * (Libm.pow (lit 2) (v.detuneOffset / lit 12) : F32).val * (1 + 1 / 2 ^ 20) / sr.val) + 9 / 2 ^ 22 :=
    fun _ => Iff.rfl
  have hdef2 : LeftF sr F d v ↔ |((SawDPW.fparabola v.saw.phase).val : ℝ) - v.saw.prevParabolic.val| ≤
        4 * (F.val * 2 ^ (|(d.val : ℝ)| / 12) * (Libm.pow (lit 2) (v.detuneOffset / lit 12) : F32).val * (1 + 1 / 2 ^ 20) / sr.val) + 9 / 2 ^ 22 :=
    Iff.rfl
  rw [hdef, hdef2]
  generalize (Libm.pow (lit 2) (v.detuneOffset / lit 12) : F32) = O at *
  obtain ⟨f0, f1, f2⟩ := voice_freq hsr hF v0 hO
  generalize F * V * O = f at *
  have hs0 : 0 < sr.val := by linarith [hsr.2.1]
  have hs0r : (0:ℝ) < sr.val := by exact_mod_cast hs0
  have F1 : (1:ℝ) ≤ F.val := by exact_mod_cast hF.2.1
  have F2 : (F.val : ℝ) ≤ sr.val / 4 := by have := (Rat.cast_le (K := ℝ)).2 hF.2.2; push_cast at this; exact this
  have O1 : (1:ℝ) / 2 ≤ O.val := by have := (Rat.cast_le (K := ℝ)).2 hO.2.1; push_cast at this; exact this
  have O2 : (O.val : ℝ) ≤ 2 := by exact_mod_cast hO.2.2
  have V1 : (1:ℝ) / 2 ≤ V.val := by have := (Rat.cast_le (K := ℝ)).2 v0.2.1; push_cast at this; exact this
  have hE1 : (1:ℝ) ≤ 2 ^ (|(d.val : ℝ)| / 12) := Real.one_le_rpow (by norm_num) (by positivity)
  have hE2 : (2:ℝ) ^ (|(d.val : ℝ)| / 12) ≤ 2 := by
    have hb : |d.val| ≤ 12 := abs_le.2 ⟨hd.2.1, hd.2.2⟩
    have hb' : (|(d.val : ℝ)|) ≤ 12 := by exact_mod_cast hb
    have := Real.rpow_le_rpow_of_exponent_le (show (1:ℝ) ≤ 2 by norm_num) (show |(d.val : ℝ)| / 12 ≤ 1 by linarith)
    rwa [Real.rpow_one] at this
  have hE6 : (2:ℝ) ^ (|(d.val : ℝ)| / 6) = (2 ^ (|(d.val : ℝ)| / 12)) ^ 2 := by
    rw [← Real.rpow_natCast, ← Real.rpow_mul (by norm_num)]; congr 1; push_cast; ring
  unfold loud
  rw [hE6]
  generalize (2:ℝ) ^ (|(d.val : ℝ)| / 12) = E at *
  obtain ⟨a, b, c⟩ := SawDPW.ftick_left v.saw f (by rw [h.sawRate]; exact hsr.1) (by rw [h.sawRate]; exact hs0)
    (by rw [h.sawRate]; exact f0.mono (by norm_num) le_rfl) h.phase
  refine ⟨?_, fun hl => ?_⟩
  · refine c.trans ?_
    rw [h.sawRate]
    have : (f.val : ℝ) ≤ F.val * E * O.val * (1 + 1 / 2 ^ 20) := by
      refine f1.trans ?_
      have h1 : (F.val : ℝ) * V.val * O.val ≤ F.val * (E * (1 + 1 / 2 ^ 21)) * O.val := by gcongr
      have h2 := mul_le_mul_of_nonneg_right h1 (show (0:ℝ) ≤ 1 + 1 / 2 ^ 22 by norm_num)
      refine h2.trans ?_
      have e : (F.val : ℝ) * (E * (1 + 1 / 2 ^ 21)) * O.val * (1 + 1 / 2 ^ 22) = F.val * E * O.val * ((1 + 1 / 2 ^ 21) * (1 + 1 / 2 ^ 22)) := by ring
      rw [e]
      have : (0:ℝ) ≤ F.val * E * O.val := by positivity
      exact mul_le_mul_of_nonneg_left (by norm_num) this
    gcongr
  · have g1 : (1:ℝ) / 4 ≤ f.val := by have := (Rat.cast_le (K := ℝ)).2 f0.2.1; push_cast at this; exact this
    have hD0 : (0:ℝ) ≤ 4 * (F.val * E * O.val * (1 + 1 / 2 ^ 20) / sr.val) := by positivity
    have hD1 : 4 * ((F.val : ℝ) * E * O.val * (1 + 1 / 2 ^ 20) / sr.val) ≤ 5 := by
      have h1 : (F.val : ℝ) * E * O.val * (1 + 1 / 2 ^ 20) ≤ sr.val / 4 * 2 * 2 * (1 + 1 / 2 ^ 20) := by gcongr
      have h2 : (F.val : ℝ) * E * O.val * (1 + 1 / 2 ^ 20) / sr.val ≤ 5 / 4 := by
        rw [div_le_iff₀ hs0r]; norm_num at *; linarith
      linarith
    have t1 : (2:ℝ) ^ (-21:ℤ) ≤ 9 / 2 ^ 22 := by norm_num
    have h3 := SawDPW.ftick_out v.saw f (by rw [h.sawRate]; exact hsr.mono (by norm_num) le_rfl) (by rw [h.sawRate]; exact hsc) f0.1
      (le_trans (by norm_num) g1) (by rw [h.sawRate]; exact f0.2.2) h.phase h.prev (by linarith) (by norm_num at *; linarith) hl
    refine h3.mono ?_
    rw [h.sawRate]
    refine voice_arith hs0r (by linarith) hE1 hE2 O1 ?_
    refine le_trans ?_ f2
    have h1 : (F.val : ℝ) * (1 / E * (1 - 1 / 2 ^ 21)) * O.val ≤ F.val * V.val * O.val := by gcongr
    have h2 := mul_le_mul_of_nonneg_right h1 (show (0:ℝ) ≤ 1 - 1 / 2 ^ 22 by norm_num)
    refine le_trans ?_ h2
    have e : (F.val : ℝ) * (1 / E * (1 - 1 / 2 ^ 21)) * O.val * (1 - 1 / 2 ^ 22) = F.val * (1 / E) * O.val * ((1 - 1 / 2 ^ 21) * (1 - 1 / 2 ^ 22)) := by ring
    rw [e]
    have : (0:ℝ) ≤ F.val * (1 / E) * O.val := by positivity
    exact mul_le_mul_of_nonneg_left (by norm_num) this

theorem loud_range {sr F d : F32} (hsr : sr.In 1760 (2 ^ 80)) (hF : F.In 1 (sr.val / 4)) (hd : d.In (-12) 12) :
    1 ≤ loud sr F d ∧ loud sr F d ≤ 2 ^ (81:ℤ) := by
  have hs0 : (1760:ℝ) ≤ sr.val := by exact_mod_cast hsr.2.1
  have s2 : (sr.val : ℝ) ≤ 2 ^ (80:ℤ) := by
    have : (sr.val : ℝ) ≤ ((2 ^ 80 : ℚ) : ℝ) := by exact_mod_cast hsr.2.2
    refine this.trans (le_of_eq ?_); push_cast; norm_num
  have F1 : (1:ℝ) ≤ F.val := by exact_mod_cast hF.2.1
  have hb : |d.val| ≤ 12 := abs_le.2 ⟨hd.2.1, hd.2.2⟩
  have hb' : (|(d.val : ℝ)|) ≤ 12 := by exact_mod_cast hb
  have hE1 : (1:ℝ) ≤ 2 ^ (|(d.val : ℝ)| / 6) := Real.one_le_rpow (by norm_num) (by positivity)
  have hE2 : (2:ℝ) ^ (|(d.val : ℝ)| / 6) ≤ 4 := by
    have := Real.rpow_le_rpow_of_exponent_le (show (1:ℝ) ≤ 2 by norm_num) (show |(d.val : ℝ)| / 6 ≤ 2 by linarith)
    norm_num at this
    exact this
  have hq : 0 ≤ (sr.val : ℝ) / F.val := by positivity
  have hq2 : (sr.val : ℝ) / F.val ≤ 2 ^ (80:ℤ) := (div_le_self (by linarith) F1).trans s2
  unfold loud
  generalize (2:ℝ) ^ (|(d.val : ℝ)| / 6) = E at *
  generalize (sr.val : ℝ) / F.val = q at *
  constructor
  · have : 0 ≤ q / 2 ^ 17 := by positivity
    linarith
  · have : q / 2 ^ 17 ≤ q := div_le_self hq (by norm_num)
    norm_num at *
    linarith

/-- The sum over the voices. -/
theorem mixF {sr F d x : F32} (hsr : sr.In 1760 (2 ^ 80)) (hF : F.In 1 (sr.val / 4)) (hd : d.In (-12) 12) (hx : x.In 0 1) :
    ∀ (vs : List (Voice F32)) (acc : ℕ × Stereo F32), acc.1 + vs.length ≤ 7 → (∀ v ∈ vs, VInv sr v ∧ v.saw.scaleFactor = sr * lit 0.5) →
      let r := forEach (mixStep F d x) acc vs
      (∀ v ∈ r.2, LeftF sr F d v) ∧
      ((∀ v ∈ vs, LeftF sr F d v) → Upto acc.2.left (acc.1 * loud sr F d * (1 + 1 / 2 ^ 23) ^ acc.1) →
        Upto acc.2.right (acc.1 * loud sr F d * (1 + 1 / 2 ^ 23) ^ acc.1) →
        Upto r.1.2.left ((acc.1 + vs.length : ℕ) * loud sr F d * (1 + 1 / 2 ^ 23) ^ (acc.1 + vs.length)) ∧
          Upto r.1.2.right ((acc.1 + vs.length : ℕ) * loud sr F d * (1 + 1 / 2 ^ 23) ^ (acc.1 + vs.length))) := by
  obtain ⟨w1, w2⟩ := loud_range hsr hF hd
  intro vs
  induction vs with
  | nil =>
    intro acc _ _
    exact ⟨fun v hv => absurd hv (by simp [forEach]), fun _ a b => ⟨a, b⟩⟩
  | cons v vs ih =>
    intro acc hl hv
    simp only [List.length_cons] at hl
    obtain ⟨hv0, hv1⟩ := hv v List.mem_cons_self
    obtain ⟨h2, h3⟩ := voiceTickF hsr hF hd hv0 hv1
    obtain ⟨r1, r2⟩ := ih (mixStep F d x acc v).1 (by show acc.1 + 1 + vs.length ≤ 7; omega) (fun w hw => hv w (List.mem_cons_of_mem _ hw))
    refine ⟨?_, fun hL a1 a2 => ?_⟩
    · intro w hw
      simp only [forEach, List.mem_cons] at hw
      rcases hw with rfl | hw
      · exact h2
      · exact r1 w hw
    · have hb := h3 (hL v List.mem_cons_self)
      have hang := pan_angle_float (panOf_num (i := acc.1) hx)
      have one : ∀ m g : F32, g.In (-1) 1 → Upto m (acc.1 * loud sr F d * (1 + 1 / 2 ^ 23) ^ acc.1) →
          Upto (m + (voiceTick F d v).2 * g) ((acc.1 + 1 : ℕ) * loud sr F d * (1 + 1 / 2 ^ 23) ^ (acc.1 + 1)) := by
        intro m g hg hm
        have hp : Upto ((voiceTick F d v).2 * g) (loud sr F d) := by
          have := (mul_unit_in hg hb.1).2
          refine ⟨this.1, le_trans ?_ hb.2⟩
          have h5 := abs_le.2 ⟨this.2.1, this.2.2⟩
          exact_mod_cast h5
        have hk : (1:ℝ) ≤ (1 + 1 / 2 ^ 23) ^ acc.1 := one_le_pow₀ (by norm_num)
        have hk7 : ((1:ℝ) + 1 / 2 ^ 23) ^ acc.1 ≤ 2 := by
          calc ((1:ℝ) + 1 / 2 ^ 23) ^ acc.1 ≤ (1 + 1 / 2 ^ 23) ^ 7 := pow_le_pow_right₀ (by norm_num) (by omega)
            _ ≤ 2 := by norm_num
        have ha7 : (acc.1 : ℝ) ≤ 7 := by exact_mod_cast (by omega : acc.1 ≤ 7)
        have ha0 : (0:ℝ) ≤ acc.1 := Nat.cast_nonneg _
        have hm0 : 0 ≤ acc.1 * loud sr F d * (1 + 1 / 2 ^ 23) ^ acc.1 := by positivity
        refine (Upto.add hm hp ?_ ?_).mono ?_
        · have : (2:ℝ) ^ (-100:ℤ) ≤ 1 := by norm_num
          generalize (2:ℝ) ^ (-100:ℤ) = A at *
          linarith
        · have h6 : acc.1 * loud sr F d * (1 + 1 / 2 ^ 23) ^ acc.1 ≤ 7 * 2 ^ (81:ℤ) * 2 := by gcongr
          have h7 : 7 * (2:ℝ) ^ (81:ℤ) * 2 + 2 ^ (81:ℤ) ≤ 2 ^ (126:ℤ) := by norm_num
          exact (add_le_add h6 w2).trans h7
        · rw [pow_succ _ acc.1, ← mul_assoc]
          refine mul_le_mul_of_nonneg_right ?_ (by norm_num)
          push_cast
          have h8 : loud sr F d ≤ loud sr F d * (1 + 1 / 2 ^ 23) ^ acc.1 := le_mul_of_one_le_right (by linarith) hk
          linarith
      have e : acc.1 + (v :: vs).length = acc.1 + 1 + vs.length := by simp only [List.length_cons]; omega
      rw [e]
      exact r2 (fun w hw => hL w (List.mem_cons_of_mem _ hw)) (one _ _ (LibmSpec.cos_range _ hang.1) a1) (one _ _ (LibmSpec.sin_range _ hang.1) a2)

theorem norm_upto : Upto (lit 1 / Libm.sqrt (Arith.ofNat NUM_VOICES) : F32) (1 / Real.sqrt 7 * (1 + 1 / 2 ^ 21)) := by
  have h7 : (Arith.ofNat NUM_VOICES : F32).In 4 16 := by decide +kernel
  have v7 : (Arith.ofNat NUM_VOICES : F32).val = 7 := by decide +kernel
  have hs := PowSpec.sqrt_in _ h7
  have ha := PowAcc.sqrt_acc _ h7
  rw [v7] at ha
  push_cast at ha
  have p7 : 0 < Real.sqrt 7 := Real.sqrt_pos.2 (by norm_num)
  have l7 : 2 ≤ Real.sqrt 7 := Real.le_sqrt_of_sq_le (by norm_num)
  have u7 : Real.sqrt 7 ≤ 4 := (Real.sqrt_le_left (by norm_num)).2 (by norm_num)
  have h1 := lit_one (f := binary32)
  have r1 := rel_val h1.1 (by rw [h1.val_eq]; norm_num)
  rw [h1.val_eq] at r1
  have r2 : Rel (Libm.sqrt (Arith.ofNat NUM_VOICES) : F32) (Real.sqrt 7) (1 / 2 ^ 23) :=
    ⟨hs.1, p7.ne', by rw [abs_of_pos p7]; refine ha.trans (le_of_eq ?_); norm_num⟩
  have hq : (1:ℝ) / 4 ≤ 1 / Real.sqrt 7 := by gcongr
  have hq2 : 1 / Real.sqrt 7 ≤ 1 := by rw [div_le_one p7]; linarith
  have h := (rel_div r1 r2 le_rfl (by norm_num) (by norm_num) (by norm_num)
    (by rw [abs_of_pos (by positivity)]; push_cast; refine le_trans ?_ hq; norm_num)
    (by rw [abs_of_pos (by positivity)]; push_cast; refine hq2.trans ?_; norm_num)).mono (e' := 1 / 2 ^ 21) (by norm_num)
  push_cast at h
  refine ⟨h.1, ?_⟩
  have h3 := abs_sub_abs_le_abs_sub ((lit 1 / Libm.sqrt (Arith.ofNat NUM_VOICES) : F32).val : ℝ) (1 / Real.sqrt 7)
  have h4 := h.2.2
  rw [abs_of_pos (by positivity : 0 < 1 / Real.sqrt 7)] at h3 h4
  linarith

theorem tickF {sr : F32} (hsr : sr.In 1760 (2 ^ 80)) {s : Synth F32} (h : Inv sr s) (hsc : ∀ v ∈ s.voices, v.saw.scaleFactor = sr * lit 0.5) :
    (∀ v ∈ (tick s).1.voices, LeftF sr s.frequency s.vibrDepth v) ∧
    ((∀ v ∈ s.voices, LeftF sr s.frequency s.vibrDepth v) →
      |((tick s).2.left.val : ℝ)| ≤ 1.00001 * Real.sqrt 7 * loud sr s.frequency s.vibrDepth * (EnvelopeADSR.tick s.envelope).2.val + 2 ^ (-149:ℤ) ∧
      |((tick s).2.right.val : ℝ)| ≤ 1.00001 * Real.sqrt 7 * loud sr s.frequency s.vibrDepth * (EnvelopeADSR.tick s.envelope).2.val + 2 ^ (-149:ℤ)) := by
  have he := (EnvelopeADSR.inv_tick h.env).2
  obtain ⟨w1, w2⟩ := loud_range hsr h.freq h.depth
  obtain ⟨m1, m2⟩ := mixF hsr h.freq h.depth h.spread s.voices (0, Stereo.zero) (by simp [h.count]) (fun v hv => ⟨h.voices v hv, hsc v hv⟩)
  refine ⟨m1, fun hl => ?_⟩
  have z : Upto (lit 0 : F32) (((0:ℕ) : ℝ) * loud sr s.frequency s.vibrDepth * (1 + 1 / 2 ^ 23) ^ 0) := by
    refine ⟨lit_zero.1, ?_⟩
    rw [(lit_zero (f := binary32)).val_eq]; simp
  obtain ⟨b1, b2⟩ := m2 hl z z
  rw [h.count] at b1 b2
  have hn := norm_upto
  have e0 : (0:ℝ) ≤ (EnvelopeADSR.tick s.envelope).2.val := by exact_mod_cast he.2.1
  have e1 : ((EnvelopeADSR.tick s.envelope).2.val : ℝ) ≤ 1 := by exact_mod_cast he.2.2
  have p7 : 0 < Real.sqrt 7 := Real.sqrt_pos.2 (by norm_num)
  have s7 : Real.sqrt 7 * Real.sqrt 7 = 7 := Real.mul_self_sqrt (by norm_num)
  have l7 : 2 ≤ Real.sqrt 7 := Real.le_sqrt_of_sq_le (by norm_num)
  have u7 : Real.sqrt 7 ≤ 4 := (Real.sqrt_le_left (by norm_num)).2 (by norm_num)
  have i7 : 1 / Real.sqrt 7 = Real.sqrt 7 / 7 := by field_simp; linarith
  rw [i7] at hn
  show |((_ * (lit 1 / Libm.sqrt (Arith.ofNat NUM_VOICES)) * (EnvelopeADSR.tick s.envelope).2 : F32).val : ℝ)| ≤ _ ∧
    |((_ * (lit 1 / Libm.sqrt (Arith.ofNat NUM_VOICES)) * (EnvelopeADSR.tick s.envelope).2 : F32).val : ℝ)| ≤ _
  generalize (lit 1 / Libm.sqrt (Arith.ofNat NUM_VOICES) : F32) = nrm at *
  generalize (EnvelopeADSR.tick s.envelope).2 = env at *
  generalize loud sr s.frequency s.vibrDepth = W at *
  generalize Real.sqrt 7 = R at *
  have out : ∀ y : F32, Upto y (((0 + 7 : ℕ) : ℝ) * W * (1 + 1 / 2 ^ 23) ^ (0 + 7)) →
      |((y * nrm * env : F32).val : ℝ)| ≤ 1.00001 * R * W * env.val + 2 ^ (-149:ℤ) := by
    intro y hy
    have hy' : Upto y (7.00001 * W) := by
      refine hy.mono ?_
      push_cast
      have : (7:ℝ) * W * (1 + 1 / 2 ^ 23) ^ 7 = W * (7 * (1 + 1 / 2 ^ 23) ^ 7) := by ring
      rw [show (0 + 7 : ℕ) = 7 from rfl] at *
      norm_num at *
      linarith
    have hWR : 7.00001 * W * (R / 7 * (1 + 1 / 2 ^ 21)) ≤ 1.000005 * (R * W) := by
      have hRW : 0 < R * W := by positivity
      have : 7.00001 * W * (R / 7 * (1 + 1 / 2 ^ 21)) = R * W * (7.00001 / 7 * (1 + 1 / 2 ^ 21)) := by ring
      rw [this]
      norm_num
      linarith
    have hWR0 : 1 ≤ 7.00001 * W * (R / 7 * (1 + 1 / 2 ^ 21)) := by
      have hRW : 2 ≤ R * W := by nlinarith
      have : 7.00001 * W * (R / 7 * (1 + 1 / 2 ^ 21)) = R * W * (7.00001 / 7 * (1 + 1 / 2 ^ 21)) := by ring
      rw [this]
      norm_num
      linarith
    have hbig : 1.000005 * (R * W) * (1 + 1 / 2 ^ 23) ≤ 2 ^ (84:ℤ) := by
      have : R * W ≤ 4 * 2 ^ (81:ℤ) := by gcongr
      norm_num at *
      linarith
    have hm := (Upto.mul hy' hn
      (by
        have : (2:ℝ) ^ (-100:ℤ) ≤ 1 := by norm_num
        exact this.trans hWR0)
      (by
        refine hWR.trans ?_
        have h84 : (2:ℝ) ^ (84:ℤ) ≤ 2 ^ (126:ℤ) := zpow_le_zpow_right₀ (by norm_num) (by norm_num)
        refine le_trans ?_ h84
        refine le_trans ?_ hbig
        have : 0 ≤ 1.000005 * (R * W) := by positivity
        nlinarith)).mono (N := 1.000006 * (R * W)) (by
          refine (mul_le_mul_of_nonneg_right hWR (by norm_num)).trans ?_
          have : 0 < R * W := by positivity
          norm_num at *
          linarith)
    obtain ⟨zs, e⟩ := mul_def hm.1 he.1
    rw [e]
    have := upto_of_rat (q := (y * nrm : F32).val * env.val) (zs := zs) (M := 1.000006 * (R * W) * env.val) (by
      push_cast
      rw [abs_mul, abs_of_nonneg e0]
      exact mul_le_mul_of_nonneg_right hm.2 e0) (by
        have h84 : (2:ℝ) ^ (85:ℤ) ≤ 2 ^ (126:ℤ) := zpow_le_zpow_right₀ (by norm_num) (by norm_num)
        refine le_trans ?_ h84
        have h85 : 1.000006 * (R * W) ≤ 2 ^ (85:ℤ) := by
          have : 0 < R * W := by positivity
          norm_num at *
          linarith
        refine le_trans ?_ h85
        exact mul_le_of_le_one_right (by positivity) e1)
    refine this.2.trans (add_le_add ?_ (zpow_le_zpow_right₀ (by norm_num) (by norm_num)))
    have hE : 0 ≤ R * W * env.val := by positivity
    norm_num at *
    linarith
  exact ⟨out _ b1, out _ b2⟩

/-- **C43** in single precision, rounding included: after any history of calls and any random phases, from the second sample on, both
channels are at most `√7 (2.0002 · vibrato ratio squared + (sr/F) 2^-16)` times the envelope, where `F` is the pitch (the second term is
below 0.002 at 440 Hz and 48 kHz). -/
theorem C43_bounded_float (sr : F32) (hsr : sr.In 1760 (2 ^ 80)) (rand : ℕ → F32) (hr : ∀ k, (rand k).In 0 1) (ops : List (Op F32))
    (ho : ∀ op ∈ ops, op.Legal sr) (n : ℕ) :
    let s := run (init sr rand) ops
    let bound := Real.sqrt 7 * (2.0002 * 2 ^ (|(s.vibrDepth.val : ℝ)| / 6) + sr.val / s.frequency.val / 2 ^ 16) *
      (tickOut EnvelopeADSR.tick (n + 1) s.envelope).val + 2 ^ (-149:ℤ)
    |((tickOut tick (n + 1) s).left.val : ℝ)| ≤ bound ∧ |((tickOut tick (n + 1) s).right.val : ℝ)| ≤ bound := by
  intro s bound
  have h100 := hsr.mono (b' := 2 ^ 100) le_rfl (by norm_num)
  have h := inv_run h100 (inv_init h100 hr) ops ho
  have hscale : s.voices.map (fun v => v.saw.scaleFactor) = List.replicate 7 (sr * lit 0.5) := (run_scale (init sr rand) ops).trans rfl
  have key : ∀ n, Inv sr (tickState tick n s) ∧ (tickState tick n s).frequency = s.frequency ∧ (tickState tick n s).vibrDepth = s.vibrDepth ∧
      (tickState tick n s).envelope = tickState EnvelopeADSR.tick n s.envelope ∧
      (tickState tick n s).voices.map (fun v => v.saw.scaleFactor) = List.replicate 7 (sr * lit 0.5) := by
    intro n
    induction n with
    | zero => exact ⟨h, rfl, rfl, rfl, hscale⟩
    | succ n ih =>
      rw [tickState_succ, tickState_succ]
      obtain ⟨a, b, c, d, e⟩ := ih
      exact ⟨(inv_tick h100 a).1, b, c, by rw [← d]; rfl, (step_scale _ .tick).trans e⟩
  have hsc : ∀ n, ∀ v ∈ (tickState tick n s).voices, v.saw.scaleFactor = sr * lit 0.5 := by
    intro n v hv
    have : v.saw.scaleFactor ∈ (tickState tick n s).voices.map fun v => v.saw.scaleFactor := List.mem_map_of_mem hv
    rw [(key n).2.2.2.2] at this
    exact List.eq_of_mem_replicate this
  obtain ⟨a, b, c, d, -⟩ := key (n + 1)
  obtain ⟨a', b', c', d', -⟩ := key n
  have hl := (tickF hsr a' (hsc n)).1
  rw [← tickState_succ, b', c'] at hl
  have out := (tickF hsr a (hsc (n + 1))).2 (by rw [b, c]; exact hl)
  have he := (EnvelopeADSR.inv_tick a.env).2
  rw [b, c, d] at out
  rw [d] at he
  have hb : 1.00001 * Real.sqrt 7 * loud sr s.frequency s.vibrDepth * (EnvelopeADSR.tick (tickState EnvelopeADSR.tick (n + 1) s.envelope)).2.val +
      2 ^ (-149:ℤ) ≤ bound := by
    refine add_le_add_left ?_ _
    have e0 : (0:ℝ) ≤ (EnvelopeADSR.tick (tickState EnvelopeADSR.tick (n + 1) s.envelope)).2.val := by exact_mod_cast he.2.1
    refine mul_le_mul_of_nonneg_right ?_ e0
    have hq : 0 ≤ (sr.val : ℝ) / s.frequency.val := by
      have h1 : (1:ℝ) ≤ s.frequency.val := by exact_mod_cast h.freq.2.1
      have h2 : (1760:ℝ) ≤ sr.val := by exact_mod_cast hsr.2.1
      positivity
    have hE : (0:ℝ) < 2 ^ (|(s.vibrDepth.val : ℝ)| / 6) := by positivity
    rw [mul_comm 1.00001, mul_assoc]
    refine mul_le_mul_of_nonneg_left ?_ (Real.sqrt_nonneg _)
    unfold loud
    generalize (2:ℝ) ^ (|(s.vibrDepth.val : ℝ)| / 6) = E at *
    generalize (sr.val : ℝ) / s.frequency.val = q at *
    norm_num
    linarith
  exact ⟨out.1.trans hb, out.2.trans hb⟩

/-- A concrete case: with correctly rounded library functions, a note two octaves below a quarter of the rate, pitch bent to the largest
vibrato and eight different random phases, gated and ticked, meets every hypothesis. -/
example (n : ℕ) :=
  letI := idealLibm
  haveI := idealLibm_spec
  haveI := idealLibm_pow
  haveI := idealLibm_powAcc
  C43_bounded_float (lit 48000) (by decide +kernel) (fun k => lit 1 / Arith.ofNat (k % 8 + 1))
    (fun k => by
      have : k % 8 < 8 := Nat.mod_lt _ (by norm_num)
      generalize k % 8 = j at this
      interval_cases j <;> decide +kernel)
    [.setFrequency (lit 3000), .setVibratoDepth (lit (-12)), .setDetune (lit 24), .setSpread (lit 9), .gate (lit 1), .tick]
    (by
      have hsr : (lit 48000 : F32).In 48000 48000 := lit_rep (by decide +kernel)
      simp only [List.forall_mem_cons, List.not_mem_nil, false_imp_iff, implies_true, and_true, Op.Legal, hsr.val_eq]
      refine ⟨?_, ?_, ?_, ?_⟩ <;> decide +kernel) n

end Verif.SuperSaw
