import Verif.Props.Stilson
import Verif.Lemmas.RealArith
import Verif.Float.Order
import Mathlib.Analysis.SpecialFunctions.Trigonometric.Bounds
import Mathlib.Analysis.Real.Pi.Bounds

/-!
# C45: ladder setters
-/

set_option linter.unusedSectionVars false

namespace Verif
open FP

/-! ## Order independence -/

section
variable {α β : Type} [Arith α] [Arith β] [Libm β] [Conv α β] [Conv β α]

/-- **C45**, whatever the arithmetic does: the order in which cutoff and resonance are set does not matter for the Microtracker,
Improved, Oberheim and Runge-Kutta ladders. -/
theorem C45_order (c r : α) :
    (∀ s : Microtracker.Ladder α β, Microtracker.setCutoff c (Microtracker.setResonance r s) =
      Microtracker.setResonance r (Microtracker.setCutoff c s)) ∧
    (∀ s : Improved.Ladder α β, Improved.setCutoff c (Improved.setResonance r s) = Improved.setResonance r (Improved.setCutoff c s)) ∧
    (∀ s : Oberheim.Ladder α β, Oberheim.setCutoff c (Oberheim.setResonance r s) = Oberheim.setResonance r (Oberheim.setCutoff c s)) ∧
    (∀ s : RKSimulation.Ladder α β, RKSimulation.setCutoff c (RKSimulation.setResonance r s) =
      RKSimulation.setResonance r (RKSimulation.setCutoff c s)) :=
  ⟨fun _ => rfl, fun _ => rfl, fun _ => rfl, fun _ => rfl⟩

/-- `init` of MusicDSP and Stilson reads the uninitialised member `resonance`; its content has no influence on the result. -/
theorem C45_init_ignores_garbage (sr r1 r2 : α) (s : MusicDSP.Ladder α β) :
    MusicDSP.init sr { s with resonance := r1 } = MusicDSP.init sr { s with resonance := r2 } := rfl
end

theorem clamp01_idem (r : F32) : clamp01 (clamp01 r) = clamp01 r := by
  unfold clamp01
  by_cases h0 : (r <. lit 0) = true
  · simp only [h0, if_true]
    decide +kernel
  · by_cases h1 : (r >. lit 1) = true
    · simp only [h0, h1, if_true]
      decide +kernel
    · simp only [h0, h1, if_false, Bool.false_eq_true]

/-- **C45**: in single/double precision MusicDSP and Stilson, whose `setCutoff` recomputes the resonance, do not depend on the order
either (for Stilson: both orders have undefined behaviour, or neither has and the results agree, provided setting the resonance
first is itself defined). -/
theorem C45_order_recomputed [Libm F64] (c r : F32) :
    (∀ s : MusicDSP.Ladder F32 F64, MusicDSP.setCutoff c (MusicDSP.setResonance r s) =
      MusicDSP.setResonance r (MusicDSP.setCutoff c s)) ∧
    (∀ s s1 : Stilson.Ladder F32 F64, Stilson.setResonance r s = some s1 →
      Stilson.setCutoff c s1 = (Stilson.setCutoff c s).bind (Stilson.setResonance r)) := by
  refine ⟨fun s => ?_, fun s s1 h => ?_⟩
  · simp only [MusicDSP.setCutoff, MusicDSP.setResonance, clamp01_idem]
  · have shape : ∀ {r : F32} {s s' : Stilson.Ladder F32 F64}, Stilson.setResonance r s = some s' →
        s' = { s with resonance := clamp01 r, Q := s'.Q } := by
      intro r s s' h
      simp only [Stilson.setResonance, Option.bind_eq_some_iff, Option.map_eq_some_iff] at h
      obtain ⟨_, _, _, _, _, _, rfl⟩ := h
      rfl
    have idem : ∀ s : Stilson.Ladder F32 F64, Stilson.setResonance (clamp01 r) s = Stilson.setResonance r s := by
      intro s; simp only [Stilson.setResonance, clamp01_idem]
    rw [shape h]
    simp only [Stilson.setCutoff]
    rw [idem]
    generalize (-lit 0.69346 : F64) * (Conv.conv c / Conv.conv s.sampleRate * (Conv.conv c / Conv.conv s.sampleRate) *
      (Conv.conv c / Conv.conv s.sampleRate)) - lit 0.59515 * (Conv.conv c / Conv.conv s.sampleRate *
      (Conv.conv c / Conv.conv s.sampleRate)) + lit 3.2937 * (Conv.conv c / Conv.conv s.sampleRate) - lit 1.0072 = P
    cases hX : Stilson.setResonance s.resonance { s with cutoff := c, p := P } with
    | none =>
      rw [Option.bind_none, Stilson.C44_table_in_range]
      rw [Stilson.C44_table_in_range] at hX
      exact hX
    | some t => rw [Option.bind_some, shape hX]; rfl

/-! ## Krajeski: the order matters -/

/-- A Krajeski ladder as left by `init(48000)` in ideal arithmetic (the remaining members are irrelevant here). -/
noncomputable def krajeski48 : Krajeski.Ladder ℝ ℝ :=
  Krajeski.init 48000 ⟨0, 0, 0, 0, 0, 0, 0, 0, 0, 0, 0, 0, 0, 0, 0, 0, 0⟩

/-- **C45, negation for Krajeski**: `setCutoff` does not refresh the resonance coefficient, so after `init(48000)` setting resonance 1
then cutoff 12 kHz leaves another coefficient than setting the cutoff first. The cutoff, resonance and `g` members agree, so a
caller cannot see the difference except in the sound. -/
theorem C45_krajeski_order_matters :
    let a := Krajeski.setCutoff 12000 (Krajeski.setResonance 1 krajeski48)
    let b := Krajeski.setResonance 1 (Krajeski.setCutoff 12000 krajeski48)
    a.cutoff = b.cutoff ∧ a.resonance = b.resonance ∧ a.g = b.g ∧ a.gRes ≠ b.gRes := by
  refine ⟨rfl, rfl, rfl, ?_⟩
  simp only [Krajeski.setCutoff, Krajeski.setResonance, krajeski48, Krajeski.init, Krajeski.reset, clamp01, Conv.conv, PI, id, real_arith]
  norm_num

/-- **C45, Krajeski**: if the resonance is always set after the cutoff the coefficients only depend on the last values. -/
theorem C45_krajeski_partial {α β : Type} [Arith α] [Arith β] [Libm β] [Conv α β] [Conv β α] (c r : α)
    (s : Krajeski.Ladder α β) (c' r' : α) :
    Krajeski.setResonance r (Krajeski.setCutoff c (Krajeski.setResonance r' (Krajeski.setCutoff c' s))) =
      Krajeski.setResonance r (Krajeski.setCutoff c s) := rfl

/-! ## No division by zero -/

/-- **C45, MusicDSP** in ideal arithmetic: for every cutoff – negative and beyond Nyquist included – and every previous state the
divisor `t2 - 6 t1` is at least 3, and the resonance coefficient is between 0 and `(t2 + 6 t1) / 3`-ish: it has the sign of
`t2 + 6 t1`, which is positive too. -/
theorem C45_musicdsp_divisor (c : ℝ) (s : MusicDSP.Ladder ℝ ℝ) :
    let s' := MusicDSP.setCutoff c s
    3 ≤ s'.t2 - 6 * s'.t1 ∧ 3 ≤ s'.t2 + 6 * s'.t1 ∧ 0 ≤ s'.resonanceCoeff ∧ s'.resonanceCoeff ≤ (s'.t2 + 6 * s'.t1) / (s'.t2 - 6 * s'.t1) := by
  have hcl : ∀ r : ℝ, 0 ≤ clamp01 r ∧ clamp01 r ≤ 1 := by
    intro r
    simp only [clamp01, real_arith]; push_cast
    split_ifs with h1 h2
    · norm_num
    · norm_num
    · exact ⟨by linarith, by linarith⟩
  simp only [MusicDSP.setCutoff, MusicDSP.setResonance, Conv.conv, id, real_arith]
  push_cast
  set t := (1 - 2 * c / s.sampleRate * (1.8 - 0.8 * (2 * c / s.sampleRate))) * (1.386249 : ℝ) with ht
  have h1 : 3 ≤ 12 + t * t - 6 * t := by nlinarith [sq_nonneg (t - 3)]
  have h2 : 3 ≤ 12 + t * t + 6 * t := by nlinarith [sq_nonneg (t + 3)]
  obtain ⟨k0, k1⟩ := hcl s.resonance
  refine ⟨h1, h2, ?_, ?_⟩
  · exact div_nonneg (mul_nonneg k0 (by linarith)) (by linarith)
  · exact div_le_div_of_nonneg_right (by nlinarith) (by linarith)

/-- **C45, Oberheim** in ideal arithmetic: for every cutoff from 0 up to 0.4999 of the sample rate and every resonance, `1 + g` and
`1 + K·gamma` are at least 1, so nothing is divided by zero; the one-pole gain is in [0, 1) and the loop gain in (0, 1]. -/
theorem C45_oberheim_divisor (c : ℝ) (s : Oberheim.Ladder ℝ ℝ) (hsr : 0 < s.sampleRate) (h0 : 0 ≤ c)
    (h1 : c ≤ 0.4999 * s.sampleRate) (hK : 0 ≤ s.K) :
    let s' := Oberheim.setCutoff c s
    (let g := Real.tan (PI * c / s.sampleRate); 0 ≤ g ∧ s'.f0.alpha = g / (1 + g)) ∧ 0 ≤ s'.f0.alpha ∧ s'.f0.alpha < 1 ∧
      0 ≤ s'.gamma ∧ 0 < s'.alpha0 ∧ s'.alpha0 ≤ 1 := by
  have hpi := Real.pi_gt_d6
  have hd : 0 ≤ c / s.sampleRate := div_nonneg h0 hsr.le
  have hd1 : c / s.sampleRate ≤ 0.4999 := by rw [div_le_iff₀ hsr]; exact h1
  have hPI : (PI : ℝ) = 3.14159265358979323846 := by simp only [PI, real_arith]; norm_num
  have harg : 0 ≤ (PI : ℝ) * c / s.sampleRate := by rw [mul_div_assoc, hPI]; positivity
  have harg1 : (PI : ℝ) * c / s.sampleRate < Real.pi / 2 := by rw [mul_div_assoc, hPI]; nlinarith
  have hg : 0 ≤ Real.tan (PI * c / s.sampleRate) := Real.tan_nonneg_of_nonneg_of_le_pi_div_two harg harg1.le
  set g := Real.tan ((PI : ℝ) * c / s.sampleRate) with hgd
  have hgeq : 2 / (1 / s.sampleRate) * Real.tan (2 * (PI : ℝ) * c * (1 / s.sampleRate) / 2) * (1 / s.sampleRate) / 2 = g := by
    have e : 2 * (PI : ℝ) * c * (1 / s.sampleRate) / 2 = PI * c / s.sampleRate := by field_simp
    rw [e, ← hgd]; field_simp
  have hG0 : 0 ≤ g / (1 + g) := by positivity
  have hG1 : g / (1 + g) < 1 := by rw [div_lt_one (by linarith)]; linarith
  have hgam : 0 ≤ g / (1 + g) * (g / (1 + g)) * (g / (1 + g)) * (g / (1 + g)) := by positivity
  have hden : 1 ≤ 1 + s.K * (g / (1 + g) * (g / (1 + g)) * (g / (1 + g)) * (g / (1 + g))) := by nlinarith
  simp only [Oberheim.setCutoff, Conv.conv, id, real_arith]
  push_cast
  rw [hgeq]
  exact ⟨⟨hg, rfl⟩, hG0, hG1, hgam, by positivity, by rw [div_le_one (by linarith)]; exact hden⟩

/-- Such a state exists: the one left by `init(48000)`; the cutoff 1 kHz satisfies the hypotheses. -/
example : ∃ s : Oberheim.Ladder ℝ ℝ, 0 < s.sampleRate ∧ (1000:ℝ) ≤ 0.4999 * s.sampleRate ∧ 0 ≤ s.K ∧ 0 < s.K := by
  refine ⟨Oberheim.setResonance 1 ⟨48000, 0, 0, Oberheim.OnePole.init, Oberheim.OnePole.init, Oberheim.OnePole.init,
    Oberheim.OnePole.init, 0, 0, 0, 0, 0, 0, 0, 0, 0⟩, ?_, ?_, ?_, ?_⟩ <;>
  · simp only [Oberheim.setResonance, clamp01, Conv.conv, id, real_arith]; norm_num

/-- **C45, Improved** in ideal arithmetic: the cutoff is clamped into `[0, 0.99·sr/π]`, so `x` stays in `[0, 0.99]`, the divisor `1 + x` is
at least 1 and the integrator gain `g` is never negative. -/
theorem C45_improved_divisor (c : ℝ) (s : Improved.Ladder ℝ ℝ) (hsr : 0 < s.sampleRate) :
    let s' := Improved.setCutoff c s
    0 ≤ s'.cutoff ∧ 0 ≤ s'.x ∧ s'.x ≤ 0.99 ∧ 0 ≤ s'.g ∧ (0 ≤ c → c ≤ s.sampleRate / 3.2 → s'.cutoff = c) := by
  have hPI : (PI : ℝ) = 3.14159265358979323846 := by simp only [PI, real_arith]; norm_num
  have hPI0 : (0:ℝ) < PI := by rw [hPI]; norm_num
  simp only [Improved.setCutoff, Improved.VT, Conv.conv, id, real_arith]
  push_cast
  have hmax : 0 ≤ s.sampleRate / PI * 0.99 := by positivity
  obtain ⟨a, b⟩ := clamp_real_in hmax c
  set k := clamp c 0 (s.sampleRate / PI * 0.99)
  have hx0 : 0 ≤ PI * k / s.sampleRate := by positivity
  have hx1 : PI * k / s.sampleRate ≤ 0.99 := by
    rw [div_le_iff₀ hsr]
    calc PI * k ≤ PI * (s.sampleRate / PI * 0.99) := by exact mul_le_mul_of_nonneg_left b hPI0.le
      _ = 0.99 * s.sampleRate := by field_simp
  refine ⟨a, hx0, hx1, ?_, ?_⟩
  · have : 0 ≤ 1 - PI * k / s.sampleRate := by linarith
    positivity
  · intro h0 h1
    show clamp c 0 (s.sampleRate / PI * 0.99) = c
    rw [clamp_real hmax]
    have : c ≤ s.sampleRate / PI * 0.99 := by
      refine h1.trans ?_
      rw [div_mul_eq_mul_div, div_le_div_iff₀ (by norm_num) hPI0, hPI]
      nlinarith
    rw [min_eq_right this, max_eq_right h0]

end Verif
