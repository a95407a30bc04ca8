import Verif.Props.Oscillators

/-!
# Property C24, continued: SawDPW while its frequency moves
-/

namespace Verif.SawDPW
open FP

/-- The parabola of the phase, `(2φ-1)²`. -/
noncomputable def parabola (p : ℝ) : ℝ := (p * 2 - 1) * (p * 2 - 1)

/-- One phase step of size `i` moves the parabola by at most `4 i`, wrapping included. -/
theorem parabola_step {p i : ℝ} (h0 : 0 ≤ p) (h1 : p ≤ 1) (hi0 : 0 ≤ i) (hi1 : i ≤ 1) :
    |parabola (if p + i ≥ 1 then p + i - 1 else p + i) - parabola p| ≤ 4 * i := by
  unfold parabola
  split_ifs with h
  · have e1 : ((p + i - 1) * 2 - 1) * ((p + i - 1) * 2 - 1) - (p * 2 - 1) * (p * 2 - 1) = 4 * ((i - 1) * (2 * p + i - 2)) := by ring
    rw [e1, abs_mul, abs_mul]
    have h2 : |2 * p + i - 2| ≤ i := by rw [abs_le]; constructor <;> linarith
    have h3 : |i - 1| ≤ 1 := by rw [abs_le]; constructor <;> linarith
    rw [show |(4:ℝ)| = 4 by norm_num]
    have := mul_le_mul h3 h2 (abs_nonneg _) zero_le_one
    linarith
  · push Not at h
    have e1 : ((p + i) * 2 - 1) * ((p + i) * 2 - 1) - (p * 2 - 1) * (p * 2 - 1) = 4 * (i * (2 * p + i - 1)) := by ring
    rw [e1, abs_mul, abs_mul, abs_of_nonneg hi0, show |(4:ℝ)| = 4 by norm_num]
    have h2 : |2 * p + i - 1| ≤ 1 := by rw [abs_le]; constructor <;> linarith
    nlinarith

/-- What a tick leaves behind, in exact arithmetic: the phase is in range and one step away from the stored parabola. -/
theorem tick_left (s : Osc ℝ) (f : ℝ) (hf : 0 < f) (hsr : f ≤ s.sampleRate) (h0 : 0 ≤ s.phase) (h1 : s.phase ≤ 1) :
    let t := (tick (setFrequency f s)).1
    0 ≤ t.phase ∧ t.phase ≤ 1 ∧ |parabola t.phase - t.prevParabolic| ≤ 4 * (f / s.sampleRate) := by
  have hs : 0 < s.sampleRate := by linarith
  have hi0 : 0 ≤ f / s.sampleRate := div_nonneg hf.le hs.le
  have hi1 : f / s.sampleRate ≤ 1 := (div_le_one hs).2 hsr
  have key := parabola_step h0 h1 hi0 hi1
  simp only [tick, setFrequency, real_arith]
  push_cast
  refine ⟨?_, ?_, key⟩ <;> split_ifs with h <;> linarith

/-- The output of a tick at frequency `g`. -/
theorem tick_out (s : Osc ℝ) (g : ℝ) :
    (tick (setFrequency g s)).2 = (parabola s.phase - s.prevParabolic) * (s.scaleFactor / g) := by
  simp only [tick, setFrequency, real_arith, parabola]; push_cast; rfl

/-- **C24**, partial (exact arithmetic): a sample played at frequency `g` after one played at `f` has magnitude at most `2 f/g`, for
every phase and every history before it. At a constant frequency this is the bound 2 of `C24_bounded_by_two_partial`; the documented
bound is 1. -/
theorem C24_moving_frequency_partial (s : Osc ℝ) (f g : ℝ) (hf : 0 < f) (hsr : f ≤ s.sampleRate) (hg : 0 < g)
    (hsc : s.scaleFactor = s.sampleRate / 2) (h0 : 0 ≤ s.phase) (h1 : s.phase ≤ 1) :
    |(tick (setFrequency g (tick (setFrequency f s)).1)).2| ≤ 2 * f / g := by
  have hs : 0 < s.sampleRate := by linarith
  obtain ⟨-, -, h⟩ := tick_left s f hf hsr h0 h1
  have hsc' : (tick (setFrequency f s)).1.scaleFactor = s.sampleRate / 2 := hsc
  rw [tick_out, hsc', abs_mul, abs_of_pos (div_pos (by linarith) hg : 0 < s.sampleRate / 2 / g)]
  calc _ ≤ 4 * (f / s.sampleRate) * (s.sampleRate / 2 / g) :=
        mul_le_mul_of_nonneg_right h (div_pos (by linarith) hg).le
    _ = 2 * f / g := by field_simp; ring

/-- The bound is met: the oscillator below has been started in the ordinary way. -/
example : |(tick (setFrequency 100 (tick (setFrequency 4800 (init 48000 0 : Osc ℝ))).1)).2| ≤ 2 * 4800 / 100 := by
  refine C24_moving_frequency_partial _ _ _ (by norm_num) ?_ (by norm_num) ?_ ?_ ?_ <;>
    simp only [init, real_arith] <;> push_cast <;> (try split_ifs) <;> norm_num

/-- **C24, negative**: a pitch change makes a click. At 48 kHz five samples at 4800 Hz followed by one at 100 Hz put out a sample
above 80, eighty times the documented range (single precision). -/
theorem C24_frequency_change_spike :
    ((lit 80 : F32) <. (tick (setFrequency (lit 100) (tickState tick 5 (setFrequency (lit 4800) (init (lit 48000) (lit 0)))))).2) = true := by
  decide +kernel

end Verif.SawDPW
