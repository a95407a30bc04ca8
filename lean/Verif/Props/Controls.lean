import Verif.Model.Examples
import Verif.Lemmas.RealArith
import Verif.Float.IntConv
import Mathlib.Analysis.SpecialFunctions.Pow.Real

/-!
# C74: what the mouse does in the example programs
-/

set_option linter.unusedSectionVars false

namespace Verif

/-- Where the pointer is on a screen edge of `w` pixels: 0 at the left (top) edge, 1 at the far one, and never outside. -/
noncomputable def place (x w : ℤ) : ℝ := max 0 (min 1 ((x : ℝ) / w))

theorem place_nonneg (x w : ℤ) : 0 ≤ place x w := le_max_left _ _
theorem place_le_one (x w : ℤ) : place x w ≤ 1 := max_le zero_le_one (min_le_left _ _)

theorem place_mono {x y w : ℤ} (hw : 0 < w) (h : x ≤ y) : place x w ≤ place y w := by
  have hw' : (0 : ℝ) < w := by exact_mod_cast hw
  have h' : (x : ℝ) ≤ y := by exact_mod_cast h
  exact max_le_max le_rfl (min_le_min le_rfl (div_le_div_of_nonneg_right h' hw'.le))

theorem place_inside {x w : ℤ} (hw : 0 < w) (h0 : 0 ≤ x) (h1 : x ≤ w) : place x w = x / w := by
  have hw' : (0 : ℝ) < w := by exact_mod_cast hw
  have h0' : (0 : ℝ) ≤ x := by exact_mod_cast h0
  have h1' : (x : ℝ) ≤ w := by exact_mod_cast h1
  rw [place, min_eq_right ((div_le_one hw').mpr h1'), max_eq_right (div_nonneg h0' hw'.le)]

theorem unit01_real (x : ℝ) : unit01 x = max 0 (min 1 x) := by
  simp only [unit01, Arith.stdMax, Arith.stdMin, real_arith]
  push_cast
  by_cases h : x < 1
  · rw [if_pos h, min_eq_right h.le]
    by_cases h' : 0 < x
    · rw [if_pos h', max_eq_right h'.le]
    · rw [if_neg h', max_eq_left (not_lt.mp h')]
  · rw [if_neg h, min_eq_left (not_lt.mp h), if_pos (by norm_num), max_eq_right (by norm_num)]

theorem unit01_place (x w : ℤ) : (unit01 (Arith.ofInt x / Arith.ofInt w : ℝ)) = place x w := by
  rw [unit01_real]; simp only [real_arith]; rfl

theorem unit01_flip {w : ℤ} (hw : 0 < w) (x : ℤ) : unit01 (lit 1 - Arith.ofInt x / Arith.ofInt w : ℝ) = 1 - place x w := by
  have hw' : (0 : ℝ) < w := by exact_mod_cast hw
  rw [unit01_real]; simp only [real_arith, place]; push_cast
  rcases le_total ((x : ℝ) / w) 0 with h | h
  · rw [min_eq_right (by linarith : (x : ℝ) / w ≤ 1), max_eq_left h, min_eq_left (by linarith : (1 : ℝ) ≤ 1 - x / w)]; norm_num
  · rcases le_total ((x : ℝ) / w) 1 with h' | h'
    · rw [min_eq_right h', max_eq_right h, min_eq_right (by linarith : (1 : ℝ) - x / w ≤ 1), max_eq_right (by linarith)]
    · rw [min_eq_left h', max_eq_right (by norm_num : (0 : ℝ) ≤ 1), min_eq_right (by linarith : (1 : ℝ) - x / w ≤ 1), max_eq_left (by linarith)]; norm_num

/-- `exp (log a + t (log b - log a))` is the geometric interpolation. -/
theorem exp_log_lerp {a b : ℝ} (ha : 0 < a) (hb : 0 < b) (t : ℝ) :
    Real.exp (Real.log a + t * (Real.log b - Real.log a)) = a * (b / a) ^ t := by
  rw [Real.exp_add, Real.exp_log ha, Real.rpow_def_of_pos (div_pos hb ha), Real.log_div hb.ne' ha.ne', mul_comm t]

/-! ## The speed of the file player -/

namespace JackPlayback

/-- **C74** (exact arithmetic): the control the file player derives from the mouse. With the pointer `d` to the right of the middle (-1 left
edge, 1 right edge) playback stops within 2 % of the middle and otherwise runs at 1/4 · 16^((|d| - 0.02) / 0.98), backwards on the left. -/
theorem C74_speed (x w : ℤ) :
    (|2 * place x w - 1| ≤ 1 / 50 → rateOf x w = (0 : ℝ)) ∧
    (1 / 50 < 2 * place x w - 1 → rateOf x w = 1 / 4 * (16 : ℝ) ^ ((2 * place x w - 1 - 1 / 50) / (49 / 50))) ∧
    (1 / 50 < 1 - 2 * place x w → rateOf x w = -(1 / 4 * (16 : ℝ) ^ ((1 - 2 * place x w - 1 / 50) / (49 / 50)))) := by
  have h0 := place_nonneg x w
  have h1 := place_le_one x w
  have e : (rateOf x w : ℝ) = if 1 / 50 < |2 * place x w - 1| then
      (if 0 < 2 * place x w - 1 then 1 / 4 * (16 : ℝ) ^ ((|2 * place x w - 1| - 1 / 50) / (49 / 50))
       else -(1 / 4 * (16 : ℝ) ^ ((|2 * place x w - 1| - 1 / 50) / (49 / 50)))) else 0 := by
    have hc : (place x w - ((0.5 : ℚ) : ℝ)) * ((2 : ℚ) : ℝ) = 2 * place x w - 1 := by push_cast; ring
    simp only [rateOf, unit01_place, MIN_RATE, MAX_RATE, CENTER_DEADZONE]
    simp only [real_arith, hc]
    have hd : ((0.02 : ℚ) : ℝ) = 1 / 50 := by norm_num
    simp only [hd]
    by_cases h : 1 / 50 < |2 * place x w - 1|
    · rw [if_pos h, if_pos h]
      have hb : |2 * place x w - 1| ≤ 1 := abs_le.mpr ⟨by linarith, by linarith⟩
      have hu : unit01 ((|2 * place x w - 1| - 1 / 50) / (((1 : ℚ) : ℝ) - 1 / 50)) = (|2 * place x w - 1| - 1 / 50) / (49 / 50) := by
        rw [unit01_real]
        have e : (((1 : ℚ) : ℝ) - 1 / 50) = 49 / 50 := by norm_num
        rw [e, min_eq_right (by rw [div_le_one (by norm_num)]; linarith), max_eq_right (div_nonneg (by linarith) (by norm_num))]
      rw [hu]
      have hx : Real.exp (Real.log ((0.25 : ℚ) : ℝ) + (|2 * place x w - 1| - 1 / 50) / (49 / 50) * (Real.log ((4 : ℚ) : ℝ) - Real.log ((0.25 : ℚ) : ℝ)))
          = 1 / 4 * (16 : ℝ) ^ ((|2 * place x w - 1| - 1 / 50) / (49 / 50)) := by
        rw [exp_log_lerp (by norm_num) (by norm_num)]; norm_num
      rw [hx]
      by_cases h' : 0 < 2 * place x w - 1
      · rw [if_pos h', if_pos (by push_cast; exact h')]
      · rw [if_neg h', if_neg (by push_cast; exact h')]
    · rw [if_neg h, if_neg h]; push_cast; rfl
  refine ⟨fun h => ?_, fun h => ?_, fun h => ?_⟩
  · rw [e, if_neg (not_lt.mpr h)]
  · have hp : 0 < 2 * place x w - 1 := by linarith
    rw [e, abs_of_pos hp, if_pos h, if_pos hp]
  · have hn : 2 * place x w - 1 < 0 := by linarith
    rw [e, abs_of_neg hn, if_pos (by linarith), if_neg (by linarith)]
    congr 4; ring

theorem pow16_mono {s t : ℝ} (h : s ≤ t) : (16 : ℝ) ^ s ≤ 16 ^ t := Real.rpow_le_rpow_of_exponent_le (by norm_num) h

/-- **C74** (exact arithmetic): the speed is 0 or between a quarter and four times normal in one of the two directions. -/
theorem C74_speed_range (x w : ℤ) :
    rateOf x w = (0 : ℝ) ∨ (1 / 4 < (rateOf x w : ℝ) ∧ rateOf x w ≤ (4 : ℝ)) ∨ ((-4 : ℝ) ≤ rateOf x w ∧ (rateOf x w : ℝ) < -(1 / 4)) := by
  have h0 := place_nonneg x w
  have h1 := place_le_one x w
  obtain ⟨a, b, c⟩ := C74_speed x w
  have hr : ∀ d : ℝ, 1 / 50 < d → d ≤ 1 → 1 / 4 < 1 / 4 * (16 : ℝ) ^ ((d - 1 / 50) / (49 / 50)) ∧ 1 / 4 * (16 : ℝ) ^ ((d - 1 / 50) / (49 / 50)) ≤ 4 := by
    intro d hd hd1
    have p : 1 < (16 : ℝ) ^ ((d - 1 / 50) / (49 / 50)) := Real.one_lt_rpow (by norm_num) (div_pos (by linarith) (by norm_num))
    have q : (16 : ℝ) ^ ((d - 1 / 50) / (49 / 50)) ≤ 16 ^ (1 : ℝ) := pow16_mono (by rw [div_le_one (by norm_num)]; linarith)
    rw [Real.rpow_one] at q
    exact ⟨by linarith, by linarith⟩
  rcases le_or_gt |2 * place x w - 1| (1 / 50) with h | h
  · exact .inl (a h)
  · rcases lt_abs.mp h with h | h
    · obtain ⟨p, q⟩ := hr _ h (by linarith)
      rw [b h]; exact .inr (.inl ⟨p, q⟩)
    · have h : 1 / 50 < 1 - 2 * place x w := by linarith
      obtain ⟨p, q⟩ := hr _ h (by linarith)
      rw [c h]; exact .inr (.inr ⟨by linarith, by linarith⟩)

/-- **C74** (exact arithmetic): moving the mouse to the right never lowers the speed. -/
theorem C74_speed_mono (x y w : ℤ) (hw : 0 < w) (h : x ≤ y) : (rateOf x w : ℝ) ≤ rateOf y w := by
  have hm := place_mono hw h
  obtain ⟨ax, bx, cx⟩ := C74_speed x w
  obtain ⟨ay, b', cy⟩ := C74_speed y w
  have pos : ∀ t : ℝ, 0 < 1 / 4 * (16 : ℝ) ^ t := fun t => by positivity
  rcases le_or_gt |2 * place x w - 1| (1 / 50) with hx | hx <;> rcases le_or_gt |2 * place y w - 1| (1 / 50) with hy | hy
  · rw [ax hx, ay hy]
  · rcases lt_abs.mp hy with h' | h'
    · rw [ax hx, b' h']; exact (pos _).le
    · have := (abs_le.mp hx).1; linarith
  · rcases lt_abs.mp hx with h' | h'
    · have := (abs_le.mp hy).2; linarith
    · rw [ay hy, cx (by linarith)]; linarith [pos ((1 - 2 * place x w - 1 / 50) / (49 / 50))]
  · rcases lt_abs.mp hx with h' | h' <;> rcases lt_abs.mp hy with h'' | h''
    · rw [bx h', b' h'']
      have := pow16_mono (div_le_div_of_nonneg_right (by linarith : 2 * place x w - 1 - 1 / 50 ≤ 2 * place y w - 1 - 1 / 50) (by norm_num : (0 : ℝ) ≤ 49 / 50))
      linarith
    · linarith
    · rw [cx (by linarith), b' h'']
      linarith [pos ((1 - 2 * place x w - 1 / 50) / (49 / 50)), pos ((2 * place y w - 1 - 1 / 50) / (49 / 50))]
    · rw [cx (by linarith), cy (by linarith)]
      have := pow16_mono (div_le_div_of_nonneg_right (by linarith : 1 - 2 * place y w - 1 / 50 ≤ 1 - 2 * place x w - 1 / 50) (by norm_num : (0 : ℝ) ≤ 49 / 50))
      linarith

/-- **C74** (exact arithmetic): at the left edge the file runs backwards at four times its speed. -/
theorem C74_left_edge (w : ℤ) (hw : 0 < w) : rateOf 0 w = (-4 : ℝ) := by
  have h : place 0 w = 0 := by rw [place_inside hw le_rfl hw.le]; simp
  have := (C74_speed 0 w).2.2 (by rw [h]; norm_num)
  rw [this, h]
  norm_num

/-- **C74, negative** (exact arithmetic): the announced range `-4x..0..4x` is not reached on the right. The pixels are numbered from 0 to
`w - 1`, and on every one of them the speed is below 4. -/
theorem C74_right_edge (x w : ℤ) (hw : 0 < w) (hx : x < w) : (rateOf x w : ℝ) < 4 := by
  have hw' : (0 : ℝ) < w := by exact_mod_cast hw
  have hp : place x w < 1 := by
    refine max_lt one_pos ?_
    refine (min_le_right _ _).trans_lt ?_
    rw [div_lt_one hw']; exact_mod_cast hx
  obtain ⟨a, b, c⟩ := C74_speed x w
  rcases le_or_gt |2 * place x w - 1| (1 / 50) with h | h
  · rw [a h]; norm_num
  · rcases lt_abs.mp h with h | h
    · rw [b h]
      have : (16 : ℝ) ^ ((2 * place x w - 1 - 1 / 50) / (49 / 50)) < 16 ^ (1 : ℝ) :=
        Real.rpow_lt_rpow_of_exponent_lt (by norm_num) (by rw [div_lt_one (by norm_num)]; linarith)
      rw [Real.rpow_one] at this
      linarith
    · rw [c (by linarith)]
      have : (0 : ℝ) < 16 ^ ((1 - 2 * place x w - 1 / 50) / (49 / 50)) := by positivity
      linarith

/-- Concrete case: on a screen of 2000 pixels normal speed is at pixel 1510, and the middle stops the playback. -/
example : rateOf 1510 2000 = (1 : ℝ) ∧ rateOf 1000 2000 = (0 : ℝ) := by
  have h : place 1510 2000 = 151 / 200 := by rw [place_inside (by norm_num) (by norm_num) (by norm_num)]; norm_num
  have h' : place 1000 2000 = 1 / 2 := by rw [place_inside (by norm_num) (by norm_num) (by norm_num)]; norm_num
  refine ⟨?_, (C74_speed _ _).1 (by rw [h']; norm_num)⟩
  rw [(C74_speed 1510 2000).2.1 (by rw [h]; norm_num), h]
  have e : ((2 : ℝ) * (151 / 200) - 1 - 1 / 50) / (49 / 50) = 1 / 2 := by norm_num
  rw [e, ← Real.sqrt_eq_rpow]
  have : Real.sqrt 16 = 4 := by rw [show (16 : ℝ) = 4 ^ 2 by norm_num]; exact Real.sqrt_sq (by norm_num)
  rw [this]; norm_num

end JackPlayback

/-! ## Cutoff, resonance and drive -/

namespace MoogExample

/-- **C74** (exact arithmetic): the cutoff of moog_example.cpp and supersaw_example.cpp divides the range into equal musical intervals over
the width of the screen: lowest at the left edge, highest at the right edge. -/
theorem C74_cutoff (a b : ℝ) (ha : 0 < a) (hb : 0 < b) (x w : ℤ) : cutoffOf a b x w = a * (b / a) ^ place x w := by
  simp only [cutoffOf, unit01_place]
  simp only [real_arith]
  exact exp_log_lerp ha hb _

/-- **C74** (exact arithmetic): the cutoff stays in its range and rises with the pointer. -/
theorem C74_cutoff_range (a b : ℝ) (ha : 0 < a) (hab : a ≤ b) (x w : ℤ) : a ≤ cutoffOf a b x w ∧ cutoffOf a b x w ≤ b := by
  have hb : 0 < b := ha.trans_le hab
  have h1 : 1 ≤ b / a := (one_le_div ha).mpr hab
  rw [C74_cutoff a b ha hb]
  refine ⟨le_mul_of_one_le_right ha.le (Real.one_le_rpow h1 (place_nonneg _ _)), ?_⟩
  have := Real.rpow_le_rpow_of_exponent_le h1 (place_le_one x w)
  rw [Real.rpow_one] at this
  calc a * (b / a) ^ place x w ≤ a * (b / a) := mul_le_mul_of_nonneg_left this ha.le
    _ = b := by field_simp

theorem C74_cutoff_mono (a b : ℝ) (ha : 0 < a) (hab : a ≤ b) (x y w : ℤ) (hw : 0 < w) (h : x ≤ y) :
    cutoffOf a b x w ≤ cutoffOf a b y w := by
  have hb : 0 < b := ha.trans_le hab
  rw [C74_cutoff a b ha hb, C74_cutoff a b ha hb]
  exact mul_le_mul_of_nonneg_left (Real.rpow_le_rpow_of_exponent_le ((one_le_div ha).mpr hab) (place_mono hw h)) ha.le

/-- **C74** (exact arithmetic): the resonance is 0.99 at the top, 0 at the bottom and linear in between. -/
theorem C74_resonance (y h : ℤ) (hh : 0 < h) : resonanceOf y h = (0.99 : ℝ) * (1 - place y h) := by
  simp only [resonanceOf, unit01_flip hh]
  simp only [real_arith]; push_cast; ring

/-- Concrete case: the middle of the screen is the geometric mean. -/
example : cutoffOf 100 6400 960 1920 = (800 : ℝ) ∧ resonanceOf 0 1080 = (0.99 : ℝ) := by
  have h : place 960 1920 = 1 / 2 := by rw [place_inside (by norm_num) (by norm_num) (by norm_num)]; norm_num
  have h' : place 0 1080 = 0 := by rw [place_inside (by norm_num) (by norm_num) (by norm_num)]; norm_num
  refine ⟨?_, by rw [C74_resonance _ _ (by norm_num), h']; norm_num⟩
  rw [C74_cutoff _ _ (by norm_num) (by norm_num), h, ← Real.sqrt_eq_rpow]
  have : Real.sqrt (6400 / 100) = 8 := by rw [show (6400 / 100 : ℝ) = 8 ^ 2 by norm_num]; exact Real.sqrt_sq (by norm_num)
  rw [this]; norm_num

end MoogExample

section float
open FP

theorem unit01_in (v : F32) : (unit01 v).In 0 1 := by
  have hz := lit_zero (f := binary32)
  have ho := lit_one (f := binary32)
  by_cases hn : v = .nan
  · subst hn; decide +kernel
  rcases not_nan_cases hn with rfl | rfl | hf
  · decide +kernel
  · decide +kernel
  · unfold unit01 Arith.stdMin
    split_ifs with h
    · rw [lt_fin hf ho.1, decide_eq_true_eq, ho.val_eq] at h
      unfold Arith.stdMax
      split_ifs with h'
      · rw [lt_fin hz.1 hf, decide_eq_true_eq, hz.val_eq] at h'
        exact ⟨hf, h'.le, h.le⟩
      · exact hz.mono le_rfl (by norm_num)
    · unfold Arith.stdMax
      split_ifs
      · exact ho.mono (by norm_num) le_rfl
      · exact hz.mono le_rfl (by norm_num)

/-- **C74** (single precision): for every pointer position and every screen size, zero and negative sizes included, the two loop points of
jack_xplay.cpp are numbers between 0 and 1. -/
theorem JackXPlay.C74_loop_points (x y w h : ℤ) (s : JackXPlay.State F32) :
    (JackXPlay.mouse x y w h s).startTarget.In 0 1 ∧ (JackXPlay.mouse x y w h s).endTarget.In 0 1 := ⟨unit01_in _, unit01_in _⟩

/-- **C74** (single precision): for every pointer position and every screen size the resonance is a number between 0 and the
single-precision 0.99. -/
theorem MoogExample.C74_resonance_float (y h : ℤ) : (MoogExample.resonanceOf y h : F32).In 0 (lit 0.99 : F32).val := by
  have h9 : (lit 0.99 - lit 0 : F32).In (lit 0.99 : F32).val (lit 0.99 : F32).val :=
    ⟨by decide +kernel, by decide +kernel, by decide +kernel⟩
  have hr : binary32.Rep (lit 0.99 : F32).val false := rep_val _
  have h0 : binary32.Rep 0 false := by decide +kernel
  unfold MoogExample.resonanceOf
  have hu := unit01_in (lit 1 - Arith.ofInt y / Arith.ofInt h)
  have hm : (unit01 (lit 1 - Arith.ofInt y / Arith.ofInt h) * (lit 0.99 - lit 0) : F32).In 0 (lit 0.99 : F32).val := by
    have e := h9.val_eq
    have p0 : 0 ≤ (lit 0.99 : F32).val := by decide +kernel
    refine mul_in hu.1 h9.1 h0 hr ?_ ?_ <;> rw [e]
    · exact mul_nonneg hu.2.1 p0
    · nlinarith [hu.2.2]
  exact add_in (lit_zero (f := binary32)) hm h0 hr (by norm_num) (by norm_num)

end float

namespace SuperSawExample

/-- **C74** (exact arithmetic): the gain of the drive runs from 0.01 at the bottom to 100 at the top in equal intervals. -/
theorem C74_drive (y h : ℤ) (hh : 0 < h) : driveFromNormalized (driveOf y h) = (1 / 100 : ℝ) * 10000 ^ (1 - place y h) := by
  simp only [driveFromNormalized, driveOf, unit01_flip hh, unit01_real]
  rw [min_eq_right (by linarith [place_nonneg y h]), max_eq_right (by linarith [place_le_one y h])]
  simp only [real_arith]; norm_num

/-- **C74** (exact arithmetic): whatever value reaches the conversion, the gain is between 0.01 and 100. -/
theorem C74_drive_range (d : ℝ) : (1 / 100 : ℝ) ≤ driveFromNormalized d ∧ driveFromNormalized d ≤ (100 : ℝ) := by
  have e : driveFromNormalized d = (1 / 100 : ℝ) * 10000 ^ (max 0 (min 1 d)) := by
    simp only [driveFromNormalized, unit01_real]
    simp only [real_arith]; norm_num
  have h0 : (0 : ℝ) ≤ max 0 (min 1 d) := le_max_left _ _
  have h1 : max 0 (min 1 d) ≤ (1 : ℝ) := max_le zero_le_one (min_le_left _ _)
  rw [e]
  have p : (1 : ℝ) ≤ 10000 ^ (max 0 (min 1 d)) := Real.one_le_rpow (by norm_num) h0
  have q := Real.rpow_le_rpow_of_exponent_le (by norm_num : (1 : ℝ) ≤ 10000) h1
  rw [Real.rpow_one] at q
  exact ⟨by linarith, by linarith⟩

end SuperSawExample
end Verif
