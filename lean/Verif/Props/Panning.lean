import Verif.Lemmas.RealArith
import Verif.Model.Utility
import Verif.Float.Order
import Mathlib.Analysis.Real.Pi.Bounds
import Mathlib.Analysis.SpecialFunctions.Trigonometric.Bounds

/-!
# C25, C26, C27: Pan2, Balance2, XFade2
-/

namespace Verif

/-- The angle the three panners use, in ideal arithmetic. -/
noncomputable def panAngle (pos : ℝ) : ℝ := (max (-1) (min 1 pos) + 1) * 0.78539816339

theorem panAngle_range (pos : ℝ) : 0 ≤ panAngle pos ∧ panAngle pos < Real.pi / 2 := by
  have h1 : -1 ≤ max (-1) (min 1 pos) := le_max_left _ _
  have h2 : max (-1) (min 1 pos) ≤ 1 := max_le (by norm_num) (min_le_left _ _)
  have h3 := Real.pi_gt_d20
  unfold panAngle
  constructor <;> nlinarith

theorem panAngle_cos_pos (pos : ℝ) : 0 < Real.cos (panAngle pos) :=
  Real.cos_pos_of_mem_Ioo ⟨by linarith [(panAngle_range pos).1, Real.pi_pos], (panAngle_range pos).2⟩

theorem panAngle_sin_nonneg (pos : ℝ) : 0 ≤ Real.sin (panAngle pos) :=
  Real.sin_nonneg_of_nonneg_of_le_pi (panAngle_range pos).1 (by linarith [(panAngle_range pos).2, Real.pi_pos])

theorem clamp_pan (pos : ℝ) : (clamp pos (-lit 1) (lit 1) + lit 1) * lit 0.78539816339 = panAngle pos := by
  rw [show (-lit 1 : ℝ) = -1 by simp [real_arith], show (lit 1 : ℝ) = 1 by simp [real_arith],
    clamp_real (by norm_num)]
  simp only [real_arith, panAngle]
  push_cast; rfl

/-- At the right end the cosine gain is not zero but below `1e-10` (the literal is slightly less than π/4). -/
theorem panAngle_one : 0 < Real.cos (panAngle 1) ∧ Real.cos (panAngle 1) < 1e-10 := by
  refine ⟨panAngle_cos_pos 1, ?_⟩
  have h : panAngle 1 = 2 * 0.78539816339 := by unfold panAngle; norm_num
  rw [h, show (2 * 0.78539816339 : ℝ) = Real.pi / 2 - (Real.pi / 2 - 2 * 0.78539816339) by ring, Real.cos_pi_div_two_sub]
  have h1 := Real.pi_gt_d20
  have h2 := Real.pi_lt_d20
  calc Real.sin (Real.pi / 2 - 2 * 0.78539816339) ≤ Real.pi / 2 - 2 * 0.78539816339 := Real.sin_le (by linarith)
    _ < 1e-10 := by norm_num at *; linarith

theorem panAngle_neg_one : panAngle (-1) = 0 := by unfold panAngle; norm_num

namespace Pan2

theorem process_real (x pan : ℝ) :
    process x pan = ⟨x * Real.cos (panAngle pan), x * Real.sin (panAngle pan)⟩ := by
  rw [← clamp_pan]; rfl

/-- **C25, ideal arithmetic.** Equal power at every position, out-of-range positions act like the nearest end, both gains
are non-negative, and the left end sends everything left. -/
theorem C25_equal_power (x pan : ℝ) :
    (process x pan).left ^ 2 + (process x pan).right ^ 2 = x ^ 2 ∧
      (1 ≤ pan → process x pan = process x 1) ∧ (pan ≤ -1 → process x pan = process x (-1)) ∧
      (0 ≤ x → 0 ≤ (process x pan).left ∧ 0 ≤ (process x pan).right) ∧
      process x (-1) = ⟨x, 0⟩ ∧ (0 ≤ x → |(process x 1).left| ≤ x * 1e-10) := by
  refine ⟨?_, ?_, ?_, ?_, ?_, ?_⟩
  · rw [process_real]
    have := Real.cos_sq_add_sin_sq (panAngle pan)
    simp only
    nlinarith
  · intro h
    have : panAngle pan = panAngle 1 := by simp [panAngle, min_eq_left h]
    rw [process_real, process_real, this]
  · intro h
    have : panAngle pan = panAngle (-1) := by
      unfold panAngle; rw [min_eq_right (by linarith), max_eq_left h]; norm_num
    rw [process_real, process_real, this]
  · intro hx
    rw [process_real]
    exact ⟨mul_nonneg hx (panAngle_cos_pos pan).le, mul_nonneg hx (panAngle_sin_nonneg pan)⟩
  · rw [process_real, panAngle_neg_one]; simp
  · intro hx
    rw [process_real]
    simp only
    rw [abs_of_nonneg (mul_nonneg hx (panAngle_cos_pos 1).le)]
    exact mul_le_mul_of_nonneg_left panAngle_one.2.le hx

/-- **C25, monotone.** Moving right never raises the left gain nor lowers the right gain. -/
theorem C25_monotone {x p q : ℝ} (hx : 0 ≤ x) (h : p ≤ q) :
    (process x q).left ≤ (process x p).left ∧ (process x p).right ≤ (process x q).right := by
  have ha : panAngle p ≤ panAngle q := by
    unfold panAngle
    have : max (-1 : ℝ) (min 1 p) ≤ max (-1) (min 1 q) := max_le_max le_rfl (min_le_min le_rfl h)
    nlinarith
  rw [process_real, process_real]
  refine ⟨mul_le_mul_of_nonneg_left ?_ hx, mul_le_mul_of_nonneg_left ?_ hx⟩
  · exact Real.cos_le_cos_of_nonneg_of_le_pi (panAngle_range p).1 (by linarith [(panAngle_range q).2, Real.pi_pos]) ha
  · exact Real.sin_le_sin_of_le_of_le_pi_div_two (by linarith [(panAngle_range p).1, Real.pi_pos])
      (panAngle_range q).2.le ha

/-- **C25, cached tick.** `tick` after `setPan(p)` is `process` at `p`, for every arithmetic (bit for bit in floating point,
NaN included), and nothing but the last `setPan` matters. -/
theorem C25_tick_eq_process {α : Type} [Arith α] [Libm α] (x pan : α) : tick (setPan pan) x = process x pan := rfl

end Pan2

/-- The single-precision angle of a non-NaN position lies in `[0, 1.58]`. -/
theorem pan_angle_float {pos : F32} (h : pos ≠ .nan) :
    ((clamp pos (-lit 1) (lit 1) + lit 1) * lit 0.78539816339 : F32).In 0 1.75 := by
  have h1 := FP.lit_one (f := binary32)
  have hc := FP.clamp_in h (FP.neg_in h1) h1 (by norm_num)
  have r2 : binary32.Rep 2 false := by decide +kernel
  have ha : (clamp pos (-lit 1) (lit 1) + lit 1 : F32).In 0 2 := FP.add_in hc h1 FP.rep_zero r2 (by norm_num) (by norm_num)
  have hl : (lit 0.78539816339 : F32).In 0.75 0.875 :=
    FP.lit_in (by decide +kernel) (by decide +kernel) (by norm_num) (by norm_num)
  refine FP.mul_in ha.1 hl.1 FP.rep_zero (by decide +kernel) ?_ ?_
  · have := ha.2; have := hl.2; nlinarith
  · have := ha.2; have := hl.2; nlinarith

/-- If `c` and `s` approximate a cosine and a sine within `ε ≤ 1` then `c² + s²` is within `5 ε` of 1. -/
theorem unit_of_acc {a c s ε : ℝ} (hc : |c - Real.cos a| ≤ ε) (hs : |s - Real.sin a| ≤ ε) (hε : ε ≤ 1 / 2) :
    |c ^ 2 + s ^ 2 - 1| ≤ 5 * ε := by
  have h1 := Real.cos_sq_add_sin_sq a
  have h2 := Real.cos_le_one a
  have h3 := Real.neg_one_le_cos a
  have h4 := Real.sin_le_one a
  have h5 := Real.neg_one_le_sin a
  have e0 : 0 ≤ ε := (abs_nonneg _).trans hc
  have e1 : c ^ 2 + s ^ 2 - 1 = (c - Real.cos a) ^ 2 + (s - Real.sin a) ^ 2 +
      2 * (c - Real.cos a) * Real.cos a + 2 * (s - Real.sin a) * Real.sin a := by
    rw [← h1]; ring
  have a1 : (c - Real.cos a) ^ 2 ≤ ε ^ 2 := by rw [← sq_abs]; exact pow_le_pow_left₀ (abs_nonneg _) hc 2
  have a2 : (s - Real.sin a) ^ 2 ≤ ε ^ 2 := by rw [← sq_abs]; exact pow_le_pow_left₀ (abs_nonneg _) hs 2
  have a3 : |2 * (c - Real.cos a) * Real.cos a| ≤ 2 * ε := by
    rw [abs_mul, abs_mul, abs_two]
    have : |Real.cos a| ≤ 1 := Real.abs_cos_le_one a
    nlinarith [abs_nonneg (c - Real.cos a), abs_nonneg (Real.cos a)]
  have a4 : |2 * (s - Real.sin a) * Real.sin a| ≤ 2 * ε := by
    rw [abs_mul, abs_mul, abs_two]
    have : |Real.sin a| ≤ 1 := Real.abs_sin_le_one a
    nlinarith [abs_nonneg (s - Real.sin a), abs_nonneg (Real.sin a)]
  rw [e1]
  have b3 := abs_le.mp a3
  have b4 := abs_le.mp a4
  rw [abs_le]
  constructor <;> nlinarith [sq_nonneg (c - Real.cos a), sq_nonneg (s - Real.sin a)]

/-- **C25, single precision.** For every non-NaN position (infinite included) both cached gains are finite, in `[-1, 1]`,
and their squares sum to 1 within `5 · 2^-23`. -/
theorem Pan2.C25_equal_power_float [Libm F32] [LibmSpec] {pan : F32} (h : pan ≠ .nan) :
    (setPan pan).cachedLeft.In (-1) 1 ∧ (setPan pan).cachedRight.In (-1) 1 ∧
      |((setPan pan).cachedLeft.val : ℝ) ^ 2 + ((setPan pan).cachedRight.val : ℝ) ^ 2 - 1| ≤ 5 * 2 ^ (-23 : ℤ) := by
  have ha := pan_angle_float h
  have hb : |FP.val ((clamp pan (-lit 1) (lit 1) + lit 1) * lit 0.78539816339 : F32)| ≤ 4 := by
    rw [abs_le]; have := ha.2; constructor <;> linarith
  exact ⟨LibmSpec.cos_range _ ha.1, LibmSpec.sin_range _ ha.1,
    unit_of_acc (LibmSpec.cos_acc _ ha.1 hb) (LibmSpec.sin_acc _ ha.1 hb) (by norm_num)⟩

/-- A NaN position is not clamped: both gains are the libm functions of NaN. -/
theorem Pan2.C25_nan_not_clamped [Libm F32] :
    Pan2.setPan (.nan : F32) = ⟨Libm.cos .nan, Libm.sin .nan⟩ := by
  have h : ((clamp (.nan : F32) (-lit 1) (lit 1) + lit 1) * lit 0.78539816339 : F32) = .nan := by decide +kernel
  show (⟨Libm.cos _, Libm.sin _⟩ : Pan F32) = _
  rw [h]

namespace Balance2

theorem setPosition_real (pos level : ℝ) :
    setPosition pos level = ⟨Real.cos (panAngle pos) * level, Real.sin (panAngle pos) * level⟩ := by
  rw [← clamp_pan]; rfl

theorem process_real (l r pos level : ℝ) :
    process l r pos level = ⟨l * Real.cos (panAngle pos) * level, r * Real.sin (panAngle pos) * level⟩ := by
  rw [← clamp_pan]; rfl

theorem setLevel_real (level : ℝ) (s : Bal ℝ) :
    setLevel level s = ⟨Real.cos (Real.arctan (s.cachedRightGain / (s.cachedLeftGain + 1e-10))) * level,
      Real.sin (Real.arctan (s.cachedRightGain / (s.cachedLeftGain + 1e-10))) * level⟩ := by
  simp only [setLevel, real_arith]; push_cast; rfl

/-- **C26, ideal arithmetic: equal power** after `setPosition` and after `setLevel` from any state, and for the direct
call. -/
theorem C26_equal_power (pos level : ℝ) (s : Bal ℝ) :
    (setPosition pos level).cachedLeftGain ^ 2 + (setPosition pos level).cachedRightGain ^ 2 = level ^ 2 ∧
      (setLevel level s).cachedLeftGain ^ 2 + (setLevel level s).cachedRightGain ^ 2 = level ^ 2 ∧
      (process 1 1 pos level).left ^ 2 + (process 1 1 pos level).right ^ 2 = level ^ 2 := by
  have key : ∀ a : ℝ, (Real.cos a * level) ^ 2 + (Real.sin a * level) ^ 2 = level ^ 2 := by
    intro a
    have := Real.cos_sq_add_sin_sq a
    nlinarith
  refine ⟨?_, ?_, ?_⟩
  · rw [setPosition_real]; exact key _
  · rw [setLevel_real]; exact key _
  · rw [process_real]; simp only [one_mul]; exact key _

/-- **C26, tick = process** in ideal arithmetic. -/
theorem C26_tick_eq_process (l r pos level : ℝ) :
    tick (setPosition pos level) l r = process l r pos level := by
  rw [setPosition_real, process_real]
  simp only [tick, real_arith]
  congr 1 <;> ring

/-- In floating point `tick` associates differently (`l * (c * level)` against `(l * c) * level`); for level 1 they agree
bit for bit on finite products. -/
theorem C26_tick_eq_process_unit_float [Libm F32] [LibmSpec] {pos : F32} (h : pos ≠ .nan) {l r : F32}
    (hl : l.isFin = true) (hr : r.isFin = true) :
    (tick (setPosition pos (lit 1)) l r).left.val = (process l r pos (lit 1)).left.val ∧
      (tick (setPosition pos (lit 1)) l r).right.val = (process l r pos (lit 1)).right.val := by
  have h1 := FP.lit_one (f := binary32)
  have ha := pan_angle_float h
  have hc := LibmSpec.cos_range _ ha.1
  have hs := LibmSpec.sin_range _ ha.1
  have key : ∀ x g : F32, x.isFin = true → g.In (-1) 1 → (x * (g * lit 1)).val = ((x * g) * lit 1).val := by
    intro x g hx hg
    have mul1 : ∀ y : F32, y.isFin = true → (y * lit 1).In y.val y.val := by
      intro y hy
      obtain ⟨zs, e⟩ := FP.mul_def hy h1.1
      rw [e, h1.val_eq, mul_one]; exact FP.ofRat_rep (FP.rep_val y)
    have hg1 := mul1 g hg.1
    obtain ⟨zs, e⟩ := FP.mul_def hx hg1.1
    obtain ⟨zs2, e2⟩ := FP.mul_def hx hg.1
    have hb : |x.val * g.val| ≤ |x.val| := by
      rw [abs_mul]
      have : |g.val| ≤ 1 := abs_le.mpr hg.2
      nlinarith [abs_nonneg x.val]
    have hin : ∀ zs, (FP.ofRat (x.val * g.val) zs : F32).In (-|x.val|) |x.val| := by
      intro zs
      have r : binary32.Rep |x.val| false := by
        rcases abs_choice x.val with h | h <;> rw [h]
        · exact FP.rep_val x
        · exact FP.Rep.neg (FP.rep_val x)
      exact FP.ofRat_in (FP.Rep.neg r) r (abs_le.mp hb).1 (abs_le.mp hb).2
    have h3 : (x * g).isFin = true := by rw [e2]; exact (hin zs2).1
    rw [(mul1 (x * g) h3).val_eq, e, e2, hg1.val_eq]
    rcases FP.ofRat_cases (f := binary32) (x.val * g.val) zs with h4 | h4 <;>
      rcases FP.ofRat_cases (f := binary32) (x.val * g.val) zs2 with h5 | h5
    · rw [h4.2, h5.2]
    · have := (hin zs2).1; rw [h5] at this; cases this
    · have := (hin zs).1; rw [h4] at this; cases this
    · rw [h4, h5]
  exact ⟨key l _ hl hc, key r _ hr hs⟩

/-- **C26, setLevel, what holds** (ideal arithmetic). After `setPosition(pos, l)` with `l > 0`, `setLevel(l')` keeps
the position up to `1e-10 / l`: each gain differs from the gain `setPosition(pos, l')` would give by at most
`|l'| * 1e-10 / l`. Missing for the full claim: exactness, and levels `l ≤ 0` (see the two negations). -/
theorem C26_setLevel_keeps_position_partial (pos : ℝ) {l l' : ℝ} (hl : 0 < l) :
    |(setLevel l' (setPosition pos l)).cachedLeftGain - (setPosition pos l').cachedLeftGain| ≤ |l'| * (1e-10 / l) ∧
      |(setLevel l' (setPosition pos l)).cachedRightGain - (setPosition pos l').cachedRightGain| ≤ |l'| * (1e-10 / l) := by
  rw [setLevel_real, setPosition_real, setPosition_real]
  have hc := panAngle_cos_pos pos
  have hs := panAngle_sin_nonneg pos
  have hsq := Real.cos_sq_add_sin_sq (panAngle pos)
  have hc1 := Real.cos_le_one (panAngle pos)
  have hs1 := Real.sin_le_one (panAngle pos)
  simp only
  set c := Real.cos (panAngle pos)
  set s := Real.sin (panAngle pos)
  set δ : ℝ := 1e-10 / l with hδ
  have hδ0 : 0 < δ := by positivity
  have hr : s * l / (c * l + 1e-10) = s / (c + δ) := by
    rw [hδ]; field_simp
  rw [hr, Real.cos_arctan, Real.sin_arctan]
  set N := Real.sqrt (1 + (s / (c + δ)) ^ 2) with hN
  have hcd : 0 < c + δ := by linarith
  -- M = (c + δ) N
  have hM : (c + δ) * N = Real.sqrt ((c + δ) ^ 2 + s ^ 2) := by
    rw [hN, ← Real.sqrt_sq hcd.le, ← Real.sqrt_mul (sq_nonneg _), Real.sqrt_sq hcd.le]
    congr 1; field_simp
  set M := Real.sqrt ((c + δ) ^ 2 + s ^ 2) with hMdef
  have hM2 : M ^ 2 = 1 + 2 * c * δ + δ ^ 2 := by
    rw [hMdef, Real.sq_sqrt (by positivity)]; nlinarith
  have hM0 : 0 ≤ M := Real.sqrt_nonneg _
  have hM1 : 1 ≤ M := by nlinarith
  have hMu : M ≤ 1 + δ := by
    by_contra hgt
    push Not at hgt
    nlinarith
  have hN0 : N ≠ 0 := by rintro h; rw [h, mul_zero] at hM; linarith
  have e1 : 1 / N = (c + δ) / M := by rw [← hM]; field_simp
  have e2 : s / (c + δ) / N = s / M := by rw [← hM]; field_simp
  rw [e1, e2]
  constructor
  · rw [← sub_mul, abs_mul, mul_comm]
    refine mul_le_mul_of_nonneg_left ?_ (abs_nonneg _)
    have : (c + δ) / M - c = (c + δ - c * M) / M := by field_simp
    rw [this, abs_div, abs_of_pos (by linarith : 0 < M), div_le_iff₀ (by linarith), abs_le]
    constructor <;> nlinarith
  · rw [← sub_mul, abs_mul, mul_comm]
    refine mul_le_mul_of_nonneg_left ?_ (abs_nonneg _)
    have : s / M - s = (s - s * M) / M := by field_simp
    rw [this, abs_div, abs_of_pos (by linarith : 0 < M), div_le_iff₀ (by linarith), abs_le]
    constructor <;> nlinarith

/-- **C26 is false: muting loses the position.** After `setLevel(0)` any later `setLevel(l)` puts the signal hard left,
whatever position was set. -/
theorem C26_mute_loses_position (pos level l : ℝ) :
    setLevel l (setLevel 0 (setPosition pos level)) = ⟨l, 0⟩ := by
  rw [setLevel_real, setLevel_real]; simp

/-- … so for the centre position the right channel, which should carry the gain `sin(π/4)`, is silent. -/
theorem C26_setLevel_not_inverse :
    (setLevel 1 (setLevel 0 (setPosition 0 1)) : Bal ℝ).cachedRightGain = 0 ∧
      (1 / 2 : ℝ) < (setPosition 0 1 : Bal ℝ).cachedRightGain := by
  rw [C26_mute_loses_position, setPosition_real]
  refine ⟨rfl, ?_⟩
  have h0 : panAngle 0 = 0.78539816339 := by unfold panAngle; norm_num
  have hpi := Real.pi_lt_d2
  simp only [mul_one, h0]
  rw [← Real.sin_pi_div_six]
  exact Real.sin_lt_sin_of_lt_of_le_pi_div_two (by linarith [Real.pi_pos]) (by linarith [Real.pi_gt_d2]) (by linarith)

/-- **C26, single precision**: every gain set by `setPosition` with a level in `[0, 1]` lies in `[-1, 1]`. -/
theorem C26_gain_range_float [Libm F32] [LibmSpec] {pos level : F32} (h : pos ≠ .nan) (hl : level.In 0 1) :
    (setPosition pos level).cachedLeftGain.In (-1) 1 ∧ (setPosition pos level).cachedRightGain.In (-1) 1 := by
  have ha := pan_angle_float h
  have hc := LibmSpec.cos_range _ ha.1
  have hs := LibmSpec.sin_range _ ha.1
  have r : binary32.Rep (-1) false := FP.Rep.neg FP.rep_one
  constructor
  · refine FP.mul_in hc.1 hl.1 r FP.rep_one ?_ ?_ <;> nlinarith [hc.2, hl.2]
  · refine FP.mul_in hs.1 hl.1 r FP.rep_one ?_ ?_ <;> nlinarith [hs.2, hl.2]

end Balance2

namespace XFade2

theorem gains_real (pos level : ℝ) :
    computeGains pos level = (Real.cos (panAngle pos) * level, Real.sin (panAngle pos) * level) := by
  rw [← clamp_pan]; rfl

/-- **C27, ideal arithmetic: equal power and ends.** -/
theorem C27_equal_power (a b pos level : ℝ) :
    process a b pos level = a * process 1 0 pos level + b * process 0 1 pos level ∧
      process 1 0 pos level ^ 2 + process 0 1 pos level ^ 2 = level ^ 2 ∧
      process a b (-1) level = a * level ∧
      |process a b 1 level - b * level| ≤ (|a| + |b|) * |level| * 1e-10 := by
  have h : ∀ a b pos : ℝ, process a b pos level =
      a * (Real.cos (panAngle pos) * level) + b * (Real.sin (panAngle pos) * level) := by
    intro a b pos; simp only [process, gains_real, real_arith]
  simp only [h]
  refine ⟨by ring, ?_, ?_, ?_⟩
  · have := Real.cos_sq_add_sin_sq (panAngle pos)
    nlinarith
  · rw [panAngle_neg_one]; simp
  · have h1 := panAngle_one
    have h2 := panAngle_sin_nonneg 1
    have h3 := Real.cos_sq_add_sin_sq (panAngle 1)
    have h4 := Real.sin_le_one (panAngle 1)
    have h5 : |1 - Real.sin (panAngle 1)| ≤ 1e-10 := by
      rw [abs_of_nonneg (by linarith)]
      norm_num at h1 ⊢
      nlinarith
    have h6 : |Real.cos (panAngle 1)| ≤ 1e-10 := by rw [abs_of_pos h1.1]; exact h1.2.le
    have e : a * (Real.cos (panAngle 1) * level) + b * (Real.sin (panAngle 1) * level) - b * level =
        (a * Real.cos (panAngle 1) + -b * (1 - Real.sin (panAngle 1))) * level := by ring
    rw [e, abs_mul]
    have h7 : |a * Real.cos (panAngle 1) + -b * (1 - Real.sin (panAngle 1))| ≤ (|a| + |b|) * 1e-10 := by
      refine (abs_add_le _ _).trans ?_
      rw [abs_mul, abs_mul, abs_neg, add_mul]
      exact add_le_add (mul_le_mul_of_nonneg_left h6 (abs_nonneg _)) (mul_le_mul_of_nonneg_left h5 (abs_nonneg _))
    calc _ ≤ (|a| + |b|) * 1e-10 * |level| := mul_le_mul_of_nonneg_right h7 (abs_nonneg _)
      _ = _ := by ring

/-- **C27 at the right end is not exact**: some of input A leaks at position +1 (the literal is not π/4). -/
theorem C27_right_end_leaks : process 1 0 1 (1 : ℝ) ≠ 0 := by
  simp only [process, gains_real, real_arith, mul_one, one_mul, zero_mul, add_zero]
  exact panAngle_one.1.ne'

/-- **C27, cached tick.** `tick` after `setPosition` is `process`, mono and stereo, for every arithmetic; the stereo call is
the mono call on each channel. -/
theorem C27_tick_eq_process {α : Type} [Arith α] [Libm α] (a b pos level : α) (sa sb : Stereo α) :
    tick (setPosition pos level) a b = process a b pos level ∧
      tickStereo (setPosition pos level) sa sb = processStereo sa sb pos level ∧
      processStereo sa sb pos level = ⟨process sa.left sb.left pos level, process sa.right sb.right pos level⟩ :=
  ⟨rfl, rfl, rfl⟩

/-- **C27, setLevel, what holds** (ideal arithmetic). After `setPosition(pos, l)` with `l > 0`, any number of
`setLevel` calls ending in `setLevel(l')` gives the gains of `setPosition(pos, l')` times `l / (l + 1e-12)`, a
relative error below `1e-12 / l`. Missing for the full claim: exactness, and levels `l ≤ 0` (see the negations). -/
theorem C27_setLevel_keeps_position_partial (pos : ℝ) {l : ℝ} (hl : 0 < l) (ls : List ℝ) (l' : ℝ) :
    let s := setLevel l' (ls.foldl (fun s x => setLevel x s) (setPosition pos l))
    s.cachedGainA = (setPosition pos l').cachedGainA * (l / (l + 1e-12)) ∧
      s.cachedGainB = (setPosition pos l').cachedGainB * (l / (l + 1e-12)) ∧
      1 - 1e-12 / l ≤ l / (l + 1e-12) ∧ l / (l + 1e-12) ≤ 1 := by
  have hb : ∀ (ls : List ℝ) (s : Fade ℝ), (ls.foldl (fun s x => setLevel x s) s).cachedBaseA = s.cachedBaseA ∧
      (ls.foldl (fun s x => setLevel x s) s).cachedBaseB = s.cachedBaseB := by
    intro ls
    induction ls with
    | nil => intro s; exact ⟨rfl, rfl⟩
    | cons x xs ih => intro s; exact ih (setLevel x s)
  intro s
  have e1 : s.cachedGainA = (setPosition pos l).cachedBaseA * l' := by
    show _ * l' = _
    rw [(hb ls _).1]
  have e2 : s.cachedGainB = (setPosition pos l).cachedBaseB * l' := by
    show _ * l' = _
    rw [(hb ls _).2]
  have hne : l + 1e-12 ≠ 0 := by positivity
  rw [e1, e2]
  simp only [setPosition, gains_real, real_arith]
  push_cast
  refine ⟨by field_simp, by field_simp, ?_, ?_⟩
  · rw [le_div_iff₀ (by positivity)]
    have : (1 - 1e-12 / l) * (l + 1e-12) = l - 1e-12 * (1e-12 / l) := by field_simp; ring
    rw [this]
    have : 0 < 1e-12 * (1e-12 / l) := by positivity
    linarith
  · rw [div_le_one (by positivity)]
    norm_num

/-- **C27 is false: a fade positioned at level 0 stays silent.** In single precision, after `setPosition(pos, 0)` every
later `setLevel(l)` with finite `l` leaves both gains zero, so every finite input gives zero. -/
theorem C27_zero_level_sticks [Libm F32] [LibmSpec] {pos l : F32} (h : pos ≠ .nan) (hl : l.isFin = true) :
    (setLevel l (setPosition pos (lit 0))).cachedGainA.In 0 0 ∧ (setLevel l (setPosition pos (lit 0))).cachedGainB.In 0 0 := by
  have ha := pan_angle_float h
  have hc := LibmSpec.cos_range _ ha.1
  have hs := LibmSpec.sin_range _ ha.1
  have hz := FP.lit_zero (f := binary32)
  have hd : (lit 0 + lit 1e-12 : F32).isFin = true ∧ (lit 0 + lit 1e-12 : F32).val ≠ 0 := by decide +kernel
  have key : ∀ g : F32, g.isFin = true → (g * lit 0 / (lit 0 + lit 1e-12) * l).In 0 0 := by
    intro g hg
    have h1 : (g * lit 0).In 0 0 := by
      obtain ⟨zs, e⟩ := FP.mul_def hg hz.1
      rw [e, hz.val_eq, mul_zero]; exact FP.ofRat_rep FP.rep_zero
    have h2 : (g * lit 0 / (lit 0 + lit 1e-12)).In 0 0 := by
      obtain ⟨zs, e⟩ := FP.div_def h1.1 hd.1 hd.2
      rw [e, h1.val_eq, zero_div]; exact FP.ofRat_rep FP.rep_zero
    obtain ⟨zs, e⟩ := FP.mul_def h2.1 hl
    rw [e, h2.val_eq, zero_mul]; exact FP.ofRat_rep FP.rep_zero
  exact ⟨key _ hc.1, key _ hs.1⟩

/-- … and at level `-1e-12f` the normalisation divides by zero. -/
theorem C27_divides_by_zero : ((-lit 1e-12 : F32) + lit 1e-12) = lit 0 := by decide +kernel

end XFade2

example : (0.3 : ℝ) ≤ 0.4 := by norm_num
example : (0 : ℝ) < 0.5 := by norm_num
/-- `LibmSpec` is inhabited and a non-NaN position exists, so the single-precision theorems apply. -/
example := @Pan2.C25_equal_power_float idealLibm idealLibm_spec (lit 0.3) (by decide +kernel)
example := @XFade2.C27_zero_level_sticks idealLibm idealLibm_spec (lit 0.3) (lit 1) (by decide +kernel) (by decide +kernel)

end Verif
