import Verif.Model.Filters
import Verif.Lemmas.Loops
import Verif.Lemmas.RealArith
import Mathlib.Analysis.SpecificLimits.Normed
import Mathlib.Analysis.Complex.Polynomial.Basic
import Mathlib.Analysis.Real.Pi.Bounds

/-!
# Property C37: RLPF is stable and has unit gain at DC (exact arithmetic)
-/

namespace Verif
namespace RLPF

/-- Calls a user can make on a running filter. -/
inductive Call where
  | setFreq (f : ℝ)
  | setResonance (r : ℝ)
  | tick (x : ℝ)
  | reset

/-- State after a sequence of calls. -/
noncomputable def after : Filt ℝ ℝ → List Call → Filt ℝ ℝ
  | s, [] => s
  | s, .setFreq f :: cs => after (setFreq f s) cs
  | s, .setResonance r :: cs => after (setResonance r s) cs
  | s, .tick x :: cs => after (tick s x).1 cs
  | s, .reset :: cs => after (reset s) cs

/-- The second-order recursion `y[n] + a1·y[n-1] + a2·y[n-2] = …` has all its poles strictly inside the unit circle. -/
def PolesInside (a1 a2 : ℝ) : Prop := ∀ z : ℂ, z ^ 2 + a1 * z + a2 = 0 → ‖z‖ < 1

/-- The Jury conditions imply stability. -/
theorem jury {a1 a2 : ℝ} (h2 : a2 < 1) (h1 : |a1| < 1 + a2) : PolesInside a1 a2 := by
  intro z hz
  have h2' : -1 < a2 := by have := abs_nonneg a1; linarith
  obtain ⟨h3, h4⟩ := abs_lt.mp h1
  have hre := congrArg Complex.re hz
  have him := congrArg Complex.im hz
  simp [pow_two] at hre him
  have hn : ‖z‖ ^ 2 = z.re ^ 2 + z.im ^ 2 := by
    rw [← Complex.normSq_eq_norm_sq, Complex.normSq_apply]; ring
  have hlt : ‖z‖ ^ 2 < 1 := by
    rw [hn]
    rcases eq_or_ne z.im 0 with hy | hy
    · rw [hy] at hre ⊢
      have e : z.re * z.re + a1 * z.re + a2 = 0 := by linarith
      have u1 : z.re < 1 := by
        by_contra hc; push Not at hc
        nlinarith
      have u2 : -1 < z.re := by
        by_contra hc; push Not at hc
        nlinarith
      nlinarith
    · have hx : a1 = -2 * z.re := by
        have : z.im * (2 * z.re + a1) = 0 := by linarith
        rcases mul_eq_zero.mp this with h | h
        · exact absurd h hy
        · linarith
      rw [hx] at hre
      nlinarith
  have := norm_nonneg z
  nlinarith

/-- What the setters guarantee. -/
def Good (s : Filt ℝ ℝ) : Prop :=
  ∃ ω α : ℝ, 0 < ω ∧ ω < Real.pi ∧ 0 < α ∧
    s.b0 = (1 - Real.cos ω) / 2 / (1 + α) ∧ s.b1 = (1 - Real.cos ω) / (1 + α) ∧ s.b2 = (1 - Real.cos ω) / 2 / (1 + α) ∧
    s.a1 = -2 * Real.cos ω / (1 + α) ∧ s.a2 = (1 - α) / (1 + α)

theorem update_good {s : Filt ℝ ℝ} (hf : 0 < s.freq) (hsr : 2 * s.freq < s.sampleRate) (hq : 0 < s.resonance) :
    Good (updateCoefficients s) := by
  have hpi := Real.pi_gt_d20
  have hs0 : 0 < s.sampleRate := by linarith
  refine ⟨2 * 3.14159265358979323846 * s.freq / s.sampleRate,
    Real.sin (2 * 3.14159265358979323846 * s.freq / s.sampleRate) / (2 * s.resonance), by positivity, ?_, ?_, ?_⟩
  · rw [div_lt_iff₀ hs0]
    nlinarith [Real.pi_pos]
  · refine div_pos (Real.sin_pos_of_pos_of_lt_pi (by positivity) ?_) (by linarith)
    rw [div_lt_iff₀ hs0]
    nlinarith [Real.pi_pos]
  · simp only [updateCoefficients, Conv.conv, id, PI, real_arith]
    push_cast
    exact ⟨rfl, rfl, rfl, rfl, rfl⟩

theorem Good.stable {s : Filt ℝ ℝ} (h : Good s) : PolesInside s.a1 s.a2 := by
  obtain ⟨ω, α, h0, h1, hα, -, -, -, ha1, ha2⟩ := h
  have hd : 0 < 1 + α := by linarith
  have hc : |Real.cos ω| < 1 := by
    rw [abs_lt]
    constructor
    · have := Real.cos_lt_cos_of_nonneg_of_le_pi h0.le le_rfl h1
      rwa [Real.cos_pi] at this
    · have := Real.cos_lt_cos_of_nonneg_of_le_pi le_rfl h1.le h0
      rwa [Real.cos_zero] at this
  refine jury ?_ ?_
  · rw [ha2, div_lt_one hd]; linarith
  · rw [ha1, ha2, abs_div, abs_of_pos hd, abs_mul]
    have : 1 + (1 - α) / (1 + α) = 2 / (1 + α) := by field_simp; ring
    rw [this, div_lt_div_iff_of_pos_right hd]
    norm_num; linarith

/-- Invariant of the calls: the coefficients fit the parameters. -/
def Inv (sr : ℝ) (s : Filt ℝ ℝ) : Prop :=
  s.sampleRate = sr ∧ 0 < s.freq ∧ 2 * s.freq < sr ∧ 0 < s.resonance ∧ Good s

theorem inv_after {sr : ℝ} (hsr : 2 < sr) : ∀ (cs : List Call) (s : Filt ℝ ℝ), Inv sr s → Inv sr (after s cs) := by
  intro cs
  induction cs with
  | nil => intro s h; exact h
  | cons c cs ih =>
    rintro s ⟨h1, h2, h3, h4, h5⟩
    cases c with
    | setFreq f =>
      refine ih _ ?_
      have hf : 0 < (setFreq f s).freq ∧ 2 * (setFreq f s).freq < sr := by
        simp only [setFreq, updateCoefficients, real_arith, h1]
        split_ifs with a b
        · norm_num; linarith
        · norm_num; constructor <;> linarith
        · push_cast at a b; push Not at a b
          norm_num at b
          constructor <;> linarith
      exact ⟨h1, hf.1, hf.2, h4, update_good (s := { s with freq := _ }) hf.1 (hf.2.trans_eq h1.symm) h4⟩
    | setResonance r =>
      refine ih _ ?_
      have hf : 0 < (setResonance r s).resonance := by
        simp only [setResonance, updateCoefficients, real_arith]
        split_ifs with a b
        · norm_num
        · norm_num
        · push Not at a; refine lt_of_lt_of_le ?_ a; norm_num
      exact ⟨h1, h2, h3, hf, update_good (s := { s with resonance := _ }) h2 (h3.trans_eq h1.symm) hf⟩
    | tick x =>
      refine ih _ ?_
      exact ⟨h1, h2, h3, h4, h5⟩
    | reset =>
      refine ih _ ?_
      exact ⟨h1, h2, h3, h4, h5⟩

theorem inv_init {sr : ℝ} (hsr : 880 < sr) : Inv sr (init sr) := by
  have hf : (0:ℝ) < lit 440 ∧ 2 * (lit 440 : ℝ) < sr := by
    simp only [real_arith]; push_cast; constructor <;> linarith
  have hr : (0:ℝ) < lit 0.707 := by simp only [real_arith]; norm_num
  exact ⟨rfl, hf.1, hf.2, hr, update_good (s := ⟨sr, lit 440, lit 0.707, _, _, _, _, _, _, _⟩) hf.1 hf.2 hr⟩

/-- The filter computes the difference equation `y[n] = b0·x[n] + b1·x[n-1] + b2·x[n-2] - a1·y[n-1] - a2·y[n-2]`. -/
theorem C37_difference_equation (s : Filt ℝ ℝ) (x0 x1 x2 : ℝ) :
    ∃ y0 y1 y2, (process s [x0, x1, x2]).2 = [y0, y1, y2] ∧
      y2 = s.b0 * x2 + s.b1 * x1 + s.b2 * x0 - s.a1 * y1 - s.a2 * y0 := by
  refine ⟨_, _, _, rfl, ?_⟩
  simp only [Conv.conv, id, real_arith]; ring

/-- **C37**: after `init` and any calls, the poles lie strictly inside the unit circle. -/
theorem C37_stable (sr : ℝ) (hsr : 880 < sr) (cs : List Call) :
    PolesInside (after (init sr) cs).a1 (after (init sr) cs).a2 :=
  (inv_after (by linarith) cs _ (inv_init hsr)).2.2.2.2.stable

theorem inv_setFreq {sr : ℝ} (hsr : 2 < sr) (f : ℝ) : Inv sr (setFreq f (init sr)) := by
  have hr : (0:ℝ) < lit 0.707 := by simp only [real_arith]; norm_num
  have hf : 0 < (setFreq f (init (β := ℝ) sr)).freq ∧ 2 * (setFreq f (init (β := ℝ) sr)).freq < sr := by
    simp only [setFreq, init, updateCoefficients, real_arith]
    split_ifs with a b
    · norm_num; linarith
    · norm_num; constructor <;> linarith
    · push_cast at a b; push Not at a b
      norm_num at b
      constructor <;> linarith
  exact ⟨rfl, hf.1, hf.2, hr, update_good (s := { init (β := ℝ) sr with freq := _ }) hf.1 hf.2 hr⟩

/-- **C37**: once `setFreq` has been called the poles lie inside the unit circle for every sample rate above 2 Hz. -/
theorem C37_stable_any_rate (sr : ℝ) (hsr : 2 < sr) (f : ℝ) (cs : List Call) :
    PolesInside (after (init sr) (.setFreq f :: cs)).a1 (after (init sr) (.setFreq f :: cs)).a2 :=
  (inv_after hsr cs _ (inv_setFreq hsr f)).2.2.2.2.stable

/-- A second-order recursion with poles inside the unit circle dies out. -/
theorem recursion_decays {a1 a2 : ℝ} (h : PolesInside a1 a2) (e : ℕ → ℝ)
    (he : ∀ n, e (n + 2) = -a1 * e (n + 1) - a2 * e n) : Filter.Tendsto e Filter.atTop (nhds 0) := by
  -- a root of the characteristic polynomial
  obtain ⟨r1, hr1⟩ : ∃ z : ℂ, z ^ 2 + a1 * z + a2 = 0 := by
    obtain ⟨d, hd⟩ := IsAlgClosed.exists_pow_nat_eq ((a1:ℂ) ^ 2 - 4 * a2) (n := 2) (by norm_num)
    refine ⟨(-a1 + d) / 2, ?_⟩
    have : ((-a1 + d) / 2 : ℂ) ^ 2 + a1 * ((-a1 + d) / 2) + a2 = (d ^ 2 - (a1 ^ 2 - 4 * a2)) / 4 := by ring
    rw [this, hd]; ring
  set r2 : ℂ := -a1 - r1 with hr2
  have hprod : r1 * r2 = a2 := by rw [hr2]; linear_combination -hr1
  have hr2' : r2 ^ 2 + a1 * r2 + a2 = 0 := by rw [hr2]; linear_combination hr1
  have n1 := h r1 hr1
  have n2 := h r2 hr2'
  set ρ := max ‖r1‖ ‖r2‖ with hρ
  have hρ0 : 0 ≤ ρ := le_max_of_le_left (norm_nonneg _)
  have hρ1 : ρ < 1 := max_lt n1 n2
  have hu : ∀ n, ((e (n + 1) : ℂ) - r1 * e n) = r2 ^ n * ((e 1 : ℂ) - r1 * e 0) := by
    intro n
    induction n with
    | zero => simp
    | succ n ih =>
      rw [pow_succ', mul_assoc, ← ih, he n]
      push_cast
      linear_combination (-(e (n+1) : ℂ)) * hr2 + (e n : ℂ) * hprod
  set u0 := ‖(e 1 : ℂ) - r1 * e 0‖ with hu0
  have hbound : ∀ n : ℕ, ‖(e (n + 1) : ℂ)‖ ≤ ρ ^ (n + 1) * ‖(e 0 : ℂ)‖ + (n + 1) * ρ ^ n * u0 := by
    intro n
    induction n with
    | zero =>
      have : (e 1 : ℂ) = r1 * e 0 + ((e 1 : ℂ) - r1 * e 0) := by ring
      rw [zero_add, this]
      refine (norm_add_le _ _).trans ?_
      rw [norm_mul, ← hu0]
      have := mul_le_mul_of_nonneg_right (le_max_left ‖r1‖ ‖r2‖) (norm_nonneg (e 0 : ℂ))
      rw [← hρ] at this
      have hg : ρ ^ (0 + 1) * ‖(e 0 : ℂ)‖ + (((0:ℕ):ℝ) + 1) * ρ ^ 0 * u0 = ρ * ‖(e 0 : ℂ)‖ + u0 := by push_cast; ring
      rw [hg]; linarith
    | succ n ih =>
      have hsplit : (e (n + 1 + 1) : ℂ) = r1 * e (n + 1) + r2 ^ (n + 1) * ((e 1 : ℂ) - r1 * e 0) := by
        rw [← hu (n + 1)]; ring
      rw [hsplit]
      refine (norm_add_le _ _).trans ?_
      rw [norm_mul, norm_mul, norm_pow, ← hu0]
      have a1 : ‖r1‖ * ‖(e (n + 1) : ℂ)‖ ≤ ρ * (ρ ^ (n + 1) * ‖(e 0 : ℂ)‖ + (n + 1) * ρ ^ n * u0) :=
        mul_le_mul (le_max_left _ _) ih (norm_nonneg _) hρ0
      have a2 : ‖r2‖ ^ (n + 1) * u0 ≤ ρ ^ (n + 1) * u0 :=
        mul_le_mul_of_nonneg_right (pow_le_pow_left₀ (norm_nonneg _) (le_max_right _ _) _) (norm_nonneg _)
      calc _ ≤ ρ * (ρ ^ (n + 1) * ‖(e 0 : ℂ)‖ + (n + 1) * ρ ^ n * u0) + ρ ^ (n + 1) * u0 := add_le_add a1 a2
        _ = _ := by push_cast; ring
  have t1 : Filter.Tendsto (fun n : ℕ => ρ ^ (n + 1) * ‖(e 0 : ℂ)‖ + (n + 1) * ρ ^ n * u0) Filter.atTop (nhds 0) := by
    have p0 := tendsto_pow_atTop_nhds_zero_of_lt_one hρ0 hρ1
    have p1 := tendsto_self_mul_const_pow_of_lt_one hρ0 hρ1
    have := ((p0.const_mul (ρ * ‖(e 0 : ℂ)‖)).add (p1.mul_const u0)).add (p0.mul_const u0)
    simp only [mul_zero, zero_mul, add_zero] at this
    refine this.congr fun n => ?_
    rw [pow_succ]; ring
  rw [← Filter.tendsto_add_atTop_iff_nat 1]
  refine squeeze_zero_norm (fun n => ?_) t1
  have := hbound n
  rwa [Complex.norm_real] at this

/-- **C37**: after `init` and any calls, a constant input converges to the same constant (unit gain at DC). -/
theorem C37_dc_gain (sr : ℝ) (hsr : 880 < sr) (cs : List Call) (c : ℝ) :
    Filter.Tendsto (fun n => tickOut (fun s => tick s c) n (after (init sr) cs)) Filter.atTop (nhds c) := by
  have hI := inv_after (by linarith) cs _ (inv_init hsr)
  set s := after (init sr) cs with hs
  obtain ⟨ω, α, h0, h1, hα, hb0, hb1, hb2, ha1, ha2⟩ := hI.2.2.2.2
  have hstab := hI.2.2.2.2.stable
  have hd : (1 + α) ≠ 0 := by linarith
  have hsum : s.b0 + s.b1 + s.b2 = 1 + s.a1 + s.a2 := by
    rw [hb0, hb1, hb2, ha1, ha2]; field_simp; ring
  -- the coefficients do not change
  have hco : ∀ n, (tickState (fun s => tick s c) n s).b0 = s.b0 ∧ (tickState (fun s => tick s c) n s).b1 = s.b1 ∧
      (tickState (fun s => tick s c) n s).b2 = s.b2 ∧ (tickState (fun s => tick s c) n s).a1 = s.a1 ∧
      (tickState (fun s => tick s c) n s).a2 = s.a2 := by
    intro n
    induction n with
    | zero => exact ⟨rfl, rfl, rfl, rfl, rfl⟩
    | succ n ih => rw [tickState_succ]; exact ih
  set y : ℕ → ℝ := fun n => tickOut (fun s => tick s c) n s with hy
  have hrec : ∀ n, y (n + 2) - c = -s.a1 * (y (n + 1) - c) - s.a2 * (y n - c) := by
    intro n
    obtain ⟨c0, c1, c2, c3, c4⟩ := hco n
    have e0 : y n = (tick (tickState (fun s => tick s c) n s) c).2 := rfl
    have e1 : y (n + 1) = (tick (tick (tickState (fun s => tick s c) n s) c).1 c).2 := by
      simp only [hy, tickOut, tickState_succ]
    have e2 : y (n + 2) = (tick (tick (tick (tickState (fun s => tick s c) n s) c).1 c).1 c).2 := by
      simp only [hy, tickOut, tickState_succ]
    rw [e0, e1, e2]
    generalize tickState (fun s => tick s c) n s = t at c0 c1 c2 c3 c4
    simp only [tick, Conv.conv, id, real_arith, c0, c1, c2, c3, c4]
    linear_combination c * hsum
  have := recursion_decays hstab (fun n => y n - c) hrec
  simpa using this.add_const c

/-- **C37, negative**: `init` installs 440 Hz without the clamp that `setFreq` applies. Below 880 Hz sample rate the filter is
then unstable: at 800 Hz one of the poles lies outside the unit circle. -/
theorem C37_init_unclamped_unstable : ¬ PolesInside (init (α := ℝ) (β := ℝ) 800).a1 (init (α := ℝ) (β := ℝ) 800).a2 := by
  have hpi := Real.pi_gt_d20
  have hpl := Real.pi_lt_d20
  set ω : ℝ := 2 * 3.14159265358979323846 * 440 / 800 with hω
  have hsin : Real.sin ω < 0 := by
    have h1 : Real.sin (ω - Real.pi) > 0 :=
      Real.sin_pos_of_pos_of_lt_pi (by rw [hω]; linarith) (by rw [hω]; linarith)
    rw [Real.sin_sub_pi] at h1; linarith
  have hsin1 := Real.neg_one_le_sin ω
  set α := Real.sin ω / (2 * 0.707) with hα
  have hα0 : α < 0 := div_neg_of_neg_of_pos hsin (by norm_num)
  have hα1 : -1 < α := by rw [hα, lt_div_iff₀ (by norm_num)]; exact lt_of_lt_of_le (by norm_num) hsin1
  have hd : 0 < 1 + α := by linarith
  have ha2 : (init (α := ℝ) (β := ℝ) 800).a2 = (1 - α) / (1 + α) := by
    simp only [init, updateCoefficients, Conv.conv, id, PI, real_arith, hα, hω]
    push_cast; norm_num
  have hgt : 1 < (1 - α) / (1 + α) := by rw [one_lt_div hd]; linarith
  intro h
  set a1 := (init (α := ℝ) (β := ℝ) 800).a1
  set a2 := (init (α := ℝ) (β := ℝ) 800).a2
  obtain ⟨d, hdd⟩ := IsAlgClosed.exists_pow_nat_eq ((a1:ℂ) ^ 2 - 4 * a2) (n := 2) (by norm_num)
  have n1 := h ((-a1 + d) / 2) (by
    have : ((-a1 + d) / 2 : ℂ) ^ 2 + a1 * ((-a1 + d) / 2) + a2 = (d ^ 2 - (a1 ^ 2 - 4 * a2)) / 4 := by ring
    rw [this, hdd]; ring)
  have n2 := h ((-a1 - d) / 2) (by
    have : ((-a1 - d) / 2 : ℂ) ^ 2 + a1 * ((-a1 - d) / 2) + a2 = (d ^ 2 - (a1 ^ 2 - 4 * a2)) / 4 := by ring
    rw [this, hdd]; ring)
  have hprod : ((-a1 + d) / 2 : ℂ) * ((-a1 - d) / 2) = a2 := by linear_combination -hdd / 4
  have hn : ‖((-a1 + d) / 2 : ℂ)‖ * ‖((-a1 - d) / 2 : ℂ)‖ = |a2| := by
    rw [← norm_mul, hprod, Complex.norm_real]; rfl
  have : |a2| < 1 := by
    rw [← hn]
    exact mul_lt_one_of_nonneg_of_lt_one_left (norm_nonneg _) n1 n2.le
  rw [ha2, abs_of_pos (by linarith)] at this
  linarith

example : PolesInside (after (init 48000) [.setFreq 1e9, .setResonance 1e9, .tick 3]).a1
    (after (init 48000) [.setFreq 1e9, .setResonance 1e9, .tick 3]).a2 := C37_stable _ (by norm_num) _

end RLPF
end Verif
