import Verif.Props.RLPF
import Verif.Props.Filters
import Verif.Lemmas.Stream
import Mathlib.Analysis.SpecialFunctions.Trigonometric.Series
import Mathlib.Analysis.SpecialFunctions.Trigonometric.Bounds
import Mathlib.Analysis.SpecialFunctions.Trigonometric.DerivHyp

/-!
# Property C68: the frequency responses of the linear filters (exact arithmetic)

What a user means by "cutoff" and "resonance" is what the filter does to a sinusoid once the transient has died out. `Responds` states this
for the tick function as it is, sample by sample.
-/

namespace Verif

/-- The angular frequency, in radians per sample, that the code computes for `f` Hz. -/
noncomputable def radians (f sr : ℝ) : ℝ := 2 * 3.14159265358979323846 * f / sr

/-- The complex gain of the analog resonant low pass of the textbooks (two poles, quality `Q`) at `k` times its cutoff frequency. -/
noncomputable def lowpass (Q k : ℝ) : ℂ := 1 / (1 - k ^ 2 + Complex.I * k / Q)

theorem lowpass_norm (Q k : ℝ) : ‖lowpass Q k‖ = 1 / √((1 - k ^ 2) ^ 2 + (k / Q) ^ 2) := by
  have : (1 - (k:ℂ) ^ 2 + Complex.I * k / Q) = ((1 - k ^ 2 : ℝ) : ℂ) + ((k / Q : ℝ) : ℂ) * Complex.I := by push_cast; ring
  rw [lowpass, norm_div, norm_one, this, Complex.norm_add_mul_I]

/-- At the cutoff the analog filter has gain `Q` and lags by 90°. -/
theorem lowpass_one (Q : ℝ) : lowpass Q 1 = -(Q * Complex.I) := by
  unfold lowpass
  rcases eq_or_ne Q 0 with rfl | h
  · simp
  · have : (Q:ℂ) ≠ 0 := by exact_mod_cast h
    have hI := Complex.I_ne_zero
    field_simp
    push_cast
    linear_combination Complex.I_sq

namespace RLPF

theorem fits_after : ∀ (cs : List Call) (s : Filt ℝ ℝ), updateCoefficients s = s → updateCoefficients (after s cs) = after s cs := by
  intro cs
  induction cs with
  | nil => intro s h; exact h
  | cons c cs ih =>
    intro s h
    cases c with
    | setFreq f => exact ih _ rfl
    | setResonance r => exact ih _ rfl
    | tick x =>
      refine ih _ ?_
      have h' : (updateCoefficients s).b0 = s.b0 ∧ (updateCoefficients s).b1 = s.b1 ∧ (updateCoefficients s).b2 = s.b2 ∧
        (updateCoefficients s).a1 = s.a1 ∧ (updateCoefficients s).a2 = s.a2 := by rw [h]; exact ⟨rfl, rfl, rfl, rfl, rfl⟩
      obtain ⟨h1, h2, h3, h4, h5⟩ := h'
      simp only [updateCoefficients] at h1 h2 h3 h4 h5
      simp only [updateCoefficients, tick, h1, h2, h4, h5, ← h3.symm.trans h1]
    | reset =>
      refine ih _ ?_
      have h' : (updateCoefficients s).b0 = s.b0 ∧ (updateCoefficients s).b1 = s.b1 ∧ (updateCoefficients s).b2 = s.b2 ∧
        (updateCoefficients s).a1 = s.a1 ∧ (updateCoefficients s).a2 = s.a2 := by rw [h]; exact ⟨rfl, rfl, rfl, rfl, rfl⟩
      obtain ⟨h1, h2, h3, h4, h5⟩ := h'
      simp only [updateCoefficients] at h1 h2 h3 h4 h5
      simp only [updateCoefficients, reset, h1, h2, h4, h5, ← h3.symm.trans h1]

/-- The coefficients in terms of the parameters. -/
theorem coeffs {s : Filt ℝ ℝ} (h : updateCoefficients s = s) :
    let ω := radians s.freq s.sampleRate
    let α := Real.sin ω / (2 * s.resonance)
    s.b0 = (1 - Real.cos ω) / 2 / (1 + α) ∧ s.b1 = (1 - Real.cos ω) / (1 + α) ∧ s.b2 = (1 - Real.cos ω) / 2 / (1 + α) ∧
      s.a1 = -2 * Real.cos ω / (1 + α) ∧ s.a2 = (1 - α) / (1 + α) := by
  intro ω α
  have h' : (updateCoefficients s).b0 = s.b0 ∧ (updateCoefficients s).b1 = s.b1 ∧ (updateCoefficients s).b2 = s.b2 ∧
    (updateCoefficients s).a1 = s.a1 ∧ (updateCoefficients s).a2 = s.a2 := by rw [h]; exact ⟨rfl, rfl, rfl, rfl, rfl⟩
  obtain ⟨h1, h2, h3, h4, h5⟩ := h'
  rw [← h1, ← h2, ← h3, ← h4, ← h5]
  simp only [updateCoefficients, Conv.conv, id, PI, real_arith, α, ω, radians]
  push_cast
  exact ⟨rfl, rfl, rfl, rfl, rfl⟩

theorem feed_coeffs (s : Filt ℝ ℝ) (x : ℕ → ℝ) (n : ℕ) :
    (feed tick s x n).b0 = s.b0 ∧ (feed tick s x n).b1 = s.b1 ∧ (feed tick s x n).b2 = s.b2 ∧ (feed tick s x n).a1 = s.a1 ∧
      (feed tick s x n).a2 = s.a2 := by
  induction n with
  | zero => exact ⟨rfl, rfl, rfl, rfl, rfl⟩
  | succ n ih => exact ih

/-- A stable filter whose coefficients solve the transfer equation at `z = exp (iθ)` responds with `H`. -/
theorem responds {s : Filt ℝ ℝ} (hstab : PolesInside s.a1 s.a2) (θ : ℝ) (H : ℂ)
    (hH : H * (Complex.exp (θ * Complex.I) ^ 2 + s.a1 * Complex.exp (θ * Complex.I) + s.a2) =
      s.b0 * Complex.exp (θ * Complex.I) ^ 2 + s.b1 * Complex.exp (θ * Complex.I) + s.b2) : Responds tick s θ H := by
  intro C
  refine recursion_decays hstab _ fun n => ?_
  set z := Complex.exp (θ * Complex.I) with hz
  obtain ⟨c0, c1, c2, c3, c4⟩ := feed_coeffs s (sinusoid C θ) n
  have hy : heard tick s (sinusoid C θ) (n + 2) = s.b0 * sinusoid C θ (n + 2) + s.b1 * sinusoid C θ (n + 1) + s.b2 * sinusoid C θ n
      - s.a1 * heard tick s (sinusoid C θ) (n + 1) - s.a2 * heard tick s (sinusoid C θ) n := by
    simp only [heard, feed]
    generalize feed tick s (sinusoid C θ) n = t at c0 c1 c2 c3 c4
    simp only [tick, Conv.conv, id, real_arith, c0, c1, c2, c3, c4]
    ring
  have hid : sinusoid (H * C) θ (n + 2) + s.a1 * sinusoid (H * C) θ (n + 1) + s.a2 * sinusoid (H * C) θ n =
      s.b0 * sinusoid C θ (n + 2) + s.b1 * sinusoid C θ (n + 1) + s.b2 * sinusoid C θ n := by
    simp only [sinusoid_succ, ← hz, ← sinusoid_smul, ← sinusoid_add]
    refine congrArg (sinusoid · θ n) ?_
    linear_combination C * hH
  rw [hy]
  linear_combination -hid

/-- **C68** (RLPF): after `init` and any calls the filter answers a sinusoid of any frequency between 0 and the Nyquist frequency as the
analog resonant low pass with the set resonance as its `Q`, the frequency axis being warped by the tangent (bilinear transform) such that
the set frequency is kept. -/
theorem C68_rlpf_response (sr : ℝ) (hsr : 880 < sr) (cs : List Call) (θ : ℝ) (h0 : 0 ≤ θ) (h1 : θ < Real.pi) :
    let s := after (init sr) cs
    Responds tick s θ (lowpass s.resonance (Real.tan (θ / 2) / Real.tan (radians s.freq sr / 2))) := by
  intro s
  obtain ⟨i1, i2, i3, i4, i5⟩ := inv_after (by linarith) cs _ (inv_init hsr)
  change s.sampleRate = sr at i1
  change 0 < s.freq at i2
  change 2 * s.freq < sr at i3
  change 0 < s.resonance at i4
  have hco := coeffs (fits_after cs (init sr) rfl)
  change (let ω := radians s.freq s.sampleRate; _) at hco
  rw [i1] at hco
  have hpi := Real.pi_gt_d20
  set ω := radians s.freq sr with hω
  have hω0 : 0 < ω := by rw [hω, radians]; positivity
  have hω1 : ω < Real.pi := by
    rw [hω, radians, div_lt_iff₀ (by linarith)]; nlinarith [Real.pi_pos]
  have hT : 0 < Real.tan (ω / 2) := Real.tan_pos_of_pos_of_lt_pi_div_two (by linarith) (by linarith)
  have hc2 : 0 < Real.cos (ω / 2) := Real.cos_pos_of_mem_Ioo ⟨by linarith [Real.pi_pos], by linarith⟩
  have hct : 0 < Real.cos (θ / 2) := Real.cos_pos_of_mem_Ioo ⟨by linarith [Real.pi_pos], by linarith⟩
  have hsin : 0 < Real.sin ω := Real.sin_pos_of_pos_of_lt_pi hω0 hω1
  refine responds (Good.stable i5) θ _ ?_
  dsimp only at hco
  obtain ⟨hb0, hb1, hb2, ha1, ha2⟩ := hco
  set Q := s.resonance with hQ
  set T := Real.tan (ω / 2) with hTd
  set t := Real.tan (θ / 2) with htd
  have hz : Complex.exp (θ * Complex.I) = (1 + t * Complex.I) / (1 - t * Complex.I) := by
    have e1 : (1 + (t:ℂ) * Complex.I) * Real.cos (θ / 2) = Complex.exp ((θ / 2 : ℝ) * Complex.I) := by
      rw [Complex.exp_mul_I, ← Complex.ofReal_cos, ← Complex.ofReal_sin, htd, Real.tan_eq_sin_div_cos]
      have : ((Real.cos (θ / 2) : ℝ) : ℂ) ≠ 0 := by exact_mod_cast hct.ne'
      push_cast at this ⊢
      field_simp
    have e2 : (1 - (t:ℂ) * Complex.I) * Real.cos (θ / 2) = Complex.exp (-((θ / 2 : ℝ) * Complex.I)) := by
      rw [← neg_mul, Complex.exp_mul_I, Complex.cos_neg, Complex.sin_neg, ← Complex.ofReal_cos, ← Complex.ofReal_sin, htd,
        Real.tan_eq_sin_div_cos]
      have : ((Real.cos (θ / 2) : ℝ) : ℂ) ≠ 0 := by exact_mod_cast hct.ne'
      push_cast at this ⊢
      field_simp
      ring
    have hc : ((Real.cos (θ / 2) : ℝ) : ℂ) ≠ 0 := by exact_mod_cast hct.ne'
    rw [← mul_div_mul_right _ _ hc, e1, e2, ← Complex.exp_sub]
    congr 1; push_cast; ring
  have hne : (1 - (t:ℂ) * Complex.I) ≠ 0 := by
    intro h
    have := congrArg Complex.re h
    simp at this
  have hcos : Real.cos ω = (1 - T ^ 2) / (1 + T ^ 2) := by
    rw [hTd, Real.tan_eq_sin_div_cos]
    have := Real.cos_sq_add_sin_sq (ω / 2)
    have e := Real.cos_two_mul' (ω / 2)
    rw [show 2 * (ω / 2) = ω by ring] at e
    rw [e]
    field_simp
    rw [this]; ring
  have hsn : Real.sin ω = 2 * T / (1 + T ^ 2) := by
    rw [hTd, Real.tan_eq_sin_div_cos]
    have := Real.cos_sq_add_sin_sq (ω / 2)
    have e := Real.sin_two_mul (ω / 2)
    rw [show 2 * (ω / 2) = ω by ring] at e
    rw [e]
    field_simp
    rw [this]; ring
  have hD : 0 < 1 + T ^ 2 := by positivity
  set α := Real.sin ω / (2 * Q) with hα
  have hα0 : 0 < α := div_pos hsin (by linarith)
  have hA : (1 + (α:ℂ)) ≠ 0 := by
    have : (1 + α) ≠ 0 := by linarith
    exact_mod_cast this
  have hTc : (T:ℂ) ≠ 0 := by exact_mod_cast hT.ne'
  have hQc : (Q:ℂ) ≠ 0 := by exact_mod_cast i4.ne'
  have hDc : (1 + (T:ℂ) ^ 2) ≠ 0 := by exact_mod_cast hD.ne'
  have hαc : (α:ℂ) = T / (Q * (1 + T ^ 2)) := by
    have : α = T / (Q * (1 + T ^ 2)) := by rw [hα, hsn]; field_simp
    rw [this]; push_cast; ring
  have hcc : ((Real.cos ω : ℝ) : ℂ) = (1 - T ^ 2) / (1 + T ^ 2) := by rw [hcos]; push_cast; ring
  have hden : (1 - ((t / T : ℝ) : ℂ) ^ 2 + Complex.I * ((t / T : ℝ) : ℂ) / Q) ≠ 0 := by
    intro h
    have e : (1 - ((t / T : ℝ) : ℂ) ^ 2 + Complex.I * ((t / T : ℝ) : ℂ) / Q) =
      ((1 - (t / T) ^ 2 : ℝ) : ℂ) + ((t / T / Q : ℝ) : ℂ) * Complex.I := by push_cast; ring
    rw [e] at h
    have hre := congrArg Complex.re h
    have him := congrArg Complex.im h
    simp only [Complex.add_re, Complex.add_im, Complex.ofReal_re, Complex.ofReal_im, Complex.mul_re, Complex.mul_im, Complex.I_re,
      Complex.I_im, Complex.zero_re, Complex.zero_im] at hre him
    have : t / T = 0 := by
      have : t / T / Q = 0 := by linarith
      rcases div_eq_zero_iff.1 this with h | h
      · exact h
      · exact absurd h i4.ne'
    rw [this] at hre
    norm_num at hre
  rw [lowpass, div_mul_eq_mul_div, one_mul, div_eq_iff hden, hz, hb0, hb1, hb2, ha1, ha2]
  push_cast
  rw [show (Complex.cos (ω:ℂ)) = ((Real.cos ω : ℝ) : ℂ) by push_cast; rfl, hcc]
  have hI := Complex.I_sq
  field_simp
  rw [hαc]
  field_simp
  ring_nf
  simp only [hI]
  ring

/-- **C68** (RLPF): at the set frequency the gain is exactly the set resonance and the output lags by exactly a quarter of a period. -/
theorem C68_rlpf_cutoff (sr : ℝ) (hsr : 880 < sr) (cs : List Call) :
    let s := after (init sr) cs
    Responds tick s (radians s.freq sr) (-(s.resonance * Complex.I)) := by
  intro s
  obtain ⟨i1, i2, i3, i4, i5⟩ := inv_after (by linarith) cs _ (inv_init hsr)
  change 0 < s.freq at i2
  change 2 * s.freq < sr at i3
  have hpi := Real.pi_gt_d20
  have hω0 : 0 < radians s.freq sr := by rw [radians]; positivity
  have hω1 : radians s.freq sr < Real.pi := by
    rw [radians, div_lt_iff₀ (by linarith)]; nlinarith [Real.pi_pos]
  have hT : 0 < Real.tan (radians s.freq sr / 2) := Real.tan_pos_of_pos_of_lt_pi_div_two (by linarith) (by linarith)
  have h := C68_rlpf_response sr hsr cs (radians s.freq sr) hω0.le hω1
  change Responds tick s _ (lowpass s.resonance (Real.tan (radians s.freq sr / 2) / Real.tan (radians s.freq sr / 2))) at h
  rw [div_self hT.ne', lowpass_one] at h
  exact h

/-- **C68** (RLPF): the Nyquist frequency is removed completely. -/
theorem C68_rlpf_nyquist (sr : ℝ) (hsr : 880 < sr) (cs : List Call) : Responds tick (after (init sr) cs) Real.pi 0 := by
  obtain ⟨i1, i2, i3, i4, i5⟩ := inv_after (by linarith) cs _ (inv_init hsr)
  refine responds (Good.stable i5) _ _ ?_
  obtain ⟨ω, α, -, -, -, hb0, hb1, hb2, -, -⟩ := i5
  rw [Complex.exp_pi_mul_I, hb0, hb1, hb2]
  push_cast
  ring

/-- **C68** (RLPF): without resonance (`Q ≤ 1/√2`) no frequency is amplified, and the gain falls with the frequency; with any `Q` frequencies
above the cutoff are attenuated by at least `k² - 1`, 12 dB per octave in the end. -/
theorem C68_lowpass_shape (Q k : ℝ) (hQ : 0 < Q) (hk : 0 ≤ k) :
    (Q ^ 2 ≤ 1 / 2 → ‖lowpass Q k‖ ≤ 1 ∧ ∀ k', k ≤ k' → ‖lowpass Q k'‖ ≤ ‖lowpass Q k‖) ∧
    (1 < k → ‖lowpass Q k‖ ≤ 1 / (k ^ 2 - 1)) := by
  have hpos : ∀ k : ℝ, 0 < (1 - k ^ 2) ^ 2 + (k / Q) ^ 2 := by
    intro k
    rcases eq_or_ne k 0 with rfl | h
    · norm_num
    · have : 0 < (k / Q) ^ 2 := by positivity
      nlinarith [sq_nonneg (1 - k ^ 2)]
  have key : ∀ k : ℝ, (1 - k ^ 2) ^ 2 + (k / Q) ^ 2 = 1 + k ^ 4 + (1 / Q ^ 2 - 2) * k ^ 2 := by
    intro k; field_simp; ring
  have mono : Q ^ 2 ≤ 1 / 2 → ∀ a b : ℝ, 0 ≤ a → a ≤ b → ‖lowpass Q b‖ ≤ ‖lowpass Q a‖ := by
    intro h a b ha hab
    rw [lowpass_norm, lowpass_norm]
    refine one_div_le_one_div_of_le (Real.sqrt_pos.2 (hpos a)) (Real.sqrt_le_sqrt ?_)
    rw [key, key]
    have h2 : 0 ≤ 1 / Q ^ 2 - 2 := by
      rw [sub_nonneg, le_div_iff₀ (by positivity)]; linarith
    have hsq : a ^ 2 ≤ b ^ 2 := by nlinarith
    have h4 : a ^ 4 ≤ b ^ 4 := by nlinarith [sq_nonneg a, sq_nonneg b]
    nlinarith [mul_le_mul_of_nonneg_left hsq h2]
  refine ⟨fun h => ⟨?_, fun k' hk' => mono h k k' hk hk'⟩, fun h => ?_⟩
  · have := mono h 0 k le_rfl hk
    rw [lowpass_norm Q 0] at this
    norm_num at this; exact this
  · have h1 : 0 < k ^ 2 - 1 := by nlinarith
    rw [lowpass_norm]
    refine one_div_le_one_div_of_le h1 ?_
    rw [Real.le_sqrt' h1]
    nlinarith [sq_nonneg (k / Q)]

/-- The hypotheses are met by a filter set to 1000 Hz with resonance 5: a 1000 Hz cosine comes out five times as large, a quarter period late. -/
example : let s := after (init 48000) [.setFreq 1000, .setResonance 5]
    Responds tick s (radians 1000 48000) (-(5 * Complex.I)) := by
  have h := C68_rlpf_cutoff 48000 (by norm_num) [.setFreq 1000, .setResonance 5]
  have e1 : (after (init 48000) [.setFreq 1000, .setResonance 5]).freq = 1000 := by
    simp only [after, setFreq, setResonance, updateCoefficients, init, real_arith]; norm_num
  have e2 : (after (init 48000) [.setFreq 1000, .setResonance 5]).resonance = 5 := by
    simp only [after, setFreq, setResonance, updateCoefficients, init, real_arith]; norm_num
  dsimp only at h
  rw [e1, e2] at h
  simpa using h

end RLPF

/-! ### One-pole filters -/

/-- `|1 - p exp(-iθ)|²`. -/
theorem norm_pole (p θ : ℝ) : ‖1 - p * Complex.exp (-(θ * Complex.I))‖ ^ 2 = 1 - 2 * p * Real.cos θ + p ^ 2 := by
  have : (1 - (p:ℂ) * Complex.exp (-(θ * Complex.I))) = ((1 - p * Real.cos θ : ℝ) : ℂ) + ((p * Real.sin θ : ℝ) : ℂ) * Complex.I := by
    rw [← neg_mul, Complex.exp_mul_I, Complex.cos_neg, Complex.sin_neg, ← Complex.ofReal_cos, ← Complex.ofReal_sin]
    push_cast; ring
  rw [this, Complex.norm_add_mul_I, Real.sq_sqrt (by positivity)]
  nlinarith [Real.cos_sq_add_sin_sq θ]

/-- `cosh ω - 1 ≥ 1 - cos ω`, strictly. -/
theorem cosh_add_cos {ω : ℝ} (h : 0 < ω) : 2 < Real.cosh ω + Real.cos ω := by
  have h1 := Real.one_sub_sq_div_two_lt_cos h.ne'
  have h2 : 1 + ω ^ 2 / 2 ≤ Real.cosh ω := by
    rw [Real.cosh_eq]
    have a := Real.quadratic_le_exp_of_nonneg h.le
    have e := Real.cosh_sq ω
    have s := Real.self_le_sinh_iff.2 h.le
    have hh := Real.cosh_two_mul (ω / 2)
    have hs := Real.cosh_sq (ω / 2)
    rw [show 2 * (ω / 2) = ω by ring] at hh
    have s2 := Real.self_le_sinh_iff.2 (show 0 ≤ ω / 2 by linarith)
    rw [← Real.cosh_eq]
    nlinarith
  linarith

namespace OnePoleLPF

theorem feed_coeffs (s : Filt ℝ) (x : ℕ → ℝ) (n : ℕ) : (feed tick s x n).gain = s.gain ∧ (feed tick s x n).pole = s.pole := by
  induction n with
  | zero => exact ⟨rfl, rfl⟩
  | succ n ih => exact ih

theorem setCutoff_pole (s : Filt ℝ) (hz : ℝ) (h1 : 1 ≤ hz) (h2 : hz ≤ s.sampleRate / 2) :
    (setCutoff hz s).pole = Real.exp (-radians hz s.sampleRate) ∧ (setCutoff hz s).gain = 1 - Real.exp (-radians hz s.sampleRate) := by
  have hc : clamp hz (lit 1) (s.sampleRate * lit 0.5) = hz := by
    simp only [clamp, real_arith]
    rw [if_neg (by push_cast; linarith), if_neg (by push_cast; norm_num; linarith)]
  have he : -TWO_PI * hz / s.sampleRate = -radians hz s.sampleRate := by
    simp only [TWO_PI, PI, real_arith, radians]; push_cast; ring
  unfold setCutoff
  dsimp only
  rw [hc, he]
  simp only [real_arith]
  push_cast
  exact ⟨trivial, rfl⟩

/-- The complex gain of the digital one-pole low pass whose pole is `p`. -/
noncomputable def onePole (p θ : ℝ) : ℂ := (1 - p) / (1 - p * Complex.exp (-(θ * Complex.I)))

/-- **C68** (OnePoleLPF): from the moment the cutoff is set (1 Hz to Nyquist), in whatever state, the filter answers every sinusoid as the
one-pole low pass with pole `exp(-ω)`, `ω` the angular frequency of the cutoff. -/
theorem C68_onepole_response (s : Filt ℝ) (hz : ℝ) (h1 : 1 ≤ hz) (h2 : hz ≤ s.sampleRate / 2) (θ : ℝ) :
    Responds tick (setCutoff hz s) θ (onePole (Real.exp (-radians hz s.sampleRate)) θ) := by
  obtain ⟨hp, hg⟩ := setCutoff_pole s hz h1 h2
  set p := Real.exp (-radians hz s.sampleRate) with hpd
  have hω : 0 < radians hz s.sampleRate := by
    rw [radians]; refine div_pos (by linarith) (by linarith)
  have hp0 : 0 < p := Real.exp_pos _
  have hp1 : p < 1 := by rw [hpd, Real.exp_lt_one_iff]; linarith
  intro C
  refine decays_one (p := p) (by rw [abs_of_pos hp0]; exact hp1) _ fun n => ?_
  obtain ⟨c0, c1⟩ := feed_coeffs (setCutoff hz s) (sinusoid C θ) n
  rw [hg] at c0
  rw [hp] at c1
  have hy : heard tick (setCutoff hz s) (sinusoid C θ) (n + 1) = (1 - p) * sinusoid C θ (n + 1) +
      p * heard tick (setCutoff hz s) (sinusoid C θ) n := by
    simp only [heard, feed]
    generalize feed tick (setCutoff hz s) (sinusoid C θ) n = t at c0 c1
    simp only [tick, c0, c1]
  have hne : (1 - (p:ℂ) * Complex.exp (-(θ * Complex.I))) ≠ 0 := by
    intro h
    have e := norm_pole p θ
    rw [h] at e
    norm_num at e
    nlinarith [Real.cos_le_one θ]
  have hid : sinusoid (onePole p θ * C) θ (n + 1) = (1 - p) * sinusoid C θ (n + 1) + p * sinusoid (onePole p θ * C) θ n := by
    rw [sinusoid_succ, sinusoid_succ, ← sinusoid_smul, ← sinusoid_smul, ← sinusoid_add]
    refine congrArg (sinusoid · θ n) ?_
    have key : onePole p θ * (1 - p * Complex.exp (-(θ * Complex.I))) = 1 - p := div_mul_cancel₀ _ hne
    have hzw : Complex.exp (-(θ * Complex.I)) * Complex.exp (θ * Complex.I) = 1 := by rw [← Complex.exp_add]; simp
    push_cast
    linear_combination (C * Complex.exp (θ * Complex.I)) * key + p * onePole p θ * C * hzw
  rw [hy, hid]
  ring

/-- **C68** (OnePoleLPF): unit gain at DC, no frequency is amplified, and the higher the frequency the lower the gain. -/
theorem C68_onepole_shape (p θ : ℝ) (hp0 : 0 < p) (hp1 : p < 1) (h1 : θ ≤ Real.pi) :
    onePole p 0 = 1 ∧ ‖onePole p θ‖ ≤ 1 ∧ ∀ θ', 0 ≤ θ' → θ' < θ → ‖onePole p θ‖ < ‖onePole p θ'‖ := by
  have hpc : ∀ θ, 0 < 1 - 2 * p * Real.cos θ + p ^ 2 := by
    intro θ; nlinarith [Real.cos_le_one θ]
  have hn : ∀ θ, ‖onePole p θ‖ ^ 2 = (1 - p) ^ 2 / (1 - 2 * p * Real.cos θ + p ^ 2) := by
    intro θ
    rw [onePole, norm_div, div_pow, norm_pole, show (1 - (p:ℂ)) = ((1 - p : ℝ) : ℂ) by push_cast; ring, Complex.norm_real,
      Real.norm_eq_abs, sq_abs]
  have hd : (1 - (p:ℂ)) ≠ 0 := by
    have : (1 - p) ≠ 0 := by linarith
    exact_mod_cast this
  refine ⟨by simp [onePole, div_self hd], ?_, fun θ' h2 h3 => ?_⟩
  · rw [← sq_le_one_iff₀ (norm_nonneg _), hn, div_le_one (hpc θ)]
    nlinarith [Real.cos_le_one θ]
  · rw [← sq_lt_sq₀ (norm_nonneg _) (norm_nonneg _), hn, hn]
    have := Real.cos_lt_cos_of_nonneg_of_le_pi h2 h1 h3
    refine div_lt_div_of_pos_left (by nlinarith) (hpc θ') ?_
    nlinarith

/-- **C68** (OnePoleLPF): at the cutoff the gain is never the exact -3 dB (`‖H‖² = 1/2`), always above; up to a tenth of the sample rate it is
within half a dB of it (`‖H‖² ≤ 0.562`). -/
theorem C68_onepole_cutoff (ω : ℝ) (h : 0 < ω) :
    ‖onePole (Real.exp (-ω)) ω‖ ^ 2 = (Real.cosh ω - 1) / (Real.cosh ω - Real.cos ω) ∧ 1 / 2 < ‖onePole (Real.exp (-ω)) ω‖ ^ 2 ∧
      (ω ≤ 2 * Real.pi / 10 → ‖onePole (Real.exp (-ω)) ω‖ ^ 2 ≤ 0.562) := by
  have hc1 : 1 < Real.cosh ω := Real.one_lt_cosh.2 h.ne'
  have hcc := cosh_add_cos h
  have hcos := Real.cos_le_one ω
  have he : ‖onePole (Real.exp (-ω)) ω‖ ^ 2 = (Real.cosh ω - 1) / (Real.cosh ω - Real.cos ω) := by
    have e1 : (1 - ((Real.exp (-ω) : ℝ) : ℂ)) = ((1 - Real.exp (-ω) : ℝ) : ℂ) := by push_cast; ring
    rw [onePole, norm_div, div_pow, norm_pole, e1, Complex.norm_real, Real.norm_eq_abs, sq_abs]
    have hx := Real.exp_pos ω
    have hch := Real.cosh_eq ω
    rw [Real.exp_neg] at hch ⊢
    rw [div_eq_div_iff ?_ (by linarith)]
    · rw [hch]; field_simp; ring
    · have : 1 - 2 * (Real.exp ω)⁻¹ * Real.cos ω + (Real.exp ω)⁻¹ ^ 2 = 2 * (Real.exp ω)⁻¹ * (Real.cosh ω - Real.cos ω) := by
        rw [hch]; field_simp; ring
      rw [this]
      have : 0 < Real.cosh ω - Real.cos ω := by linarith
      positivity
  refine ⟨he, ?_, fun hω => ?_⟩
  · rw [he, lt_div_iff₀ (by linarith)]; linarith
  · rw [he, div_le_iff₀ (by linarith)]
    have hpi := Real.pi_lt_d4
    have hω' : ω ≤ 0.62832 := by linarith
    have hu : ω ^ 2 / 2 ≤ 0.1974 := by nlinarith
    have h1 := Real.cosh_le_exp_half_sq ω
    have h2 := (abs_le.1 (Real.abs_exp_sub_one_sub_id_le (x := ω ^ 2 / 2) (by rw [abs_of_nonneg (by positivity)]; linarith))).2
    have h3 := Real.sin_gt_sub_cube (x := ω / 2) (by linarith)
    have h4 : Real.cos ω = 1 - 2 * Real.sin (ω / 2) ^ 2 := by
      have := Real.cos_two_mul (ω / 2)
      rw [show 2 * (ω / 2) = ω by ring] at this
      nlinarith [Real.sin_sq_add_cos_sq (ω / 2)]
    have h5 : (ω / 2 - (ω / 2) ^ 3 / 6) ^ 2 ≤ Real.sin (ω / 2) ^ 2 := by
      refine pow_le_pow_left₀ ?_ h3.le 2
      nlinarith
    have h6 : ω ^ 2 / 4 * (1 - ω ^ 2 / 12) ≤ (ω / 2 - (ω / 2) ^ 3 / 6) ^ 2 := by nlinarith [sq_nonneg (ω ^ 3)]
    set u := ω ^ 2 / 2 with hud
    have h7 : u * (1 - u / 6) ≤ 1 - Real.cos ω := by rw [h4, hud]; nlinarith
    have h8 : Real.cosh ω - 1 ≤ u + u ^ 2 := by linarith
    have hu0 : 0 ≤ u := by positivity
    nlinarith

example : Responds tick (setCutoff 1000 (init (48000:ℝ) 20)) (radians 1000 48000)
    (onePole (Real.exp (-radians 1000 48000)) (radians 1000 48000)) :=
  C68_onepole_response _ 1000 (by norm_num) (by simp only [init, setCutoff]; norm_num) _

end OnePoleLPF

namespace DCBlock

theorem feed_coeffs (s : Filt ℝ) (x : ℕ → ℝ) (n : ℕ) : (feed tick s x n).coeff = s.coeff := by
  induction n with
  | zero => rfl
  | succ n ih => exact ih

theorem setCutoff_coeff (s : Filt ℝ) (hz : ℝ) (hsr : 0 < s.sampleRate) (h1 : 0 < hz) (h2 : hz ≤ s.sampleRate / 4) :
    (setCutoff hz s).coeff = Real.exp (-radians hz s.sampleRate) := by
  simp only [setCutoff, real_arith]
  push_cast
  have h : ¬ (0.25 < hz / s.sampleRate) := by rw [not_lt, div_le_iff₀ hsr]; linarith
  rw [if_neg (by linarith)]
  simp only [h, if_false]
  congr 1
  simp only [PI, real_arith, radians]; push_cast; ring

/-- The complex gain of the digital one-zero, one-pole high pass whose pole is `r`. -/
noncomputable def blocker (r θ : ℝ) : ℂ := (1 - Complex.exp (-(θ * Complex.I))) / (1 - r * Complex.exp (-(θ * Complex.I)))

/-- **C68** (DCBlock): from the moment the cutoff is set (up to a quarter of the sample rate), in whatever state, the filter answers every
sinusoid as the textbook DC blocker with pole `exp(-ω)`, `ω` the angular frequency of the cutoff. -/
theorem C68_dcblock_response (s : Filt ℝ) (hz : ℝ) (hsr : 0 < s.sampleRate) (h1 : 0 < hz) (h2 : hz ≤ s.sampleRate / 4) (θ : ℝ) :
    Responds tick (setCutoff hz s) θ (blocker (Real.exp (-radians hz s.sampleRate)) θ) := by
  have hr := setCutoff_coeff s hz hsr h1 h2
  set r := Real.exp (-radians hz s.sampleRate) with hrd
  have hω : 0 < radians hz s.sampleRate := by
    rw [radians]; refine div_pos (by linarith) (by linarith)
  have hp0 : 0 < r := Real.exp_pos _
  have hp1 : r < 1 := by rw [hrd, Real.exp_lt_one_iff]; linarith
  intro C
  refine decays_one (p := r) (by rw [abs_of_pos hp0]; exact hp1) _ fun n => ?_
  have c0 := feed_coeffs (setCutoff hz s) (sinusoid C θ) n
  rw [hr] at c0
  have hy : heard tick (setCutoff hz s) (sinusoid C θ) (n + 1) = sinusoid C θ (n + 1) - sinusoid C θ n +
      r * heard tick (setCutoff hz s) (sinusoid C θ) n := by
    simp only [heard, feed]
    generalize feed tick (setCutoff hz s) (sinusoid C θ) n = t at c0
    simp only [tick, c0]
  have hne : (1 - (r:ℂ) * Complex.exp (-(θ * Complex.I))) ≠ 0 := by
    intro h
    have e := norm_pole r θ
    rw [h] at e
    norm_num at e
    nlinarith [Real.cos_le_one θ]
  have hid : sinusoid (blocker r θ * C) θ (n + 1) = sinusoid C θ (n + 1) - sinusoid C θ n + r * sinusoid (blocker r θ * C) θ n := by
    have hneg : -sinusoid C θ n = sinusoid (((-1:ℝ):ℂ) * C) θ n := by rw [sinusoid_smul]; ring
    rw [sub_eq_add_neg, hneg, sinusoid_succ, sinusoid_succ, ← sinusoid_smul, ← sinusoid_add, ← sinusoid_add]
    refine congrArg (sinusoid · θ n) ?_
    have key : blocker r θ * (1 - r * Complex.exp (-(θ * Complex.I))) = 1 - Complex.exp (-(θ * Complex.I)) := div_mul_cancel₀ _ hne
    have hzw : Complex.exp (-(θ * Complex.I)) * Complex.exp (θ * Complex.I) = 1 := by rw [← Complex.exp_add]; simp
    push_cast
    linear_combination (C * Complex.exp (θ * Complex.I)) * key + (r * blocker r θ * C - C) * hzw
  rw [hy, hid]
  ring

theorem blocker_sq (r θ : ℝ) : ‖blocker r θ‖ ^ 2 = 2 * (1 - Real.cos θ) / (1 - 2 * r * Real.cos θ + r ^ 2) := by
  have := norm_pole 1 θ
  rw [Complex.ofReal_one, one_mul] at this
  rw [blocker, norm_div, div_pow, norm_pole, this]; ring

/-- **C68** (DCBlock): DC is removed completely; the gain rises with the frequency; it reaches `2 / (1 + r)` at Nyquist, so that the filter
amplifies high frequencies slightly. -/
theorem C68_dcblock_shape (r θ : ℝ) (hr0 : 0 < r) (hr1 : r < 1) (h0 : 0 ≤ θ) (h1 : θ ≤ Real.pi) :
    blocker r 0 = 0 ∧ ‖blocker r θ‖ ≤ 2 / (1 + r) ∧ blocker r Real.pi = 2 / (1 + r) ∧ 1 < 2 / (1 + r) ∧
      ∀ θ', 0 ≤ θ' → θ' < θ → ‖blocker r θ'‖ < ‖blocker r θ‖ := by
  have hpc : ∀ θ, 0 < 1 - 2 * r * Real.cos θ + r ^ 2 := by
    intro θ; nlinarith [Real.cos_le_one θ]
  have mono : ∀ a b : ℝ, 0 ≤ a → a < b → b ≤ Real.pi → ‖blocker r a‖ < ‖blocker r b‖ := by
    intro a b h2 h3 h4
    rw [← sq_lt_sq₀ (norm_nonneg _) (norm_nonneg _), blocker_sq, blocker_sq, div_lt_div_iff₀ (hpc _) (hpc _)]
    have := Real.cos_lt_cos_of_nonneg_of_le_pi h2 h4 h3
    nlinarith [mul_pos (show 0 < Real.cos a - Real.cos b by linarith) (show 0 < (1 - r) ^ 2 by nlinarith)]
  have hpi : blocker r Real.pi = 2 / (1 + r) := by
    rw [blocker, Complex.exp_neg, Complex.exp_pi_mul_I]
    norm_num
  have hn : ‖blocker r Real.pi‖ = 2 / (1 + r) := by
    rw [hpi, show ((2:ℂ) / (1 + r)) = ((2 / (1 + r) : ℝ) : ℂ) by push_cast; ring, Complex.norm_real, Real.norm_eq_abs, abs_of_pos]
    positivity
  refine ⟨by simp [blocker], ?_, hpi, by rw [lt_div_iff₀ (by linarith)]; linarith, fun θ' h2 h3 => mono _ _ h2 h3 h1⟩
  rcases h1.eq_or_lt with h | h
  · rw [h, hn]
  · rw [← hn]; exact (mono _ _ h0 h le_rfl).le

/-- **C68** (DCBlock): a sinusoid at the cutoff frequency, and hence at any higher frequency, loses at most 3 dB. -/
theorem C68_dcblock_cutoff (ω θ : ℝ) (h : 0 < ω) (hω : ω ≤ Real.pi / 2) (h1 : ω ≤ θ) (h2 : θ ≤ Real.pi) :
    1 / 2 ≤ ‖blocker (Real.exp (-ω)) θ‖ ^ 2 := by
  have hr0 := Real.exp_pos (-ω)
  have hr1 : Real.exp (-ω) < 1 := by rw [Real.exp_lt_one_iff]; linarith
  have hmono : ‖blocker (Real.exp (-ω)) ω‖ ≤ ‖blocker (Real.exp (-ω)) θ‖ := by
    rcases h1.eq_or_lt with e | e
    · rw [e]
    · exact ((C68_dcblock_shape _ θ hr0 hr1 (by linarith) h2).2.2.2.2 ω h.le e).le
  refine le_trans ?_ (pow_le_pow_left₀ (norm_nonneg _) hmono 2)
  set r := Real.exp (-ω) with hr
  have hcos := Real.cos_le_one ω
  have hc0 : 0 ≤ Real.cos ω := Real.cos_nonneg_of_mem_Icc ⟨by linarith [Real.pi_pos], hω⟩
  rw [blocker_sq, le_div_iff₀ (by nlinarith)]
  have hpi := Real.pi_lt_d4
  have hv : 1 - r ≤ ω := by have := Real.add_one_le_exp (-ω); rw [← hr] at this; linarith
  have h3 := Real.sin_gt_sub_cube (x := ω / 2) (by linarith)
  have h4 : Real.cos ω = 1 - 2 * Real.sin (ω / 2) ^ 2 := by
    have := Real.cos_two_mul (ω / 2)
    rw [show 2 * (ω / 2) = ω by ring] at this
    nlinarith [Real.sin_sq_add_cos_sq (ω / 2)]
  have hω2 : ω ≤ 1.5708 := by linarith
  have h5 : (ω / 2 - (ω / 2) ^ 3 / 6) ^ 2 ≤ Real.sin (ω / 2) ^ 2 := by
    refine pow_le_pow_left₀ ?_ h3.le 2
    have : 0 ≤ ω / 2 * (1 - (ω / 2) ^ 2 / 6) := mul_nonneg (by linarith) (by nlinarith)
    nlinarith
  have h6 : ω ^ 2 / 4 * (1 - ω ^ 2 / 12) ≤ (ω / 2 - (ω / 2) ^ 3 / 6) ^ 2 := by nlinarith [sq_nonneg (ω ^ 3)]
  have hb : ω ^ 2 / 2 * (1 - ω ^ 2 / 12) ≤ 1 - Real.cos ω := by rw [h4]; nlinarith
  set b := 1 - Real.cos ω with hbd
  have hb0 : 0 ≤ b := by linarith
  -- the claim is `v² ≤ 2 b (1 + v)` for `v = 1 - r`
  have hv0 : 0 ≤ 1 - r := by linarith
  have hgoal : (1 - r) ^ 2 ≤ 2 * b * (1 + (1 - r)) := by
    by_cases hcase : (1 - r) ^ 2 ≤ 2 * b
    · nlinarith
    · have hl : ω ^ 2 * (1 - ω ^ 2 / 12) * (1 + (1 - r)) ≤ 2 * b * (1 + (1 - r)) := by
        refine mul_le_mul_of_nonneg_right ?_ (by linarith); linarith
      refine le_trans ?_ hl
      set v := 1 - r with hvd
      -- `v² ≤ ω v`, and `ω v ≤ ω² (1 - ω²/12)(1 + v)` because `v ≤ ω`
      have hq : 0 ≤ 1 - ω ^ 2 / 12 := by nlinarith
      have h9 : v ^ 2 * (1 + ω) ≤ ω ^ 2 * (1 + v) := by nlinarith [mul_nonneg hv0 h.le]
      have h10 : 1 ≤ (1 - ω ^ 2 / 12) * (1 + ω) := by nlinarith [sq_nonneg ω, mul_pos h h]
      nlinarith [mul_le_mul_of_nonneg_right h9 hq, mul_le_mul_of_nonneg_left h10 (sq_nonneg v)]
  have hcr : Real.cos ω = 1 - b := by linarith
  clear_value b
  have e : 1 / 2 * (1 - 2 * r * Real.cos ω + r ^ 2) = (1 - r) ^ 2 / 2 + r * b := by rw [hcr]; ring
  have e2 : 2 * b * (1 + (1 - r)) = 4 * b - 2 * (r * b) := by ring
  rw [e]
  linarith

/-- The hypotheses are met by a cutoff of 10 Hz at 48 kHz. -/
example (s : Filt ℝ) (h : s.sampleRate = 48000) (θ : ℝ) : Responds tick (setCutoff 10 s) θ (blocker (Real.exp (-radians 10 48000)) θ) := by
  have := C68_dcblock_response s 10 (by rw [h]; norm_num) (by norm_num) (by rw [h]; norm_num) θ
  rwa [h] at this

end DCBlock
end Verif
