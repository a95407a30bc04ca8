import Verif.Props.LadderDC
import Verif.Props.Response

/-!
# C69: the Oberheim ladder solves its delay-free feedback loop, and its poles are exact at the cutoff; C70, C71 for this ladder
-/

namespace Verif

open Arith Filter Topology

namespace Oberheim

/-! ## Specification -/

/-- Four one-pole filters, one feeding the next. -/
structure Poles where
  f0 : OnePole ℝ
  f1 : OnePole ℝ
  f2 : OnePole ℝ
  f3 : OnePole ℝ

/-- One sample through the four poles. -/
noncomputable def Poles.tick (P : Poles) (u : ℝ) : Poles × ℝ :=
  let a := P.f0.tick u
  let b := P.f1.tick a.2
  let c := P.f2.tick b.2
  let d := P.f3.tick c.2
  (⟨a.1, b.1, c.1, d.1⟩, d.2)

/-- The poles of a ladder. -/
def poles (s : Ladder ℝ ℝ) : Poles := ⟨s.f0, s.f1, s.f2, s.f3⟩

/-- `tan` of half the angular frequency (radians per sample) of the cutoff. -/
noncomputable def warp (sr cut : ℝ) : ℝ := Real.tan (3.14159265358979323846 * cut / sr)

/-- The gain of the bilinear-transformed one-pole low-pass with warped cutoff `g` at `θ` radians per sample. -/
noncomputable def poleGain (g θ : ℝ) : ℂ := g / (g + Real.tan (θ / 2) * Complex.I)

/-! ## The state -/

/-- The constants written by `init`. -/
structure PoleWired (f : OnePole ℝ) : Prop where
  gamma : f.gamma = 1
  feedback : f.feedback = 0
  epsilon : f.epsilon = 0
  a0 : f.a0 = 1

/-- What every history leaves behind. -/
structure Wired (sr : ℝ) (s : Ladder ℝ ℝ) : Prop where
  rate : s.sampleRate = sr
  sat : s.saturation = 1
  c0 : s.c0 = 0
  c1 : s.c1 = 0
  c2 : s.c2 = 0
  c3 : s.c3 = 0
  c4 : s.c4 = 1
  f0 : PoleWired s.f0
  f1 : PoleWired s.f1
  f2 : PoleWired s.f2
  f3 : PoleWired s.f3

theorem pole_wired {f : OnePole ℝ} (h : PoleWired f) (x : ℝ) : PoleWired (f.tick x).1 := ⟨h.gamma, h.feedback, h.epsilon, h.a0⟩

theorem tick_wired {sr : ℝ} (s : Ladder ℝ ℝ) (x : ℝ) (h : Wired sr s) : Wired sr (tick s x).1 :=
  ⟨h.rate, h.sat, h.c0, h.c1, h.c2, h.c3, h.c4, pole_wired h.f0 _, pole_wired h.f1 _, pole_wired h.f2 _, pole_wired h.f3 _⟩

theorem z0 : (lit 0 : ℝ) = 0 := by simp only [real_arith]; norm_num
theorem z1 : (lit 1 : ℝ) = 1 := by simp only [real_arith]; norm_num

theorem setCutoff_wired {sr : ℝ} (c : ℝ) (s : Ladder ℝ ℝ) (h : Wired sr s) : Wired sr (setCutoff c s) :=
  ⟨h.rate, h.sat, z0, z0, z0, z0, z1, ⟨h.f0.gamma, h.f0.feedback, h.f0.epsilon, h.f0.a0⟩, ⟨h.f1.gamma, h.f1.feedback, h.f1.epsilon, h.f1.a0⟩,
    ⟨h.f2.gamma, h.f2.feedback, h.f2.epsilon, h.f2.a0⟩, ⟨h.f3.gamma, h.f3.feedback, h.f3.epsilon, h.f3.a0⟩⟩

theorem setResonance_wired {sr : ℝ} (r : ℝ) (s : Ladder ℝ ℝ) (h : Wired sr s) : Wired sr (setResonance r s) :=
  ⟨h.rate, h.sat, h.c0, h.c1, h.c2, h.c3, h.c4, h.f0, h.f1, h.f2, h.f3⟩

theorem after_wired (sr : ℝ) (s0 : Ladder ℝ ℝ) (l : List (LadderCall ℝ)) : Wired sr (api.after (init sr s0) l) := by
  refine LadderApi.after_inv api (Wired sr) setCutoff_wired setResonance_wired (fun s h => ?_) tick_wired l _ ?_
  · exact ⟨h.rate, h.sat, h.c0, h.c1, h.c2, h.c3, h.c4, ⟨h.f0.gamma, z0, h.f0.epsilon, h.f0.a0⟩, ⟨h.f1.gamma, z0, h.f1.epsilon, h.f1.a0⟩,
      ⟨h.f2.gamma, z0, h.f2.epsilon, h.f2.a0⟩, ⟨h.f3.gamma, z0, h.f3.epsilon, h.f3.a0⟩⟩
  · exact setResonance_wired _ _ (setCutoff_wired _ _ ⟨rfl, z1, z0, z0, z0, z0, z1, ⟨z1, z0, z0, z1⟩, ⟨z1, z0, z0, z1⟩, ⟨z1, z0, z0, z1⟩,
      ⟨z1, z0, z0, z1⟩⟩)

theorem warp_pos {sr cut : ℝ} (hsr : 0 < sr) (h0 : 0 < cut) (h1 : cut ≤ 0.4999 * sr) : 0 < warp sr cut := by
  have hpi := Real.pi_gt_d6
  refine Real.tan_pos_of_pos_of_lt_pi_div_two (by positivity) ?_
  rw [div_lt_iff₀ hsr]; norm_num at *; nlinarith

/-- The coefficients after the two setters. -/
structure Tuned (g K : ℝ) (s : Ladder ℝ ℝ) : Prop where
  a0 : s.f0.alpha = g / (1 + g)
  a1 : s.f1.alpha = g / (1 + g)
  a2 : s.f2.alpha = g / (1 + g)
  a3 : s.f3.alpha = g / (1 + g)
  b0 : s.f0.beta = (g / (1 + g)) ^ 3 / (1 + g)
  b1 : s.f1.beta = (g / (1 + g)) ^ 2 / (1 + g)
  b2 : s.f2.beta = g / (1 + g) / (1 + g)
  b3 : s.f3.beta = 1 / (1 + g)
  eK : s.K = K
  alpha0 : s.alpha0 = 1 / (1 + K * (g / (1 + g)) ^ 4)

theorem set_tuned (sr cut r : ℝ) (hsr : 0 < sr) (r0 : 0 ≤ r) (r1 : r ≤ 1) (s : Ladder ℝ ℝ) (h : Wired sr s) :
    Tuned (warp sr cut) (4 * r) (setResonance r (setCutoff cut s)) := by
  have hgeq : 2 / (1 / sr) * Real.tan (2 * (PI : ℝ) * cut * (1 / sr) / 2) * (1 / sr) / 2 = warp sr cut := by
    have hPI : (PI : ℝ) = 3.14159265358979323846 := by simp only [PI, real_arith]; norm_num
    have e : 2 * (PI : ℝ) * cut * (1 / sr) / 2 = 3.14159265358979323846 * cut / sr := by rw [hPI]; field_simp
    rw [e, warp]; field_simp
  obtain ⟨g, hg⟩ : ∃ g, g = warp sr cut := ⟨_, rfl⟩
  rw [← hg] at hgeq ⊢
  constructor <;>
  · simp only [setResonance, setCutoff, Conv.conv, id, clamp01_id r0 r1, h.rate, real_arith]
    push_cast
    simp only [hgeq]
    try ring

/-! ## C69 -/

theorem pole_out {f : OnePole ℝ} (h : PoleWired f) (x : ℝ) : (f.tick x).2 = (1 - f.alpha) * f.z1 + f.alpha * x := by
  simp only [OnePole.tick, OnePole.feedbackOutput, h.gamma, h.feedback, h.epsilon, h.a0, real_arith]; ring

theorem pole_next {f : OnePole ℝ} (h : PoleWired f) (x : ℝ) : (f.tick x).1 = { f with z1 := (1 - 2 * f.alpha) * f.z1 + 2 * f.alpha * x } := by
  simp only [OnePole.tick, OnePole.feedbackOutput, h.gamma, h.feedback, h.epsilon, h.a0, real_arith]
  congr 1; ring

theorem pole_sigma {f : OnePole ℝ} (h : PoleWired f) : f.feedbackOutput = f.beta * f.z1 := by
  simp only [OnePole.feedbackOutput, h.feedback, real_arith]; ring

/-- The input of the saturation. -/
theorem tick_eq {sr g K : ℝ} (s : Ladder ℝ ℝ) (x : ℝ) (h : Wired sr s) (t : Tuned g K s) :
    ∃ u, u = (x * (1 + K) - K * (s.f0.beta * s.f0.z1 + s.f1.beta * s.f1.z1 + s.f2.beta * s.f2.z1 + s.f3.beta * s.f3.z1)) * s.alpha0 ∧
      poles (tick s x).1 = ((poles s).tick (Real.tanh u)).1 ∧ (tick s x).2 = ((poles s).tick (Real.tanh u)).2 := by
  refine ⟨_, rfl, ?_⟩
  obtain ⟨v, hv⟩ : ∃ v, v = Libm.tanh (s.saturation * ((Conv.conv x * (lit 1 + s.K) - s.K * (s.f0.feedbackOutput + s.f1.feedbackOutput +
    s.f2.feedbackOutput + s.f3.feedbackOutput)) * s.alpha0)) := ⟨_, rfl⟩
  have hv' : v = Real.tanh ((x * (1 + K) - K * (s.f0.beta * s.f0.z1 + s.f1.beta * s.f1.z1 + s.f2.beta * s.f2.z1 + s.f3.beta * s.f3.z1)) * s.alpha0) := by
    rw [hv, pole_sigma h.f0, pole_sigma h.f1, pole_sigma h.f2, pole_sigma h.f3, h.sat, t.eK, z1]
    simp only [Conv.conv, id, real_arith, one_mul]
  rw [← hv']
  constructor
  · simp only [tick, ← hv, poles, Poles.tick]
  · simp only [tick, ← hv, h.c0, h.c1, h.c2, h.c3, h.c4, poles, Poles.tick]
    simp only [Conv.conv, id, real_arith]
    ring

/-- **C69** (ideal arithmetic): after any history, for every cutoff below Nyquist and every resonance `r`, the input of the saturation is the
one and only solution `u` of the loop equation `u = x (1 + 4r) - 4r · y`, where `y` is what the four poles answer *in the same sample* when
fed `u`; and the output is what they answer when fed `tanh u`. -/
theorem C69_loop_solved (sr cut r : ℝ) (hsr : 0 < sr) (h0 : 0 < cut) (h1 : cut ≤ 0.4999 * sr) (r0 : 0 ≤ r) (r1 : r ≤ 1) (s0 : Ladder ℝ ℝ)
    (l : List (LadderCall ℝ)) (x : ℝ) (s : Ladder ℝ ℝ) (hs : s = setResonance r (setCutoff cut (api.after (init sr s0) l))) :
    ∃ u, (∀ v, v = x * (1 + 4 * r) - 4 * r * ((poles s).tick v).2 ↔ v = u) ∧
      poles (tick s x).1 = ((poles s).tick (Real.tanh u)).1 ∧ (tick s x).2 = ((poles s).tick (Real.tanh u)).2 := by
  have g0 := warp_pos hsr h0 h1
  have hw := setResonance_wired r _ (setCutoff_wired cut _ (after_wired sr s0 l))
  have ht := set_tuned sr cut r hsr r0 r1 _ (after_wired sr s0 l)
  rw [← hs] at hw ht
  obtain ⟨g, hg⟩ : ∃ g, g = warp sr cut := ⟨_, rfl⟩
  rw [← hg] at g0 ht
  obtain ⟨u, hu, hp, hy⟩ := tick_eq s x hw ht
  refine ⟨u, fun v => ?_, hp, hy⟩
  have e : ((poles s).tick v).2 = (g / (1 + g)) ^ 4 * v +
      (s.f0.beta * s.f0.z1 + s.f1.beta * s.f1.z1 + s.f2.beta * s.f2.z1 + s.f3.beta * s.f3.z1) := by
    simp only [Poles.tick, poles]
    rw [pole_out hw.f3, pole_out hw.f2, pole_out hw.f1, pole_out hw.f0, ht.a0, ht.a1, ht.a2, ht.a3, ht.b0, ht.b1, ht.b2, ht.b3]
    field_simp; ring
  rw [e]
  rw [ht.alpha0] at hu
  have hd : 0 < 1 + 4 * r * (g / (1 + g)) ^ 4 := by positivity
  rw [hu, mul_one_div, eq_div_iff hd.ne']
  constructor <;> intro h <;> linarith

/-- Concrete case: 48 kHz, cutoff 1 kHz, full resonance, after some playing. -/
example (s0 : Ladder ℝ ℝ) := C69_loop_solved 48000 1000 1 (by norm_num) (by norm_num) (by norm_num) (by norm_num) (by norm_num) s0
  [.tick 5, .reset, .tick 1] 0.5 _ rfl

/-! ### The poles -/

theorem pole_feed {f : OnePole ℝ} (h : PoleWired f) (x : ℕ → ℝ) (n : ℕ) :
    PoleWired (feed OnePole.tick f x n) ∧ (feed OnePole.tick f x n).alpha = f.alpha ∧
    (feed OnePole.tick f x (n + 1)).z1 = (1 - 2 * f.alpha) * (feed OnePole.tick f x n).z1 + 2 * f.alpha * x n ∧
    heard OnePole.tick f x n = (1 - f.alpha) * (feed OnePole.tick f x n).z1 + f.alpha * x n := by
  have hc : PoleWired (feed OnePole.tick f x n) ∧ (feed OnePole.tick f x n).alpha = f.alpha := by
    induction n with
    | zero => exact ⟨h, rfl⟩
    | succ n ih => exact ⟨pole_wired ih.1 _, by rw [feed, pole_next ih.1]; exact ih.2⟩
  refine ⟨hc.1, hc.2, ?_, ?_⟩
  · rw [feed, pole_next hc.1, hc.2]
  · rw [heard, pole_out hc.1, hc.2]

/-- The four poles play each on what the one before plays. -/
theorem poles_feed (P : Poles) (x : ℕ → ℝ) (n : ℕ) :
    feed Poles.tick P x n = ⟨feed OnePole.tick P.f0 x n, feed OnePole.tick P.f1 (heard OnePole.tick P.f0 x) n,
      feed OnePole.tick P.f2 (heard OnePole.tick P.f1 (heard OnePole.tick P.f0 x)) n,
      feed OnePole.tick P.f3 (heard OnePole.tick P.f2 (heard OnePole.tick P.f1 (heard OnePole.tick P.f0 x))) n⟩ := by
  induction n with
  | zero => rfl
  | succ n ih => rw [feed, ih]; rfl

theorem poles_heard (P : Poles) (x : ℕ → ℝ) (n : ℕ) :
    heard Poles.tick P x n = heard OnePole.tick P.f3 (heard OnePole.tick P.f2 (heard OnePole.tick P.f1 (heard OnePole.tick P.f0 x))) n := by
  rw [heard, poles_feed]; rfl

theorem exp_half {θ : ℝ} (hθ : Real.cos (θ / 2) ≠ 0) :
    (Complex.exp (θ * Complex.I) - 1) = (Complex.exp (θ * Complex.I) + 1) * (Real.tan (θ / 2) * Complex.I) ∧ Complex.exp (θ * Complex.I) + 1 ≠ 0 := by
  obtain ⟨c, hc⟩ : ∃ c, c = Real.cos (θ / 2) := ⟨_, rfl⟩
  obtain ⟨d, hd⟩ : ∃ d, d = Real.sin (θ / 2) := ⟨_, rfl⟩
  have h1 : Complex.exp (θ * Complex.I) = (c + d * Complex.I) ^ 2 := by
    rw [show (θ:ℂ) * Complex.I = (2:ℕ) * (((θ / 2 : ℝ) : ℂ) * Complex.I) by push_cast; ring, Complex.exp_nat_mul, Complex.exp_mul_I, hc, hd]
    push_cast; rfl
  have hcd : (c:ℂ) ^ 2 + d ^ 2 = 1 := by
    have := Real.cos_sq_add_sin_sq (θ / 2)
    rw [← hc, ← hd] at this
    exact_mod_cast this
  rw [← hc] at hθ
  have hc' : (c:ℂ) ≠ 0 := by exact_mod_cast hθ
  have ht : ((Real.tan (θ / 2) : ℝ) : ℂ) = d / c := by rw [Real.tan_eq_sin_div_cos, ← hc, ← hd]; push_cast; rfl
  have h2 : Complex.exp (θ * Complex.I) + 1 = 2 * c * (c + d * Complex.I) := by
    rw [h1]; linear_combination (d:ℂ) ^ 2 * Complex.I_sq - hcd
  have hne : (c:ℂ) + d * Complex.I ≠ 0 := by
    intro h
    have : ((c:ℂ) + d * Complex.I).re = 0 := by rw [h]; rfl
    simp at this
    exact hθ this
  refine ⟨?_, by rw [h2]; exact mul_ne_zero (mul_ne_zero two_ne_zero hc') hne⟩
  rw [h2, ht, h1]
  field_simp
  linear_combination hcd * 1 - (d:ℂ) ^ 2 * Complex.I_sq

/-- A pole answers an input that approaches a sinusoid with an output that approaches a sinusoid. -/
theorem pole_responds {f : OnePole ℝ} (h : PoleWired f) {g : ℝ} (g0 : 0 < g) (ha : f.alpha = g / (1 + g)) {θ : ℝ} (hθ : Real.cos (θ / 2) ≠ 0) (C : ℂ)
    (x : ℕ → ℝ) (hx : Tendsto (fun n => x n - sinusoid C θ n) atTop (𝓝 0)) :
    Tendsto (fun n => heard OnePole.tick f x n - sinusoid (poleGain g θ * C) θ n) atTop (𝓝 0) := by
  obtain ⟨w, hw⟩ : ∃ w, w = Complex.exp (θ * Complex.I) := ⟨_, rfl⟩
  obtain ⟨t, et⟩ : ∃ t, t = Real.tan (θ / 2) := ⟨_, rfl⟩
  obtain ⟨hh, hw1⟩ := exp_half hθ
  rw [← hw] at hh hw1
  rw [← et] at hh
  have hgt : (g:ℂ) + t * Complex.I ≠ 0 := by
    intro h
    have : ((g:ℂ) + t * Complex.I).re = 0 := by rw [h]; rfl
    simp at this
    linarith
  have hg1 : (1:ℂ) + g ≠ 0 := by
    have : (1 + g) ≠ 0 := by positivity
    exact_mod_cast this
  obtain ⟨D, hD⟩ : ∃ D, D = 2 * (g:ℂ) / ((w + 1) * (g + t * Complex.I)) * C := ⟨_, rfl⟩
  have hG : ((f.alpha : ℝ) : ℂ) = g / (1 + g) := by rw [ha]; push_cast; rfl
  -- the memory follows `D`
  have hz : Tendsto (fun n => (feed OnePole.tick f x n).z1 - sinusoid D θ n) atTop (𝓝 0) := by
    rw [← near_zero] at hx ⊢
    have a1 : |1 - 2 * f.alpha| < 1 := by
      rw [abs_lt, ha]
      have : 0 < g / (1 + g) := by positivity
      have : g / (1 + g) < 1 := by rw [div_lt_one (by positivity)]; linarith
      constructor <;> linarith
    refine (Near.linear (a := 1 - 2 * f.alpha) (b := 2 * f.alpha) (c := 0) (y := 0) a1 _ _ (fun n => ?_) (by ring) hx).congr rfl (by ring)
    rw [(pole_feed h x n).2.2.1]
    have e : sinusoid D θ (n + 1) = (1 - 2 * f.alpha) * sinusoid D θ n + 2 * f.alpha * sinusoid C θ n := by
      rw [sinusoid_succ, ← sinusoid_smul, ← sinusoid_smul, ← sinusoid_add]
      refine congrArg (sinusoid · θ n) ?_
      rw [← hw]
      push_cast
      rw [hG, hD]
      field_simp
      linear_combination (g * C) * hh
    rw [e]; ring
  have hout := (hz.const_mul (1 - f.alpha)).add (hx.const_mul f.alpha)
  rw [mul_zero, mul_zero, add_zero] at hout
  refine hout.congr fun n => ?_
  rw [(pole_feed h x n).2.2.2]
  have e : sinusoid (poleGain g θ * C) θ n = (1 - f.alpha) * sinusoid D θ n + f.alpha * sinusoid C θ n := by
    rw [← sinusoid_smul, ← sinusoid_smul, ← sinusoid_add]
    refine congrArg (sinusoid · θ n) ?_
    push_cast
    rw [hG, hD, poleGain, ← et]
    field_simp
    linear_combination (g * C) * hh
  rw [e]; ring

/-- **C69** (ideal arithmetic): after any history, for every cutoff below Nyquist, the four poles together answer every sinusoid below Nyquist
(`θ` radians per sample) with the fourth power of the analogue one-pole gain `1 / (1 + i tan(θ/2)/g)`. -/
theorem C69_poles (sr cut r : ℝ) (hsr : 0 < sr) (h0 : 0 < cut) (h1 : cut ≤ 0.4999 * sr) (r0 : 0 ≤ r) (r1 : r ≤ 1) (s0 : Ladder ℝ ℝ)
    (l : List (LadderCall ℝ)) (θ : ℝ) (hθ0 : 0 ≤ θ) (hθ : θ < Real.pi) :
    Responds Poles.tick (poles (setResonance r (setCutoff cut (api.after (init sr s0) l)))) θ (poleGain (warp sr cut) θ ^ 4) := by
  have g0 := warp_pos hsr h0 h1
  have hw := setResonance_wired r _ (setCutoff_wired cut _ (after_wired sr s0 l))
  have ht := set_tuned sr cut r hsr r0 r1 _ (after_wired sr s0 l)
  obtain ⟨s, hs⟩ : ∃ s : Ladder ℝ ℝ, s = setResonance r (setCutoff cut (api.after (init sr s0) l)) := ⟨_, rfl⟩
  rw [← hs] at hw ht ⊢
  obtain ⟨g, hg⟩ : ∃ g, g = warp sr cut := ⟨_, rfl⟩
  rw [← hg] at g0 ht ⊢
  have hc : Real.cos (θ / 2) ≠ 0 := (Real.cos_pos_of_mem_Ioo ⟨by linarith [Real.pi_pos], by linarith⟩).ne'
  intro C
  have a := pole_responds hw.f0 g0 ht.a0 hc C (sinusoid C θ) (by simp)
  have b := pole_responds hw.f1 g0 ht.a1 hc _ _ a
  have c := pole_responds hw.f2 g0 ht.a2 hc _ _ b
  have d := pole_responds hw.f3 g0 ht.a3 hc _ _ c
  refine d.congr fun n => ?_
  rw [poles_heard]
  congr 2
  ring

/-- **C69**: at the cutoff itself every pole has gain `1/√2` and lags by 45°, so the four together multiply by exactly `-1/4`: with resonance `r`
the loop gain for small signals is `-r`, and full resonance is the edge of self-oscillation, at every cutoff. -/
theorem C69_cutoff (sr cut : ℝ) (hsr : 0 < sr) (h0 : 0 < cut) (h1 : cut ≤ 0.4999 * sr) :
    let H := poleGain (warp sr cut) (2 * 3.14159265358979323846 * cut / sr)
    H = 1 / (1 + Complex.I) ∧ ‖H‖ = 1 / Real.sqrt 2 ∧ H ^ 4 = -1 / 4 := by
  have g0 := warp_pos hsr h0 h1
  have hne : (1:ℂ) + Complex.I ≠ 0 := by
    intro h
    have : ((1:ℂ) + Complex.I).re = 0 := by rw [h]; rfl
    simp at this
  have e : poleGain (warp sr cut) (2 * 3.14159265358979323846 * cut / sr) = 1 / (1 + Complex.I) := by
    have ht : Real.tan (2 * 3.14159265358979323846 * cut / sr / 2) = warp sr cut := by
      rw [warp]; congr 1; ring
    have : ((warp sr cut : ℝ) : ℂ) ≠ 0 := by exact_mod_cast g0.ne'
    rw [poleGain, ht]
    field_simp
  intro H
  have eH : H = 1 / (1 + Complex.I) := e
  refine ⟨eH, ?_, ?_⟩
  · rw [eH, norm_div, norm_one]
    congr 1
    rw [Complex.norm_def, Complex.normSq_apply]
    simp
    norm_num
  · rw [eH, div_pow, div_eq_div_iff (pow_ne_zero 4 hne) (by norm_num)]
    have : ((1:ℂ) + Complex.I) ^ 4 = -4 := by
      linear_combination (Complex.I ^ 2 + 4 * Complex.I + 5) * Complex.I_sq
    rw [this]; norm_num

/-- Concrete case: 48 kHz, cutoff 1 kHz. -/
example (s0 : Ladder ℝ ℝ) := C69_poles 48000 1000 1 (by norm_num) (by norm_num) (by norm_num) (by norm_num) (by norm_num) s0
  [.tick 5, .reset, .tick 1] 0.13 (by norm_num) (by linarith [Real.pi_gt_three])

/-! ## C70, C71 -/

theorem near_pole {f : OnePole ℝ} (h : PoleWired f) {g c B : ℝ} (g0 : 0 < g) (ha : f.alpha = g / (1 + g)) (x : ℕ → ℝ) (hx : Near x c B) :
    Near (fun n => (feed OnePole.tick f x n).z1) c (max 1 g * B) ∧ Near (heard OnePole.tick f x) c (max 1 g * B) := by
  have hB := hx.nonneg
  obtain ⟨G, hG⟩ : ∃ G, G = g / (1 + g) := ⟨_, rfl⟩
  rw [← hG] at ha
  have G0 : 0 < G := by rw [hG]; positivity
  have G1 : G < 1 := by rw [hG, div_lt_one (by positivity)]; linarith
  have gG : G / (1 - G) = g := by
    rw [hG]; field_simp; ring
  have hz : Near (fun n => (feed OnePole.tick f x n).z1) c (max 1 g * B) := by
    have hl := Near.linear (a := 1 - 2 * G) (b := 2 * G) (c := c) (y := c) (by rw [abs_lt]; constructor <;> linarith)
      (fun n => (feed OnePole.tick f x n).z1) x
      (fun n => by rw [← ha]; exact (pole_feed h x n).2.2.1) (by ring) hx
    refine hl.mono ?_
    rw [abs_of_nonneg (by linarith : 0 ≤ 2 * G), mul_div_right_comm]
    refine mul_le_mul_of_nonneg_right ?_ hB
    rcases le_total (2 * G) 1 with hc | hc
    · rw [abs_of_nonneg (by linarith), show 1 - (1 - 2 * G) = 2 * G by ring, div_self (by linarith)]
      exact le_max_left _ _
    · rw [abs_of_nonpos (by linarith), show 1 - -(1 - 2 * G) = 2 * (1 - G) by ring, mul_div_mul_left _ _ two_ne_zero, gG]
      exact le_max_right _ _
  refine ⟨hz, ?_⟩
  have ho := (hz.mul (1 - G)).add (hx.mul G)
  have ho' : Near (heard OnePole.tick f x) ((1 - G) * c + G * c) (|1 - G| * (max 1 g * B) + |G| * B) :=
    cast (by congr 1; funext n; rw [(pole_feed h x n).2.2.2, ha]) ho
  refine (ho'.congr (by ring) rfl).mono ?_
  rw [abs_of_pos G0, abs_of_nonneg (by linarith)]
  have : B ≤ max 1 g * B := le_mul_of_one_le_left hB (le_max_left _ _)
  nlinarith

/-- **C70, Oberheim, partial** (ideal arithmetic): after any history, with a cutoff below Nyquist and a loop gain below one, an input that
settles at `c` makes the output settle at the solution of `y = tanh ((c (1 + K) - K (1 - γ) y) / (1 + K γ))`, `K = 4r` and
`γ = (g / (1 + g))⁴`. Missing: larger loop gains. -/
theorem C70_oberheim_partial (sr cut r c : ℝ) (hsr : 0 < sr) (h0 : 0 < cut) (h1 : cut ≤ 0.4999 * sr) (r0 : 0 ≤ r) (r1 : r ≤ 1) (s0 : Ladder ℝ ℝ)
    (l : List (LadderCall ℝ)) (g γ : ℝ) (hg : g = warp sr cut) (hγ : γ = (g / (1 + g)) ^ 4)
    (hk : 4 * r * (1 - γ) * max 1 g ^ 4 < 1 + 4 * r * γ) (y : ℝ)
    (hy : y = Real.tanh ((c * (1 + 4 * r) - 4 * r * (1 - γ) * y) / (1 + 4 * r * γ))) :
    SettlesAt tick (setResonance r (setCutoff cut (api.after (init sr s0) l))) c y := by
  have g0 := warp_pos hsr h0 h1
  have hw := setResonance_wired r _ (setCutoff_wired cut _ (after_wired sr s0 l))
  have ht := set_tuned sr cut r hsr r0 r1 _ (after_wired sr s0 l)
  obtain ⟨s, hs⟩ : ∃ s : Ladder ℝ ℝ, s = setResonance r (setCutoff cut (api.after (init sr s0) l)) := ⟨_, rfl⟩
  rw [← hs] at hw ht ⊢
  rw [← hg] at g0 ht
  have γ0 : 0 ≤ γ := by rw [hγ]; positivity
  have γ1 : γ ≤ 1 := by
    rw [hγ]; refine pow_le_one₀ (by positivity) ?_
    rw [div_le_one (by positivity)]; linarith
  have hden : 0 < 1 + 4 * r * γ := by positivity
  intro x hx
  -- the saturated input of the poles
  have hstep : ∀ n, Wired sr (feed tick s x n) ∧ Tuned g (4 * r) (feed tick s x n) := by
    intro n
    induction n with
    | zero => exact ⟨hw, ht⟩
    | succ n ih =>
      obtain ⟨w, t⟩ := ih
      exact ⟨tick_wired _ _ w, ⟨t.a0, t.a1, t.a2, t.a3, t.b0, t.b1, t.b2, t.b3, t.eK, t.alpha0⟩⟩
  obtain ⟨v, hv⟩ : ∃ v : ℕ → ℝ, v = fun n => (x n * (1 + 4 * r) - 4 * r * ((feed tick s x n).f0.beta * (feed tick s x n).f0.z1 +
      (feed tick s x n).f1.beta * (feed tick s x n).f1.z1 + (feed tick s x n).f2.beta * (feed tick s x n).f2.z1 +
      (feed tick s x n).f3.beta * (feed tick s x n).f3.z1)) * (feed tick s x n).alpha0 := ⟨_, rfl⟩
  have hfeed : ∀ n, poles (feed tick s x n) = feed Poles.tick (poles s) (fun n => Real.tanh (v n)) n := by
    intro n
    induction n with
    | zero => rfl
    | succ n ih =>
      obtain ⟨u, hu, hp, -⟩ := tick_eq (feed tick s x n) (x n) (hstep n).1 (hstep n).2
      rw [feed, hp, feed, ← ih, hu, hv]
  have hheard : ∀ n, heard tick s x n = heard Poles.tick (poles s) (fun n => Real.tanh (v n)) n := by
    intro n
    obtain ⟨u, hu, -, hp⟩ := tick_eq (feed tick s x n) (x n) (hstep n).1 (hstep n).2
    rw [heard, hp, heard, ← hfeed, hu, hv]
  obtain ⟨Λ, hΛ⟩ : ∃ Λ, Λ = max 1 g := ⟨_, rfl⟩
  have Λ1 : 1 ≤ Λ := by rw [hΛ]; exact le_max_left _ _
  rw [← hΛ] at hk
  have chain : ∀ B, Near (fun n => Real.tanh (v n)) y B → Near (fun n => (feed tick s x n).f0.z1) y (Λ ^ 4 * B) ∧
      Near (fun n => (feed tick s x n).f1.z1) y (Λ ^ 4 * B) ∧ Near (fun n => (feed tick s x n).f2.z1) y (Λ ^ 4 * B) ∧
      Near (fun n => (feed tick s x n).f3.z1) y (Λ ^ 4 * B) ∧ Near (heard tick s x) y (Λ ^ 4 * B) := by
    intro B hB
    have B0 := hB.nonneg
    obtain ⟨a, a'⟩ := near_pole hw.f0 g0 ht.a0 _ hB
    obtain ⟨b, b'⟩ := near_pole hw.f1 g0 ht.a1 _ a'
    obtain ⟨c, c'⟩ := near_pole hw.f2 g0 ht.a2 _ b'
    obtain ⟨d, d'⟩ := near_pole hw.f3 g0 ht.a3 _ c'
    rw [← hΛ] at a b c d d'
    have up : ∀ k, k ≤ 4 → Λ ^ k * B ≤ Λ ^ 4 * B := fun k hk => mul_le_mul_of_nonneg_right (pow_le_pow_right₀ Λ1 hk) B0
    refine ⟨?_, ?_, ?_, ?_, ?_⟩
    · refine Near.mono (B := Λ ^ 1 * B) ?_ (up 1 (by norm_num))
      rw [pow_one]
      exact cast (by congr 1; funext n; rw [show (feed tick s x n).f0 = (poles (feed tick s x n)).f0 from rfl, hfeed, poles_feed]; rfl) a
    · refine Near.mono (B := Λ ^ 2 * B) ?_ (up 2 (by norm_num))
      rw [pow_two, mul_assoc]
      exact cast (by congr 1; funext n; rw [show (feed tick s x n).f1 = (poles (feed tick s x n)).f1 from rfl, hfeed, poles_feed]; rfl) b
    · refine Near.mono (B := Λ ^ 3 * B) ?_ (up 3 (by norm_num))
      rw [show Λ ^ 3 * B = Λ * (Λ * (Λ * B)) by ring]
      exact cast (by congr 1; funext n; rw [show (feed tick s x n).f2 = (poles (feed tick s x n)).f2 from rfl, hfeed, poles_feed]; rfl) c
    · rw [show Λ ^ 4 * B = Λ * (Λ * (Λ * (Λ * B))) by ring]
      exact cast (by congr 1; funext n; rw [show (feed tick s x n).f3 = (poles (feed tick s x n)).f3 from rfl, hfeed, poles_feed]; rfl) d
    · rw [show Λ ^ 4 * B = Λ * (Λ * (Λ * (Λ * B))) by ring]
      exact cast (by congr 1; funext n; rw [hheard, poles_heard]; rfl) d'
  have turn : ∀ B, Near (fun n => Real.tanh (v n)) y B → Near (fun n => Real.tanh (v n)) y (4 * r * (1 - γ) * Λ ^ 4 / (1 + 4 * r * γ) * B) := by
    intro B hB
    obtain ⟨n0, n1, n2, n3, -⟩ := chain B hB
    obtain ⟨M, hM⟩ : ∃ M, M = Λ ^ 4 * B := ⟨_, rfl⟩
    rw [← hM] at n0 n1 n2 n3
    have p0 : 0 ≤ (g / (1 + g)) ^ 3 / (1 + g) := by positivity
    have p1 : 0 ≤ (g / (1 + g)) ^ 2 / (1 + g) := by positivity
    have p2 : 0 ≤ g / (1 + g) / (1 + g) := by positivity
    have p3 : 0 ≤ 1 / (1 + g) := by positivity
    have psum : (g / (1 + g)) ^ 3 / (1 + g) + (g / (1 + g)) ^ 2 / (1 + g) + g / (1 + g) / (1 + g) + 1 / (1 + g) = 1 - γ := by
      rw [hγ]; field_simp; ring
    have hσ := (((n0.mul ((g / (1 + g)) ^ 3 / (1 + g))).add (n1.mul ((g / (1 + g)) ^ 2 / (1 + g)))).add (n2.mul (g / (1 + g) / (1 + g)))).add
      (n3.mul (1 / (1 + g)))
    rw [abs_of_nonneg p0, abs_of_nonneg p1, abs_of_nonneg p2, abs_of_nonneg p3] at hσ
    have hin := (((near_zero.2 hx).mul (1 + 4 * r)).add (hσ.mul (-(4 * r)))).mul (1 / (1 + 4 * r * γ))
    have hin' := hin.congr (y' := (c * (1 + 4 * r) - 4 * r * (1 - γ) * y) / (1 + 4 * r * γ)) (B' := 4 * r * (1 - γ) * Λ ^ 4 / (1 + 4 * r * γ) * B)
      (by rw [← psum]; ring) (by rw [← psum, hM, abs_neg, abs_of_nonneg (by positivity : 0 ≤ 4 * r), abs_of_nonneg (by positivity : 0 ≤ 1 / (1 + 4 * r * γ))]; ring)
    intro ε hε
    filter_upwards [hin' ε hε] with n hn
    rw [hy]
    refine (abs_tanh_sub_le _ _).trans (le_trans (le_of_eq ?_) hn)
    congr 2
    have t := (hstep n).2
    rw [hv]
    dsimp only
    rw [t.b0, t.b1, t.b2, t.b3, t.alpha0, ← hγ]
    ring
  have κ0 : 0 ≤ 4 * r * (1 - γ) * Λ ^ 4 / (1 + 4 * r * γ) := by
    have : 0 ≤ 1 - γ := by linarith
    positivity
  have htan : Tendsto (fun n => Real.tanh (v n)) atTop (𝓝 y) := by
    refine small_gain (B₀ := 2) κ0 (by rw [div_lt_one hden]; exact hk) (Near.of_le fun n => ?_) turn
    rw [hy]
    exact (abs_sub _ _).trans (by linarith [Krajeski.abs_tanh_le (v n), Krajeski.abs_tanh_le ((c * (1 + 4 * r) - 4 * r * (1 - γ) * y) / (1 + 4 * r * γ))])
  rw [← near_zero] at htan ⊢
  exact (chain 0 htan).2.2.2.2.congr rfl (by ring)

/-- **C70, Oberheim**: without resonance the output settles at `tanh c`, at every cutoff below Nyquist. -/
theorem C70_oberheim_flat (sr cut c : ℝ) (hsr : 0 < sr) (h0 : 0 < cut) (h1 : cut ≤ 0.4999 * sr) (s0 : Ladder ℝ ℝ) (l : List (LadderCall ℝ)) :
    SettlesAt tick (setResonance 0 (setCutoff cut (api.after (init sr s0) l))) c (Real.tanh c) :=
  C70_oberheim_partial sr cut 0 c hsr h0 h1 le_rfl zero_le_one s0 l _ _ rfl rfl (by norm_num) _ (by norm_num)

theorem warp_le_one {sr cut : ℝ} (hsr : 0 < sr) (h0 : 0 < cut) (h1 : cut ≤ sr / 4) : warp sr cut ≤ 1 := by
  have hpi := Real.pi_gt_d20
  have hpos := Real.pi_pos
  have a0 : 0 < 3.14159265358979323846 * cut / sr := by positivity
  have a1 : 3.14159265358979323846 * cut / sr ≤ Real.pi / 4 := by
    rw [div_le_iff₀ hsr]; norm_num at *; nlinarith
  rw [warp, ← Real.tan_pi_div_four]
  exact Real.strictMonoOn_tan.monotoneOn ⟨by linarith, by linarith⟩ ⟨by linarith, by linarith⟩ a1

/-- **C71, Oberheim, partial**: with a cutoff up to a quarter of the sample rate and a resonance below 1/4, when the input dies away so does the
output. Missing: larger resonances. -/
theorem C71_oberheim_partial (sr cut r : ℝ) (hsr : 0 < sr) (h0 : 0 < cut) (h1 : cut ≤ sr / 4) (r0 : 0 ≤ r) (r1 : r < 1 / 4) (s0 : Ladder ℝ ℝ)
    (l : List (LadderCall ℝ)) : SettlesAt tick (setResonance r (setCutoff cut (api.after (init sr s0) l))) 0 0 := by
  have g0 := warp_pos hsr h0 (by norm_num; linarith)
  refine C70_oberheim_partial sr cut r 0 hsr h0 (by norm_num; linarith) r0 (by linarith) s0 l _ _ rfl rfl ?_ 0 (by simp)
  rw [max_eq_left (warp_le_one hsr h0 h1), one_pow, mul_one]
  obtain ⟨q, hq⟩ : ∃ q, q = (warp sr cut / (1 + warp sr cut)) ^ 4 := ⟨_, rfl⟩
  have q0 : 0 ≤ q := by rw [hq]; positivity
  rw [← hq]
  nlinarith

/-- Concrete case: 48 kHz, cutoff 1 kHz, the default resonance 0.1. -/
example (s0 : Ladder ℝ ℝ) : SettlesAt tick (setResonance 0.1 (setCutoff 1000 (api.after (init 48000 s0) [.tick 5, .reset, .tick 1]))) 0 0 :=
  C71_oberheim_partial 48000 1000 0.1 (by norm_num) (by norm_num) (by norm_num) (by norm_num) (by norm_num) s0 _

end Oberheim

end Verif
