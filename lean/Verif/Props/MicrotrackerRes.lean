import Verif.Props.LadderBounds

/-!
# C51: the Microtracker ladder at resonances up to one half

The saturation curve is `x / 9` plus something below 0.77, so a stage is a one-pole filter with a bounded disturbance. The energy
`20 p0² + 25 p1² + 32 p2² + 50 p3²` plus a memory of the last steps of `p3` (the feedback is delayed) falls whenever it is large, whatever the
cutoff and the resonance are at the moment.
-/

namespace Verif.Microtracker

/-! ### One stage -/

/-- The saturation curve is a ninth of the identity up to 0.77. -/
theorem fastTanh_ninth (x : ℝ) : |fastTanh x - x / 9| ≤ 0.77 := by
  have h : 0 < 27 + 9 * x ^ 2 := by positivity
  have e : fastTanh x - x / 9 = 24 * x / (27 + 9 * x ^ 2) := by rw [fastTanh_real]; field_simp; ring
  rw [e, abs_le, le_div_iff₀ h, div_le_iff₀ h]
  constructor <;> nlinarith [sq_nonneg (x - 1.73), sq_nonneg (x + 1.73)]

/-- A stage moves towards its input, up to a bounded disturbance. -/
theorem stage_drive {c : ℝ} (c1 : c ≤ 1) (x p : ℝ) : ∃ e : ℝ, |e| ≤ 13.86 ∧
    (fastTanh x - fastTanh p) * c = c / (9 - c) * (x + e - (p + (fastTanh x - fastTanh p) * c)) := by
  refine ⟨9 * ((fastTanh x - x / 9) - (fastTanh p - p / 9)), ?_, ?_⟩
  · have h1 := abs_le.1 (fastTanh_ninth x)
    have h2 := abs_le.1 (fastTanh_ninth p)
    rw [abs_le]
    constructor <;> linarith [h1.1, h1.2, h2.1, h2.2]
  · have : (9 - c) ≠ 0 := by linarith
    field_simp
    ring

/-! ### The quadratic form -/

theorem form_zero (a b c d : ℝ) : 50 * (b * a) + 64 * (c * b) + 100 * (d * c) + 3.363 * a ^ 2 ≤
    1.91 * (20 * a ^ 2 + 25 * b ^ 2 + 32 * c ^ 2 + 50 * d ^ 2) := by
  linarith [sq_nonneg (a - 0.7197 * b), sq_nonneg (b - 1.079 * c), sq_nonneg (c - 1.8873 * d), sq_nonneg a, sq_nonneg b, sq_nonneg c, sq_nonneg d,
    sq_nonneg (a + b), sq_nonneg (a - b), sq_nonneg (a + c), sq_nonneg (a - c), sq_nonneg (a + d), sq_nonneg (a - d), sq_nonneg (b + c), sq_nonneg (b - c), sq_nonneg (b + d), sq_nonneg (b - d), sq_nonneg (c + d), sq_nonneg (c - d)]

theorem form_slow (a b c d : ℝ) : 50 * (b * a) + 64 * (c * b) + 100 * (d * c) + 3.363 * a ^ 2 - 40 * 2.0001 * (a * d) ≤
    1.91 * (20 * a ^ 2 + 25 * b ^ 2 + 32 * c ^ 2 + 50 * d ^ 2) := by
  linarith [sq_nonneg (a - 0.7197 * b + 1.1516 * d), sq_nonneg (b - 1.079 * c + 0.9707 * d), sq_nonneg (c - 0.7148 * d), sq_nonneg a, sq_nonneg b, sq_nonneg c, sq_nonneg d,
    sq_nonneg (a + b), sq_nonneg (a - b), sq_nonneg (a + c), sq_nonneg (a - c), sq_nonneg (a + d), sq_nonneg (a - d), sq_nonneg (b + c), sq_nonneg (b - c), sq_nonneg (b + d), sq_nonneg (b - d), sq_nonneg (c + d), sq_nonneg (c - d)]

theorem form_fast (a b c d : ℝ) : 50 * (b * a) + 64 * (c * b) + 100 * (d * c) + 3.363 * a ^ 2 - 40 * 2.0001 * (a * d) + 40 * (2.0001 / 8) * (a * (c - d)) ≤
    1.91 * (20 * a ^ 2 + 25 * b ^ 2 + 32 * c ^ 2 + 50 * d ^ 2) := by
  linarith [sq_nonneg (a - 0.7197 * b - 0.1439 * c + 1.2955 * d), sq_nonneg (b - 1.2003 * c + 1.0921 * d), sq_nonneg (c - 0.2644 * d), sq_nonneg a, sq_nonneg b, sq_nonneg c, sq_nonneg d,
    sq_nonneg (a + b), sq_nonneg (a - b), sq_nonneg (a + c), sq_nonneg (a - c), sq_nonneg (a + d), sq_nonneg (a - d), sq_nonneg (b + c), sq_nonneg (b - c), sq_nonneg (b + d), sq_nonneg (b - d), sq_nonneg (c + d), sq_nonneg (c - d)]

/-- The balance of a tick, for every loop gain up to 2 and every speed. -/
theorem form_le {κ γ : ℝ} (k0 : 0 ≤ κ) (k1 : κ ≤ 2.0001) (g0 : 0 ≤ γ) (g1 : γ ≤ 1 / 8) (a b c d : ℝ) :
    50 * (b * a) + 64 * (c * b) + 100 * (d * c) + 3.363 * a ^ 2 - 40 * κ * (a * d) + 40 * (κ * γ) * (a * (c - d)) ≤
      1.91 * (20 * a ^ 2 + 25 * b ^ 2 + 32 * c ^ 2 + 50 * d ^ 2) := by
  have h1 := form_zero a b c d
  have h2 := form_slow a b c d
  have h3 := form_fast a b c d
  generalize 1.91 * (20 * a ^ 2 + 25 * b ^ 2 + 32 * c ^ 2 + 50 * d ^ 2) = R at *
  generalize 50 * (b * a) + 64 * (c * b) + 100 * (d * c) + 3.363 * a ^ 2 = L at *
  have w2 : 0 ≤ κ * (1 - 8 * γ) := mul_nonneg k0 (by linarith)
  have w3 : 0 ≤ κ * (8 * γ) := mul_nonneg k0 (by linarith)
  have m1 := mul_le_mul_of_nonneg_left h1 (show 0 ≤ 2.0001 - κ by linarith)
  have m2 := mul_le_mul_of_nonneg_left h2 w2
  have m3 := mul_le_mul_of_nonneg_left h3 w3
  nlinarith

/-! ### The energy -/

/-- The energy of a state. -/
def energy (p0 p1 p2 p3 d1 d2 d3 : ℝ) : ℝ :=
  20 * p0 ^ 2 + 25 * p1 ^ 2 + 32 * p2 ^ 2 + 50 * p3 ^ 2 + (49 * d1 ^ 2 + 14 * d2 ^ 2 + 2.33 * d3 ^ 2)

theorem sq_step {γ x p P : ℝ} (h : P - p = γ * (x - P)) : P ^ 2 = p ^ 2 + 2 * (γ * (P * (x - P))) - (P - p) ^ 2 := by
  linear_combination 2 * P * h

theorem young_input {γ P e E : ℝ} (g0 : 0 ≤ γ) (he : |e| ≤ E) : 2 * (γ * (P * e)) ≤ γ * (0.045 * P ^ 2 + E ^ 2 / 0.045) := by
  have h1 : e ^ 2 ≤ E ^ 2 := by rw [← sq_abs]; exact pow_le_pow_left₀ (abs_nonneg e) he 2
  have h2 : 2 * (P * e) ≤ 0.045 * P ^ 2 + E ^ 2 / 0.045 := by
    have h3 := sq_nonneg (0.045 * P - e)
    have h4 : E ^ 2 / 0.045 * 0.045 = E ^ 2 := by field_simp
    nlinarith
  have := mul_le_mul_of_nonneg_left h2 g0
  linarith

/-- The delayed feedback costs no more than the memory holds. -/
theorem young_delay {γ k P d1 d2 d3 : ℝ} (g0 : 0 ≤ γ) (g1 : γ ≤ 1 / 8) (k0 : 0 ≤ k) (k1 : k ≤ 2) :
    40 * (γ * (P * (k * (0.6391585 * d1 + 0.2218685 * d2 + 0.0439725 * d3)))) ≤
      γ * (3.363 * P ^ 2) + (34.8 * d1 ^ 2 + 11.6 * d2 ^ 2 + 2.33 * d3 ^ 2) := by
  have h : (γ * k) ^ 2 ≤ γ / 2 := by
    have h1 : k ^ 2 ≤ 4 := by nlinarith
    have h2 := mul_le_mul_of_nonneg_left h1 (sq_nonneg γ)
    have h3 := mul_le_mul_of_nonneg_left g1 g0
    nlinarith
  have hP := mul_le_mul_of_nonneg_right h (sq_nonneg P)
  generalize hz : γ * k * P = z at *
  have hz2 : z ^ 2 ≤ γ / 2 * P ^ 2 := by rw [← hz]; linarith [hP, mul_pow (γ * k) P 2]
  have e : 40 * (γ * (P * (k * (0.6391585 * d1 + 0.2218685 * d2 + 0.0439725 * d3)))) =
      40 * (z * (0.6391585 * d1 + 0.2218685 * d2 + 0.0439725 * d3)) := by rw [← hz]; ring
  rw [e]
  nlinarith [sq_nonneg (d1 - 20 * 0.6391585 / 34.8 * z), sq_nonneg (d2 - 20 * 0.2218685 / 11.6 * z), sq_nonneg (d3 - 20 * 0.0439725 / 2.33 * z)]

/-- One tick of the energy. -/
theorem energy_step {γ k E p0 p1 p2 p3 d1 d2 d3 P0 P1 P2 P3 x e0 e1 e2 e3 : ℝ} (g0 : 0 ≤ γ) (g1 : γ ≤ 1 / 8) (k0 : 0 ≤ k) (k1 : k ≤ 2)
    (h0 : P0 - p0 = γ * (x - k * (1.0000495 * p3 - 0.6391585 * d1 - 0.2218685 * d2 - 0.0439725 * d3) + e0 - P0))
    (h1 : P1 - p1 = γ * (P0 + e1 - P1)) (h2 : P2 - p2 = γ * (P1 + e2 - P2)) (h3 : P3 - p3 = γ * (P2 + e3 - P3))
    (b0 : |x + e0 + k * 1.0000495 * γ * e3| ≤ E) (b1 : |e1| ≤ E) (b2 : |e2| ≤ E) (b3 : |e3| ≤ E) :
    (1 + 0.045 * γ) * energy P0 P1 P2 P3 (P3 - p3) d1 d2 ≤ energy p0 p1 p2 p3 d1 d2 d3 + 0.045 * γ * (127 * (E ^ 2 / 0.045 ^ 2)) := by
  have s0 := sq_step (x := x - k * (1.0000495 * p3 - 0.6391585 * d1 - 0.2218685 * d2 - 0.0439725 * d3) + e0) h0
  have s1 := sq_step (x := P0 + e1) h1
  have s2 := sq_step (x := P1 + e2) h2
  have s3 := sq_step (x := P2 + e3) h3
  have y0 := young_input (P := P0) g0 b0
  have y1 := young_input (P := P1) g0 b1
  have y2 := young_input (P := P2) g0 b2
  have y3 := young_input (P := P3) g0 b3
  have yd := young_delay (P := P0) (d1 := d1) (d2 := d2) (d3 := d3) g0 g1 k0 k1
  have q := mul_le_mul_of_nonneg_left (form_le (κ := k * 1.0000495) (by positivity) (by linarith) g0 g1 P0 P1 P2 P3) g0
  have e45 : 0.045 * γ * (127 * (E ^ 2 / 0.045 ^ 2)) = 127 * (γ * (E ^ 2 / 0.045)) := by ring
  rw [e45]
  generalize E ^ 2 / 0.045 = Z at *
  -- the step of p3, once as it is and once through its equation
  have t : k * 1.0000495 * (γ * (P0 * p3)) = k * 1.0000495 * (γ * (P0 * (P3 - γ * (P2 + e3 - P3)))) := by rw [← h3]; ring
  generalize hD : P3 - p3 = D at *
  have n0 := sq_nonneg (P0 - p0)
  have n1 := sq_nonneg (P1 - p1)
  have n2 := sq_nonneg (P2 - p2)
  have m0 : γ * D ^ 2 ≤ 1 / 8 * D ^ 2 := mul_le_mul_of_nonneg_right g1 (sq_nonneg D)
  have m1 : γ * d1 ^ 2 ≤ 1 / 8 * d1 ^ 2 := mul_le_mul_of_nonneg_right g1 (sq_nonneg d1)
  have m2 : γ * d2 ^ 2 ≤ 1 / 8 * d2 ^ 2 := mul_le_mul_of_nonneg_right g1 (sq_nonneg d2)
  unfold energy
  linarith [sq_nonneg D, sq_nonneg d1, sq_nonneg d2, sq_nonneg d3]

/-- The invariant. -/
structure Loud (sr R B : ℝ) (s : Ladder ℝ ℝ) : Prop where
  rate : s.sampleRate = sr
  r0 : 0 ≤ s.resonance
  r1 : s.resonance ≤ 1 / 2
  c0 : 0 ≤ s.cutoffCoeff
  c1 : s.cutoffCoeff ≤ 1
  en : energy s.p0 s.p1 s.p2 s.p3 (s.p3 - s.p32) (s.p32 - s.p33) (s.p33 - s.p34) ≤ R
  p32 : |s.p32| ≤ B
  p33 : |s.p33| ≤ B
  p34 : |s.p34| ≤ B

theorem last_le {R B p0 p1 p2 p3 d1 d2 d3 : ℝ} (B0 : 0 ≤ B) (hB : R ≤ 50 * B ^ 2) (h : energy p0 p1 p2 p3 d1 d2 d3 ≤ R) : |p3| ≤ B := by
  unfold energy at h
  refine abs_le_of_sq_le_sq ?_ B0
  nlinarith [sq_nonneg p0, sq_nonneg p1, sq_nonneg p2, sq_nonneg d1, sq_nonneg d2, sq_nonneg d3]

theorem tick_loud {sr E R B M : ℝ} (hR : R = 127 * (E ^ 2 / 0.045 ^ 2)) (hB : R ≤ 50 * B ^ 2) (B0 : 0 ≤ B) (hE : M + 17.4 ≤ E) (s : Ladder ℝ ℝ)
    (x : ℝ) (hx : |x| ≤ M) (h : Loud sr R B s) : Loud sr R B (tick s x).1 ∧ |(tick s x).2| ≤ 1.0000495 * B := by
  have M0 : 0 ≤ M := (abs_nonneg x).trans hx
  have q3 := last_le B0 hB h.en
  have eo : (tick s x).2 = s.p3 * 0.360891 + s.p32 * 0.417290 + s.p33 * 0.177896 + s.p34 * 0.0439725 := by
    simp only [tick, Conv.conv, id, real_arith]; push_cast; rfl
  have ho : |(tick s x).2| ≤ 1.0000495 * B := by
    rw [eo]
    have a := abs_le.1 q3
    have b := abs_le.1 h.p32
    have c := abs_le.1 h.p33
    have d := abs_le.1 h.p34
    rw [abs_le]
    norm_num at *
    constructor <;> linarith
  refine ⟨⟨h.rate, h.r0, h.r1, h.c0, h.c1, ?_, q3, h.p32, h.p33⟩, ho⟩
  have e4 : (lit 4 : ℝ) = 4 := by simp only [real_arith]; norm_num
  have e0 : (tick s x).1.p0 = s.p0 + (fastTanh (x - s.resonance * 4 * (tick s x).2) - fastTanh s.p0) * s.cutoffCoeff := by
    rw [← e4]; rfl
  obtain ⟨f0, a0, b0⟩ := stage_drive h.c1 (x - s.resonance * 4 * (tick s x).2) s.p0
  obtain ⟨f1, a1, b1⟩ := stage_drive h.c1 (tick s x).1.p0 s.p1
  obtain ⟨f2, a2, b2⟩ := stage_drive h.c1 (tick s x).1.p1 s.p2
  obtain ⟨f3, a3, b3⟩ := stage_drive h.c1 (tick s x).1.p2 s.p3
  have g0 : 0 ≤ s.cutoffCoeff / (9 - s.cutoffCoeff) := div_nonneg h.c0 (by linarith [h.c1])
  have g1 : s.cutoffCoeff / (9 - s.cutoffCoeff) ≤ 1 / 8 := by rw [div_le_iff₀ (by linarith [h.c1])]; linarith [h.c1]
  have d0 : (tick s x).1.p0 - s.p0 = s.cutoffCoeff / (9 - s.cutoffCoeff) * (x - s.resonance * 4 * (tick s x).2 + f0 - (tick s x).1.p0) := by
    rw [e0, ← b0]; ring
  have d1 : (tick s x).1.p1 - s.p1 = s.cutoffCoeff / (9 - s.cutoffCoeff) * ((tick s x).1.p0 + f1 - (tick s x).1.p1) :=
    (add_sub_cancel_left _ _).trans b1
  have d2 : (tick s x).1.p2 - s.p2 = s.cutoffCoeff / (9 - s.cutoffCoeff) * ((tick s x).1.p1 + f2 - (tick s x).1.p2) :=
    (add_sub_cancel_left _ _).trans b2
  have d3 : (tick s x).1.p3 - s.p3 = s.cutoffCoeff / (9 - s.cutoffCoeff) * ((tick s x).1.p2 + f3 - (tick s x).1.p3) :=
    (add_sub_cancel_left _ _).trans b3
  have er : (tick s x).2 = 1.0000495 * s.p3 - 0.6391585 * (s.p3 - s.p32) - 0.2218685 * (s.p32 - s.p33) - 0.0439725 * (s.p33 - s.p34) := by
    rw [eo]; ring
  have en := h.en
  have r0 := h.r0
  have r1 := h.r1
  show energy (tick s x).1.p0 (tick s x).1.p1 (tick s x).1.p2 (tick s x).1.p3 ((tick s x).1.p3 - s.p3) (s.p3 - s.p32) (s.p32 - s.p33) ≤ R
  rw [er] at d0
  generalize (tick s x).1.p0 = P0 at *
  generalize (tick s x).1.p1 = P1 at *
  generalize (tick s x).1.p2 = P2 at *
  generalize (tick s x).1.p3 = P3 at *
  generalize s.cutoffCoeff / (9 - s.cutoffCoeff) = γ at *
  have E1 : (13.86:ℝ) ≤ E := by linarith
  have c0 : |x + f0 + s.resonance * 4 * 1.0000495 * γ * f3| ≤ E := by
    have t1 : s.resonance * 4 * 1.0000495 * γ ≤ 2.0001 * (1 / 8) := mul_le_mul (by linarith) g1 g0 (by norm_num)
    have t0 : 0 ≤ s.resonance * 4 * 1.0000495 * γ := by positivity
    have t2 : |s.resonance * 4 * 1.0000495 * γ * f3| ≤ 2.0001 * (1 / 8) * 13.86 := by
      rw [abs_mul, abs_of_nonneg t0]
      exact mul_le_mul t1 a3 (abs_nonneg _) (by norm_num)
    refine (abs_add_le _ _).trans ?_
    have := abs_add_le x f0
    linarith
  have key := energy_step g0 g1 (show 0 ≤ s.resonance * 4 by linarith) (by linarith) d0 d1 d2 d3 c0 (a1.trans E1) (a2.trans E1) (a3.trans E1)
  rw [← hR] at key
  have pos : 0 < 1 + 0.045 * γ := by positivity
  have : (1 + 0.045 * γ) * energy P0 P1 P2 P3 (P3 - s.p3) (s.p3 - s.p32) (s.p32 - s.p33) ≤ (1 + 0.045 * γ) * R := by linarith
  exact le_of_mul_le_mul_left this pos

/-- **C51, Microtracker, partial** (ideal arithmetic): with the resonance kept at or below one half, inputs up to `M` give outputs up to
`35.5 (M + 17.4)`, for every non-negative cutoff, however cutoff and resonance are moved while the filter runs. Missing: resonances above one
half; rounding is in `C51_microtracker_float_partial`. -/
theorem C51_microtracker_half_partial (sr M : ℝ) (hsr : 0 < sr) (s0 : Ladder ℝ ℝ) (l : List (LadderCall ℝ)) (hl : CutoffsIn (fun c => 0 ≤ c) l)
    (hr : ∀ r, LadderCall.setResonance r ∈ l → r ≤ 1 / 2) (hX : InputsIn (fun x => |x| ≤ M) l) (hM : 0 ≤ M) :
    ∀ y ∈ api.play (init sr s0) l, |y| ≤ 35.5 * (M + 17.4) := by
  obtain ⟨E, hE⟩ : ∃ E, E = M + 17.4 := ⟨_, rfl⟩
  obtain ⟨R, hR⟩ : ∃ R : ℝ, R = 127 * (E ^ 2 / 0.045 ^ 2) := ⟨_, rfl⟩
  obtain ⟨B, hB⟩ : ∃ B : ℝ, B = 35.45 * E := ⟨_, rfl⟩
  have E0 : 0 ≤ E := by rw [hE]; linarith
  have B0 : 0 ≤ B := by rw [hB]; positivity
  have R0 : 0 ≤ R := by rw [hR]; positivity
  have hRB : R ≤ 50 * B ^ 2 := by
    rw [hR, hB]
    have : 127 * (E ^ 2 / 0.045 ^ 2) = 127 / 0.045 ^ 2 * E ^ 2 := by ring
    rw [this]
    have e : 50 * (35.45 * E) ^ 2 = 50 * 35.45 ^ 2 * E ^ 2 := by ring
    rw [e]
    exact mul_le_mul_of_nonneg_right (by norm_num) (sq_nonneg E)
  have z : |(lit 0 : ℝ)| ≤ B := by simp only [real_arith]; simpa using B0
  have ze : energy (lit 0) (lit 0) (lit 0) (lit 0) (lit 0 - lit 0) (lit 0 - lit 0) (lit 0 - lit 0) ≤ R := by
    simp only [real_arith, energy]; norm_num; exact R0
  have hc : ∀ c s, 0 ≤ c → Loud sr R B s → Loud sr R B (setCutoff c s) := by
    intro c s c0 h
    have e : (setCutoff c s).cutoffCoeff = if 1 < c * 2 * 3.14159265358979323846 / sr then 1 else c * 2 * 3.14159265358979323846 / sr := by
      rw [← h.rate]
      simp only [setCutoff, PI, Conv.conv, id, real_arith]; push_cast; rfl
    have hq : 0 ≤ c * 2 * 3.14159265358979323846 / sr := by positivity
    refine ⟨h.rate, h.r0, h.r1, ?_, ?_, h.en, h.p32, h.p33, h.p34⟩
    · rw [e]; split_ifs <;> linarith
    · rw [e]; split_ifs <;> linarith
  have hres : ∀ r s, r ≤ 1 / 2 → Loud sr R B s → Loud sr R B (setResonance r s) := by
    intro r s hr h
    have e : (setResonance r s).resonance = if r < 0 then 0 else if 1 < r then 1 else r := by
      simp only [setResonance, clamp01, real_arith]; push_cast; rfl
    refine ⟨h.rate, ?_, ?_, h.c0, h.c1, h.en, h.p32, h.p33, h.p34⟩
    · rw [e]; split_ifs <;> linarith
    · rw [e]; split_ifs <;> linarith
  have key : ∀ (l : List (LadderCall ℝ)) (s : Ladder ℝ ℝ), CutoffsIn (fun c => 0 ≤ c) l → (∀ r, LadderCall.setResonance r ∈ l → r ≤ 1 / 2) →
      InputsIn (fun x => |x| ≤ M) l → Loud sr R B s → ∀ y ∈ api.play s l, |y| ≤ 35.5 * (M + 17.4) := by
    intro l
    induction l with
    | nil => intro s _ _ _ _ y hy; simp [LadderApi.play] at hy
    | cons a l ih =>
      intro s hl hr hX h
      have hl' : CutoffsIn (fun c => 0 ≤ c) l := fun c h => hl c (List.mem_cons_of_mem _ h)
      have hr' : ∀ r, LadderCall.setResonance r ∈ l → r ≤ 1 / 2 := fun c h => hr c (List.mem_cons_of_mem _ h)
      have hX' : InputsIn (fun x => |x| ≤ M) l := fun c h => hX c (List.mem_cons_of_mem _ h)
      cases a with
      | setCutoff c => exact ih _ hl' hr' hX' (hc c s (hl c List.mem_cons_self) h)
      | setResonance r => exact ih _ hl' hr' hX' (hres r s (hr r List.mem_cons_self) h)
      | reset => exact ih _ hl' hr' hX' ⟨h.rate, h.r0, h.r1, h.c0, h.c1, ze, z, z, z⟩
      | tick x =>
        obtain ⟨a, b⟩ := tick_loud hR hRB B0 hE.ge s x (hX x List.mem_cons_self) h
        intro y hy
        rcases List.mem_cons.1 hy with rfl | hy
        · refine b.trans ?_
          rw [hB, ← hE]
          nlinarith
        · exact ih _ hl' hr' hX' a y hy
  have e1000 : (lit 1000 : ℝ) = 1000 := by simp only [real_arith]; norm_num
  have e01 : (lit 0.1 : ℝ) = 0.1 := by simp only [real_arith]; norm_num
  refine key l _ hl hr hX ?_
  have e : init sr s0 = setCutoff (1000 : ℝ) (setResonance (0.1 : ℝ) ({ s0 with
      sampleRate := sr, resonance := 0, p0 := lit 0, p1 := lit 0, p2 := lit 0, p3 := lit 0, p32 := lit 0, p33 := lit 0
      p34 := lit 0, cutoffCoeff := 0 } : Ladder ℝ ℝ)) := by
    rw [← e1000, ← e01]; rfl
  rw [e]
  exact hc _ _ (by norm_num) (hres _ _ (by norm_num) ⟨rfl, le_rfl, by norm_num, le_rfl, zero_le_one, ze, z, z, z⟩)

/-- Concrete case: the settings of the header's example, then a cutoff beyond Nyquist. -/
example : CutoffsIn (fun c : ℝ => 0 ≤ c) [.setCutoff 1000, .setResonance 0.5, .tick 1, .setCutoff 30000, .tick (-1)] ∧
    (∀ r, LadderCall.setResonance r ∈ [LadderCall.setCutoff (1000:ℝ), .setResonance 0.5, .tick 1, .setCutoff 30000, .tick (-1)] → r ≤ 1 / 2) := by
  constructor
  · intro c hc
    simp only [List.mem_cons, reduceCtorEq, false_or, LadderCall.setCutoff.injEq, List.not_mem_nil, or_false] at hc
    rcases hc with rfl | rfl <;> norm_num
  · intro r hr
    simp only [List.mem_cons, reduceCtorEq, false_or, LadderCall.setResonance.injEq, List.not_mem_nil, or_false] at hr
    subst hr
    norm_num

end Verif.Microtracker
