import Verif.Props.Downsampler
import Verif.Props.Response
import Mathlib.Algebra.BigOperators.Field
import Mathlib.Analysis.Real.Pi.Bounds
import Mathlib.Analysis.Convex.Deriv
import Mathlib.Analysis.SpecialFunctions.Trigonometric.DerivHyp

/-!
# C101: what the downsampler lets through

The frequency response of `Downsampler` from the high-rate input to the low-rate output (exact arithmetic): four one-pole low passes, the
mean of `f` samples, and one output for `f` inputs.
-/

namespace Verif

/-- A first-order recursion driven by something that dies out dies out. -/
theorem decays_driven {p : ℝ} (h0 : 0 ≤ p) (hp : p < 1) {w δ : ℕ → ℝ} (hw : ∀ n, w (n + 1) = p * w n + δ n)
    (hδ : Filter.Tendsto δ Filter.atTop (nhds 0)) : Filter.Tendsto w Filter.atTop (nhds 0) := by
  rw [Metric.tendsto_atTop] at hδ ⊢
  intro ε hε
  obtain ⟨N, hN⟩ := hδ (ε / 2 * (1 - p)) (by have : 0 < 1 - p := by linarith
                                             positivity)
  have hb : ∀ k, |w (N + k)| ≤ p ^ k * |w N| + ε / 2 := by
    intro k
    induction k with
    | zero => simp; linarith
    | succ k ih =>
      have hd := hN (N + k) (by omega)
      rw [Real.dist_eq, sub_zero] at hd
      rw [show N + (k + 1) = N + k + 1 by ring, hw, pow_succ]
      have h1 := abs_add_le (p * w (N + k)) (δ (N + k))
      rw [abs_mul, abs_of_nonneg h0] at h1
      nlinarith [mul_le_mul_of_nonneg_left ih h0]
  have ht : Filter.Tendsto (fun k => p ^ k * |w N|) Filter.atTop (nhds (0 * |w N|)) :=
    (tendsto_pow_atTop_nhds_zero_of_lt_one h0 hp).mul_const _
  rw [zero_mul, Metric.tendsto_atTop] at ht
  obtain ⟨K, hK⟩ := ht (ε / 2) (by linarith)
  refine ⟨N + K, fun n hn => ?_⟩
  obtain ⟨k, rfl⟩ : ∃ k, n = N + k := ⟨n - N, by omega⟩
  have h1 := hK k (by omega)
  rw [Real.dist_eq, sub_zero, abs_of_nonneg (by positivity)] at h1
  rw [Real.dist_eq, sub_zero]
  linarith [hb k]

namespace Downsampler
open OnePoleLPF (onePole)

/-- The values a one-pole filter takes: `a` at first, then a step of `c` times the difference towards each input. -/
def pole (c a : ℝ) (v : ℕ → ℝ) : ℕ → ℝ
  | 0 => a
  | n + 1 => pole c a v n + c * (v n - pole c a v n)

/-- The four stages, each fed with the new value of the previous one. -/
def stage (c : ℝ) (a : ℕ → ℝ) (x : ℕ → ℝ) : ℕ → ℕ → ℝ
  | 0 => pole c (a 0) x
  | i + 1 => pole c (a (i + 1)) (fun n => stage c a x i (n + 1))

/-- A pole fed with something that settles on a sinusoid settles on that sinusoid times `onePole`. -/
theorem pole_responds {p : ℝ} (h0 : 0 < p) (h1 : p < 1) (a : ℝ) {v : ℕ → ℝ} {D : ℂ} {θ : ℝ}
    (hv : Filter.Tendsto (fun n => v n - sinusoid D θ n) Filter.atTop (nhds 0)) :
    Filter.Tendsto (fun n => pole (1 - p) a v (n + 1) - sinusoid (onePole p θ * D) θ n) Filter.atTop (nhds 0) := by
  have hne : (1 - (p:ℂ) * Complex.exp (-(θ * Complex.I))) ≠ 0 := by
    intro h
    have e := norm_pole p θ
    rw [h] at e
    norm_num at e
    nlinarith [Real.cos_le_one θ]
  have hid : ∀ n, sinusoid (onePole p θ * D) θ (n + 1) = (1 - p) * sinusoid D θ (n + 1) + p * sinusoid (onePole p θ * D) θ n := by
    intro n
    rw [sinusoid_succ, sinusoid_succ, ← sinusoid_smul, ← sinusoid_smul, ← sinusoid_add]
    refine congrArg (sinusoid · θ n) ?_
    have key : onePole p θ * (1 - p * Complex.exp (-(θ * Complex.I))) = 1 - p := div_mul_cancel₀ _ hne
    have hzw : Complex.exp (-(θ * Complex.I)) * Complex.exp (θ * Complex.I) = 1 := by rw [← Complex.exp_add]; simp
    push_cast
    linear_combination (D * Complex.exp (θ * Complex.I)) * key + p * onePole p θ * D * hzw
  refine decays_driven h0.le h1 (δ := fun n => (1 - p) * (v (n + 1) - sinusoid D θ (n + 1))) (fun n => ?_) ?_
  · rw [hid, pole]; ring
  · have := ((Filter.tendsto_add_atTop_iff_nat 1).2 hv).const_mul (1 - p)
    rwa [mul_zero] at this

theorem stage_responds {p : ℝ} (h0 : 0 < p) (h1 : p < 1) (a : ℕ → ℝ) (C : ℂ) (θ : ℝ) (i : ℕ) :
    Filter.Tendsto (fun n => stage (1 - p) a (sinusoid C θ) i (n + 1) - sinusoid (onePole p θ ^ (i + 1) * C) θ n) Filter.atTop (nhds 0) := by
  induction i with
  | zero =>
    have := pole_responds h0 h1 (a 0) (v := sinusoid C θ) (D := C) (θ := θ) (by simp)
    simpa [stage] using this
  | succ i ih =>
    have := pole_responds h0 h1 (a (i + 1)) (v := fun n => stage (1 - p) a (sinusoid C θ) i (n + 1)) ih
    rw [← mul_assoc, ← pow_succ'] at this
    simpa [stage] using this

/-- The four filter values at time `n`. -/
def stages (c : ℝ) (a : ℕ → ℝ) (x : ℕ → ℝ) (n : ℕ) : List ℝ := [stage c a x 0 n, stage c a x 1 n, stage c a x 2 n, stage c a x 3 n]

theorem cascade_stages (c : ℝ) (a x : ℕ → ℝ) (n : ℕ) :
    cascade c (x n) (stages c a x n) = (stage c a x 3 (n + 1), stages c a x (n + 1)) := by
  simp only [cascade, stages, forEach, real_arith]
  simp only [stage, pole]

theorem write_stages {c : ℝ} {a x : ℕ → ℝ} : ∀ (k n : ℕ) (s : Down ℝ), s.filterCoeff = c → s.filterState = stages c a x n →
    s.sampleCount + k < 2 ^ 64 →
    ((List.range' n k).map x).foldl write s =
      { s with filterState := stages c a x (n + k), accumulator := s.accumulator + ∑ j ∈ Finset.range k, stage c a x 3 (n + j + 1),
               sampleCount := s.sampleCount + k } := by
  intro k
  induction k with
  | zero => intro n s _ h2 _; cases s; simp at h2 ⊢; exact h2
  | succ k ih =>
    intro n s h1 h2 h3
    have hw : write s (x n) = { s with filterState := stages c a x (n + 1), accumulator := s.accumulator + stage c a x 3 (n + 1),
                                       sampleCount := s.sampleCount + 1 } := by
      have hc' : szAdd s.sampleCount 1 = s.sampleCount + 1 := by rw [szAdd, Nat.mod_eq_of_lt (by omega)]
      simp only [write, h1, h2, cascade_stages, hc', real_arith]
    rw [List.range'_succ, List.map_cons, List.foldl_cons, hw,
      ih (n + 1) { s with filterState := stages c a x (n + 1), accumulator := s.accumulator + stage c a x 3 (n + 1),
                          sampleCount := s.sampleCount + 1 } h1 rfl (by show s.sampleCount + 1 + k < 2 ^ 64; omega)]
    have e1 : n + 1 + k = n + (k + 1) := by ring
    have e2 : s.sampleCount + 1 + k = s.sampleCount + (k + 1) := by ring
    have e3 : s.accumulator + stage c a x 3 (n + 1) + ∑ j ∈ Finset.range k, stage c a x 3 (n + 1 + j + 1) =
        s.accumulator + ∑ j ∈ Finset.range (k + 1), stage c a x 3 (n + j + 1) := by
      rw [Finset.sum_range_succ', add_comm (∑ _ ∈ _, _), ← add_assoc]
      simp only [add_zero]
      congr 1
      exact Finset.sum_congr rfl fun j _ => by congr 1; ring
    simp only [e1, e2, e3]

theorem writeRead_stages {c : ℝ} {a x : ℕ → ℝ} {f : ℕ} (hf : 0 < f) (hf2 : f < 2 ^ 64) : ∀ (M n : ℕ) (s : Down ℝ), s.filterCoeff = c →
    s.filterState = stages c a x n → s.sampleCount = 0 → s.accumulator = 0 →
    (writeRead f M ((List.range' n (M * f)).map x) s).2 =
      (List.range M).map fun m => (∑ j ∈ Finset.range f, stage c a x 3 (n + m * f + j + 1)) / f := by
  intro M
  induction M with
  | zero => intro n s _ _ _ _; rfl
  | succ M ih =>
    intro n s h1 h2 h3 h4
    have ht : ((List.range' n ((M + 1) * f)).map x).take f = (List.range' n f).map x := by
      rw [← List.map_take, show (M + 1) * f = f + M * f by ring, ← List.range'_append_1, List.take_left' (by simp)]
    have hd : ((List.range' n ((M + 1) * f)).map x).drop f = (List.range' (n + f) (M * f)).map x := by
      rw [← List.map_drop, List.drop_range', mul_one, show (M + 1) * f - f = M * f by rw [add_mul]; omega]
    have hw := write_stages f n s h1 h2 (by rw [h3]; omega)
    simp only [writeRead]
    rw [ht, hd, hw]
    have hr : read { s with filterState := stages c a x (n + f),
                            accumulator := s.accumulator + ∑ j ∈ Finset.range f, stage c a x 3 (n + j + 1),
                            sampleCount := s.sampleCount + f } =
        ({ s with filterState := stages c a x (n + f), accumulator := 0, sampleCount := 0 },
          (∑ j ∈ Finset.range f, stage c a x 3 (n + j + 1)) / f) := by
      simp only [read, h3, h4, zero_add, hf.ne', if_false, real_arith, Rat.cast_zero]
    rw [hr]
    simp only
    rw [ih (n + f) { s with filterState := stages c a x (n + f), accumulator := 0, sampleCount := 0 } h1 rfl rfl rfl, List.range_succ_eq_map, List.map_cons, List.map_map]
    congr 1
    · simp
    · refine List.map_congr_left fun m _ => ?_
      simp only [Function.comp]
      congr 1
      exact Finset.sum_congr rfl fun j _ => by congr 1; rw [Nat.succ_eq_add_one]; ring

/-- The complex gain from an input of `θ` radians per high-rate sample to the low-rate output: four one-pole filters tuned to 0.45 of the
output rate and the mean over `f` samples. -/
noncomputable def response (f : ℕ) (θ : ℝ) : ℂ :=
  (∑ j ∈ Finset.range f, Complex.exp (θ * Complex.I) ^ j) / f * onePole (Real.exp (-radians 0.45 f)) θ ^ 4

theorem init_coeff {rate : ℝ} (hr : rate ≠ 0) {f : ℕ} (h1 : 1 ≤ f) (h2 : f ≤ 16) :
    (init rate f).filterCoeff = 1 - Real.exp (-radians 0.45 f) ∧ (init rate f).oversampleFactor = f := by
  have hk : (if f > MAX_OVERSAMPLE then MAX_OVERSAMPLE else if f < 1 then 1 else f) = f := by
    rw [if_neg (by unfold MAX_OVERSAMPLE; omega), if_neg (by omega)]
  have hf0 : (f:ℝ) ≠ 0 := by exact_mod_cast (by omega : f ≠ 0)
  simp only [init, hk, TWO_PI, PI, real_arith, radians, and_true]
  push_cast
  congr 3
  field_simp

theorem sinusoid_add_time (D : ℂ) (θ : ℝ) (n j : ℕ) : sinusoid D θ (n + j) = sinusoid (Complex.exp (θ * Complex.I) ^ j * D) θ n := by
  simp only [sinusoid]
  congr 1
  rw [pow_add]; ring

theorem sinusoid_decimate (D : ℂ) (θ : ℝ) (f m : ℕ) : sinusoid D θ (m * f) = sinusoid D (f * θ) m := by
  simp only [sinusoid]
  congr 2
  rw [← Complex.exp_nat_mul, ← Complex.exp_nat_mul]
  congr 1
  push_cast; ring

theorem before_state {c : ℝ} (xs : List ℝ) (s : Down ℝ) (h : s.filterCoeff = c) (hl : s.filterState.length = 4) :
    (xs.foldl write s).filterCoeff = c ∧ (xs.foldl write s).filterState.length = 4 := by
  induction xs generalizing s with
  | nil => exact ⟨h, hl⟩
  | cons x xs ih =>
    refine ih (write s x) h ?_
    simp only [write, cascade]
    rw [forEach_length]; exact hl

theorem write_count (xs : List ℝ) : ∀ s : Down ℝ, s.sampleCount + xs.length < 2 ^ 64 →
    (xs.foldl write s).sampleCount = s.sampleCount + xs.length := by
  induction xs with
  | nil => intro s _; rfl
  | cons x xs ih =>
    intro s h
    rw [List.length_cons] at h
    have e : (write s x).sampleCount = s.sampleCount + 1 := by
      simp only [write, szAdd]; exact Nat.mod_eq_of_lt (by omega)
    rw [List.foldl_cons, ih _ (by rw [e]; omega), e, List.length_cons]; ring

/-- **C101** (exact arithmetic): whatever was written before, a sinusoid of `θ` radians per high-rate sample comes out, once the transient
has died out, as a sinusoid of `f·θ` radians per output sample (that is, the same frequency or its alias) multiplied by
`response f θ`. -/
theorem C101_response (rate : ℝ) (hr : rate ≠ 0) (f : ℕ) (h1 : 1 ≤ f) (h2 : f ≤ 16) (before : List ℝ) (hb : before.length < 2 ^ 64)
    (C : ℂ) (θ : ℝ) :
    ∃ y : ℕ → ℝ,
      (∀ M, M * f < 2 ^ 64 → ∃ s', process ((List.range (M * f)).map (sinusoid C θ)) M (read (before.foldl write (init rate f))).1 =
        some (s', (List.range M).map y)) ∧
      Filter.Tendsto (fun m => y m - sinusoid (response f θ * C) (f * θ) m) Filter.atTop (nhds 0) := by
  obtain ⟨hc, hfac⟩ := init_coeff hr h1 h2
  set p := Real.exp (-radians 0.45 f) with hp
  have hfR : (0:ℝ) < f := by exact_mod_cast h1
  have hp0 : 0 < p := Real.exp_pos _
  have hp1 : p < 1 := by
    rw [hp, Real.exp_lt_one_iff, neg_lt_zero, radians]; positivity
  obtain ⟨b1, b2⟩ := before_state before (init rate f) hc (by simp [init, FILTER_ORDER])
  set s := (read (before.foldl write (init rate f))).1 with hs
  have s1 : s.filterCoeff = 1 - p := by rw [hs]; simp only [read]; split_ifs <;> exact b1
  have s2 : s.filterState.length = 4 := by rw [hs]; simp only [read]; split_ifs <;> exact b2
  have s5 : s.oversampleFactor = f := by rw [hs, read_factor, write_factor, hfac]
  obtain ⟨a, ha⟩ : ∃ a : ℕ → ℝ, s.filterState = stages (1 - p) a (sinusoid C θ) 0 := by
    obtain ⟨q0, q1, q2, q3, hq⟩ : ∃ q0 q1 q2 q3, s.filterState = [q0, q1, q2, q3] := by
      match h : s.filterState, s2 with
      | [q0, q1, q2, q3], _ => exact ⟨_, _, _, _, rfl⟩
    exact ⟨fun i => [q0, q1, q2, q3].getD i 0, by rw [hq]; simp [stages, stage, pole]⟩
  have s34 : s.sampleCount = 0 ∧ s.accumulator = 0 := by
    by_cases h0 : before = []
    · rw [hs, h0]; simp [read, init, real_arith]
    · have hcount := write_count before (init rate f) (by simpa [init] using hb)
      have hne : (before.foldl write (init rate f)).sampleCount ≠ 0 := by
        rw [hcount]
        have := List.length_pos_of_ne_nil h0
        omega
      rw [hs]
      simp [read, hne, real_arith]
  refine ⟨fun m => (∑ j ∈ Finset.range f, stage (1 - p) a (sinusoid C θ) 3 (0 + m * f + j + 1)) / f, fun M hM => ?_, ?_⟩
  · have h := (C33_process_eq_loop s ((List.range (M * f)).map (sinusoid C θ)) M (by simp [s5]) (by simpa using hM)).1
    have h' := writeRead_stages (c := 1 - p) (a := a) (x := sinusoid C θ) (by omega : 0 < f) (by omega) M 0 s s1 ha s34.1 s34.2
    rw [h, s5, List.range_eq_range', ← h']
    exact ⟨_, rfl⟩
  · have hj : ∀ j, Filter.Tendsto (fun m => stage (1 - p) a (sinusoid C θ) 3 (0 + m * f + j + 1) -
        sinusoid (onePole p θ ^ 4 * C) θ (m * f + j)) Filter.atTop (nhds 0) := by
      intro j
      have ht : Filter.Tendsto (fun m : ℕ => m * f + j) Filter.atTop Filter.atTop :=
        Filter.tendsto_atTop_mono (fun m => by show m ≤ m * f + j; nlinarith [Nat.zero_le j, Nat.mul_le_mul_left m h1]) Filter.tendsto_id
      have := (stage_responds hp0 hp1 a C θ 3).comp ht
      simpa [Function.comp_def] using this
    have hsum := (tendsto_finsetSum (Finset.range f) fun j _ => hj j).div_const (f:ℝ)
    rw [Finset.sum_const_zero, zero_div] at hsum
    refine hsum.congr fun m => ?_
    rw [Finset.sum_sub_distrib, sub_div]
    congr 1
    rw [← sinusoid_decimate]
    simp only [sinusoid]
    rw [← Complex.re_sum, response, ← Complex.ofReal_natCast f, ← Complex.div_ofReal_re]
    congr 1
    rw [Finset.sum_div, Finset.sum_div, Finset.sum_mul, Finset.sum_mul, Finset.sum_mul]
    refine Finset.sum_congr rfl fun j _ => ?_
    rw [pow_add]
    ring

/-! ## The shape of the response -/

/-- `‖onePole‖²` in terms of half angles. -/
theorem onePole_half (ω θ : ℝ) (hω : 0 < ω) :
    ‖onePole (Real.exp (-ω)) θ‖ ^ 2 = Real.sinh (ω / 2) ^ 2 / (Real.sinh (ω / 2) ^ 2 + Real.sin (θ / 2) ^ 2) := by
  set q := Real.exp (-(ω / 2)) with hq
  have hq0 : 0 < q := Real.exp_pos _
  have hp : Real.exp (-ω) = q ^ 2 := by rw [hq, ← Real.exp_nat_mul]; congr 1; push_cast; ring
  have hs : Real.sinh (ω / 2) = (1 - q ^ 2) / (2 * q) := by
    have : Real.exp (ω / 2) = q⁻¹ := by rw [hq, Real.exp_neg, inv_inv]
    rw [Real.sinh_eq, this, ← hq]; field_simp
  have hc : Real.cos θ = 1 - 2 * Real.sin (θ / 2) ^ 2 := by
    have := Real.cos_two_mul' (θ / 2)
    rw [show 2 * (θ / 2) = θ by ring, Real.cos_sq'] at this
    linarith
  have hq1 : q < 1 := by rw [hq, Real.exp_lt_one_iff]; linarith
  have hpos : 0 < 1 - q ^ 2 := by nlinarith
  have hn : ‖onePole (q ^ 2) θ‖ ^ 2 = (1 - q ^ 2) ^ 2 / (1 - 2 * q ^ 2 * Real.cos θ + (q ^ 2) ^ 2) := by
    have e : (1 - ((q ^ 2 : ℝ):ℂ)) = ((1 - q ^ 2 : ℝ) : ℂ) := by push_cast; ring
    rw [onePole, norm_div, div_pow, norm_pole, e, Complex.norm_real, Real.norm_eq_abs, sq_abs]
  rw [hp, hn, hs, hc]
  have h1 : 0 < (1 - q ^ 2) ^ 2 + 4 * q ^ 2 * Real.sin (θ / 2) ^ 2 := by positivity
  rw [show 1 - 2 * q ^ 2 * (1 - 2 * Real.sin (θ / 2) ^ 2) + (q ^ 2) ^ 2 = (1 - q ^ 2) ^ 2 + 4 * q ^ 2 * Real.sin (θ / 2) ^ 2 by ring,
    show ((1 - q ^ 2) / (2 * q)) ^ 2 + Real.sin (θ / 2) ^ 2 =
      ((1 - q ^ 2) ^ 2 + 4 * q ^ 2 * Real.sin (θ / 2) ^ 2) / (2 * q) ^ 2 by field_simp; ring]
  rw [div_pow, div_div_div_cancel_right₀ (by positivity)]

/-- The mean of `f` consecutive powers: `sin(fθ/2)/(f·sin(θ/2))` in absolute value. -/
theorem box_norm (f : ℕ) (θ : ℝ) :
    ‖(∑ j ∈ Finset.range f, Complex.exp (θ * Complex.I) ^ j) / f‖ * (f * |Real.sin (θ / 2)|) = |Real.sin (f * θ / 2)| := by
  rcases Nat.eq_zero_or_pos f with rfl | hf
  · simp
  have hfR : (0:ℝ) < f := by exact_mod_cast hf
  have h := geom_sum_mul (Complex.exp (θ * Complex.I)) f
  have n1 : ‖Complex.exp (θ * Complex.I) - 1‖ = 2 * |Real.sin (θ / 2)| := by
    rw [mul_comm, Complex.norm_exp_I_mul_ofReal_sub_one, norm_mul]; norm_num
  have n2 : ‖Complex.exp (θ * Complex.I) ^ f - 1‖ = 2 * |Real.sin (f * θ / 2)| := by
    rw [← Complex.exp_nat_mul, show (f:ℂ) * (θ * Complex.I) = Complex.I * ((f * θ : ℝ) : ℂ) by push_cast; ring,
      Complex.norm_exp_I_mul_ofReal_sub_one, norm_mul]; norm_num
  have h' := congrArg norm h
  rw [norm_mul, n1, n2] at h'
  rw [norm_div, Complex.norm_natCast]
  field_simp
  linarith

theorem box_le_one (f : ℕ) (θ : ℝ) : ‖(∑ j ∈ Finset.range f, Complex.exp (θ * Complex.I) ^ j) / (f:ℂ)‖ ≤ 1 := by
  rw [norm_div, Complex.norm_natCast]
  refine div_le_one_of_le₀ ?_ (Nat.cast_nonneg f)
  refine (norm_sum_le _ _).trans ?_
  simp [norm_pow, Complex.norm_exp_ofReal_mul_I]

theorem radians_pos (f : ℕ) (h1 : 1 ≤ f) : 0 < radians 0.45 f := by
  have hfR : (0:ℝ) < f := by exact_mod_cast h1
  unfold radians; positivity

/-- **C101**: a constant passes unchanged, no frequency is amplified, and what would fold exactly onto the constant is removed. -/
theorem C101_passive (f : ℕ) (h1 : 1 ≤ f) :
    response f 0 = 1 ∧ (∀ θ, ‖response f θ‖ ≤ 1) ∧
      ∀ k : ℤ, ¬ (f:ℤ) ∣ k → response f (2 * Real.pi * k / f) = 0 := by
  have hfC : (f:ℂ) ≠ 0 := by exact_mod_cast (by omega : f ≠ 0)
  have hfR : (f:ℝ) ≠ 0 := by exact_mod_cast (by omega : f ≠ 0)
  have hω := radians_pos f h1
  have hp0 := Real.exp_pos (-radians 0.45 f)
  have hp1 : Real.exp (-radians 0.45 f) < 1 := by rw [Real.exp_lt_one_iff]; linarith
  refine ⟨?_, fun θ => ?_, fun k hk => ?_⟩
  · rw [response, (OnePoleLPF.C68_onepole_shape _ 0 hp0 hp1 Real.pi_pos.le).1]
    simp [div_self hfC]
  · rw [response, norm_mul, norm_pow]
    have hH : ‖onePole (Real.exp (-radians 0.45 f)) θ‖ ≤ 1 := by
      rw [← sq_le_one_iff₀ (norm_nonneg _), onePole_half _ _ hω]
      have : 0 < Real.sinh (radians 0.45 f / 2) := Real.sinh_pos_iff.2 (by linarith)
      rw [div_le_one (by positivity)]
      nlinarith [sq_nonneg (Real.sin (θ / 2))]
    exact mul_le_one₀ (box_le_one f θ) (by positivity) (pow_le_one₀ (norm_nonneg _) hH)
  · have hb := box_norm f (2 * Real.pi * k / f)
    have hsin : Real.sin (2 * Real.pi * k / f / 2) ≠ 0 := by
      intro h0
      obtain ⟨n, hn⟩ := Real.sin_eq_zero_iff.1 h0
      refine hk ⟨n, ?_⟩
      have : (k:ℝ) = f * n := by
        have hpi := Real.pi_ne_zero
        field_simp at hn
        linarith
      exact_mod_cast this
    have hz : Real.sin (f * (2 * Real.pi * k / f) / 2) = 0 := by
      rw [show (f:ℝ) * (2 * Real.pi * k / f) / 2 = k * Real.pi by field_simp]
      exact Real.sin_int_mul_pi k
    rw [hz, abs_zero] at hb
    have : ‖(∑ j ∈ Finset.range f, Complex.exp ((2 * Real.pi * k / f : ℝ) * Complex.I) ^ j) / (f:ℂ)‖ = 0 := by
      rcases mul_eq_zero.1 hb with h | h
      · exact h
      · rcases mul_eq_zero.1 h with h | h
        · exact absurd h hfR
        · exact absurd (abs_eq_zero.1 h) hsin
    rw [response, norm_eq_zero.1 this, zero_mul]

/-- A concave function that is not negative at both ends of an interval is not negative inside. -/
theorem concave_ends {g g' : ℝ → ℝ} {b : ℝ} (hd : ∀ x, HasDerivAt g (g' x) x) (ha : AntitoneOn g' (Set.Icc 0 b)) (h0 : 0 ≤ g 0) (hb : 0 ≤ g b)
    {x : ℝ} (hx0 : 0 ≤ x) (hxb : x ≤ b) : 0 ≤ g x := by
  have hc : ConcaveOn ℝ (Set.Icc 0 b) g := by
    refine AntitoneOn.concaveOn_of_deriv (convex_Icc 0 b) (fun y _ => (hd y).continuousAt.continuousWithinAt)
      (fun y _ => (hd y).differentiableAt.differentiableWithinAt) ?_
    rw [interior_Icc]
    intro y hy z hz hyz
    rw [(hd y).deriv, (hd z).deriv]
    exact ha ⟨hy.1.le, hy.2.le⟩ ⟨hz.1.le, hz.2.le⟩ hyz
  have hb0 : 0 ≤ b := hx0.trans hxb
  have := hc.min_le_of_mem_Icc ⟨le_refl 0, hb0⟩ ⟨hb0, le_refl b⟩ (⟨hx0, hxb⟩ : x ∈ Set.Icc 0 b)
  exact (le_min h0 hb).trans this

/-- `sin x ≥ r·sinh(k·x)` up to `b` if it holds at `b`. -/
theorem sin_ge_sinh {r k b : ℝ} (hr : 0 ≤ r) (hk : 0 ≤ k) (hbpi : b ≤ Real.pi) (hb : r * Real.sinh (k * b) ≤ Real.sin b) {x : ℝ} (hx0 : 0 ≤ x)
    (hxb : x ≤ b) : r * Real.sinh (k * x) ≤ Real.sin x := by
  have hd : ∀ x, HasDerivAt (fun x => Real.sin x - r * Real.sinh (k * x)) (Real.cos x - r * (Real.cosh (k * x) * k)) x := by
    intro x
    have h1 : HasDerivAt (fun x => k * x) k x := by simpa using (hasDerivAt_id x).const_mul k
    exact (Real.hasDerivAt_sin x).sub ((h1.sinh).const_mul r)
  have := concave_ends hd (b := b) (fun y hy z hz hyz => by
    have hcos : Real.cos z ≤ Real.cos y := Real.cos_le_cos_of_nonneg_of_le_pi hy.1 (hz.2.trans hbpi) hyz
    have hcosh : Real.cosh (k * y) ≤ Real.cosh (k * z) := by
      rw [Real.cosh_le_cosh, abs_of_nonneg (mul_nonneg hk hy.1), abs_of_nonneg (mul_nonneg hk hz.1)]
      exact mul_le_mul_of_nonneg_left hyz hk
    have := mul_le_mul_of_nonneg_left (mul_le_mul_of_nonneg_right hcosh hk) hr
    show Real.cos z - _ ≤ Real.cos y - _
    linarith) (by simp) (by linarith) hx0 hxb
  linarith

theorem sinh_num {t : ℝ} (ht : t ≤ 0.7069) : Real.sinh t ≤ 0.7675 := by
  refine (Real.sinh_le_sinh.2 ht).trans ?_
  have hE : Real.exp 0.7069 ≤ 2.028 := by
    have := Real.exp_bound' (x := 0.7069) (by norm_num) (by norm_num) (n := 7) (by norm_num)
    refine this.trans ?_
    norm_num [Finset.sum_range_succ, Nat.factorial]
  have hE0 := Real.exp_pos 0.7069
  rw [Real.sinh_eq, Real.exp_neg]
  have : (2.028:ℝ)⁻¹ ≤ (Real.exp 0.7069)⁻¹ := inv_anti₀ hE0 hE
  norm_num at this ⊢
  linarith

/-- With `sin(θ/2) ≥ r·sinh(ω/2)` the four filters leave at most `1/(1+r²)²`. -/
theorem onePole_le {ω θ r : ℝ} (hω : 0 < ω) (hr : 0 ≤ r) (h : r * Real.sinh (ω / 2) ≤ Real.sin (θ / 2)) :
    ‖onePole (Real.exp (-ω)) θ‖ ^ 2 ≤ 1 / (1 + r ^ 2) := by
  have hs : 0 < Real.sinh (ω / 2) := Real.sinh_pos_iff.2 (by linarith)
  rw [onePole_half ω θ hω, div_le_div_iff₀ (by positivity) (by positivity)]
  have : (r * Real.sinh (ω / 2)) ^ 2 ≤ Real.sin (θ / 2) ^ 2 := pow_le_pow_left₀ (by positivity) h 2
  rw [mul_pow] at this
  linarith

theorem response_le {f : ℕ} {θ a b : ℝ} (ha : ‖(∑ j ∈ Finset.range f, Complex.exp (θ * Complex.I) ^ j) / (f:ℂ)‖ ≤ a)
    (hb : ‖onePole (Real.exp (-radians 0.45 f)) θ‖ ^ 2 ≤ b) : ‖response f θ‖ ≤ a * b ^ 2 := by
  rw [response, norm_mul, norm_pow, show (4:ℕ) = 2 * 2 from rfl, pow_mul]
  have ha0 := (norm_nonneg _).trans ha
  exact mul_le_mul ha (pow_le_pow_left₀ (by positivity) hb 2) (by positivity) ha0

theorem radians_half (f : ℕ) : radians 0.45 f / 2 = 1.413716694115406957307 / f := by
  unfold radians; ring

/-- `sin` of a part of an angle is at least that part of `sin`. -/
theorem sin_part {a : ℝ} (h0 : 0 ≤ a) (h1 : a ≤ Real.pi) {k : ℝ} (hk0 : 0 ≤ k) (hk : k ≤ 1) : k * Real.sin a ≤ Real.sin (k * a) := by
  have := strictConcaveOn_sin_Icc.concaveOn.2 (⟨le_refl 0, Real.pi_pos.le⟩ : (0:ℝ) ∈ Set.Icc 0 Real.pi) (⟨h0, h1⟩ : a ∈ Set.Icc 0 Real.pi)
    (by linarith : 0 ≤ 1 - k) hk0 (by ring)
  simpa using this

/-- **C101**: everything that folds back into the output band, from half the output rate up to half the input rate, comes out at no more
than 0.21 of its amplitude (13.5 dB down). -/
theorem C101_aliases (f : ℕ) (h2 : 2 ≤ f) (θ : ℝ) (hl : Real.pi / f ≤ θ) (hu : θ ≤ Real.pi) : ‖response f θ‖ ≤ 0.21 := by
  have hfR : (2:ℝ) ≤ f := by exact_mod_cast h2
  have hω := radians_pos f (by omega)
  have hpi := Real.pi_gt_d20
  have hpi2 := Real.pi_lt_d20
  have hsinm : Real.sin (Real.pi / 2 / f) ≤ Real.sin (θ / 2) := by
    refine Real.sin_le_sin_of_le_of_le_pi_div_two ?_ (by linarith) ?_
    · have : 0 ≤ Real.pi / 2 / f := by positivity
      linarith
    · rw [div_right_comm]; linarith
  have hs4 : Real.sqrt 2 / 2 = Real.sin (Real.pi / 4) := Real.sin_pi_div_four.symm
  have hq : (1.4142:ℝ) ≤ Real.sqrt 2 := Real.le_sqrt_of_sq_le (by norm_num)
  have hx : Real.pi / 2 / f ≤ Real.pi / 4 := by
    rw [div_le_iff₀ (by linarith)]; nlinarith
  have hr : (0.92:ℝ) * Real.sinh (radians 0.45 f / 2) ≤ Real.sin (θ / 2) := by
    refine le_trans ?_ hsinm
    have := sin_ge_sinh (r := 0.92) (k := 0.9) (b := Real.pi / 4) (by norm_num) (by norm_num) (by linarith) (by
      rw [← hs4]
      have := sinh_num (t := 0.9 * (Real.pi / 4)) (by norm_num at hpi2 ⊢; linarith)
      nlinarith) (x := Real.pi / 2 / f) (by positivity) hx
    refine le_trans ?_ this
    refine mul_le_mul_of_nonneg_left (Real.sinh_le_sinh.2 ?_) (by norm_num)
    rw [radians_half, ← mul_div_assoc]
    refine div_le_div_of_nonneg_right ?_ (by linarith)
    norm_num at hpi ⊢; linarith
  have hH := onePole_le hω (by norm_num) hr
  have hbox : ‖(∑ j ∈ Finset.range f, Complex.exp (θ * Complex.I) ^ j) / (f:ℂ)‖ ≤ 1 / 1.4142 := by
    have hb := box_norm f θ
    have hpart := sin_part (a := Real.pi / 4) (by positivity) (by linarith) (k := 2 / f) (by positivity) (by rw [div_le_one (by linarith)]; exact hfR)
    rw [show 2 / (f:ℝ) * (Real.pi / 4) = Real.pi / 2 / f by field_simp; ring, ← hs4] at hpart
    have hge : Real.sqrt 2 ≤ f * |Real.sin (θ / 2)| := by
      have h3 := (hpart.trans hsinm).trans (le_abs_self _)
      have h4 := mul_le_mul_of_nonneg_left h3 (by linarith : (0:ℝ) ≤ f)
      calc Real.sqrt 2 = f * (2 / f * (Real.sqrt 2 / 2)) := by field_simp
        _ ≤ _ := h4
    rw [le_div_iff₀ (by norm_num)]
    calc _ ≤ ‖(∑ j ∈ Finset.range f, Complex.exp (θ * Complex.I) ^ j) / (f:ℂ)‖ * (f * |Real.sin (θ / 2)|) :=
          mul_le_mul_of_nonneg_left (hq.trans hge) (norm_nonneg _)
      _ = |Real.sin (f * θ / 2)| := hb
      _ ≤ 1 := Real.abs_sin_le_one _
  refine (response_le hbox hH).trans ?_
  norm_num

/-- **C101** (the claim "prevents aliasing" fails): at twice the output rate, what lies at half the output rate, the edge of the fold,
still comes out at a fifth of its amplitude, 14 dB down. -/
theorem C101_aliases_sharp : 0.2 ≤ ‖response 2 (Real.pi / 2)‖ := by
  have hbox := box_norm 2 (Real.pi / 2)
  have h4 : Real.pi / 2 / 2 = Real.pi / 4 := by ring
  have h5 : ((2:ℕ):ℝ) * (Real.pi / 2) / 2 = Real.pi / 2 := by push_cast; ring
  rw [h4, h5, Real.sin_pi_div_four, Real.sin_pi_div_two, abs_one, abs_of_nonneg (by positivity)] at hbox
  have hq : Real.sqrt 2 ≤ 1.4143 := Real.sqrt_le_iff.2 ⟨by norm_num, by norm_num⟩
  have hB : 0.707 ≤ ‖(∑ j ∈ Finset.range 2, Complex.exp ((Real.pi / 2 : ℝ) * Complex.I) ^ j) / ((2:ℕ):ℂ)‖ := by
    have n0 := norm_nonneg ((∑ j ∈ Finset.range 2, Complex.exp ((Real.pi / 2 : ℝ) * Complex.I) ^ j) / ((2:ℕ):ℂ))
    push_cast at hbox n0 ⊢
    nlinarith
  have hp : Real.exp (-radians 0.45 (2:ℕ)) ≤ 0.244 := by
    have hE : 4.1 ≤ Real.exp (radians 0.45 (2:ℕ)) := by
      refine le_trans ?_ (Real.sum_le_exp_of_nonneg (by unfold radians; positivity) 8)
      norm_num [Finset.sum_range_succ, Nat.factorial, radians]
    rw [Real.exp_neg]
    refine (inv_anti₀ (by norm_num) hE).trans (by norm_num)
  have hp0 := Real.exp_pos (-radians 0.45 (2:ℕ))
  have hH : 0.539 ≤ ‖onePole (Real.exp (-radians 0.45 (2:ℕ))) (Real.pi / 2)‖ ^ 2 := by
    set p := Real.exp (-radians 0.45 (2:ℕ))
    have e : (1 - (p:ℂ)) = ((1 - p : ℝ) : ℂ) := by push_cast; ring
    rw [onePole, norm_div, div_pow, norm_pole, e, Complex.norm_real, Real.norm_eq_abs, sq_abs, Real.cos_pi_div_two, le_div_iff₀ (by nlinarith)]
    nlinarith
  rw [response, norm_mul, norm_pow, show (4:ℕ) = 2 * 2 from rfl, pow_mul]
  calc (0.2:ℝ) ≤ 0.707 * 0.539 ^ 2 := by norm_num
    _ ≤ _ := mul_le_mul hB (pow_le_pow_left₀ (by norm_num) hH 2) (by positivity) (norm_nonneg _)

/-- **C101** (the claim "minimal high-frequency loss" fails): at the frequency the code calls its cutoff, 0.45 of the output rate, at most
0.27 of the amplitude is left (11.4 dB down, not 3). -/
theorem C101_cutoff_loss (f : ℕ) (h2 : 2 ≤ f) : ‖response f (radians 0.45 f)‖ ≤ 0.27 := by
  have hfR : (2:ℝ) ≤ f := by exact_mod_cast h2
  have hω := radians_pos f (by omega)
  have hpi := Real.pi_gt_d20
  have hpi2 := Real.pi_lt_d20
  norm_num at hpi hpi2
  have hsin : 0.6448 ≤ Real.sin 0.7068583470577034786535 := by
    have := strictConcaveOn_sin_Icc.concaveOn.2 (⟨by positivity, by linarith [Real.pi_pos]⟩ : Real.pi / 6 ∈ Set.Icc 0 Real.pi)
      (⟨by positivity, by linarith [Real.pi_pos]⟩ : Real.pi / 4 ∈ Set.Icc 0 Real.pi) (by norm_num : (0:ℝ) ≤ 0.3005) (by norm_num : (0:ℝ) ≤ 0.6995) (by norm_num)
    rw [Real.sin_pi_div_four, Real.sin_pi_div_six] at this
    have hq : (1.4142:ℝ) ≤ Real.sqrt 2 := Real.le_sqrt_of_sq_le (by norm_num)
    have hm : Real.sin ((0.3005:ℝ) • (Real.pi / 6) + (0.6995:ℝ) • (Real.pi / 4)) ≤ Real.sin 0.7068583470577034786535 := by
      refine Real.sin_le_sin_of_le_of_le_pi_div_two ?_ (by linarith) ?_
      · simp only [smul_eq_mul]; nlinarith
      · simp only [smul_eq_mul]; norm_num; linarith
    simp only [smul_eq_mul] at this hm
    norm_num at this hm ⊢
    linarith
  have hx : radians 0.45 f / 2 ≤ 0.7068583470577034786535 := by
    rw [radians_half, div_le_iff₀ (by linarith)]; nlinarith
  have hr : (0.84:ℝ) * Real.sinh (radians 0.45 f / 2) ≤ Real.sin (radians 0.45 f / 2) := by
    have := sin_ge_sinh (r := 0.84) (k := 1) (b := 0.7068583470577034786535) (by norm_num) (by norm_num) (by linarith) (by
      have := sinh_num (t := 1 * 0.7068583470577034786535) (by norm_num)
      nlinarith) (x := radians 0.45 f / 2) (by linarith) hx
    rwa [one_mul] at this
  have hH := onePole_le hω (by norm_num) hr
  have hbox : ‖(∑ j ∈ Finset.range f, Complex.exp ((radians 0.45 f : ℝ) * Complex.I) ^ j) / (f:ℂ)‖ ≤ 1 / 1.2896 := by
    have hb := box_norm f (radians 0.45 f)
    have hpart := sin_part (a := 0.7068583470577034786535) (by norm_num) (by linarith) (k := 2 / f) (by positivity)
      (by rw [div_le_one (by linarith)]; exact hfR)
    rw [show 2 / (f:ℝ) * 0.7068583470577034786535 = radians 0.45 f / 2 by rw [radians_half]; ring] at hpart
    have hge : 1.2896 ≤ f * |Real.sin (radians 0.45 f / 2)| := by
      have h3 := hpart.trans (le_abs_self _)
      have h4 := mul_le_mul_of_nonneg_left h3 (by linarith : (0:ℝ) ≤ f)
      calc (1.2896:ℝ) ≤ 2 * Real.sin 0.7068583470577034786535 := by linarith
        _ = f * (2 / f * Real.sin 0.7068583470577034786535) := by field_simp
        _ ≤ _ := h4
    rw [le_div_iff₀ (by norm_num)]
    calc _ ≤ ‖(∑ j ∈ Finset.range f, Complex.exp ((radians 0.45 f : ℝ) * Complex.I) ^ j) / (f:ℂ)‖ * (f * |Real.sin (radians 0.45 f / 2)|) :=
          mul_le_mul_of_nonneg_left hge (norm_nonneg _)
      _ = |Real.sin (f * radians 0.45 f / 2)| := hb
      _ ≤ 1 := Real.abs_sin_le_one _
  refine (response_le hbox hH).trans ?_
  norm_num

/-- **C101**: in the lower half of the output band at least half of the amplitude is kept. -/
theorem C101_passband (f : ℕ) (h1 : 1 ≤ f) (θ : ℝ) (hl : 0 ≤ θ) (hu : θ ≤ Real.pi / (2 * f)) : 1 / 2 ≤ ‖response f θ‖ := by
  have hfR : (1:ℝ) ≤ f := by exact_mod_cast h1
  have hω := radians_pos f h1
  have hpi := Real.pi_gt_d20
  have hpi2 := Real.pi_lt_d20
  norm_num at hpi hpi2
  rcases hl.eq_or_lt with rfl | hpos
  · rw [(C101_passive f h1).1]; norm_num
  have hfθ : f * θ ≤ Real.pi / 2 := by
    have := mul_le_mul_of_nonneg_left hu (by linarith : (0:ℝ) ≤ f)
    calc _ ≤ _ := this
      _ = Real.pi / 2 := by field_simp
  have hθpi : θ ≤ Real.pi / 2 := by nlinarith
  have hs0 : 0 < Real.sin (θ / 2) := Real.sin_pos_of_pos_of_lt_pi (by linarith) (by linarith)
  have hH : 0.764 ≤ ‖onePole (Real.exp (-radians 0.45 f)) θ‖ ^ 2 := by
    rw [onePole_half _ _ hω]
    have hsinh : radians 0.45 f / 2 ≤ Real.sinh (radians 0.45 f / 2) := Real.self_le_sinh_iff.2 (by linarith)
    have hsin : Real.sin (θ / 2) ≤ θ / 2 := Real.sin_le (by linarith)
    have hratio : θ / 2 ≤ 0.5556 * (radians 0.45 f / 2) := by
      rw [radians_half, ← mul_div_assoc, le_div_iff₀ (by linarith)]
      norm_num; linarith
    have hle : Real.sin (θ / 2) ≤ 0.5556 * Real.sinh (radians 0.45 f / 2) := by linarith
    have hsq := pow_le_pow_left₀ hs0.le hle 2
    have hS : 0 < Real.sinh (radians 0.45 f / 2) := by linarith
    rw [le_div_iff₀ (by positivity)]
    nlinarith [sq_nonneg (Real.sinh (radians 0.45 f / 2))]
  have hB : 0.9 ≤ ‖(∑ j ∈ Finset.range f, Complex.exp (θ * Complex.I) ^ j) / (f:ℂ)‖ := by
    have hb := box_norm f θ
    rw [abs_of_pos hs0] at hb
    have hpart := sin_part (a := Real.pi / 4) (by positivity) (by linarith) (k := f * θ / 2 / (Real.pi / 4)) (by positivity)
      (by rw [div_le_one (by positivity)]; linarith)
    rw [div_mul_cancel₀ _ (by positivity), Real.sin_pi_div_four] at hpart
    have hq : (1.4142:ℝ) ≤ Real.sqrt 2 := Real.le_sqrt_of_sq_le (by norm_num)
    have hsin : Real.sin (θ / 2) ≤ θ / 2 := Real.sin_le (by linarith)
    have hk : 0.9 * (f * θ / 2) ≤ f * θ / 2 / (Real.pi / 4) * (Real.sqrt 2 / 2) := by
      rw [div_mul_eq_mul_div, le_div_iff₀ (by positivity)]
      have h6 : 0 < f * θ / 2 := by positivity
      have h7 : 0.9 * (Real.pi / 4) ≤ Real.sqrt 2 / 2 := by norm_num; linarith
      nlinarith [mul_le_mul_of_nonneg_left h7 h6.le]
    have hfs : 0 < f * Real.sin (θ / 2) := by positivity
    refine le_of_mul_le_mul_right ?_ hfs
    rw [hb]
    calc 0.9 * (f * Real.sin (θ / 2)) ≤ 0.9 * (f * θ / 2) := by nlinarith [mul_le_mul_of_nonneg_left hsin (by linarith : (0:ℝ) ≤ f)]
      _ ≤ _ := hk.trans (hpart.trans (le_abs_self _))
  rw [response, norm_mul, norm_pow, show (4:ℕ) = 2 * 2 from rfl, pow_mul]
  calc (1/2:ℝ) ≤ 0.9 * 0.764 ^ 2 := by norm_num
    _ ≤ _ := mul_le_mul hB (pow_le_pow_left₀ (by norm_num) hH 2) (by positivity) (norm_nonneg _)

/-- A tone at 30 kHz through the two-times downsampler to 48 kHz: it folds to 18 kHz and is there at most 0.21 of its amplitude. -/
example : ∃ y : ℕ → ℝ,
    (∀ M, M * 2 < 2 ^ 64 → ∃ s', process ((List.range (M * 2)).map (sinusoid 1 (2 * Real.pi * 30000 / 96000))) M
      (read (([1, 2] : List ℝ).foldl write (init 48000 2))).1 = some (s', (List.range M).map y)) ∧
    Filter.Tendsto (fun m => y m - sinusoid (response 2 (2 * Real.pi * 30000 / 96000) * 1) ((2:ℕ) * (2 * Real.pi * 30000 / 96000)) m)
      Filter.atTop (nhds 0) ∧ ‖response 2 (2 * Real.pi * 30000 / 96000)‖ ≤ 0.21 := by
  obtain ⟨y, h1, h2⟩ := C101_response 48000 (by norm_num) 2 (by norm_num) (by norm_num) [1, 2] (by simp) 1 (2 * Real.pi * 30000 / 96000)
  refine ⟨y, h1, h2, C101_aliases 2 le_rfl _ ?_ ?_⟩ <;> push_cast <;> linarith [Real.pi_pos]

end Downsampler
end Verif
