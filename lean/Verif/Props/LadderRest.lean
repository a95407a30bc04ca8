import Verif.Props.LadderDC
import Verif.Props.Stilson

/-!
# C70, C71 for the Stilson, MusicDSP, Improved and RKSimulation ladders
-/

namespace Verif

open Arith Filter Topology

/-! ## Stilson -/

namespace Stilson

/-- The polynomial of line 74-77 in the cutoff over the sample rate. -/
noncomputable def cubic (fc : ℝ) : ℝ := -0.69346 * fc ^ 3 - 0.59515 * fc ^ 2 + 3.2937 * fc - 1.0072

theorem toI32_int (n : ℤ) (h0 : -1000 ≤ n) (h1 : n ≤ 1000) : Arith.toI32? ((n : ℤ) : ℝ) = some n := by
  have ht : truncR ((n:ℤ):ℝ) = n := by
    unfold truncR
    split_ifs
    · exact Int.floor_intCast n
    · exact Int.ceil_intCast n
  simp only [Arith.toI32?, real_arith, ht]
  rw [if_pos]
  constructor <;> omega

theorem setResonance_def (r : ℝ) (s : Ladder ℝ ℝ) (h0 : -2 ≤ s.p) (h1 : s.p ≤ 2) :
    ∃ q, setResonance r s = some { s with resonance := clamp01 r, Q := clamp01 r * q } := by
  have hf : Arith.toI32? (Arith.floor (s.p * lit 99)) = some ⌊s.p * 99⌋ := by
    have e : (lit 99 : ℝ) = 99 := by simp only [real_arith]; norm_num
    rw [e]
    simp only [real_arith]
    refine toI32_int _ (Int.le_floor.2 ?_) (Int.floor_le_iff.2 ?_)
    · push_cast; linarith
    · push_cast; linarith
  have hne : setResonance r s ≠ none := by
    intro h
    rw [C44_table_in_range, hf] at h
    exact absurd h (by simp)
  obtain ⟨s', hs'⟩ := Option.ne_none_iff_exists'.1 hne
  have h := hs'
  simp only [setResonance, hf, Option.bind_some, Option.bind_eq_some_iff, Option.map_eq_some_iff] at h
  obtain ⟨a, -, b, -, e⟩ := h
  rw [hs']
  exact ⟨_, congrArg some e.symm⟩

/-- The two setters in ideal arithmetic; the resonance is set to zero. -/
theorem set_flat (cut : ℝ) (s : Ladder ℝ ℝ) (hsr : 0 < s.sampleRate) (h0 : 0 ≤ cut) (h1 : cut ≤ 0.33 * s.sampleRate) :
    ∃ s', (setCutoff cut s).bind (setResonance 0) = some s' ∧ s'.p = cubic (cut / s.sampleRate) ∧ s'.Q = 0 := by
  obtain ⟨f, hf⟩ : ∃ f, f = cut / s.sampleRate := ⟨_, rfl⟩
  have f0 : 0 ≤ f := by rw [hf]; positivity
  have f1 : f ≤ 0.33 := by rw [hf, div_le_iff₀ hsr]; exact h1
  have hp : (-lit 0.69346 * (f * f * f) - lit 0.59515 * (f * f) + lit 3.2937 * f - lit 1.0072 : ℝ) = cubic f := by
    simp only [real_arith, cubic]; push_cast; ring
  have hb : -2 ≤ cubic f ∧ cubic f ≤ 2 := by
    unfold cubic
    have a : 0 ≤ f ^ 2 := by positivity
    have b : f ^ 2 ≤ 1 := by nlinarith
    have c : 0 ≤ f ^ 3 := by positivity
    have d : f ^ 3 ≤ 1 := pow_le_one₀ f0 (by linarith)
    constructor <;> nlinarith
  obtain ⟨q, hq⟩ := setResonance_def s.resonance
    { s with cutoff := cut, p := cubic f } hb.1 hb.2
  have e1 : setCutoff cut s = setResonance s.resonance { s with cutoff := cut, p := cubic f } := by
    rw [← hp, hf]; rfl
  rw [e1, hq]
  obtain ⟨q', hq'⟩ := setResonance_def 0 { s with cutoff := cut, p := cubic f, resonance := clamp01 s.resonance, Q := clamp01 s.resonance * q } hb.1 hb.2
  refine ⟨_, hq', ?_, ?_⟩
  · exact congrArg cubic hf
  · show clamp01 (0:ℝ) * q' = 0
    rw [clamp01_id le_rfl zero_le_one, zero_mul]

theorem saturate_eq (x : ℝ) : saturate x = max (-0.95) (min 0.95 x) := by
  simp only [saturate, real_arith]; push_cast
  rcases le_total x 0.95 with h | h
  · rw [min_eq_right h, abs_of_nonpos (by linarith : x - 0.95 ≤ 0)]
    rcases le_total (-0.95) x with h' | h'
    · rw [max_eq_right h', abs_of_nonneg (by linarith)]; ring
    · rw [max_eq_left h', abs_of_nonpos (by linarith)]; ring
  · rw [min_eq_left h, max_eq_right (by norm_num), abs_of_nonneg (by linarith : 0 ≤ x - 0.95), abs_of_nonneg (by linarith)]; ring

theorem saturate_id {x : ℝ} (h : |x| ≤ 0.95) : saturate x = x := by
  have := abs_le.1 h
  rw [saturate_eq, min_eq_right this.2, max_eq_right this.1]

/-- A pole that stays below the saturation. -/
theorem pole_linear {p o z m : ℝ} (p0 : -1 ≤ p) (p1 : p ≤ 0) (ho : |o| ≤ m) (hz : |z| ≤ m) (hm : 2 * m ≤ 0.95) :
    pole p o z = ((1 - (1 + p)) * z + (1 + p) * o, (1 - (1 + p)) * z + (1 + p) * o + z) ∧ |(pole p o z).1| ≤ m ∧ |(pole p o z).2| ≤ 2 * m := by
  have ho' := abs_le.1 ho
  have hz' := abs_le.1 hz
  have e : o + p * (o - z) = (1 - (1 + p)) * z + (1 + p) * o := by ring
  have b : |(1 - (1 + p)) * z + (1 + p) * o| ≤ m := by rw [abs_le]; constructor <;> nlinarith
  have b2 : |(1 - (1 + p)) * z + (1 + p) * o + z| ≤ 2 * m := (abs_add_le _ _).trans (by linarith)
  have m0 : 0 ≤ m := (abs_nonneg _).trans ho
  have he : pole p o z = ((1 - (1 + p)) * z + (1 + p) * o, (1 - (1 + p)) * z + (1 + p) * o + z) := by
    simp only [pole, real_arith]
    rw [e, saturate_id (b.trans (by linarith)), saturate_id (b2.trans hm)]
  rw [he]
  exact ⟨rfl, b, b2⟩

/-- The memory of the filter while it stays below the saturation. -/
structure Small (p m : ℝ) (s : Ladder ℝ ℝ) : Prop where
  p : s.p = p
  Q : s.Q = 0
  out : s.output = 0
  s0 : |s.s0| ≤ m
  s1 : |s.s1| ≤ 2 * m
  s2 : |s.s2| ≤ 2 * (2 * m)
  s3 : |s.s3| ≤ 2 * (2 * (2 * m))

theorem tick_small {p m : ℝ} {s : Ladder ℝ ℝ} (p0 : -1 ≤ p) (p1 : p ≤ 0) (hm : 2 * (2 * (2 * (2 * m))) ≤ 0.95) (h : Small p m s) {x : ℝ} (hx : |0.1625 * x| ≤ m) :
    Small p m (tick s x).1 ∧ (tick s x).1.s0 = (1 - (1 + p)) * s.s0 + (1 + p) * (0.1625 * x) ∧
    (tick s x).1.s1 = (1 - (1 + p)) * s.s1 + (1 + p) * ((tick s x).1.s0 + s.s0) ∧
    (tick s x).1.s2 = (1 - (1 + p)) * s.s2 + (1 + p) * ((tick s x).1.s1 + s.s1) ∧
    (tick s x).1.s3 = (1 - (1 + p)) * s.s3 + (1 + p) * ((tick s x).1.s2 + s.s2) ∧
    (tick s x).2 = snapToZero ((tick s x).1.s3 + s.s3) := by
  have m0 : 0 ≤ m := (abs_nonneg _).trans hx
  have e : (lit 0.25 * (Conv.conv x * lit 0.65 - s.output) : ℝ) = 0.1625 * x := by
    rw [h.out]; simp only [Conv.conv, id, real_arith]; push_cast; ring
  obtain ⟨e0, a0, b0⟩ := pole_linear p0 p1 hx h.s0 (by linarith)
  obtain ⟨e1, a1, b1⟩ := pole_linear p0 p1 b0 h.s1 (by linarith)
  obtain ⟨e2, a2, b2⟩ := pole_linear p0 p1 b1 h.s2 (by linarith)
  obtain ⟨e3, a3, b3⟩ := pole_linear p0 p1 b2 h.s3 hm
  have t0 : (tick s x).1.s0 = (pole p (0.1625 * x) s.s0).1 := by simp only [tick, e, h.p]
  have t1 : (tick s x).1.s1 = (pole p (pole p (0.1625 * x) s.s0).2 s.s1).1 := by simp only [tick, e, h.p]
  have t2 : (tick s x).1.s2 = (pole p (pole p (pole p (0.1625 * x) s.s0).2 s.s1).2 s.s2).1 := by simp only [tick, e, h.p]
  have t3 : (tick s x).1.s3 = (pole p (pole p (pole p (pole p (0.1625 * x) s.s0).2 s.s1).2 s.s2).2 s.s3).1 := by simp only [tick, e, h.p]
  have ty : (tick s x).2 = snapToZero (pole p (pole p (pole p (pole p (0.1625 * x) s.s0).2 s.s1).2 s.s2).2 s.s3).2 := by
    simp only [tick, e, h.p]; rfl
  have tq : (tick s x).1.output = 0 := by
    simp only [tick, h.Q, real_arith, mul_zero]
  rw [t0, t1, t2, t3, ty]
  refine ⟨⟨h.p, h.Q, tq, by rw [t0]; exact a0, by rw [t1]; exact a1, by rw [t2]; exact a2, by rw [t3]; exact a3⟩, by rw [e0], ?_, ?_, ?_, ?_⟩
  · rw [e1, e0]
  · rw [e2, e1]
  · rw [e3, e2]
  · rw [e3]

/-- The input of the final rounding to zero settles at 2.6 times the input. -/
theorem settles {p c : ℝ} {s : Ladder ℝ ℝ} (p0 : -1 < p) (p1 : p ≤ 0) (hp : s.p = p) (hQ : s.Q = 0) (x : ℕ → ℝ) (hb : ∀ n, |x n| ≤ 0.365)
    (hx : Tendsto x atTop (𝓝 c)) :
    ∃ o : ℕ → ℝ, (∀ n, heard tick (reset s) x n = snapToZero (o n)) ∧ Tendsto o atTop (𝓝 (2.6 * c)) := by
  have hb' : ∀ n, |0.1625 * x n| ≤ 0.0593125 := by
    intro n
    rw [abs_mul, abs_of_pos (by norm_num)]
    have := hb n
    norm_num at *; linarith
  have z : (lit 0 : ℝ) = 0 := by simp only [real_arith]; norm_num
  have hs : ∀ n, Small p 0.0593125 (feed tick (reset s) x n) := by
    intro n
    induction n with
    | zero =>
      refine ⟨hp, hQ, z, ?_, ?_, ?_, ?_⟩ <;> simp only [feed, reset, z] <;> norm_num
    | succ n ih => exact (tick_small p0.le p1 (by norm_num) ih (hb' n)).1
  have hr := fun n => (tick_small p0.le p1 (by norm_num) (hs n) (hb' n)).2
  have g0 : 0 < 1 + p := by linarith
  have g1 : 1 + p ≤ 1 := by linarith
  have n0 : Near (fun n => (feed tick (reset s) x n).s0) (0.1625 * c) 0 :=
    Near.lowpass g0 g1 (fun n => (feed tick (reset s) x n).s0) (fun n => 0.1625 * x n) (fun n => (hr n).1)
      (((near_zero.2 hx).mul 0.1625).congr rfl (by ring))
  have n1 : Near (fun n => (feed tick (reset s) x n).s1) (2 * (0.1625 * c)) 0 :=
    Near.lowpass g0 g1 (fun n => (feed tick (reset s) x n).s1) (fun n => (feed tick (reset s) x (n + 1)).s0 + (feed tick (reset s) x n).s0)
      (fun n => (hr n).2.1) ((n0.shift.add n0).congr (by ring) (by ring))
  have n2 : Near (fun n => (feed tick (reset s) x n).s2) (2 * (2 * (0.1625 * c))) 0 :=
    Near.lowpass g0 g1 (fun n => (feed tick (reset s) x n).s2) (fun n => (feed tick (reset s) x (n + 1)).s1 + (feed tick (reset s) x n).s1)
      (fun n => (hr n).2.2.1) ((n1.shift.add n1).congr (by ring) (by ring))
  have n3 : Near (fun n => (feed tick (reset s) x n).s3) (2 * (2 * (2 * (0.1625 * c)))) 0 :=
    Near.lowpass g0 g1 (fun n => (feed tick (reset s) x n).s3) (fun n => (feed tick (reset s) x (n + 1)).s2 + (feed tick (reset s) x n).s2)
      (fun n => (hr n).2.2.2.1) ((n2.shift.add n2).congr (by ring) (by ring))
  refine ⟨fun n => (feed tick (reset s) x (n + 1)).s3 + (feed tick (reset s) x n).s3, fun n => (hr n).2.2.2.2, ?_⟩
  rw [← near_zero]
  exact (n3.shift.add n3).congr (by norm_num; ring) (by ring)

theorem snap_real (x : ℝ) : snapToZero x = if |x| ≤ 1e-8 then 0 else x := by
  have e : (lit 1.0e-8 : ℝ) = 1e-8 := by simp only [real_arith]; norm_num
  have z : (lit 0 : ℝ) = 0 := by simp only [real_arith]; norm_num
  unfold snapToZero
  rw [e, z]
  by_cases h : |x| ≤ 1e-8
  · have := abs_le.1 h
    have a : (x <. -1e-8) = false := decide_eq_false (not_lt.2 this.1)
    have b : (x >. 1e-8) = false := decide_eq_false (not_lt.2 this.2)
    rw [if_pos h, a, b]; rfl
  · rw [if_neg h]
    rcases lt_abs.1 (not_le.1 h) with h' | h'
    · have b : (x >. 1e-8) = true := decide_eq_true h'
      rw [b, Bool.or_true]; rfl
    · have a : (x <. -1e-8) = true := decide_eq_true (by linarith : x < -1e-8)
      rw [a, Bool.true_or]; rfl

theorem cubic_pos {f : ℝ} (h0 : 0.0022 ≤ f) (h1 : f ≤ 0.33) : -1 < cubic f ∧ cubic f ≤ 0 := by
  unfold cubic
  have e : f ^ 3 = f ^ 2 * f := by ring
  constructor
  · nlinarith [mul_nonneg (sub_nonneg.2 h0) (sub_nonneg.2 h1), mul_nonneg (mul_nonneg (sub_nonneg.2 h0) (sub_nonneg.2 h1)) (by linarith : 0 ≤ f)]
  · nlinarith [mul_nonneg (sub_nonneg.2 h0) (sub_nonneg.2 h1), mul_nonneg (mul_nonneg (sub_nonneg.2 h0) (sub_nonneg.2 h1)) (by linarith : 0 ≤ f)]

theorem cubic_low {f : ℝ} (h0 : 0 ≤ f) (h1 : f ≤ 0.00218) : cubic f < -1 := by
  unfold cubic
  have : 0 ≤ f ^ 3 := by positivity
  have : 0 ≤ f ^ 2 := by positivity
  norm_num at *
  linarith

/-- **C70, Stilson, partial** (ideal arithmetic): with the cutoff between 0.0022 and 0.33 of the sample rate and no resonance, after a reset, an
input that never exceeds 0.365 and settles at `c` makes the output settle at `2.6 c` (if that is not rounded to zero by `snapToZero`).
Missing: louder inputs, which reach the saturation, and resonance. -/
theorem C70_stilson_partial (cut c : ℝ) (s s' : Ladder ℝ ℝ) (hsr : 0 < s.sampleRate) (h0 : 0.0022 * s.sampleRate ≤ cut) (h1 : cut ≤ 0.33 * s.sampleRate)
    (hs : (setCutoff cut s).bind (setResonance 0) = some s') (x : ℕ → ℝ) (hb : ∀ n, |x n| ≤ 0.365) (hx : Tendsto x atTop (𝓝 c))
    (hc : 1e-8 < |2.6 * c|) : Tendsto (heard tick (reset s') x) atTop (𝓝 (2.6 * c)) := by
  have hcut : 0 ≤ cut := by norm_num at *; linarith
  obtain ⟨t, ht, hp, hQ⟩ := set_flat cut s hsr hcut h1
  rw [hs, Option.some.injEq] at ht
  subst ht
  have hf := cubic_pos (f := cut / s.sampleRate) (by rw [le_div_iff₀ hsr]; exact h0) (by rw [div_le_iff₀ hsr]; exact h1)
  obtain ⟨o, ho, hlim⟩ := settles hf.1 hf.2 hp hQ x hb hx
  refine hlim.congr' ?_
  have habs : Tendsto (fun n => |o n|) atTop (𝓝 |2.6 * c|) := hlim.abs
  filter_upwards [habs.eventually_const_lt hc] with n hn
  rw [ho, snap_real, if_neg (not_le.2 hn)]

/-- **C71, Stilson, partial**: and when that input dies away so does the output. -/
theorem C71_stilson_partial (cut : ℝ) (s s' : Ladder ℝ ℝ) (hsr : 0 < s.sampleRate) (h0 : 0.0022 * s.sampleRate ≤ cut) (h1 : cut ≤ 0.33 * s.sampleRate)
    (hs : (setCutoff cut s).bind (setResonance 0) = some s') (x : ℕ → ℝ) (hb : ∀ n, |x n| ≤ 0.365) (hx : Tendsto x atTop (𝓝 0)) :
    ∃ N, ∀ n, N ≤ n → heard tick (reset s') x n = 0 := by
  have hcut : 0 ≤ cut := by norm_num at *; linarith
  obtain ⟨t, ht, hp, hQ⟩ := set_flat cut s hsr hcut h1
  rw [hs, Option.some.injEq] at ht
  subst ht
  have hf := cubic_pos (f := cut / s.sampleRate) (by rw [le_div_iff₀ hsr]; exact h0) (by rw [div_le_iff₀ hsr]; exact h1)
  obtain ⟨o, ho, hlim⟩ := settles hf.1 hf.2 hp hQ x hb hx
  have habs : Tendsto (fun n => |o n|) atTop (𝓝 0) := by simpa using hlim.abs
  obtain ⟨N, hN⟩ := eventually_atTop.1 (habs.eventually_lt_const (show (0:ℝ) < 1e-8 by norm_num))
  exact ⟨N, fun n hn => by rw [ho, snap_real, if_pos (hN n hn).le]⟩

/-- The settings of these theorems can be made: at 48 kHz, cutoff 1 kHz. -/
example (s : Ladder ℝ ℝ) (h : s.sampleRate = 48000) : ∃ s', (setCutoff 1000 s).bind (setResonance 0) = some s' ∧ 0.0022 * s.sampleRate ≤ 1000 ∧
    1000 ≤ 0.33 * s.sampleRate := by
  obtain ⟨s', h', -, -⟩ := set_flat 1000 s (by rw [h]; norm_num) (by norm_num) (by rw [h]; norm_num)
  exact ⟨s', h', by rw [h]; norm_num, by rw [h]; norm_num⟩

/-! ### The latch -/

theorem saturate_neg (x : ℝ) : saturate (-x) = -saturate x := by
  rw [saturate_eq, saturate_eq]
  rcases le_total x 0.95 with h | h
  · rw [min_eq_right h]
    rcases le_total (-0.95) x with h' | h'
    · rw [min_eq_right (by linarith), max_eq_right h', max_eq_right (by linarith)]
    · rw [min_eq_left (by linarith), max_eq_left h', max_eq_right (by norm_num)]; ring
  · rw [min_eq_right (by linarith), max_eq_left (by linarith), min_eq_left h, max_eq_right (by norm_num)]

theorem pole_neg (p o z : ℝ) : pole p (-o) (-z) = (-(pole p o z).1, -(pole p o z).2) := by
  have e : -o + p * (-o - -z) = -(o + p * (o - z)) := by ring
  have e2 : ∀ a : ℝ, -a + -z = -(a + z) := fun a => by ring
  simp only [pole, real_arith]
  rw [e, saturate_neg, e2, saturate_neg]

/-- With `p < -1` a pole with a positive memory and an input that is not positive runs away upwards. -/
theorem pole_grows {p o z : ℝ} (hp : p < -1) (ho : o ≤ 0) (hz : 0 < z) (hz1 : z ≤ 0.95) :
    min 0.95 (-p * z) ≤ (pole p o z).1 ∧ (pole p o z).1 ≤ 0.95 ∧ 0 < (pole p o z).1 ∧ 0 < (pole p o z).2 ∧ (z = 0.95 → (pole p o z).2 = 0.95) := by
  have e : -p * z ≤ o + p * (o - z) := by nlinarith
  have hq : 0 < -p * z := by nlinarith
  have hpole1 : (pole p o z).1 = max (-0.95) (min 0.95 (o + p * (o - z))) := by
    simp only [pole, real_arith]; rw [saturate_eq]
  have hpos : 0 < min 0.95 (o + p * (o - z)) := lt_min (by norm_num) (by linarith)
  rw [max_eq_right (by linarith)] at hpole1
  have hpole2 : (pole p o z).2 = max (-0.95) (min 0.95 ((pole p o z).1 + z)) := by
    rw [← saturate_eq]; rfl
  have p1pos : 0 < (pole p o z).1 := by rw [hpole1]; exact hpos
  have hpos2 : 0 < min 0.95 ((pole p o z).1 + z) := lt_min (by norm_num) (by linarith)
  rw [max_eq_right (by linarith)] at hpole2
  refine ⟨?_, ?_, p1pos, by rw [hpole2]; exact hpos2, fun h => ?_⟩
  · rw [hpole1]; exact min_le_min le_rfl e
  · rw [hpole1]; exact min_le_left _ _
  · rw [hpole2, min_eq_left (by linarith)]

theorem pole_sinks {p o z : ℝ} (hp : p < -1) (ho : 0 ≤ o) (hz : z < 0) (hz1 : -0.95 ≤ z) :
    (pole p o z).1 < 0 ∧ -0.95 ≤ (pole p o z).1 ∧ (pole p o z).2 < 0 := by
  obtain ⟨-, a, b, c, -⟩ := pole_grows (p := p) (o := -o) (z := -z) hp (by linarith) (by linarith) (by linarith)
  rw [pole_neg] at a b c
  exact ⟨by simpa using b, by simpa [neg_le] using a, by simpa using c⟩

/-- The signs of the memory once the filter has been woken by a positive sample. -/
structure Woken (p : ℝ) (s : Ladder ℝ ℝ) : Prop where
  p : s.p = p
  Q : s.Q = 0
  out : s.output = 0
  s0 : s.s0 < 0 ∧ -0.95 ≤ s.s0
  s1 : 0 < s.s1 ∧ s.s1 ≤ 0.95
  s2 : s.s2 < 0 ∧ -0.95 ≤ s.s2
  s3 : 0 < s.s3 ∧ s.s3 ≤ 0.95

theorem tick_woken {p : ℝ} {s : Ladder ℝ ℝ} (hp : p < -1) (h : Woken p s) :
    Woken p (tick s 0).1 ∧ min 0.95 (-p * s.s3) ≤ (tick s 0).1.s3 ∧ (s.s3 = 0.95 → (tick s 0).2 = 0.95) := by
  have e : (lit 0.25 * (Conv.conv (0:ℝ) * lit 0.65 - s.output) : ℝ) = 0 := by
    rw [h.out]; simp only [Conv.conv, id, real_arith]; push_cast; ring
  obtain ⟨a0, b0, c0⟩ := pole_sinks (o := 0) hp le_rfl h.s0.1 h.s0.2
  obtain ⟨d1, a1, b1, c1, -⟩ := pole_grows hp c0.le h.s1.1 h.s1.2
  obtain ⟨a2, b2, c2⟩ := pole_sinks hp c1.le h.s2.1 h.s2.2
  obtain ⟨d3, a3, b3, c3, e3⟩ := pole_grows hp c2.le h.s3.1 h.s3.2
  have t0 : (tick s 0).1.s0 = (pole p 0 s.s0).1 := by simp only [tick, e, h.p]
  have t1 : (tick s 0).1.s1 = (pole p (pole p 0 s.s0).2 s.s1).1 := by simp only [tick, e, h.p]
  have t2 : (tick s 0).1.s2 = (pole p (pole p (pole p 0 s.s0).2 s.s1).2 s.s2).1 := by simp only [tick, e, h.p]
  have t3 : (tick s 0).1.s3 = (pole p (pole p (pole p (pole p 0 s.s0).2 s.s1).2 s.s2).2 s.s3).1 := by simp only [tick, e, h.p]
  have ty : (tick s 0).2 = snapToZero (pole p (pole p (pole p (pole p 0 s.s0).2 s.s1).2 s.s2).2 s.s3).2 := by
    simp only [tick, e, h.p]; rfl
  have tq : (tick s 0).1.output = 0 := by simp only [tick, h.Q, real_arith, mul_zero]
  refine ⟨⟨h.p, h.Q, tq, ?_, ?_, ?_, ?_⟩, ?_, fun h95 => ?_⟩
  · rw [t0]; exact ⟨a0, b0⟩
  · rw [t1]; exact ⟨b1, a1⟩
  · rw [t2]; exact ⟨a2, b2⟩
  · rw [t3]; exact ⟨b3, a3⟩
  · rw [t3]; exact d3
  · rw [ty, e3 h95, snap_real, if_neg (by norm_num [abs_of_pos])]

/-- One positive sample, however small, wakes the filter. -/
theorem wakes {p x : ℝ} {s : Ladder ℝ ℝ} (hp : p < -1) (h1 : s.p = p) (h2 : s.Q = 0) (hx : 0 < x) : Woken p (tick (reset s) x).1 := by
  have z : (lit 0 : ℝ) = 0 := by simp only [real_arith]; norm_num
  obtain ⟨o, ho⟩ : ∃ o, o = 0.1625 * x := ⟨_, rfl⟩
  have o0 : 0 < o := by rw [ho]; positivity
  have e : (lit 0.25 * (Conv.conv x * lit 0.65 - (reset s).output) : ℝ) = o := by
    rw [ho]; simp only [reset, Conv.conv, id, real_arith]; push_cast; ring
  have first : ∀ o : ℝ, 0 < o → (pole p o (lit 0)).1 < 0 ∧ -0.95 ≤ (pole p o (lit 0)).1 ∧ (pole p o (lit 0)).2 < 0 := by
    intro o ho
    have hn : o + p * (o - 0) < 0 := by nlinarith
    have h1 : (pole p o (lit 0)).1 = max (-0.95) (min 0.95 (o + p * (o - 0))) := by
      rw [z]; simp only [pole, real_arith]; rw [saturate_eq]
    have h3 : (pole p o (lit 0)).1 < 0 := by
      rw [h1, min_eq_right (by linarith)]; exact max_lt (by norm_num) hn
    have h4 : -0.95 ≤ (pole p o (lit 0)).1 := by rw [h1]; exact le_max_left _ _
    have h2 : (pole p o (lit 0)).2 = (pole p o (lit 0)).1 := by
      have : (pole p o (lit 0)).2 = saturate ((pole p o (lit 0)).1 + 0) := by rw [← z]; rfl
      rw [this, add_zero, saturate_id (by rw [abs_le]; constructor <;> linarith)]
    exact ⟨h3, h4, by rw [h2]; exact h3⟩
  have second : ∀ o : ℝ, o < 0 → 0 < (pole p o (lit 0)).1 ∧ (pole p o (lit 0)).1 ≤ 0.95 ∧ 0 < (pole p o (lit 0)).2 := by
    intro o ho
    obtain ⟨a, b, c⟩ := first (-o) (by linarith)
    have e0 : (lit 0 : ℝ) = -(lit 0) := by rw [z]; ring
    rw [e0, pole_neg] at a b c
    exact ⟨by simpa using a, by simpa [neg_le] using b, by simpa using c⟩
  obtain ⟨a0, b0, c0⟩ := first o o0
  obtain ⟨a1, b1, c1⟩ := second _ c0
  obtain ⟨a2, b2, c2⟩ := first _ c1
  obtain ⟨a3, b3, c3⟩ := second _ c2
  have hp' : (reset s).p = p := h1
  have tq : (tick (reset s) x).1.output = 0 := by
    have : (reset s).Q = 0 := h2
    simp only [tick, this, real_arith, mul_zero]
  refine ⟨h1, h2, tq, ?_, ?_, ?_, ?_⟩ <;> simp only [tick, e, hp'] <;> simp only [reset]
  · exact ⟨a0, b0⟩
  · exact ⟨a1, b1⟩
  · exact ⟨a2, b2⟩
  · exact ⟨a3, b3⟩

/-- **C71, Stilson is false at low cutoffs** (ideal arithmetic): below 0.00218 of the sample rate (104 Hz at 48 kHz) the polynomial gives
`p < -1`. A single positive sample, however small, followed by silence, drives the filter to full scale: from some moment on the output is
0.95 for ever. -/
theorem C71_stilson_latches (cut : ℝ) (s : Ladder ℝ ℝ) (hsr : 0 < s.sampleRate) (h0 : 0 ≤ cut) (h1 : cut ≤ 0.00218 * s.sampleRate) :
    ∃ s', (setCutoff cut s).bind (setResonance 0) = some s' ∧ ∀ x : ℝ, 0 < x →
      ∃ N, ∀ n, N ≤ n → heard tick (reset s') (fun n => if n = 0 then x else 0) n = 0.95 := by
  obtain ⟨s', hs', hp, hQ⟩ := set_flat cut s hsr h0 (by norm_num at *; linarith)
  have hl := cubic_low (f := cut / s.sampleRate) (by positivity) (by rw [div_le_iff₀ hsr]; exact h1)
  obtain ⟨p, ep⟩ : ∃ p, p = cubic (cut / s.sampleRate) := ⟨_, rfl⟩
  rw [← ep] at hp hl
  refine ⟨s', hs', fun x hx => ?_⟩
  obtain ⟨f, hf⟩ : ∃ f : ℕ → ℝ, f = fun n => if n = 0 then x else 0 := ⟨_, rfl⟩
  rw [← hf]
  have hstep : ∀ n, feed tick (reset s') f (n + 1 + 1) = (tick (feed tick (reset s') f (n + 1)) 0).1 := by
    intro n
    rw [feed, show f (n + 1) = 0 by rw [hf]; simp]
  have hw : ∀ n, Woken p (feed tick (reset s') f (n + 1)) := by
    intro n
    induction n with
    | zero =>
      have : feed tick (reset s') f (0 + 1) = (tick (reset s') x).1 := by rw [feed, feed, hf]; simp
      rw [this]; exact wakes hl hp hQ hx
    | succ n ih => rw [hstep]; exact (tick_woken hl ih).1
  have hgrow : ∀ n, min 0.95 ((-p) ^ n * (feed tick (reset s') f 1).s3) ≤ (feed tick (reset s') f (n + 1)).s3 := by
    intro n
    induction n with
    | zero => simp
    | succ n ih =>
      have h := (tick_woken hl (hw n)).2.1
      rw [← hstep] at h
      refine le_trans (le_min (min_le_left _ _) ?_) h
      rcases min_cases (0.95:ℝ) ((-p) ^ n * (feed tick (reset s') f 1).s3) with hm | hm
      · rw [hm.1] at ih
        have := (hw n).s3.2
        refine (min_le_left _ _).trans ?_
        nlinarith
      · rw [hm.1] at ih
        refine (min_le_right _ _).trans ?_
        rw [pow_succ]
        nlinarith [mul_le_mul_of_nonneg_left ih (by linarith : 0 ≤ -p)]
  obtain ⟨N, hN⟩ : ∃ N, 0.95 ≤ (-p) ^ N * (feed tick (reset s') f 1).s3 := by
    have hpos := (hw 0).s3.1
    obtain ⟨N, hN⟩ := pow_unbounded_of_one_lt (0.95 / (feed tick (reset s') f 1).s3) (by linarith : 1 < -p)
    exact ⟨N, by rw [← div_le_iff₀ hpos]; exact hN.le⟩
  refine ⟨N + 1, fun n hn => ?_⟩
  obtain ⟨k, rfl⟩ : ∃ k, n = k + 1 := ⟨n - 1, by omega⟩
  have h95 : (feed tick (reset s') f (k + 1)).s3 = 0.95 := by
    refine le_antisymm (hw k).s3.2 (le_trans (le_min le_rfl ?_) (hgrow k))
    refine hN.trans (mul_le_mul_of_nonneg_right (pow_le_pow_right₀ (by linarith) (by omega)) (hw 0).s3.1.le)
  rw [heard, show f (k + 1) = 0 by rw [hf]; simp]
  exact (tick_woken hl (hw k)).2.2 h95

/-- Concrete case: 100 Hz at 48 kHz. -/
example (s : Ladder ℝ ℝ) (h : s.sampleRate = 48000) := C71_stilson_latches 100 s (by rw [h]; norm_num) (by norm_num) (by rw [h]; norm_num)

end Stilson

/-! ## MusicDSP -/

namespace MusicDSP

/-- Twice the cutoff over the sample rate. -/
noncomputable def fc (sr cut : ℝ) : ℝ := 2 * cut / sr

/-- `sin (π cutoff / sampleRate)`, with the decimal constant of Types.h for π. -/
noncomputable def sine (sr cut : ℝ) : ℝ := Real.sin (fc sr cut * 3.14159265358979323846 * 0.5)

/-- The coefficient of line 75. -/
noncomputable def pc (sr cut : ℝ) : ℝ := fc sr cut * (1.8 - 0.8 * fc sr cut)

/-- The gain of one stage for a constant input. -/
noncomputable def stageGain (sr cut : ℝ) : ℝ := pc sr cut / sine sr cut

/-- What the last stage settles at when it is fed `3` stages' worth of the constant `c`: the solution of a cubic equation. -/
def Level (sr cut c y : ℝ) : Prop :=
  ∃ v, v = 2 * pc sr cut * (stageGain sr cut ^ 3 * c) - (2 * sine sr cut - 1) * y ∧ y = v - v ^ 3 / 6

theorem sine_bounds {sr cut : ℝ} (hsr : 0 < sr) (hcut : 0 < cut) (h1 : cut ≤ sr / 6) :
    0 < fc sr cut ∧ fc sr cut ≤ 1 / 3 ∧ 0 < sine sr cut ∧ sine sr cut ≤ 1 / 2 + 1 / 10 ∧ 0 < pc sr cut ∧ pc sr cut ≤ 0.512 ∧
    0 < stageGain sr cut ∧ stageGain sr cut ≤ 1.2 := by
  obtain ⟨f, hf⟩ : ∃ f, f = fc sr cut := ⟨_, rfl⟩
  have f0 : 0 < f := by rw [hf, fc]; positivity
  have f1 : f ≤ 1 / 3 := by rw [hf, fc, div_le_iff₀ hsr]; linarith
  obtain ⟨x, hx⟩ : ∃ x : ℝ, x = f * 3.14159265358979323846 * 0.5 := ⟨_, rfl⟩
  have x0 : 0 < x := by rw [hx]; positivity
  have x1 : x ≤ 0.5236 := by rw [hx]; norm_num at *; linarith
  have hs : x - x ^ 3 / 4 < sine sr cut := by
    rw [sine, ← hf, ← hx]; 
    have h3 : 0 < x ^ 3 := by positivity
    linarith [Real.sin_gt_sub_cube x0]
  have hs1 : sine sr cut ≤ x := by rw [sine, ← hf, ← hx]; exact Real.sin_le x0.le
  have spos : 0 < sine sr cut := by
    refine lt_trans ?_ hs
    have : 0 < 1 - x ^ 2 / 4 := by norm_num at *; nlinarith
    nlinarith
  have p0 : 0 < pc sr cut := by
    rw [pc, ← hf]; have : 0 < 1.8 - 0.8 * f := by norm_num at *; linarith
    positivity
  have p1 : pc sr cut ≤ 0.512 := by rw [pc, ← hf]; norm_num; nlinarith
  refine ⟨hf ▸ f0, hf ▸ f1, spos, by norm_num at *; linarith, p0, p1, div_pos p0 spos, ?_⟩
  rw [stageGain, div_le_iff₀ spos]
  have key : pc sr cut ≤ 1.2 * (x - x ^ 3 / 4) := by
    rw [pc, ← hf, hx]
    have e : (1.2 : ℝ) * (f * 3.14159265358979323846 * 0.5 - (f * 3.14159265358979323846 * 0.5) ^ 3 / 4)
        = f * (1.2 * 3.14159265358979323846 * 0.5 - 1.2 * (3.14159265358979323846 * 0.5) ^ 3 / 4 * f ^ 2) := by ring
    rw [e]
    refine mul_le_mul_of_nonneg_left ?_ f0.le
    have hq : f ^ 2 ≤ f * (1 / 3) := by nlinarith
    norm_num
    nlinarith
  linarith

/-- The coefficients after the two setters, resonance zero. -/
theorem set_flat (sr cut : ℝ) (s : Ladder ℝ ℝ) (hs : s.sampleRate = sr) :
    (setResonance 0 (setCutoff cut s)).p = pc sr cut ∧ (setResonance 0 (setCutoff cut s)).k = 2 * sine sr cut - 1 ∧
    (setResonance 0 (setCutoff cut s)).resonanceCoeff = 0 := by
  refine ⟨?_, ?_, ?_⟩
  · simp only [setResonance, setCutoff, pc, fc, Conv.conv, id, hs, real_arith]; push_cast; ring
  · simp only [setResonance, setCutoff, sine, fc, PI, Conv.conv, id, hs, real_arith]; push_cast; ring
  · have z : (Conv.conv (clamp01 (0:ℝ)) : ℝ) = 0 := clamp01_id le_rfl zero_le_one
    simp only [setResonance, z, zero_mul, zero_div]

/-- One stage: `s' = p (x' + x) - k s`, bounded by the constant gain because all its coefficients have the same sign. -/
theorem stage_bound {p k a M x y z : ℝ} (hp : 0 ≤ p) (hk : k ≤ 0) (ha : 2 * p = (1 + k) * a) (hx : |x| ≤ M) (hy : |y| ≤ M)
    (hz : |z| ≤ a * M) : |x * p + y * p - k * z| ≤ a * M := by
  have hx' := abs_le.1 hx
  have hy' := abs_le.1 hy
  have hz' := abs_le.1 hz
  rw [abs_le]
  constructor <;> nlinarith

theorem cubic_bound {v : ℝ} (h : |v| ≤ 2) : |v - v ^ 3 / 6| ≤ 1 := by
  have h' := abs_le.1 h
  rw [abs_le]
  constructor <;> nlinarith [sq_nonneg (v - 1.4), sq_nonneg (v + 1.4)]

theorem cubic_lip {v w : ℝ} (hv : |v| ≤ 2) (hw : |w| ≤ 2) : |(v - v ^ 3 / 6) - (w - w ^ 3 / 6)| ≤ |v - w| := by
  have hv' := abs_le.1 hv
  have hw' := abs_le.1 hw
  rw [show (v - v ^ 3 / 6) - (w - w ^ 3 / 6) = (1 - (v ^ 2 + v * w + w ^ 2) / 6) * (v - w) by ring, abs_mul]
  refine mul_le_of_le_one_left (abs_nonneg _) ?_
  rw [abs_le]
  constructor
  · nlinarith
  · nlinarith [sq_nonneg (v + w), sq_nonneg v, sq_nonneg w]

/-- The memory of the filter under an input below 1/2. -/
structure Small (p k a : ℝ) (s : Ladder ℝ ℝ) : Prop where
  p : s.p = p
  k : s.k = k
  q : s.resonanceCoeff = 0
  d0 : |s.d0| ≤ 0.5
  s0 : |s.s0| ≤ a * 0.5
  d1 : s.d1 = s.s0
  s1 : |s.s1| ≤ a * (a * 0.5)
  d2 : s.d2 = s.s1
  s2 : |s.s2| ≤ a * (a * (a * 0.5))
  d3 : s.d3 = s.s2
  s3 : |s.s3| ≤ 1

theorem tick_small {p k a : ℝ} {s : Ladder ℝ ℝ} (hp : 0 ≤ p) (hk : k ≤ 0) (hk1 : -1 < k) (ha : 2 * p = (1 + k) * a) (ha1 : 0 ≤ a ∧ a ≤ 1.2)
    (hp1 : p ≤ 0.512) (h : Small p k a s) {x : ℝ} (hx : |x| ≤ 0.5) :
    Small p k a (tick s x).1 ∧ (tick s x).1.d0 = x ∧ (tick s x).1.s0 = -k * s.s0 + p * (x + s.d0) ∧
    (tick s x).1.s1 = -k * s.s1 + p * ((tick s x).1.s0 + s.s0) ∧
    (tick s x).1.s2 = -k * s.s2 + p * ((tick s x).1.s1 + s.s1) ∧
    ∃ v, v = p * ((tick s x).1.s2 + s.s2) + -k * s.s3 ∧ |v| ≤ 2 ∧ (tick s x).1.s3 = v - v ^ 3 / 6 ∧ (tick s x).2 = v - v ^ 3 / 6 := by
  have e : (Conv.conv x - s.resonanceCoeff * s.s3 : ℝ) = x := by rw [h.q]; simp only [Conv.conv, id]; ring
  have t0 : (tick s x).1.s0 = x * p + s.d0 * p - k * s.s0 := by simp only [tick, e, h.p, h.k, real_arith]
  have t1 : (tick s x).1.s1 = (tick s x).1.s0 * p + s.s0 * p - k * s.s1 := by simp only [tick, h.p, h.k, h.d1, real_arith]
  have t2 : (tick s x).1.s2 = (tick s x).1.s1 * p + s.s1 * p - k * s.s2 := by simp only [tick, h.p, h.k, h.d2, real_arith]
  obtain ⟨v, hv⟩ : ∃ v, v = p * ((tick s x).1.s2 + s.s2) + -k * s.s3 := ⟨_, rfl⟩
  have ev : (tick s x).1.s2 * s.p + s.d3 * s.p - s.k * s.s3 = v := by rw [hv, h.p, h.k, h.d3]; ring
  have t3 : (tick s x).1.s3 = v - v ^ 3 / 6 := by
    have : (tick s x).1.s3 = ((tick s x).1.s2 * s.p + s.d3 * s.p - s.k * s.s3) - (((tick s x).1.s2 * s.p + s.d3 * s.p - s.k * s.s3)
      * ((tick s x).1.s2 * s.p + s.d3 * s.p - s.k * s.s3) * ((tick s x).1.s2 * s.p + s.d3 * s.p - s.k * s.s3)) / lit 6 := rfl
    rw [this, ev]; simp only [real_arith]; push_cast; ring
  have b0 : |(tick s x).1.s0| ≤ a * 0.5 := by rw [t0]; exact stage_bound hp hk ha hx h.d0 h.s0
  have b1 : |(tick s x).1.s1| ≤ a * (a * 0.5) := by rw [t1]; exact stage_bound hp hk ha b0 h.s0 h.s1
  have b2 : |(tick s x).1.s2| ≤ a * (a * (a * 0.5)) := by rw [t2]; exact stage_bound hp hk ha b1 h.s1 h.s2
  have hcube : a * (a * (a * 0.5)) ≤ 0.864 := by
    obtain ⟨a0, a1⟩ := ha1
    have h1 : a * a ≤ 1.44 := by norm_num at *; nlinarith
    norm_num at *; nlinarith
  have bv : |v| ≤ 2 := by
    have c2 := abs_le.1 (b2.trans hcube)
    have d2 := abs_le.1 (h.s2.trans hcube)
    have d3 := abs_le.1 h.s3
    rw [hv, abs_le]
    norm_num at *
    constructor <;> nlinarith
  have b3 : |(tick s x).1.s3| ≤ 1 := by rw [t3]; exact cubic_bound bv
  have td : (tick s x).1.d0 = x := by simp only [tick, e]
  refine ⟨⟨h.p, h.k, h.q, by rw [td]; exact hx, b0, rfl, b1, rfl, b2, rfl, b3⟩, td, ?_, ?_, ?_, v, hv, bv, t3, ?_⟩
  · rw [t0]; ring
  · rw [t1]; ring
  · rw [t2]; ring
  · rw [← t3]; rfl

/-- **C70, MusicDSP, partial** (ideal arithmetic): with a cutoff up to a sixth of the sample rate and no resonance, after a reset, an input that
never exceeds 1/2 and settles at `c` makes the output settle at the level of the specification. Missing: resonance, louder inputs, higher cutoffs. -/
theorem C70_musicdsp_partial (sr cut c y : ℝ) (s : Ladder ℝ ℝ) (hsr : 0 < sr) (hs : s.sampleRate = sr) (hcut : 0 < cut) (h1 : cut ≤ sr / 6)
    (x : ℕ → ℝ) (hb : ∀ n, |x n| ≤ 0.5) (hx : Tendsto x atTop (𝓝 c)) (hy : Level sr cut c y) (hy1 : |y| ≤ 1) :
    Tendsto (heard tick (reset (setResonance 0 (setCutoff cut s))) x) atTop (𝓝 y) := by
  obtain ⟨ep, ek, eq⟩ := set_flat sr cut s hs
  obtain ⟨f0, f1, s0, s1, p0, p1, a0, a1⟩ := sine_bounds hsr hcut h1
  obtain ⟨S, hS⟩ : ∃ S, S = reset (setResonance 0 (setCutoff cut s)) := ⟨_, rfl⟩
  rw [← hS]
  obtain ⟨k, hk⟩ : ∃ k, k = 2 * sine sr cut - 1 := ⟨_, rfl⟩
  obtain ⟨p, hp⟩ : ∃ p, p = pc sr cut := ⟨_, rfl⟩
  obtain ⟨a, ha⟩ : ∃ a, a = stageGain sr cut := ⟨_, rfl⟩
  have sh : sine sr cut ≤ 1 / 2 := by
    rw [sine, show (1:ℝ) / 2 = Real.sin (Real.pi / 6) by rw [Real.sin_pi_div_six]]
    have hpi := Real.pi_gt_d20
    refine Real.sin_le_sin_of_le_of_le_pi_div_two (by nlinarith [Real.pi_pos]) (by linarith [Real.pi_pos]) ?_
    norm_num at *
    nlinarith
  have e2 : 2 * p = (1 + k) * a := by
    rw [hp, hk, ha, stageGain]; field_simp; ring
  obtain ⟨v, hv, hyv⟩ := hy
  rw [← hk, ← hp, ← ha] at hv
  rw [← hp] at ep p0 p1
  rw [← hk] at ek
  rw [← ha] at a0 a1
  have k0 : k ≤ 0 := by linarith
  have k1 : -1 < k := by linarith
  have z : (lit 0 : ℝ) = 0 := by simp only [real_arith]; norm_num
  have hsm : ∀ n, Small p k a (feed tick S x n) := by
    intro n
    induction n with
    | zero =>
      rw [feed, hS]
      refine ⟨ep, ek, eq, ?_, ?_, rfl, ?_, rfl, ?_, rfl, ?_⟩ <;> simp only [reset, z, abs_zero] <;> positivity
    | succ n ih => exact (tick_small p0.le k0 k1 e2 ⟨a0.le, a1⟩ p1 ih (hb n)).1
  have hr := fun n => (tick_small p0.le k0 k1 e2 ⟨a0.le, a1⟩ p1 (hsm n) (hb n)).2
  have kk : |-k| < 1 := by rw [abs_neg, abs_of_nonpos k0]; linarith
  have nd : Near (fun n => (feed tick S x n).d0) c 0 := by
    refine Near.unshift ((near_zero.2 hx).congr rfl rfl |> fun h => ?_)
    exact cast (by congr 1; funext n; exact (hr n).1.symm) h
  have n0 : Near (fun n => (feed tick S x n).s0) (a * c) 0 :=
    (Near.linear kk (fun n => (feed tick S x n).s0) (fun n => x n + (feed tick S x n).d0) (fun n => (hr n).2.1)
      (by linear_combination c * (-e2)) ((near_zero.2 hx).add nd)).congr rfl (by ring)
  have n1 : Near (fun n => (feed tick S x n).s1) (a * (a * c)) 0 :=
    (Near.linear kk (fun n => (feed tick S x n).s1) (fun n => (feed tick S x (n + 1)).s0 + (feed tick S x n).s0) (fun n => (hr n).2.2.1)
      (by linear_combination (a * c) * (-e2)) (n0.shift.add n0)).congr rfl (by ring)
  have n2 : Near (fun n => (feed tick S x n).s2) (a * (a * (a * c))) 0 :=
    (Near.linear kk (fun n => (feed tick S x n).s2) (fun n => (feed tick S x (n + 1)).s1 + (feed tick S x n).s1) (fun n => (hr n).2.2.2.1)
      (by linear_combination (a * (a * c)) * (-e2)) (n1.shift.add n1)).congr rfl (by ring)
  have nA : Near (fun n => p * ((feed tick S x (n + 1)).s2 + (feed tick S x n).s2)) (2 * p * (a ^ 3 * c)) 0 :=
    ((n2.shift.add n2).mul p).congr (by ring) (by ring)
  have c1 : |c| ≤ 0.5 := le_of_tendsto hx.abs (Eventually.of_forall hb)
  have bv : |v| ≤ 2 := by
    have hcube : a ^ 3 ≤ 1.728 := by
      have : a ^ 3 ≤ 1.2 ^ 3 := pow_le_pow_left₀ a0.le a1 3
      norm_num at *; linarith
    have a3 : 0 ≤ a ^ 3 := by positivity
    have hac : |a ^ 3 * c| ≤ 0.864 := by
      rw [abs_mul, abs_of_nonneg a3]; norm_num at *; nlinarith [abs_nonneg c]
    have hac' := abs_le.1 hac
    have hy' := abs_le.1 hy1
    rw [hv, abs_le]
    norm_num at *
    constructor <;> nlinarith
  have n3 : Tendsto (fun n => (feed tick S x n).s3) atTop (𝓝 y) := by
    refine small_gain (κ := |-k|) (B₀ := 2) (abs_nonneg _) kk (Near.of_le fun n => ?_) fun B hB => Near.unshift ?_
    · have := abs_le.1 (hsm n).s3
      have hy' := abs_le.1 hy1
      rw [abs_le]; constructor <;> linarith
    · have h := nA.add (hB.mul (-k))
      intro ε hε
      filter_upwards [h ε hε] with n hn
      obtain ⟨w, hw, bw, h3, -⟩ := (hr n).2.2.2.2
      have h3' : (feed tick S x (n + 1)).s3 = w - w ^ 3 / 6 := h3
      have hw' : w = p * ((feed tick S x (n + 1)).s2 + (feed tick S x n).s2) + -k * (feed tick S x n).s3 := hw
      rw [h3', hyv]
      refine (cubic_lip bw bv).trans ?_
      rw [hw', hv]
      refine le_trans (le_of_eq ?_) (hn.trans (by linarith))
      congr 1; ring
  have hh : heard tick S x = fun n => (feed tick S x (n + 1)).s3 := by
    funext n
    obtain ⟨w, hw, bw, h3, h4⟩ := (hr n).2.2.2.2
    rw [heard, h4, ← h3]; rfl
  rw [hh]
  exact n3.comp (tendsto_add_atTop_nat 1)

/-- Such a level exists for every constant input up to 1/2. -/
theorem C70_musicdsp_exists (sr cut c : ℝ) (hsr : 0 < sr) (hcut : 0 < cut) (h1 : cut ≤ sr / 6) (hc : |c| ≤ 0.5) :
    ∃ y, Level sr cut c y ∧ |y| ≤ 1 := by
  obtain ⟨f0, f1, s0, s1, p0, p1, a0, a1⟩ := sine_bounds hsr hcut h1
  obtain ⟨A, hA⟩ : ∃ A, A = 2 * pc sr cut * (stageGain sr cut ^ 3 * c) := ⟨_, rfl⟩
  have hcube : stageGain sr cut ^ 3 ≤ 1.728 := by
    have : stageGain sr cut ^ 3 ≤ 1.2 ^ 3 := pow_le_pow_left₀ a0.le a1 3
    norm_num at *; linarith
  have a3 : 0 ≤ stageGain sr cut ^ 3 := by positivity
  have hac : |stageGain sr cut ^ 3 * c| ≤ 0.864 := by
    rw [abs_mul, abs_of_nonneg a3]; norm_num at *; nlinarith [abs_nonneg c]
  have hac' := abs_le.1 hac
  have hA1 : |A| ≤ 0.9 := by
    rw [hA, abs_le]; norm_num at *; constructor <;> nlinarith
  have hA' := abs_le.1 hA1
  obtain ⟨k, hk⟩ : ∃ k, k = 2 * sine sr cut - 1 := ⟨_, rfl⟩
  have k0 : -1 ≤ k := by linarith
  have k1 : k ≤ 1 := by linarith
  have hbd : ∀ y : ℝ, |y| ≤ 1 → |A - k * y| ≤ 2 := by
    intro y hy
    have hy' := abs_le.1 hy
    rw [abs_le]; norm_num at *; constructor <;> nlinarith
  obtain ⟨F, hF⟩ : ∃ F : ℝ → ℝ, F = fun y => y - ((A - k * y) - (A - k * y) ^ 3 / 6) := ⟨_, rfl⟩
  have hcont : ContinuousOn F (Set.Icc (-1) 1) := by rw [hF]; fun_prop
  have l1 := abs_le.1 (cubic_bound (hbd (-1) (by norm_num)))
  have l2 := abs_le.1 (cubic_bound (hbd 1 (by norm_num)))
  obtain ⟨y, hy, hy0⟩ := intermediate_value_Icc (by norm_num : (-1:ℝ) ≤ 1) hcont
    (show (0:ℝ) ∈ Set.Icc (F (-1)) (F 1) by rw [hF]; constructor <;> linarith)
  refine ⟨y, ⟨A - k * y, by rw [hA, hk], ?_⟩, abs_le.2 hy⟩
  rw [hF] at hy0
  linarith

/-- **C71, MusicDSP, partial**: and when that input dies away so does the output. -/
theorem C71_musicdsp_partial (sr cut : ℝ) (s : Ladder ℝ ℝ) (hsr : 0 < sr) (hs : s.sampleRate = sr) (hcut : 0 < cut) (h1 : cut ≤ sr / 6)
    (x : ℕ → ℝ) (hb : ∀ n, |x n| ≤ 0.5) (hx : Tendsto x atTop (𝓝 0)) :
    Tendsto (heard tick (reset (setResonance 0 (setCutoff cut s))) x) atTop (𝓝 0) :=
  C70_musicdsp_partial sr cut 0 0 s hsr hs hcut h1 x hb hx ⟨0, by ring, by norm_num⟩ (by norm_num)

/-- Concrete case: 1 kHz at 48 kHz, an input rising to 0.4. -/
example (s : Ladder ℝ ℝ) (hs : s.sampleRate = 48000) :
    ∃ y, Tendsto (heard tick (reset (setResonance 0 (setCutoff 1000 s))) (fun _ => 0.4)) atTop (𝓝 y) := by
  obtain ⟨y, h, hy⟩ := C70_musicdsp_exists 48000 1000 0.4 (by norm_num) (by norm_num) (by norm_num) (by norm_num [abs_of_pos])
  exact ⟨y, C70_musicdsp_partial 48000 1000 0.4 y s (by norm_num) hs (by norm_num) (by norm_num) _ (fun _ => by norm_num [abs_of_pos])
    tendsto_const_nhds h hy⟩

end MusicDSP

/-! ## Improved -/

namespace Improved

/-- **C70, Improved, partial** (ideal arithmetic): the only level at which the filter can rest under a constant input `c`: a state that the
sample `c` leaves unchanged sounds `-drive c / (1 + 4 resonance)` times the make-up gain. The polarity is inverted. Missing: that the filter
always reaches this rest. -/
theorem C70_improved_partial (c : ℝ) (s : Ladder ℝ ℝ) (hsr : 0 < s.sampleRate) (hg : s.g ≠ 0) (hr : 0 ≤ s.resonance)
    (hrest : (tick s c).1 = s) : (tick s c).2 = -(s.drive * c / (1 + 4 * s.resonance)) * s.makeupGain := by
  have q : (0:ℝ) < 2 * s.sampleRate := by linarith
  have lin : ∀ V d e : ℝ, V + (d + e) / (2 * s.sampleRate) = V → d = e → d = 0 := by
    intro V d e h1 h2
    have : (d + e) / (2 * s.sampleRate) = 0 := by linarith
    rw [div_eq_zero_iff] at this
    rcases this with h | h <;> linarith
  have L2 : (lit 2 : ℝ) = 2 := by simp only [real_arith]; norm_num
  have L4 : (lit 4 : ℝ) = 4 := by simp only [real_arith]; norm_num
  have vt : (0:ℝ) < 2 * VT := by simp only [VT, real_arith]; norm_num
  have eV0 := congrArg Ladder.V0 hrest
  have eV1 := congrArg Ladder.V1 hrest
  have eV2 := congrArg Ladder.V2 hrest
  have eV3 := congrArg Ladder.V3 hrest
  have ed0 := congrArg Ladder.dV0 hrest
  have ed1 := congrArg Ladder.dV1 hrest
  have ed2 := congrArg Ladder.dV2 hrest
  have ed3 := congrArg Ladder.dV3 hrest
  have et0 : Real.tanh ((tick s c).1.V0 / (2 * VT)) = s.tV0 := by rw [← L2]; exact congrArg Ladder.tV0 hrest
  have et1 : Real.tanh ((tick s c).1.V1 / (2 * VT)) = s.tV1 := by rw [← L2]; exact congrArg Ladder.tV1 hrest
  have et2 : Real.tanh ((tick s c).1.V2 / (2 * VT)) = s.tV2 := by rw [← L2]; exact congrArg Ladder.tV2 hrest
  have et3 : Real.tanh ((tick s c).1.V3 / (2 * VT)) = s.tV3 := by rw [← L2]; exact congrArg Ladder.tV3 hrest
  have d0 := lin s.V0 _ _ (by rw [← L2]; exact eV0) ed0
  have d1 := lin s.V1 _ _ (by rw [← L2]; exact eV1) ed1
  have d2 := lin s.V2 _ _ (by rw [← L2]; exact eV2) ed2
  have d3 := lin s.V3 _ _ (by rw [← L2]; exact eV3) ed3
  have f0 : -s.g * (Real.tanh ((s.drive * c + s.resonance * 4 * s.V3) / (2 * VT)) + s.tV0) = 0 := by rw [← L2, ← L4]; exact d0
  have f1 : s.g * (Real.tanh ((tick s c).1.V0 / (2 * VT)) - s.tV1) = 0 := by rw [← L2]; exact d1
  have f2 : s.g * (Real.tanh ((tick s c).1.V1 / (2 * VT)) - s.tV2) = 0 := by rw [← L2]; exact d2
  have f3 : s.g * (Real.tanh ((tick s c).1.V2 / (2 * VT)) - s.tV3) = 0 := by rw [← L2]; exact d3
  have inj := tanh_strictMono.injective
  have g1 := sub_eq_zero.1 ((mul_eq_zero.1 f1).resolve_left hg)
  have g2 := sub_eq_zero.1 ((mul_eq_zero.1 f2).resolve_left hg)
  have g3 := sub_eq_zero.1 ((mul_eq_zero.1 f3).resolve_left hg)
  have g0 := (mul_eq_zero.1 f0).resolve_left (neg_ne_zero.2 hg)
  rw [← et1, eV0, eV1] at g1
  rw [← et2, eV1, eV2] at g2
  rw [← et3, eV2, eV3] at g3
  have v1 : s.V0 = s.V1 := by exact (div_left_inj' vt.ne').1 (inj g1)
  have v2 : s.V1 = s.V2 := by exact (div_left_inj' vt.ne').1 (inj g2)
  have v3 : s.V2 = s.V3 := by exact (div_left_inj' vt.ne').1 (inj g3)
  have v0 : s.drive * c + s.resonance * 4 * s.V3 = -s.V0 := by
    have : Real.tanh ((s.drive * c + s.resonance * 4 * s.V3) / (2 * VT)) = Real.tanh (-s.V0 / (2 * VT)) := by
      rw [neg_div, Real.tanh_neg, ← eV0]
      rw [et0]; linarith
    exact (div_left_inj' vt.ne').1 (inj this)
  have out : (tick s c).2 = (tick s c).1.V3 * s.makeupGain := rfl
  rw [out, eV3]
  congr 1
  rw [eq_neg_iff_add_eq_zero, ← eq_neg_iff_add_eq_zero]
  have : (1 + 4 * s.resonance) ≠ 0 := by positivity
  field_simp
  linarith

/-- The rest exists: the state with that level in all stages. -/
theorem C70_improved_rests (c : ℝ) (s : Ladder ℝ ℝ) (hr : 0 ≤ s.resonance) :
    ∃ s' : Ladder ℝ ℝ, s'.sampleRate = s.sampleRate ∧ s'.g = s.g ∧ s'.drive = s.drive ∧ s'.resonance = s.resonance ∧ s'.makeupGain = s.makeupGain ∧
      (tick s' c).1 = s' := by
  obtain ⟨V, hV⟩ : ∃ V, V = -(s.drive * c / (1 + 4 * s.resonance)) := ⟨_, rfl⟩
  have L2 : (lit 2 : ℝ) = 2 := by simp only [real_arith]; norm_num
  have L4 : (lit 4 : ℝ) = 4 := by simp only [real_arith]; norm_num
  have e : s.drive * c + s.resonance * 4 * V = -V := by
    have : (1 + 4 * s.resonance) ≠ 0 := by positivity
    rw [hV]; field_simp; ring
  refine ⟨{ s with V0 := V, V1 := V, V2 := V, V3 := V, dV0 := 0, dV1 := 0, dV2 := 0, dV3 := 0,
                   tV0 := Real.tanh (V / (2 * VT)), tV1 := Real.tanh (V / (2 * VT)), tV2 := Real.tanh (V / (2 * VT)), tV3 := Real.tanh (V / (2 * VT)) },
    rfl, rfl, rfl, rfl, rfl, ?_⟩
  simp only [tick, L2, L4, Conv.conv, id, real_arith]
  rw [e, neg_div, Real.tanh_neg]
  simp

/-- Concrete case: at drive 1 and no resonance a constant 0.3 rests at -0.3. -/
example (s : Ladder ℝ ℝ) (h0 : s.sampleRate = 48000) (hg : s.g = 1) (h1 : s.drive = 1) (h2 : s.resonance = 0) (h3 : s.makeupGain = 1) :
    ∃ s' : Ladder ℝ ℝ, (tick s' (0.3 : ℝ)).1 = s' ∧ (tick s' 0.3).2 = -0.3 := by
  obtain ⟨s', a, b, c, d, e, h⟩ := C70_improved_rests 0.3 s h2.ge
  refine ⟨s', h, ?_⟩
  rw [C70_improved_partial 0.3 s' (by rw [a, h0]; norm_num) (by rw [b, hg]; norm_num) (by rw [d, h2]) h, c, d, e, h1, h2, h3]
  norm_num

end Improved

/-! ## RKSimulation -/

namespace RKSimulation

/-- **C70, RKSimulation, partial** (ideal arithmetic): under a constant input `c` the filter rests at `drive c / (1 + 10 resonance)` in all
four stages, whatever the cutoff, step size and oversampling, and sounds this level times the make-up gain. Missing: that it always
reaches this rest. -/
theorem C70_rk_partial (c x : ℝ) (s : Ladder ℝ ℝ) (hr : 0 ≤ s.resonance) (hx : x = s.drive * c / (1 + 10 * s.resonance)) :
    tick { s with state := ⟨x, x, x, x⟩ } c = ({ s with state := ⟨x, x, x, x⟩ }, x * s.makeupGain) := by
  obtain ⟨t, ht⟩ : ∃ t : Ladder ℝ ℝ, t = { s with state := ⟨x, x, x, x⟩ } := ⟨_, rfl⟩
  rw [← ht]
  have L10 : (lit 10 : ℝ) = 10 := by simp only [real_arith]; norm_num
  have e : c * t.drive - t.resonance * 10 * x = x := by
    have : (1 + 10 * s.resonance) ≠ 0 := by positivity
    rw [ht, hx]; field_simp; ring
  have z : derivatives t c ⟨x, x, x, x⟩ = ⟨0, 0, 0, 0⟩ := by
    simp only [derivatives, L10, Conv.conv, id, e, sub_self, mul_zero]
  have st : t.state = ⟨x, x, x, x⟩ := by rw [ht]
  have sv : solver c t = t := by
    have step : ∀ h : ℝ, (⟨x, x, x, x⟩ : Vec ℝ).step h ⟨0, 0, 0, 0⟩ = ⟨x, x, x, x⟩ := fun h => by simp [Vec.step]
    simp only [solver, st, z, step, mul_zero, add_zero]
    rw [ht]
  have it : ∀ n, (solver c)^[n] t = t := fun n => Function.iterate_fixed sv n
  have : tick t c = (t, t.state.x3 * t.makeupGain) := by
    simp only [tick, Conv.conv, id]
    rw [show (solver (c : ℝ))^[t.oversampleFactor.toNat] t = t from it _]
  rw [this, st]
  simp only [ht]

/-- Concrete case: drive 2, resonance 0.1, input 0.5 rests at 0.5. -/
example (s : Ladder ℝ ℝ) (h1 : s.drive = 2) (h2 : s.resonance = 0.1) := C70_rk_partial 0.5 0.5 s (by rw [h2]; norm_num) (by rw [h1, h2]; norm_num)

end RKSimulation

end Verif
