import Verif.Props.BufRd
import Verif.Props.CombLine
import Verif.Props.Noise
import Verif.Props.Lines
import Verif.Lemmas.AllocList
import Mathlib.Analysis.Calculus.Deriv.Pow
import Mathlib.Analysis.Calculus.Deriv.Add
import Mathlib.Analysis.Calculus.Deriv.Mul
import Mathlib.Analysis.Calculus.Deriv.Shift
import Mathlib.Analysis.Calculus.ContDiff.Deriv

/-!
# C63: interpolation between samples (ideal arithmetic)

Specification: the Catmull-Rom spline through equidistant points. It is shown to be what its name promises (it passes through the points,
is continuously differentiable, has the central differences as slopes at the points and reproduces parabolas), and the three cubic
interpolators of the library are shown to compute it.
-/

namespace Verif

/-- The cubic on `[0, 1]` with end values `b`, `c` and end slopes `(c - a) / 2`, `(d - b) / 2`, in the Hermite basis. -/
noncomputable def segment (a b c d t : ℝ) : ℝ :=
  (2 * t ^ 3 - 3 * t ^ 2 + 1) * b + (t ^ 3 - 2 * t ^ 2 + t) * ((c - a) / 2) + (-2 * t ^ 3 + 3 * t ^ 2) * c + (t ^ 3 - t ^ 2) * ((d - b) / 2)

/-- The Catmull-Rom spline through the points `(k, u k)`. -/
noncomputable def spline (u : ℤ → ℝ) (t : ℝ) : ℝ :=
  segment (u (⌊t⌋ - 1)) (u ⌊t⌋) (u (⌊t⌋ + 1)) (u (⌊t⌋ + 2)) (t - ⌊t⌋)

/-- The polygon through the points `(k, u k)`. -/
noncomputable def polygon (u : ℤ → ℝ) (t : ℝ) : ℝ := u ⌊t⌋ + (t - ⌊t⌋) * (u (⌊t⌋ + 1) - u ⌊t⌋)

/-- Derivative of `segment`. -/
noncomputable def segment' (a b c d t : ℝ) : ℝ :=
  (6 * t ^ 2 - 6 * t) * b + (3 * t ^ 2 - 4 * t + 1) * ((c - a) / 2) + (-6 * t ^ 2 + 6 * t) * c + (3 * t ^ 2 - 2 * t) * ((d - b) / 2)

theorem segment_deriv (a b c d t : ℝ) : HasDerivAt (segment a b c d) (segment' a b c d t) t := by
  have h1 : HasDerivAt (fun t : ℝ => t) 1 t := hasDerivAt_id t
  have h2 : HasDerivAt (fun t : ℝ => t ^ 2) (2 * t) t := by simpa using hasDerivAt_pow 2 t
  have h3 : HasDerivAt (fun t : ℝ => t ^ 3) (3 * t ^ 2) t := by simpa using hasDerivAt_pow 3 t
  have e : segment a b c d = fun t => (2 * b + (c - a) / 2 - 2 * c + (d - b) / 2) * t ^ 3 +
      (-3 * b - 2 * ((c - a) / 2) + 3 * c - (d - b) / 2) * t ^ 2 + ((c - a) / 2) * t + b := by
    funext t; unfold segment; ring
  rw [e]
  have := (((h3.const_mul (2 * b + (c - a) / 2 - 2 * c + (d - b) / 2)).add
    (h2.const_mul (-3 * b - 2 * ((c - a) / 2) + 3 * c - (d - b) / 2))).add (h1.const_mul ((c - a) / 2))).add_const b
  refine this.congr_deriv ?_
  unfold segment'; ring

theorem segment'_continuous (a b c d : ℝ) : Continuous (segment' a b c d) := by unfold segment'; fun_prop

/-- Slope of the spline. -/
noncomputable def slope (u : ℤ → ℝ) (t : ℝ) : ℝ :=
  segment' (u (⌊t⌋ - 1)) (u ⌊t⌋) (u (⌊t⌋ + 1)) (u (⌊t⌋ + 2)) (t - ⌊t⌋)

/-- The piece of the spline to the right of `k`, and its slope, on the closed interval. -/
theorem spline_piece (u : ℤ → ℝ) (k : ℤ) {t : ℝ} (h1 : (k:ℝ) ≤ t) (h2 : t ≤ k + 1) :
    spline u t = segment (u (k - 1)) (u k) (u (k + 1)) (u (k + 2)) (t - k) ∧
    slope u t = segment' (u (k - 1)) (u k) (u (k + 1)) (u (k + 2)) (t - k) := by
  rcases h2.lt_or_eq with h | h
  · have : ⌊t⌋ = k := Int.floor_eq_iff.2 ⟨h1, h⟩
    simp [spline, slope, this]
  · have : ⌊t⌋ = k + 1 := Int.floor_eq_iff.2 ⟨by push_cast; linarith, by push_cast; linarith⟩
    have e : t - (k:ℝ) = 1 := by linarith
    have e2 : t - ((k + 1 : ℤ) : ℝ) = 0 := by push_cast; linarith
    have e3 : k + 1 - 1 = k := by ring
    have e4 : k + 1 + 1 = k + 2 := by ring
    simp only [spline, slope, this, e, e2, e3, e4, segment, segment']
    constructor <;> ring

/-- Right and left pieces around any point. -/
theorem spline_sides (t : ℝ) : ∃ j k : ℤ, (k:ℝ) ≤ t ∧ t < k + 1 ∧ (j:ℝ) < t ∧ t ≤ j + 1 := by
  refine ⟨⌈t⌉ - 1, ⌊t⌋, Int.floor_le t, Int.lt_floor_add_one t, ?_, ?_⟩
  · push_cast; linarith [Int.ceil_lt_add_one t]
  · push_cast; linarith [Int.le_ceil t]

theorem spline_hasDerivAt (u : ℤ → ℝ) (t : ℝ) : HasDerivAt (spline u) (slope u t) t := by
  obtain ⟨j, k, h1, h2, h3, h4⟩ := spline_sides t
  have hd : ∀ i : ℤ, HasDerivAt (fun x : ℝ => segment (u (i - 1)) (u i) (u (i + 1)) (u (i + 2)) (x - i))
      (segment' (u (i - 1)) (u i) (u (i + 1)) (u (i + 2)) (t - i)) t := fun i => by
    exact (segment_deriv (u (i - 1)) (u i) (u (i + 1)) (u (i + 2)) (t - i)).comp_sub_const t i
  have hr : HasDerivWithinAt (spline u) (slope u t) (Set.Ici t) t := by
    rw [(spline_piece u k h1 h2.le).2]
    refine (hd k).hasDerivWithinAt.congr_of_eventuallyEq ?_ (spline_piece u k h1 h2.le).1
    filter_upwards [self_mem_nhdsWithin, mem_nhdsWithin_of_mem_nhds (Iio_mem_nhds h2)] with x hx hx2
    exact (spline_piece u k (h1.trans hx) (le_of_lt hx2)).1
  have hl : HasDerivWithinAt (spline u) (slope u t) (Set.Iic t) t := by
    rw [(spline_piece u j h3.le h4).2]
    refine (hd j).hasDerivWithinAt.congr_of_eventuallyEq ?_ (spline_piece u j h3.le h4).1
    filter_upwards [self_mem_nhdsWithin, mem_nhdsWithin_of_mem_nhds (Ioi_mem_nhds h3)] with x hx hx2
    exact (spline_piece u j (le_of_lt hx2) (le_trans hx h4)).1
  have := hl.union hr
  rw [Set.Iic_union_Ici] at this
  exact this.hasDerivAt (by simp)

theorem slope_continuous (u : ℤ → ℝ) : Continuous (slope u) := by
  rw [continuous_iff_continuousAt]
  intro t
  obtain ⟨j, k, h1, h2, h3, h4⟩ := spline_sides t
  have hc : ∀ i : ℤ, ContinuousAt (fun x : ℝ => segment' (u (i - 1)) (u i) (u (i + 1)) (u (i + 2)) (x - i)) t := fun i =>
    ((segment'_continuous _ _ _ _).comp (continuous_id.sub continuous_const)).continuousAt
  rw [continuousAt_iff_continuous_left_right]
  constructor
  · refine (hc j).continuousWithinAt.congr_of_eventuallyEq ?_ (spline_piece u j h3.le h4).2
    filter_upwards [self_mem_nhdsWithin, mem_nhdsWithin_of_mem_nhds (Ioi_mem_nhds h3)] with x hx hx2
    exact (spline_piece u j (le_of_lt hx2) (le_trans hx h4)).2
  · refine (hc k).continuousWithinAt.congr_of_eventuallyEq ?_ (spline_piece u k h1 h2.le).2
    filter_upwards [self_mem_nhdsWithin, mem_nhdsWithin_of_mem_nhds (Iio_mem_nhds h2)] with x hx hx2
    exact (spline_piece u k (h1.trans hx) (le_of_lt hx2)).2

/-- **C63**, the specification is a spline: it passes through the points, it is continuously differentiable, and its slope at a point is
the central difference of the neighbours. -/
theorem C63_smooth (u : ℤ → ℝ) : (∀ k : ℤ, spline u k = u k) ∧ ContDiff ℝ 1 (spline u) ∧
    ∀ k : ℤ, deriv (spline u) k = (u (k + 1) - u (k - 1)) / 2 := by
  have hderiv : deriv (spline u) = slope u := funext fun t => (spline_hasDerivAt u t).deriv
  refine ⟨fun k => by simp [spline, segment], ?_, fun k => ?_⟩
  · rw [contDiff_one_iff_deriv, hderiv]
    exact ⟨fun t => (spline_hasDerivAt u t).differentiableAt, slope_continuous u⟩
  · rw [hderiv]; simp [slope, segment']

/-- **C63**: straight lines and parabolas are reproduced exactly. -/
theorem C63_parabola (u : ℤ → ℝ) (a b c : ℝ) (hu : ∀ k : ℤ, u k = a * k ^ 2 + b * k + c) (t : ℝ) : spline u t = a * t ^ 2 + b * t + c := by
  simp only [spline, segment, hu]
  push_cast
  ring

example : spline (fun k : ℤ => (k:ℝ) ^ 2) (5 / 2) = 25 / 4 := by
  have := C63_parabola (fun k : ℤ => (k:ℝ) ^ 2) 1 0 0 (fun k => by ring) (5 / 2)
  rw [this]; norm_num

/-- Only the points up to `t + 2` matter. -/
theorem spline_congr {u v : ℤ → ℝ} {N : ℤ} (h : ∀ j < N, u j = v j) {t : ℝ} (ht : t ≤ N - 2) : spline u t = spline v t := by
  have hfl := Int.floor_le t
  by_cases hN : ⌊t⌋ + 2 < N
  · simp only [spline]
    rw [h _ (by omega), h _ (by omega), h _ (by omega), h _ (by omega)]
  · have e : t = ((⌊t⌋ : ℤ) : ℝ) := by
      have h1 : ((N - 2 : ℤ) : ℝ) ≤ ⌊t⌋ := by exact_mod_cast (by omega : N - 2 ≤ ⌊t⌋)
      push_cast at h1
      linarith
    have h2 : ⌊t⌋ < N := by
      have : ((⌊t⌋ : ℤ) : ℝ) < N := by linarith
      exact_mod_cast this
    rw [e, (C63_smooth u).1, (C63_smooth v).1, h _ h2]

/-! ## BufRd -/

namespace BufRd

/-- `cubicInterp` is the specified segment. -/
theorem cubicInterp_eq (a b c d t : ℝ) : cubicInterp a b c d t = segment a b c d t := by
  simp only [cubicInterp, segment, real_arith]
  push_cast
  ring

/-- The frames `x 0 … x (N-1)` repeated for ever. -/
def periodic (x : ℕ → ℝ) (N : ℕ) (k : ℤ) : ℝ := x (k % N).toNat

theorem truncR_nonneg {x : ℝ} (h : 0 ≤ x) : truncR x = ⌊x⌋ := by simp [truncR, h]

theorem szSub_one {n : ℕ} (h : 0 < n) (h2 : n < 2 ^ 64) : szSub n 1 = n - 1 := by
  unfold szSub
  have e : n + (2 ^ 64 - 1 % 2 ^ 64) = (n - 1) + 2 ^ 64 := by
    have : (1 % 2 ^ 64 : ℕ) = 1 := rfl
    omega
  rw [e, Nat.add_mod_right]
  exact Nat.mod_eq_of_lt (by omega)

/-- The cells a looping reader of `N` frames uses, in terms of the phase. -/
theorem loop_cells (s : Reader ℝ) (hl : s.loop = true) {N : ℕ} (h0 : 0 < N) (hN : N < 2 ^ 62) (phase : ℝ) :
    ∃ i, Arith.toSize? (adjust s N phase) = some i ∧ adjust s N phase - Arith.ofNat i = phase - ⌊phase⌋ ∧
      i < N ∧ prevIndex s i N < N ∧ wrapIndex s (szAdd i 1) N < N ∧ wrapIndex s (szAdd i 2) N < N ∧
      ∀ x : ℕ → ℝ, x i = periodic x N ⌊phase⌋ ∧ x (prevIndex s i N) = periodic x N (⌊phase⌋ - 1) ∧
        x (wrapIndex s (szAdd i 1) N) = periodic x N (⌊phase⌋ + 1) ∧ x (wrapIndex s (szAdd i 2) N) = periodic x N (⌊phase⌋ + 2) := by
  have hNr : (0:ℝ) < N := by exact_mod_cast h0
  have hNz : (0:ℤ) < N := by exact_mod_cast h0
  obtain ⟨q, hq, hq0, hq1⟩ : ∃ q : ℤ, adjust s N phase = phase - q * N ∧ 0 ≤ phase - q * N ∧ phase - q * N < N := by
    obtain ⟨k, e1, e2, e3, -⟩ := Phasor.fmod_real phase N hNr
    simp only [adjust, hl, if_true, real_arith]
    push_cast
    rw [e1]
    by_cases h : phase - k * N < 0
    · refine ⟨k - 1, ?_, ?_, ?_⟩
      · simp only [h, if_true]; push_cast; ring
      · push_cast; linarith
      · push_cast; linarith
    · refine ⟨k, ?_, not_lt.1 h, e3⟩
      simp [h]
  set r := phase - q * N with hr
  have hfr : ⌊r⌋ = ⌊phase⌋ - q * N := by
    have : phase - q * N = phase - ((q * N : ℤ) : ℝ) := by push_cast; ring
    rw [hr, this, Int.floor_sub_intCast]
  have hf0 : 0 ≤ ⌊r⌋ := Int.floor_nonneg.2 hq0
  have hfN : ⌊r⌋ < N := Int.floor_lt.2 (by exact_mod_cast hq1)
  obtain ⟨i, hi⟩ : ∃ i : ℕ, ⌊r⌋ = i := ⟨⌊r⌋.toNat, by omega⟩
  have hiN : i < N := by omega
  have hts : Arith.toSize? r = some i := by
    simp only [Arith.toSize?, real_arith, truncR_nonneg hq0, hi]
    rw [if_pos ⟨by omega, by omega⟩]; simp
  have hfrac : r - (i:ℝ) = phase - ⌊phase⌋ := by
    have : ((⌊r⌋ : ℤ) : ℝ) = i := by rw [hi]; simp
    rw [← this, hfr, hr]; push_cast; ring
  have hper : ∀ (x : ℕ → ℝ) (j : ℕ) (c : ℤ), (j:ℤ) = i + c → x (j % N) = periodic x N (⌊phase⌋ + c) := by
    intro x j c h
    unfold periodic
    congr 1
    have h1 : (⌊phase⌋ + c) % (N:ℤ) = (j:ℤ) % N := by
      have : ⌊phase⌋ + c = j + q * N := by rw [h, ← hi, hfr]; ring
      rw [this, Int.add_mul_emod_self_right]
    rw [h1, ← Int.natCast_mod, Int.toNat_natCast]
  have hlt : ∀ j : ℕ, j % N < N := fun j => Nat.mod_lt _ h0
  have z1 : szAdd i 1 = i + 1 := Nat.mod_eq_of_lt (by omega)
  have z2 : szAdd i 2 = i + 2 := Nat.mod_eq_of_lt (by omega)
  have hp0 : ∀ x : ℕ → ℝ, x i = periodic x N ⌊phase⌋ := by
    intro x
    have := hper x i 0 (by simp)
    rwa [Nat.mod_eq_of_lt hiN, add_zero] at this
  have hprev : prevIndex s i N = (i + N - 1) % N := by
    unfold prevIndex wrapIndex
    simp only [hl, if_true]
    by_cases hi0 : i = 0
    · subst hi0
      have : szSub N 1 = N - 1 := szSub_one h0 (by omega)
      rw [if_pos rfl, this, Nat.zero_add]
    · have : szSub i 1 = i - 1 := szSub_one (by omega) (by omega)
      rw [if_neg hi0, this, show i + N - 1 = (i - 1) + N by omega, Nat.add_mod_right]
  have hw1 : wrapIndex s (i + 1) N = (i + 1) % N := by simp [wrapIndex, hl]
  have hw2 : wrapIndex s (i + 2) N = (i + 2) % N := by simp [wrapIndex, hl]
  have hp1 := fun x => hper x (i + 1) 1 (by push_cast; ring)
  have hp2 := fun x => hper x (i + 2) 2 (by push_cast; ring)
  have hpm : ∀ x : ℕ → ℝ, x ((i + N - 1) % N) = periodic x N (⌊phase⌋ - 1) := by
    intro x
    have h2 := hper x (i + N - 1) (N - 1) (by omega)
    rw [h2]
    unfold periodic
    rw [show ⌊phase⌋ + ((N:ℤ) - 1) = ⌊phase⌋ - 1 + N by ring, Int.add_emod_right]
  have hfrac' : (r - Arith.ofNat i : ℝ) = phase - ⌊phase⌋ := by
    rw [← hfrac]; simp [real_arith]
  rw [hq]
  refine ⟨i, hts, hfrac', hiN, ?_, ?_, ?_, fun x => ⟨hp0 x, ?_, ?_, ?_⟩⟩
  · rw [hprev]; exact hlt _
  · rw [z1, hw1]; exact hlt _
  · rw [z2, hw2]; exact hlt _
  · rw [hprev]; exact hpm x
  · rw [z1, hw1]; exact hp1 x
  · rw [z2, hw2]; exact hp2 x

/-- A looping reader at a phase: the spline (mode 4) or the polygon (mode 2) through the periodically repeated frames, otherwise the
frame below the phase. -/
noncomputable def curve (mode : ℕ) (x : ℕ → ℝ) (N : ℕ) (phase : ℝ) : ℝ :=
  if mode = 4 then spline (periodic x N) phase
  else if mode = 2 then polygon (periodic x N) phase
  else periodic x N ⌊phase⌋

/-- **C63, BufRd** (ideal arithmetic): a looping reader returns, for every phase, positive or negative and however large, the value at
that phase of the Catmull-Rom spline (mode 4) or the polygon (mode 2) through the periodically repeated frames, and the frame below the
phase otherwise. -/
theorem C63_loop (s : Reader ℝ) (b : Buffer ℝ) (hb : s.buffer = some b) (hv : b.isValid = true) (hl : s.loop = true) (m : Mem ℝ)
    (hN : b.numSamples < 2 ^ 62) (x : ℕ → ℝ) (hx : ∀ i < b.numSamples, b.getSample m i = some (x i)) (phase : ℝ) :
    tick s m phase = some (curve s.interpolation x b.numSamples phase) := by
  have h0 : 0 < b.numSamples := by
    simp only [Buffer.isValid, Bool.and_eq_true, decide_eq_true_eq] at hv; exact hv.1.2
  obtain ⟨i, e1, e2, i0, i1, i2, i3, e3⟩ := loop_cells s hl h0 hN phase
  obtain ⟨f0, f1, f2, f3⟩ := e3 x
  simp only [tick, hb, hv, Bool.not_true, Bool.false_eq_true, if_false, e1, e2, Option.bind_some, hx _ i0, hx _ i1, hx _ i2, hx _ i3,
    Option.map_some, f0, f1, f2, f3, curve]
  by_cases c2 : s.interpolation = 2
  · rw [if_pos c2, if_neg (by omega), if_pos c2]
    simp only [polygon, lerp, real_arith]
  · rw [if_neg c2]
    by_cases c4 : s.interpolation = 4
    · rw [if_pos c4, if_pos c4, cubicInterp_eq]; rfl
    · rw [if_neg c4, if_neg c4, if_neg c2]

/-- **C63, BufRd**, stereo: the same, channel by channel (a mono buffer gives the same value on both sides). -/
theorem C63_loop_stereo (s : Reader ℝ) (b : Buffer ℝ) (hb : s.buffer = some b) (hv : b.isValid = true) (hl : s.loop = true) (m : Mem ℝ)
    (hN : b.numSamples < 2 ^ 62) (x z : ℕ → ℝ) (hx : ∀ i < b.numSamples, b.getStereoSample m i = some ⟨x i, z i⟩) (phase : ℝ) :
    tickStereo s m phase =
      some ⟨curve s.interpolation x b.numSamples phase, curve s.interpolation z b.numSamples phase⟩ := by
  have h0 : 0 < b.numSamples := by
    simp only [Buffer.isValid, Bool.and_eq_true, decide_eq_true_eq] at hv; exact hv.1.2
  obtain ⟨i, e1, e2, i0, i1, i2, i3, e3⟩ := loop_cells s hl h0 hN phase
  obtain ⟨f0, f1, f2, f3⟩ := e3 x
  obtain ⟨g0, g1, g2, g3⟩ := e3 z
  simp only [tickStereo, hb, hv, Bool.not_true, Bool.false_eq_true, if_false, e1, e2, Option.bind_some, hx _ i0, hx _ i1, hx _ i2,
    hx _ i3, Option.map_some, f0, f1, f2, f3, g0, g1, g2, g3, curve]
  by_cases c2 : s.interpolation = 2
  · have c4 : ¬ s.interpolation = 4 := by omega
    simp only [c2, if_true, polygon, lerp, real_arith]; norm_num
  · by_cases c4 : s.interpolation = 4
    · simp only [c4, if_true, cubicInterp_eq]; rfl
    · simp only [c2, c4, if_false]

/-- Concrete case: four frames 0, 1, 4, 9 and the phase 3/2, cubic: the neighbours lie on a parabola, so the value is 9/4. -/
example : tick ⟨some ⟨.at 0 0, 1, 48000, 4⟩, true, 4⟩ (fun _ => [0, 1, 4, 9] : Mem ℝ) (3 / 2) = some (9 / 4) := by
  rw [C63_loop _ ⟨.at 0 0, 1, 48000, 4⟩ rfl rfl rfl _ (by norm_num) (fun i => [0, 1, 4, 9].getD i 0) (by
    intro i hi
    match i, hi with
    | 0, _ => rfl
    | 1, _ => rfl
    | 2, _ => rfl
    | 3, _ => rfl)]
  have hf : ⌊(3 / 2 : ℝ)⌋ = 1 := by norm_num [Int.floor_eq_iff]
  simp only [curve, if_true, spline, hf, periodic]
  norm_num [segment, show (3:ℤ).toNat = 3 from rfl, show (2:ℤ).toNat = 2 from rfl]

end BufRd

/-! ## LFNoise2 -/

namespace LFNoise2

/-- The interpolation is the specified segment. -/
theorem interp_eq (t a b c d : ℝ) : interp t a b c d = segment a b c d t := by
  simp only [interp, segment, real_arith]
  push_cast
  ring

/-- The random points of a seed. -/
noncomputable def points (seed : ℕ) (k : ℤ) : ℝ := seedSample (nextSeed^[k.toNat + 1] seed)

/-- **C63, LFNoise2** (ideal arithmetic): at a frequency between 0 and the sample rate the outputs are the samples, at distance `f / sr`,
of one and the same smooth curve through the random points of the seed, clipped to `[-1, 1]`: there are no jumps and no kinks where a new
point is drawn. -/
theorem C63_curve (sr f : ℝ) (seed : ℕ) (hf : 0 < f) (hsr : f ≤ sr) (n : ℕ) :
    tickOut tick n (setFrequency f (init sr seed)) = max (-1) (min 1 (spline (points seed) (1 + n * (f / sr)))) := by
  have hs0 : 0 < sr := lt_of_lt_of_le hf hsr
  have hi0 : 0 ≤ f / sr := by positivity
  have hi1 : f / sr ≤ 1 := (div_le_one hs0).2 hsr
  have key : ∀ n : ℕ, ∃ j : ℕ, let t := tickState tick n (setFrequency f (init sr seed))
      t.phaseIncrement = f / sr ∧ t.p0 = points seed j ∧ t.p1 = points seed (j + 1) ∧ t.p2 = points seed (j + 2) ∧
      t.p3 = points seed (j + 3) ∧ t.seed = nextSeed^[j + 4] seed ∧ t.phase + j = n * (f / sr) ∧ 0 ≤ t.phase ∧ t.phase < 1 := by
    intro n
    induction n with
    | zero =>
      have hpos : (f >. (lit 0 : ℝ)) = true := by simp only [real_arith]; push_cast; simpa using hf
      have hp : ∀ k : ℕ, points seed (k:ℤ) = seedSample (nextSeed^[k + 1] seed) := fun k => by rw [points, Int.toNat_natCast]
      have e1 : ((0:ℕ):ℤ) + 1 = ((1:ℕ):ℤ) := by norm_num
      have e2 : ((0:ℕ):ℤ) + 2 = ((2:ℕ):ℤ) := by norm_num
      have e3 : ((0:ℕ):ℤ) + 3 = ((3:ℕ):ℤ) := by norm_num
      have hd : ∀ t : Osc ℝ, (drawPoints t).p0 = seedSample (nextSeed^[1] t.seed) ∧ (drawPoints t).p1 = seedSample (nextSeed^[2] t.seed) ∧
          (drawPoints t).p2 = seedSample (nextSeed^[3] t.seed) ∧ (drawPoints t).p3 = seedSample (nextSeed^[4] t.seed) ∧
          (drawPoints t).seed = nextSeed^[4] t.seed := fun t => by
        simp only [drawPoints, nextRandom, Function.iterate_succ_apply', Function.iterate_zero_apply, and_self]
      obtain ⟨d1, d2, d3, d4, d5⟩ := hd (updatePhaseIncrement
        { sampleRate := sr, seed := seed, frequency := lit 1, phase := lit 0, phaseIncrement := lit 0,
          p0 := lit 0, p1 := lit 0, p2 := lit 0, p3 := lit 0 })
      refine ⟨0, ?_, d1.trans ?_, d2.trans ?_, d3.trans ?_, d4.trans ?_, d5, ?_, ?_, ?_⟩
      · show (if f >. (lit 0 : ℝ) then f else lit 0.001) / sr = f / sr
        rw [hpos, if_pos rfl]
      · rw [hp]; rfl
      · rw [e1, hp]; rfl
      · rw [e2, hp]; rfl
      · rw [e3, hp]; rfl
      · show (lit 0 : ℝ) + _ = _
        simp only [real_arith]; simp
      · show (0:ℝ) ≤ lit 0
        simp only [real_arith]; simp
      · show (lit 0 : ℝ) < 1
        simp only [real_arith]; simp
    | succ n ih =>
      obtain ⟨j, h1, h2, h3, h4, h5, h6, h7, h8, h9⟩ := ih
      simp only [tickState_succ]
      generalize tickState tick n (setFrequency f (init sr seed)) = t at *
      by_cases hw : 1 ≤ t.phase + t.phaseIncrement
      · refine ⟨j + 1, ?_⟩
        have hw' : ((t.phase + t.phaseIncrement) >=. (lit 1 : ℝ)) = true := by simp only [real_arith]; push_cast; simpa using hw
        simp only [tick, hw', if_true, nextRandom]
        refine ⟨h1, ?_, ?_, ?_, ?_, ?_, ?_, ?_, ?_⟩
        · rw [h3, show ((j + 1 : ℕ) : ℤ) = j + 1 by push_cast; ring]
        · rw [h4, show ((j + 1 : ℕ) : ℤ) + 1 = j + 2 by push_cast; ring]
        · rw [h5, show ((j + 1 : ℕ) : ℤ) + 2 = j + 3 by push_cast; ring]
        · unfold points
          rw [h6]
          have : ((j + 1 : ℕ) : ℤ) + 3 = ((j + 4 : ℕ) : ℤ) := by push_cast; ring
          rw [this, Int.toNat_natCast, Function.iterate_succ_apply' nextSeed (j + 4)]
        · rw [h6, show j + 1 + 4 = (j + 4) + 1 by ring, Function.iterate_succ_apply' nextSeed (j + 4)]
        · simp only [real_arith]; push_cast; rw [h1]; linarith
        · simp only [real_arith]; push_cast; linarith
        · simp only [real_arith]; push_cast; rw [h1]; linarith
      · refine ⟨j, ?_⟩
        have hw' : ((t.phase + t.phaseIncrement) >=. (lit 1 : ℝ)) = false := by simp only [real_arith]; push_cast; simpa using hw
        simp only [tick, hw', Bool.false_eq_true, if_false]
        refine ⟨h1, h2, h3, h4, h5, h6, ?_, ?_, ?_⟩
        · push_cast; rw [h1]; linarith
        · rw [h1]; linarith
        · linarith
  obtain ⟨j, h1, h2, h3, h4, h5, h6, h7, h8, h9⟩ := key n
  have hfl : ⌊1 + n * (f / sr)⌋ = (j:ℤ) + 1 := by
    rw [Int.floor_eq_iff]; push_cast; constructor <;> linarith
  have hsp : spline (points seed) (1 + n * (f / sr)) = segment (points seed j) (points seed (j + 1)) (points seed (j + 2)) (points seed (j + 3))
      (tickState tick n (setFrequency f (init sr seed))).phase := by
    unfold spline
    have e0 : (j:ℤ) + 1 - 1 = j := by ring
    have e2 : (j:ℤ) + 1 + 1 = j + 2 := by ring
    have e3 : (j:ℤ) + 1 + 2 = j + 3 := by ring
    have e4 : 1 + n * (f / sr) - (((j:ℤ) + 1 : ℤ) : ℝ) = (tickState tick n (setFrequency f (init sr seed))).phase := by
      push_cast; linarith
    rw [hfl, e0, e2, e3, e4]
  rw [hsp]
  simp only [tickOut, tick, h2, h3, h4, h5, interp_eq]
  generalize segment _ _ _ _ _ = v
  rw [clamp_real (by simp only [real_arith]; push_cast; norm_num)]
  simp only [real_arith]
  push_cast
  rfl

/-- Concrete case: 500 Hz at 48 kHz; the first output is the second point. -/
example (seed : ℕ) : tickOut tick 0 (setFrequency 500 (init (48000:ℝ) seed)) = max (-1) (min 1 (points seed 1)) := by
  rw [C63_curve 48000 500 seed (by norm_num) (by norm_num)]
  have := (C63_smooth (points seed)).1 1
  rw [Int.cast_one] at this
  rw [← this, Nat.cast_zero, zero_mul, add_zero]

end LFNoise2

/-! ## CombC -/

namespace CombC

/-- The interpolation is the specified segment. -/
theorem hermite_eq (a b c d t : ℝ) : hermite a b c d t = segment a b c d t := by
  simp only [hermite, segment, real_arith]
  push_cast
  ring

/-- A list as a signal that is zero before its start and after its end. -/
def signal (V : List ℝ) (k : ℤ) : ℝ := if k < 0 then 0 else V.getD k.toNat 0

theorem signal_prefix {V W : List ℝ} (h : V <+: W) {k : ℤ} (hk : k < V.length) : signal V k = signal W k := by
  unfold signal
  split_ifs with h0
  · rfl
  · obtain ⟨T, rfl⟩ := h
    rw [List.getD_eq_getElem?_getD, List.getD_eq_getElem?_getD, List.getElem?_append_left (by omega)]

/-- The delay line, in terms of the values written so far, oldest first. -/
theorem cell_signal {s : Comb ℝ} {V : List ℝ} (hs : Holds s V.reverse) {k : ℕ} (h1 : 1 ≤ k) (h2 : k ≤ s.bufferSize) :
    s.buffer.getD ((s.writePos + s.bufferSize - k) % s.bufferSize) 0 = signal V (V.length - k) := by
  rw [hs.cell k h1 h2, signal]
  split_ifs with h
  · rw [List.getD_eq_getElem?_getD, List.getElem?_eq_none (by rw [List.length_reverse]; omega), Option.getD_none]
  · have hk : k ≤ V.length := by omega
    rw [List.getD_eq_getElem?_getD, List.getElem?_reverse (by omega), List.getD_eq_getElem?_getD]
    congr 2
    omega

/-- One tick with a delay of `D` samples, `2 ≤ D ≤ bufferSize - 4`, reads the spline through the line. -/
theorem tick_fraction {s : Comb ℝ} {V : List ℝ} (hs : Holds s V.reverse) (hN : s.bufferSize < 2 ^ 63) {D : ℝ}
    (hd : s.delayTime * s.sampleRate = D) (hD : 2 ≤ D) (hD2 : D ≤ s.bufferSize - 4) {fuel : ℕ} (hf : 1 ≤ fuel) (x : ℝ) :
    CombC.tick fuel s x = some (advance s x (spline (signal V) (V.length - D)), spline (signal V) (V.length - D)) := by
  have hp := hs.pos
  set N := s.bufferSize with hNd
  -- the delay rounded up
  obtain ⟨k, hk⟩ : ∃ k : ℕ, ⌈D⌉ = k := ⟨⌈D⌉.toNat, by have := Int.ceil_nonneg (show 0 ≤ D by linarith); omega⟩
  have hk1 : D ≤ k := by have := Int.le_ceil D; rw [hk] at this; exact_mod_cast this
  have hk2 : (k:ℝ) < D + 1 := by have := Int.ceil_lt_add_one D; rw [hk] at this; exact_mod_cast this
  have hkN : k + 4 ≤ N := by
    have : (k:ℤ) ≤ N - 4 := by
      rw [← hk, Int.ceil_le]; push_cast; exact hD2
    omega
  have hk3 : 2 ≤ k := by
    have : (2:ℝ) ≤ k := hD.trans hk1
    exact_mod_cast this
  set n := (s.writePos + N - k) % N with hn
  have hnl : n < N := Nat.mod_lt _ (by omega)
  have key := mod_sub hp (show 1 ≤ k by omega) (show k ≤ N by omega)
  rw [← hn] at key
  have hr : wrapLoop (Arith.ofNat N) fuel (Arith.ofNat s.writePos - s.delayTime * s.sampleRate) = some ((n : ℝ) + (k - D)) := by
    obtain ⟨f, rfl⟩ : ∃ f, fuel = f + 1 := ⟨fuel - 1, by omega⟩
    simp only [real_arith, hd]
    rw [wrapLoop]
    simp only [real_arith]
    push_cast
    have hn0 : (0:ℝ) ≤ n := by positivity
    by_cases hc : k ≤ s.writePos
    · rw [if_pos hc] at key
      have e : (s.writePos : ℝ) - D = (n : ℝ) + (k - D) := by rw [key, Nat.cast_sub hc]; ring
      rw [e, if_neg (by linarith)]
    · rw [if_neg hc] at key
      have hw : (s.writePos : ℝ) + 1 ≤ k := by exact_mod_cast (by omega : s.writePos + 1 ≤ k)
      have e : (s.writePos : ℝ) - D + N = (n : ℝ) + (k - D) := by
        rw [key, Nat.cast_sub (by omega)]; push_cast; ring
      rw [if_pos (by linarith), e]
      cases f <;> (rw [wrapLoop]; simp only [real_arith]; rw [if_neg (by push_cast; linarith)])
  have hfl : ⌊(n:ℝ) + (k - D)⌋ = n := by
    rw [Int.floor_eq_iff]; push_cast; constructor <;> linarith
  have hts : Arith.toSize? ((n:ℝ) + (k - D)) = some n := by
    simp only [Arith.toSize?, real_arith, BufRd.truncR_nonneg (show 0 ≤ (n:ℝ) + (k - D) by
      have : (0:ℝ) ≤ n := by positivity
      linarith), hfl]
    rw [if_pos ⟨by omega, by omega⟩]; simp
  have ht := tick_eq (x := x) (show s.bufferSize ≠ 0 by omega) hs.len hp hr hts
  have hfl2 : ⌊(V.length:ℝ) - D⌋ = (V.length:ℤ) - k := by
    rw [Int.floor_eq_iff]; push_cast; constructor <;> linarith
  have hz : (((0:ℚ) : ℝ)) = 0 := by norm_num
  have cell : ∀ (i c : ℕ), 1 ≤ c → c ≤ N → i % N = (s.writePos + N - c) % N → s.buffer.getD (i % N) 0 = signal V (V.length - c) := by
    intro i c h1 h2 h3
    rw [h3]; exact cell_signal hs h1 h2
  have hnn : n = if k ≤ s.writePos then s.writePos - k else s.writePos + N - k := key
  have m1 : ∀ j, j ≤ 2 → j < k → (n + j) % N = (s.writePos + N - (k - j)) % N := by
    intro j h1 h2
    rw [mod_sub hp (by omega) (by omega)]
    have hlt : n + j < N ∨ N ≤ n + j := by omega
    rw [hnn]
    split_ifs with c1 c2 c2
    · rw [Nat.mod_eq_of_lt (by omega)]; omega
    · omega
    · have : s.writePos + N - k + j = (s.writePos - (k - j)) + N := by omega
      rw [this, Nat.add_mod_right, Nat.mod_eq_of_lt (by omega)]
    · rw [Nat.mod_eq_of_lt (by omega)]; omega
  have mm : (n + N - 1) % N = (s.writePos + N - (k + 1)) % N := by
    rw [mod_sub hp (by omega) (by omega), mod_sub hnl (by omega) (by omega), hnn]
    split_ifs <;> omega
  have hsz0 : szSub (szAdd n N) 1 = n + N - 1 := by
    rw [BufferAllocator.szAdd_eq (by omega), BufferAllocator.szSub_eq (by omega) (by omega)]
  have hval : readAt s n ((n:ℝ) + (k - D) - Arith.ofNat n) = spline (signal V) (V.length - D) := by
    unfold readAt spline
    simp only [real_arith]
    rw [hermite_eq, hfl2, ← hNd, hsz0, BufferAllocator.szAdd_eq (by omega : n + 1 < 2 ^ 64), BufferAllocator.szAdd_eq (by omega : n + 2 < 2 ^ 64), hz]
    have hfr : (V.length:ℝ) - D - (((V.length:ℤ) - k : ℤ) : ℝ) = k - D := by push_cast; ring
    rw [hfr]
    have y1 : s.buffer.getD (n % N) 0 = signal V ((V.length:ℤ) - k) := by
      have := cell n k (by omega) (by omega) (by simpa using m1 0 (by omega) (by omega)); simpa using this
    have y2 : s.buffer.getD ((n + 1) % N) 0 = signal V ((V.length:ℤ) - k + 1) := by
      rw [cell (n + 1) (k - 1) (by omega) (by omega) (m1 1 (by omega) (by omega)),
        show (V.length:ℤ) - ((k - 1 : ℕ) : ℤ) = V.length - k + 1 by omega]
    have y0 : s.buffer.getD ((n + N - 1) % N) 0 = signal V ((V.length:ℤ) - k - 1) := by
      rw [cell (n + N - 1) (k + 1) (by omega) (by omega) mm, show (V.length:ℤ) - ((k + 1 : ℕ) : ℤ) = V.length - k - 1 by omega]
    rw [y0, y1, y2]
    by_cases h3 : 3 ≤ k
    · have y3 : s.buffer.getD ((n + 2) % N) 0 = signal V ((V.length:ℤ) - k + 2) := by
        rw [cell (n + 2) (k - 2) (by omega) (by omega) (m1 2 (by omega) (by omega)),
          show (V.length:ℤ) - ((k - 2 : ℕ) : ℤ) = V.length - k + 2 by omega]
      rw [y3]
      have e : (n:ℝ) + (k - D) - (n:ℝ) = k - D := by ring
      rw [e]
    · have hk4 : k = 2 := by omega
      have hD3 : (k:ℝ) - D = 0 := by rw [hk4] at hk1 ⊢; push_cast at hk1 ⊢; linarith
      rw [hD3]
      have e : (n:ℝ) + 0 - (n:ℝ) = 0 := by ring
      rw [e]
      simp only [segment]; ring
  rw [ht, hval]

theorem process_fraction {fuel : ℕ} (hf : 1 ≤ fuel) : ∀ (xs : List ℝ) {s : Comb ℝ} {V : List ℝ}, Holds s V.reverse →
    s.bufferSize < 2 ^ 63 → ∀ {D : ℝ}, s.delayTime * s.sampleRate = D → 2 ≤ D → D ≤ s.bufferSize - 4 →
    ∃ s' ys W, CombC.process fuel s xs = some (s', ys) ∧ ys.length = xs.length ∧ V <+: W ∧ W.length = V.length + xs.length ∧
      ∀ n < xs.length, ys.getD n 0 = spline (signal W) (V.length + n - D) ∧
        W.getD (V.length + n) 0 = xs.getD n 0 + s.feedbackCoeff * ys.getD n 0 := by
  intro xs
  induction xs with
  | nil => intro s V _ _ D _ _ _; exact ⟨s, [], V, rfl, rfl, List.prefix_rfl, rfl, by simp⟩
  | cons x xs ih =>
    intro s V hs hN D hd hD hD2
    set y := spline (signal V) (V.length - D) with hy
    have ht := tick_fraction hs hN hd hD hD2 hf x
    rw [← hy] at ht
    have hs' : Holds (advance s x y) (V ++ [x + s.feedbackCoeff * y]).reverse := by
      rw [List.reverse_append]; exact holds_advance hs hN x y
    obtain ⟨s', ys, W, h1, h2, h3, h4, h5⟩ := ih hs' hN hd hD hD2
    have hVW : V <+: W := (List.prefix_append _ _).trans h3
    have hlen : (V ++ [x + s.feedbackCoeff * y]).length = V.length + 1 := by simp
    rw [hlen] at h4 h5
    refine ⟨s', y :: ys, W, ?_, by simp [h2], hVW, by rw [h4, List.length_cons]; omega, ?_⟩
    · rw [CombC.process, ht]
      simp [h1]
    · intro n hn
      cases n with
      | zero =>
        constructor
        · rw [List.getD_cons_zero, hy]
          have e : (V.length:ℝ) + ((0:ℕ):ℝ) - D = V.length - D := by push_cast; ring
          rw [e]
          exact spline_congr (N := V.length) (fun j hj => signal_prefix hVW hj) (by push_cast; linarith)
        · obtain ⟨T, rfl⟩ := h3
          simp [List.getD_eq_getElem?_getD]
      | succ n =>
        obtain ⟨a, b⟩ := h5 n (by simpa using hn)
        constructor
        · rw [List.getD_cons_succ, a]; congr 1; push_cast; ring
        · rw [List.getD_cons_succ, List.getD_cons_succ, show V.length + (n + 1) = V.length + 1 + n by ring]; exact b

/-- **C63, CombC** (ideal arithmetic): with a delay of `D` samples, whole or not, `2 ≤ D` up to the maximum delay, the output is the
spline through the line read `D` samples ago, and what enters the line is the input plus the gain times the output. (`v` is the signal
on the line, zero before the start.) -/
theorem C63_comb (sr md dt dc : ℝ) (hsr : 0 ≤ sr) (hmd : 0 ≤ md) (h1 : 0 ≤ dt) (h2 : dt ≤ md) (hp : md * sr ≤ 2 ^ 62)
    (hD : 2 ≤ dt * sr) (fuel : ℕ) (hf : 1 ≤ fuel) (xs : List ℝ) :
    ∃ s0 s' ys, ∃ v : ℤ → ℝ, CombC.init sr md = some s0 ∧
      CombC.process fuel (CombC.setDecayTime dc (CombC.setDelayTime dt s0)) xs = some (s', ys) ∧ ys.length = xs.length ∧
      (∀ k < 0, v k = 0) ∧
      ∀ n < xs.length, ys.getD n 0 = spline v (n - dt * sr) ∧ v n = xs.getD n 0 + gain dt dc * ys.getD n 0 := by
  obtain ⟨s0, hs0, s, rfl, hb, hh, hdt, hs, hg⟩ := setup_real (dc := dc) hsr hmd h1 h2 hp
  have hc1 : ⌈md * sr⌉ ≤ (2:ℤ) ^ 62 := by rw [Int.ceil_le]; push_cast; norm_num at hp ⊢; exact hp
  have hc0 : (0:ℤ) ≤ ⌈md * sr⌉ := Int.ceil_nonneg (by positivity)
  have hle : dt * sr ≤ ⌈md * sr⌉ := (mul_le_mul_of_nonneg_right h2 hsr).trans (Int.le_ceil _)
  obtain ⟨s', ys, W, a, b, -, c, d⟩ := process_fraction hf xs (V := []) hh (by rw [hb]; omega) (D := dt * sr) (by rw [hdt, hs]) hD (by
    rw [hb]; push_cast
    have : ((⌈md * sr⌉.toNat : ℤ) : ℝ) = ⌈md * sr⌉ := by rw [Int.toNat_of_nonneg hc0]
    have h3 : ((⌈md * sr⌉.toNat : ℕ) : ℝ) = ⌈md * sr⌉ := by rw [← this]; push_cast; rfl
    rw [h3]; linarith)
  refine ⟨s0, s', ys, signal W, hs0, a, b, fun k hk => by simp [signal, hk], fun n hn => ?_⟩
  obtain ⟨e, f⟩ := d n hn
  rw [hg] at f
  refine ⟨by simpa using e, ?_⟩
  rw [← f]
  simp [signal]

/-- Concrete case: a delay of 2.5 samples at a sample rate of 1. -/
example : (0:ℝ) ≤ 1 ∧ (0:ℝ) ≤ 2.5 ∧ (2.5:ℝ) ≤ 4 ∧ (4:ℝ) * 1 ≤ 2 ^ 62 ∧ (2:ℝ) ≤ 2.5 * 1 := by norm_num

open FP in
/-- The comb of the next theorem after its setup, whatever `exp` is. -/
theorem short_setup [Libm F32] :
    ((CombC.init (lit 48000) (lit 0.0001)).map fun s => setDecayTime (lit 0) (setDelayTime (lit 0.00003125) s)) =
      some (⟨lit 48000, List.replicate 9 (lit 0), lit 0.0001, clamp (lit 0.00003125) (lit 0) (lit 0.0001), lit 0, lit 0, 9, 0⟩ : Comb F32) := by
  have hz : Arith.toSize? (Arith.ceil (lit 0.0001 * lit 48000 : F32)) = some 5 := by decide +kernel
  have h0 : Arith.isInf (lit 0 : F32) = false := by decide +kernel
  have h1 : ((lit 0 : F32) ==. lit 0) = true := by decide +kernel
  rw [CombC.init, hz]
  simp only [Option.map_some, setDecayTime, setDelayTime, updateFeedback, h0, h1, if_true, Bool.false_eq_true, if_false]
  rfl

open FP in
/-- **C63 negation** (binary32): below two samples the fourth point of the interpolation is the cell about to be overwritten, i.e. the
oldest of the line. A comb without feedback (decay time 0) and a delay of 1.5 samples answers an impulse a second time, inverted, one
length of the line (here 9 samples) later. -/
theorem C63_short_delay_echo [Libm F32] : ∃ s : Comb F32, ∃ s' ys y,
    ((CombC.init (lit 48000) (lit 0.0001)).map fun s => setDecayTime (lit 0) (setDelayTime (lit 0.00003125) s)) = some s ∧
    s.feedbackCoeff = lit 0 ∧ (s.delayTime * s.sampleRate).In 1.499 1.501 ∧
    CombC.process 1 s (lit 1 :: List.replicate 9 (lit 0)) = some (s', ys) ∧ ys[9]? = some y ∧ y.In (-0.063) (-0.062) := by
  have h : (CombC.process 1 (⟨lit 48000, List.replicate 9 (lit 0), lit 0.0001, clamp (lit 0.00003125) (lit 0) (lit 0.0001), lit 0, lit 0,
      9, 0⟩ : Comb F32) (lit 1 :: List.replicate 9 (lit 0))).any
      (fun r => (r.2[9]?).any fun y => decide (y.In (-0.063) (-0.062))) = true := by decide +kernel
  obtain ⟨⟨s', ys⟩, h1, h2⟩ := (Option.any_eq_true ..).1 h
  obtain ⟨y, h3, h4⟩ := (Option.any_eq_true ..).1 h2
  exact ⟨_, s', ys, y, short_setup, rfl, by decide +kernel, h1, h3, of_decide_eq_true h4⟩

end CombC
end Verif
