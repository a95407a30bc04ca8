import Verif.Props.Interpolation

/-!
# C99: does the comb stay bounded?

For a delay of at least two samples (and of one sample) the energy of the output never exceeds the energy of the input divided by
`(1 - |g|)²`, whatever the delay and the decay time. For a delay of one and a half samples the output of a constant input grows
exponentially although `|g| < 1`.
-/

namespace Verif

/-- Reading a line through the Catmull-Rom segment at a fixed position is passive: there is a stored energy `S` of the three values last
read such that what comes out is at most what went in minus what is stored. -/
theorem segment_passive {t : ℝ} (h0 : 0 ≤ t) (h1 : t ≤ 1) : ∃ S : ℝ → ℝ → ℝ → ℝ, S 0 0 0 = 0 ∧ (∀ a b c, 0 ≤ S a b c) ∧
    ∀ a b c d, S b c d + segment a b c d t ^ 2 ≤ S a b c + d ^ 2 := by
  set s := t * (1 - t) with hs
  have hs0 : 0 ≤ s := mul_nonneg h0 (by linarith)
  obtain ⟨p, hp⟩ : ∃ p : ℝ, p ^ 2 = 3 / 4 * s ^ 2 := ⟨√(3 / 4 * s ^ 2), Real.sq_sqrt (by positivity)⟩
  obtain ⟨r, hr⟩ : ∃ r : ℝ, r ^ 2 = 3 / 4 * s ^ 2 + s ^ 3 := ⟨√(3 / 4 * s ^ 2 + s ^ 3), Real.sq_sqrt (by positivity)⟩
  set α := (p + r) / 2 with hα
  set β := (p - r) / 2 with hβ
  have e1 : α * β = -(s ^ 3) / 4 := by rw [hα, hβ]; linear_combination (hp - hr) / 4
  have e2 : α ^ 2 + β ^ 2 = 3 / 4 * s ^ 2 + s ^ 3 / 2 := by rw [hα, hβ]; linear_combination (hp + hr) / 2
  clear_value α β
  set c0 := -(t * (1 - t) ^ 2) / 2 with k0
  set c1 := (2 - 5 * t ^ 2 + 3 * t ^ 3) / 2 with k1
  set c2 := (t + 4 * t ^ 2 - 3 * t ^ 3) / 2 with k2
  set c3 := -(t ^ 2 * (1 - t)) / 2 with k3
  have seg : ∀ a b c d, segment a b c d t = c0 * a + c1 * b + c2 * c + c3 * d := by
    intro a b c d; simp only [segment, k0, k1, k2, k3]; ring
  -- the autocorrelations of the two filters add up to those of the identity
  have r0 : c0 ^ 2 + c1 ^ 2 + c2 ^ 2 + c3 ^ 2 + (α ^ 2 + (β - 2 * α) ^ 2 + (α - 2 * β) ^ 2 + β ^ 2) = 1 := by
    have : α ^ 2 + (β - 2 * α) ^ 2 + (α - 2 * β) ^ 2 + β ^ 2 = 6 * (α ^ 2 + β ^ 2) - 8 * (α * β) := by ring
    rw [this, e1, e2]; simp only [k0, k1, k2, k3, hs]; ring
  have r1 : c0 * c1 + c1 * c2 + c2 * c3 + (α * (β - 2 * α) + (β - 2 * α) * (α - 2 * β) + (α - 2 * β) * β) = 0 := by
    have : α * (β - 2 * α) + (β - 2 * α) * (α - 2 * β) + (α - 2 * β) * β = -4 * (α ^ 2 + β ^ 2) + 7 * (α * β) := by ring
    rw [this, e1, e2]; simp only [k0, k1, k2, k3, hs]; ring
  have r2 : c0 * c2 + c1 * c3 + (α * (α - 2 * β) + (β - 2 * α) * β) = 0 := by
    have : α * (α - 2 * β) + (β - 2 * α) * β = (α ^ 2 + β ^ 2) - 4 * (α * β) := by ring
    rw [this, e1, e2]; simp only [k0, k1, k2, k3, hs]; ring
  have r3 : c0 * c3 + α * β = 0 := by
    rw [e1]; simp only [k0, k3, hs]; ring
  clear_value c0 c1 c2 c3
  refine ⟨fun a b c => (c0 * a + c1 * b + c2 * c) ^ 2 + (c0 * b + c1 * c) ^ 2 + (c0 * c) ^ 2 +
    ((α * a + (β - 2 * α) * b + (α - 2 * β) * c) ^ 2 + (α * b + (β - 2 * α) * c) ^ 2 + (α * c) ^ 2), by ring,
    fun a b c => by positivity, fun a b c d => ?_⟩
  have hq : 0 ≤ (α * a + (β - 2 * α) * b + (α - 2 * β) * c + β * d) ^ 2 := sq_nonneg _
  simp only [seg]
  have key : (c0 * b + c1 * c + c2 * d) ^ 2 + (c0 * c + c1 * d) ^ 2 + (c0 * d) ^ 2 +
      ((α * b + (β - 2 * α) * c + (α - 2 * β) * d) ^ 2 + (α * c + (β - 2 * α) * d) ^ 2 + (α * d) ^ 2) +
      (c0 * a + c1 * b + c2 * c + c3 * d) ^ 2 + (α * a + (β - 2 * α) * b + (α - 2 * β) * c + β * d) ^ 2 =
      (c0 * a + c1 * b + c2 * c) ^ 2 + (c0 * b + c1 * c) ^ 2 + (c0 * c) ^ 2 +
      ((α * a + (β - 2 * α) * b + (α - 2 * β) * c) ^ 2 + (α * b + (β - 2 * α) * c) ^ 2 + (α * c) ^ 2) + d ^ 2 := by
    linear_combination d ^ 2 * r0 + 2 * c * d * r1 + 2 * b * d * r2 + 2 * a * d * r3
  linarith

theorem sum_shift {f : ℤ → ℝ} (h0 : ∀ k < 0, f k = 0) (hf : ∀ k, 0 ≤ f k) (T e : ℕ) :
    ∑ n ∈ Finset.range T, f ((n:ℤ) - e) ≤ ∑ n ∈ Finset.range T, f n := by
  induction e with
  | zero => simp
  | succ e ih =>
    refine le_trans ?_ ih
    cases T with
    | zero => simp
    | succ T =>
      rw [Finset.sum_range_succ', Finset.sum_range_succ]
      have e1 : f (((0:ℕ):ℤ) - ((e + 1 : ℕ) : ℤ)) = 0 := h0 _ (by omega)
      rw [e1, add_zero]
      have e2 : ∀ n : ℕ, ((n + 1 : ℕ) : ℤ) - ((e + 1 : ℕ) : ℤ) = (n:ℤ) - e := by intro n; omega
      simp only [e2]
      linarith [hf ((T:ℤ) - e)]

/-- A line that is zero before time zero, read through the spline `D ≥ 2` samples behind, gives out no more than was put in. -/
theorem spline_passive {v : ℤ → ℝ} (h0 : ∀ k < 0, v k = 0) {D : ℝ} (hD : 2 ≤ D) (T : ℕ) :
    ∑ n ∈ Finset.range T, spline v (n - D) ^ 2 ≤ ∑ n ∈ Finset.range T, v n ^ 2 := by
  obtain ⟨k, hk⟩ : ∃ k : ℕ, ⌈D⌉ = k := ⟨⌈D⌉.toNat, by have := Int.ceil_nonneg (show 0 ≤ D by linarith); omega⟩
  have hk1 : D ≤ k := by have := Int.le_ceil D; rw [hk] at this; exact_mod_cast this
  have hk2 : (k:ℝ) < D + 1 := by have := Int.ceil_lt_add_one D; rw [hk] at this; exact_mod_cast this
  have hk3 : 2 ≤ k := by exact_mod_cast hD.trans hk1
  obtain ⟨S, s0, s1, s2⟩ := segment_passive (t := k - D) (by linarith) (by linarith)
  have key : ∀ T : ℕ, ∑ n ∈ Finset.range T, spline v (n - D) ^ 2 + S (v (T - k - 1)) (v (T - k)) (v (T - k + 1)) ≤
      ∑ n ∈ Finset.range T, v (n - (k - 2 : ℕ)) ^ 2 := by
    intro T
    induction T with
    | zero =>
      rw [h0 _ (by omega), h0 _ (by omega), h0 _ (by omega), s0]; simp
    | succ T ih =>
      rw [Finset.sum_range_succ, Finset.sum_range_succ]
      have hfl : ⌊(T:ℝ) - D⌋ = (T:ℤ) - k := by rw [Int.floor_eq_iff]; push_cast; constructor <;> linarith
      have hsp : spline v (T - D) = segment (v (T - k - 1)) (v (T - k)) (v (T - k + 1)) (v (T - k + 2)) (k - D) := by
        rw [spline, hfl]; congr 1; push_cast; ring
      have := s2 (v (T - k - 1)) (v (T - k)) (v (T - k + 1)) (v (T - k + 2))
      rw [← hsp] at this
      have e1 : (((T + 1 : ℕ) : ℤ) - k - 1) = T - k := by push_cast; ring
      have e2 : (((T + 1 : ℕ) : ℤ) - k) = T - k + 1 := by push_cast; ring
      have e3 : (((T + 1 : ℕ) : ℤ) - k + 1) = T - k + 2 := by push_cast; ring
      have e4 : ((T:ℤ) - (k - 2 : ℕ)) = T - k + 2 := by omega
      rw [e1, e3, e2, e4]
      linarith
  have h := sum_shift (f := fun k => v k ^ 2) (fun k hk => by simp [h0 k hk]) (fun k => sq_nonneg _) T (k - 2)
  have := key T
  have := s1 (v (T - k - 1)) (v (T - k)) (v (T - k + 1))
  linarith

/-- A feedback loop around something passive. -/
theorem loop_energy {x y v : ℕ → ℝ} {g : ℝ} (hg : |g| < 1) {T : ℕ} (hv : ∀ n < T, v n = x n + g * y n)
    (hp : ∑ n ∈ Finset.range T, y n ^ 2 ≤ ∑ n ∈ Finset.range T, v n ^ 2) :
    ∑ n ∈ Finset.range T, y n ^ 2 ≤ (∑ n ∈ Finset.range T, x n ^ 2) / (1 - |g|) ^ 2 := by
  have h1 : 0 < 1 - |g| := by linarith
  have hc : ∀ n ∈ Finset.range T, v n ^ 2 ≤ x n ^ 2 / (1 - |g|) + |g| * y n ^ 2 := by
    intro n hn
    rw [hv n (Finset.mem_range.1 hn)]
    rw [div_add' _ _ _ h1.ne', le_div_iff₀ h1]
    have hgg : g ^ 2 = |g| ^ 2 := (sq_abs g).symm
    rcases abs_cases g with ⟨e, _⟩ | ⟨e, _⟩ <;> rw [e] at h1 ⊢
    · nlinarith [mul_nonneg (show 0 ≤ g by linarith) (sq_nonneg (x n - (1 - g) * y n))]
    · nlinarith [mul_nonneg (show 0 ≤ -g by linarith) (sq_nonneg (x n + (1 + g) * y n))]
  have := Finset.sum_le_sum hc
  have ed : ∑ n ∈ Finset.range T, x n ^ 2 / (1 - |g|) = (∑ n ∈ Finset.range T, x n ^ 2) / (1 - |g|) := by
    simp only [div_eq_mul_inv, Finset.sum_mul]
  rw [Finset.sum_add_distrib, ed, ← Finset.mul_sum] at this
  rw [le_div_iff₀ (by positivity)]
  have h2 : (∑ n ∈ Finset.range T, y n ^ 2) * (1 - |g|) ≤ (∑ n ∈ Finset.range T, x n ^ 2) / (1 - |g|) := by linarith
  rw [le_div_iff₀ h1] at h2
  nlinarith

theorem sum_sq_range (l : List ℝ) : (l.map (· ^ 2)).sum = ∑ n ∈ Finset.range l.length, l.getD n 0 ^ 2 := by
  induction l with
  | nil => simp
  | cons a l ih => rw [List.map_cons, List.sum_cons, List.length_cons, Finset.sum_range_succ', ih]; simp [add_comm]

namespace CombC

theorem gain_abs {dt dc : ℝ} (h : 0 < dt) : |gain dt dc| < 1 := by
  unfold gain
  split_ifs with h0
  · simp
  · rw [abs_mul, Real.abs_exp]
    have : |((SignType.sign dc : SignType) : ℝ)| = 1 := by
      rcases lt_or_gt_of_ne h0 with h | h
      · simp [sign_neg h]
      · simp [sign_pos h]
    rw [this, one_mul, Real.exp_lt_one_iff]
    have : 0 < dt / |dc| := div_pos h (abs_pos.2 h0)
    nlinarith

/-- **C99** (ideal arithmetic): with a delay of one sample or of two samples or more, whole or not, and any decay time, the comb is
stable: the energy of its output, up to any moment, is at most the energy of its input up to that moment divided by `(1 - |g|)²`. -/
theorem C99_energy (sr md dt dc : ℝ) (hsr : 0 ≤ sr) (hmd : 0 ≤ md) (h1 : 0 ≤ dt) (h2 : dt ≤ md) (hp : md * sr ≤ 2 ^ 62)
    (hD : 2 ≤ dt * sr ∨ dt * sr = 1) (fuel : ℕ) (hf : 1 ≤ fuel) (xs : List ℝ) :
    ∃ s0 s' ys, CombC.init sr md = some s0 ∧
      CombC.process fuel (CombC.setDecayTime dc (CombC.setDelayTime dt s0)) xs = some (s', ys) ∧ ys.length = xs.length ∧
      |gain dt dc| < 1 ∧ (ys.map (· ^ 2)).sum ≤ (xs.map (· ^ 2)).sum / (1 - |gain dt dc|) ^ 2 := by
  have hdt : 0 < dt := by
    rcases h1.lt_or_eq with h | h
    · exact h
    · rw [← h] at hD; norm_num at hD
  have hg := gain_abs (dc := dc) hdt
  rcases hD with hD | hD
  · obtain ⟨s0, s', ys, v, a, b, c, d, e⟩ := C63_comb sr md dt dc hsr hmd h1 h2 hp hD fuel hf xs
    refine ⟨s0, s', ys, a, b, c, hg, ?_⟩
    rw [sum_sq_range, sum_sq_range, c]
    refine loop_energy (v := fun n => v n) hg (fun n hn => (e n hn).2) ?_
    rw [Finset.sum_congr rfl (fun n hn => by rw [(e n (Finset.mem_range.1 hn)).1])]
    exact spline_passive d hD _
  · obtain ⟨s0, s', ys, a, b, c, e⟩ := C35_comb_recurrence sr md dt dc 1 hsr hmd h1 h2 hp le_rfl (by rw [hD]; norm_num) fuel hf xs
    refine ⟨s0, s', ys, a, b, c, hg, ?_⟩
    rw [sum_sq_range, sum_sq_range, c]
    refine loop_energy (v := fun n => xs.getD n 0 + gain dt dc * ys.getD n 0) hg (fun n hn => rfl) ?_
    cases hT : xs.length with
    | zero => simp
    | succ T =>
      rw [Finset.sum_range_succ', Finset.sum_range_succ]
      have z : ys.getD 0 0 = 0 := by rw [e 0 (by omega)]; simp
      rw [z]
      have : ∑ n ∈ Finset.range T, ys.getD (n + 1) 0 ^ 2 =
          ∑ n ∈ Finset.range T, (xs.getD n 0 + gain dt dc * ys.getD n 0) ^ 2 :=
        Finset.sum_congr rfl (fun n hn => by
          have := Finset.mem_range.1 hn
          rw [e (n + 1) (by omega)]; simp)
      rw [this]
      have := sq_nonneg (xs.getD T 0 + gain dt dc * ys.getD T 0)
      nlinarith

/-- Concrete case: 2.5 samples at 48 kHz, decay of a second. -/
example : (0:ℝ) ≤ 48000 ∧ (0:ℝ) ≤ 1 / 5 ∧ (0:ℝ) ≤ 5 / 96000 ∧ (5 / 96000:ℝ) ≤ 1 / 5 ∧ (1 / 5:ℝ) * 48000 ≤ 2 ^ 62 ∧
    (2:ℝ) ≤ 5 / 96000 * 48000 := by norm_num

/-- **C99**: at most `E / ((1 - |g|)² ε²)` output samples reach the level `ε` when the input has energy `E`, however long the comb runs
on: no standing tone survives. -/
theorem C99_finite_ring (sr md dt dc : ℝ) (hsr : 0 ≤ sr) (hmd : 0 ≤ md) (h1 : 0 ≤ dt) (h2 : dt ≤ md) (hp : md * sr ≤ 2 ^ 62)
    (hD : 2 ≤ dt * sr ∨ dt * sr = 1) (fuel : ℕ) (hf : 1 ≤ fuel) (xs : List ℝ) (k : ℕ) {ε : ℝ} (hε : 0 < ε) :
    ∃ s0 s' ys, CombC.init sr md = some s0 ∧
      CombC.process fuel (CombC.setDecayTime dc (CombC.setDelayTime dt s0)) (xs ++ List.replicate k 0) = some (s', ys) ∧
      ((ys.filter fun y => ε ≤ |y|).length : ℝ) ≤ (xs.map (· ^ 2)).sum / ((1 - |gain dt dc|) ^ 2 * ε ^ 2) := by
  obtain ⟨s0, s', ys, a, b, c, d, e⟩ := C99_energy sr md dt dc hsr hmd h1 h2 hp hD fuel hf (xs ++ List.replicate k 0)
  refine ⟨s0, s', ys, a, b, ?_⟩
  have hz : ((xs ++ List.replicate k 0).map (· ^ 2)).sum = (xs.map (· ^ 2)).sum := by simp
  rw [hz] at e
  rw [← div_div, le_div_iff₀ (by positivity)]
  refine le_trans ?_ e
  clear b c e
  induction ys with
  | nil => simp
  | cons y ys ih =>
    rw [List.map_cons, List.sum_cons, List.filter_cons]
    split_ifs with hy
    · have hy : ε ≤ |y| := by simpa using hy
      have : ε ^ 2 ≤ y ^ 2 := by rw [← sq_abs y]; exact pow_le_pow_left₀ hε.le hy 2
      rw [List.length_cons]; push_cast
      linarith
    · have := sq_nonneg y
      linarith

/-! ### A delay of one and a half samples -/

/-- One tick with a delay of 1.5 samples before the line has been filled once: the fourth point, which should be the sample about to be
written, is the cell about to be overwritten, still zero. -/
theorem tick_short {s : Comb ℝ} {V : List ℝ} (hs : Holds s V.reverse) (hN : s.bufferSize < 2 ^ 63) (hN4 : 4 ≤ s.bufferSize)
    (hd : s.delayTime * s.sampleRate = 3 / 2) (hV : V.length < s.bufferSize) {fuel : ℕ} (hf : 1 ≤ fuel) (x : ℝ) {y : ℝ}
    (hy : y = (9 * signal V (V.length - 1) + 9 * signal V (V.length - 2) - signal V (V.length - 3)) / 16) :
    CombC.tick fuel s x = some (advance s x y, y) := by
  have hp := hs.pos
  set N := s.bufferSize with hNd
  set n := (s.writePos + N - 2) % N with hn
  have hnl : n < N := Nat.mod_lt _ (by omega)
  have key := mod_sub hp (show 1 ≤ 2 by omega) (show 2 ≤ N by omega)
  rw [← hn] at key
  have hn0 : (0:ℝ) ≤ n := by positivity
  have hr : wrapLoop (Arith.ofNat N) fuel (Arith.ofNat s.writePos - s.delayTime * s.sampleRate) = some ((n : ℝ) + 1 / 2) := by
    obtain ⟨f, rfl⟩ : ∃ f, fuel = f + 1 := ⟨fuel - 1, by omega⟩
    simp only [real_arith, hd]
    rw [wrapLoop]
    simp only [real_arith]
    push_cast
    by_cases hc : 2 ≤ s.writePos
    · rw [if_pos hc] at key
      have e : (s.writePos : ℝ) - 3 / 2 = (n : ℝ) + 1 / 2 := by rw [key, Nat.cast_sub hc]; push_cast; ring
      rw [e, if_neg (by linarith)]
    · rw [if_neg hc] at key
      have hw : (s.writePos : ℝ) ≤ 1 := by exact_mod_cast (by omega : s.writePos ≤ 1)
      have e : (s.writePos : ℝ) - 3 / 2 + N = (n : ℝ) + 1 / 2 := by
        rw [key, Nat.cast_sub (by omega)]; push_cast; ring
      rw [if_pos (by linarith), e]
      cases f <;> (rw [wrapLoop]; simp only [real_arith]; rw [if_neg (by push_cast; linarith)])
  have hfl : ⌊(n:ℝ) + 1 / 2⌋ = n := by
    rw [Int.floor_eq_iff]; push_cast; constructor <;> linarith
  have hts : Arith.toSize? ((n:ℝ) + 1 / 2) = some n := by
    simp only [Arith.toSize?, real_arith, BufRd.truncR_nonneg (show 0 ≤ (n:ℝ) + 1 / 2 by linarith), hfl]
    rw [if_pos ⟨by omega, by omega⟩]; simp
  have ht := tick_eq (x := x) (show s.bufferSize ≠ 0 by omega) hs.len hp hr hts
  have hz : (((0:ℚ) : ℝ)) = 0 := by norm_num
  have cell : ∀ (i c : ℕ), 1 ≤ c → c ≤ N → i % N = (s.writePos + N - c) % N → s.buffer.getD (i % N) 0 = signal V (V.length - c) := by
    intro i c h1 h2 h3
    rw [h3]; exact cell_signal hs h1 h2
  have hsz0 : szSub (szAdd n N) 1 = n + N - 1 := by
    rw [BufferAllocator.szAdd_eq (by omega), BufferAllocator.szSub_eq (by omega) (by omega)]
  have small : ∀ {j : ℕ}, j < N → j % N = j := fun h => Nat.mod_eq_of_lt h
  have hval : readAt s n ((n:ℝ) + 1 / 2 - Arith.ofNat n) = y := by
    unfold readAt
    simp only [real_arith]
    rw [hermite_eq, ← hNd, hsz0, BufferAllocator.szAdd_eq (by omega : n + 1 < 2 ^ 64), BufferAllocator.szAdd_eq (by omega : n + 2 < 2 ^ 64), hz]
    have y0 := cell (n + N - 1) 3 (by omega) (by omega) (by
      rw [mod_sub hp (by omega) (by omega), mod_sub hnl (by omega) (by omega), key]
      split_ifs <;> omega)
    have y1 := cell n 2 (by omega) (by omega) (by rw [small hnl])
    have y2 := cell (n + 1) 1 (by omega) (by omega) (by
      rw [mod_sub hp (by omega) (by omega), key]
      split_ifs with c1 c2 c2
      · rw [small (by omega)]; omega
      · omega
      · rw [show s.writePos + N - 2 + 1 = (s.writePos - 1) + N by omega, Nat.add_mod_right, small (by omega)]
      · rw [small (by omega)]; omega)
    have y3 := cell (n + 2) N (by omega) (by omega) (by
      rw [mod_sub hp (by omega) (by omega), key]
      split_ifs with c1 c2 c2
      · rw [small (by omega)]; omega
      · rw [small (by omega)]; omega
      · omega
      · rw [show s.writePos + N - 2 + 2 = s.writePos + N by omega, Nat.add_mod_right, small (by omega)]; omega)
    have z3 : signal V ((V.length:ℤ) - N) = 0 := by rw [signal, if_pos (by omega)]
    rw [y0, y1, y2, y3, z3, hy]
    have e : (n:ℝ) + 1 / 2 - (n:ℝ) = 1 / 2 := by ring
    rw [e]
    simp only [segment]
    push_cast
    ring
  rw [ht, hval]

/-- A block through a comb of 1.5 samples, up to one length of the line. -/
theorem process_short {fuel : ℕ} (hf : 1 ≤ fuel) : ∀ (xs : List ℝ) {s : Comb ℝ} {V : List ℝ}, Holds s V.reverse →
    s.bufferSize < 2 ^ 63 → 4 ≤ s.bufferSize → s.delayTime * s.sampleRate = 3 / 2 → V.length + xs.length ≤ s.bufferSize →
    ∃ s' ys W, CombC.process fuel s xs = some (s', ys) ∧ ys.length = xs.length ∧ V <+: W ∧ W.length = V.length + xs.length ∧
      ∀ n < xs.length, (let k : ℤ := V.length + n
        ys.getD n 0 = (9 * signal W (k - 1) + 9 * signal W (k - 2) - signal W (k - 3)) / 16) ∧
        W.getD (V.length + n) 0 = xs.getD n 0 + s.feedbackCoeff * ys.getD n 0 := by
  intro xs
  induction xs with
  | nil => intro s V _ _ _ _ _; exact ⟨s, [], V, rfl, rfl, List.prefix_rfl, rfl, by simp⟩
  | cons x xs ih =>
    intro s V hs hN hN4 hd hl
    rw [List.length_cons] at hl
    set y := (9 * signal V (V.length - 1) + 9 * signal V (V.length - 2) - signal V (V.length - 3)) / 16 with hy
    have ht := tick_short hs hN hN4 hd (by omega) hf x hy
    have hs' : Holds (advance s x y) (V ++ [x + s.feedbackCoeff * y]).reverse := by
      rw [List.reverse_append]; exact holds_advance hs hN x y
    have hlen : (V ++ [x + s.feedbackCoeff * y]).length = V.length + 1 := by simp
    obtain ⟨s', ys, W, h1, h2, h3, h4, h5⟩ := ih hs' hN hN4 hd (by rw [hlen]; show _ ≤ s.bufferSize; omega)
    have hVW : V <+: W := (List.prefix_append _ _).trans h3
    rw [hlen] at h4 h5
    refine ⟨s', y :: ys, W, ?_, by simp [h2], hVW, by rw [h4, List.length_cons]; omega, ?_⟩
    · rw [CombC.process, ht]
      simp [h1]
    · intro n hn
      cases n with
      | zero =>
        constructor
        · simp only [List.getD_cons_zero, Nat.cast_zero, add_zero]
          rw [hy, signal_prefix hVW (by omega), signal_prefix hVW (by omega), signal_prefix hVW (by omega)]
        · obtain ⟨T, rfl⟩ := h3
          simp [List.getD_eq_getElem?_getD]
      | succ n =>
        obtain ⟨a, b⟩ := h5 n (by simpa using hn)
        constructor
        · simp only [List.getD_cons_succ] at a ⊢
          rw [a]
          push_cast
          simp only [show (V.length:ℤ) + 1 + n = V.length + (n + 1) by ring]
        · rw [List.getD_cons_succ, List.getD_cons_succ, show V.length + (n + 1) = V.length + 1 + n by ring]; exact b

/-- The recurrence of a loop of 1.5 samples fed with ones grows like `(17 g / 16)^(n / 3)`. -/
theorem short_growth {g : ℝ} (hg : 16 / 17 ≤ g) (hg1 : g ≤ 1) {v : ℤ → ℝ} {T : ℕ} (h0 : ∀ k < 0, v k = 0)
    (hv : ∀ n : ℕ, n < T → v n = 1 + g * ((9 * v (n - 1) + 9 * v (n - 2) - v (n - 3)) / 16)) :
    ∀ n : ℕ, n < T → (17 / 16 * g) ^ (n / 3) ≤ v n ∧
      (3 ≤ n → (17 / 16 * g) ^ (n / 3) ≤ (9 * v (n - 1) + 9 * v (n - 2) - v (n - 3)) / 16) := by
  have start : 0 < T → v ((0:ℕ):ℤ) = 1 := by
    intro h
    rw [hv 0 h, h0 (((0:ℕ):ℤ) - 1) (by omega), h0 (((0:ℕ):ℤ) - 2) (by omega), h0 (((0:ℕ):ℤ) - 3) (by omega)]; norm_num
  -- steps are nonnegative and lose at most half
  have step : ∀ n : ℕ, n < T → 0 ≤ v n - v (n - 1) ∧ (v (n - 1) - v (n - 2)) / 2 ≤ v n - v (n - 1) := by
    intro n
    induction n using Nat.strong_induction_on with
    | _ n ih =>
      intro hn
      match n with
      | 0 =>
        have := start hn
        rw [h0 (((0:ℕ):ℤ) - 1) (by omega), h0 (((0:ℕ):ℤ) - 2) (by omega), this]; norm_num
      | 1 =>
        obtain ⟨a, b⟩ := ih 0 (by omega) (by omega)
        have e0 := start (by omega)
        have e1 := hv 1 hn
        rw [h0 (((1:ℕ):ℤ) - 2) (by omega), h0 (((1:ℕ):ℤ) - 3) (by omega)] at e1
        have z : v (((1:ℕ):ℤ) - 1) = v ((0:ℕ):ℤ) := by norm_num
        rw [h0 (((1:ℕ):ℤ) - 2) (by omega), z]
        rw [z] at e1
        rw [e1, e0]; constructor <;> nlinarith
      | n + 2 =>
        obtain ⟨a, b⟩ := ih (n + 1) (by omega) (by omega)
        obtain ⟨c, d⟩ := ih n (by omega) (by omega)
        have e2 := hv (n + 2) hn
        have e1 := hv (n + 1) (by omega)
        have i1 : (((n + 2 : ℕ) : ℤ) - 1) = ((n + 1 : ℕ) : ℤ) := by push_cast; ring
        have i2 : (((n + 2 : ℕ) : ℤ) - 2) = (n : ℤ) := by push_cast; ring
        have i3 : (((n + 2 : ℕ) : ℤ) - 3) = (n : ℤ) - 1 := by push_cast; ring
        have j1 : (((n + 1 : ℕ) : ℤ) - 1) = (n : ℤ) := by push_cast; ring
        have j2 : (((n + 1 : ℕ) : ℤ) - 2) = (n : ℤ) - 1 := by push_cast; ring
        have j3 : (((n + 1 : ℕ) : ℤ) - 3) = (n : ℤ) - 2 := by push_cast; ring
        rw [i1, i2, i3] at e2
        rw [j1, j2, j3] at e1
        rw [j1, j2] at b
        rw [j1] at a
        rw [i1, i2]
        have hd : v ((n + 2 : ℕ) : ℤ) - v ((n + 1 : ℕ) : ℤ) =
            g / 16 * (9 * (v ((n + 1 : ℕ) : ℤ) - v n) + 9 * (v n - v (n - 1)) - (v ((n:ℤ) - 1) - v (n - 2))) := by
          rw [e2, e1]; ring
        have lower : g / 16 * (9 * (v ((n + 1 : ℕ) : ℤ) - v n)) ≤ v ((n + 2 : ℕ) : ℤ) - v ((n + 1 : ℕ) : ℤ) := by
          rw [hd]; apply mul_le_mul_of_nonneg_left _ (by linarith); linarith
        have half : (v ((n + 1 : ℕ) : ℤ) - v n) / 2 ≤ g / 16 * (9 * (v ((n + 1 : ℕ) : ℤ) - v n)) := by nlinarith
        exact ⟨by linarith, by linarith⟩
  have mono : ∀ n : ℕ, n < T → 1 ≤ v n := by
    intro n
    induction n with
    | zero => intro hn; exact (start hn).ge
    | succ n ih =>
      intro hn
      have := (step (n + 1) hn).1
      rw [show (((n + 1 : ℕ) : ℤ) - 1) = (n : ℤ) by push_cast; ring] at this
      linarith [ih (by omega)]
  intro n
  induction n using Nat.strong_induction_on with
  | _ n ih =>
    intro hn
    match n with
    | 0 => exact ⟨by simpa using mono 0 hn, by omega⟩
    | 1 => exact ⟨by simpa using mono 1 hn, by omega⟩
    | 2 => exact ⟨by simpa using mono 2 hn, by omega⟩
    | n + 3 =>
      have e := hv (n + 3) hn
      have i1 : (((n + 3 : ℕ) : ℤ) - 1) = ((n + 2 : ℕ) : ℤ) := by push_cast; ring
      have i2 : (((n + 3 : ℕ) : ℤ) - 2) = ((n + 1 : ℕ) : ℤ) := by push_cast; ring
      have i3 : (((n + 3 : ℕ) : ℤ) - 3) = (n : ℤ) := by push_cast; ring
      rw [i1, i2, i3] at e
      have a := (step (n + 2) (by omega)).1
      have b := (step (n + 1) (by omega)).1
      rw [show (((n + 2 : ℕ) : ℤ) - 1) = ((n + 1 : ℕ) : ℤ) by push_cast; ring] at a
      rw [show (((n + 1 : ℕ) : ℤ) - 1) = (n : ℤ) by push_cast; ring] at b
      have c := (ih n (by omega) (by omega)).1
      rw [show (n + 3) / 3 = n / 3 + 1 by omega, pow_succ]
      have d : (17 / 16 * g) ^ (n / 3) * (17 / 16 * g) ≤ v n * (17 / 16 * g) := mul_le_mul_of_nonneg_right c (by linarith)
      have hw : v n * (17 / 16) ≤ (9 * v ((n + 2 : ℕ) : ℤ) + 9 * v ((n + 1 : ℕ) : ℤ) - v n) / 16 := by linarith
      have m := mono n (by omega)
      constructor
      · rw [e]; nlinarith
      · intro _
        rw [i1, i2, i3]
        nlinarith

theorem one_of {n k : ℕ} (h : k < n) : (List.replicate n (1:ℝ)).getD k 0 = 1 := by
  rw [List.getD_eq_getElem?_getD, List.getElem?_replicate, if_pos h]; rfl

/-- **C99 negation** (ideal arithmetic): with a delay of 1.5 samples the comb is not stable although its gain is below one. From a gain
of 16/17 on, a constant input of one makes the output grow at least like `(17 g / 16)^(n / 3)` for as long as the line is. -/
theorem C99_explodes (sr md dt dc : ℝ) (hsr : 0 ≤ sr) (hmd : 0 ≤ md) (h1 : 0 ≤ dt) (h2 : dt ≤ md) (hp : md * sr ≤ 2 ^ 62)
    (hD : dt * sr = 3 / 2) (hg : 16 / 17 ≤ gain dt dc) (fuel : ℕ) (hf : 1 ≤ fuel) (n : ℕ) (hn3 : 3 ≤ n) (hn : n < ⌈md * sr⌉ + 4) :
    ∃ s0 s' ys, CombC.init sr md = some s0 ∧
      CombC.process fuel (CombC.setDecayTime dc (CombC.setDelayTime dt s0)) (List.replicate (n + 1) 1) = some (s', ys) ∧
      gain dt dc < 1 ∧ (17 / 16 * gain dt dc) ^ (n / 3) ≤ ys.getD n 0 := by
  have hdt : 0 < dt := by
    rcases h1.lt_or_eq with h | h
    · exact h
    · rw [← h] at hD; norm_num at hD
  have hgl := (abs_lt.1 (gain_abs (dc := dc) hdt)).2
  obtain ⟨s0, hs0, s, rfl, hb, hh, hdt', hs, hg'⟩ := setup_real (dc := dc) hsr hmd h1 h2 hp
  have hc1 : ⌈md * sr⌉ ≤ (2:ℤ) ^ 62 := by rw [Int.ceil_le]; push_cast; norm_num at hp ⊢; exact hp
  have hc0 : (0:ℤ) ≤ ⌈md * sr⌉ := Int.ceil_nonneg (by positivity)
  obtain ⟨s', ys, W, a, b, -, c, d⟩ := process_short hf (List.replicate (n + 1) 1) (V := []) hh (by rw [hb]; omega) (by rw [hb]; omega)
    (by rw [hdt', hs, hD]) (by rw [hb]; simp; omega)
  refine ⟨s0, s', ys, hs0, a, hgl, ?_⟩
  have hgr := short_growth hg hgl.le (v := signal W) (T := n + 1) (fun k hk => by simp [signal, hk]) (fun k hk => by
    obtain ⟨e, f⟩ := d k (by simpa using hk)
    have hW : signal W k = W.getD k 0 := by simp [signal]
    simp only [List.length_nil, Nat.cast_zero, zero_add] at e f
    rw [hW, f, e, hg', one_of hk])
  obtain ⟨e, -⟩ := d n (by simp)
  simp only [List.length_nil, Nat.cast_zero, zero_add] at e
  rw [e]
  exact (hgr n (by omega)).2 hn3

/-- Concrete case: 48 kHz, a line of a fifth of a second, a delay of 1/32000 s and the default decay time of one second: a constant input
of one is answered with more than 10^80 (beyond the range of `float`) before the line has been filled once. -/
theorem C99_explodes_default (fuel : ℕ) (hf : 1 ≤ fuel) : ∃ s0 s' ys, CombC.init 48000 (1 / 5 : ℝ) = some s0 ∧
      CombC.process fuel (CombC.setDecayTime 1 (CombC.setDelayTime (1 / 32000) s0)) (List.replicate 9601 1) = some (s', ys) ∧
      10 ^ 80 ≤ ys.getD 9600 0 := by
  have hg : (0.999:ℝ) ≤ gain (1 / 32000) 1 := by
    unfold gain
    rw [if_neg one_ne_zero]
    have := Real.add_one_le_exp (-6.907755 * ((1 / 32000 : ℝ) / |1|))
    norm_num at this ⊢
    linarith
  have hc : ⌈(1 / 5 : ℝ) * 48000⌉ = 9600 := by norm_num
  obtain ⟨s0, s', ys, a, b, -, c⟩ := C99_explodes 48000 (1 / 5) (1 / 32000) 1 (by norm_num) (by norm_num) (by norm_num) (by norm_num)
    (by norm_num) (by norm_num) (by linarith) fuel hf 9600 (by norm_num) (by rw [hc]; norm_num)
  refine ⟨s0, s', ys, a, b, le_trans ?_ c⟩
  have h1 : (1.06:ℝ) ≤ 17 / 16 * gain (1 / 32000) 1 := by linarith
  have h2 : (2:ℝ) ≤ (17 / 16 * gain (1 / 32000) 1) ^ 12 := le_trans (by norm_num) (pow_le_pow_left₀ (by norm_num) h1 12)
  have h3 : (2:ℝ) ^ 266 ≤ (17 / 16 * gain (1 / 32000) 1) ^ (12 * 266) := by
    rw [pow_mul]; exact pow_le_pow_left₀ (by norm_num) h2 266
  have h4 : (10:ℝ) ^ 80 ≤ 2 ^ 266 := by
    rw [show (2:ℝ) ^ 266 = 2 ^ 133 * 2 ^ 133 by rw [← pow_add]]; norm_num
  refine le_trans (h4.trans h3) ?_
  exact pow_le_pow_right₀ (by linarith) (by norm_num)

end CombC
end Verif
