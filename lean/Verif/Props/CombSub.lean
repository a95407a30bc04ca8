import Verif.Props.CombShort

/-!
# C99: delays below one sample

Two of the four interpolation points are then the two oldest cells of the line instead of samples not yet written. On a line of odd length
with a negative decay time this makes an alternating input grow without bound although the gain is below one in absolute value.
-/

namespace Verif
namespace CombC

/-- One tick with a delay of `1 - t` samples: the third and fourth interpolation points are the two oldest cells. -/
theorem tick_below {t : ℝ} (t0 : 0 < t) (t1 : t < 1) {s : Comb ℝ} {V : List ℝ} (hs : Holds s V.reverse) (hN : s.bufferSize < 2 ^ 63)
    (hN4 : 4 ≤ s.bufferSize) (hd : s.delayTime * s.sampleRate = 1 - t) {fuel : ℕ} (hf : 1 ≤ fuel) (x : ℝ) {y : ℝ}
    (hy : y = segment (signal V (V.length - 2)) (signal V (V.length - 1)) (signal V (V.length - s.bufferSize))
      (signal V (V.length - s.bufferSize + 1)) t) :
    CombC.tick fuel s x = some (advance s x y, y) := by
  have hp := hs.pos
  set N := s.bufferSize with hNd
  set n := (s.writePos + N - 1) % N with hn
  have hnl : n < N := Nat.mod_lt _ (by omega)
  have key := mod_sub hp (show 1 ≤ 1 by omega) (show 1 ≤ N by omega)
  rw [← hn] at key
  have hn0 : (0:ℝ) ≤ n := by positivity
  have hr : wrapLoop (Arith.ofNat N) fuel (Arith.ofNat s.writePos - s.delayTime * s.sampleRate) = some ((n : ℝ) + t) := by
    obtain ⟨f, rfl⟩ : ∃ f, fuel = f + 1 := ⟨fuel - 1, by omega⟩
    simp only [real_arith, hd]
    rw [wrapLoop]
    simp only [real_arith]
    push_cast
    by_cases hc : 1 ≤ s.writePos
    · rw [if_pos hc] at key
      have e : (s.writePos : ℝ) - (1 - t) = (n : ℝ) + t := by rw [key, Nat.cast_sub hc]; push_cast; ring
      rw [e, if_neg (by linarith)]
    · rw [if_neg hc] at key
      have hw : (s.writePos : ℝ) ≤ 0 := by exact_mod_cast (by omega : s.writePos ≤ 0)
      have e : (s.writePos : ℝ) - (1 - t) + N = (n : ℝ) + t := by
        rw [key, Nat.cast_sub (by omega)]; push_cast; ring
      rw [if_pos (by linarith), e]
      cases f <;> (rw [wrapLoop]; simp only [real_arith]; rw [if_neg (by push_cast; linarith)])
  have hfl : ⌊(n:ℝ) + t⌋ = n := by
    rw [Int.floor_eq_iff]; push_cast; constructor <;> linarith
  have hts : Arith.toSize? ((n:ℝ) + t) = some n := by
    simp only [Arith.toSize?, real_arith, BufRd.truncR_nonneg (show 0 ≤ (n:ℝ) + t by linarith), hfl]
    rw [if_pos ⟨by omega, by omega⟩]; simp
  have ht := tick_eq (x := x) (show s.bufferSize ≠ 0 by omega) hs.len hp hr hts
  have hz : (((0:ℚ) : ℝ)) = 0 := by norm_num
  have cell : ∀ (i c : ℕ), 1 ≤ c → c ≤ N → i % N = (s.writePos + N - c) % N → s.buffer.getD (i % N) 0 = signal V (V.length - c) := by
    intro i c h1 h2 h3
    rw [h3]; exact cell_signal hs h1 h2
  have hsz0 : szSub (szAdd n N) 1 = n + N - 1 := by
    rw [BufferAllocator.szAdd_eq (by omega), BufferAllocator.szSub_eq (by omega) (by omega)]
  have small : ∀ {j : ℕ}, j < N → j % N = j := fun h => Nat.mod_eq_of_lt h
  have hval : readAt s n ((n:ℝ) + t - Arith.ofNat n) = y := by
    unfold readAt
    simp only [real_arith]
    rw [hermite_eq, ← hNd, hsz0, BufferAllocator.szAdd_eq (by omega : n + 1 < 2 ^ 64), BufferAllocator.szAdd_eq (by omega : n + 2 < 2 ^ 64), hz]
    have y0 := cell (n + N - 1) 2 (by omega) (by omega) (by
      rw [mod_sub hp (by omega) (by omega), mod_sub hnl (by omega) (by omega), key]
      split_ifs <;> omega)
    have y1 := cell n 1 (by omega) (by omega) (by rw [small hnl])
    have wrap : ∀ j, n + 1 + j = s.writePos + j ∨ n + 1 + j = s.writePos + j + N := by
      intro j; split_ifs at key <;> omega
    have y2 := cell (n + 1) N (by omega) (by omega) (by
      rw [show s.writePos + N - N = s.writePos by omega]
      rcases wrap 0 with h | h
      · rw [show n + 1 = s.writePos by omega]
      · rw [show n + 1 = s.writePos + N by omega, Nat.add_mod_right])
    have y3 := cell (n + 2) (N - 1) (by omega) (by omega) (by
      rw [show s.writePos + N - (N - 1) = s.writePos + 1 by omega]
      rcases wrap 1 with h | h
      · rw [show n + 2 = s.writePos + 1 by omega]
      · rw [show n + 2 = s.writePos + 1 + N by omega, Nat.add_mod_right])
    have i3 : ((V.length:ℤ) - ((N - 1 : ℕ) : ℤ)) = V.length - N + 1 := by rw [Nat.cast_sub (by omega)]; push_cast; ring
    rw [i3] at y3
    have e : (n:ℝ) + t - (n:ℝ) = t := by ring
    rw [y0, y1, y2, y3, hy, e]
    simp only [Nat.cast_ofNat, Nat.cast_one]
  rw [ht, hval]

/-- A block through a comb of `1 - t` samples. -/
theorem process_below {t : ℝ} (t0 : 0 < t) (t1 : t < 1) {fuel : ℕ} (hf : 1 ≤ fuel) {N : ℕ} : ∀ (xs : List ℝ) {s : Comb ℝ} {V : List ℝ},
    Holds s V.reverse → s.bufferSize = N → N < 2 ^ 63 → 4 ≤ N → s.delayTime * s.sampleRate = 1 - t →
    ∃ s' ys W, CombC.process fuel s xs = some (s', ys) ∧ ys.length = xs.length ∧ V <+: W ∧ W.length = V.length + xs.length ∧
      ∀ n < xs.length, (let k : ℤ := V.length + n
        ys.getD n 0 = segment (signal W (k - 2)) (signal W (k - 1)) (signal W (k - N)) (signal W (k - N + 1)) t) ∧
        W.getD (V.length + n) 0 = xs.getD n 0 + s.feedbackCoeff * ys.getD n 0 := by
  intro xs
  induction xs with
  | nil => intro s V _ _ _ _ _; exact ⟨s, [], V, rfl, rfl, List.prefix_rfl, rfl, by simp⟩
  | cons x xs ih =>
    intro s V hs hb hN hN4 hd
    set y := segment (signal V (V.length - 2)) (signal V (V.length - 1)) (signal V (V.length - N)) (signal V (V.length - N + 1)) t with hy
    have ht := tick_below t0 t1 hs (by omega) (by omega) hd hf x (y := y) (by rw [hb])
    have hs' : Holds (advance s x y) (V ++ [x + s.feedbackCoeff * y]).reverse := by
      rw [List.reverse_append]; exact holds_advance hs (by omega) x y
    have hlen : (V ++ [x + s.feedbackCoeff * y]).length = V.length + 1 := by simp
    obtain ⟨s', ys, W, h1, h2, h3, h4, h5⟩ := ih hs' hb hN hN4 hd
    have hVW : V <+: W := (List.prefix_append _ _).trans h3
    rw [hlen] at h4 h5
    refine ⟨s', y :: ys, W, ?_, by simp [h2], hVW, by rw [h4, List.length_cons]; omega, ?_⟩
    · rw [CombC.process, ht]
      simp [h1]
    · intro n hn
      cases n with
      | zero =>
        constructor
        · simp only [List.getD_cons_zero, Nat.cast_zero, add_zero]
          rw [hy, signal_prefix hVW (by omega), signal_prefix hVW (by omega), signal_prefix hVW (by omega), signal_prefix hVW (by omega)]
        · obtain ⟨T, rfl⟩ := h3
          simp [List.getD_eq_getElem?_getD]
      | succ n =>
        obtain ⟨a, b⟩ := h5 n (by simpa using hn)
        constructor
        · simp only [List.getD_cons_succ] at a ⊢
          rw [a]
          push_cast
          simp only [show (V.length:ℤ) + 1 + n = V.length + (n + 1) by ring]
        · rw [List.getD_cons_succ, List.getD_cons_succ, show V.length + (n + 1) = V.length + 1 + n by ring]; exact b

/-- The recurrence of a loop of `1 - t` samples on a line of odd length with gain `-g`, fed with `1, -1, 1, …`. -/
theorem below_growth {t g : ℝ} (t0 : 0 < t) (t1 : t < 1) (hg0 : 0 ≤ g) (hg : 1 ≤ (1 + t * (1 - t)) * g) (hg1 : g ≤ 1) {N : ℕ}
    (hN : Odd N) (hN4 : 4 ≤ N) {v : ℤ → ℝ} {T : ℕ} (h0 : ∀ k < 0, v k = 0)
    (hv : ∀ n : ℕ, n < T → v n = (-1) ^ n - g * segment (v (n - 2)) (v (n - 1)) (v (n - N)) (v (n - N + 1)) t) :
    ∀ n : ℕ, n < T → ((1 + t * (1 - t)) * g) ^ (n / N) ≤ (-1) ^ n * v n ∧
      (N ≤ n → ((1 + t * (1 - t)) * g) ^ (n / N) ≤ |segment (v (n - 2)) (v (n - 1)) (v (n - N)) (v (n - N + 1)) t|) := by
  have u0 : 0 < 1 - t := by linarith
  obtain ⟨u, hu⟩ : ∃ u : ℤ → ℝ, ∀ k, u k = (-1) ^ k * v k := ⟨_, fun _ => rfl⟩
  have sq : ∀ k : ℤ, ((-1:ℝ) ^ k) * (-1) ^ k = 1 := fun k => by
    rw [← zpow_add₀ (by norm_num), ← two_mul, zpow_mul]; norm_num
  have vu : ∀ k, v k = (-1) ^ k * u k := fun k => by rw [hu, ← mul_assoc, sq, one_mul]
  have s1 : ∀ k : ℤ, (-1:ℝ) ^ (k - 1) = -(-1) ^ k := fun k => by rw [zpow_sub₀ (by norm_num), zpow_one, div_neg, div_one]
  have s2 : ∀ k : ℤ, (-1:ℝ) ^ (k - 2) = (-1) ^ k := fun k => by rw [show k - 2 = k - 1 - 1 by ring, s1, s1, neg_neg]
  have s3 : ∀ k : ℤ, (-1:ℝ) ^ (k - N) = -(-1) ^ k := fun k => by
    rw [zpow_sub₀ (by norm_num), zpow_natCast, hN.neg_one_pow, div_neg, div_one]
  have s4 : ∀ k : ℤ, (-1:ℝ) ^ (k - N + 1) = (-1) ^ k := fun k => by
    rw [zpow_add₀ (by norm_num), s3]; norm_num
  obtain ⟨a, ha⟩ : ∃ a, a = t * (1 - t) ^ 2 / 2 := ⟨_, rfl⟩
  obtain ⟨b, hb⟩ : ∃ b, b = (2 - 5 * t ^ 2 + 3 * t ^ 3) / 2 := ⟨_, rfl⟩
  obtain ⟨c, hc⟩ : ∃ c, c = (t + 4 * t ^ 2 - 3 * t ^ 3) / 2 := ⟨_, rfl⟩
  obtain ⟨d, hd⟩ : ∃ d, d = t ^ 2 * (1 - t) / 2 := ⟨_, rfl⟩
  obtain ⟨G, hG⟩ : ∃ G, G = 1 + t * (1 - t) := ⟨_, rfl⟩
  have a0 : 0 ≤ a := by rw [ha]; positivity
  have b0 : 0 ≤ b := by
    rw [hb, show (2 - 5 * t ^ 2 + 3 * t ^ 3) / 2 = (1 - t) * (2 * (1 - t) + t + 3 * (t * (1 - t))) / 2 by ring]; positivity
  have c0 : 0 ≤ c := by
    rw [hc, show (t + 4 * t ^ 2 - 3 * t ^ 3) / 2 = t * (1 + t + 3 * (t * (1 - t))) / 2 by ring]; positivity
  have d0 : 0 ≤ d := by rw [hd]; positivity
  have sum : a + b + c + d = G := by rw [ha, hb, hc, hd, hG]; ring
  -- what is read, up to the alternating sign, is a combination with nonnegative weights
  have hseg : ∀ k : ℤ, segment (v (k - 2)) (v (k - 1)) (v (k - N)) (v (k - N + 1)) t =
      -((-1) ^ k * (a * u (k - 2) + b * u (k - 1) + c * u (k - N) + d * u (k - N + 1))) := by
    intro k
    rw [vu (k - 2), vu (k - 1), vu (k - N), vu (k - N + 1), s1, s2, s3, s4, ha, hb, hc, hd, segment]; ring
  have hrec : ∀ n : ℕ, n < T → u n = 1 + g * (a * u (n - 2) + b * u (n - 1) + c * u (n - N) + d * u (n - N + 1)) := by
    intro n hn
    rw [hu, hv n hn, hseg, zpow_natCast]
    have := sq n
    rw [zpow_natCast] at this
    linear_combination (1 + g * (a * u (n - 2) + b * u (n - 1) + c * u (n - N) + d * u (n - N + 1))) * this
  have neg : ∀ k < 0, u k = 0 := fun k hk => by rw [hu, h0 k hk, mul_zero]
  rw [← hG] at hg ⊢
  set Q := G * g with hQ
  have main : ∀ n : ℕ, n < T → Q ^ (n / N) ≤ u n ∧
      (N ≤ n → G * Q ^ (n / N - 1) ≤ a * u (n - 2) + b * u (n - 1) + c * u (n - N) + d * u (n - N + 1)) := by
    intro n
    induction n using Nat.strong_induction_on with
    | _ n ih =>
      intro hn
      have nonneg : ∀ k : ℤ, k < n → 0 ≤ u k := by
        intro k hk
        rcases lt_or_ge k 0 with h | h
        · exact (neg k h).ge
        · obtain ⟨j, rfl⟩ := Int.eq_ofNat_of_zero_le h
          exact le_trans (by positivity) (ih j (by omega) (by omega)).1
      have hS : N ≤ n → G * Q ^ (n / N - 1) ≤ a * u (n - 2) + b * u (n - 1) + c * u (n - N) + d * u (n - N + 1) := by
        intro hNn
        have low : ∀ k : ℤ, (n:ℤ) - N ≤ k → k < n → Q ^ (n / N - 1) ≤ u k := by
          intro k h1 h2
          obtain ⟨j, rfl⟩ := Int.eq_ofNat_of_zero_le (show 0 ≤ k by omega)
          refine le_trans (pow_le_pow_right₀ hg ?_) (ih j (by omega) (by omega)).1
          have : (n - N) / N ≤ j / N := Nat.div_le_div_right (by omega)
          rw [show (n - N) / N = n / N - 1 from by simpa using Nat.sub_mul_div n N 1] at this
          exact this
        have k1 := mul_le_mul_of_nonneg_left (low (n - 2) (by omega) (by omega)) a0
        have k2 := mul_le_mul_of_nonneg_left (low (n - 1) (by omega) (by omega)) b0
        have k3 := mul_le_mul_of_nonneg_left (low (n - N) (by omega) (by omega)) c0
        have k4 := mul_le_mul_of_nonneg_left (low (n - N + 1) (by omega) (by omega)) d0
        rw [← sum]; linarith
      refine ⟨?_, hS⟩
      rw [hrec n hn]
      rcases lt_or_ge n N with h | h
      · rw [Nat.div_eq_of_lt h, pow_zero]
        have k1 := mul_nonneg a0 (nonneg (n - 2) (by omega))
        have k2 := mul_nonneg b0 (nonneg (n - 1) (by omega))
        have k3 := mul_nonneg c0 (nonneg (n - N) (by omega))
        have k4 := mul_nonneg d0 (nonneg (n - N + 1) (by omega))
        have := mul_nonneg hg0 (show 0 ≤ a * u (n - 2) + b * u (n - 1) + c * u (n - N) + d * u (n - N + 1) by linarith)
        linarith
      · have k := mul_le_mul_of_nonneg_left (hS h) hg0
        have p : 1 ≤ n / N := (Nat.one_le_div_iff (by omega)).2 h
        have e : Q ^ (n / N) = g * (G * Q ^ (n / N - 1)) := by
          conv_lhs => rw [show n / N = (n / N - 1) + 1 by omega, pow_succ]
          rw [hQ]; ring
        rw [e]; linarith
  intro n hn
  obtain ⟨m1, m2⟩ := main n hn
  refine ⟨by rw [hu, zpow_natCast] at m1; exact m1, fun h => ?_⟩
  have m := m2 h
  have p : 1 ≤ n / N := (Nat.one_le_div_iff (by omega)).2 h
  have Q0 : 0 ≤ Q ^ (n / N - 1) := pow_nonneg (by linarith) _
  have G0 : 0 ≤ G := by rw [hG]; positivity
  rw [hseg, abs_neg, abs_mul, abs_zpow, abs_neg, abs_one, one_zpow, one_mul]
  refine le_trans ?_ (le_abs_self _)
  refine le_trans ?_ m
  conv_lhs => rw [show n / N = (n / N - 1) + 1 by omega, pow_succ]
  rw [mul_comm]
  exact mul_le_mul_of_nonneg_right (by rw [hQ]; exact mul_le_of_le_one_right G0 hg1) Q0

/-- **C99 negation** (ideal arithmetic): the comb is not stable at any delay `1 - t` strictly below one sample if the line has an odd
number of cells. With a negative decay time and a gain of at least `1 / (1 + t (1 - t)) < 1` in absolute value, the input `1, -1, 1, …`
makes the output grow at least like `((1 + t (1 - t)) |g|)^(n / N)`, for ever. -/
theorem C99_explodes_below (sr md dt dc t : ℝ) (hsr : 0 ≤ sr) (hmd : 0 ≤ md) (h1 : 0 ≤ dt) (h2 : dt ≤ md) (hp : md * sr ≤ 2 ^ 62)
    (t0 : 0 < t) (t1 : t < 1) (hD : dt * sr = 1 - t) (hdc : dc < 0) (hg : 1 ≤ (1 + t * (1 - t)) * |gain dt dc|) (N : ℕ)
    (hN : (N : ℤ) = ⌈md * sr⌉ + 4) (hodd : Odd N) (fuel : ℕ) (hf : 1 ≤ fuel) (n : ℕ) (hn : N ≤ n) :
    ∃ s0 s' ys, CombC.init sr md = some s0 ∧
      CombC.process fuel (CombC.setDecayTime dc (CombC.setDelayTime dt s0)) ((List.range (n + 1)).map fun k => (-1) ^ k) = some (s', ys) ∧
      |gain dt dc| < 1 ∧ ((1 + t * (1 - t)) * |gain dt dc|) ^ (n / N) ≤ |ys.getD n 0| := by
  have hdt : 0 < dt := by
    rcases h1.lt_or_eq with h | h
    · exact h
    · rw [← h, zero_mul] at hD; linarith
  have hgl := gain_abs (dc := dc) hdt
  have hneg : gain dt dc = -|gain dt dc| := by
    have : gain dt dc ≤ 0 := by
      unfold gain
      rw [if_neg hdc.ne, sign_neg hdc]
      have := Real.exp_pos (-6.907755 * (dt / |dc|))
      simp only [SignType.coe_neg_one]; linarith
    rw [abs_of_nonpos this, neg_neg]
  obtain ⟨s0, hs0, s, rfl, hb, hh, hdt', hs, hg'⟩ := setup_real (dc := dc) hsr hmd h1 h2 hp
  have hc1 : ⌈md * sr⌉ ≤ (2:ℤ) ^ 62 := by rw [Int.ceil_le]; push_cast; norm_num at hp ⊢; exact hp
  have hc0 : (0:ℤ) ≤ ⌈md * sr⌉ := Int.ceil_nonneg (by positivity)
  set xs : List ℝ := (List.range (n + 1)).map fun k => (-1) ^ k with hxs
  have hxl : xs.length = n + 1 := by simp [hxs]
  have hx : ∀ k < n + 1, xs.getD k 0 = (-1) ^ k := fun k hk => by
    simp [hxs, List.getD_eq_getElem?_getD, List.getElem?_map, List.getElem?_range hk]
  obtain ⟨s', ys, W, a, b, -, c, d⟩ := process_below t0 t1 hf (N := N) xs (V := []) hh (by omega) (by omega) (by omega)
    (by rw [hdt', hs, hD])
  refine ⟨s0, s', ys, hs0, a, hgl, ?_⟩
  have hgr := below_growth t0 t1 (abs_nonneg (gain dt dc)) hg hgl.le hodd (by omega) (v := signal W) (T := n + 1)
    (fun k hk => by simp [signal, hk]) (fun k hk => by
    obtain ⟨e, f⟩ := d k (by omega)
    have hW : signal W k = W.getD k 0 := by simp [signal]
    simp only [List.length_nil, Nat.cast_zero, zero_add] at e f
    rw [hW, f, e, hg', hx k hk]
    conv_lhs => rw [hneg]
    ring)
  obtain ⟨e, -⟩ := d n (by omega)
  simp only [List.length_nil, Nat.cast_zero, zero_add] at e
  rw [e]
  exact (hgr n (by omega)).2 hn

/-- Concrete case: half a sample at 48 kHz, a decay time of minus one second, a line of 9601 + 4 cells. -/
example : (1 / 2 / 48000 * 48000 : ℝ) = 1 - 1 / 2 ∧ 1 ≤ (1 + (1 / 2 : ℝ) * (1 - 1 / 2)) * |gain (1 / 2 / 48000) (-1)| ∧
    ((9605 : ℕ) : ℤ) = ⌈(9601 / 48000 : ℝ) * 48000⌉ + 4 ∧ Odd 9605 := by
  refine ⟨by norm_num, ?_, by norm_num, by decide⟩
  have h : 1 - 1 / 100 ≤ |gain (1 / 2 / 48000) (-1)| := by
    unfold gain
    rw [if_neg (by norm_num), sign_neg (by norm_num), abs_mul, Real.abs_exp]
    have := Real.add_one_le_exp (-6.907755 * (1 / 2 / 48000 / |(-1:ℝ)|) : ℝ)
    simp only [SignType.coe_neg_one, abs_neg, abs_one, one_mul] at this ⊢
    refine le_trans ?_ this
    norm_num
  linarith

/-- **C99 negation**: for every delay strictly below one sample on a line of odd length there is a decay time with a gain below one in
absolute value at which inputs of absolute value one produce outputs beyond every bound. -/
theorem C99_unstable_below (sr md dt : ℝ) (hsr : 0 < sr) (hdt : 0 < dt) (h2 : dt ≤ md) (hp : md * sr ≤ 2 ^ 62) (hD : dt * sr < 1)
    (hodd : Odd (⌈md * sr⌉ + 4)) : ∃ dc : ℝ, |gain dt dc| < 1 ∧ ∀ (B : ℝ) (fuel : ℕ), 1 ≤ fuel → ∃ (xs : List ℝ) (s0 s' : Comb ℝ) (ys : List ℝ),
      (∀ x ∈ xs, |x| = 1) ∧ CombC.init sr md = some s0 ∧
      CombC.process fuel (CombC.setDecayTime dc (CombC.setDelayTime dt s0)) xs = some (s', ys) ∧ ∃ y ∈ ys, B < |y| := by
  obtain ⟨t, ht⟩ : ∃ t, t = 1 - dt * sr := ⟨_, rfl⟩
  have hpos : 0 < dt * sr := by positivity
  have t0 : 0 < t := by linarith
  have t1 : t < 1 := by linarith
  have u0 : 0 < 1 - t := by linarith
  obtain ⟨δ, hδ⟩ : ∃ δ, δ = t * (1 - t) := ⟨_, rfl⟩
  have δ0 : 0 < δ := by rw [hδ]; positivity
  set x := δ / (2 * (1 + δ)) with hx
  have x0 : 0 < x := by positivity
  have dc0 : 0 < 6.907755 * dt / x := by positivity
  have hge : 1 - x ≤ |gain dt (-(6.907755 * dt / x))| := by
    unfold gain
    rw [if_neg (neg_ne_zero.2 dc0.ne'), sign_neg (neg_neg_of_pos dc0), abs_mul, Real.abs_exp, abs_neg, abs_of_pos dc0]
    have e : -6.907755 * (dt / (6.907755 * dt / x)) = -x := by field_simp
    rw [e]
    have := Real.add_one_le_exp (-x)
    simp only [SignType.coe_neg_one, abs_neg, abs_one, one_mul]
    linarith
  have hq : 1 + δ / 2 ≤ (1 + δ) * |gain dt (-(6.907755 * dt / x))| := by
    have e : (1 + δ) * (1 - x) = 1 + δ / 2 := by rw [hx]; field_simp; ring
    rw [← e]
    exact mul_le_mul_of_nonneg_left hge (by linarith)
  have hmd : 0 ≤ md := hdt.le.trans h2
  have hc0 : (0:ℤ) ≤ ⌈md * sr⌉ := Int.ceil_nonneg (by positivity)
  obtain ⟨N, hN⟩ := Int.eq_ofNat_of_zero_le (show 0 ≤ ⌈md * sr⌉ + 4 by omega)
  have hoN : Odd N := by rw [hN] at hodd; exact_mod_cast hodd
  refine ⟨-(6.907755 * dt / x), gain_abs hdt, fun B fuel hf => ?_⟩
  obtain ⟨m, hm⟩ := pow_unbounded_of_one_lt B (show 1 < 1 + δ / 2 by linarith)
  have hNn : N ≤ N * (m + 1) := Nat.le_mul_of_pos_right N (by omega)
  obtain ⟨s0, s', ys, a, b, -, c⟩ := C99_explodes_below sr md dt (-(6.907755 * dt / x)) t hsr.le hmd hdt.le h2 hp t0 t1
    (by rw [ht]; ring) (neg_neg_of_pos dc0) (by rw [← hδ]; linarith) N hN.symm hoN fuel hf (N * (m + 1)) hNn
  refine ⟨_, s0, s', ys, ?_, a, b, ys.getD (N * (m + 1)) 0, ?_, ?_⟩
  · intro z hz
    obtain ⟨k, -, rfl⟩ := List.mem_map.1 hz
    simp
  · have hl : N * (m + 1) < ys.length := by
      by_contra h
      rw [List.getD_eq_getElem?_getD, List.getElem?_eq_none (not_lt.1 h), Option.getD_none, abs_zero] at c
      have : 0 < ((1 + t * (1 - t)) * |gain dt (-(6.907755 * dt / x))|) ^ (N * (m + 1) / N) := pow_pos (by rw [← hδ]; linarith) _
      linarith
    rw [List.getD_eq_getElem?_getD, List.getElem?_eq_getElem hl]
    exact List.getElem_mem hl
  · rw [Nat.mul_div_cancel_left _ hoN.pos, ← hδ] at c
    calc B < (1 + δ / 2) ^ m := hm
      _ ≤ (1 + δ / 2) ^ (m + 1) := pow_le_pow_right₀ (by linarith) (by omega)
      _ ≤ _ := pow_le_pow_left₀ (by linarith) hq _
      _ ≤ _ := c

/-- Concrete case: half a sample at 48 kHz on a line of 9605 cells. -/
example : (0:ℝ) < 1 / 2 / 48000 ∧ (1 / 2 / 48000 : ℝ) ≤ 9601 / 48000 ∧ (9601 / 48000 * 48000 : ℝ) ≤ 2 ^ 62 ∧ (1 / 2 / 48000 * 48000 : ℝ) < 1 ∧
    Odd (⌈(9601 / 48000 : ℝ) * 48000⌉ + 4) := by
  refine ⟨by norm_num, by norm_num, by norm_num, by norm_num, ?_⟩
  have : ⌈(9601 / 48000 : ℝ) * 48000⌉ = 9601 := by norm_num
  rw [this]; decide

/-- **C99 negation** at a delay of zero (ideal arithmetic): the gain is then one for every positive decay time, however short. A constant
input of one gives the staircase `n / N`, `N` the length of the line, which has no bound. -/
theorem C99_zero_delay_grows (sr md dc : ℝ) (hsr : 0 ≤ sr) (hmd : 0 ≤ md) (hp : md * sr ≤ 2 ^ 62) (hdc : 0 < dc) (N : ℕ)
    (hN : (N : ℤ) = ⌈md * sr⌉ + 4) (fuel : ℕ) (hf : 1 ≤ fuel) (m : ℕ) :
    ∃ s0 s' ys, CombC.init sr md = some s0 ∧
      CombC.process fuel (CombC.setDecayTime dc (CombC.setDelayTime 0 s0)) (List.replicate m 1) = some (s', ys) ∧
      ∀ n < m, ys.getD n 0 = ((n / N : ℕ) : ℝ) := by
  have hc0 : (0:ℤ) ≤ ⌈md * sr⌉ := Int.ceil_nonneg (by positivity)
  have e : ⌈md * sr⌉.toNat + 4 = N := by omega
  have hg : gain 0 dc = 1 := by
    unfold gain
    rw [if_neg hdc.ne', sign_pos hdc]; simp
  obtain ⟨s0, s', ys, a, b, c⟩ := C35_zero_delay_is_longest sr md dc hsr hmd hp fuel hf (List.replicate m 1)
  refine ⟨s0, s', ys, a, b, ?_⟩
  simp only [e, hg, one_mul, List.length_replicate] at c
  intro n
  induction n using Nat.strong_induction_on with
  | _ n ih =>
    intro hn
    rw [c n hn]
    split_ifs with h
    · rw [Nat.div_eq_of_lt h, Nat.cast_zero]
    · rw [one_of (by omega), ih (n - N) (by omega) (by omega), Nat.div_eq_sub_div (by omega) (not_lt.1 h)]
      push_cast; ring

/-- Concrete case: the default line at 48 kHz with a decay time of a hundredth of a second. -/
example : (1 / 5 : ℝ) * 48000 ≤ 2 ^ 62 ∧ (0:ℝ) < 1 / 100 ∧ ((9604 : ℕ) : ℤ) = ⌈(1 / 5 : ℝ) * 48000⌉ + 4 := by norm_num

end CombC
end Verif
