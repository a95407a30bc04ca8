import Verif.Props.CombStable

/-!
# C99: delays strictly between one and two samples

For every such delay there are decay times at which a constant input makes the comb grow exponentially although its gain is below one: the
fourth interpolation point is the oldest cell instead of the sample about to be written, so that the four weights of what is read do not
add up to one.
-/

namespace Verif
namespace CombC

/-- The Catmull-Rom segment with its fourth point missing. -/
noncomputable def three (t a b c : ℝ) : ℝ := (t + 4 * t ^ 2 - 3 * t ^ 3) / 2 * a + (2 - 5 * t ^ 2 + 3 * t ^ 3) / 2 * b - t * (1 - t) ^ 2 / 2 * c

/-- One tick with a delay of `2 - t` samples before the line has been filled once: the fourth point, which should be the sample about to be
written, is the cell about to be overwritten, still zero. -/
theorem tick_between {t : ℝ} (t0 : 0 < t) (t1 : t < 1) {s : Comb ℝ} {V : List ℝ} (hs : Holds s V.reverse) (hN : s.bufferSize < 2 ^ 63) (hN4 : 4 ≤ s.bufferSize)
    (hd : s.delayTime * s.sampleRate = 2 - t) (hV : V.length < s.bufferSize) {fuel : ℕ} (hf : 1 ≤ fuel) (x : ℝ) {y : ℝ}
    (hy : y = three t (signal V (V.length - 1)) (signal V (V.length - 2)) (signal V (V.length - 3))) :
    CombC.tick fuel s x = some (advance s x y, y) := by
  have hp := hs.pos
  set N := s.bufferSize with hNd
  set n := (s.writePos + N - 2) % N with hn
  have hnl : n < N := Nat.mod_lt _ (by omega)
  have key := mod_sub hp (show 1 ≤ 2 by omega) (show 2 ≤ N by omega)
  rw [← hn] at key
  have hn0 : (0:ℝ) ≤ n := by positivity
  have hr : wrapLoop (Arith.ofNat N) fuel (Arith.ofNat s.writePos - s.delayTime * s.sampleRate) = some ((n : ℝ) + t) := by
    obtain ⟨f, rfl⟩ : ∃ f, fuel = f + 1 := ⟨fuel - 1, by omega⟩
    simp only [real_arith, hd]
    rw [wrapLoop]
    simp only [real_arith]
    push_cast
    by_cases hc : 2 ≤ s.writePos
    · rw [if_pos hc] at key
      have e : (s.writePos : ℝ) - (2 - t) = (n : ℝ) + t := by rw [key, Nat.cast_sub hc]; push_cast; ring
      rw [e, if_neg (by linarith)]
    · rw [if_neg hc] at key
      have hw : (s.writePos : ℝ) ≤ 1 := by exact_mod_cast (by omega : s.writePos ≤ 1)
      have e : (s.writePos : ℝ) - (2 - t) + N = (n : ℝ) + t := by
        rw [key, Nat.cast_sub (by omega)]; push_cast; ring
      rw [if_pos (by linarith), e]
      cases f <;> (rw [wrapLoop]; simp only [real_arith]; rw [if_neg (by push_cast; linarith)])
  have hfl : ⌊(n:ℝ) + t⌋ = n := by
    rw [Int.floor_eq_iff]; push_cast; constructor <;> linarith
  have hts : Arith.toSize? ((n:ℝ) + t) = some n := by
    simp only [Arith.toSize?, real_arith, BufRd.truncR_nonneg (show 0 ≤ (n:ℝ) + t by linarith), hfl]
    rw [if_pos ⟨by omega, by omega⟩]; simp
  have ht := tick_eq (x := x) (show s.bufferSize ≠ 0 by omega) hs.len hp hr hts
  have hz : (((0:ℚ) : ℝ)) = 0 := by norm_num
  have cell : ∀ (i c : ℕ), 1 ≤ c → c ≤ N → i % N = (s.writePos + N - c) % N → s.buffer.getD (i % N) 0 = signal V (V.length - c) := by
    intro i c h1 h2 h3
    rw [h3]; exact cell_signal hs h1 h2
  have hsz0 : szSub (szAdd n N) 1 = n + N - 1 := by
    rw [BufferAllocator.szAdd_eq (by omega), BufferAllocator.szSub_eq (by omega) (by omega)]
  have small : ∀ {j : ℕ}, j < N → j % N = j := fun h => Nat.mod_eq_of_lt h
  have hval : readAt s n ((n:ℝ) + t - Arith.ofNat n) = y := by
    unfold readAt
    simp only [real_arith]
    rw [hermite_eq, ← hNd, hsz0, BufferAllocator.szAdd_eq (by omega : n + 1 < 2 ^ 64), BufferAllocator.szAdd_eq (by omega : n + 2 < 2 ^ 64), hz]
    have y0 := cell (n + N - 1) 3 (by omega) (by omega) (by
      rw [mod_sub hp (by omega) (by omega), mod_sub hnl (by omega) (by omega), key]
      split_ifs <;> omega)
    have y1 := cell n 2 (by omega) (by omega) (by rw [small hnl])
    have y2 := cell (n + 1) 1 (by omega) (by omega) (by
      rw [mod_sub hp (by omega) (by omega), key]
      split_ifs with c1 c2 c2
      · rw [small (by omega)]; omega
      · omega
      · rw [show s.writePos + N - 2 + 1 = (s.writePos - 1) + N by omega, Nat.add_mod_right, small (by omega)]
      · rw [small (by omega)]; omega)
    have y3 := cell (n + 2) N (by omega) (by omega) (by
      rw [mod_sub hp (by omega) (by omega), key]
      split_ifs with c1 c2 c2
      · rw [small (by omega)]; omega
      · rw [small (by omega)]; omega
      · omega
      · rw [show s.writePos + N - 2 + 2 = s.writePos + N by omega, Nat.add_mod_right, small (by omega)]; omega)
    have z3 : signal V ((V.length:ℤ) - N) = 0 := by rw [signal, if_pos (by omega)]
    rw [y0, y1, y2, y3, z3, hy]
    have e : (n:ℝ) + t - (n:ℝ) = t := by ring
    rw [e]
    simp only [segment, three]
    ring
  rw [ht, hval]

/-- A block through a comb of `2 - t` samples, up to one length of the line. -/
theorem process_between {t : ℝ} (t0 : 0 < t) (t1 : t < 1) {fuel : ℕ} (hf : 1 ≤ fuel) : ∀ (xs : List ℝ) {s : Comb ℝ} {V : List ℝ}, Holds s V.reverse →
    s.bufferSize < 2 ^ 63 → 4 ≤ s.bufferSize → s.delayTime * s.sampleRate = 2 - t → V.length + xs.length ≤ s.bufferSize →
    ∃ s' ys W, CombC.process fuel s xs = some (s', ys) ∧ ys.length = xs.length ∧ V <+: W ∧ W.length = V.length + xs.length ∧
      ∀ n < xs.length, (let k : ℤ := V.length + n
        ys.getD n 0 = three t (signal W (k - 1)) (signal W (k - 2)) (signal W (k - 3))) ∧
        W.getD (V.length + n) 0 = xs.getD n 0 + s.feedbackCoeff * ys.getD n 0 := by
  intro xs
  induction xs with
  | nil => intro s V _ _ _ _ _; exact ⟨s, [], V, rfl, rfl, List.prefix_rfl, rfl, by simp⟩
  | cons x xs ih =>
    intro s V hs hN hN4 hd hl
    rw [List.length_cons] at hl
    set y := three t (signal V (V.length - 1)) (signal V (V.length - 2)) (signal V (V.length - 3)) with hy
    have ht := tick_between t0 t1 hs hN hN4 hd (by omega) hf x hy
    have hs' : Holds (advance s x y) (V ++ [x + s.feedbackCoeff * y]).reverse := by
      rw [List.reverse_append]; exact holds_advance hs hN x y
    have hlen : (V ++ [x + s.feedbackCoeff * y]).length = V.length + 1 := by simp
    obtain ⟨s', ys, W, h1, h2, h3, h4, h5⟩ := ih hs' hN hN4 hd (by rw [hlen]; show _ ≤ s.bufferSize; omega)
    have hVW : V <+: W := (List.prefix_append _ _).trans h3
    rw [hlen] at h4 h5
    refine ⟨s', y :: ys, W, ?_, by simp [h2], hVW, by rw [h4, List.length_cons]; omega, ?_⟩
    · rw [CombC.process, ht]
      simp [h1]
    · intro n hn
      cases n with
      | zero =>
        constructor
        · simp only [List.getD_cons_zero, Nat.cast_zero, add_zero]
          rw [hy, signal_prefix hVW (by omega), signal_prefix hVW (by omega), signal_prefix hVW (by omega)]
        · obtain ⟨T, rfl⟩ := h3
          simp [List.getD_eq_getElem?_getD]
      | succ n =>
        obtain ⟨a, b⟩ := h5 n (by simpa using hn)
        constructor
        · simp only [List.getD_cons_succ] at a ⊢
          rw [a]
          push_cast
          simp only [show (V.length:ℤ) + 1 + n = V.length + (n + 1) by ring]
        · rw [List.getD_cons_succ, List.getD_cons_succ, show V.length + (n + 1) = V.length + 1 + n by ring]; exact b

/-- The recurrence of a loop of `2 - t` samples fed with ones grows like `((1 + t² (1 - t) / 2) g)^(n / 3)`. -/
theorem between_growth {t g : ℝ} (t0 : 0 < t) (t1 : t < 1) (hg : 1 ≤ (1 + t ^ 2 * (1 - t) / 2) * g) (hg1 : g ≤ 1) {v : ℤ → ℝ} {T : ℕ}
    (h0 : ∀ k < 0, v k = 0) (hv : ∀ n : ℕ, n < T → v n = 1 + g * three t (v (n - 1)) (v (n - 2)) (v (n - 3))) :
    ∀ n : ℕ, n < T → ((1 + t ^ 2 * (1 - t) / 2) * g) ^ (n / 3) ≤ v n ∧
      (3 ≤ n → ((1 + t ^ 2 * (1 - t) / 2) * g) ^ (n / 3) ≤ three t (v (n - 1)) (v (n - 2)) (v (n - 3))) := by
  have u0 : 0 < 1 - t := by linarith
  obtain ⟨a, ha⟩ : ∃ a, a = (t + 4 * t ^ 2 - 3 * t ^ 3) / 2 := ⟨_, rfl⟩
  obtain ⟨b, hb⟩ : ∃ b, b = (2 - 5 * t ^ 2 + 3 * t ^ 3) / 2 := ⟨_, rfl⟩
  obtain ⟨c, hc⟩ : ∃ c, c = t * (1 - t) ^ 2 / 2 := ⟨_, rfl⟩
  obtain ⟨G, hG⟩ : ∃ G, G = 1 + t ^ 2 * (1 - t) / 2 := ⟨_, rfl⟩
  have a0 : 0 ≤ a := by
    rw [ha, show (t + 4 * t ^ 2 - 3 * t ^ 3) / 2 = t * (1 + t + 3 * (t * (1 - t))) / 2 by ring]; positivity
  have b0 : 0 ≤ b := by
    rw [hb, show (2 - 5 * t ^ 2 + 3 * t ^ 3) / 2 = (1 - t) * (2 * (1 - t) + t + 3 * (t * (1 - t))) / 2 by ring]; positivity
  have c0 : 0 ≤ c := by rw [hc]; positivity
  have G1 : 1 ≤ G := by
    rw [hG]
    have : 0 ≤ t ^ 2 * (1 - t) / 2 := by positivity
    linarith
  have sum : a + b - c = G := by rw [ha, hb, hc, hG]; ring
  have g0 : 0 < g := by
    by_contra h
    have : (1 + t ^ 2 * (1 - t) / 2) * g ≤ 0 := mul_nonpos_of_nonneg_of_nonpos (by rw [← hG]; linarith) (not_lt.1 h)
    linarith
  have cross : c ≤ b * (g * a) := by
    have k1 : G * c ≤ a * b := by
      have e : a * b - G * c = t ^ 2 * (1 - t) / 4 * (2 * (6 - t - 8 * t ^ 2 + 4 * t ^ 3)) := by rw [ha, hb, hc, hG]; ring
      have p : 0 ≤ 6 - t - 8 * t ^ 2 + 4 * t ^ 3 := by
        rw [show 6 - t - 8 * t ^ 2 + 4 * t ^ 3 = 1 + (1 - t) * (5 + 4 * t) - 4 * t ^ 2 * (1 - t) by ring]
        have : 0 ≤ (1 - t) * (5 + 4 * t - 4 * t ^ 2) := mul_nonneg u0.le (by nlinarith)
        linarith
      have : 0 ≤ a * b - G * c := by rw [e]; positivity
      linarith
    rw [← hG] at hg
    have k2 : c ≤ (G * g) * c := le_mul_of_one_le_left c0 hg
    have k3 := mul_le_mul_of_nonneg_left k1 g0.le
    calc c ≤ (G * g) * c := k2
      _ = g * (G * c) := by ring
      _ ≤ g * (a * b) := k3
      _ = b * (g * a) := by ring
  have three_eq : ∀ p q r, three t p q r = a * p + b * q - c * r := by intro p q r; rw [three, ha, hb, hc]
  simp only [three_eq] at hv ⊢
  rw [← hG] at hg ⊢
  clear three_eq ha hb hc hG
  have start : 0 < T → v ((0:ℕ):ℤ) = 1 := by
    intro h
    rw [hv 0 h, h0 (((0:ℕ):ℤ) - 1) (by omega), h0 (((0:ℕ):ℤ) - 2) (by omega), h0 (((0:ℕ):ℤ) - 3) (by omega)]; norm_num
  -- steps are nonnegative and lose at most the factor `g a`
  have step : ∀ n : ℕ, n < T → 0 ≤ v n - v (n - 1) ∧ g * a * (v (n - 1) - v (n - 2)) ≤ v n - v (n - 1) := by
    intro n
    induction n using Nat.strong_induction_on with
    | _ n ih =>
      intro hn
      match n with
      | 0 =>
        have := start hn
        rw [h0 (((0:ℕ):ℤ) - 1) (by omega), h0 (((0:ℕ):ℤ) - 2) (by omega), this]; norm_num
      | 1 =>
        have e0 := start (by omega)
        have e1 := hv 1 hn
        rw [h0 (((1:ℕ):ℤ) - 2) (by omega), h0 (((1:ℕ):ℤ) - 3) (by omega)] at e1
        have z : v (((1:ℕ):ℤ) - 1) = v ((0:ℕ):ℤ) := by norm_num
        rw [h0 (((1:ℕ):ℤ) - 2) (by omega), z]
        rw [z] at e1
        rw [e1, e0]
        have := mul_nonneg g0.le a0
        constructor <;> nlinarith
      | n + 2 =>
        obtain ⟨p, q⟩ := ih (n + 1) (by omega) (by omega)
        obtain ⟨r, d⟩ := ih n (by omega) (by omega)
        have e2 := hv (n + 2) hn
        have e1 := hv (n + 1) (by omega)
        have i1 : (((n + 2 : ℕ) : ℤ) - 1) = ((n + 1 : ℕ) : ℤ) := by push_cast; ring
        have i2 : (((n + 2 : ℕ) : ℤ) - 2) = (n : ℤ) := by push_cast; ring
        have i3 : (((n + 2 : ℕ) : ℤ) - 3) = (n : ℤ) - 1 := by push_cast; ring
        have j1 : (((n + 1 : ℕ) : ℤ) - 1) = (n : ℤ) := by push_cast; ring
        have j2 : (((n + 1 : ℕ) : ℤ) - 2) = (n : ℤ) - 1 := by push_cast; ring
        have j3 : (((n + 1 : ℕ) : ℤ) - 3) = (n : ℤ) - 2 := by push_cast; ring
        rw [i1, i2, i3] at e2
        rw [j1, j2, j3] at e1
        rw [j1] at p
        rw [i1, i2]
        have hd : v ((n + 2 : ℕ) : ℤ) - v ((n + 1 : ℕ) : ℤ) =
            g * a * (v ((n + 1 : ℕ) : ℤ) - v n) + g * (b * (v n - v (n - 1)) - c * (v ((n:ℤ) - 1) - v (n - 2))) := by
          rw [e2, e1]; ring
        have rest : 0 ≤ b * (v n - v (n - 1)) - c * (v ((n:ℤ) - 1) - v (n - 2)) := by
          generalize v ((n:ℤ) - 1) - v (n - 2) = y at d ⊢
          generalize v n - v ((n:ℤ) - 1) = x at r d ⊢
          rcases le_total 0 y with hy | hy
          · have k1 := mul_le_mul_of_nonneg_left d b0
            have k2 := mul_le_mul_of_nonneg_right cross hy
            linarith
          · have k1 := mul_nonneg b0 r
            have k2 := mul_nonpos_of_nonneg_of_nonpos c0 hy
            linarith
        have k3 := mul_nonneg g0.le rest
        have k4 := mul_nonneg (mul_nonneg g0.le a0) p
        exact ⟨by linarith, by linarith⟩
  have mono : ∀ n : ℕ, n < T → 1 ≤ v n := by
    intro n
    induction n with
    | zero => intro hn; exact (start hn).ge
    | succ n ih =>
      intro hn
      have := (step (n + 1) hn).1
      rw [show (((n + 1 : ℕ) : ℤ) - 1) = (n : ℤ) by push_cast; ring] at this
      linarith [ih (by omega)]
  intro n
  induction n using Nat.strong_induction_on with
  | _ n ih =>
    intro hn
    match n with
    | 0 => exact ⟨by simpa using mono 0 hn, by omega⟩
    | 1 => exact ⟨by simpa using mono 1 hn, by omega⟩
    | 2 => exact ⟨by simpa using mono 2 hn, by omega⟩
    | n + 3 =>
      have e := hv (n + 3) hn
      have i1 : (((n + 3 : ℕ) : ℤ) - 1) = ((n + 2 : ℕ) : ℤ) := by push_cast; ring
      have i2 : (((n + 3 : ℕ) : ℤ) - 2) = ((n + 1 : ℕ) : ℤ) := by push_cast; ring
      have i3 : (((n + 3 : ℕ) : ℤ) - 3) = (n : ℤ) := by push_cast; ring
      rw [i1, i2, i3] at e ⊢
      have p := (step (n + 2) (by omega)).1
      have q := (step (n + 1) (by omega)).1
      rw [show (((n + 2 : ℕ) : ℤ) - 1) = ((n + 1 : ℕ) : ℤ) by push_cast; ring] at p
      rw [show (((n + 1 : ℕ) : ℤ) - 1) = (n : ℤ) by push_cast; ring] at q
      have f := (ih n (by omega) (by omega)).1
      have m := mono n (by omega)
      rw [show (n + 3) / 3 = n / 3 + 1 by omega, pow_succ]
      have hw : G * v n ≤ a * v ((n + 2 : ℕ) : ℤ) + b * v ((n + 1 : ℕ) : ℤ) - c * v n := by
        have k1 := mul_le_mul_of_nonneg_left (show v n ≤ v ((n + 2 : ℕ) : ℤ) by linarith) a0
        have k2 := mul_le_mul_of_nonneg_left (show v n ≤ v ((n + 1 : ℕ) : ℤ) by linarith) b0
        rw [← sum]; linarith
      have d : (G * g) ^ (n / 3) * (G * g) ≤ v n * (G * g) := mul_le_mul_of_nonneg_right f (by linarith)
      have d2 : v n * (G * g) = g * (G * v n) := by ring
      have Gv : 0 ≤ G * v n := by nlinarith
      constructor
      · rw [e]
        have := mul_le_mul_of_nonneg_left hw g0.le
        linarith
      · intro _
        have : g * (G * v n) ≤ G * v n := mul_le_of_le_one_left Gv hg1
        linarith

/-- **C99 negation** (ideal arithmetic): the comb is not stable at any delay `2 - t` strictly between one and two samples. From the gain
`1 / (1 + t² (1 - t) / 2) < 1` on, a constant input of one makes the output grow at least like `((1 + t² (1 - t) / 2) g)^(n / 3)` for as
long as the line is. -/
theorem C99_explodes_between (sr md dt dc t : ℝ) (hsr : 0 ≤ sr) (hmd : 0 ≤ md) (h1 : 0 ≤ dt) (h2 : dt ≤ md) (hp : md * sr ≤ 2 ^ 62)
    (t0 : 0 < t) (t1 : t < 1) (hD : dt * sr = 2 - t) (hg : 1 ≤ (1 + t ^ 2 * (1 - t) / 2) * gain dt dc) (fuel : ℕ) (hf : 1 ≤ fuel) (n : ℕ)
    (hn3 : 3 ≤ n) (hn : n < ⌈md * sr⌉ + 4) :
    ∃ s0 s' ys, CombC.init sr md = some s0 ∧
      CombC.process fuel (CombC.setDecayTime dc (CombC.setDelayTime dt s0)) (List.replicate (n + 1) 1) = some (s', ys) ∧
      gain dt dc < 1 ∧ ((1 + t ^ 2 * (1 - t) / 2) * gain dt dc) ^ (n / 3) ≤ ys.getD n 0 := by
  have hdt : 0 < dt := by
    rcases h1.lt_or_eq with h | h
    · exact h
    · rw [← h, zero_mul] at hD; linarith
  have hgl := (abs_lt.1 (gain_abs (dc := dc) hdt)).2
  obtain ⟨s0, hs0, s, rfl, hb, hh, hdt', hs, hg'⟩ := setup_real (dc := dc) hsr hmd h1 h2 hp
  have hc1 : ⌈md * sr⌉ ≤ (2:ℤ) ^ 62 := by rw [Int.ceil_le]; push_cast; norm_num at hp ⊢; exact hp
  have hc0 : (0:ℤ) ≤ ⌈md * sr⌉ := Int.ceil_nonneg (by positivity)
  obtain ⟨s', ys, W, a, b, -, c, d⟩ := process_between t0 t1 hf (List.replicate (n + 1) 1) (V := []) hh (by rw [hb]; omega) (by rw [hb]; omega)
    (by rw [hdt', hs, hD]) (by rw [hb]; simp; omega)
  refine ⟨s0, s', ys, hs0, a, hgl, ?_⟩
  have hgr := between_growth t0 t1 hg hgl.le (v := signal W) (T := n + 1) (fun k hk => by simp [signal, hk]) (fun k hk => by
    obtain ⟨e, f⟩ := d k (by simpa using hk)
    have hW : signal W k = W.getD k 0 := by simp [signal]
    simp only [List.length_nil, Nat.cast_zero, zero_add] at e f
    rw [hW, f, e, hg', one_of hk])
  obtain ⟨e, -⟩ := d n (by simp)
  simp only [List.length_nil, Nat.cast_zero, zero_add] at e
  rw [e]
  exact (hgr n (by omega)).2 hn3

/-- Concrete case: 1.25 samples at 48 kHz with a decay of one second meet the hypotheses on the delay and the gain. -/
example : (5 / 4 / 48000 * 48000 : ℝ) = 2 - 3 / 4 ∧ 1 ≤ (1 + (3 / 4 : ℝ) ^ 2 * (1 - 3 / 4) / 2) * gain (5 / 4 / 48000) 1 := by
  refine ⟨by norm_num, ?_⟩
  have h : 1 - 1 / 100 ≤ gain (5 / 4 / 48000) 1 := by
    unfold gain
    rw [if_neg one_ne_zero, sign_pos one_pos, abs_one]
    have := Real.add_one_le_exp (-6.907755 * (5 / 4 / 48000 / 1) : ℝ)
    simp only [SignType.coe_one, one_mul]
    refine le_trans ?_ this
    norm_num
  linarith

/-- **C99 negation**: for every delay strictly between one and two samples there is a decay time, and a factor `q > 1` that depends on
the delay alone, such that the output for a constant input of one exceeds `q^(n / 3)` however long the line is. -/
theorem C99_unstable_between (D : ℝ) (hD1 : 1 < D) (hD2 : D < 2) : ∃ q : ℝ, 1 < q ∧ ∀ (sr md dt : ℝ), 0 < sr → 0 < dt → dt ≤ md →
    md * sr ≤ 2 ^ 62 → dt * sr = D → ∃ dc : ℝ, 0 < dc ∧ gain dt dc < 1 ∧ ∀ (fuel n : ℕ), 1 ≤ fuel → 3 ≤ n → n < ⌈md * sr⌉ + 4 →
    ∃ s0 s' ys, CombC.init sr md = some s0 ∧
      CombC.process fuel (CombC.setDecayTime dc (CombC.setDelayTime dt s0)) (List.replicate (n + 1) 1) = some (s', ys) ∧
      q ^ (n / 3) ≤ ys.getD n 0 := by
  obtain ⟨t, ht⟩ : ∃ t, t = 2 - D := ⟨_, rfl⟩
  have t0 : 0 < t := by linarith
  have t1 : t < 1 := by linarith
  obtain ⟨δ, hδ⟩ : ∃ δ, δ = t ^ 2 * (1 - t) / 2 := ⟨_, rfl⟩
  have u0 : 0 < 1 - t := by linarith
  have δ0 : 0 < δ := by rw [hδ]; positivity
  refine ⟨1 + δ / 2, by linarith, fun sr md dt hsr hdt hmd hp hD => ?_⟩
  set x := δ / (2 * (1 + δ)) with hx
  have x0 : 0 < x := by positivity
  have dc0 : 0 < 6.907755 * dt / x := by positivity
  have hge : 1 - x ≤ gain dt (6.907755 * dt / x) := by
    unfold gain
    rw [if_neg dc0.ne', sign_pos dc0, abs_of_pos dc0]
    have e : -6.907755 * (dt / (6.907755 * dt / x)) = -x := by field_simp
    rw [e]
    have := Real.add_one_le_exp (-x)
    simp only [SignType.coe_one, one_mul]
    linarith
  have hq : 1 + δ / 2 ≤ (1 + δ) * gain dt (6.907755 * dt / x) := by
    have e : (1 + δ) * (1 - x) = 1 + δ / 2 := by rw [hx]; field_simp; ring
    rw [← e]
    exact mul_le_mul_of_nonneg_left hge (by linarith)
  refine ⟨_, dc0, (abs_lt.1 (gain_abs hdt)).2, fun fuel n hf h3 hn => ?_⟩
  obtain ⟨s0, s', ys, a, b, -, c⟩ := C99_explodes_between sr md dt (6.907755 * dt / x) t hsr.le (hdt.le.trans hmd) hdt.le hmd hp t0 t1
    (by rw [hD, ht]; ring) (by rw [← hδ]; linarith) fuel hf n h3 hn
  refine ⟨s0, s', ys, a, b, le_trans ?_ c⟩
  rw [← hδ]
  exact pow_le_pow_left₀ (by linarith) hq _

/-- Concrete case: a delay of 1.25 samples at 48 kHz, a line of a fifth of a second. -/
example : (1:ℝ) < 5 / 4 ∧ (5 / 4 : ℝ) < 2 ∧ (0:ℝ) < 5 / 4 / 48000 ∧ (5 / 4 / 48000 : ℝ) ≤ 1 / 5 ∧ (1 / 5 * 48000 : ℝ) ≤ 2 ^ 62 ∧
    (5 / 4 / 48000 * 48000 : ℝ) = 5 / 4 ∧ (300 : ℤ) < ⌈(1 / 5 : ℝ) * 48000⌉ + 4 := by norm_num

end CombC
end Verif
