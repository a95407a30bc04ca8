import Verif.Lemmas.WeightedEnergy

/-!
# One half of the reverb under exponentially growing weights
-/

namespace Verif.FVerbDSP
open Energy

/-- Bounds of the coefficients that stay away from 1. -/
structure Capped (P D : ℝ) (c : ℕ → Ctrl ℝ) : Prop where
  rec8 : ∀ t, (c t).rec8 ≤ P
  rec24 : ∀ t, (c t).rec24 ≤ P
  rec25 : ∀ t, (c t).rec25 ≤ P
  rec15 : ∀ t, (c t).rec15 ≤ D
  rec20 : ∀ t, (c t).rec20 ≤ D

section
variable {M : ℕ} {d1 d2 d3 d4 d dT : ℤ} {pre : ℕ → ℤ} {c : ℕ → Ctrl ℝ} {f : ℕ → Fade ℝ} {inp fb : ℕ → ℝ} {h : ℕ → Half (ℤ → ℝ) ℝ} {lam : ℝ}

/-- One allpass of the input diffuser. -/
theorem diffuser_Q (h1 : 1 ≤ lam) {n : ℕ} (hn : n ≤ M) {L : ℕ → ℤ → ℝ} (W : Written M L) {d : ℤ} (hd : 0 ≤ d) {K D : ℝ} (hK : lam ^ (d + 1) ≤ K)
    {g : ℕ → ℝ} (g0 : ∀ t, 0 ≤ g t) (gD : ∀ t, g t ≤ D) (hD : D * K < 1)
    (hm : Monotone g) {u y : ℤ → ℝ} {ap : ℕ → ℝ} (h0 : ap 0 = 0) (hx : ∀ t, t < M → ap (t + 1) = L (t + 1) (t - d))
    (hL : ∀ t : ℕ, t < M → L (t + 1) t = u t - g t * ap t) (hy : ∀ t : ℕ, t < M → y t = g t * L (t + 1) t + ap t) :
    Q lam n y ≤ swell (K ^ 2 - 1) D * Q lam n u := by
  refine allpass_Q h1 (g := fun t => -g t) (v := sig L) (d := d + 1) ?_ ((g0 0).trans (gD 0)) ?_ (by omega) hK hD (sig_neg L) ?_ ?_
  · intro t; rw [abs_neg, abs_of_nonneg (g0 t)]; exact gD t
  · simp only [neg_sq]; exact pow_mono g0 hm
  · intro t ht
    rw [sig_nat, hL t (by omega), held W hd h0 hx (by omega)]
    ring
  · intro t ht
    rw [hy t (by omega), held W hd h0 hx (by omega), sig_nat]
    ring

/-- Predelay to diffusers. -/
theorem input_Q {c1 ρ g P D K : ℝ} (R : HalfRun M d1 d2 d3 d4 d dT pre c f inp fb h) (C : CalmR c1 ρ g c) (B : Capped P D c) (h1 : 1 ≤ lam)
    (hP : lam * P < 1) (hK : lam ^ (d1 + 1) ≤ K ∧ lam ^ (d2 + 1) ≤ K ∧ lam ^ (d3 + 1) ≤ K ∧ lam ^ (d4 + 1) ≤ K) (hD : D * K < 1)
    {n : ℕ} (hn : n ≤ M) :
    Q lam n (diffused c h) ≤ swell (K ^ 2 - 1) D ^ 4 * (gam c1 * lean lam P * (1 + lam * (gam c1 * lean lam P))) * Q lam n (heardIn pre h) := by
  obtain ⟨v1, v2, v3, v4, v5, v6, -⟩ := R.vals
  have W0 : Written M fun i => (h i).preLine := ⟨fun j => (R.lines j).1, fun t ht => ⟨_, (R.step t ht).preLine⟩⟩
  have W1 : Written M fun i => (h i).line1 := ⟨fun j => (R.lines j).2.1, fun t ht => ⟨_, (R.step t ht).line1⟩⟩
  have W2 : Written M fun i => (h i).line2 := ⟨fun j => (R.lines j).2.2.1, fun t ht => ⟨_, (R.step t ht).line2⟩⟩
  have W3 : Written M fun i => (h i).line3 := ⟨fun j => (R.lines j).2.2.2.1, fun t ht => ⟨_, (R.step t ht).line3⟩⟩
  have W4 : Written M fun i => (h i).line4 := ⟨fun j => (R.lines j).2.2.2.2.1, fun t ht => ⟨_, (R.step t ht).line4⟩⟩
  obtain ⟨hd1, hd2, hd3, hd4, -⟩ := R.delays
  obtain ⟨k1, k2, k3, k4⟩ := hK
  have a1 := (lowpass_Q (s := fun t => (h t).lp) (y := heardIn pre h) C.rec25 h1 B.rec25 hP v1 (n := n) (fun t ht => by
    simp only [heardIn, Int.toNat_natCast]
    rw [(R.step t (by omega)).lp, W0.read (t := t + 1) (by omega) (by have := R.pre0 t; push_cast; omega)])).1
  have a2 := (lowpass_Q (s := fun t => (h t).hp) (y := fun t => (1 - (c t.toNat).rec25) * (h (t.toNat + 1)).lp) C.rec24 h1 B.rec24 hP v2 (n := n)
    (fun t ht => by
      simp only [Int.toNat_natCast]
      rw [(R.step t (by omega)).hp])).2
  have a3 : Q lam n (fun t => ((c t.toNat).rec24 + 1) / 2 * ((h (t.toNat + 1)).hp - (h t.toNat).hp)) ≤
      1 * Q lam n (fun t => (h (t.toNat + 1)).hp - (h t.toNat).hp) :=
    Q_mul (a := fun t => ((c t.toNat).rec24 + 1) / 2) zero_le_one fun t _ => by
      simp only [Int.toNat_natCast]
      have h0 := C.rec24.p0 t
      have h1 := C.rec24.p1 t
      rw [abs_of_nonneg (by linarith)]
      linarith
  have a4 : Q lam n (fun t => (h (t.toNat + 1)).hp - (h t.toNat).hp) ≤
      Q lam n (fun t => (1 - (c t.toNat).rec25) * (h (t.toNat + 1)).lp) + Q lam n (fun t => -((1 - (c t.toNat).rec24) * (h t.toNat).hp)) := by
    refine le_trans (le_of_eq (Q_congr fun t ht => ?_)) (Q_add _ _)
    simp only [Int.toNat_natCast]
    rw [(R.step t (by omega)).hp]
    ring
  rw [Q_neg] at a4
  have b1 : Q lam n (fun t => (c t.toNat).rec20 * (h (t.toNat + 1)).line1 t + (h t.toNat).ap1) ≤ swell (K ^ 2 - 1) D *
      Q lam n (fun t => ((c t.toNat).rec24 + 1) / 2 * ((h (t.toNat + 1)).hp - (h t.toNat).hp)) :=
    diffuser_Q h1 hn W1 hd1 k1 (fun t => (C.rec20 t).1) B.rec20 hD C.rec20m (ap := fun t => (h t).ap1) v3 (fun t ht => (R.step t ht).ap1)
      (fun t ht => by simp only [Int.toNat_natCast]; rw [(R.step t ht).line1, Function.update_self])
      (fun t ht => by simp only [Int.toNat_natCast])
  have b2 : Q lam n (fun t => (c t.toNat).rec20 * (h (t.toNat + 1)).line2 t + (h t.toNat).ap2) ≤ swell (K ^ 2 - 1) D *
      Q lam n (fun t => (c t.toNat).rec20 * (h (t.toNat + 1)).line1 t + (h t.toNat).ap1) :=
    diffuser_Q h1 hn W2 hd2 k2 (fun t => (C.rec20 t).1) B.rec20 hD C.rec20m (ap := fun t => (h t).ap2) v4 (fun t ht => (R.step t ht).ap2)
      (fun t ht => by simp only [Int.toNat_natCast]; rw [(R.step t ht).line2, Function.update_self])
      (fun t ht => by simp only [Int.toNat_natCast])
  have b3 : Q lam n (fun t => (c t.toNat).rec15 * (h (t.toNat + 1)).line3 t + (h t.toNat).ap3) ≤ swell (K ^ 2 - 1) D *
      Q lam n (fun t => (c t.toNat).rec20 * (h (t.toNat + 1)).line2 t + (h t.toNat).ap2) :=
    diffuser_Q h1 hn W3 hd3 k3 (fun t => (C.rec15 t).1) B.rec15 hD C.rec15m (ap := fun t => (h t).ap3) v5 (fun t ht => (R.step t ht).ap3)
      (fun t ht => by simp only [Int.toNat_natCast]; rw [(R.step t ht).line3, Function.update_self])
      (fun t ht => by simp only [Int.toNat_natCast])
  have b4 : Q lam n (diffused c h) ≤ swell (K ^ 2 - 1) D *
      Q lam n (fun t => (c t.toNat).rec15 * (h (t.toNat + 1)).line3 t + (h t.toNat).ap3) :=
    diffuser_Q h1 hn W4 hd4 k4 (fun t => (C.rec15 t).1) B.rec15 hD C.rec15m (ap := fun t => (h t).ap4) v6 (fun t ht => (R.step t ht).ap4)
      (fun t ht => by simp only [Int.toNat_natCast]; rw [(R.step t ht).line4, Function.update_self])
      (fun t ht => by simp only [diffused, Int.toNat_natCast])
  have s0 : 0 ≤ swell (K ^ 2 - 1) D := Real.sqrt_nonneg _
  have P0 : 0 ≤ P := (C.rec8.p0 0).trans (B.rec8 0)
  have γ0 : 0 ≤ gam c1 * lean lam P := mul_nonneg (gam_nonneg c1) (by
    have : 0 ≤ (lam - 1) / (1 - lam * P) := div_nonneg (by linarith) (by linarith)
    unfold lean; linarith)
  generalize gam c1 * lean lam P = γ at *
  generalize swell (K ^ 2 - 1) D = s at *
  have m1 := mul_le_mul_of_nonneg_left a1 (show 0 ≤ lam * γ by positivity)
  have m2 : Q lam n (fun t => ((c t.toNat).rec24 + 1) / 2 * ((h (t.toNat + 1)).hp - (h t.toNat).hp)) ≤
      γ * (1 + lam * γ) * Q lam n (heardIn pre h) := by linarith
  have m3 := b1.trans (mul_le_mul_of_nonneg_left m2 s0)
  have m4 := b2.trans (mul_le_mul_of_nonneg_left m3 s0)
  have m5 := b3.trans (mul_le_mul_of_nonneg_left m4 s0)
  have m6 := b4.trans (mul_le_mul_of_nonneg_left m5 s0)
  exact m6.trans (le_of_eq (by ring))

/-- The damped branch of the tank. -/
theorem damped_Q {c1 ρ g P D K KT : ℝ} (R : HalfRun M d1 d2 d3 d4 d dT pre c f inp fb h) (C : CalmR c1 ρ g c) (B : Capped P D c) (hρ : 0 ≤ ρ)
    (h1 : 1 ≤ lam) (hP : lam * P < 1) (hK : lam ^ d ≤ K) (hT : lam ^ (dT + 1) ≤ KT) (hT2 : 1 / 2 * KT < 1) {n : ℕ} (hn : n ≤ M) :
    Q lam n (sig fun i => (h i).outB) ≤ gam c1 * lean lam P * K * Q lam n (sig fun i => (h i).dampLine) ∧
      Q lam n (sig fun i => (h i).outA) ≤ ρ * swell (KT ^ 2 - 1) (1 / 2) * (gam c1 * lean lam P * K * Q lam n (sig fun i => (h i).dampLine)) := by
  obtain ⟨-, -, -, -, -, -, -, v8, v9⟩ := R.vals
  have W1 : Written M fun i => (h i).dampLine := ⟨fun j => (R.lines j).2.2.2.2.2.2.1, fun t ht => ⟨_, (R.step t ht).dampLine⟩⟩
  have W2 : Written M fun i => (h i).tailLine := ⟨fun j => (R.lines j).2.2.2.2.2.2.2.1, fun t ht => ⟨_, (R.step t ht).tailLine⟩⟩
  obtain ⟨-, -, -, -, hd, hdT⟩ := R.delays
  have P0 : 0 ≤ P := (C.rec8.p0 0).trans (B.rec8 0)
  have γ0 : 0 ≤ gam c1 * lean lam P := mul_nonneg (gam_nonneg c1) (by
    have : 0 ≤ (lam - 1) / (1 - lam * P) := div_nonneg (by linarith) (by linarith)
    unfold lean; linarith)
  have a1 := (lowpass_Q (s := fun t => (h t).damp) (y := fun t => sig (fun i => (h i).dampLine) (t - d)) C.rec8 h1 B.rec8 hP v8 (n := n)
    (fun t ht => by rw [(R.step t (by omega)).damp, W1.read (t := t + 1) (by omega) (by push_cast; omega)])).1
  have a2 : Q lam n (sig fun i => (h i).outB) ≤ gam c1 * lean lam P * K * Q lam n (sig fun i => (h i).dampLine) := by
    rw [mul_assoc _ K]
    refine le_trans (le_of_eq (Q_congr fun t ht => ?_)) (a1.trans (mul_le_mul_of_nonneg_left ((Q_shift h1 hd (sig_neg _)).trans
      (mul_le_mul_of_nonneg_right hK (Q_nonneg _ _ _))) γ0))
    rw [sig_nat, (R.step t (by omega)).outB, Function.update_self, Int.toNat_natCast]
  refine ⟨a2, ?_⟩
  have a3 : Q lam n (sig fun i => (h i).outA) ≤ swell (KT ^ 2 - 1) (1 / 2) * Q lam n (fun t => (c t.toNat).rec29 * sig (fun i => (h i).outB) t) := by
    have k0 : ∀ t, 0 ≤ min (1 / 2) (max (1 / 4) ((c t).rec29 + 0.15)) ∧ min (1 / 2) (max (1 / 4) ((c t).rec29 + 0.15)) ≤ 1 / 2 :=
      fun t => ⟨le_min (by norm_num) (le_max_of_le_left (by norm_num)), min_le_left _ _⟩
    have km : Monotone fun t => min (1 / 2) (max (1 / 4) ((c t).rec29 + 0.15)) :=
      fun a b hab => min_le_min le_rfl (max_le_max le_rfl (by have := C.rec29m hab; dsimp only at this; linarith))
    refine allpass_Q h1 (g := fun t => min (1 / 2) (max (1 / 4) ((c t).rec29 + 0.15))) (v := sig fun i => (h i).tailLine) (d := dT + 1)
      (fun t => by rw [abs_of_nonneg (k0 t).1]; exact (k0 t).2) (by norm_num) (pow_mono (fun t => (k0 t).1) km) (by omega) hT hT2 (sig_neg _) ?_ ?_
    · intro t ht
      rw [← held (x := fun t => (h t).tail) W2 hdT v9 (fun t ht => (R.step t ht).tail) (t := t) (by omega)]
      rw [sig_nat, sig_nat, (R.step t (by omega)).tailLine, Function.update_self, Int.toNat_natCast]
    · intro t ht
      rw [← held (x := fun t => (h t).tail) W2 hdT v9 (fun t ht => (R.step t ht).tail) (t := t) (by omega)]
      rw [sig_nat, sig_nat, (R.step t (by omega)).outA, Function.update_self]
  have s0 : 0 ≤ swell (KT ^ 2 - 1) (1 / 2) := Real.sqrt_nonneg _
  refine a3.trans ((mul_le_mul_of_nonneg_left ((Q_mul hρ fun t _ => ?_).trans (mul_le_mul_of_nonneg_left a2 hρ)) s0).trans (le_of_eq (by ring)))
  rw [Int.toNat_natCast, abs_of_nonneg (C.rec29 t).1]
  exact (C.rec29 t).2

/-- What the modulated delay hands on, against what was written to its line. -/
theorem mod_sum_Q (R : HalfRun M d1 d2 d3 d4 d dT pre c f inp fb h) {F lo W : ℕ} {e : ℝ} (B : Wobbling F e lo W f) (hw : e * (W : ℝ) < 1)
    (h1 : 1 ≤ lam) {K : ℝ} (hK : lam ^ (lo + W + 1) ≤ K)
    {n : ℕ} (hn : n ≤ M) {w : ℕ → ℝ} (w0 : ∀ t, 0 ≤ w t) (w1 : ∀ t, w t ≤ 1) (wm : Antitone w) :
    ∑ t ∈ Finset.range n, w t * (lam ^ (t : ℤ) * (h t).modOut) ^ 2 ≤
      K ^ 2 * ((1 + e * W) * ∑ t ∈ Finset.range n, w t * (lam ^ (t : ℤ) * sig (fun i => (h i).modLine) t) ^ 2 +
        E (min n F) fun t => lam ^ t * sig (fun i => (h i).modLine) t) := by
  have l0 : 0 < lam := by linarith
  have K1 : 1 ≤ K := (one_le_pow₀ h1).trans hK
  obtain ⟨U, hU⟩ : ∃ U, U = sig fun i => (h i).modLine := ⟨_, rfl⟩
  obtain ⟨V, hV⟩ : ∃ V, V = fun t : ℤ => lam ^ t * sig (fun i => (h i).modLine) t := ⟨_, rfl⟩
  have V0 : ∀ t, t < 0 → V t = 0 := fun t ht => by rw [hV]; dsimp only; rw [sig_neg _ _ ht, mul_zero]
  have e0 : 0 ≤ 1 + e * W := by have := mul_nonneg B.taps.c0 (Nat.cast_nonneg (α := ℝ) W); linarith
  have hVt : ∀ t : ℤ, lam ^ t * sig (fun i => (h i).modLine) t = V t := fun t => by rw [hV]
  rw [← hV]
  simp only [hVt]
  -- a tap under the weights
  have tp : ∀ (t : ℕ) (a : ℤ), a ≤ lo + W → (lam ^ ((t : ℤ) + 1) * U (t - a)) ^ 2 ≤ K ^ 2 * V (t - a) ^ 2 := by
    intro t a ha
    have ea : lam ^ ((t : ℤ) + 1) * U (t - a) = lam ^ (a + 1) * V (t - a) := by
      rw [hV, hU]
      dsimp only
      rw [← mul_assoc, ← zpow_add₀ l0.ne']
      congr 2
      omega
    have ek : lam ^ (a + 1) ≤ K := by
      refine le_trans ?_ hK
      rw [← zpow_natCast]
      exact zpow_le_zpow_right₀ h1 (by push_cast; omega)
    rw [ea, mul_pow]
    exact mul_le_mul_of_nonneg_right (pow_le_pow_left₀ (zpow_pos l0 _).le ek 2) (sq_nonneg _)
  cases n with
  | zero => simpa using mul_nonneg (sq_nonneg K) (E_nonneg _ V)
  | succ n =>
    rw [Finset.sum_range_succ', R.vals.2.2.2.2.2.2.1]
    have main := B.taps.read_sum (F := F - 1) hw (fun t ht hx => B.rangeA t (by omega) hx) B.rangeB n
      (w := fun t => w (t + 1)) (fun t => w0 _) (fun a b hab => wm (by omega)) V0
    have s1 : ∑ t ∈ Finset.range n, w (t + 1) * (lam ^ ((t + 1 : ℕ) : ℤ) * (h (t + 1)).modOut) ^ 2 ≤
        K ^ 2 * (∑ t ∈ Finset.range n, w (t + 1) * ((if F - 1 ≤ t then (1 - (f t).mix) * V (t - clampDelay (f t).dA) ^ 2 else 0) +
          (f t).mix * V (t - clampDelay (f t).dB) ^ 2) + ∑ t ∈ Finset.range n, if t < F then V t ^ 2 else 0) := by
      rw [← Finset.sum_add_distrib, Finset.mul_sum]
      refine Finset.sum_le_sum fun t ht => ?_
      have ht := Finset.mem_range.1 ht
      rw [mod_taps R (by omega), ← hU]
      have m0 := B.taps.x0 t
      have m1 := B.taps.x1 t
      have a0 := w0 (t + 1)
      have a1 := w1 (t + 1)
      have early := B.early t
      have rA := B.rangeA t
      have rB := B.rangeB t
      have tb : (f t).mix * (lam ^ ((t : ℤ) + 1) * U (t - clampDelay (f t).dB)) ^ 2 ≤ (f t).mix * (K ^ 2 * V (t - clampDelay (f t).dB) ^ 2) := by
        rcases m0.eq_or_lt with e | e
        · rw [← e, zero_mul, zero_mul]
        · exact mul_le_mul_of_nonneg_left (tp t _ (rB e).2) m0
      have ta : (1 - (f t).mix) * (lam ^ ((t : ℤ) + 1) * U (t - clampDelay (f t).dA)) ^ 2 ≤
          (1 - (f t).mix) * (K ^ 2 * V (t - clampDelay (f t).dA) ^ 2) := by
        rcases m1.eq_or_lt with e | e
        · rw [e, sub_self, zero_mul, zero_mul]
        · refine mul_le_mul_of_nonneg_left (tp t _ ?_) (by linarith)
          by_cases hF : F ≤ t + 1
          · exact (rA hF e).2
          · rw [early (by omega)]; positivity
      push_cast
      generalize (f t).mix = m at *
      generalize w (t + 1) = q at *
      have conv : ∀ x y : ℝ, ((1 - m) * y + m * x) ^ 2 ≤ (1 - m) * y ^ 2 + m * x ^ 2 := fun x y => by
        nlinarith [mul_nonneg (mul_nonneg m0 (sub_nonneg.2 m1)) (sq_nonneg (x - y))]
      have c1 := conv (lam ^ ((t : ℤ) + 1) * U (t - clampDelay (f t).dB)) (lam ^ ((t : ℤ) + 1) * U (t - clampDelay (f t).dA))
      have ce : lam ^ ((t : ℤ) + 1) * ((1 - m) * U (t - clampDelay (f t).dA) + m * U (t - clampDelay (f t).dB)) =
          (1 - m) * (lam ^ ((t : ℤ) + 1) * U (t - clampDelay (f t).dA)) + m * (lam ^ ((t : ℤ) + 1) * U (t - clampDelay (f t).dB)) := by ring
      have h1 := mul_le_mul_of_nonneg_left (c1.trans (add_le_add ta tb)) a0
      rw [← ce] at h1
      refine h1.trans ?_
      have K2 : 0 ≤ K ^ 2 := sq_nonneg K
      have : q * ((1 - m) * (K ^ 2 * V (t - clampDelay (f t).dA) ^ 2) + m * (K ^ 2 * V (t - clampDelay (f t).dB) ^ 2)) =
          K ^ 2 * (q * ((1 - m) * V (t - clampDelay (f t).dA) ^ 2 + m * V (t - clampDelay (f t).dB) ^ 2)) := by ring
      rw [this]
      refine mul_le_mul_of_nonneg_left ?_ K2
      by_cases hF : F - 1 ≤ t
      · rw [if_pos hF]
        have : 0 ≤ if t < F then V t ^ 2 else 0 := by split_ifs <;> positivity
        linarith
      · rw [if_neg hF, if_pos (show t < F by omega), early (by omega), sub_zero]
        have h3 : q * ((1 - m) * V t ^ 2) ≤ V t ^ 2 := by
          rw [← mul_assoc]
          exact mul_le_of_le_one_left (sq_nonneg _) (mul_le_one₀ a1 (sub_nonneg.2 m1) (by linarith))
        linarith
    have s2 : (∑ t ∈ Finset.range n, if t < F then V t ^ 2 else 0) ≤ E (min (n + 1) F) V := by
      unfold E
      rw [← Finset.sum_filter]
      refine Finset.sum_le_sum_of_subset_of_nonneg (fun t ht => ?_) fun _ _ _ => sq_nonneg _
      simp only [Finset.mem_filter, Finset.mem_range, lt_min_iff] at ht ⊢
      omega
    have s3 : ∑ t ∈ Finset.range n, w (t + 1) * V t ^ 2 ≤ ∑ t ∈ Finset.range (n + 1), w t * V t ^ 2 := by
      rw [Finset.sum_range_succ]
      have : ∑ t ∈ Finset.range n, w (t + 1) * V t ^ 2 ≤ ∑ t ∈ Finset.range n, w t * V t ^ 2 :=
        Finset.sum_le_sum fun t _ => mul_le_mul_of_nonneg_right (wm (Nat.le_succ t)) (sq_nonneg _)
      have := mul_nonneg (w0 n) (sq_nonneg (V n))
      linarith
    have s4 := mul_le_mul_of_nonneg_left s3 e0
    rw [mul_zero, zero_pow two_ne_zero, mul_zero, add_zero]
    exact s1.trans (mul_le_mul_of_nonneg_left (by linarith) (sq_nonneg K))

/-- While the first crossfade lasts. -/
theorem early_mod_Q {c1 ρ g : ℝ} (R : HalfRun M d1 d2 d3 d4 d dT pre c f inp fb h) (C : CalmR c1 ρ g c) (h1 : 1 ≤ lam) (hg : g * lam < 1)
    {F lo W : ℕ} {e : ℝ} (B : Wobbling F e lo W f) {n : ℕ} (hn : n ≤ M) (hF : n ≤ F) :
    Q lam n (sig fun i => (h i).modLine) ≤ Q lam n (driven c fb h) / (1 - g * lam) := by
  have g0 : 0 ≤ g := (C.rec12 0).1.trans (C.rec12 0).2
  have h1 : Q lam n (fun t => (h t.toNat).modOut) ≤ lam * Q lam n (sig fun i => (h i).modLine) := by
    have sh := Q_shift (n := n) h1 (d := 1) (by norm_num) (sig_neg fun i => (h i).modLine)
    rw [zpow_one] at sh
    refine le_trans (Q_mono fun t ht => ?_) sh
    simp only [Int.toNat_natCast]
    cases t with
    | zero => rw [R.vals.2.2.2.2.2.2.1, abs_zero]; exact abs_nonneg _
    | succ t =>
      have m0 := B.taps.x0 t
      have m1 := B.taps.x1 t
      have z : (f t).mix * sig (fun i => (h i).modLine) (t - clampDelay (f t).dB) = 0 := by
        rcases m0.eq_or_lt with e | e
        · rw [← e, zero_mul]
        · have := (B.rangeB t e).1
          have := B.far
          rw [sig_neg _ _ (by omega), mul_zero]
      rw [mod_taps R (by omega), z, add_zero, B.early t (by omega), sub_zero, abs_mul, abs_of_nonneg (sub_nonneg.2 m1),
        show ((t + 1 : ℕ) : ℤ) - 1 = t by push_cast; ring]
      exact mul_le_of_le_one_left (abs_nonneg _) (by linarith)
  have h2 : Q lam n (sig fun i => (h i).modLine) ≤ Q lam n (driven c fb h) + Q lam n (fun t => (c t.toNat).rec12 * (h t.toNat).modOut) := by
    refine le_trans (le_of_eq (Q_congr fun t ht => ?_)) (Q_add _ _)
    simp only [Int.toNat_natCast]
    exact (mod_line R (by omega)).1
  have h3 : Q lam n (fun t => (c t.toNat).rec12 * (h t.toNat).modOut) ≤ g * Q lam n (fun t => (h t.toNat).modOut) :=
    Q_mul (a := fun t => (c t.toNat).rec12) g0 fun t _ => by
      simp only [Int.toNat_natCast]
      rw [abs_of_nonneg (C.rec12 t).1]
      exact (C.rec12 t).2
  rw [le_div_iff₀ (by linarith)]
  have := mul_le_mul_of_nonneg_left h1 g0
  linarith

/-- The first allpass of the tank. -/
theorem tank_Q {c1 ρ g K : ℝ} (R : HalfRun M d1 d2 d3 d4 d dT pre c f inp fb h) (C : CalmR c1 ρ g c) {F lo W : ℕ} {e : ℝ}
    (B : Wobbling F e lo W f) (hw : e * (W : ℝ) < 1) (h1 : 1 ≤ lam) (hK : lam ^ (lo + W + 1) ≤ K)
    (hg : g * (K * Real.sqrt (1 + e * W)) < 1) {n : ℕ} (hn : n ≤ M) :
    Q lam n (sig fun i => (h i).dampLine) ≤ swell (K ^ 2 * (1 + e * W) - 1) g * Q lam n (driven c fb h) +
      (swell (K ^ 2 * (1 + e * W) - 1) g * g + 1) * K / (1 - g * lam) * Q lam (min n F) (driven c fb h) := by
  have g0 : 0 ≤ g := (C.rec12 0).1.trans (C.rec12 0).2
  have η0 : 0 ≤ e * W := mul_nonneg B.taps.c0 (Nat.cast_nonneg W)
  have K1 : lam ≤ K := (le_self_pow₀ h1 (by omega)).trans hK
  have s1 : 1 ≤ Real.sqrt (1 + e * W) := Real.le_sqrt_of_sq_le (by linarith)
  have hgl : g * lam < 1 := by
    have : lam ≤ K * Real.sqrt (1 + e * W) := K1.trans (le_mul_of_one_le_right (by linarith) s1)
    exact lt_of_le_of_lt (mul_le_mul_of_nonneg_left this g0) hg
  have hg1 : g < 1 := lt_of_le_of_lt (le_mul_of_one_le_right g0 h1) hgl
  have a0 : ∀ t, 0 ≤ 1 - (c t).rec12 ^ 2 ∧ 1 - (c t).rec12 ^ 2 ≤ 1 := fun t =>
    ⟨by nlinarith [(C.rec12 t).1, (C.rec12 t).2], by nlinarith [(C.rec12 t).1]⟩
  have am : Antitone fun t => 1 - (c t).rec12 ^ 2 := fun a b hab => by
    have := pow_mono (fun t => (C.rec12 t).1) C.rec12m hab
    dsimp only at this ⊢
    linarith
  have x1 := mod_sum_Q R B hw h1 hK hn (w := fun t => 1 - (c t).rec12 ^ 2) (fun t => (a0 t).1) (fun t => (a0 t).2) am
  have x2 := mod_sum_Q R B hw h1 hK hn (w := fun _ => 1) (fun _ => zero_le_one) (fun _ => le_rfl) (fun _ _ _ => le_rfl)
  simp only [one_mul] at x2
  have early := early_mod_Q R C h1 hgl B (n := min n F) (by omega) (by omega)
  obtain ⟨X, hX⟩ : ∃ X, X = K * Q lam (min n F) (sig fun i => (h i).modLine) := ⟨_, rfl⟩
  have X0 : 0 ≤ X := hX ▸ mul_nonneg (by linarith) (Q_nonneg _ _ _)
  have X2 : X ^ 2 = K ^ 2 * E (min n F) fun t => lam ^ t * sig (fun i => (h i).modLine) t := by
    rw [hX, mul_pow, Q, N_sq]
  have hs : Real.sqrt (1 + (K ^ 2 * (1 + e * W) - 1)) = K * Real.sqrt (1 + e * W) := by
    rw [add_sub_cancel, Real.sqrt_mul (sq_nonneg K), Real.sqrt_sq (by linarith)]
  have η1 : 0 ≤ K ^ 2 * (1 + e * W) - 1 := by nlinarith [mul_nonneg (sq_nonneg K) η0]
  have main := swell_N (n := n) (g := fun t => (c t).rec12) (G := g) (η := K ^ 2 * (1 + e * W) - 1) (X := X)
    (fun t => by rw [abs_of_nonneg (C.rec12 t).1]; exact (C.rec12 t).2) g0 η1 X0 (by rw [hs]; exact hg)
    (u := fun t => lam ^ t * driven c fb h t) (v := fun t => lam ^ t * sig (fun i => (h i).modLine) t)
    (w := fun t => lam ^ t * (h t.toNat).modOut) (y := fun t => lam ^ t * sig (fun i => (h i).dampLine) t)
    (fun t ht => by rw [(mod_line R (by omega)).1, Int.toNat_natCast]; ring)
    (fun t ht => by rw [(mod_line R (by omega)).2, Int.toNat_natCast]; ring)
    (by
      rw [X2, add_sub_cancel]
      simp only [Int.toNat_natCast]
      linarith)
    (by
      rw [X2, add_sub_cancel]
      simp only [E, Int.toNat_natCast] at x2 ⊢
      linarith)
  change Q lam n _ ≤ swell _ g * (Q lam n _ + _) + X at main
  refine main.trans ?_
  have hX' : X ≤ K * (Q lam (min n F) (driven c fb h) / (1 - g * lam)) := by
    rw [hX]; exact mul_le_mul_of_nonneg_left early (by linarith)
  have S0 : 0 ≤ swell (K ^ 2 * (1 + e * W) - 1) g := Real.sqrt_nonneg _
  have := mul_le_mul_of_nonneg_left hX' (show 0 ≤ swell (K ^ 2 * (1 + e * W) - 1) g * g + 1 by positivity)
  have eq : (swell (K ^ 2 * (1 + e * W) - 1) g * g + 1) * K / (1 - g * lam) * Q lam (min n F) (driven c fb h) =
      (swell (K ^ 2 * (1 + e * W) - 1) g * g + 1) * (K * (Q lam (min n F) (driven c fb h) / (1 - g * lam))) := by ring
  rw [eq]
  linarith

end

/-! ### Both halves -/

section
variable {M : ℕ} {a1 a2 a3 a4 a5 a6 b1 b2 b3 b4 b5 b6 : ℤ} {pre : ℕ → ℤ} {c : ℕ → Ctrl ℝ} {fr fl : ℕ → Fade ℝ} {xr xl : ℕ → ℝ}
  {r l : ℕ → Half (ℤ → ℝ) ℝ} {lam : ℝ}

/-- What enters one half of the tank. -/
theorem driven_Q {c1 ρ g K : ℝ} (C : CalmR c1 ρ g c) (hρ : 0 ≤ ρ) (h1 : 1 ≤ lam) {A : ℕ → ℤ → ℝ} {D : ℤ} (hD : 0 ≤ D) (hK : lam ^ D ≤ K)
    {F : ℕ} (hF : F ≤ D) (h : ℕ → Half (ℤ → ℝ) ℝ) (n : ℕ) :
    Q lam n (driven c (fun t => sig A (t - D)) h) ≤ Q lam n (diffused c h) + ρ * (K * Q lam n (sig A)) ∧
      Q lam (min n F) (driven c (fun t => sig A (t - D)) h) ≤ Q lam n (diffused c h) := by
  constructor
  · refine (Q_add _ _).trans (add_le_add_right ?_ _)
    refine (Q_mul (a := fun t => (c t.toNat).rec29) hρ fun t _ => ?_).trans (mul_le_mul_of_nonneg_left ?_ hρ)
    · simp only [Int.toNat_natCast]
      rw [abs_of_nonneg (C.rec29 t).1]
      exact (C.rec29 t).2
    · refine le_trans (le_of_eq (Q_congr fun t _ => ?_)) ((Q_shift h1 hD (sig_neg A)).trans (mul_le_mul_of_nonneg_right hK (Q_nonneg _ _ _)))
      rw [Int.toNat_natCast]
  · refine le_trans (le_of_eq (Q_congr fun t ht => ?_)) (Q_le_of_le (min_le_left n F) _)
    simp only [driven, Int.toNat_natCast]
    rw [sig_neg A _ (by omega), mul_zero, add_zero]

/-- What circulates in both halves together, if a half returns at most `A` times what its first allpass puts out, that allpass has the gain
`G`, and `H` more while its crossfade lasts, and the diffusers have the gain `B`. -/
theorem tanks_Q {c1 ρ g G H A B K : ℝ} {D D' : ℤ} (C : CalmR c1 ρ g c) (hρ : 0 ≤ ρ) (h1 : 1 ≤ lam) (hG : 0 ≤ G) (hH : 0 ≤ H) (hK : lam ^ D ≤ K)
    (hK' : lam ^ D' ≤ K) (hκ : G * (ρ * (K * A)) < 1) {F : ℕ} (hD : F ≤ D) (hD' : F ≤ D') {n : ℕ}
    (ir : Q lam n (diffused c r) ≤ B * Q lam n (heardIn pre r)) (il : Q lam n (diffused c l) ≤ B * Q lam n (heardIn pre l))
    (or : Q lam n (sig fun i => (r i).outA) ≤ A * Q lam n (sig fun i => (r i).dampLine))
    (ol : Q lam n (sig fun i => (l i).outA) ≤ A * Q lam n (sig fun i => (l i).dampLine))
    (y1 : Q lam n (sig fun i => (r i).dampLine) ≤ G * Q lam n (driven c (fun t => sig (fun i => (l i).outA) (t - D)) r) +
      H * Q lam (min n F) (driven c (fun t => sig (fun i => (l i).outA) (t - D)) r))
    (y2 : Q lam n (sig fun i => (l i).dampLine) ≤ G * Q lam n (driven c (fun t => sig (fun i => (r i).outA) (t - D')) l) +
      H * Q lam (min n F) (driven c (fun t => sig (fun i => (r i).outA) (t - D')) l)) :
    Q lam n (sig fun i => (r i).dampLine) + Q lam n (sig fun i => (l i).dampLine) ≤
      (G + H) * B / (1 - G * (ρ * (K * A))) * (Q lam n (heardIn pre r) + Q lam n (heardIn pre l)) := by
  have K0 : 0 ≤ K := (zpow_pos (by linarith) D).le.trans hK
  obtain ⟨u1, u2⟩ := driven_Q C hρ h1 (A := fun i => (l i).outA) (D := D) (le_trans (by omega) hD) hK hD r n
  obtain ⟨w1, w2⟩ := driven_Q C hρ h1 (A := fun i => (r i).outA) (D := D') (le_trans (by omega) hD') hK' hD' l n
  have q1 := mul_le_mul_of_nonneg_left u2 hH
  have q2 := mul_le_mul_of_nonneg_left w2 hH
  have t1 := mul_le_mul_of_nonneg_left u1 hG
  have t2 := mul_le_mul_of_nonneg_left w1 hG
  have m1 := mul_le_mul_of_nonneg_left or (mul_nonneg hG (mul_nonneg hρ K0))
  have m2 := mul_le_mul_of_nonneg_left ol (mul_nonneg hG (mul_nonneg hρ K0))
  have hk : 0 < 1 - G * (ρ * (K * A)) := by linarith
  have key : (Q lam n (sig fun i => (r i).dampLine) + Q lam n (sig fun i => (l i).dampLine)) * (1 - G * (ρ * (K * A))) ≤
      (G + H) * (Q lam n (diffused c r) + Q lam n (diffused c l)) := by
    have e : (G + H) * (Q lam n (diffused c r) + Q lam n (diffused c l)) =
        G * Q lam n (diffused c r) + G * Q lam n (diffused c l) + (H * Q lam n (diffused c r) + H * Q lam n (diffused c l)) := by ring
    rw [e]
    linarith
  have key2 := key.trans (mul_le_mul_of_nonneg_left (add_le_add ir il) (add_nonneg hG hH))
  have e : (G + H) * B / (1 - G * (ρ * (K * A))) * (Q lam n (heardIn pre r) + Q lam n (heardIn pre l)) =
      (G + H) * (B * Q lam n (heardIn pre r) + B * Q lam n (heardIn pre l)) / (1 - G * (ρ * (K * A))) := by ring
  rw [e, le_div_iff₀ hk]
  exact key2

/-- Seven taps. -/
theorem taps_Q (h1 : 1 ≤ lam) {A B C D E F G : ℤ → ℝ} (hA : ∀ t, t < 0 → A t = 0) (hB : ∀ t, t < 0 → B t = 0) (hC : ∀ t, t < 0 → C t = 0)
    (hD : ∀ t, t < 0 → D t = 0) (hE : ∀ t, t < 0 → E t = 0) (hF : ∀ t, t < 0 → F t = 0) (hG : ∀ t, t < 0 → G t = 0)
    {a b c d e f g : ℤ} {K : ℝ} (ha : 0 ≤ a ∧ lam ^ a ≤ K) (hb : 0 ≤ b ∧ lam ^ b ≤ K) (hc : 0 ≤ c ∧ lam ^ c ≤ K) (hd : 0 ≤ d ∧ lam ^ d ≤ K)
    (he : 0 ≤ e ∧ lam ^ e ≤ K) (hf : 0 ≤ f ∧ lam ^ f ≤ K) (hg : 0 ≤ g ∧ lam ^ g ≤ K) (n : ℕ) :
    Q lam n (fun t => 0.6 * (A (t - a) + B (t - b) + C (t - c) - (D (t - d) + E (t - e) + F (t - f) + G (t - g)))) ≤
      0.6 * (K * (Q lam n A + Q lam n B + Q lam n C + (Q lam n D + Q lam n E + Q lam n F + Q lam n G))) := by
  have sh : ∀ {x : ℤ → ℝ} {i : ℤ}, (∀ t, t < 0 → x t = 0) → 0 ≤ i ∧ lam ^ i ≤ K → Q lam n (fun t => x (t - i)) ≤ K * Q lam n x :=
    fun hx hi => (Q_shift h1 hi.1 hx).trans (mul_le_mul_of_nonneg_right hi.2 (Q_nonneg _ _ _))
  refine (Q_mul (a := fun _ => 0.6) (c := 0.6) (by norm_num) fun t _ => by rw [abs_of_pos (by norm_num)]).trans
    (mul_le_mul_of_nonneg_left ?_ (by norm_num))
  simp only [sub_eq_add_neg (A (_ - a) + _ + _), mul_add]
  refine (Q_add _ _).trans ?_
  rw [Q_neg]
  refine add_le_add ((Q_add _ _).trans (add_le_add ((Q_add _ _).trans (add_le_add ?_ ?_)) ?_))
    ((Q_add _ _).trans (add_le_add ((Q_add _ _).trans (add_le_add ((Q_add _ _).trans (add_le_add ?_ ?_)) ?_)) ?_))
  · exact sh hA ha
  · exact sh hB hb
  · exact sh hC hc
  · exact sh hD hd
  · exact sh hE he
  · exact sh hF hf
  · exact sh hG hg

end

end Verif.FVerbDSP
