import Verif.Lemmas.FVerbModEnergy

/-!
# Energy with exponentially growing weights

A signal whose weighted energy stays bounded dies away at least as fast as the weights grow.
-/

namespace Verif.Energy
open FVerbDSP (swell)

/-- The square root of the energy of the first `n` samples, sample `t` weighted by `lam ^ t`. -/
noncomputable def Q (lam : ℝ) (n : ℕ) (f : ℤ → ℝ) : ℝ := N n fun t => lam ^ t * f t

section
variable {lam : ℝ} {n : ℕ}

theorem Q_nonneg (lam : ℝ) (n : ℕ) (f : ℤ → ℝ) : 0 ≤ Q lam n f := N_nonneg _ _

theorem Q_congr {f g : ℤ → ℝ} (h : ∀ t : ℕ, t < n → f t = g t) : Q lam n f = Q lam n g := N_congr fun t ht => by rw [h t ht]

theorem Q_mono {f g : ℤ → ℝ} (h : ∀ t : ℕ, t < n → |f t| ≤ |g t|) : Q lam n f ≤ Q lam n g :=
  N_mono fun t ht => by rw [abs_mul, abs_mul]; exact mul_le_mul_of_nonneg_left (h t ht) (abs_nonneg _)

theorem Q_le_of_le {m : ℕ} (h : m ≤ n) (f : ℤ → ℝ) : Q lam m f ≤ Q lam n f := N_le_of_le h _

theorem Q_add (f g : ℤ → ℝ) : Q lam n (fun t => f t + g t) ≤ Q lam n f + Q lam n g := by
  unfold Q
  simp only [mul_add]
  exact N_add n _ _

theorem Q_mul {c : ℝ} (hc : 0 ≤ c) {a f : ℤ → ℝ} (h : ∀ t : ℕ, t < n → |a t| ≤ c) : Q lam n (fun t => a t * f t) ≤ c * Q lam n f := by
  unfold Q
  simp only [mul_left_comm]
  exact N_mul hc h

theorem Q_neg (f : ℤ → ℝ) : Q lam n (fun t => -f t) = Q lam n f :=
  le_antisymm (Q_mono fun t _ => by rw [abs_neg]) (Q_mono fun t _ => by rw [abs_neg])

theorem Q_shift (h1 : 1 ≤ lam) {d : ℤ} (hd : 0 ≤ d) {f : ℤ → ℝ} (h0 : ∀ t, t < 0 → f t = 0) :
    Q lam n (fun t => f (t - d)) ≤ lam ^ d * Q lam n f := by
  have l0 : 0 < lam := by linarith
  have e : ∀ t : ℤ, lam ^ t * f (t - d) = lam ^ d * (lam ^ (t - d) * f (t - d)) := fun t => by
    rw [← mul_assoc, ← zpow_add₀ l0.ne', add_sub_cancel]
  unfold Q
  simp only [e]
  refine (N_mul (a := fun _ => lam ^ d) (zpow_pos l0 d).le fun t _ => (abs_of_pos (zpow_pos l0 d)).le).trans
    (mul_le_mul_of_nonneg_left ?_ (zpow_pos l0 d).le)
  exact N_shift n hd (f := fun t => lam ^ t * f t) fun t ht => by rw [h0 t ht, mul_zero]

end

/-- An allpass whose loop gives back at most `1 + η` times the energy put into it, and `X²` more. -/
theorem swell_N {n : ℕ} {g : ℕ → ℝ} {G η X : ℝ} (hg : ∀ t, |g t| ≤ G) (G0 : 0 ≤ G) (η0 : 0 ≤ η) (X0 : 0 ≤ X) (hG : G * Real.sqrt (1 + η) < 1)
    {u v w y : ℤ → ℝ} (hv : ∀ t : ℕ, t < n → v t = u t + g t * w t) (hy : ∀ t : ℕ, t < n → y t = w t - g t * v t)
    (x1 : ∑ t ∈ Finset.range n, (1 - g t ^ 2) * w t ^ 2 ≤ (1 + η) * ∑ t ∈ Finset.range n, (1 - g t ^ 2) * v t ^ 2 + X ^ 2)
    (x2 : E n w ≤ (1 + η) * E n v + X ^ 2) : N n y ≤ swell η G * (N n u + G * X) + X := by
  have s1 : 1 ≤ Real.sqrt (1 + η) := Real.le_sqrt_of_sq_le (by linarith)
  have a0 : ∀ t, 1 - g t ^ 2 ≤ 1 := fun t => by nlinarith [sq_nonneg (g t)]
  have wV : N n w ≤ Real.sqrt (1 + η) * N n v + X := by
    refine Real.sqrt_le_iff.2 ⟨add_nonneg (mul_nonneg (by linarith) (N_nonneg _ _)) X0, x2.trans ?_⟩
    rw [← N_sq]
    have sq : Real.sqrt (1 + η) ^ 2 = 1 + η := Real.sq_sqrt (by linarith)
    have := mul_nonneg (mul_nonneg (by linarith : (0:ℝ) ≤ Real.sqrt (1 + η)) (N_nonneg n v)) X0
    nlinarith
  have vV : N n v ≤ N n u + G * N n w := by
    have h2 : N n v ≤ N n u + N n (fun t => g t.toNat * w t) := by
      refine le_trans (le_of_eq (N_congr fun t ht => ?_)) (N_add n _ _)
      rw [hv t ht, Int.toNat_natCast]
    have h3 : N n (fun t => g t.toNat * w t) ≤ G * N n w := N_mul G0 fun t _ => hg _
    linarith
  have D0 : 0 < 1 - G * Real.sqrt (1 + η) := by linarith
  have V1 : N n v * (1 - G * Real.sqrt (1 + η)) ≤ N n u + G * X := by
    have := mul_le_mul_of_nonneg_left wV G0
    linarith
  have V2 : N n v ^ 2 * (1 - G * Real.sqrt (1 + η)) ^ 2 ≤ (N n u + G * X) ^ 2 := by
    rw [← mul_pow]
    exact pow_le_pow_left₀ (mul_nonneg (N_nonneg _ _) D0.le) V1 2
  have out := allpass_E (n := n) (g := g) (u := u) (v := v) (w := w) (y := y) (X := η * E n v + X ^ 2) hv hy (by
    have : ∑ t ∈ Finset.range n, (1 - g t ^ 2) * v t ^ 2 ≤ E n v :=
      Finset.sum_le_sum fun t _ => mul_le_of_le_one_left (sq_nonneg _) (a0 t)
    have := mul_le_mul_of_nonneg_left this η0
    linarith)
  obtain ⟨a, ha⟩ : ∃ a, a = N n u := ⟨_, rfl⟩
  have u0 : 0 ≤ a := ha ▸ N_nonneg _ _
  rw [← N_sq n u, ← N_sq n v, ← ha] at out
  rw [← ha] at V2 ⊢
  have S2 : swell η G ^ 2 = 1 + η / (1 - G * Real.sqrt (1 + η)) ^ 2 := Real.sq_sqrt (by positivity)
  have S0 : 0 ≤ swell η G := Real.sqrt_nonneg _
  refine Real.sqrt_le_iff.2 ⟨by positivity, out.trans ?_⟩
  have V3 : N n v ^ 2 ≤ (a + G * X) ^ 2 / (1 - G * Real.sqrt (1 + η)) ^ 2 := by
    rw [le_div_iff₀ (by positivity)]
    exact V2
  have V4 : η * N n v ^ 2 ≤ (swell η G ^ 2 - 1) * (a + G * X) ^ 2 := by
    refine (mul_le_mul_of_nonneg_left V3 η0).trans (le_of_eq ?_)
    rw [S2]
    ring
  have : a ^ 2 ≤ (a + G * X) ^ 2 := pow_le_pow_left₀ u0 (by have := mul_nonneg G0 X0; linarith) 2
  have : 0 ≤ swell η G * (a + G * X) * X := by positivity
  nlinarith

/-- An allpass with a plain delay in its loop, under the weights. -/
theorem allpass_Q {lam : ℝ} (h1 : 1 ≤ lam) {n : ℕ} {g : ℕ → ℝ} {G L : ℝ} (hg : ∀ t, |g t| ≤ G) (G0 : 0 ≤ G)
    (hm : Monotone fun t => g t ^ 2) {d : ℤ} (hd : 0 ≤ d) (hL : lam ^ d ≤ L) (hG : G * L < 1) {u v y : ℤ → ℝ}
    (h0 : ∀ t, t < 0 → v t = 0) (hv : ∀ t : ℕ, t < n → v t = u t + g t * v (t - d)) (hy : ∀ t : ℕ, t < n → y t = v (t - d) - g t * v t) :
    Q lam n y ≤ swell (L ^ 2 - 1) G * Q lam n u := by
  have l0 : 0 < lam := by linarith
  have L1 : 1 ≤ lam ^ d := one_le_zpow₀ h1 hd
  have G1 : G ≤ 1 := by nlinarith
  obtain ⟨d, rfl⟩ := Int.eq_ofNat_of_zero_le hd
  have e : ∀ t : ℤ, lam ^ t * v (t - d) = lam ^ (d : ℤ) * (lam ^ (t - d) * v (t - d)) := fun t => by
    rw [← mul_assoc, ← zpow_add₀ l0.ne', add_sub_cancel]
  have g2 : ∀ t, 0 ≤ 1 - g t ^ 2 := fun t => by
    have := sq_le_sq' (abs_le.1 ((hg t).trans G1)).1 (abs_le.1 ((hg t).trans G1)).2
    linarith
  have sh : ∀ {a : ℕ → ℝ}, (∀ t, 0 ≤ a t) → Antitone a → ∑ t ∈ Finset.range n, a t * (lam ^ (t : ℤ) * v (t - d)) ^ 2 ≤
      L ^ 2 * ∑ t ∈ Finset.range n, a t * (lam ^ (t : ℤ) * v t) ^ 2 := by
    intro a a0 am
    have s := shift_sum n d a0 am (f := fun t => lam ^ t * v t) fun t ht => by rw [h0 t ht, mul_zero]
    have s' := mul_le_mul_of_nonneg_left s (sq_nonneg (lam ^ (d : ℤ)))
    have s0 : 0 ≤ ∑ t ∈ Finset.range n, a t * (lam ^ (t : ℤ) * v t) ^ 2 := Finset.sum_nonneg fun t _ => mul_nonneg (a0 t) (sq_nonneg _)
    refine le_trans (le_of_eq ?_) (s'.trans (mul_le_mul_of_nonneg_right (pow_le_pow_left₀ (by linarith) hL 2) s0))
    rw [Finset.mul_sum]
    refine Finset.sum_congr rfl fun t _ => ?_
    rw [e]
    ring
  have hs : Real.sqrt (1 + (L ^ 2 - 1)) = L := by
    rw [add_sub_cancel, Real.sqrt_sq (by linarith)]
  have main := swell_N (n := n) (g := g) (G := G) (η := L ^ 2 - 1) (X := 0) hg G0 (by nlinarith) le_rfl (by rw [hs]; exact hG)
    (u := fun t => lam ^ t * u t) (v := fun t => lam ^ t * v t) (w := fun t => lam ^ t * v (t - d)) (y := fun t => lam ^ t * y t)
    (fun t ht => by rw [hv t ht]; ring) (fun t ht => by rw [hy t ht]; ring)
    (by rw [add_sub_cancel]; have := sh g2 (fun a b hab => by have := hm hab; dsimp only at this; linarith); simpa using this)
    (by
      rw [add_sub_cancel]
      have := sh (a := fun _ => 1) (fun _ => zero_le_one) (fun _ _ _ => le_rfl)
      simp only [one_mul] at this
      simpa [E] using this)
  rw [mul_zero, add_zero, add_zero] at main
  exact main

/-- What the weights add to the gain of a one-pole lowpass with coefficient at most `P`. -/
noncomputable def lean (lam P : ℝ) : ℝ := 1 + (lam - 1) / (1 - lam * P)

/-- A smoothed lowpass under the weights. -/
theorem lowpass_Q {c1 : ℝ} {p : ℕ → ℝ} (D : Drift c1 p) {P lam : ℝ} (h1 : 1 ≤ lam) (hP : ∀ t, p t ≤ P) (hl : lam * P < 1) {s : ℕ → ℝ}
    {y : ℤ → ℝ} (h0 : s 0 = 0) {n : ℕ} (hs : ∀ t : ℕ, t < n → s (t + 1) = y t + p t * s t) :
    Q lam n (fun t => (1 - p t.toNat) * s (t.toNat + 1)) ≤ FVerbDSP.gam c1 * lean lam P * Q lam n y ∧
      Q lam n (fun t => (1 - p t.toNat) * s t.toNat) ≤ lam * (FVerbDSP.gam c1 * lean lam P * Q lam n y) := by
  have l0 : 0 < lam := by linarith
  have P0 : 0 ≤ P := (D.p0 0).trans (hP 0)
  obtain ⟨S, hS⟩ : ∃ S : ℕ → ℝ, S = fun t : ℕ => lam ^ ((t : ℤ) - 1) * s t := ⟨_, rfl⟩
  have S1 : ∀ t : ℕ, S (t + 1) = lam ^ (t : ℤ) * s (t + 1) := fun t => by rw [hS]; simp
  have S2 : ∀ t : ℕ, lam ^ (t : ℤ) * s t = lam * S t := fun t => by
    rw [hS]
    dsimp only
    rw [← mul_assoc, ← zpow_one_add₀ l0.ne', add_sub_cancel]
  have S0 : S 0 = 0 := by rw [hS]; dsimp only; rw [h0, mul_zero]
  have rc : ∀ t : ℕ, t < n → S (t + 1) = lam ^ (t : ℤ) * y t + lam * p t * S t := fun t ht => by
    rw [S1, hs t ht, mul_add, mul_left_comm, S2]
    ring
  -- the size of the state
  obtain ⟨Z, hZ⟩ : ∃ Z : ℤ → ℝ, Z = fun t => if t < 0 then 0 else S (t.toNat + 1) := ⟨_, rfl⟩
  have Z0 : ∀ t, t < 0 → Z t = 0 := fun t ht => by rw [hZ]; exact if_pos ht
  have Z1 : ∀ t : ℕ, Z t = S (t + 1) := fun t => by rw [hZ]; simp
  have Z2 : ∀ t : ℕ, Z (t - 1) = S t := by
    intro t
    cases t with
    | zero => rw [Z0 _ (by simp), S0]
    | succ t => rw [show ((t + 1 : ℕ) : ℤ) - 1 = t by push_cast; ring, Z1]
  have sz : N n (fun t => S t.toNat) ≤ N n Z := by
    refine le_trans (le_of_eq (N_congr fun t _ => ?_)) (N_shift n (d := 1) (by norm_num) Z0)
    rw [Int.toNat_natCast, Z2]
  have zz : N n Z ≤ Q lam n y + lam * P * N n (fun t => S t.toNat) := by
    have a : N n Z ≤ N n (fun t => lam ^ t * y t) + N n (fun t => lam * p t.toNat * S t.toNat) := by
      refine le_trans (le_of_eq (N_congr fun t ht => ?_)) (N_add n _ _)
      rw [Z1, rc t ht, Int.toNat_natCast]
    have b : N n (fun t => lam * p t.toNat * S t.toNat) ≤ lam * P * N n (fun t => S t.toNat) :=
      N_mul (a := fun t => lam * p t.toNat) (by positivity) fun t _ => by
        rw [abs_of_nonneg (mul_nonneg l0.le (D.p0 _))]
        exact mul_le_mul_of_nonneg_left (hP _) l0.le
    exact a.trans (add_le_add_right b _)
  have dpos : 0 < 1 - lam * P := by linarith
  have sb : N n (fun t => S t.toNat) ≤ Q lam n y / (1 - lam * P) := by
    rw [le_div_iff₀ dpos]
    have := mul_le_mul_of_nonneg_left sz (mul_nonneg l0.le P0)
    linarith
  have main := FVerbDSP.lowpass_N (y := fun t => lam ^ t * y t + (lam - 1) * p t.toNat * S t.toNat) D S0 (n := n) fun t ht => by
    rw [rc t ht, Int.toNat_natCast]
    ring
  have inp : N n (fun t => lam ^ t * y t + (lam - 1) * p t.toNat * S t.toNat) ≤ lean lam P * Q lam n y := by
    have b : N n (fun t => (lam - 1) * p t.toNat * S t.toNat) ≤ (lam - 1) * N n (fun t => S t.toNat) :=
      N_mul (a := fun t => (lam - 1) * p t.toNat) (by linarith) fun t _ => by
        rw [abs_of_nonneg (mul_nonneg (by linarith) (D.p0 _))]
        exact mul_le_of_le_one_right (by linarith) (D.p1 _)
    have c := mul_le_mul_of_nonneg_left sb (show 0 ≤ lam - 1 by linarith)
    refine (N_add n _ _).trans ?_
    have e : lean lam P * Q lam n y = Q lam n y + (lam - 1) * (Q lam n y / (1 - lam * P)) := by unfold lean; ring
    rw [e]
    exact add_le_add_right (b.trans c) _
  have g0 := FVerbDSP.gam_nonneg c1
  have inp' := mul_le_mul_of_nonneg_left inp g0
  rw [mul_assoc (FVerbDSP.gam c1)]
  constructor
  · refine le_trans (le_of_eq (N_congr fun t _ => ?_)) (main.1.trans inp')
    simp only [Int.toNat_natCast]
    rw [S1]
    ring
  · refine le_trans ?_ (mul_le_mul_of_nonneg_left (main.2.trans inp') l0.le)
    refine le_trans (le_of_eq (N_congr fun t _ => ?_)) (N_mul (a := fun _ => lam) l0.le fun _ _ => (abs_of_pos l0).le)
    simp only [Int.toNat_natCast]
    rw [mul_left_comm, S2]
    ring

end Verif.Energy
