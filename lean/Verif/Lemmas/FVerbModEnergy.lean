import Verif.Lemmas.FVerbEnergy
import Verif.Lemmas.Crossfade
import Verif.Spec.ReverbEnergy

/-!
# Energy in the tank of the reverb while its delays are modulated
-/

namespace Verif.FVerbDSP
open Energy

/-- The two taps of a modulated delay: after the first `F` steps, in which tap A is still where `clear` put it, both stay between `lo` and
`lo + W`. -/
structure Wobbling (F : ℕ) (c : ℝ) (lo W : ℕ) (f : ℕ → Fade ℝ) : Prop where
  pos : 0 < F
  far : F ≤ lo
  taps : Taps c (fun t => (f t).mix) (fun t => clampDelay (f t).dA) (fun t => clampDelay (f t).dB)
  early : ∀ t, t + 1 < F → clampDelay (f t).dA = 0
  rangeA : ∀ t, F ≤ t + 1 → (f t).mix < 1 → lo ≤ clampDelay (f t).dA ∧ clampDelay (f t).dA ≤ lo + W
  rangeB : ∀ t, 0 < (f t).mix → lo ≤ clampDelay (f t).dB ∧ clampDelay (f t).dB ≤ lo + W

section
variable {M : ℕ} {d1 d2 d3 d4 d dT : ℤ} {pre : ℕ → ℤ} {c : ℕ → Ctrl ℝ} {f : ℕ → Fade ℝ} {inp fb : ℕ → ℝ} {h : ℕ → Half (ℤ → ℝ) ℝ}

theorem mod_taps (R : HalfRun M d1 d2 d3 d4 d dT pre c f inp fb h) {t : ℕ} (ht : t < M) : (h (t + 1)).modOut =
    (1 - (f t).mix) * sig (fun i => (h i).modLine) (t - clampDelay (f t).dA) +
      (f t).mix * sig (fun i => (h i).modLine) (t - clampDelay (f t).dB) := by
  have W : Written M fun i => (h i).modLine := ⟨fun j => (R.lines j).2.2.2.2.2.1, fun t ht => ⟨_, (R.step t ht).modLine⟩⟩
  have a := clampDelay_nonneg (f t).dA
  have b := clampDelay_nonneg (f t).dB
  rw [(R.step t ht).modOut, W.read (t := t + 1) (by omega) (by push_cast; omega), W.read (t := t + 1) (by omega) (by push_cast; omega)]
  ring

/-- What the modulated delay hands on, against what was written to its line. -/
theorem mod_sum (R : HalfRun M d1 d2 d3 d4 d dT pre c f inp fb h) {F lo W : ℕ} {e : ℝ} (B : Wobbling F e lo W f) (hw : e * (W : ℝ) < 1)
    {n : ℕ} (hn : n ≤ M) {w : ℕ → ℝ} (w0 : ∀ t, 0 ≤ w t) (w1 : ∀ t, w t ≤ 1) (wm : Antitone w) :
    ∑ t ∈ Finset.range n, w t * (h t).modOut ^ 2 ≤
      (1 + e * W) * ∑ t ∈ Finset.range n, w t * sig (fun i => (h i).modLine) t ^ 2 + E (min n F) (sig fun i => (h i).modLine) := by
  obtain ⟨V, hV⟩ : ∃ V, V = sig fun i => (h i).modLine := ⟨_, rfl⟩
  have V0 : ∀ t, t < 0 → V t = 0 := by rw [hV]; exact sig_neg _
  rw [← hV]
  have e0 : 0 ≤ 1 + e * W := by have := mul_nonneg B.taps.c0 (Nat.cast_nonneg (α := ℝ) W); linarith
  cases n with
  | zero => simpa using E_nonneg _ V
  | succ n =>
    rw [Finset.sum_range_succ', R.vals.2.2.2.2.2.2.1]
    have main := B.taps.read_sum (F := F - 1) hw (fun t ht hx => B.rangeA t (by omega) hx) B.rangeB n
      (w := fun t => w (t + 1)) (fun t => w0 _) (fun a b hab => wm (by omega)) V0
    have s1 : ∑ t ∈ Finset.range n, w (t + 1) * (h (t + 1)).modOut ^ 2 ≤
        ∑ t ∈ Finset.range n, w (t + 1) * ((if F - 1 ≤ t then (1 - (f t).mix) * V (t - clampDelay (f t).dA) ^ 2 else 0) +
          (f t).mix * V (t - clampDelay (f t).dB) ^ 2) + ∑ t ∈ Finset.range n, if t < F then V t ^ 2 else 0 := by
      rw [← Finset.sum_add_distrib]
      refine Finset.sum_le_sum fun t ht => ?_
      have ht := Finset.mem_range.1 ht
      rw [mod_taps R (by omega), ← hV]
      have m0 := B.taps.x0 t
      have m1 := B.taps.x1 t
      have a0 := w0 (t + 1)
      have a1 := w1 (t + 1)
      have early := B.early t
      generalize (f t).mix = m at *
      generalize w (t + 1) = q at *
      have conv : ∀ x y : ℝ, ((1 - m) * y + m * x) ^ 2 ≤ (1 - m) * y ^ 2 + m * x ^ 2 := fun x y => by
        nlinarith [mul_nonneg (mul_nonneg m0 (sub_nonneg.2 m1)) (sq_nonneg (x - y))]
      have h1 := mul_le_mul_of_nonneg_left (conv (V (t - clampDelay (f t).dB)) (V (t - clampDelay (f t).dA))) a0
      by_cases hF : F - 1 ≤ t
      · rw [if_pos hF]
        have : 0 ≤ if t < F then V t ^ 2 else 0 := by split_ifs <;> positivity
        linarith
      · rw [if_neg hF, if_pos (show t < F by omega)]
        rw [early (by omega), sub_zero] at h1 ⊢
        have h3 : q * ((1 - m) * V t ^ 2) ≤ V t ^ 2 := by
          rw [← mul_assoc]
          exact mul_le_of_le_one_left (sq_nonneg _) (mul_le_one₀ a1 (sub_nonneg.2 m1) (by linarith))
        linarith
    have s2 : (∑ t ∈ Finset.range n, if t < F then V t ^ 2 else 0) ≤ E (min (n + 1) F) V := by
      unfold E
      rw [← Finset.sum_filter]
      refine Finset.sum_le_sum_of_subset_of_nonneg (fun t ht => ?_) fun _ _ _ => sq_nonneg _
      simp only [Finset.mem_filter, Finset.mem_range, lt_min_iff] at ht ⊢
      omega
    have s3 : ∑ t ∈ Finset.range n, w (t + 1) * V t ^ 2 ≤ ∑ t ∈ Finset.range (n + 1), w t * V t ^ 2 := by
      rw [Finset.sum_range_succ]
      have : ∑ t ∈ Finset.range n, w (t + 1) * V t ^ 2 ≤ ∑ t ∈ Finset.range n, w t * V t ^ 2 :=
        Finset.sum_le_sum fun t _ => mul_le_mul_of_nonneg_right (wm (Nat.le_succ t)) (sq_nonneg _)
      have := mul_nonneg (w0 n) (sq_nonneg (V n))
      linarith
    have s4 := mul_le_mul_of_nonneg_left s3 e0
    linarith

/-- While the first crossfade lasts. -/
theorem early_mod_N {c1 ρ g : ℝ} (R : HalfRun M d1 d2 d3 d4 d dT pre c f inp fb h) (C : CalmR c1 ρ g c) (hg : g < 1) {F lo W : ℕ} {e : ℝ}
    (B : Wobbling F e lo W f) {n : ℕ} (hn : n ≤ M) (hF : n ≤ F) :
    N n (sig fun i => (h i).modLine) ≤ N n (driven c fb h) / (1 - g) := by
  have g0 : 0 ≤ g := (C.rec12 0).1.trans (C.rec12 0).2
  have h1 : N n (fun t => (h t.toNat).modOut) ≤ N n (sig fun i => (h i).modLine) := by
    refine le_trans (N_mono fun t ht => ?_) (N_shift n (d := 1) (by norm_num) (sig_neg _))
    simp only [Int.toNat_natCast]
    cases t with
    | zero => rw [R.vals.2.2.2.2.2.2.1, abs_zero]; exact abs_nonneg _
    | succ t =>
      have m0 := B.taps.x0 t
      have m1 := B.taps.x1 t
      have z : (f t).mix * sig (fun i => (h i).modLine) (t - clampDelay (f t).dB) = 0 := by
        rcases m0.eq_or_lt with e | e
        · rw [← e, zero_mul]
        · have := (B.rangeB t e).1
          have := B.far
          rw [sig_neg _ _ (by omega), mul_zero]
      rw [mod_taps R (by omega), z, add_zero, B.early t (by omega), sub_zero, abs_mul, abs_of_nonneg (sub_nonneg.2 m1),
        show ((t + 1 : ℕ) : ℤ) - 1 = t by push_cast; ring]
      exact mul_le_of_le_one_left (abs_nonneg _) (by linarith)
  have h2 : N n (sig fun i => (h i).modLine) ≤ N n (driven c fb h) + N n (fun t => (c t.toNat).rec12 * (h t.toNat).modOut) := by
    refine le_trans (le_of_eq (N_congr fun t ht => ?_)) (N_add n _ _)
    simp only [Int.toNat_natCast]
    exact (mod_line R (by omega)).1
  have h3 : N n (fun t => (c t.toNat).rec12 * (h t.toNat).modOut) ≤ g * N n (fun t => (h t.toNat).modOut) :=
    N_mul (a := fun t => (c t.toNat).rec12) g0 fun t _ => by
      simp only [Int.toNat_natCast]
      rw [abs_of_nonneg (C.rec12 t).1]
      exact (C.rec12 t).2
  rw [le_div_iff₀ (by linarith)]
  have := mul_le_mul_of_nonneg_left h1 g0
  linarith

/-- The first allpass of the tank, with its delay modulated. -/
theorem tank_mod_N {c1 ρ g : ℝ} (R : HalfRun M d1 d2 d3 d4 d dT pre c f inp fb h) (C : CalmR c1 ρ g c) {F lo W : ℕ} {e : ℝ}
    (B : Wobbling F e lo W f) (hw : e * (W : ℝ) < 1) (hg : g * Real.sqrt (1 + e * W) < 1) {n : ℕ} (hn : n ≤ M) :
    N n (sig fun i => (h i).dampLine) ≤ swell (e * W) g * N n (driven c fb h) +
      2 * swell (e * W) g / (1 - g) * N (min n F) (driven c fb h) := by
  have g0 : 0 ≤ g := (C.rec12 0).1.trans (C.rec12 0).2
  have η0 : 0 ≤ e * W := mul_nonneg B.taps.c0 (Nat.cast_nonneg W)
  obtain ⟨η, hη⟩ : ∃ η : ℝ, η = e * W := ⟨_, rfl⟩
  rw [← hη] at hg η0 hw ⊢
  have s1 : 1 ≤ Real.sqrt (1 + η) := Real.le_sqrt_of_sq_le (by linarith)
  have hg1 : g < 1 := lt_of_le_of_lt (le_mul_of_one_le_right g0 s1) hg
  have hg' : 0 < 1 - g := by linarith
  obtain ⟨V, hV⟩ : ∃ V, V = sig fun i => (h i).modLine := ⟨_, rfl⟩
  have a0 : ∀ t, 0 ≤ 1 - (c t).rec12 ^ 2 ∧ 1 - (c t).rec12 ^ 2 ≤ 1 := fun t =>
    ⟨by nlinarith [(C.rec12 t).1, (C.rec12 t).2], by nlinarith [(C.rec12 t).1]⟩
  have am : Antitone fun t => 1 - (c t).rec12 ^ 2 := fun a b hab => by
    have := pow_mono (fun t => (C.rec12 t).1) C.rec12m hab
    dsimp only at this ⊢
    linarith
  have x1 := mod_sum R B (by rwa [← hη]) hn (w := fun t => 1 - (c t).rec12 ^ 2) (fun t => (a0 t).1) (fun t => (a0 t).2) am
  have x2 := mod_sum R B (by rwa [← hη]) hn (w := fun _ => 1) (fun _ => zero_le_one) (fun _ => le_rfl) (fun _ _ _ => le_rfl)
  simp only [one_mul] at x2
  rw [← hV, ← hη] at x1 x2
  have early := early_mod_N R C hg1 B (n := min n F) (by omega) (by omega)
  rw [← hV] at early
  -- what is in the line
  have wV : N n (fun t => (h t.toNat).modOut) ≤ Real.sqrt (1 + η) * N n V + N (min n F) V := by
    refine Real.sqrt_le_iff.2 ⟨add_nonneg (mul_nonneg (by linarith) (N_nonneg _ _)) (N_nonneg _ _), ?_⟩
    have : E n (fun t => (h t.toNat).modOut) ≤ (1 + η) * E n V + E (min n F) V := by simpa only [E, Int.toNat_natCast] using x2
    refine this.trans ?_
    rw [← N_sq, ← N_sq]
    have sq : Real.sqrt (1 + η) ^ 2 = 1 + η := Real.sq_sqrt (by linarith)
    have := mul_nonneg (mul_nonneg (by linarith : (0:ℝ) ≤ Real.sqrt (1 + η)) (N_nonneg n V)) (N_nonneg (min n F) V)
    nlinarith
  have vV : N n V ≤ N n (driven c fb h) + g * N n (fun t => (h t.toNat).modOut) := by
    have h2 : N n V ≤ N n (driven c fb h) + N n (fun t => (c t.toNat).rec12 * (h t.toNat).modOut) := by
      refine le_trans (le_of_eq (N_congr fun t ht => ?_)) (N_add n _ _)
      simp only [Int.toNat_natCast]
      rw [hV]
      exact (mod_line R (by omega)).1
    have h3 : N n (fun t => (c t.toNat).rec12 * (h t.toNat).modOut) ≤ g * N n (fun t => (h t.toNat).modOut) :=
      N_mul (a := fun t => (c t.toNat).rec12) g0 fun t _ => by
        simp only [Int.toNat_natCast]
        rw [abs_of_nonneg (C.rec12 t).1]
        exact (C.rec12 t).2
    linarith
  have D0 : 0 < 1 - g * Real.sqrt (1 + η) := by linarith
  have V1 : N n V * (1 - g * Real.sqrt (1 + η)) ≤ N n (driven c fb h) + g * N (min n F) V := by
    have := mul_le_mul_of_nonneg_left wV g0
    linarith
  have V2 : N n V ^ 2 * (1 - g * Real.sqrt (1 + η)) ^ 2 ≤ (N n (driven c fb h) + g * N (min n F) V) ^ 2 := by
    rw [← mul_pow]
    exact pow_le_pow_left₀ (mul_nonneg (N_nonneg _ _) D0.le) V1 2
  have out := allpass_E (n := n) (g := fun t => (c t).rec12) (u := driven c fb h) (v := V) (w := fun t => (h t.toNat).modOut)
    (y := sig fun i => (h i).dampLine) (X := η * E n V + E (min n F) V)
    (fun t ht => by rw [hV]; simp only [Int.toNat_natCast]; exact (mod_line R (by omega)).1)
    (fun t ht => by rw [hV]; simp only [Int.toNat_natCast]; exact (mod_line R (by omega)).2)
    (by
      simp only [Int.toNat_natCast]
      have : ∑ t ∈ Finset.range n, (1 - (c t).rec12 ^ 2) * V t ^ 2 ≤ E n V :=
        Finset.sum_le_sum fun t _ => mul_le_of_le_one_left (sq_nonneg _) (a0 t).2
      have := mul_le_mul_of_nonneg_left this η0
      linarith)
  obtain ⟨u, hu⟩ : ∃ u, u = N n (driven c fb h) := ⟨_, rfl⟩
  obtain ⟨v, hv⟩ : ∃ v, v = N (min n F) V := ⟨_, rfl⟩
  have u0 : 0 ≤ u := hu ▸ N_nonneg _ _
  have v0 : 0 ≤ v := hv ▸ N_nonneg _ _
  rw [← N_sq n (driven c fb h), ← N_sq n V, ← N_sq (min n F) V, ← hu, ← hv] at out
  rw [← hu, ← hv] at V2
  rw [← hv] at early
  rw [← hu]
  have S2 : swell η g ^ 2 = 1 + η / (1 - g * Real.sqrt (1 + η)) ^ 2 := Real.sq_sqrt (by positivity)
  have S0 : 1 ≤ swell η g := Real.le_sqrt_of_sq_le (by have : 0 ≤ η / (1 - g * Real.sqrt (1 + η)) ^ 2 := by positivity
                                                       linarith)
  have y1 : N n (sig fun i => (h i).dampLine) ≤ swell η g * (u + g * v) + v := by
    refine Real.sqrt_le_iff.2 ⟨by positivity, out.trans ?_⟩
    have V3 : N n V ^ 2 ≤ (u + g * v) ^ 2 / (1 - g * Real.sqrt (1 + η)) ^ 2 := by
      rw [le_div_iff₀ (by positivity)]
      exact V2
    have V4 : η * N n V ^ 2 ≤ (swell η g ^ 2 - 1) * (u + g * v) ^ 2 := by
      refine (mul_le_mul_of_nonneg_left V3 η0).trans (le_of_eq ?_)
      rw [S2]
      ring
    have : u ^ 2 ≤ (u + g * v) ^ 2 := pow_le_pow_left₀ u0 (by have := mul_nonneg g0 v0; linarith) 2
    have : 0 ≤ swell η g * (u + g * v) * v := by positivity
    nlinarith
  have y2 : swell η g * (g * v) + v ≤ 2 * swell η g * v := by
    have h1 : swell η g * (g * v) ≤ swell η g * v := mul_le_mul_of_nonneg_left (mul_le_of_le_one_left v0 hg1.le) (by linarith)
    have h2 : v ≤ swell η g * v := le_mul_of_one_le_left v0 S0
    linarith
  have y3 : 2 * swell η g * v ≤ 2 * swell η g / (1 - g) * N (min n F) (driven c fb h) := by
    refine (mul_le_mul_of_nonneg_left early (by linarith)).trans (le_of_eq ?_)
    ring
  linarith

end

end Verif.FVerbDSP
