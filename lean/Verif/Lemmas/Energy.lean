import Mathlib.Analysis.InnerProductSpace.PiL2
import Mathlib.Algebra.Order.BigOperators.Group.Finset
import Mathlib.Tactic.Linarith
import Mathlib.Tactic.Positivity
import Mathlib.Tactic.LinearCombination

/-!
# Energy of signals: delays, allpasses with drifting coefficient, one-pole lowpasses with drifting coefficient

A signal is a function on `ℤ`; the sums run over the samples `0 … n-1`.
-/

namespace Verif.Energy

/-- The energy of the first `n` samples. -/
noncomputable def E (n : ℕ) (f : ℤ → ℝ) : ℝ := ∑ t ∈ Finset.range n, f t ^ 2

/-- Its square root. -/
noncomputable def N (n : ℕ) (f : ℤ → ℝ) : ℝ := Real.sqrt (E n f)

theorem E_nonneg (n : ℕ) (f : ℤ → ℝ) : 0 ≤ E n f := Finset.sum_nonneg fun _ _ => sq_nonneg _

theorem N_nonneg (n : ℕ) (f : ℤ → ℝ) : 0 ≤ N n f := Real.sqrt_nonneg _

theorem N_sq (n : ℕ) (f : ℤ → ℝ) : N n f ^ 2 = E n f := Real.sq_sqrt (E_nonneg n f)

theorem E_mono {n : ℕ} {f g : ℤ → ℝ} (h : ∀ t : ℕ, t < n → |f t| ≤ |g t|) : E n f ≤ E n g :=
  Finset.sum_le_sum fun t ht => sq_le_sq.2 (h t (Finset.mem_range.1 ht))

theorem N_mono {n : ℕ} {f g : ℤ → ℝ} (h : ∀ t : ℕ, t < n → |f t| ≤ |g t|) : N n f ≤ N n g :=
  Real.sqrt_le_sqrt (E_mono h)

theorem E_congr {n : ℕ} {f g : ℤ → ℝ} (h : ∀ t : ℕ, t < n → f t = g t) : E n f = E n g :=
  Finset.sum_congr rfl fun t ht => by rw [h t (Finset.mem_range.1 ht)]

theorem N_congr {n : ℕ} {f g : ℤ → ℝ} (h : ∀ t : ℕ, t < n → f t = g t) : N n f = N n g := by
  unfold N; rw [E_congr h]

theorem E_le_of_le {m n : ℕ} (h : m ≤ n) (f : ℤ → ℝ) : E m f ≤ E n f :=
  Finset.sum_le_sum_of_subset_of_nonneg (Finset.range_mono h) fun _ _ _ => sq_nonneg _

theorem N_le_of_le {m n : ℕ} (h : m ≤ n) (f : ℤ → ℝ) : N m f ≤ N n f := Real.sqrt_le_sqrt (E_le_of_le h f)

theorem N_eq_norm (n : ℕ) (f : ℤ → ℝ) : N n f = ‖WithLp.toLp 2 (fun i : Fin n => f (i : ℕ))‖ := by
  rw [EuclideanSpace.norm_eq]
  unfold N E
  congr 1
  rw [← Fin.sum_univ_eq_sum_range (fun t => f t ^ 2) n]
  exact Finset.sum_congr rfl fun i _ => by simp

theorem N_add (n : ℕ) (f g : ℤ → ℝ) : N n (fun t => f t + g t) ≤ N n f + N n g := by
  rw [N_eq_norm, N_eq_norm, N_eq_norm]
  exact norm_add_le (WithLp.toLp 2 (fun i : Fin n => f (i : ℕ))) (WithLp.toLp 2 (fun i : Fin n => g (i : ℕ)))

theorem N_mul {n : ℕ} {c : ℝ} (hc : 0 ≤ c) {a f : ℤ → ℝ} (h : ∀ t : ℕ, t < n → |a t| ≤ c) :
    N n (fun t => a t * f t) ≤ c * N n f := by
  have h1 : E n (fun t => a t * f t) ≤ c ^ 2 * E n f := by
    unfold E
    rw [Finset.mul_sum]
    refine Finset.sum_le_sum fun t ht => ?_
    rw [mul_pow]
    exact mul_le_mul_of_nonneg_right (sq_le_sq.2 ((h t (Finset.mem_range.1 ht)).trans (le_abs_self c))) (sq_nonneg _)
  calc N n (fun t => a t * f t) ≤ Real.sqrt (c ^ 2 * E n f) := Real.sqrt_le_sqrt h1
    _ = c * N n f := by rw [Real.sqrt_mul (sq_nonneg c), Real.sqrt_sq hc]; rfl

/-- From an energy bound to a bound of the square roots. -/
theorem N_le_of_E {n m : ℕ} {f g : ℤ → ℝ} {c : ℝ} (hc : 0 ≤ c) (h : E n f ≤ c ^ 2 * E m g) : N n f ≤ c * N m g := by
  calc N n f ≤ Real.sqrt (c ^ 2 * E m g) := Real.sqrt_le_sqrt h
    _ = c * N m g := by rw [Real.sqrt_mul (sq_nonneg c), Real.sqrt_sq hc]; rfl

/-- A weighted sum delayed against weights that do not grow. -/
theorem shift_sum (n d : ℕ) {a : ℕ → ℝ} (ha : ∀ t, 0 ≤ a t) (hm : Antitone a) {f : ℤ → ℝ} (h0 : ∀ t, t < 0 → f t = 0) :
    ∑ t ∈ Finset.range n, a t * f (t - d) ^ 2 ≤ ∑ t ∈ Finset.range n, a t * f t ^ 2 := by
  rcases le_total n d with hd | hd
  · rw [Finset.sum_eq_zero]
    · exact Finset.sum_nonneg fun t _ => mul_nonneg (ha t) (sq_nonneg _)
    · intro t ht
      have := Finset.mem_range.1 ht
      rw [h0 _ (by omega)]
      ring
  · obtain ⟨m, rfl⟩ := Nat.exists_eq_add_of_le' hd
    have h1 : ∑ t ∈ Finset.range (m + d), a t * f (t - d) ^ 2 = ∑ t ∈ Finset.range m, a (t + d) * f t ^ 2 := by
      rw [add_comm m d, Finset.sum_range_add, Finset.sum_eq_zero, zero_add]
      · refine Finset.sum_congr rfl fun t _ => ?_
        rw [add_comm d t]
        push_cast
        rw [add_sub_cancel_right]
      · intro t ht
        have := Finset.mem_range.1 ht
        rw [h0 _ (by omega)]
        ring
    rw [h1]
    refine le_trans (Finset.sum_le_sum (g := fun t => a t * f t ^ 2) fun t _ => ?_)
      (Finset.sum_le_sum_of_subset_of_nonneg (Finset.range_mono (by omega)) fun t _ _ => mul_nonneg (ha t) (sq_nonneg _))
    exact mul_le_mul_of_nonneg_right (hm (by omega)) (sq_nonneg _)

theorem E_shift (n d : ℕ) {f : ℤ → ℝ} (h0 : ∀ t, t < 0 → f t = 0) : E n (fun t => f (t - d)) ≤ E n f := by
  have := shift_sum n d (a := fun _ => 1) (fun _ => zero_le_one) (fun _ _ _ => le_rfl) h0
  simpa [E] using this

theorem N_shift (n : ℕ) {d : ℤ} (hd : 0 ≤ d) {f : ℤ → ℝ} (h0 : ∀ t, t < 0 → f t = 0) : N n (fun t => f (t - d)) ≤ N n f := by
  obtain ⟨d, rfl⟩ := Int.eq_ofNat_of_zero_le hd
  exact Real.sqrt_le_sqrt (E_shift n d h0)

/-- An allpass whose coefficient only grows in absolute value, with whatever is in its loop delivering at most `X` more (weighted) energy
than was put in: it delivers at most `X` more than it receives. -/
theorem allpass_E {n : ℕ} {g : ℕ → ℝ} {u v w y : ℤ → ℝ} {X : ℝ} (hv : ∀ t : ℕ, t < n → v t = u t + g t * w t)
    (hy : ∀ t : ℕ, t < n → y t = w t - g t * v t)
    (hX : ∑ t ∈ Finset.range n, (1 - g t ^ 2) * w t ^ 2 ≤ ∑ t ∈ Finset.range n, (1 - g t ^ 2) * v t ^ 2 + X) : E n y ≤ E n u + X := by
  have h : E n y - E n u = ∑ t ∈ Finset.range n, (1 - g t ^ 2) * w t ^ 2 - ∑ t ∈ Finset.range n, (1 - g t ^ 2) * v t ^ 2 := by
    unfold E
    rw [← Finset.sum_sub_distrib, ← Finset.sum_sub_distrib]
    refine Finset.sum_congr rfl fun t ht => ?_
    rw [hy t (Finset.mem_range.1 ht), show u t = v t - g t * w t from by rw [hv t (Finset.mem_range.1 ht)]; ring]
    ring
  linarith

/-- An allpass with a plain delay in its loop. -/
theorem allpass_N {n : ℕ} {g : ℕ → ℝ} (hg : ∀ t, g t ^ 2 ≤ 1) (hm : Monotone fun t => g t ^ 2) {d : ℤ} (hd : 0 ≤ d) {u v y : ℤ → ℝ}
    (h0 : ∀ t, t < 0 → v t = 0) (hv : ∀ t : ℕ, t < n → v t = u t + g t * v (t - d)) (hy : ∀ t : ℕ, t < n → y t = v (t - d) - g t * v t) :
    N n y ≤ N n u := by
  obtain ⟨d, rfl⟩ := Int.eq_ofNat_of_zero_le hd
  refine Real.sqrt_le_sqrt ?_
  have := allpass_E (X := 0) (w := fun t => v (t - d)) hv hy
    (by rw [add_zero]; exact shift_sum n d (a := fun t => 1 - g t ^ 2) (fun t => by linarith [hg t]) (fun a b hab => by linarith [hm hab]) h0)
  linarith

/-- How the coefficient of a smoothed lowpass moves. -/
structure Drift (c : ℝ) (p : ℕ → ℝ) : Prop where
  c0 : 0 ≤ c
  c1 : c < 1 / 2
  p0 : ∀ t, 0 ≤ p t
  p1 : ∀ t, p t ≤ 1
  up : ∀ t, p t ≤ p (t + 1)
  twice : ∀ t, p (t + 1) - p t ≤ p t
  slow : ∀ t, p (t + 1) - p t ≤ c
  room : ∀ t, (1 - c) * (1 - p t) ≤ 1 - p (t + 1)

theorem Drift.mono {c : ℝ} {p : ℕ → ℝ} (D : Drift c p) : Monotone p := monotone_nat_of_le_succ D.up

/-- One step of the lowpass: what comes out and what is stored, against what goes in and what was stored. -/
theorem lowpass_step {c p q s s' : ℝ} (c0 : 0 ≤ c) (c1 : c < 1 / 2) (q0 : 0 ≤ q) (p1 : p ≤ 1) (up : q ≤ p) (tw : p - q ≤ q) (sl : p - q ≤ c)
    (rm : (1 - c) * (1 - q) ≤ 1 - p) :
    ((1 - p) * s') ^ 2 + p * (1 - p) * s' ^ 2 ≤ (1 + c / (1 / 2 - c)) * (s' - p * s) ^ 2 + q * (1 - q) * s ^ 2 := by
  have hd : 0 < 1 / 2 - c := by linarith
  obtain ⟨e, he⟩ : ∃ e, e = c / (1 / 2 - c) := ⟨_, rfl⟩
  rw [← he]
  have e0 : 0 ≤ e := by rw [he]; positivity
  have ec : e * (1 / 2 - c) = c := by rw [he]; exact div_mul_cancel₀ c hd.ne'
  have p0 : 0 ≤ p := q0.trans up
  -- the discriminant
  have key : (p * (1 - p) - q * (1 - q)) * (e + p) ≤ e * p * (1 - p) ^ 2 := by
    have h1 : p * (1 - p) - q * (1 - q) ≤ (p - q) * ((1 - p) * (1 - q)) := by nlinarith [mul_nonneg (sub_nonneg.2 up) (mul_nonneg p0 q0)]
    have h2 : (p - q) * (e + p) ≤ e * p * (1 - c) := by
      have a : (p - q) * e ≤ p / 2 * e := mul_le_mul_of_nonneg_right (by linarith) e0
      have b : (p - q) * p ≤ c * p := mul_le_mul_of_nonneg_right sl p0
      have d : e * p * (1 - c) = p / 2 * e + c * p := by linear_combination p * ec
      linarith
    have q1 : 0 ≤ 1 - q := by linarith
    have hp : 0 ≤ 1 - p := by linarith
    have h3 : (p - q) * (e + p) * (1 - q) ≤ e * p * (1 - p) := by
      refine (mul_le_mul_of_nonneg_right h2 q1).trans ?_
      have := mul_le_mul_of_nonneg_left rm (mul_nonneg e0 p0)
      linarith
    have h4 := mul_le_mul_of_nonneg_right h3 hp
    have h5 := mul_le_mul_of_nonneg_right h1 (add_nonneg e0 p0)
    nlinarith
  have disc : 0 ≤ (e + p) * ((1 + e) * p ^ 2 + q * (1 - q)) - ((1 + e) * p) ^ 2 := by
    have : (e + p) * ((1 + e) * p ^ 2 + q * (1 - q)) - ((1 + e) * p) ^ 2
        = e * p * (1 - p) ^ 2 - (p * (1 - p) - q * (1 - q)) * (e + p) := by ring
    rw [this]; linarith
  have form : (1 + e) * (s' - p * s) ^ 2 + q * (1 - q) * s ^ 2 - (((1 - p) * s') ^ 2 + p * (1 - p) * s' ^ 2)
      = (e + p) * s' ^ 2 - 2 * ((1 + e) * p) * s' * s + ((1 + e) * p ^ 2 + q * (1 - q)) * s ^ 2 := by ring
  rcases (add_nonneg e0 p0).eq_or_lt with hz | hA
  · have hp : p = 0 := by linarith
    have hq : q = 0 := by linarith
    subst hp
    subst hq
    nlinarith [sq_nonneg s']
  · have h6 : 0 ≤ (e + p) * ((e + p) * s' ^ 2 - 2 * ((1 + e) * p) * s' * s + ((1 + e) * p ^ 2 + q * (1 - q)) * s ^ 2) := by
      have : (e + p) * ((e + p) * s' ^ 2 - 2 * ((1 + e) * p) * s' * s + ((1 + e) * p ^ 2 + q * (1 - q)) * s ^ 2)
          = ((e + p) * s' - (1 + e) * p * s) ^ 2 + ((e + p) * ((1 + e) * p ^ 2 + q * (1 - q)) - ((1 + e) * p) ^ 2) * s ^ 2 := by ring
      rw [this]
      exact add_nonneg (sq_nonneg _) (mul_nonneg disc (sq_nonneg _))
    have h7 := nonneg_of_mul_nonneg_right h6 hA
    linarith

/-- A lowpass with a smoothed coefficient hardly adds energy. -/
theorem lowpass_E {c : ℝ} {p : ℕ → ℝ} (D : Drift c p) {s y : ℤ → ℝ} (h0 : s (-1) = 0) (n : ℕ)
    (hs : ∀ t : ℕ, t < n → s t = y t + p t * s (t - 1)) :
    E n (fun t => (1 - p t.toNat) * s t) ≤ (1 + c / (1 / 2 - c)) * E n y := by
  have hd : 0 < 1 / 2 - c := by linarith [D.c1]
  have e0 : 0 ≤ c / (1 / 2 - c) := div_nonneg D.c0 hd.le
  have main : ∀ m, m + 1 ≤ n → E (m + 1) (fun t => (1 - p t.toNat) * s t) + p m * (1 - p m) * s m ^ 2 ≤ (1 + c / (1 / 2 - c)) * E (m + 1) y := by
    intro m
    induction m with
    | zero =>
      intro hm
      have h := hs 0 (by omega)
      simp only [Nat.cast_zero, zero_sub, h0, mul_zero, add_zero] at h
      simp only [E, zero_add, Finset.sum_range_one, Nat.cast_zero, Int.toNat_zero, h]
      have := D.p0 0
      have := D.p1 0
      nlinarith [mul_nonneg e0 (sq_nonneg (y 0)), mul_nonneg (D.p0 0) (sq_nonneg (y 0))]
    | succ m ih =>
      intro hm
      have h := ih (by omega)
      have e := hs (m + 1) (by omega)
      have := lowpass_step (s := s m) (s' := s (m + 1 : ℕ)) D.c0 D.c1 (D.p0 m) (D.p1 (m + 1)) (D.up m) (D.twice m) (D.slow m) (D.room m)
      rw [show s ((m + 1 : ℕ) : ℤ) - p (m + 1) * s m = y (m + 1 : ℕ) by
        rw [e]; push_cast; rw [add_sub_cancel_right]; ring] at this
      simp only [E, Int.toNat_natCast] at h ⊢
      rw [Finset.sum_range_succ, Finset.sum_range_succ (n := m + 1) (f := fun t : ℕ => y t ^ 2), mul_add]
      linarith
  cases n with
  | zero => simp [E]
  | succ m =>
    have := main m le_rfl
    have h1 := mul_nonneg (mul_nonneg (D.p0 m) (sub_nonneg.2 (D.p1 m))) (sq_nonneg (s m))
    linarith

end Verif.Energy
