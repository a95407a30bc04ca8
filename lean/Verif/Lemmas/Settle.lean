import Verif.Lemmas.Stream
import Mathlib.Topology.Order.MonotoneConvergence
import Mathlib.Topology.Algebra.Order.LiminfLimsup

/-!
# Recursions that follow a settling input
-/

namespace Verif

open Filter Topology

/-- In the long run `x` stays within `B` of `y` (up to any margin): `limsup |x n - y| ≤ B`. -/
def Near (x : ℕ → ℝ) (y B : ℝ) : Prop := ∀ ε > 0, ∀ᶠ n in atTop, |x n - y| ≤ B + ε

theorem near_zero {x : ℕ → ℝ} {y : ℝ} : Near x y 0 ↔ Tendsto x atTop (𝓝 y) := by
  rw [Metric.tendsto_atTop]
  constructor
  · intro h ε hε
    obtain ⟨N, hN⟩ := eventually_atTop.1 (h (ε / 2) (by positivity))
    exact ⟨N, fun n hn => by rw [Real.dist_eq]; have := hN n hn; linarith⟩
  · intro h ε hε
    obtain ⟨N, hN⟩ := h ε hε
    exact eventually_atTop.2 ⟨N, fun n hn => by have := hN n hn; rw [Real.dist_eq] at this; linarith⟩

theorem Near.of_le {x : ℕ → ℝ} {y B : ℝ} (h : ∀ n, |x n - y| ≤ B) : Near x y B := fun ε hε => Eventually.of_forall fun n => by
  linarith [h n]

theorem Near.shift {x : ℕ → ℝ} {y B : ℝ} (h : Near x y B) : Near (fun n => x (n + 1)) y B := fun ε hε => by
  obtain ⟨N, hN⟩ := eventually_atTop.1 (h ε hε)
  exact eventually_atTop.2 ⟨N, fun n hn => hN _ (by omega)⟩

theorem Near.unshift {x : ℕ → ℝ} {y B : ℝ} (h : Near (fun n => x (n + 1)) y B) : Near x y B := fun ε hε => by
  obtain ⟨N, hN⟩ := eventually_atTop.1 (h ε hε)
  exact eventually_atTop.2 ⟨N + 1, fun n hn => by
    have := hN (n - 1) (by omega)
    simp only [Nat.sub_add_cancel (show 1 ≤ n by omega)] at this; exact this⟩

theorem Near.add {x z : ℕ → ℝ} {y w B C : ℝ} (h : Near x y B) (k : Near z w C) : Near (fun n => x n + z n) (y + w) (B + C) := fun ε hε => by
  filter_upwards [h (ε / 2) (by positivity), k (ε / 2) (by positivity)] with n h1 h2
  rw [show x n + z n - (y + w) = (x n - y) + (z n - w) by ring]
  exact (abs_add_le _ _).trans (by linarith)

theorem Near.mul {x : ℕ → ℝ} {y B : ℝ} (a : ℝ) (h : Near x y B) : Near (fun n => a * x n) (a * y) (|a| * B) := fun ε hε => by
  have p : 0 < |a| + 1 := by positivity
  filter_upwards [h (ε / (|a| + 1)) (by positivity)] with n h1
  rw [← mul_sub, abs_mul]
  refine (mul_le_mul_of_nonneg_left h1 (abs_nonneg _)).trans ?_
  have : |a| * (ε / (|a| + 1)) ≤ ε := by
    rw [mul_div_assoc', div_le_iff₀ p]; nlinarith [abs_nonneg a]
  linarith

theorem Near.mono {x : ℕ → ℝ} {y B C : ℝ} (h : Near x y B) (hBC : B ≤ C) : Near x y C := fun ε hε => by
  filter_upwards [h ε hε] with n hn
  linarith

theorem Near.nonneg {x : ℕ → ℝ} {y B : ℝ} (h : Near x y B) : 0 ≤ B := by
  by_contra hB
  obtain ⟨n, hn⟩ := (h (-B / 2) (by linarith)).exists
  linarith [abs_nonneg (x n - y)]

theorem Near.congr {x : ℕ → ℝ} {y B y' B' : ℝ} (h : Near x y B) (e : y = y') (f : B = B') : Near x y' B' := e ▸ f ▸ h

/-- A stable first-order recursion passes the closeness of its input on. -/
theorem Near.linear {a b c y B : ℝ} (ha : |a| < 1) (z x : ℕ → ℝ) (hz : ∀ n, z (n + 1) = a * z n + b * x n) (hy : y = a * y + b * c)
    (hx : Near x c B) : Near z y (|b| * B / (1 - |a|)) := by
  have h1 : 0 < 1 - |a| := by linarith
  intro ε hε
  obtain ⟨N, hN⟩ := eventually_atTop.1 (hx.mul b (ε / 2 * (1 - |a|)) (by positivity))
  have key : ∀ k, |z (N + k) - y| ≤ |a| ^ k * |z N - y| + (|b| * B / (1 - |a|) + ε / 2) * (1 - |a| ^ k) := by
    intro k
    induction k with
    | zero => simp
    | succ k ih =>
      have hd := hN (N + k) (by omega)
      rw [show N + (k + 1) = N + k + 1 by ring, hz]
      calc |a * z (N + k) + b * x (N + k) - y| = |a * (z (N + k) - y) + (b * x (N + k) - b * c)| := by
            congr 1; linear_combination -hy
        _ ≤ |a| * |z (N + k) - y| + |b * x (N + k) - b * c| := by rw [← abs_mul]; exact abs_add_le _ _
        _ ≤ |a| * (|a| ^ k * |z N - y| + (|b| * B / (1 - |a|) + ε / 2) * (1 - |a| ^ k)) + (|b| * B + ε / 2 * (1 - |a|)) :=
            add_le_add (mul_le_mul_of_nonneg_left ih (abs_nonneg _)) hd
        _ = |a| ^ (k + 1) * |z N - y| + (|b| * B / (1 - |a|) + ε / 2) * (1 - |a| ^ (k + 1)) := by
            field_simp; ring
  obtain ⟨D, hD⟩ : ∃ D, D = |b| * B / (1 - |a|) + ε / 2 := ⟨_, rfl⟩
  rw [← hD] at key
  have h0 : Tendsto (fun k => |a| ^ k * |z N - y| + D * (1 - |a| ^ k)) atTop (𝓝 (0 * |z N - y| + D * (1 - 0))) := by
    have := tendsto_pow_atTop_nhds_zero_of_lt_one (abs_nonneg a) ha
    exact (this.mul_const _).add ((tendsto_const_nhds.sub this).const_mul D)
  have h2 : ∀ᶠ k in atTop, |a| ^ k * |z N - y| + D * (1 - |a| ^ k) < |b| * B / (1 - |a|) + ε :=
    h0.eventually_lt_const (by rw [hD]; linarith)
  obtain ⟨K, hK⟩ := eventually_atTop.1 h2
  refine eventually_atTop.2 ⟨N + K, fun n hn => ?_⟩
  have h3 := key (n - N)
  have h4 := hK (n - N) (by omega)
  rw [show N + (n - N) = n by omega] at h3
  linarith

/-- A first-order low-pass `z' = (1 - g) z + g x` keeps closeness. -/
theorem Near.lowpass {g c B : ℝ} (g0 : 0 < g) (g1 : g ≤ 1) (z x : ℕ → ℝ) (hz : ∀ n, z (n + 1) = (1 - g) * z n + g * x n) (hx : Near x c B) :
    Near z c B := by
  have h := Near.linear (a := 1 - g) (b := g) (c := c) (y := c) (by rw [abs_of_nonneg (by linarith)]; linarith) z x hz (by ring) hx
  refine h.congr rfl ?_
  rw [abs_of_nonneg (by linarith : 0 ≤ 1 - g), abs_of_nonneg g0.le, show 1 - (1 - g) = g by ring, mul_div_cancel_left₀ _ g0.ne']

/-- Small-gain theorem: a quantity that a loop brings closer to `y` by a factor below one settles at `y`. -/
theorem small_gain {κ y B₀ : ℝ} {x : ℕ → ℝ} (k0 : 0 ≤ κ) (k1 : κ < 1) (h0 : Near x y B₀) (h : ∀ B, Near x y B → Near x y (κ * B)) :
    Tendsto x atTop (𝓝 y) := by
  have key : ∀ m : ℕ, Near x y (κ ^ m * B₀) := by
    intro m
    induction m with
    | zero => simpa using h0
    | succ m ih => rw [pow_succ', mul_assoc]; exact h _ ih
  rw [← near_zero]
  intro ε hε
  have hl : Tendsto (fun m => κ ^ m * B₀) atTop (𝓝 0) := by
    simpa using (tendsto_pow_atTop_nhds_zero_of_lt_one k0 k1).mul_const B₀
  obtain ⟨m, hm⟩ := (hl.eventually_lt_const (show (0:ℝ) < ε / 2 by positivity)).exists
  filter_upwards [key m (ε / 2) (by positivity)] with n hn
  linarith

section monotone

variable {T : ℝ → ℝ} {k : ℝ}

/-- The recursion `p' = p + (T q - T p) k` ends up below every level its input ends up below. -/
theorem ends_below (hT : ∀ x y, x ≤ y → 0 ≤ T y - T x ∧ T y - T x ≤ y - x) (hinj : Function.Injective T) (k0 : 0 < k) (k1 : k ≤ 1)
    (p q : ℕ → ℝ) (hp : ∀ n, p (n + 1) = p n + (T (q n) - T (p n)) * k) (d : ℝ) (N : ℕ) (hq : ∀ n, N ≤ n → q n ≤ d) (ε : ℝ) (hε : 0 < ε) :
    ∃ M, ∀ n, M ≤ n → p n ≤ d + ε := by
  obtain ⟨F, hF⟩ : ∃ F : ℝ → ℝ, F = fun u => u + (T d - T u) * k := ⟨_, rfl⟩
  obtain ⟨u, hu⟩ : ∃ u : ℕ → ℝ, u = fun m => F^[m] (max (p N) d) := ⟨_, rfl⟩
  have us : ∀ m, u (m + 1) = u m + (T d - T (u m)) * k := by
    intro m; rw [hu]; simp only [Function.iterate_succ_apply']; rw [hF]
  have hd : ∀ m, d ≤ u m := by
    intro m
    induction m with
    | zero => rw [hu]; exact le_max_right _ _
    | succ m ih => rw [us]; have := hT d (u m) ih; nlinarith
  have hanti : Antitone u := antitone_nat_of_succ_le fun m => by
    rw [us]; have := hT d (u m) (hd m); nlinarith
  have hle : ∀ m, p (N + m) ≤ u m := by
    intro m
    induction m with
    | zero => rw [hu]; exact le_max_left _ _
    | succ m ih =>
      rw [show N + (m + 1) = N + m + 1 by ring, hp, us]
      have h1 := hT (p (N + m)) (u m) ih
      have h2 := hT (q (N + m)) d (hq _ (by omega))
      nlinarith
  have hlim := tendsto_atTop_ciInf hanti ⟨d, by rintro _ ⟨m, rfl⟩; exact hd m⟩
  set L := ⨅ i, u i with hL
  have hcont : Continuous T := by
    have : LipschitzWith 1 T := LipschitzWith.of_dist_le_mul fun x y => by
      rw [Real.dist_eq, Real.dist_eq, NNReal.coe_one, one_mul]
      rcases le_total x y with h | h
      · have := hT x y h
        rw [abs_sub_comm, abs_of_nonneg this.1, abs_sub_comm, abs_of_nonneg (by linarith)]; exact this.2
      · have := hT y x h
        rw [abs_of_nonneg this.1, abs_of_nonneg (by linarith)]; exact this.2
    exact this.continuous
  have h2 : Tendsto (fun m => u m + (T d - T (u m)) * k) atTop (𝓝 (L + (T d - T L) * k)) :=
    hlim.add (((tendsto_const_nhds.sub ((hcont.tendsto L).comp hlim)).mul_const k))
  have h3 : Tendsto (fun m => u (m + 1)) atTop (𝓝 L) := (tendsto_add_atTop_iff_nat 1).2 hlim
  have h4 : L = L + (T d - T L) * k := by
    refine tendsto_nhds_unique h3 ?_
    simp only [us]; exact h2
  have h5 : T d = T L := by
    have : (T d - T L) * k = 0 := by linarith
    rcases mul_eq_zero.1 this with h | h
    · linarith
    · exact absurd h k0.ne'
  rw [← hinj h5] at hlim
  obtain ⟨K, hK⟩ := Metric.tendsto_atTop.1 hlim ε hε
  refine ⟨N + K, fun n hn => ?_⟩
  have a := hle (n - N)
  rw [show N + (n - N) = n by omega] at a
  have b := hK (n - N) (by omega)
  rw [Real.dist_eq, abs_lt] at b
  linarith [b.2]

/-- The recursion `p' = p + (T q - T p) k` passes the closeness of its input on. -/
theorem Near.monotone (hT : ∀ x y, x ≤ y → 0 ≤ T y - T x ∧ T y - T x ≤ y - x) (hinj : Function.Injective T) (k0 : 0 < k) (k1 : k ≤ 1)
    (p q : ℕ → ℝ) (hp : ∀ n, p (n + 1) = p n + (T (q n) - T (p n)) * k) {c B : ℝ} (hq : Near q c B) : Near p c B := by
  intro ε hε
  obtain ⟨N, hN⟩ := eventually_atTop.1 (hq (ε / 4) (by positivity))
  have hb : ∀ n, N ≤ n → q n ≤ c + B + ε / 4 ∧ c - B - ε / 4 ≤ q n := by
    intro n hn
    have := abs_le.1 (hN n hn)
    constructor <;> linarith [this.1, this.2]
  obtain ⟨M1, h1⟩ := ends_below hT hinj k0 k1 p q hp (c + B + ε / 4) N (fun n hn => (hb n hn).1) (ε / 4) (by positivity)
  obtain ⟨M2, h2⟩ := ends_below (T := fun x => -T (-x)) (k := k)
    (fun x y h => by have := hT (-y) (-x) (by linarith); constructor <;> linarith [this.1, this.2])
    (fun x y h => by
      have h' : T (-x) = T (-y) := by simpa using h
      simpa using hinj h')
    k0 k1 (fun n => -p n) (fun n => -q n) (fun n => by simp only [neg_neg]; rw [hp]; ring) (-c + B + ε / 4) N
    (fun n hn => by linarith [(hb n hn).2]) (ε / 4) (by positivity)
  refine eventually_atTop.2 ⟨max M1 M2, fun n hn => ?_⟩
  have a := h1 n (le_trans (le_max_left _ _) hn)
  have b := h2 n (le_trans (le_max_right _ _) hn)
  rw [abs_le]
  constructor <;> linarith

end monotone

end Verif
