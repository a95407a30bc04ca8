import Verif.Lemmas.Energy

/-!
# Energy read from a delay line through a crossfade of two moving taps

Tap A has weight `1 - x`, tap B has weight `x`; each tap moves only while it has no weight. How often a sample of the line is read, counted
with the weights.
-/

namespace Verif.Energy

/-- Two taps at the delays `a` and `b`, faded by `x`. -/
structure Taps (c : ℝ) (x : ℕ → ℝ) (a b : ℕ → ℤ) : Prop where
  x0 : ∀ t, 0 ≤ x t
  x1 : ∀ t, x t ≤ 1
  slow : ∀ t, |x (t + 1) - x t| ≤ c
  stayA : ∀ t, x t < 1 → a (t + 1) = a t
  stayB : ∀ t, 0 < x t → b (t + 1) = b t
  /-- between two moments of full weight of B, when A had some, A had it all -/
  dip : ∀ p r q, p < r → r < q → x p = 1 → x r < 1 → x q = 1 → ∃ z, p < z ∧ z < q ∧ x z = 0
  bump : ∀ p r q, p < r → r < q → x p = 0 → 0 < x r → x q = 0 → ∃ z, p < z ∧ z < q ∧ x z = 1

theorem Taps.swap {c : ℝ} {x : ℕ → ℝ} {a b : ℕ → ℤ} (T : Taps c x a b) : Taps c (fun t => 1 - x t) b a where
  x0 t := by linarith [T.x1 t]
  x1 t := by linarith [T.x0 t]
  slow t := by
    have h := T.slow t
    rw [abs_sub_comm] at h
    rwa [show 1 - x (t + 1) - (1 - x t) = x t - x (t + 1) by ring]
  stayA t h := T.stayB t (by linarith)
  stayB t h := T.stayA t (by linarith)
  dip p r q h1 h2 e1 e2 e3 := by
    obtain ⟨z, z1, z2, e⟩ := T.bump p r q h1 h2 (by linarith) (by linarith) (by linarith)
    exact ⟨z, z1, z2, by linarith⟩
  bump p r q h1 h2 e1 e2 e3 := by
    obtain ⟨z, z1, z2, e⟩ := T.dip p r q h1 h2 (by linarith) (by linarith) (by linarith)
    exact ⟨z, z1, z2, by linarith⟩

theorem Taps.lip {c : ℝ} {x : ℕ → ℝ} {a b : ℕ → ℤ} (T : Taps c x a b) (s j : ℕ) : |x (s + j) - x s| ≤ c * j := by
  induction j with
  | zero => simp
  | succ j ih =>
    have h := T.slow (s + j)
    rw [show s + (j + 1) = s + j + 1 by ring]
    push_cast
    calc |x (s + j + 1) - x s| = |(x (s + j + 1) - x (s + j)) + (x (s + j) - x s)| := by congr 1; ring
      _ ≤ c + c * j := (abs_add_le _ _).trans (add_le_add h ih)
      _ = c * (j + 1) := by ring

theorem Taps.lip' {c : ℝ} {x : ℕ → ℝ} {a b : ℕ → ℤ} (T : Taps c x a b) {s t : ℕ} (h : s ≤ t) : |x t - x s| ≤ c * ((t : ℝ) - s) := by
  obtain ⟨j, rfl⟩ := Nat.exists_eq_add_of_le h
  have := T.lip s j
  push_cast
  rwa [add_sub_cancel_left]

theorem Taps.c0 {c : ℝ} {x : ℕ → ℝ} {a b : ℕ → ℤ} (T : Taps c x a b) : 0 ≤ c := (abs_nonneg _).trans (T.slow 0)

theorem Taps.constA {c : ℝ} {x : ℕ → ℝ} {a b : ℕ → ℤ} (T : Taps c x a b) {s t : ℕ} (h : s ≤ t) (hx : ∀ r, s ≤ r → r < t → x r < 1) :
    a t = a s := by
  obtain ⟨j, rfl⟩ := Nat.exists_eq_add_of_le h
  clear h
  induction j with
  | zero => rfl
  | succ j ih =>
    rw [← add_assoc, T.stayA _ (hx (s + j) (by omega) (by omega))]
    exact ih fun r h1 h2 => hx r h1 (by omega)

/-- A set of times at which a sample is read by a tap, each at another distance unless the tap moved: at most one time if it did not. -/
theorem sum_le_of_single {S : Finset ℕ} {f : ℕ → ℝ} {C : ℝ} (hC : 0 ≤ C) (h1 : ∀ s ∈ S, ∀ t ∈ S, s = t) (hf : ∀ s ∈ S, f s ≤ C) :
    ∑ s ∈ S, f s ≤ C := by
  rcases S.eq_empty_or_nonempty with rfl | ⟨s, hs⟩
  · simpa using hC
  · have : S = {s} := Finset.eq_singleton_iff_unique_mem.2 ⟨hs, fun t ht => h1 t ht s hs⟩
    rw [this, Finset.sum_singleton]
    exact hf s hs

/-- While B has full weight at some moment of the window. -/
theorem Taps.weights_top {c : ℝ} {x : ℕ → ℝ} {a b : ℕ → ℤ} (T : Taps c x a b) {lo hi : ℕ} (hw : c * ((hi : ℝ) - lo) < 1) {m : ℤ}
    {SA SB : Finset ℕ} (hA : ∀ t ∈ SA, lo ≤ t ∧ t ≤ hi ∧ x t < 1 ∧ t - a t = m) (hB : ∀ t ∈ SB, lo ≤ t ∧ t ≤ hi ∧ t - b t = m)
    {p : ℕ} (p1 : lo ≤ p) (p2 : p ≤ hi) (hp : x p = 1) :
    ∑ t ∈ SA, (1 - x t) + ∑ t ∈ SB, x t ≤ 1 + c * ((hi : ℝ) - lo) := by
  have c0 := T.c0
  have nz : ∀ q, lo ≤ q → q ≤ hi → 0 < x q := by
    intro q q1 q2
    refine (T.x0 q).lt_of_ne' fun hq => ?_
    have lq : (lo : ℝ) ≤ q := by exact_mod_cast q1
    have lp : (lo : ℝ) ≤ p := by exact_mod_cast p1
    have qh : (q : ℝ) ≤ hi := by exact_mod_cast q2
    have ph : (p : ℝ) ≤ hi := by exact_mod_cast p2
    rcases le_total p q with h | h
    · have := T.lip' h
      rw [hp, hq, zero_sub, abs_neg, abs_one] at this
      have := mul_le_mul_of_nonneg_left (show (q : ℝ) - p ≤ hi - lo by linarith) c0
      linarith
    · have := T.lip' h
      rw [hp, hq, sub_zero, abs_one] at this
      have := mul_le_mul_of_nonneg_left (show (p : ℝ) - q ≤ hi - lo by linarith) c0
      linarith
  have oneB : ∑ t ∈ SB, x t ≤ 1 := by
    refine sum_le_of_single zero_le_one ?_ fun t _ => T.x1 t
    have key : ∀ s ∈ SB, ∀ t ∈ SB, s ≤ t → s = t := by
      intro s hs t ht hst
      obtain ⟨s1, s2, s3⟩ := hB s hs
      obtain ⟨t1, t2, t3⟩ := hB t ht
      have : b t = b s := T.swap.constA hst fun r r1 r2 => by have := nz r (by omega) (by omega); linarith
      omega
    intro s hs t ht
    rcases le_total s t with h | h
    · exact key s hs t ht h
    · exact (key t ht s hs h).symm
  -- on either side of the moments of full weight A stays where it is
  have side : ∀ s t, lo ≤ s → s < t → t ≤ hi → x s < 1 → x t < 1 → a s ≠ a t → ∃ q, s < q ∧ q < t ∧ x q = 1 := by
    intro s t s1 st t2 xs xt hne
    by_contra hcon
    push Not at hcon
    refine hne (T.constA st.le fun r r1 r2 => ?_).symm
    rcases r1.eq_or_lt with rfl | r1
    · exact xs
    · exact (T.x1 r).lt_of_ne (hcon r r1 r2)
  have leftOne : ∀ s ∈ SA.filter (· < p), ∀ t ∈ SA.filter (· < p), s ≤ t → s = t := by
    intro s hs t ht hst
    obtain ⟨hs, sp⟩ := Finset.mem_filter.1 hs
    obtain ⟨ht, tp⟩ := Finset.mem_filter.1 ht
    obtain ⟨s1, s2, s3, s4⟩ := hA s hs
    obtain ⟨t1, t2, t3, t4⟩ := hA t ht
    by_contra hne
    obtain ⟨q, q1, q2, hq⟩ := side s t s1 (by omega) t2 s3 t3 (by omega)
    obtain ⟨z, z1, z2, hz⟩ := T.dip q t p q2 tp hq t3 hp
    have := nz z (by omega) (by omega)
    linarith
  have rightOne : ∀ s ∈ SA.filter (¬ · < p), ∀ t ∈ SA.filter (¬ · < p), s ≤ t → s = t := by
    intro s hs t ht hst
    obtain ⟨hs, sp⟩ := Finset.mem_filter.1 hs
    obtain ⟨ht, tp⟩ := Finset.mem_filter.1 ht
    obtain ⟨s1, s2, s3, s4⟩ := hA s hs
    obtain ⟨t1, t2, t3, t4⟩ := hA t ht
    by_contra hne
    obtain ⟨q, q1, q2, hq⟩ := side s t s1 (by omega) t2 s3 t3 (by omega)
    have : s ≠ p := fun e => by rw [e, hp] at s3; exact lt_irrefl _ s3
    obtain ⟨z, z1, z2, hz⟩ := T.dip p s q (by omega) q1 hp s3 hq
    have := nz z (by omega) (by omega)
    linarith
  have lp : (lo : ℝ) ≤ p := by exact_mod_cast p1
  have ph : (p : ℝ) ≤ hi := by exact_mod_cast p2
  have left : ∑ t ∈ SA.filter (· < p), (1 - x t) ≤ c * ((p : ℝ) - lo) := by
    refine sum_le_of_single (mul_nonneg c0 (by linarith)) (fun s hs t ht => ?_) fun t ht => ?_
    · rcases le_total s t with h | h
      · exact leftOne s hs t ht h
      · exact (leftOne t ht s hs h).symm
    · obtain ⟨ht, tp⟩ := Finset.mem_filter.1 ht
      obtain ⟨t1, t2, t3, t4⟩ := hA t ht
      have h := T.lip' tp.le
      rw [hp] at h
      have lt : (lo : ℝ) ≤ t := by exact_mod_cast t1
      have := mul_le_mul_of_nonneg_left (show (p : ℝ) - t ≤ p - lo by linarith) c0
      linarith [(abs_le.1 h).2]
  have right : ∑ t ∈ SA.filter (¬ · < p), (1 - x t) ≤ c * ((hi : ℝ) - p) := by
    refine sum_le_of_single (mul_nonneg c0 (by linarith)) (fun s hs t ht => ?_) fun t ht => ?_
    · rcases le_total s t with h | h
      · exact rightOne s hs t ht h
      · exact (rightOne t ht s hs h).symm
    · obtain ⟨ht, tp⟩ := Finset.mem_filter.1 ht
      obtain ⟨t1, t2, t3, t4⟩ := hA t ht
      have h := T.lip' (not_lt.1 tp)
      rw [hp] at h
      have lt : (t : ℝ) ≤ hi := by exact_mod_cast t2
      have := mul_le_mul_of_nonneg_left (show (t : ℝ) - p ≤ hi - p by linarith) c0
      linarith [(abs_le.1 h).1]
  rw [← Finset.sum_filter_add_sum_filter_not SA (· < p)]
  linarith

/-- How often one sample is read, counted with the weights. -/
theorem Taps.weights {c : ℝ} {x : ℕ → ℝ} {a b : ℕ → ℤ} (T : Taps c x a b) {lo hi : ℕ} (hl : lo ≤ hi) (hw : c * ((hi : ℝ) - lo) < 1) {m : ℤ}
    {SA SB : Finset ℕ} (hA : ∀ t ∈ SA, lo ≤ t ∧ t ≤ hi ∧ x t < 1 ∧ t - a t = m) (hB : ∀ t ∈ SB, lo ≤ t ∧ t ≤ hi ∧ 0 < x t ∧ t - b t = m) :
    ∑ t ∈ SA, (1 - x t) + ∑ t ∈ SB, x t ≤ 1 + c * ((hi : ℝ) - lo) := by
  have c0 := T.c0
  by_cases h1 : ∃ p, lo ≤ p ∧ p ≤ hi ∧ x p = 1
  · obtain ⟨p, p1, p2, hp⟩ := h1
    exact T.weights_top hw hA (fun t ht => ⟨(hB t ht).1, (hB t ht).2.1, (hB t ht).2.2.2⟩) p1 p2 hp
  by_cases h0 : ∃ p, lo ≤ p ∧ p ≤ hi ∧ x p = 0
  · obtain ⟨p, p1, p2, hp⟩ := h0
    have := T.swap.weights_top hw (SA := SB) (SB := SA) (m := m)
      (fun t ht => ⟨(hB t ht).1, (hB t ht).2.1, by linarith [(hB t ht).2.2.1], (hB t ht).2.2.2⟩)
      (fun t ht => ⟨(hA t ht).1, (hA t ht).2.1, (hA t ht).2.2.2⟩) p1 p2 (by rw [hp, sub_zero])
    simp only [sub_sub_cancel] at this
    linarith
  push Not at h0 h1
  have xl : ∀ t, lo ≤ t → t ≤ hi → x t < 1 := fun t t1 t2 => (T.x1 t).lt_of_ne (h1 t t1 t2)
  have xg : ∀ t, lo ≤ t → t ≤ hi → 0 < x t := fun t t1 t2 => (T.x0 t).lt_of_ne' (h0 t t1 t2)
  have oneA : ∀ s ∈ SA, ∀ t ∈ SA, s = t := by
    have key : ∀ s ∈ SA, ∀ t ∈ SA, s ≤ t → s = t := by
      intro s hs t ht hst
      obtain ⟨s1, s2, s3, s4⟩ := hA s hs
      obtain ⟨t1, t2, t3, t4⟩ := hA t ht
      have : a t = a s := T.constA hst fun r r1 r2 => xl r (by omega) (by omega)
      omega
    intro s hs t ht
    rcases le_total s t with h | h
    · exact key s hs t ht h
    · exact (key t ht s hs h).symm
  have oneB : ∀ s ∈ SB, ∀ t ∈ SB, s = t := by
    have key : ∀ s ∈ SB, ∀ t ∈ SB, s ≤ t → s = t := by
      intro s hs t ht hst
      obtain ⟨s1, s2, s3, s4⟩ := hB s hs
      obtain ⟨t1, t2, t3, t4⟩ := hB t ht
      have : b t = b s := T.swap.constA hst fun r r1 r2 => by have := xg r (by omega) (by omega); linarith
      omega
    intro s hs t ht
    rcases le_total s t with h | h
    · exact key s hs t ht h
    · exact (key t ht s hs h).symm
  have lh : (lo : ℝ) ≤ hi := by exact_mod_cast hl
  have W0 : 0 ≤ c * ((hi : ℝ) - lo) := mul_nonneg c0 (by linarith)
  rcases SA.eq_empty_or_nonempty with rfl | ⟨s, hs⟩
  · rw [Finset.sum_empty, zero_add]
    exact (sum_le_of_single zero_le_one oneB fun t _ => T.x1 t).trans (by linarith)
  have eA : SA = {s} := Finset.eq_singleton_iff_unique_mem.2 ⟨hs, fun t ht => oneA t ht s hs⟩
  obtain ⟨s1, s2, -, -⟩ := hA s hs
  rw [eA, Finset.sum_singleton]
  rcases SB.eq_empty_or_nonempty with rfl | ⟨t, ht⟩
  · rw [Finset.sum_empty]
    linarith [T.x0 s]
  have eB : SB = {t} := Finset.eq_singleton_iff_unique_mem.2 ⟨ht, fun r hr => oneB r hr t ht⟩
  obtain ⟨t1, t2, -, -⟩ := hB t ht
  rw [eB, Finset.sum_singleton]
  have a1 : (lo : ℝ) ≤ s := by exact_mod_cast s1
  have a2 : (s : ℝ) ≤ hi := by exact_mod_cast s2
  have a3 : (lo : ℝ) ≤ t := by exact_mod_cast t1
  have a4 : (t : ℝ) ≤ hi := by exact_mod_cast t2
  rcases le_total s t with h | h
  · have e := (abs_le.1 (T.lip' h)).2
    have := mul_le_mul_of_nonneg_left (show (t : ℝ) - s ≤ hi - lo by linarith) c0
    linarith
  · have e := (abs_le.1 (T.lip' h)).1
    have := mul_le_mul_of_nonneg_left (show (s : ℝ) - t ≤ hi - lo by linarith) c0
    linarith

/-- What is read through the crossfade has at most `1 + c W` times the energy of the line, where the taps stay within a window of `W`
samples; whatever tap A reads before time `F` is left out. -/
theorem Taps.read_sum {c : ℝ} {x : ℕ → ℝ} {a b : ℕ → ℤ} (T : Taps c x a b) {F : ℕ} {lo W : ℕ} (hw : c * (W : ℝ) < 1)
    (ra : ∀ t, F ≤ t → x t < 1 → lo ≤ a t ∧ a t ≤ lo + W) (rb : ∀ t, 0 < x t → lo ≤ b t ∧ b t ≤ lo + W)
    (n : ℕ) {w : ℕ → ℝ} (w0 : ∀ t, 0 ≤ w t) (wm : Antitone w) {v : ℤ → ℝ} (v0 : ∀ t, t < 0 → v t = 0) :
    ∑ t ∈ Finset.range n, w t * ((if F ≤ t then (1 - x t) * v (t - a t) ^ 2 else 0) + x t * v (t - b t) ^ 2) ≤
      (1 + c * W) * ∑ t ∈ Finset.range n, w t * v t ^ 2 := by
  -- one read as a sum over the samples of the line
  have pick : ∀ (y : ℝ) (t : ℕ) (d : ℤ), t < n → (y ≠ 0 → 0 ≤ d) →
      w t * (y * v (t - d) ^ 2) = ∑ m ∈ Finset.range n, if (t : ℤ) - d = m then w t * (y * v m ^ 2) else 0 := by
    intro y t d ht hd
    by_cases hy : y = 0
    · subst hy; simp
    have hd := hd hy
    rcases lt_or_ge ((t : ℤ) - d) 0 with hneg | hpos
    · rw [v0 _ hneg, Finset.sum_eq_zero]
      · ring
      · intro m _
        rw [if_neg (by omega)]
    · obtain ⟨j, hj⟩ := Int.eq_ofNat_of_zero_le hpos
      rw [Finset.sum_eq_single j]
      · rw [if_pos hj, hj]
      · intro m _ hm
        rw [if_neg (by omega)]
      · intro hj'
        exact absurd (Finset.mem_range.2 (by omega)) hj'
  have h1 : ∑ t ∈ Finset.range n, w t * ((if F ≤ t then (1 - x t) * v (t - a t) ^ 2 else 0) + x t * v (t - b t) ^ 2) =
      ∑ m ∈ Finset.range n, ∑ t ∈ Finset.range n,
        ((if (t : ℤ) - a t = m then w t * ((if F ≤ t then 1 - x t else 0) * v m ^ 2) else 0) +
          if (t : ℤ) - b t = m then w t * (x t * v m ^ 2) else 0) := by
    rw [Finset.sum_comm]
    refine Finset.sum_congr rfl fun t ht => ?_
    have ht := Finset.mem_range.1 ht
    rw [Finset.sum_add_distrib, ← pick _ t (a t) ht, ← pick _ t (b t) ht]
    · split_ifs <;> ring
    · intro hy
      have := (rb t ((T.x0 t).lt_of_ne' hy)).1
      omega
    · intro hy
      split_ifs at hy with hF
      · have := (ra t hF ((T.x1 t).lt_of_ne fun e => hy (by rw [e]; ring))).1
        omega
      · exact absurd rfl hy
  rw [h1, Finset.mul_sum]
  refine Finset.sum_le_sum fun m hm => ?_
  -- the weights with which the sample `m` is read
  have h2 : ∑ t ∈ Finset.range n, ((if (t : ℤ) - a t = m then w t * ((if F ≤ t then 1 - x t else 0) * v m ^ 2) else 0) +
      if (t : ℤ) - b t = m then w t * (x t * v m ^ 2) else 0) ≤
      ∑ t ∈ Finset.range n, ((if (F ≤ t ∧ x t < 1) ∧ (t : ℤ) - a t = m then 1 - x t else 0) +
        if 0 < x t ∧ (t : ℤ) - b t = m then x t else 0) * (w m * v m ^ 2) := by
    refine Finset.sum_le_sum fun t _ => ?_
    have v2 := sq_nonneg (v m)
    rw [add_mul]
    refine add_le_add ?_ ?_
    · by_cases e : (t : ℤ) - a t = m
      · rw [if_pos e]
        by_cases hF : F ≤ t ∧ x t < 1
        · rw [if_pos (show (F ≤ t ∧ x t < 1) ∧ (t : ℤ) - a t = m from ⟨hF, e⟩), if_pos hF.1]
          have hmt : m ≤ t := by have := (ra t hF.1 hF.2).1; omega
          calc _ = w t * ((1 - x t) * v m ^ 2) := rfl
            _ ≤ w m * ((1 - x t) * v m ^ 2) := mul_le_mul_of_nonneg_right (wm hmt) (mul_nonneg (by linarith [T.x1 t]) v2)
            _ = _ := by ring
        · rw [if_neg (show ¬((F ≤ t ∧ x t < 1) ∧ (t : ℤ) - a t = m) from fun h => hF h.1), zero_mul]
          have : (if F ≤ t then 1 - x t else 0) = 0 := by
            split_ifs with h
            · have := T.x1 t
              have : ¬ x t < 1 := fun h' => hF ⟨h, h'⟩
              linarith
            · rfl
          rw [this]
          simp
      · rw [if_neg e, if_neg (fun h => e h.2), zero_mul]
    · by_cases e : (t : ℤ) - b t = m
      · rw [if_pos e]
        by_cases hx : 0 < x t
        · rw [if_pos ⟨hx, e⟩]
          have hmt : m ≤ t := by have := (rb t hx).1; omega
          calc _ = w t * (x t * v m ^ 2) := rfl
            _ ≤ w m * (x t * v m ^ 2) := mul_le_mul_of_nonneg_right (wm hmt) (mul_nonneg hx.le v2)
            _ = _ := by ring
        · rw [if_neg (fun h => hx h.1), zero_mul, le_antisymm (not_lt.1 hx) (T.x0 t)]
          simp
      · rw [if_neg e, if_neg (fun h => e h.2), zero_mul]
  refine h2.trans ?_
  rw [← Finset.sum_mul]
  refine mul_le_mul_of_nonneg_right ?_ (mul_nonneg (w0 m) (sq_nonneg _))
  rw [Finset.sum_add_distrib, ← Finset.sum_filter, ← Finset.sum_filter]
  have := T.weights (lo := m + lo) (hi := m + (lo + W)) (m := m)
    (SA := (Finset.range n).filter fun t => (F ≤ t ∧ x t < 1) ∧ (t : ℤ) - a t = m)
    (SB := (Finset.range n).filter fun t => 0 < x t ∧ (t : ℤ) - b t = m) (by omega) (by push_cast; ring_nf; linarith)
    (fun t ht => by
      obtain ⟨-, ⟨hF, hx⟩, e⟩ := Finset.mem_filter.1 ht
      have := ra t hF hx
      exact ⟨by omega, by omega, hx, e⟩)
    (fun t ht => by
      obtain ⟨-, hx, e⟩ := Finset.mem_filter.1 ht
      have := rb t hx
      exact ⟨by omega, by omega, hx, e⟩)
  refine this.trans (le_of_eq ?_)
  push_cast
  ring

end Verif.Energy
