import Verif.Props.CombStableFloat

/-!
# C99 in single precision for whole delays

With a whole number of samples nothing is lost in reading the line, so the gain may come within `2^-22` of one.
-/

namespace Verif
open FP CombC

/-- **C99, partial** (single precision, every rounding included): with a delay of a whole number of samples, one or more, and a gain of less
than `1 - 2^-22`, the energy of the output up to any moment is at most `((1 + 2^-22) / (1 - |g| - 2^-22))²` times the energy of the input up
to that moment, each sample enlarged by `2^-100`. Inputs within ±1. -/
theorem C99_whole_float_partial [Libm F32] [LibmSpec] (sr md dt dc : F32) (d : ℕ) (hsr : sr.In 0 (2 ^ 22)) (hmd : md.isFin = true)
    (hmd0 : 0 ≤ md.val) (hp : md.val * sr.val ≤ 2 ^ 22) (hdt : dt.In 0 md.val) (hdc : dc ≠ .nan) (hd1 : 1 ≤ d) (hd : (dt * sr).val = d)
    (fuel : ℕ) (hf : 2 ^ 22 ≤ fuel) (xs : List F32) (hx : ∀ x ∈ xs, x.In (-1) 1) :
    ∃ s0 s s' ys, CombC.init sr md = some s0 ∧ s = CombC.setDecayTime dc (CombC.setDelayTime dt s0) ∧
      CombC.process fuel s xs = some (s', ys) ∧ ys.length = xs.length ∧ (∀ y ∈ ys, y.isFin = true) ∧
      (|(s.feedbackCoeff.val : ℝ)| < 1 - 1 / 2 ^ 22 → (ys.map fun y => (y.val : ℝ) ^ 2).sum ≤
        ((1 + 1 / 2 ^ 22) / (1 - |(s.feedbackCoeff.val : ℝ)| - 1 / 2 ^ 22)) ^ 2 * (xs.map fun x => (|(x.val : ℝ)| + 1 / 2 ^ 100) ^ 2).sum) := by
  obtain ⟨s0, s, s', ys, a1, a2, a3, a4, a5, a6, a7⟩ := C35_comb_recurrence_float sr md dt dc d hsr hmd hmd0 hp hdt hdc hd1 hd fuel hf xs hx
  refine ⟨s0, s, s', ys, a1, a2, a3, a4, fun y hy => (a6 y hy).1, fun hg => ?_⟩
  set g := s.feedbackCoeff with hgd
  have sumE : ∀ (f : F32 → ℝ) (l : List F32), (l.map fun x => f x ^ 2).sum = ∑ n ∈ Finset.range l.length, f (l.getD n (lit 0)) ^ 2 := by
    intro f l
    induction l with
    | nil => simp
    | cons a l ih => rw [List.map_cons, List.sum_cons, List.length_cons, Finset.sum_range_succ', ih]; simp [add_comm]
  rw [sumE (fun y => (y.val : ℝ)) ys, sumE (fun x => |(x.val : ℝ)| + 1 / 2 ^ 100) xs, a4]
  -- what is written
  set u : ℤ → ℝ := fun k => if k < 0 then 0 else ((xs.getD k.toNat (lit 0) + g * ys.getD k.toNat (lit 0)).val : ℝ) with hu
  set X : ℕ → ℝ := fun n => (1 + 1 / 2 ^ 22) * (|((xs.getD n (lit 0)).val : ℝ)| + 1 / 2 ^ 100) with hX
  set y : ℕ → ℝ := fun n => ((ys.getD n (lit 0)).val : ℝ) with hy
  have g0 := abs_nonneg (g.val : ℝ)
  set b : ℝ := |(g.val : ℝ)| + 1 / 2 ^ 22 with hb
  have b0 : 0 ≤ b := by positivity
  have A0 : 0 < 1 - b := by rw [hb]; linarith
  have hw : ∀ n < xs.length, |u n| ≤ X n + b * |y n| := by
    intro n hn
    have hxn : xs.getD n (lit 0) ∈ xs := by
      rw [List.getD_eq_getElem?_getD, List.getElem?_eq_getElem hn]; exact List.getElem_mem _
    have hyn : ys.getD n (lit 0) ∈ ys := by
      rw [List.getD_eq_getElem?_getD, List.getElem?_eq_getElem (by omega)]; exact List.getElem_mem _
    have x1 : |((xs.getD n (lit 0)).val : ℝ)| ≤ 1 := by
      have := (hx _ hxn).2
      exact abs_le.2 ⟨by exact_mod_cast this.1, by exact_mod_cast this.2⟩
    have y1 : |((ys.getD n (lit 0)).val : ℝ)| ≤ 2 ^ 25 := by
      have := (a6 _ hyn).2
      exact abs_le.2 ⟨by exact_mod_cast this.1, by exact_mod_cast this.2⟩
    have hn0 : ¬ ((n:ℤ) < 0) := by omega
    simp only [hu, hX, hy]
    rw [if_neg hn0, Int.toNat_natCast]
    have := (write_rel (x := xs.getD n (lit 0)) (g := g) (y := ys.getD n (lit 0)) (S := (ys.getD n (lit 0)).val)
      (m := 4 / 5 * |((ys.getD n (lit 0)).val : ℝ)|) (ε := 0) (hx _ hxn).1 (x1.trans (by norm_num)) a5.1 (by linarith) le_rfl zero_le_one
      ((near_val (a6 _ hyn).1).mono (by positivity)) (by linarith) (by norm_num at y1 ⊢; linarith)).2
    refine this.trans (le_of_eq ?_)
    rw [hb]; ring
  have hyu : ∀ n < xs.length, y n = u ((n:ℤ) - d) := by
    intro n hn
    simp only [hy, hu]
    rw [a7 n hn]
    by_cases h : n < d
    · rw [if_pos h, if_pos (by omega)]; norm_num
    · rw [if_neg h, if_neg (by omega), show ((n:ℤ) - d).toNat = n - d by omega]
  have pas : ∑ n ∈ Finset.range xs.length, y n ^ 2 ≤ ∑ n ∈ Finset.range xs.length, u n ^ 2 := by
    rw [Finset.sum_congr rfl fun n hn => by rw [hyu n (Finset.mem_range.1 hn)]]
    exact sum_shift (f := fun k => u k ^ 2) (fun k hk => by simp [hu, hk]) (fun k => sq_nonneg _) xs.length d
  have key : ∀ n ∈ Finset.range xs.length, u n ^ 2 ≤ X n ^ 2 / (1 - b) + b * y n ^ 2 := by
    intro n hn
    have := jensen3 (w := 0) (L := 0) A0 b0 le_rfl (by ring) (abs_nonneg _) (by simpa using hw n (Finset.mem_range.1 hn))
    rw [sq_abs, sq_abs] at this
    simpa using this
  have tot := Finset.sum_le_sum key
  have ed : ∑ n ∈ Finset.range xs.length, X n ^ 2 / (1 - b) = (∑ n ∈ Finset.range xs.length, X n ^ 2) / (1 - b) := by
    simp only [div_eq_mul_inv, Finset.sum_mul]
  rw [Finset.sum_add_distrib, ed, ← Finset.mul_sum] at tot
  have h2 : (∑ n ∈ Finset.range xs.length, y n ^ 2) * (1 - b) ≤ (∑ n ∈ Finset.range xs.length, X n ^ 2) / (1 - b) := by linarith
  rw [le_div_iff₀ A0] at h2
  have XE : ∑ n ∈ Finset.range xs.length, X n ^ 2 =
      (1 + 1 / 2 ^ 22) ^ 2 * ∑ n ∈ Finset.range xs.length, (|((xs.getD n (lit 0)).val : ℝ)| + 1 / 2 ^ 100) ^ 2 := by
    rw [Finset.mul_sum]
    exact Finset.sum_congr rfl fun n _ => by simp only [hX]; rw [mul_pow]
  rw [XE] at h2
  rw [show 1 - |(g.val : ℝ)| - 1 / 2 ^ 22 = 1 - b by rw [hb]; ring, div_pow, div_mul_eq_mul_div, le_div_iff₀ (by positivity)]
  refine le_trans (le_of_eq ?_) h2
  ring

/-- Concrete case: 1/64 s at 48 kHz is 750 samples exactly; default decay of one second. -/
example : (ofRat 48000 : F32).In 0 (2 ^ 22) ∧ (ofRat (1 / 5) : F32).isFin = true ∧ 0 ≤ (ofRat (1 / 5) : F32).val ∧
    (ofRat (1 / 5) : F32).val * (ofRat 48000 : F32).val ≤ 2 ^ 22 ∧ (ofRat (1 / 64) : F32).In 0 (ofRat (1 / 5) : F32).val ∧
    (ofRat 1 : F32) ≠ .nan ∧ ((ofRat (1 / 64) : F32) * ofRat 48000).val = ((750 : ℕ) : ℚ) ∧ (ofRat (1 / 2) : F32).In (-1) 1 := by decide +kernel

end Verif
