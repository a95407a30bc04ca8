import Verif.Float.LogSpec
import Verif.Float.Convex
import Verif.Props.SlowRamps
import Verif.Props.EnvelopeStall
import Verif.Props.Times

/-!
# Property C93: envelope stages last as long in single precision as in exact arithmetic, up to a stated tolerance

`N` is always the number of samples in the time that was set (time times sampling rate).
-/

namespace Verif
open FP

/-! ### The coefficient -/

/-- The coefficient computed from a time and a sampling rate, on a logarithmic scale. -/
theorem coeff_log [Libm F32] [LogSpec] {T sr : F32} (hT : T.isFin = true) (hsr : sr.isFin = true) {N : ℝ} (hN : N = T.val * sr.val)
    (h1 : 1 ≤ N) (h2 : N ≤ 2 ^ 20) :
    (Libm.exp (-lit 1 / (T * sr)) : F32).isFin = true ∧ (0:ℝ) < (Libm.exp (-lit 1 / (T * sr)) : F32).val ∧
      |Real.log (Libm.exp (-lit 1 / (T * sr)) : F32).val - -(1 / N)| ≤ (2.1 + 2.1 / N) / 2 ^ 24 := by
  have hNp : 0 < N := by linarith
  have hT0 : T.val ≠ 0 := fun h => by rw [h, Rat.cast_zero, zero_mul] at hN; linarith
  have hs0 : sr.val ≠ 0 := fun h => by rw [h, Rat.cast_zero, mul_zero] at hN; linarith
  have m1 : (2:ℝ) ^ (-125:ℤ) ≤ 1 := by norm_num
  have m2 : (2:ℝ) ^ (20:ℤ) ≤ 2 ^ (126:ℤ) := zpow_le_zpow_right₀ (by norm_num) (by norm_num)
  have hm : Rel (T * sr) N (1 / 2 ^ 24) := by
    have := (rel_mul (rel_val hT hT0) (rel_val hsr hs0) le_rfl (by norm_num) (by rw [← hN, abs_of_pos hNp]; exact m1.trans h1)
      (by rw [← hN, abs_of_pos hNp]; exact h2.trans m2)).mono (show _ ≤ 1 / 2 ^ 24 by norm_num)
    rwa [← hN] at this
  have h1' : Rel (-lit 1 : F32) (-1) 0 := by
    have h : (-lit 1 : F32).In (-1) (-1) := neg_in lit_one
    refine ⟨h.1, by norm_num, ?_⟩
    rw [h.val_eq]; norm_num
  have hd : Rel (-lit 1 / (T * sr)) (-1 / N) (2.01 / 2 ^ 24) := by
    refine (rel_div h1' hm le_rfl (by norm_num) (by norm_num) (by norm_num) ?_ ?_).mono (by norm_num)
    · rw [abs_div, abs_neg, abs_one, abs_of_pos hNp]
      have : (2:ℝ) ^ (-20:ℤ) ≤ 1 / N := by
        rw [zpow_neg, ← one_div]
        exact one_div_le_one_div_of_le hNp h2
      exact le_trans (zpow_le_zpow_right₀ (by norm_num) (by norm_num)) this
    · rw [abs_div, abs_neg, abs_one, abs_of_pos hNp]
      have : 1 / N ≤ 1 := by rw [div_le_one hNp]; exact h1
      exact this.trans (by norm_num)
  obtain ⟨d1, -, d2⟩ := hd
  set x : F32 := -lit 1 / (T * sr) with hx
  have hN1 : 1 / N ≤ 1 := by rw [div_le_one hNp]; exact h1
  have hN0 : 0 < 1 / N := by positivity
  rw [show -1 / N = -(1 / N) by ring, abs_neg, abs_of_pos hN0] at d2
  have hb : |(x.val : ℝ)| ≤ 64 := by
    have := abs_sub_abs_le_abs_sub (x.val : ℝ) (-(1 / N))
    rw [abs_neg, abs_of_pos hN0] at this
    norm_num at *; linarith
  obtain ⟨e1, e2⟩ := LogSpec.exp_rel x d1 (by exact_mod_cast hb)
  obtain ⟨e3, e4⟩ := XLine.log_of_rel (Real.exp_pos _) (by norm_num) (by norm_num) e2
  rw [Real.log_exp] at e4
  refine ⟨e1, e3, ?_⟩
  have := abs_sub_le (Real.log ((Libm.exp x : F32).val : ℝ)) x.val (-(1 / N))
  have e5 : (2.1 + 2.1 / N) / 2 ^ 24 = 2.1 / 2 ^ 24 + 2.1 / 2 ^ 24 * (1 / N) := by ring
  rw [e5]
  generalize 1 / N = t at *
  norm_num at *
  linarith

/-- The same on a linear scale. -/
theorem coeff_lin {c N : ℝ} (h1 : 1 ≤ N) (hc : 0 < c) (h : |Real.log c - -(1 / N)| ≤ (2.1 + 2.1 / N) / 2 ^ 24) :
    |c - Real.exp (-(1 / N))| ≤ (2.2 + 2.2 / N) / 2 ^ 24 := by
  have hNp : 0 < N := by linarith
  have hN0 : 0 < 1 / N := by positivity
  have hN1 : 1 / N ≤ 1 := by rw [div_le_one hNp]; exact h1
  have e0 : Real.exp (-(1 / N)) ≤ 1 := Real.exp_le_one_iff.2 (by linarith)
  have p0 := Real.exp_pos (-(1 / N))
  set d := Real.log c - -(1 / N) with hd
  have hcd : c = Real.exp (-(1 / N)) * Real.exp d := by
    rw [← Real.exp_add, hd, show -(1 / N) + (Real.log c - -(1 / N)) = Real.log c by ring, Real.exp_log hc]
  have hd1 : |d| ≤ 1 := h.trans (by
    rw [show (2.1 + 2.1 / N) / 2 ^ 24 = 2.1 / 2 ^ 24 + 2.1 / 2 ^ 24 * (1 / N) by ring]; norm_num at *; linarith)
  have h2 := Real.abs_exp_sub_one_sub_id_le hd1
  have h3 : |Real.exp d - 1| ≤ |d| + d ^ 2 := by
    have := abs_add_le (Real.exp d - 1 - d) d
    rw [sub_add_cancel] at this
    linarith
  have h4 : d ^ 2 ≤ 0.01 * |d| := by
    rw [← sq_abs, sq]
    refine mul_le_mul_of_nonneg_right (h.trans ?_) (abs_nonneg d)
    rw [show (2.1 + 2.1 / N) / 2 ^ 24 = 2.1 / 2 ^ 24 + 2.1 / 2 ^ 24 * (1 / N) by ring]; norm_num at *; linarith
  rw [hcd, show Real.exp (-(1 / N)) * Real.exp d - Real.exp (-(1 / N)) = Real.exp (-(1 / N)) * (Real.exp d - 1) by ring, abs_mul, abs_of_pos p0]
  have h5 : Real.exp (-(1 / N)) * |Real.exp d - 1| ≤ 1 * |Real.exp d - 1| := mul_le_mul_of_nonneg_right e0 (abs_nonneg _)
  have h6 : (2.2 + 2.2 / N) / 2 ^ 24 = 2.2 / 2.1 * ((2.1 + 2.1 / N) / 2 ^ 24) := by ring
  rw [h6]
  have : 0 ≤ |d| := abs_nonneg d
  nlinarith

/-! ### Release -/

/-- Repeated multiplication by the coefficient, stopped when the product is at most the threshold. `b n` says that it has stopped. -/
theorem fade {c L : F32} {N v0 : ℝ} {v : ℕ → F32} {b : ℕ → Bool} (h1 : 1 ≤ N) (hcI : c.In 0 1) (hc0 : (0:ℝ) < c.val)
    (hcl : |Real.log c.val - -(1 / N)| ≤ (2.1 + 2.1 / N) / 2 ^ 24) (hL : L.isFin = true) (hL0 : (2:ℝ) ^ (-20:ℤ) ≤ L.val)
    (hv : (v 0).isFin = true) (hv0 : ((v 0).val : ℝ) = v0) (hvp : (2:ℝ) ^ (-20:ℤ) ≤ v0) (hv1 : v0 ≤ 1) (b0 : b 0 = false)
    (hs : ∀ n, b n = false → if (c * v n) <=. L then b (n + 1) = true else b (n + 1) = false ∧ v (n + 1) = c * v n)
    (hi : ∀ n, b n = true → b (n + 1) = true) (n : ℕ) :
    let κ := (4 * N + 3) / 2 ^ 24
    if b n then Real.log v0 - n / N * (1 + κ) ≤ Real.log L.val
    else (v n).isFin = true ∧ (0:ℝ) < (v n).val ∧ |Real.log (v n).val - (Real.log v0 - n / N)| ≤ n / N * κ ∧
      (n ≠ 0 → Real.log L.val < Real.log (v n).val) ∧ (2:ℝ) ^ (-20:ℤ) ≤ (v n).val ∧ ((v n).val : ℝ) ≤ 1 := by
  intro κ
  have hc := hcI.1
  have hNp : 0 < N := by linarith
  have hκ : 0 ≤ κ := by positivity
  have hLp : (0:ℝ) < L.val := lt_of_lt_of_le (by positivity) hL0
  have hcN : (1:ℝ) / N * κ = (4 + 3 / N) / 2 ^ 24 := by simp only [κ]; field_simp
  have h3N : 3 / N ≤ 3 := by rw [div_le_iff₀ hNp]; linarith
  have h1N : 1 / N ≤ 1 := by rw [div_le_one hNp]; exact h1
  have h21 : 2.1 / N = 2.1 * (1 / N) := by ring
  have h31 : 3 / N = 3 * (1 / N) := by ring
  have h0N : 0 < 1 / N := by positivity
  -- the coefficient is between 1/4 and a little more than 1
  have hcl' : Real.log c.val ≤ 0.001 ∧ -1.1 ≤ Real.log c.val := by
    obtain ⟨l, u⟩ := abs_le.1 hcl
    rw [h21] at l u
    generalize 1 / N = t at *
    norm_num at l u ⊢
    constructor <;> linarith
  have hc4 : (1:ℝ) / 4 ≤ c.val := by
    have : Real.exp (-1.1) ≤ c.val := by rw [← Real.exp_log hc0]; exact Real.exp_le_exp.2 hcl'.2
    refine le_trans ?_ this
    rw [Real.exp_neg, one_div]
    refine inv_anti₀ (Real.exp_pos _) ?_
    have e1 : Real.exp 1 ≤ 2.72 := by have := Real.exp_one_lt_d9; linarith
    have : Real.exp 1.1 ≤ Real.exp 1.2 := Real.exp_le_exp.2 (by norm_num)
    have e2 : Real.exp 1.1 ^ 10 = Real.exp 1 ^ 11 := by rw [← Real.exp_nat_mul, ← Real.exp_nat_mul]; norm_num
    by_contra hcon
    push Not at hcon
    have e3 : (4:ℝ) ^ 10 < Real.exp 1.1 ^ 10 := by gcongr
    have e4 : Real.exp 1 ^ 11 ≤ 2.72 ^ 11 := by gcongr
    rw [e2] at e3
    norm_num at e3 e4
    linarith
  have hc2 : (c.val : ℝ) ≤ 2 := by
    have : (c.val : ℝ) ≤ 1 := by exact_mod_cast hcI.2.2
    linarith
  -- one multiplication
  have step : ∀ w : F32, w.isFin = true → (2:ℝ) ^ (-20:ℤ) ≤ w.val → (w.val : ℝ) ≤ 1 → (c * w).isFin = true ∧ (0:ℝ) < (c * w).val ∧
      |Real.log (c * w).val - (Real.log c.val + Real.log w.val)| ≤ 1.01 / 2 ^ 24 := by
    intro w hw hw0 hw1
    have hwp : (0:ℝ) < w.val := lt_of_lt_of_le (by positivity) hw0
    have hcw : (0:ℝ) < (c.val : ℝ) * w.val := mul_pos hc0 hwp
    have m1 : (2:ℝ) ^ (-125:ℤ) ≤ (c.val : ℝ) * w.val := by
      calc (2:ℝ) ^ (-125:ℤ) ≤ 1 / 4 * 2 ^ (-20:ℤ) := by norm_num
        _ ≤ _ := mul_le_mul hc4 hw0 (by positivity) hc0.le
    have m2 : (c.val : ℝ) * w.val ≤ 2 ^ (126:ℤ) := by
      calc (c.val : ℝ) * w.val ≤ 2 * 1 := mul_le_mul hc2 hw1 hwp.le (by norm_num)
        _ ≤ _ := by norm_num
    obtain ⟨f1, -, f2⟩ := (rel_mul (rel_val hc (by exact_mod_cast hc0.ne')) (rel_val hw (by exact_mod_cast hwp.ne')) le_rfl (by norm_num)
      (by rw [abs_of_pos hcw]; exact m1) (by rw [abs_of_pos hcw]; exact m2)).mono (show _ ≤ 1 / 2 ^ 24 by norm_num)
    rw [abs_of_pos hcw] at f2
    obtain ⟨k1, k2⟩ := XLine.log_of_rel hcw (by norm_num) (by norm_num) f2
    rw [Real.log_mul hc0.ne' hwp.ne'] at k2
    exact ⟨f1, k1, by norm_num at *; linarith⟩
  induction n with
  | zero =>
    rw [b0, if_neg (by simp)]
    simp only [Nat.cast_zero, zero_div, zero_mul, sub_zero, hv0, sub_self, abs_zero, le_refl, ne_eq, not_true, false_imp_iff, true_and]
    exact ⟨hv, lt_of_lt_of_le (by positivity) hvp, hvp, hv1⟩
  | succ n ih =>
    cases hbn : b n with
    | true =>
      rw [hbn, if_pos rfl] at ih
      rw [hi n hbn, if_pos rfl]
      push_cast
      have : (n:ℝ) / N * (1 + κ) ≤ (n + 1) / N * (1 + κ) := by gcongr; linarith
      linarith
    | false =>
      rw [hbn, if_neg (by simp)] at ih
      obtain ⟨i1, i2, i3, i4, i5, i6⟩ := ih
      obtain ⟨f1, f2, f3⟩ := step (v n) i1 i5 i6
      have near : |Real.log (c * v n).val - (Real.log v0 - ((n + 1 : ℕ) : ℝ) / N)| ≤ ((n + 1 : ℕ) : ℝ) / N * κ := by
        push_cast
        have e : Real.log (c * v n).val - (Real.log v0 - ((n : ℝ) + 1) / N) =
            (Real.log (c * v n).val - (Real.log c.val + Real.log (v n).val)) + (Real.log c.val - -(1 / N)) +
              (Real.log (v n).val - (Real.log v0 - n / N)) := by ring
        rw [e]
        refine (abs_add_le _ _).trans ((add_le_add_left (abs_add_le _ _) _).trans ?_)
        have e2 : ((n : ℝ) + 1) / N * κ = n / N * κ + 1 / N * κ := by ring
        rw [e2, hcN]
        have : 1.01 / 2 ^ 24 + (2.1 + 2.1 / N) / 2 ^ 24 ≤ (4 + 3 / N) / 2 ^ 24 := by
          rw [h21, h31]
          generalize 1 / N = t at *
          norm_num
          linarith
        linarith
      have hst := hs n hbn
      rw [le_fin f1 hL] at hst
      by_cases hle : (c * v n).val ≤ L.val
      · rw [if_pos (decide_eq_true hle)] at hst
        rw [hst, if_pos rfl]
        have h3 : Real.log (c * v n).val ≤ Real.log L.val := Real.log_le_log f2 (by exact_mod_cast hle)
        have h4 := (abs_le.1 near).1
        have h5 : ((n + 1 : ℕ) : ℝ) / N * (1 + κ) = ((n + 1 : ℕ) : ℝ) / N + ((n + 1 : ℕ) : ℝ) / N * κ := by ring
        linarith
      · rw [if_neg (by simpa using hle)] at hst
        obtain ⟨s1, s2⟩ := hst
        rw [s1, if_neg (by simp), s2]
        have hlt : (L.val : ℝ) < (c * v n).val := by exact_mod_cast not_le.1 hle
        refine ⟨f1, f2, near, fun _ => Real.log_lt_log hLp hlt, hL0.trans hlt.le, ?_⟩
        have i2' : 0 ≤ (v n).val := by exact_mod_cast i2.le
        have i6' : (v n).val ≤ 1 := by exact_mod_cast i6
        exact_mod_cast (release_in hcI ⟨i1, i2', i6'⟩).2.2

/-- The threshold of the code. -/
theorem lit_end : (lit 0.0001 : F32).isFin = true ∧ (2:ℝ) ^ (-20:ℤ) ≤ (lit 0.0001 : F32).val ∧
    |Real.log (lit 0.0001 : F32).val - Real.log 0.0001| ≤ 2 / 2 ^ 24 := by
  have h : (lit 0.0001 : F32).isFin = true ∧ |(lit 0.0001 : F32).val - 0.0001| ≤ 0.0001 / 2 ^ 24 := by decide +kernel
  have h2 : |((lit 0.0001 : F32).val : ℝ) - 0.0001| ≤ 1 / 2 ^ 24 * 0.0001 := by
    have : ((|(lit 0.0001 : F32).val - 0.0001| : ℚ) : ℝ) ≤ ((0.0001 / 2 ^ 24 : ℚ) : ℝ) := by exact_mod_cast h.2
    push_cast at this
    norm_num at *
    exact this
  obtain ⟨h3, h4⟩ := XLine.log_of_rel (by norm_num) (by norm_num) (by norm_num) h2
  refine ⟨h.1, ?_, h4.trans (by norm_num)⟩
  have := (abs_le.1 h2).1
  norm_num at *
  linarith

/-- What `fade` says about the time: with `D` the logarithm of the ratio of start and threshold, the fade lasts `D N` samples up to the
factor `1 ± (4 N + 3) 2^-24`. -/
theorem fade_time {N v0 l x : ℝ} (n : ℕ) {b : Bool} {P : Prop} {κ : ℝ} (hl : |l - Real.log 0.0001| ≤ 2 / 2 ^ 24) (hv : 0 < v0)
    (h : if b then Real.log v0 - n / N * (1 + κ) ≤ l else P ∧ |x - (Real.log v0 - n / N)| ≤ n / N * κ ∧ (n ≠ 0 → l < x)) :
    (n / N * (1 + κ) + 1 / 2 ^ 22 < Real.log (v0 / 0.0001) → b = false ∧ P ∧ |x - (Real.log v0 - n / N)| ≤ n / N * κ) ∧
    (n ≠ 0 → Real.log (v0 / 0.0001) + 1 / 2 ^ 22 ≤ n / N * (1 - κ) → b = true) := by
  rw [Real.log_div hv.ne' (by norm_num)]
  obtain ⟨l1, l2⟩ := abs_le.1 hl
  constructor
  · intro hn
    cases b with
    | true =>
      rw [if_pos rfl] at h
      generalize (n:ℝ) / N * (1 + κ) = q at *
      norm_num at *
      linarith
    | false =>
      rw [if_neg (by simp)] at h
      exact ⟨rfl, h.1, h.2.1⟩
  · intro n0 hn
    cases b with
    | true => rfl
    | false =>
      exfalso
      rw [if_neg (by simp)] at h
      have h1 := h.2.2 n0
      have h2 := (abs_le.1 h.2.1).2
      have e : (n:ℝ) / N * (1 - κ) = n / N - n / N * κ := by ring
      rw [e] at hn
      generalize (n:ℝ) / N * κ = q at *
      norm_num at *
      linarith

/-- A fading stage of any unit: `R` while it fades, `I` when it has ended. -/
theorem fade_stage [Libm F32] [LibmSpec] [LogSpec] {σ : Type} {u : ℕ → σ} {val : σ → F32} {R I : σ → Prop} {T sr c : F32} {N : ℝ}
    (hN : N = T.val * sr.val) (h1 : 1 ≤ N) (h2 : N ≤ 2 ^ 20) (hT : T.isFin = true) (hT0 : 0 < T.val) (hsr : sr.isFin = true)
    (hc : c = Libm.exp (-lit 1 / (T * sr))) (hR : R (u 0)) (hv : (val (u 0)).In 0 1) (hv0 : (0.0001:ℝ) ≤ (val (u 0)).val)
    (hs : ∀ n, R (u n) → if (c * val (u n)) <=. lit 0.0001 then I (u (n + 1)) else R (u (n + 1)) ∧ val (u (n + 1)) = c * val (u n))
    (hi : ∀ n, I (u n) → I (u (n + 1))) (hd : ∀ x, R x → ¬ I x) (n : ℕ) :
    let κ := (4 * N + 3) / 2 ^ 24
    (n / N * (1 + κ) + 1 / 2 ^ 22 < Real.log ((val (u 0)).val / 0.0001) → R (u n) ∧ (val (u n)).In 0 1 ∧ 0 < (val (u n)).val ∧
        |Real.log (val (u n)).val - (Real.log (val (u 0)).val - n / N)| ≤ n / N * κ) ∧
    (Real.log ((val (u 0)).val / 0.0001) + 1 / 2 ^ 22 ≤ n / N * (1 - κ) → I (u n)) := by
  classical
  intro κ
  have hs0 : 0 < sr.val := by
    by_contra h
    have h3 : (sr.val : ℝ) ≤ 0 := by exact_mod_cast not_lt.1 h
    have h4 : (0:ℝ) < T.val := by exact_mod_cast hT0
    nlinarith
  obtain ⟨c1, c2, c3⟩ := coeff_log hT hsr hN h1 h2
  have cI := expCoeff_in (t := T) (sr := sr) (Or.inr ⟨hT, hT0⟩) (Or.inr ⟨hsr, hs0⟩)
  rw [← hc] at c1 c2 c3 cI
  obtain ⟨l1, l2, l3⟩ := lit_end
  have hvp : (0:ℝ) < (val (u 0)).val := lt_of_lt_of_le (by norm_num) hv0
  have inv : ∀ n, R (u n) ∨ I (u n) := by
    intro n
    induction n with
    | zero => exact Or.inl hR
    | succ n ih =>
      rcases ih with h | h
      · have := hs n h
        split_ifs at this
        · exact Or.inr this
        · exact Or.inl this.1
      · exact Or.inr (hi n h)
  have key := fade (v := fun n => val (u n)) (b := fun n => decide (I (u n))) h1 cI c2 c3 l1 l2
    (v0 := (val (u 0)).val) hv.1 rfl (by norm_num at *; linarith) (by exact_mod_cast hv.2.2) (decide_eq_false (hd _ hR)) ?_ ?_ n
  · have key' := fade_time (N := N) (v0 := (val (u 0)).val) (l := Real.log (lit 0.0001 : F32).val) (x := Real.log (val (u n)).val) n
      (κ := κ) (b := decide (I (u n))) (P := (val (u n)).isFin = true ∧ (0:ℝ) < (val (u n)).val ∧ ((val (u n)).val : ℝ) ≤ 1) l3 hvp (h := by
      dsimp only at key ⊢
      split_ifs at key ⊢ with hb
      · exact key
      · exact ⟨⟨key.1, key.2.1, key.2.2.2.2.2⟩, key.2.2.1, key.2.2.2.1⟩)
    refine ⟨fun h => ?_, fun h => ?_⟩
    · obtain ⟨b1, ⟨b2, b3, b4⟩, b5⟩ := key'.1 h
      have b3' : 0 < (val (u n)).val := by exact_mod_cast b3
      refine ⟨?_, ⟨b2, b3'.le, by exact_mod_cast b4⟩, b3', b5⟩
      rcases inv n with h | h
      · exact h
      · exact absurd h (of_decide_eq_false b1)
    · have n0 : n ≠ 0 := by
        rintro rfl
        have : 0 ≤ Real.log ((val (u 0)).val / 0.0001) := Real.log_nonneg (by rw [le_div_iff₀ (by norm_num)]; linarith)
        norm_num at h
        norm_num at this
        linarith
      exact of_decide_eq_true (key'.2 n0 h)
  · intro n hb
    rcases inv n with h | h
    · have := hs n h
      split_ifs at this ⊢ with hle
      · exact decide_eq_true this
      · exact ⟨decide_eq_false (hd _ this.1), this.2⟩
    · exact absurd h (of_decide_eq_false hb)
  · intro n hb
    exact decide_eq_true (hi n (of_decide_eq_true hb))

/-! ### Attack and decay -/

/-- An exponential approach with a rounding error in every step. -/
theorem settle {x : ℕ → ℝ} {c N : ℝ} (h1 : 1 ≤ N) (hc : |c - Real.exp (-(1 / N))| ≤ (2.2 + 2.2 / N) / 2 ^ 24) (n : ℕ)
    (hs : ∀ m < n, |x (m + 1) - c * x m| ≤ 2 / 2 ^ 24) (hx : ∀ m < n, |x m| ≤ 1) :
    |x n - x 0 * Real.exp (-(n / N))| ≤ (5 * N + 9) / 2 ^ 24 := by
  have hNp : 0 < N := by linarith
  have hq : Real.exp (-(1 / N)) ≤ 1 - 1 / (N + 1) := by
    have h := Real.add_one_le_exp (1 / N)
    rw [Real.exp_neg]
    have : (1 / N + 1)⁻¹ = 1 - 1 / (N + 1) := by field_simp; ring
    rw [← this]
    exact inv_anti₀ (by positivity) h
  have hq0 := Real.exp_pos (-(1 / N))
  induction n with
  | zero => simp; positivity
  | succ n ih =>
    have i := ih (fun m hm => hs m (by omega)) (fun m hm => hx m (by omega))
    have s := hs n (by omega)
    have b := hx n (by omega)
    have e : Real.exp (-(((n + 1 : ℕ) : ℝ) / N)) = Real.exp (-(1 / N)) * Real.exp (-(n / N)) := by
      rw [← Real.exp_add]; congr 1; push_cast; ring
    rw [e]
    set q := Real.exp (-(1 / N)) with hqd
    have e2 : x (n + 1) - x 0 * (q * Real.exp (-(n / N))) =
        (x (n + 1) - c * x n) + (c - q) * x n + q * (x n - x 0 * Real.exp (-(n / N))) := by ring
    rw [e2]
    refine (abs_add_le _ _).trans ((add_le_add_left (abs_add_le _ _) _).trans ?_)
    rw [abs_mul, abs_mul, abs_of_pos hq0]
    have b1 : |c - q| * |x n| ≤ (2.2 + 2.2 / N) / 2 ^ 24 * 1 := mul_le_mul hc b (abs_nonneg _) ((abs_nonneg _).trans hc)
    have b2 : q * |x n - x 0 * Real.exp (-(n / N))| ≤ (1 - 1 / (N + 1)) * ((5 * N + 9) / 2 ^ 24) :=
      mul_le_mul hq i (abs_nonneg _) (hq0.le.trans hq)
    have b3 : (4.2 + 2.2 / N) / 2 ^ 24 ≤ 1 / (N + 1) * ((5 * N + 9) / 2 ^ 24) := by
      rw [div_mul_div_comm, one_mul, div_le_div_iff₀ (by norm_num) (by positivity)]
      have : 2.2 / N * (N + 1) = 2.2 + 2.2 / N := by field_simp
      have h22 : 2.2 / N ≤ 2.2 := by rw [div_le_iff₀ hNp]; linarith
      nlinarith
    have e3 : (4.2 + 2.2 / N) / 2 ^ 24 = (2.2 + 2.2 / N) / 2 ^ 24 + 2 / 2 ^ 24 := by ring
    rw [e3] at b3
    generalize (2.2 + 2.2 / N) / 2 ^ 24 = A at *
    generalize (5 * N + 9) / (2:ℝ) ^ 24 = B at *
    linarith

/-- How far an approaching stage with time constant `N` samples may be from its exact curve after `n` samples: the last rounding of every
sample, carried over `N + 1` samples, and the error of the coefficient, which fades with the curve. -/
noncomputable def settleTol (N : ℝ) (n : ℕ) : ℝ := (0.55 * (N + 1) + (4.2 + 2.2 / N) * n * Real.exp (-((n - 1) / N))) / 2 ^ 24

/-- An exponential approach with a rounding error that fades with the distance. -/
theorem settle_fine {x : ℕ → ℝ} {c N : ℝ} (h1 : 1 ≤ N) (h2 : N ≤ 2 ^ 15)
    (hc : |c - Real.exp (-(1 / N))| ≤ (2.2 + 2.2 / N) / 2 ^ 24) (n : ℕ)
    (hs : ∀ m < n, |x (m + 1) - c * x m| ≤ (0.501 + 2 * |x m|) / 2 ^ 24 ∧ |x (m + 1) - c * x m| ≤ 2 / 2 ^ 24) (hx : ∀ m, |x m| ≤ 1) :
    |x n - x 0 * Real.exp (-(n / N))| ≤ settleTol N n := by
  have hNp : 0 < N := by linarith
  have hq : Real.exp (-(1 / N)) ≤ 1 - 1 / (N + 1) := by
    have h := Real.add_one_le_exp (1 / N)
    rw [Real.exp_neg]
    have : (1 / N + 1)⁻¹ = 1 - 1 / (N + 1) := by field_simp; ring
    rw [← this]
    exact inv_anti₀ (by positivity) h
  have hq0 := Real.exp_pos (-(1 / N))
  unfold settleTol
  induction n with
  | zero => simp; positivity
  | succ n ih =>
    have i := ih (fun m hm => hs m (by omega))
    have s := (hs n (by omega)).1
    have b := settle h1 hc n (fun m hm => (hs m (by omega)).2) (fun m _ => hx m)
    have e : Real.exp (-(((n + 1 : ℕ) : ℝ) / N)) = Real.exp (-(1 / N)) * Real.exp (-(n / N)) := by
      rw [← Real.exp_add]; congr 1; push_cast; ring
    have e' : Real.exp (-((((n + 1 : ℕ) : ℝ) - 1) / N)) = Real.exp (-(n / N)) := by congr 1; push_cast; ring
    have e'' : Real.exp (-(1 / N)) * Real.exp (-(((n:ℝ) - 1) / N)) = Real.exp (-(n / N)) := by rw [← Real.exp_add]; congr 1; ring
    rw [e, e']
    have hx0 := hx 0
    have hp := Real.exp_pos (-((n:ℝ) / N))
    generalize Real.exp (-((n:ℝ) / N)) = p at *
    generalize Real.exp (-(((n:ℝ) - 1) / N)) = p' at *
    set q := Real.exp (-(1 / N)) with hqd
    have hxn : |x n| ≤ p + (5 * N + 9) / 2 ^ 24 := by
      have h3 := abs_sub_abs_le_abs_sub (x n) (x 0 * p)
      have h4 : |x 0 * p| ≤ p := by rw [abs_mul, abs_of_pos hp]; exact mul_le_of_le_one_left hp.le hx0
      linarith
    have e2 : x (n + 1) - x 0 * (q * p) = (x (n + 1) - c * x n) + (c - q) * x n + q * (x n - x 0 * p) := by ring
    rw [e2]
    refine (abs_add_le _ _).trans ((add_le_add_left (abs_add_le _ _) _).trans ?_)
    rw [abs_mul, abs_mul, abs_of_pos hq0]
    have b1 : |c - q| * |x n| ≤ (2.2 + 2.2 / N) / 2 ^ 24 * |x n| := mul_le_mul_of_nonneg_right hc (abs_nonneg _)
    have h22 : 2.2 / N ≤ 2.2 := by rw [div_le_iff₀ hNp]; linarith
    have h22' : 0 ≤ 2.2 / N := by positivity
    have h22N : 2.2 / N * N = 2.2 := by field_simp
    have b2 : q * |x n - x 0 * p| ≤ (1 - 1 / (N + 1)) * (0.55 * (N + 1) / 2 ^ 24) + (4.2 + 2.2 / N) * n * p / 2 ^ 24 := by
      calc q * |x n - x 0 * p| ≤ q * ((0.55 * (N + 1) + (4.2 + 2.2 / N) * n * p') / 2 ^ 24) := mul_le_mul_of_nonneg_left i hq0.le
        _ = q * (0.55 * (N + 1) / 2 ^ 24) + (4.2 + 2.2 / N) * n * (q * p') / 2 ^ 24 := by ring
        _ ≤ _ := by rw [e'']; gcongr
    have b3 : (1 - 1 / (N + 1)) * (0.55 * (N + 1) / 2 ^ 24) = 0.55 * (N + 1) / 2 ^ 24 - 0.55 / 2 ^ 24 := by field_simp
    have b4 : (4.2 + 2.2 / N) * |x n| ≤ (4.2 + 2.2 / N) * p + 0.045 := by
      refine (mul_le_mul_of_nonneg_left hxn (by positivity)).trans ?_
      rw [mul_add]
      refine add_le_add le_rfl ?_
      rw [mul_div_assoc', div_le_iff₀ (by norm_num)]
      nlinarith
    push_cast
    generalize 2.2 / N = z at *
    rw [b3] at b2
    have b5 : (2.2 + z) / 2 ^ 24 * |x n| = ((2.2 + z) * |x n|) / 2 ^ 24 := by ring
    rw [b5] at b1
    have : (0.501 + 2 * |x n|) / 2 ^ 24 + (2.2 + z) * |x n| / 2 ^ 24 + (0.55 * (N + 1) / 2 ^ 24 - 0.55 / 2 ^ 24 + (4.2 + z) * n * p / 2 ^ 24) ≤
        (0.55 * (N + 1) + (4.2 + z) * (n + 1) * p) / 2 ^ 24 := by
      have : (0.501 + 2 * |x n|) + (2.2 + z) * |x n| - 0.55 ≤ (4.2 + z) * p := by linarith
      have := div_le_div_of_nonneg_right this (show (0:ℝ) ≤ 2 ^ 24 by norm_num)
      refine le_trans (le_of_eq ?_) ((add_le_add_right this ((0.55 * (N + 1) + (4.2 + z) * n * p) / 2 ^ 24)).trans (le_of_eq ?_)) <;> ring
    linarith

theorem settleTol_pos {N : ℝ} (h : 1 ≤ N) (n : ℕ) : 0 ≤ settleTol N n := by
  have : 0 < N := by linarith
  unfold settleTol; positivity

/-- Late in the stage the tolerance is that of the last roundings. -/
theorem settleTol_late {N : ℝ} (h : 1 ≤ N) (n : ℕ) :
    settleTol N n ≤ (0.55 * (N + 1) + (4.2 * N + 2.2) * Real.exp (1 / N) * Real.exp (-(n / N / 2))) / 2 ^ 24 := by
  have hN : 0 < N := by linarith
  have e : Real.exp (-(((n:ℝ) - 1) / N)) = Real.exp (1 / N) * (Real.exp (-(n / N / 2)) * Real.exp (-(n / N / 2))) := by
    rw [← Real.exp_add, ← Real.exp_add]; congr 1; ring
  have h1 : (n:ℝ) * Real.exp (-(n / N / 2)) ≤ N := by
    rw [Real.exp_neg, ← div_eq_mul_inv, div_le_iff₀ (Real.exp_pos _)]
    have a := Real.add_one_le_exp (n / N / 2 - 1)
    have b : Real.exp (n / N / 2 - 1) * 2 ≤ Real.exp (n / N / 2) := by
      rw [Real.exp_sub, div_mul_eq_mul_div, div_le_iff₀ (Real.exp_pos _)]
      have := Real.exp_one_gt_d9
      exact mul_le_mul_of_nonneg_left (by linarith) (Real.exp_pos _).le
    have c : (n:ℝ) = N * (n / N) := by field_simp
    calc (n:ℝ) = N * (n / N) := c
      _ ≤ _ := mul_le_mul_of_nonneg_left (by linarith) hN.le
  rw [settleTol, e]
  refine div_le_div_of_nonneg_right (add_le_add le_rfl ?_) (by norm_num)
  have h2 : (4.2 * N + 2.2) = (4.2 + 2.2 / N) * N := by field_simp
  rw [h2]
  calc (4.2 + 2.2 / N) * n * (Real.exp (1 / N) * (Real.exp (-(n / N / 2)) * Real.exp (-(n / N / 2))))
      = (4.2 + 2.2 / N) * (n * Real.exp (-(n / N / 2))) * (Real.exp (1 / N) * Real.exp (-(n / N / 2))) := by ring
    _ ≤ (4.2 + 2.2 / N) * N * (Real.exp (1 / N) * Real.exp (-(n / N / 2))) := by gcongr
    _ = _ := by ring

/-- The lower edge of the corridor falls as long as it is positive. -/
theorem settleTol_edge {N a : ℝ} (h : 1 ≤ N) {k n : ℕ} (hk : k ≤ n) (hp : 0 < a * Real.exp (-(n / N)) - settleTol N n) :
    a * Real.exp (-(n / N)) - settleTol N n ≤ a * Real.exp (-(k / N)) - settleTol N k := by
  have hN : 0 < N := by linarith
  set D := (4.2 + 2.2 / N) * Real.exp (1 / N) / 2 ^ 24 with hD
  have hD0 : 0 < D := by positivity
  have e : ∀ m : ℕ, a * Real.exp (-(m / N)) - settleTol N m = Real.exp (-(m / N)) * (a - D * m) - 0.55 * (N + 1) / 2 ^ 24 := by
    intro m
    have : Real.exp (-(((m:ℝ) - 1) / N)) = Real.exp (1 / N) * Real.exp (-(m / N)) := by rw [← Real.exp_add]; congr 1; ring
    rw [settleTol, this, hD]; ring
  rw [e] at hp
  rw [e, e]
  have hkn : (k:ℝ) ≤ n := by exact_mod_cast hk
  have h0 : 0 < a - D * n := by
    by_contra hn
    have := mul_nonpos_of_nonneg_of_nonpos (Real.exp_pos (-(n / N))).le (not_lt.1 hn)
    have : 0 < 0.55 * (N + 1) / 2 ^ 24 := by positivity
    linarith
  have h1 : Real.exp (-(n / N)) ≤ Real.exp (-(k / N)) := Real.exp_le_exp.2 (neg_le_neg (by gcongr))
  have h2 : a - D * n ≤ a - D * k := by nlinarith
  have := mul_le_mul h1 h2 h0.le (Real.exp_pos _).le
  linarith

/-- Relative rounding error. -/
theorem rel32 (x : ℚ) : |x - binary32.rnd x| ≤ |x| / 2 ^ 24 + 1 / 2 ^ 100 := by
  have := binary32.rnd_rel_err (K := ℚ) x
  simp only [Rat.cast_id] at this
  refine this.trans (add_le_add (le_of_eq ?_) ?_)
  · norm_num [binary32, div_eq_mul_inv]
  · norm_num [binary32]

/-- An approaching stage of any unit: `R` while it approaches, `I` when it has just ended. -/
theorem settle_stage [Libm F32] [LibmSpec] [LogSpec] {σ : Type} {u : ℕ → σ} {val : σ → F32} {R I : σ → Prop} {T sr c : F32} {N : ℝ}
    {next : F32 → F32} {close : F32 → Bool} {dist : F32 → ℝ}
    (hN : N = T.val * sr.val) (h1 : 1 ≤ N) (h2 : N ≤ 2 ^ 15) (hT : T.isFin = true) (hT0 : 0 < T.val) (hsr : sr.isFin = true)
    (hc : c = Libm.exp (-lit 1 / (T * sr))) (hR : R (u 0)) (hv : (val (u 0)).In 0 1) (hv0 : 0.001 ≤ |dist (val (u 0))|)
    (hnext : c.In 0 1 → ∀ v : F32, v.In 0 1 → (next v).In 0 1 ∧ |dist (next v) - c.val * dist v| ≤ (0.501 + 2 * |dist v|) / 2 ^ 24 ∧
      |dist (next v) - c.val * dist v| ≤ 2 / 2 ^ 24 ∧ |dist v| ≤ 1)
    (hclose : ∀ v : F32, v.In 0 1 → (close v = true → |dist v| ≤ 0.001 + 1 / 2 ^ 22) ∧ (close v = false → 0.001 - 1 / 2 ^ 22 ≤ |dist v|))
    (hs : ∀ n, R (u n) → if close (next (val (u n))) then I (u (n + 1)) else R (u (n + 1)) ∧ val (u (n + 1)) = next (val (u n))) (n : ℕ) :
    let d := dist (val (u 0)) * Real.exp (-(n / N))
    (0.001 + settleTol N n + 1 / 2 ^ 22 < |d| → R (u n) ∧ (val (u n)).In 0 1 ∧ |dist (val (u n)) - d| ≤ settleTol N n) ∧
    (|d| + settleTol N n + 1 / 2 ^ 22 < 0.001 → ∃ m ≤ n, I (u m)) := by
  intro d
  have hNp : 0 < N := by linarith
  have hs0 : 0 < sr.val := by
    by_contra h
    have h3 : (sr.val : ℝ) ≤ 0 := by exact_mod_cast not_lt.1 h
    have h4 : (0:ℝ) < T.val := by exact_mod_cast hT0
    nlinarith
  obtain ⟨c1, c2, c3⟩ := coeff_log hT hsr hN h1 (h2.trans (by norm_num))
  have cI := expCoeff_in (t := T) (sr := sr) (Or.inr ⟨hT, hT0⟩) (Or.inr ⟨hsr, hs0⟩)
  rw [← hc] at c1 c2 c3 cI
  have clin := coeff_lin h1 c2 c3
  -- the sequence without the stop
  let w : ℕ → F32 := fun m => next^[m] (val (u 0))
  have w1 : ∀ m, (w m).In 0 1 := by
    intro m
    induction m with
    | zero => exact hv
    | succ m ih => simp only [w, Function.iterate_succ_apply']; exact (hnext cI _ ih).1
  have near : ∀ m, |dist (w m) - dist (val (u 0)) * Real.exp (-(m / N))| ≤ settleTol N m := by
    intro m
    refine settle_fine (x := fun m => dist (w m)) h1 h2 clin m (fun k _ => ?_) (fun k => (hnext cI _ (w1 k)).2.2.2)
    simp only [w, Function.iterate_succ_apply']
    exact ⟨(hnext cI _ (w1 k)).2.1, (hnext cI _ (w1 k)).2.2.1⟩
  have main : ∀ m, (R (u m) ∧ val (u m) = w m ∧ (m ≠ 0 → close (w m) = false)) ∨ ∃ k ≤ m, I (u k) ∧ close (w k) = true := by
    intro m
    induction m with
    | zero => exact Or.inl ⟨hR, rfl, fun h => absurd rfl h⟩
    | succ m ih =>
      rcases ih with ⟨i1, i2, -⟩ | ⟨k, hk, i⟩
      · have := hs m i1
        rw [i2] at this
        have e : next (w m) = w (m + 1) := by simp only [w, Function.iterate_succ_apply']
        rw [e] at this
        split_ifs at this with hcl
        · exact Or.inr ⟨m + 1, le_rfl, this, hcl⟩
        · exact Or.inl ⟨this.1, this.2, fun _ => by simpa using hcl⟩
      · exact Or.inr ⟨k, by omega, i⟩
  have habs : ∀ m : ℕ, |dist (val (u 0)) * Real.exp (-(m / N))| = |dist (val (u 0))| * Real.exp (-(m / N)) := fun m => by
    rw [abs_mul, abs_of_pos (Real.exp_pos _)]
  constructor
  · intro h
    rcases main n with ⟨i1, i2, -⟩ | ⟨k, hk, -, i⟩
    · exact ⟨i1, by rw [i2]; exact w1 n, by rw [i2]; exact near n⟩
    · exfalso
      have h3 := (hclose _ (w1 k)).1 i
      have hdn : |d| = |dist (val (u 0))| * Real.exp (-(n / N)) := habs n
      have h4 := settleTol_edge (a := |dist (val (u 0))|) h1 hk (by rw [← hdn]; norm_num at h ⊢; linarith)
      rw [← hdn, ← habs k] at h4
      have h5 := abs_sub_abs_le_abs_sub (dist (val (u 0)) * Real.exp (-(k / N))) (dist (w k))
      rw [abs_sub_comm] at h5
      have h6 := near k
      linarith
  · intro h
    rcases main n with ⟨i1, i2, i3⟩ | ⟨k, hk, i, -⟩
    · exfalso
      have hE := settleTol_pos h1 n
      by_cases n0 : n = 0
      · subst n0
        have : d = dist (val (u 0)) := by simp [d]
        rw [this] at h
        norm_num at *
        linarith
      · have h3 := (hclose _ (w1 n)).2 (i3 n0)
        have h5 := abs_sub_abs_le_abs_sub (dist (w n)) d
        have h6 : |dist (w n) - d| ≤ settleTol N n := near n
        linarith
    · exact ⟨k, hk, i⟩

/-- The attack step. -/
theorem attack_next {c v : F32} (hc : c.In 0 1) (hv : v.In 0 1) :
    (lit 1 - c * (lit 1 - v) : F32).In 0 1 ∧
      |(1 - ((lit 1 - c * (lit 1 - v) : F32).val : ℝ)) - c.val * (1 - v.val)| ≤ (0.501 + 2 * |1 - (v.val : ℝ)|) / 2 ^ 24 ∧
      |(1 - ((lit 1 - c * (lit 1 - v) : F32).val : ℝ)) - c.val * (1 - v.val)| ≤ 2 / 2 ^ 24 ∧ |1 - (v.val : ℝ)| ≤ 1 := by
  have h1 : (lit 1 : F32).In 1 1 := lit_one
  have hu : (lit 1 - v : F32).In 0 1 := sub_in lit_one hv rep_zero rep_one (by norm_num) (by norm_num)
  have hp := release_in hc hu
  have u := (sub_val (x := lit 1) (y := v) h1.1 hv.1 rep_zero rep_one (by rw [h1.val_eq]; linarith [hv.2.2]) (by rw [h1.val_eq]; linarith [hv.2.1])).2
  have p := (mul_val hc.1 hu.1 rep_zero rep_one (mul_nonneg hc.2.1 hu.2.1) (mul_le_one₀ hc.2.2 hu.2.1 hu.2.2)).2
  have r := (sub_val (x := lit 1) (y := c * (lit 1 - v)) h1.1 hp.1 rep_zero rep_one (by rw [h1.val_eq]; linarith [hp.2.2])
    (by rw [h1.val_eq]; linarith [hp.2.1])).2
  rw [h1.val_eq] at u r
  refine ⟨attack_in hc hv, ?_, ?_, ?_⟩
  · have e1 := rel32 (1 - v.val)
    have e2 := rel32 (c.val * (lit 1 - v).val)
    have e3 := rnd_err_unit (x := 1 - (c * (lit 1 - v)).val) (by rw [abs_le]; constructor <;> linarith [hp.2.1, hp.2.2])
    rw [← u] at e1
    rw [← p] at e2
    rw [← r] at e3
    have hx0 : 0 ≤ 1 - v.val := by linarith [hv.2.2]
    have key : |(1 - (lit 1 - c * (lit 1 - v) : F32).val) - c.val * (1 - v.val)| ≤ (0.501 + 2 * |1 - v.val|) / 2 ^ 24 := by
      have e4 : |c.val * (1 - v.val - (lit 1 - v).val)| ≤ |1 - v.val| / 2 ^ 24 + 1 / 2 ^ 100 := by
        rw [abs_mul, abs_of_nonneg hc.2.1]
        exact (mul_le_of_le_one_left (abs_nonneg _) hc.2.2).trans e1
      have e5 : |c.val * (lit 1 - v).val| ≤ |1 - v.val| + |1 - v.val| / 2 ^ 24 + 1 / 2 ^ 100 := by
        rw [abs_mul, abs_of_nonneg hc.2.1]
        refine (mul_le_of_le_one_left (abs_nonneg _) hc.2.2).trans ?_
        have := abs_sub_abs_le_abs_sub (lit 1 - v : F32).val (1 - v.val)
        rw [abs_sub_comm (lit 1 - v : F32).val] at this
        linarith
      rw [abs_of_nonneg hx0] at *
      generalize |c.val * (lit 1 - v).val| = w at *
      have hx1 : 1 - v.val ≤ 1 := by linarith [hv.2.1]
      rw [abs_le] at e2 e3 e4 ⊢
      norm_num only at e2 e3 e4 e5 ⊢
      constructor <;> linarith [e2.1, e2.2, e3.1, e3.2, e4.1, e4.2]
    have := (Rat.cast_le (K := ℝ)).2 key
    push_cast at this
    exact this
  · have e1 := rnd_err_unit (x := 1 - v.val) (by rw [abs_le]; constructor <;> linarith [hv.2.1, hv.2.2])
    have e2 := rnd_err_unit (x := c.val * (lit 1 - v).val) (by
      rw [abs_of_nonneg (mul_nonneg hc.2.1 hu.2.1)]; exact mul_le_one₀ hc.2.2 hu.2.1 hu.2.2)
    have e3 := rnd_err_unit (x := 1 - (c * (lit 1 - v)).val) (by rw [abs_le]; constructor <;> linarith [hp.2.1, hp.2.2])
    rw [← u] at e1
    rw [← p] at e2
    rw [← r] at e3
    have key : |(1 - (lit 1 - c * (lit 1 - v) : F32).val) - c.val * (1 - v.val)| ≤ 2 / 2 ^ 24 := by
      have e4 : |c.val * (1 - v.val - (lit 1 - v).val)| ≤ 2 ^ (-25:ℤ) := by
        rw [abs_mul, abs_of_nonneg hc.2.1]
        exact (mul_le_of_le_one_left (abs_nonneg _) hc.2.2).trans e1
      rw [abs_le] at e2 e3 e4 ⊢
      norm_num only at e2 e3 e4 ⊢
      constructor <;> linarith [e2.1, e2.2, e3.1, e3.2, e4.1, e4.2]
    have := (Rat.cast_le (K := ℝ)).2 key
    push_cast at this
    exact this
  · have a : |1 - v.val| ≤ 1 := by rw [abs_le]; constructor <;> linarith [hv.2.1, hv.2.2]
    exact_mod_cast a

/-- The threshold of the attack. -/
theorem attack_close {v : F32} (hv : v.In 0 1) : ((v >=. lit 0.999) = true → |1 - (v.val : ℝ)| ≤ 0.001 + 1 / 2 ^ 22) ∧
    ((v >=. lit 0.999) = false → 0.001 - 1 / 2 ^ 22 ≤ |1 - (v.val : ℝ)|) := by
  have hl : (lit 0.999 : F32).In (0.999 - 1 / 2 ^ 24) (0.999 + 1 / 2 ^ 24) := ⟨by decide +kernel, by decide +kernel, by decide +kernel⟩
  have hv1 : (v.val : ℝ) ≤ 1 := by exact_mod_cast hv.2.2
  have l1 : (0.999 - 1 / 2 ^ 24 : ℝ) ≤ (lit 0.999 : F32).val := by
    have : ((0.999 - 1 / 2 ^ 24 : ℚ) : ℝ) ≤ (lit 0.999 : F32).val := by exact_mod_cast hl.2.1
    push_cast at this; exact this
  have l2 : ((lit 0.999 : F32).val : ℝ) ≤ 0.999 + 1 / 2 ^ 24 := by
    have : ((lit 0.999 : F32).val : ℝ) ≤ ((0.999 + 1 / 2 ^ 24 : ℚ) : ℝ) := by exact_mod_cast hl.2.2
    push_cast at this; exact this
  rw [abs_of_nonneg (by linarith)]
  constructor
  · intro h
    rw [le_fin hl.1 hv.1] at h
    have : ((lit 0.999 : F32).val : ℝ) ≤ v.val := by exact_mod_cast of_decide_eq_true h
    generalize ((lit 0.999 : F32).val : ℝ) = L at *
    norm_num at l1 l2 ⊢; linarith
  · intro h
    rw [le_fin hl.1 hv.1] at h
    have : (v.val : ℝ) < (lit 0.999 : F32).val := by exact_mod_cast not_le.1 (of_decide_eq_false h)
    generalize ((lit 0.999 : F32).val : ℝ) = L at *
    norm_num at l1 l2 ⊢; linarith

/-- The decay step. -/
theorem decay_next {c v S : F32} (hS : S.In 0 1) (hc : c.In 0 1) (hv : v.In 0 1) :
    (S + c * (v - S) : F32).In 0 1 ∧
      |(((S + c * (v - S) : F32).val : ℝ) - S.val) - c.val * (v.val - S.val)| ≤ (0.501 + 2 * |(v.val : ℝ) - S.val|) / 2 ^ 24 ∧
      |(((S + c * (v - S) : F32).val : ℝ) - S.val) - c.val * (v.val - S.val)| ≤ 2 / 2 ^ 24 ∧ |(v.val : ℝ) - S.val| ≤ 1 := by
  have rm1 : binary32.Rep (-1) false := Rep.neg rep_one
  have r2 : binary32.Rep 2 false := by decide +kernel
  have d1 : |v.val - S.val| ≤ 1 := by rw [abs_le]; constructor <;> linarith [hv.2.1, hv.2.2, hS.2.1, hS.2.2]
  have hu := sub_val (x := v) (y := S) hv.1 hS.1 rm1 rep_one (abs_le.1 d1).1 (abs_le.1 d1).2
  have hu1 : (v - S).In (-1) 1 := sub_in hv hS rm1 rep_one (by norm_num) (by norm_num)
  have q : |c.val * (v - S).val| ≤ 1 := by
    rw [abs_mul, abs_of_nonneg hc.2.1]
    exact mul_le_one₀ hc.2.2 (abs_nonneg _) (abs_le.2 ⟨hu1.2.1, hu1.2.2⟩)
  have hp := mul_val hc.1 hu1.1 rm1 rep_one (abs_le.1 q).1 (abs_le.1 q).2
  have hp1 : (c * (v - S)).In (-1) 1 := mul_in hc.1 hu1.1 rm1 rep_one (abs_le.1 q).1 (abs_le.1 q).2
  have hr := add_val (x := S) (y := c * (v - S)) hS.1 hp1.1 (Rep.neg r2) r2 (by linarith [hS.2.1, hp1.2.1]) (by linarith [hS.2.2, hp1.2.2])
  have e1 := rnd_err_unit d1
  have e2 := rnd_err_unit q
  rw [← hu.2] at e1
  rw [← hp.2] at e2
  have r1 := rel32 (v.val - S.val)
  have r2 := rel32 (c.val * (v - S).val)
  rw [← hu.2] at r1
  rw [← hp.2] at r2
  have hin := decay_in hc hv hS
  have e4 : |c.val * (v.val - S.val - (v - S).val)| ≤ 2 ^ (-25:ℤ) := by
    rw [abs_mul, abs_of_nonneg hc.2.1]
    exact (mul_le_of_le_one_left (abs_nonneg _) hc.2.2).trans e1
  have b1 : c.val * (v.val - S.val) ≤ 1 - S.val := by nlinarith [hv.2.2, hS.2.2, hc.2.1, hc.2.2]
  have b2 : - S.val ≤ c.val * (v.val - S.val) := by nlinarith [hv.2.1, hS.2.1, hc.2.1, hc.2.2]
  -- the last rounding
  have e3 : |(S.val + (c * (v - S)).val) - (S + c * (v - S)).val| ≤ 2 ^ (-25:ℤ) := by
    by_cases hle : S.val + (c * (v - S)).val ≤ 1
    · have := rnd_err_unit (x := S.val + (c * (v - S)).val) (by
        rw [abs_le]; exact ⟨by linarith [hS.2.1, hp1.2.1], hle⟩)
      rw [hr.2]; exact this
    · -- above 1 it is rounded down to 1
      have hge : 1 ≤ (S + c * (v - S)).val := by
        rw [hr.2]
        exact binary32.le_rnd_of_le (K := ℚ) rep_one.1 (by simpa using (not_le.1 hle).le)
      have heq : (S + c * (v - S)).val = 1 := le_antisymm hin.2.2 hge
      -- the product is at most the rounded distance to 1
      have hpu : S.val + (c * (v - S)).val ≤ 1 + 2 ^ (-25:ℤ) := by
        have hu0 : 0 ≤ (v - S).val := by
          by_contra hneg
          have : (c * (v - S)).val ≤ 0 := by
            rw [hp.2]
            exact binary32.rnd_le_of_le (K := ℚ) rep_zero.1 (by simpa using mul_nonpos_of_nonneg_of_nonpos hc.2.1 (not_le.1 hneg).le)
          linarith [hS.2.2]
        have hpl : (c * (v - S)).val ≤ (v - S).val := by
          rw [hp.2]
          exact binary32.rnd_le_of_le (K := ℚ) (rep_val (v - S)).1 (by simpa using mul_le_of_le_one_left hu0 hc.2.2)
        have := (abs_le.1 e1).1
        linarith [hv.2.2]
      rw [heq, abs_of_nonneg (by linarith [not_le.1 hle])]
      linarith
  refine ⟨hin, ?_, ?_, by exact_mod_cast d1⟩
  · have key : |((S + c * (v - S) : F32).val - S.val) - c.val * (v.val - S.val)| ≤ (0.501 + 2 * |v.val - S.val|) / 2 ^ 24 := by
      have e4 : |c.val * (v.val - S.val - (v - S).val)| ≤ |v.val - S.val| / 2 ^ 24 + 1 / 2 ^ 100 := by
        rw [abs_mul, abs_of_nonneg hc.2.1]
        exact (mul_le_of_le_one_left (abs_nonneg _) hc.2.2).trans r1
      have e5 : |c.val * (v - S).val| ≤ |v.val - S.val| + |v.val - S.val| / 2 ^ 24 + 1 / 2 ^ 100 := by
        rw [abs_mul, abs_of_nonneg hc.2.1]
        refine (mul_le_of_le_one_left (abs_nonneg _) hc.2.2).trans ?_
        have := abs_sub_abs_le_abs_sub (v - S : F32).val (v.val - S.val)
        rw [abs_sub_comm (v - S : F32).val] at this
        linarith
      clear e1 e2
      generalize |c.val * (v - S).val| = w at *
      generalize |v.val - S.val| = z at *
      rw [abs_le] at r2 e3 e4 ⊢
      norm_num only at r2 e3 e4 e5 d1 ⊢
      constructor <;> linarith [r2.1, r2.2, e3.1, e3.2, e4.1, e4.2]
    have := (Rat.cast_le (K := ℝ)).2 key
    push_cast at this
    exact this
  · have key : |((S + c * (v - S) : F32).val - S.val) - c.val * (v.val - S.val)| ≤ 2 / 2 ^ 24 := by
      rw [abs_le] at e2 e3 e4 ⊢
      norm_num only at e2 e3 e4 ⊢
      constructor <;> linarith [e2.1, e2.2, e3.1, e3.2, e4.1, e4.2]
    have := (Rat.cast_le (K := ℝ)).2 key
    push_cast at this
    exact this

/-- The threshold of the decay. -/
theorem decay_close {v S : F32} (hS : S.In 0 1) (hv : v.In 0 1) :
    ((Arith.fabs (v - S) <. lit 0.001) = true → |(v.val : ℝ) - S.val| ≤ 0.001 + 1 / 2 ^ 22) ∧
    ((Arith.fabs (v - S) <. lit 0.001) = false → 0.001 - 1 / 2 ^ 22 ≤ |(v.val : ℝ) - S.val|) := by
  have rm1 : binary32.Rep (-1) false := Rep.neg rep_one
  have d1 : |v.val - S.val| ≤ 1 := by rw [abs_le]; constructor <;> linarith [hv.2.1, hv.2.2, hS.2.1, hS.2.2]
  have hu := sub_val (x := v) (y := S) hv.1 hS.1 rm1 rep_one (abs_le.1 d1).1 (abs_le.1 d1).2
  have e1 := rnd_err_unit d1
  rw [← hu.2] at e1
  have hl : (lit 0.001 : F32).In (0.001 - 1 / 2 ^ 24) (0.001 + 1 / 2 ^ 24) := ⟨by decide +kernel, by decide +kernel, by decide +kernel⟩
  obtain ⟨f1, f2⟩ := fabs_val (x := v - S) hu.1
  rw [lt_fin f1 hl.1, f2]
  have h3 := abs_sub_abs_le_abs_sub (v.val - S.val) (v - S).val
  have h4 := abs_sub_abs_le_abs_sub (v - S).val (v.val - S.val)
  rw [abs_sub_comm (v - S).val] at h4
  have c1 : |v.val - S.val| ≤ 0.001 + 1 / 2 ^ 22 → |(v.val : ℝ) - S.val| ≤ 0.001 + 1 / 2 ^ 22 := by
    intro h
    have : ((|v.val - S.val| : ℚ) : ℝ) ≤ ((0.001 + 1 / 2 ^ 22 : ℚ) : ℝ) := by exact_mod_cast h
    push_cast at this; exact this
  have c2 : 0.001 - 1 / 2 ^ 22 ≤ |v.val - S.val| → 0.001 - 1 / 2 ^ 22 ≤ |(v.val : ℝ) - S.val| := by
    intro h
    have : ((0.001 - 1 / 2 ^ 22 : ℚ) : ℝ) ≤ ((|v.val - S.val| : ℚ) : ℝ) := by exact_mod_cast h
    push_cast at this; exact this
  obtain ⟨-, l1, l2⟩ := hl
  refine ⟨fun h => c1 ?_, fun h => c2 ?_⟩
  · have := of_decide_eq_true h
    norm_num at *; linarith
  · have := not_lt.1 (of_decide_eq_false h)
    norm_num at *; linarith

namespace EnvelopeAR

/-- Every history of calls leaves the coefficients in step with the times, in every number format. -/
theorem coeffs_run {α : Type} [Arith α] [Libm α] (sr : α) (ops : List (Op α)) :
    let s := run (init sr) ops
    s.attackCoeff = Libm.exp (-lit 1 / (s.attackTime * s.sampleRate)) ∧ s.releaseCoeff = Libm.exp (-lit 1 / (s.releaseTime * s.sampleRate)) := by
  let I : Env α → Prop := fun s =>
    s.attackCoeff = Libm.exp (-lit 1 / (s.attackTime * s.sampleRate)) ∧ s.releaseCoeff = Libm.exp (-lit 1 / (s.releaseTime * s.sampleRate))
  have ht : ∀ s : Env α, I s → I (tick s).1 := by
    intro s h
    obtain ⟨a, b, c, d, e, -⟩ := tick_settings s
    show _ ∧ _
    rw [a, b, c, d, e]; exact h
  have hstep : ∀ (s : Env α) (op : Op α), I s → I (step s op).1 := by
    intro s op h
    cases op with
    | init sr => exact ⟨rfl, rfl⟩
    | setAttack t => exact ⟨rfl, h.2⟩
    | setRelease t => exact ⟨h.1, rfl⟩
    | trigger => exact h
    | release => exact h
    | setGate g =>
      show I (setGate g s)
      unfold setGate; split_ifs <;> exact h
    | tick => exact ht s h
    | process buf => exact (forEach_inv (P := fun _ _ => True) (fun s _ h => ⟨ht s h, trivial⟩) h buf).1
    | processMul buf =>
      exact (forEach_inv (step := fun s b => let (s', o) := tick s; (s', b * o)) (P := fun _ _ => True) (fun s _ h => ⟨ht s h, trivial⟩) h buf).1
    | reset => exact h
  show I (run (init sr) ops)
  unfold run
  have h0 : I (init sr) := ⟨rfl, rfl⟩
  generalize init sr = s0 at *
  induction ops generalizing s0 with
  | nil => exact h0
  | cons op ops ih => exact ih _ (hstep s0 op h0)

/-- **C93, release of EnvelopeAR** (binary32): with `N` the number of samples in the release time (up to `2^20`), a release from the level `v`
follows the exponential curve and ends after `N ln (10000 v)` samples; the curve and the time are met up to the factor
`1 ± (4 N + 3) 2^-24` on the time. -/
theorem C93_ar_release [Libm F32] [LibmSpec] [LogSpec] (s : Env F32) (N : ℝ) (hN : N = s.releaseTime.val * s.sampleRate.val) (h1 : 1 ≤ N)
    (h2 : N ≤ 2 ^ 20) (hT : s.releaseTime.isFin = true) (hT0 : 0 < s.releaseTime.val) (hsr : s.sampleRate.isFin = true)
    (hc : s.releaseCoeff = Libm.exp (-lit 1 / (s.releaseTime * s.sampleRate)))
    (hst : s.state = .release) (hv : s.value.In 0 1) (hv0 : (0.0001:ℝ) ≤ s.value.val) (n : ℕ) :
    let κ := (4 * N + 3) / 2 ^ 24
    let s' := tickState tick n s
    (n / N * (1 + κ) + 1 / 2 ^ 22 < Real.log (s.value.val / 0.0001) → s'.state = .release ∧ s'.value.In 0 1 ∧ 0 < s'.value.val ∧
        |Real.log s'.value.val - (Real.log s.value.val - n / N)| ≤ n / N * κ) ∧
    (Real.log (s.value.val / 0.0001) + 1 / 2 ^ 22 ≤ n / N * (1 - κ) → s'.state = .idle ∧ s'.value = lit 0) := by
  intro κ s'
  have key := fade_stage (u := fun n => tickState tick n s) (val := fun s => s.value) (c := s.releaseCoeff)
    (R := fun u => u.state = .release ∧ u.releaseCoeff = s.releaseCoeff)
    (I := fun u => u.state = .idle ∧ u.value = lit 0) hN h1 h2 hT hT0 hsr hc ⟨hst, rfl⟩ hv hv0 ?_ ?_ ?_ n
  · exact ⟨fun h => ⟨(key.1 h).1.1, (key.1 h).2⟩, key.2⟩
  · rintro n ⟨i1, i2⟩
    simp only [tickState_succ]
    generalize tickState tick n s = u at *
    rw [← i2]
    unfold tick; rw [i1]
    dsimp only
    by_cases h : ((u.releaseCoeff * u.value) <=. lit 0.0001) = true
    · rw [if_pos h, if_pos h]; exact ⟨rfl, rfl⟩
    · rw [if_neg h, if_neg h]; exact ⟨⟨rfl, rfl⟩, rfl⟩
  · rintro n ⟨i1, i2⟩
    simp only [tickState_succ]
    generalize tickState tick n s = u at *
    unfold tick; rw [i1]; exact ⟨rfl, rfl⟩
  · rintro x ⟨h, -⟩ ⟨h', -⟩
    rw [h] at h'; cases h'

/-- **C93, attack of EnvelopeAR** (binary32): with `N` the number of samples in the attack time, an attack from the level `v` follows the
exponential curve `1 - (1 - v) exp (-n / N)` within `(5 N + 9) 2^-24` as long as that curve is clearly below 0.999, and puts out exactly 1 for
ever once it is clearly above. -/
theorem C93_ar_attack [Libm F32] [LibmSpec] [LogSpec] (s : Env F32) (N : ℝ) (hN : N = s.attackTime.val * s.sampleRate.val) (h1 : 1 ≤ N)
    (h2 : N ≤ 2 ^ 15) (hT : s.attackTime.isFin = true) (hT0 : 0 < s.attackTime.val) (hsr : s.sampleRate.isFin = true)
    (hc : s.attackCoeff = Libm.exp (-lit 1 / (s.attackTime * s.sampleRate)))
    (hst : s.state = .attack) (hg : s.gate = true) (hv : s.value.In 0 1) (hv0 : (s.value.val : ℝ) ≤ 0.999) (n : ℕ) :
    let E := settleTol N n
    let s' := tickState tick n s
    let d := (1 - s.value.val) * Real.exp (-(n / N))
    (0.001 + E + 1 / 2 ^ 22 < d → s'.state = .attack ∧ s'.value.In 0 1 ∧ |(s'.value.val : ℝ) - (1 - d)| ≤ E) ∧
    (d + E + 1 / 2 ^ 22 < 0.001 → s'.state = .attack ∧ s'.value = lit 1) := by
  intro E s' d
  have hd : 0 < d := mul_pos (by linarith) (Real.exp_pos _)
  have hsr0 : 0 < s.sampleRate.val := by
    by_contra h
    have h3 : (s.sampleRate.val : ℝ) ≤ 0 := by exact_mod_cast not_lt.1 h
    have h4 : (0:ℝ) < s.attackTime.val := by exact_mod_cast hT0
    nlinarith
  have cI : s.attackCoeff.In 0 1 := by rw [hc]; exact expCoeff_in (Or.inr ⟨hT, hT0⟩) (Or.inr ⟨hsr, hsr0⟩)
  have hone : ((lit 1 - s.attackCoeff * (lit 1 - lit 1) : F32) >=. lit 0.999) = true := by
    by_contra h
    have l : (lit 1 : F32).In 0 1 := lit_one.mono (by norm_num) le_rfl
    obtain ⟨a, b, -⟩ := attack_next cI l
    have e := (attack_close a).2 (by simpa using h)
    rw [lit_one.val_eq] at b
    norm_num at b e
    linarith
  let I : Env F32 → Prop := fun u => u.state = .attack ∧ u.gate = true ∧ u.attackCoeff = s.attackCoeff ∧ u.value = lit 1
  have hI : ∀ u, I u → I (tick u).1 := by
    rintro u ⟨i1, i2, i3, i4⟩
    unfold tick; rw [i1]
    dsimp only
    rw [i3, i4, if_pos hone, i2]
    exact ⟨rfl, rfl, rfl, rfl⟩
  have key := settle_stage (u := fun n => tickState tick n s) (val := fun s => s.value) (c := s.attackCoeff)
    (next := fun v => lit 1 - s.attackCoeff * (lit 1 - v)) (close := fun v => v >=. lit 0.999) (dist := fun v => 1 - (v.val : ℝ))
    (R := fun u => u.state = .attack ∧ u.gate = true ∧ u.attackCoeff = s.attackCoeff)
    (I := I) hN h1 h2 hT hT0 hsr hc ⟨hst, hg, rfl⟩ hv
    (by simp only [tickState_zero]; rw [abs_of_nonneg (by linarith)]; linarith) (fun hc v hv => attack_next hc hv)
    (fun v hv => attack_close hv) ?_ n
  · simp only [tickState_zero] at key
    rw [show |(1 - (s.value.val : ℝ)) * Real.exp (-(n / N))| = d from abs_of_pos hd] at key
    refine ⟨fun h => ?_, fun h => ?_⟩
    · obtain ⟨k1, k2, k3⟩ := key.1 h
      refine ⟨k1.1, k2, ?_⟩
      rw [abs_sub_comm] at k3
      have e : d - (1 - ((tickState tick n s).value.val : ℝ)) = (tickState tick n s).value.val - (1 - d) := by ring
      rw [← e]; exact k3
    · obtain ⟨m, hm, k⟩ := key.2 h
      obtain ⟨j, rfl⟩ := Nat.exists_eq_add_of_le hm
      have : I (tickState tick (m + j) s) := by
        clear * - k hI
        induction j with
        | zero => exact k
        | succ j ih => rw [← Nat.add_assoc, tickState_succ]; exact hI _ ih
      exact ⟨this.1, this.2.2.2⟩
  · rintro n ⟨i1, i2, i3⟩
    simp only [tickState_succ]
    generalize tickState tick n s = u at *
    rw [← i3]
    unfold tick; rw [i1]
    dsimp only
    by_cases h : ((lit 1 - u.attackCoeff * (lit 1 - u.value)) >=. lit 0.999) = true
    · rw [if_pos h, if_pos h, i2]; exact ⟨rfl, rfl, i3, rfl⟩
    · rw [if_neg h, if_neg h]; exact ⟨⟨rfl, i2, rfl⟩, rfl⟩

end EnvelopeAR

namespace EnvelopeADSR

/-- Every history of calls leaves the coefficients in step with the times, in every number format. -/
theorem coeffs_run {α : Type} [Arith α] [Libm α] (sr : α) (ops : List (Op α)) :
    let s := run (init sr) ops
    s.attackCoeff = Libm.exp (-lit 1 / (s.attackTime * s.sampleRate)) ∧ s.decayCoeff = Libm.exp (-lit 1 / (s.decayTime * s.sampleRate)) ∧
      s.releaseCoeff = Libm.exp (-lit 1 / (s.releaseTime * s.sampleRate)) := by
  let I : Env α → Prop := fun s =>
    s.attackCoeff = Libm.exp (-lit 1 / (s.attackTime * s.sampleRate)) ∧ s.decayCoeff = Libm.exp (-lit 1 / (s.decayTime * s.sampleRate)) ∧
      s.releaseCoeff = Libm.exp (-lit 1 / (s.releaseTime * s.sampleRate))
  have ht : ∀ s : Env α, I s → I (tick s).1 := by
    intro s h
    have e := tick_settings s
    simp only [settings, Prod.mk.injEq] at e
    obtain ⟨⟨a, b, c⟩, ⟨d, e, f⟩, g, -⟩ := e
    show _ ∧ _ ∧ _
    rw [a, b, c, d, e, f, g]; exact h
  have hstep : ∀ (s : Env α) (op : Op α), I s → I (step s op).1 := by
    intro s op h
    cases op with
    | init sr => exact ⟨rfl, rfl, rfl⟩
    | setAttack t => exact ⟨rfl, h.2⟩
    | setDecay t => exact ⟨h.1, rfl, h.2.2⟩
    | setRelease t => exact ⟨h.1, h.2.1, rfl⟩
    | setSustain l => exact h
    | setDoneAction a => exact h
    | gate g =>
      show I (gate g s)
      unfold gate; dsimp only; split_ifs <;> exact h
    | tick => exact ht s h
    | process buf => exact (forEach_inv (P := fun _ _ => True) (fun s _ h => ⟨ht s h, trivial⟩) h buf).1
    | processMul buf =>
      exact (forEach_inv (step := fun s b => let (s', o) := tick s; (s', b * o)) (P := fun _ _ => True) (fun s _ h => ⟨ht s h, trivial⟩) h buf).1
    | reset => exact h
  show I (run (init sr) ops)
  unfold run
  have h0 : I (init sr) := ⟨rfl, rfl, rfl⟩
  generalize init sr = s0 at *
  induction ops generalizing s0 with
  | nil => exact h0
  | cons op ops ih => exact ih _ (hstep s0 op h0)

/-- **C93, release of EnvelopeADSR** (binary32). -/
theorem C93_adsr_release [Libm F32] [LibmSpec] [LogSpec] (s : Env F32) (N : ℝ) (hN : N = s.releaseTime.val * s.sampleRate.val) (h1 : 1 ≤ N)
    (h2 : N ≤ 2 ^ 20) (hT : s.releaseTime.isFin = true) (hT0 : 0 < s.releaseTime.val) (hsr : s.sampleRate.isFin = true)
    (hc : s.releaseCoeff = Libm.exp (-lit 1 / (s.releaseTime * s.sampleRate)))
    (hst : s.state = .release) (hv : s.value.In 0 1) (hv0 : (0.0001:ℝ) ≤ s.value.val) (n : ℕ) :
    let κ := (4 * N + 3) / 2 ^ 24
    let s' := tickState tick n s
    (n / N * (1 + κ) + 1 / 2 ^ 22 < Real.log (s.value.val / 0.0001) → s'.state = .release ∧ s'.value.In 0 1 ∧ 0 < s'.value.val ∧
        |Real.log s'.value.val - (Real.log s.value.val - n / N)| ≤ n / N * κ) ∧
    (Real.log (s.value.val / 0.0001) + 1 / 2 ^ 22 ≤ n / N * (1 - κ) → s'.state = .idle ∧ s'.value = lit 0 ∧ isDone s' = true) := by
  intro κ s'
  have key := fade_stage (u := fun n => tickState tick n s) (val := fun s => s.value) (c := s.releaseCoeff)
    (R := fun u => u.state = .release ∧ u.releaseCoeff = s.releaseCoeff)
    (I := fun u => u.state = .idle ∧ u.value = lit 0 ∧ u.done = true) hN h1 h2 hT hT0 hsr hc ⟨hst, rfl⟩ hv hv0 ?_ ?_ ?_ n
  · exact ⟨fun h => ⟨(key.1 h).1.1, (key.1 h).2⟩, key.2⟩
  · rintro n ⟨i1, i2⟩
    simp only [tickState_succ]
    generalize tickState tick n s = u at *
    rw [← i2]
    unfold tick; rw [i1]
    dsimp only
    by_cases h : ((u.releaseCoeff * u.value) <=. lit 0.0001) = true
    · rw [if_pos h, if_pos h]; exact ⟨rfl, rfl, rfl⟩
    · rw [if_neg h, if_neg h]; exact ⟨⟨rfl, rfl⟩, rfl⟩
  · rintro n ⟨i1, i2, i3⟩
    simp only [tickState_succ]
    generalize tickState tick n s = u at *
    unfold tick; rw [i1]; exact ⟨rfl, rfl, i3⟩
  · rintro x ⟨h, -⟩ ⟨h', -⟩
    rw [h] at h'; cases h'

/-- **C93, attack of EnvelopeADSR** (binary32), with the gate held: the decay starts, at exactly 1, no later than `n` samples after the attack
began when the exponential curve is clearly above 0.999 by then, and not before the curve is near 0.999. -/
theorem C93_adsr_attack [Libm F32] [LibmSpec] [LogSpec] (s : Env F32) (N : ℝ) (hN : N = s.attackTime.val * s.sampleRate.val) (h1 : 1 ≤ N)
    (h2 : N ≤ 2 ^ 15) (hT : s.attackTime.isFin = true) (hT0 : 0 < s.attackTime.val) (hsr : s.sampleRate.isFin = true)
    (hc : s.attackCoeff = Libm.exp (-lit 1 / (s.attackTime * s.sampleRate)))
    (hst : s.state = .attack) (hg : (s.gateValue <=. lit 0) = false) (hv : s.value.In 0 1) (hv0 : (s.value.val : ℝ) ≤ 0.999) (n : ℕ) :
    let E := settleTol N n
    let d := (1 - s.value.val) * Real.exp (-(n / N))
    (0.001 + E + 1 / 2 ^ 22 < d →
      (tickState tick n s).state = .attack ∧ (tickState tick n s).value.In 0 1 ∧ |((tickState tick n s).value.val : ℝ) - (1 - d)| ≤ E) ∧
    (d + E + 1 / 2 ^ 22 < 0.001 → ∃ m ≤ n, (tickState tick m s).state = .decay ∧ (tickState tick m s).value = lit 1) := by
  intro E d
  have hd : 0 < d := mul_pos (by linarith) (Real.exp_pos _)
  have key := settle_stage (u := fun n => tickState tick n s) (val := fun s => s.value) (c := s.attackCoeff)
    (next := fun v => lit 1 - s.attackCoeff * (lit 1 - v)) (close := fun v => v >=. lit 0.999) (dist := fun v => 1 - (v.val : ℝ))
    (R := fun u => u.state = .attack ∧ u.gateValue = s.gateValue ∧ u.attackCoeff = s.attackCoeff)
    (I := fun u => u.state = .decay ∧ u.value = lit 1) hN h1 h2 hT hT0 hsr hc ⟨hst, rfl, rfl⟩ hv
    (by simp only [tickState_zero]; rw [abs_of_nonneg (by linarith)]; linarith) (fun hc v hv => attack_next hc hv)
    (fun v hv => attack_close hv) ?_ n
  · simp only [tickState_zero] at key
    rw [show |(1 - (s.value.val : ℝ)) * Real.exp (-(n / N))| = d from abs_of_pos hd] at key
    refine ⟨fun h => ?_, key.2⟩
    obtain ⟨k1, k2, k3⟩ := key.1 h
    refine ⟨k1.1, k2, ?_⟩
    rw [abs_sub_comm] at k3
    have e : d - (1 - ((tickState tick n s).value.val : ℝ)) = (tickState tick n s).value.val - (1 - d) := by ring
    rw [← e]; exact k3
  · rintro n ⟨i1, i2, i3⟩
    simp only [tickState_succ]
    generalize tickState tick n s = u at *
    rw [← i3]
    unfold tick; rw [i1]
    dsimp only
    have hg' : ¬ (s.gateValue <=. lit 0) = true := by rw [hg]; simp
    by_cases h : ((lit 1 - u.attackCoeff * (lit 1 - u.value)) >=. lit 0.999) = true
    · rw [if_pos h, if_pos h, i2, if_neg hg']; exact ⟨rfl, rfl⟩
    · rw [if_neg h, if_neg h, i2, if_neg hg']; exact ⟨⟨rfl, rfl, rfl⟩, rfl⟩

/-- **C93, decay of EnvelopeADSR** (binary32), with the gate held and the sustain level in [0,1]: the decay follows the exponential curve from
the level it starts at to the sustain level, and is replaced by exactly the sustain level once the curve is clearly closer than 0.001. -/
theorem C93_adsr_decay [Libm F32] [LibmSpec] [LogSpec] (s : Env F32) (N : ℝ) (hN : N = s.decayTime.val * s.sampleRate.val) (h1 : 1 ≤ N)
    (h2 : N ≤ 2 ^ 15) (hT : s.decayTime.isFin = true) (hT0 : 0 < s.decayTime.val) (hsr : s.sampleRate.isFin = true)
    (hc : s.decayCoeff = Libm.exp (-lit 1 / (s.decayTime * s.sampleRate)))
    (hst : s.state = .decay) (hg : (s.gateValue <=. lit 0) = false) (hv : s.value.In 0 1) (hS : s.sustainLevel.In 0 1)
    (hv0 : 0.001 ≤ |(s.value.val : ℝ) - s.sustainLevel.val|) (n : ℕ) :
    let E := settleTol N n
    let d := (s.value.val - s.sustainLevel.val) * Real.exp (-(n / N))
    (0.001 + E + 1 / 2 ^ 22 < |d| →
      (tickState tick n s).state = .decay ∧ (tickState tick n s).value.In 0 1 ∧ |((tickState tick n s).value.val : ℝ) - (s.sustainLevel.val + d)| ≤ E) ∧
    (|d| + E + 1 / 2 ^ 22 < 0.001 → ∃ m ≤ n, (tickState tick m s).state = .sustain ∧ (tickState tick m s).value = s.sustainLevel) := by
  intro E d
  have key := settle_stage (u := fun n => tickState tick n s) (val := fun s => s.value) (c := s.decayCoeff)
    (next := fun v => s.sustainLevel + s.decayCoeff * (v - s.sustainLevel)) (close := fun v => Arith.fabs (v - s.sustainLevel) <. lit 0.001)
    (dist := fun v => (v.val : ℝ) - s.sustainLevel.val)
    (R := fun u => u.state = .decay ∧ u.gateValue = s.gateValue ∧ u.decayCoeff = s.decayCoeff ∧ u.sustainLevel = s.sustainLevel)
    (I := fun u => u.state = .sustain ∧ u.value = s.sustainLevel) hN h1 h2 hT hT0 hsr hc ⟨hst, rfl, rfl, rfl⟩ hv
    hv0 (fun hc v hv => decay_next hS hc hv) (fun v hv => decay_close hS hv) ?_ n
  · simp only [tickState_zero] at key
    refine ⟨fun h => ?_, key.2⟩
    obtain ⟨k1, k2, k3⟩ := key.1 h
    refine ⟨k1.1, k2, ?_⟩
    have e : ((tickState tick n s).value.val : ℝ) - s.sustainLevel.val - d = (tickState tick n s).value.val - (s.sustainLevel.val + d) := by ring
    rw [← e]; exact k3
  · rintro n ⟨i1, i2, i3, i4⟩
    simp only [tickState_succ]
    generalize tickState tick n s = u at *
    rw [← i3, ← i4]
    unfold tick; rw [i1]
    dsimp only
    have hg' : ¬ (s.gateValue <=. lit 0) = true := by rw [hg]; simp
    by_cases h : (Arith.fabs (u.sustainLevel + u.decayCoeff * (u.value - u.sustainLevel) - u.sustainLevel) <. lit 0.001) = true
    · rw [if_pos h, if_pos h, i2, if_neg hg']; exact ⟨rfl, rfl⟩
    · rw [if_neg h, if_neg h, i2, if_neg hg']; exact ⟨⟨rfl, rfl, rfl, rfl⟩, rfl⟩

end EnvelopeADSR

/-! ### A note from start to end -/

/-- `ln 10000`. -/
theorem log_release : 9.21033 ≤ Real.log (1 / 0.0001) ∧ Real.log (1 / 0.0001) ≤ 9.210341 := by
  have e : Real.log (1 / 0.0001) = 4 / 3 * Real.log 1000 := by
    rw [show (1 / 0.0001 : ℝ) = 10 ^ 4 by norm_num, show (1000:ℝ) = 10 ^ 3 by norm_num, Real.log_pow, Real.log_pow]
    push_cast; ring
  have h := sixty_dB
  have h1 := (Real.le_log_iff_exp_le (y := 1000) (by norm_num)).2 (show Real.exp 6.907755 ≤ 1000 by
    have := h.1
    rw [Real.exp_neg, one_div] at this
    exact (inv_le_inv₀ (by norm_num) (Real.exp_pos _)).1 this)
  have h2 := (Real.log_le_iff_le_exp (x := 1000) (y := 6.9077554) (by norm_num)).2 (by
    have a := h.2
    rw [Real.exp_neg] at a
    have b : (0.0010000003:ℝ)⁻¹ ≤ Real.exp 6.907755 := by
      rw [inv_le_comm₀ (by norm_num) (Real.exp_pos _)]; exact a
    have c := Real.add_one_le_exp (0.0000004:ℝ)
    rw [show (6.9077554:ℝ) = 6.907755 + 0.0000004 by norm_num, Real.exp_add]
    calc (1000:ℝ) ≤ (0.0010000003:ℝ)⁻¹ * (0.0000004 + 1) := by norm_num
      _ ≤ _ := mul_le_mul b c (by norm_num) (Real.exp_pos _).le)
  rw [e]
  constructor <;> linarith

/-- `exp (-x) <= 2.7^-k` for `x >= k`. -/
theorem exp_small {x : ℝ} {k : ℕ} {y : ℝ} (h : y ≤ x) (hk : (k:ℝ) ≤ y) : Real.exp (-x) ≤ (2.7 ^ k)⁻¹ := by
  rw [Real.exp_neg]
  refine inv_anti₀ (by positivity) ?_
  calc (2.7:ℝ) ^ k ≤ Real.exp 1 ^ k := by have := Real.exp_one_gt_d9; gcongr; linarith
    _ = Real.exp k := by rw [← Real.exp_nat_mul]; norm_num
    _ ≤ _ := Real.exp_le_exp.2 (hk.trans h)

namespace EnvelopeAR

/-- The release half of the note below. -/
theorem note_release [Libm F32] [LibmSpec] [LogSpec] (up : Env F32) (hup : up.state = .attack ∧ up.value = lit 1)
    (hset : up.releaseTime = lit 0.1 ∧ up.sampleRate = lit 48000 ∧ up.releaseCoeff = Libm.exp (-lit 1 / (lit 0.1 * lit 48000))) (n : ℕ) :
    ((n:ℝ) ≤ 44100 → (tickState tick n (release up)).state = .release) ∧
      (44300 ≤ (n:ℝ) → (tickState tick n (release up)).state = .idle ∧ (tickState tick n (release up)).value = lit 0) := by
  have hsv : (lit 48000 : F32).val = 48000 := by decide +kernel
  have hrv : (lit 0.1 : F32).val = 13421773 / 2 ^ 27 := by decide +kernel
  have hds : (release up).state = .release := by show (if up.state ≠ .idle then _ else _) = _; rw [hup.1]; rfl
  have hdv : (release up).value = lit 1 := hup.2
  have l1 : ((lit 1 : F32).val : ℝ) = 1 := by rw [lit_one.val_eq]; norm_num
  have hR := C93_ar_release (release up) (13421773 / 2 ^ 27 * 48000)
    (by show _ = (up.releaseTime.val : ℝ) * (up.sampleRate.val : ℝ); rw [hset.1, hset.2.1, hsv, hrv]; push_cast; rfl)
    (by norm_num) (by norm_num) (by show up.releaseTime.isFin = true; rw [hset.1]; decide +kernel)
    (by show 0 < up.releaseTime.val; rw [hset.1]; decide +kernel)
    (by show up.sampleRate.isFin = true; rw [hset.2.1]; decide +kernel)
    (by show up.releaseCoeff = Libm.exp (-lit 1 / (up.releaseTime * up.sampleRate)); rw [hset.1, hset.2.1, hset.2.2]) hds
    (by rw [hdv]; exact lit_one.mono (by norm_num) le_rfl) (by rw [hdv, l1]; norm_num) n
  rw [hdv, l1] at hR
  obtain ⟨b1, b2⟩ := log_release
  refine ⟨fun h => (hR.1 ?_).1, fun h => hR.2 ?_⟩
  · refine lt_of_lt_of_le ?_ b1
    norm_num
    linarith
  · refine (add_le_add_left b2 _).trans ?_
    norm_num
    linarith

/-- The attack half. -/
theorem note_attack [Libm F32] [LibmSpec] [LogSpec] (n : ℕ) (hn : 3600 ≤ (n:ℝ)) :
    let up := tickState tick n (trigger (init (lit 48000 : F32)))
    (up.state = .attack ∧ up.value = lit 1) ∧
      up.releaseTime = lit 0.1 ∧ up.sampleRate = lit 48000 ∧ up.releaseCoeff = Libm.exp (-lit 1 / (lit 0.1 * lit 48000)) := by
  intro up
  have hsv : (lit 48000 : F32).val = 48000 := by decide +kernel
  have hav : (lit 0.01 : F32).val = 10737418 / 2 ^ 30 := by decide +kernel
  have hA := C93_ar_attack (trigger (init (lit 48000 : F32))) (10737418 / 2 ^ 30 * 48000)
    (by show _ = ((lit 0.01 : F32).val : ℝ) * ((lit 48000 : F32).val : ℝ); rw [hsv, hav]; push_cast; rfl)
    (by norm_num) (by norm_num) (show (lit 0.01 : F32).isFin = true by decide +kernel) (show 0 < (lit 0.01 : F32).val by decide +kernel)
    (show (lit 48000 : F32).isFin = true by decide +kernel) rfl rfl rfl (show (lit 0 : F32).In 0 1 from lit_zero.mono le_rfl (by norm_num))
    (by show ((lit 0 : F32).val : ℝ) ≤ _; rw [lit_zero.val_eq]; norm_num) n
  refine ⟨hA.2 ?_, ?_⟩
  · show (1 - ((lit 0 : F32).val : ℝ)) * _ + _ + _ < _
    rw [lit_zero.val_eq]
    have hx : 7.5 ≤ (n:ℝ) / (10737418 / 2 ^ 30 * 48000) := by rw [le_div_iff₀ (by norm_num)]; norm_num; linarith
    have T := settleTol_late (N := 10737418 / 2 ^ 30 * 48000) (by norm_num) n
    have hb := exp_small hx (k := 7) (by norm_num)
    have hb2 := exp_small (x := (n:ℝ) / (10737418 / 2 ^ 30 * 48000) / 2) (y := 3.75) (k := 3) (by linarith) (by norm_num)
    have hq : Real.exp (1 / (10737418 / 2 ^ 30 * 48000)) ≤ 2 := by
      refine (Real.exp_le_exp.2 (show (1 / (10737418 / 2 ^ 30 * 48000) : ℝ) ≤ 1 / 2 by norm_num)).trans ?_
      have h := Real.exp_one_lt_d9
      have e : Real.exp (1 / 2) * Real.exp (1 / 2) = Real.exp 1 := by rw [← Real.exp_add]; norm_num
      nlinarith [Real.exp_pos (1 / 2)]
    have hq0 := Real.exp_pos (1 / (10737418 / 2 ^ 30 * 48000))
    have hp0 := Real.exp_pos (-((n:ℝ) / (10737418 / 2 ^ 30 * 48000) / 2))
    generalize settleTol _ n = T' at *
    generalize Real.exp (1 / (10737418 / 2 ^ 30 * 48000)) = q at *
    generalize Real.exp (-((n:ℝ) / (10737418 / 2 ^ 30 * 48000) / 2)) = p at *
    generalize Real.exp _ = e at *
    norm_num at *
    nlinarith
  · refine tickState_inv (I := fun u : Env F32 => u.releaseTime = lit 0.1 ∧ u.sampleRate = lit 48000 ∧
      u.releaseCoeff = Libm.exp (-lit 1 / (lit 0.1 * lit 48000))) ?_ ⟨rfl, rfl, rfl⟩ n
    intro u hu
    obtain ⟨a, b, c, d, e, -⟩ := tick_settings u
    rw [b, d, e]; exact hu

/-- **C93, a whole note** (binary32): an envelope as `init` leaves it at 48 kHz (attack 10 ms, release 0.1 s), triggered, let go after at least
3600 samples. At that point its level is exactly 1; 44100 samples later it is still sounding, 44300 samples later it is silent and idle - the
exact curve ends after 44210. -/
theorem C93_note [Libm F32] [LibmSpec] [LogSpec] (held n : ℕ) (hh : 3600 ≤ held) :
    let up := tickState tick held (trigger (init (lit 48000 : F32)))
    let s := tickState tick n (release up)
    up.value = lit 1 ∧ (n ≤ 44100 → s.state = .release) ∧ (44300 ≤ n → s.state = .idle ∧ s.value = lit 0) := by
  intro up s
  obtain ⟨h1, h2⟩ := note_attack held (by exact_mod_cast hh)
  have := note_release up h1 h2 n
  exact ⟨h1.2, fun h => this.1 (by exact_mod_cast h), fun h => this.2 (by exact_mod_cast h)⟩

end EnvelopeAR

/-- The hypotheses of the theorems can be met. -/
example : ∃ (_ : Libm F32) (_ : LibmSpec), Nonempty LogSpec := ⟨idealLibm, idealLibm_spec, ⟨idealLibm_log⟩⟩

/-- The decay of `init` at 48 kHz after a finished attack (decay 0.1 s to 0.7, 4800 samples): it is still decaying after 25000 samples and
sustaining at the latest after 34000 - the exact curve ends after 27378. -/
example [Libm F32] [LibmSpec] [LogSpec] (s : EnvelopeADSR.Env F32)
    (hs : s = { EnvelopeADSR.init (lit 48000 : F32) with state := .decay, gateValue := lit 1, value := lit 1 }) :
    (tickState EnvelopeADSR.tick 25000 s).state = .decay ∧
      ∃ m ≤ 34000, (tickState EnvelopeADSR.tick m s).state = .sustain ∧ (tickState EnvelopeADSR.tick m s).value = lit 0.7 := by
  have hsv : (lit 48000 : F32).val = 48000 := by decide +kernel
  have hdv : (lit 0.1 : F32).val = 13421773 / 2 ^ 27 := by decide +kernel
  have hSv : (lit 0.7 : F32).val = 11744051 / 2 ^ 24 := by decide +kernel
  have e1 : s.decayTime = lit 0.1 := by rw [hs]; rfl
  have e2 : s.sampleRate = lit 48000 := by rw [hs]; rfl
  have e3 : s.value = lit 1 := by rw [hs]
  have e4 : s.sustainLevel = lit 0.7 := by rw [hs]; rfl
  have l1 : ((lit 1 : F32).val : ℝ) = 1 := by rw [lit_one.val_eq]; norm_num
  have key := EnvelopeADSR.C93_adsr_decay s (13421773 / 2 ^ 27 * 48000)
    (by rw [e1, e2, hsv, hdv]; push_cast; rfl) (by norm_num) (by norm_num) (by rw [e1]; decide +kernel) (by rw [e1]; decide +kernel)
    (by rw [e2]; decide +kernel) (by rw [hs]; rfl) (by rw [hs]) (by rw [hs]; show (lit 1 <=. (lit 0 : F32)) = false; decide +kernel)
    (by rw [e3]; exact lit_one.mono (by norm_num) le_rfl) (by rw [e4]; exact ⟨by decide +kernel, by decide +kernel, by decide +kernel⟩)
    (by rw [e3, e4, l1, hSv]; push_cast; norm_num [abs_of_pos])
  rw [e3, e4, l1, hSv] at key
  have hq : Real.exp (1 / (13421773 / 2 ^ 27 * 48000)) ≤ 2 := by
    refine (Real.exp_le_exp.2 (show (1 / (13421773 / 2 ^ 27 * 48000) : ℝ) ≤ 1 / 2 by norm_num)).trans ?_
    have h := Real.exp_one_lt_d9
    have e : Real.exp (1 / 2) * Real.exp (1 / 2) = Real.exp 1 := by rw [← Real.exp_add]; norm_num
    nlinarith [Real.exp_pos (1 / 2)]
  have hq0 := Real.exp_pos (1 / (13421773 / 2 ^ 27 * 48000))
  have T := fun n : ℕ => settleTol_late (N := 13421773 / 2 ^ 27 * 48000) (by norm_num) n
  have habs : ∀ x : ℝ, |(1 - ((11744051 / 2 ^ 24 : ℚ) : ℝ)) * Real.exp x| = (1 - 11744051 / 2 ^ 24) * Real.exp x := fun x => by
    push_cast; rw [abs_of_pos (mul_pos (by norm_num) (Real.exp_pos _))]
  refine ⟨((key 25000).1 ?_).1, (key 34000).2 ?_⟩
  · rw [habs]
    have T1 := T 25000
    have hb : 0.005 ≤ Real.exp (-(((25000:ℕ):ℝ) / (13421773 / 2 ^ 27 * 48000))) := by
      have h := Real.exp_one_lt_d9
      rw [Real.exp_neg, le_inv_comm₀ (by norm_num) (Real.exp_pos _)]
      have h4 : Real.exp (1 / 4) ≤ 1.3 := by
        by_contra hc
        have e : Real.exp (1 / 4) ^ 4 = Real.exp 1 := by rw [← Real.exp_nat_mul]; norm_num
        have : (1.3:ℝ) ^ 4 < Real.exp (1 / 4) ^ 4 := by gcongr; exact not_le.1 hc
        rw [e] at this; norm_num at this; linarith
      calc _ ≤ Real.exp (5 + 1 / 4) := Real.exp_le_exp.2 (by norm_num)
        _ = Real.exp 1 ^ 5 * Real.exp (1 / 4) := by rw [Real.exp_add, ← Real.exp_nat_mul]; norm_num
        _ ≤ 2.72 ^ 5 * 1.3 := by gcongr; linarith
        _ ≤ _ := by norm_num
    have hb2 := exp_small (x := ((25000:ℕ):ℝ) / (13421773 / 2 ^ 27 * 48000) / 2) (k := 2) le_rfl (by norm_num)
    have hp0 := Real.exp_pos (-(((25000:ℕ):ℝ) / (13421773 / 2 ^ 27 * 48000) / 2))
    generalize settleTol _ 25000 = T' at *
    generalize Real.exp (1 / (13421773 / 2 ^ 27 * 48000)) = q at *
    generalize Real.exp (-(((25000:ℕ):ℝ) / (13421773 / 2 ^ 27 * 48000) / 2)) = p at *
    generalize Real.exp _ = e at *
    clear T key habs
    norm_num at *
    nlinarith
  · rw [habs]
    have T1 := T 34000
    have hb := exp_small (x := ((34000:ℕ):ℝ) / (13421773 / 2 ^ 27 * 48000)) (k := 7) le_rfl (by norm_num)
    have hb2 := exp_small (x := ((34000:ℕ):ℝ) / (13421773 / 2 ^ 27 * 48000) / 2) (k := 3) le_rfl (by norm_num)
    have hp0 := Real.exp_pos (-(((34000:ℕ):ℝ) / (13421773 / 2 ^ 27 * 48000) / 2))
    generalize settleTol _ 34000 = T' at *
    generalize Real.exp (1 / (13421773 / 2 ^ 27 * 48000)) = q at *
    generalize Real.exp (-(((34000:ℕ):ℝ) / (13421773 / 2 ^ 27 * 48000) / 2)) = p at *
    generalize Real.exp _ = e at *
    clear T key habs
    norm_num at *
    nlinarith

end Verif
