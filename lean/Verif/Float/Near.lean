import Verif.Float.Order
import Verif.Float.Convex
import Mathlib.Analysis.SpecialFunctions.Exp
import Mathlib.Analysis.Complex.ExponentialBounds

/-!
# Distance of a float computation from the exact one
-/

namespace Verif.FP

/-- The finite float `x` is within `e` of the real number `r`. -/
def Near (x : F32) (r e : ℝ) : Prop := x.isFin = true ∧ |(x.val : ℝ) - r| ≤ e

theorem Near.mono {x : F32} {r e e' : ℝ} (h : Near x r e) (he : e ≤ e') : Near x r e' := ⟨h.1, h.2.trans he⟩

theorem near_val {x : F32} (h : x.isFin = true) : Near x x.val 0 := ⟨h, by simp⟩

theorem Near.eq {x : F32} {r s e : ℝ} (h : Near x r e) (hs : r = s) : Near x s e := hs ▸ h

theorem Near.abs_val_le {x : F32} {r e : ℝ} (h : Near x r e) : |(x.val : ℝ)| ≤ |r| + e := by
  have := abs_sub_abs_le_abs_sub (x.val : ℝ) r
  linarith [h.2]

theorem rep_zpow {k : ℤ} (h1 : -149 ≤ k) (h2 : k < 128) : binary32.Rep (2 ^ k) false := by
  refine ⟨binary32.grid_zpow h1, ?_, by simp⟩
  rw [abs_of_pos (by positivity)]
  exact zpow_lt_zpow_right₀ (by norm_num) h2

/-- One rounding. -/
theorem near_of {q : ℚ} {zs : Bool} {r e : ℝ} {k : ℤ} (k1 : -125 ≤ k) (k2 : k ≤ 127) (hq : |(q : ℝ) - r| ≤ e) (hb : |r| + e < 2 ^ k) :
    Near (ofRat q zs : F32) r (e + 2 ^ k / 2 ^ 25) := by
  have hq' : |(q:ℝ)| < 2 ^ k := by
    have := abs_sub_abs_le_abs_sub (q : ℝ) r
    linarith
  have hQ : |q| < 2 ^ k := by
    have : ((|q| : ℚ) : ℝ) < ((2 ^ k : ℚ) : ℝ) := by push_cast; exact hq'
    exact_mod_cast this
  obtain ⟨l, u⟩ := abs_lt.1 hQ
  have R := rep_zpow (k := k) (by omega) (by omega)
  have hin := ofRat_in (f := binary32) (zs := zs) (Rep.neg R) R l.le u.le
  have hv := ofRat_val (f := binary32) (zs := zs) (Rep.neg R) R l.le u.le
  have he := binary32.rnd_err_of_lt (K := ℚ) (x := q) (k := k) hQ (show (-149:ℤ) ≤ k - 24 by omega)
  refine ⟨hin.1, ?_⟩
  have he' : |(q:ℝ) - ((ofRat q zs : F32).val : ℝ)| ≤ 2 ^ k / 2 ^ 25 := by
    rw [hv]
    have h2 : ((|q - binary32.rnd q| : ℚ) : ℝ) ≤ ((2 ^ (k - 24 - 1) : ℚ) : ℝ) := by exact_mod_cast he
    have h3 : (2:ℝ) ^ (k - 24 - 1) = 2 ^ k / 2 ^ 25 := by
      rw [show k - 24 - 1 = k - 25 by ring, zpow_sub₀ (by norm_num)]; norm_num
    push_cast at h2
    rw [h3] at h2
    exact h2
  have := abs_sub_le ((ofRat q zs : F32).val : ℝ) q r
  rw [abs_sub_comm ((ofRat q zs : F32).val : ℝ) q] at this
  linarith

theorem near_add {x y : F32} {r s d e : ℝ} (k : ℤ) (hx : Near x r d) (hy : Near y s e) (k1 : -125 ≤ k) (k2 : k ≤ 127)
    (hb : |r + s| + (d + e) < 2 ^ k) : Near (x + y) (r + s) (d + e + 2 ^ k / 2 ^ 25) := by
  obtain ⟨zs, h⟩ := add_def hx.1 hy.1
  rw [h]
  refine near_of k1 k2 ?_ hb
  push_cast
  calc |(x.val : ℝ) + y.val - (r + s)| = |((x.val : ℝ) - r) + (y.val - s)| := by congr 1; ring
    _ ≤ _ := (abs_add_le _ _).trans (add_le_add hx.2 hy.2)

theorem near_sub {x y : F32} {r s d e : ℝ} (k : ℤ) (hx : Near x r d) (hy : Near y s e) (k1 : -125 ≤ k) (k2 : k ≤ 127)
    (hb : |r - s| + (d + e) < 2 ^ k) : Near (x - y) (r - s) (d + e + 2 ^ k / 2 ^ 25) := by
  obtain ⟨zs, h⟩ := sub_def hx.1 hy.1
  rw [h]
  refine near_of k1 k2 ?_ hb
  push_cast
  calc |(x.val : ℝ) - y.val - (r - s)| = |((x.val : ℝ) - r) - (y.val - s)| := by congr 1; ring
    _ ≤ _ := (abs_sub _ _).trans (add_le_add hx.2 hy.2)

theorem near_mul {x y : F32} {r s d e : ℝ} (k : ℤ) (hx : Near x r d) (hy : Near y s e) (k1 : -125 ≤ k) (k2 : k ≤ 127)
    (hb : |r * s| + (|r| * e + |s| * d + d * e) < 2 ^ k) : Near (x * y) (r * s) (|r| * e + |s| * d + d * e + 2 ^ k / 2 ^ 25) := by
  obtain ⟨zs, h⟩ := mul_def hx.1 hy.1
  rw [h]
  refine near_of k1 k2 ?_ hb
  push_cast
  have hd : 0 ≤ d := (abs_nonneg _).trans hx.2
  have h1 : |(x.val : ℝ) * y.val - r * s| ≤ |r * (y.val - s)| + |s * (x.val - r)| + |(x.val - r) * (y.val - s)| := by
    have : (x.val : ℝ) * y.val - r * s = r * (y.val - s) + s * (x.val - r) + (x.val - r) * (y.val - s) := by ring
    rw [this]
    exact (abs_add_le _ _).trans (add_le_add_left (abs_add_le _ _) _)
  refine h1.trans ?_
  rw [abs_mul, abs_mul, abs_mul]
  have a1 := mul_le_mul_of_nonneg_left hy.2 (abs_nonneg r)
  have a2 := mul_le_mul_of_nonneg_left hx.2 (abs_nonneg s)
  have a3 := mul_le_mul hx.2 hy.2 (abs_nonneg _) hd
  linarith

theorem near_neg {x : F32} {r e : ℝ} (h : Near x r e) : Near (-x) (-r) e := by
  refine ⟨isFin_neg h.1, ?_⟩
  rw [val_neg]
  push_cast
  rw [show -(x.val : ℝ) - -r = -(x.val - r) by ring, abs_neg]
  exact h.2

/-! ### Relative error -/

/-- The finite float `x` is the number `r`, not 0, up to the factor `1 ± e`. -/
def Rel (x : F32) (r e : ℝ) : Prop := x.isFin = true ∧ r ≠ 0 ∧ |(x.val : ℝ) - r| ≤ e * |r|

theorem rel_val {x : F32} (h : x.isFin = true) (h0 : x.val ≠ 0) : Rel x x.val 0 := ⟨h, by exact_mod_cast h0, by simp⟩

theorem Rel.mono {x : F32} {r e e' : ℝ} (h : Rel x r e) (he : e ≤ e') : Rel x r e' :=
  ⟨h.1, h.2.1, h.2.2.trans (mul_le_mul_of_nonneg_right he (abs_nonneg r))⟩

theorem Rel.neg {x : F32} {r e : ℝ} (h : Rel x r e) : Rel (-x) (-r) e := by
  refine ⟨isFin_neg h.1, neg_ne_zero.2 h.2.1, ?_⟩
  rw [val_neg, abs_neg]
  push_cast
  rw [show -(x.val : ℝ) - -r = -(x.val - r) by ring, abs_neg]
  exact h.2.2

/-- One rounding in the normal range. -/
theorem rel_of {q : ℚ} {zs : Bool} {r e : ℝ} (hr : r ≠ 0) (hq : |(q : ℝ) - r| ≤ e * |r|) (h1 : (2:ℝ) ^ (-126:ℤ) ≤ |(q:ℝ)|)
    (h2 : |(q:ℝ)| ≤ 2 ^ (127:ℤ)) : Rel (ofRat q zs : F32) r (e + (1 + e) / 2 ^ 24) := by
  have h1' : (2:ℚ) ^ (-126:ℤ) ≤ |q| := by
    have : ((2 ^ (-126:ℤ) : ℚ) : ℝ) ≤ ((|q| : ℚ) : ℝ) := by rw [Rat.cast_zpow, Rat.cast_abs]; exact h1
    exact_mod_cast this
  have h2' : |q| ≤ (2:ℚ) ^ (127:ℤ) := by
    have : ((|q| : ℚ) : ℝ) ≤ ((2 ^ (127:ℤ) : ℚ) : ℝ) := by rw [Rat.cast_zpow, Rat.cast_abs]; exact h2
    exact_mod_cast this
  obtain ⟨l, u⟩ := abs_le.1 h2'
  have R := rep_zpow (k := 127) (by omega) (by omega)
  have hin := ofRat_in (f := binary32) (zs := zs) (Rep.neg R) R l u
  have hv := ofRat_val (f := binary32) (zs := zs) (Rep.neg R) R l u
  have he := binary32.rnd_rel_err_normal (K := ℚ) (x := q) h1'
  refine ⟨hin.1, hr, ?_⟩
  have he' : |(q:ℝ) - ((ofRat q zs : F32).val : ℝ)| ≤ |(q:ℝ)| / 2 ^ 24 := by
    rw [hv]
    have h2 : ((|q - binary32.rnd q| : ℚ) : ℝ) ≤ ((|q| * 2 ^ (-(24:ℕ) : ℤ) : ℚ) : ℝ) := by exact_mod_cast he
    push_cast at h2
    rw [zpow_neg, ← div_eq_mul_inv] at h2
    exact_mod_cast h2
  have h3 := abs_sub_le ((ofRat q zs : F32).val : ℝ) q r
  rw [abs_sub_comm ((ofRat q zs : F32).val : ℝ) q] at h3
  have h4 : |(q:ℝ)| ≤ (1 + e) * |r| := by linarith [abs_sub_abs_le_abs_sub (q:ℝ) r]
  calc _ ≤ _ := h3
    _ ≤ (1 + e) * |r| / 2 ^ 24 + e * |r| := by gcongr; exact he'.trans (by gcongr)
    _ = _ := by ring

theorem Rel.ne {x : F32} {r e : ℝ} (h : Rel x r e) (he : e < 1) : x.val ≠ 0 := by
  intro h0
  have := h.2.2
  rw [h0, Rat.cast_zero, zero_sub, abs_neg] at this
  nlinarith [abs_pos.2 h.2.1]

theorem rel_mul {x y : F32} {r s d e : ℝ} (hx : Rel x r d) (hy : Rel y s e) (hd : 0 ≤ d) (he' : d + e + d * e ≤ 1 / 2)
    (h1 : (2:ℝ) ^ (-125:ℤ) ≤ |r * s|) (h2 : |r * s| ≤ 2 ^ (126:ℤ)) :
    Rel (x * y) (r * s) (d + e + d * e + (1 + (d + e + d * e)) / 2 ^ 24) := by
  obtain ⟨zs, h⟩ := mul_def hx.1 hy.1
  have hrs := mul_ne_zero hx.2.1 hy.2.1
  have hq : |((x.val * y.val : ℚ) : ℝ) - r * s| ≤ (d + e + d * e) * |r * s| := by
    push_cast
    have : (x.val : ℝ) * y.val - r * s = r * (y.val - s) + s * (x.val - r) + (x.val - r) * (y.val - s) := by ring
    rw [this]
    refine ((abs_add_le _ _).trans (add_le_add_left (abs_add_le _ _) _)).trans ?_
    rw [abs_mul, abs_mul, abs_mul, abs_mul]
    have a1 := mul_le_mul_of_nonneg_left hy.2.2 (abs_nonneg r)
    have a2 := mul_le_mul_of_nonneg_left hx.2.2 (abs_nonneg s)
    have a3 := mul_le_mul hx.2.2 hy.2.2 (abs_nonneg _) (mul_nonneg hd (abs_nonneg r))
    linarith
  rw [h]
  have hm := mul_le_mul_of_nonneg_right he' (abs_nonneg (r * s))
  have hb := abs_sub_abs_le_abs_sub ((x.val * y.val : ℚ) : ℝ) (r * s)
  have hb' := abs_sub_abs_le_abs_sub (r * s) ((x.val * y.val : ℚ) : ℝ)
  rw [abs_sub_comm (r * s)] at hb'
  refine rel_of hrs hq ?_ ?_
  · have : (2:ℝ) ^ (-126:ℤ) = 2 ^ (-125:ℤ) / 2 := by norm_num
    rw [this]
    generalize (2:ℝ) ^ (-125:ℤ) = A at *
    linarith
  · have : (2:ℝ) ^ (127:ℤ) = 2 ^ (126:ℤ) * 2 := by norm_num
    rw [this]
    generalize (2:ℝ) ^ (126:ℤ) = A at *
    linarith

theorem rel_div {x y : F32} {r s d e : ℝ} (hx : Rel x r d) (hy : Rel y s e) (hd : 0 ≤ d) (he : 0 ≤ e) (hd' : d ≤ 1 / 8) (he' : e ≤ 1 / 8)
    (h1 : (2:ℝ) ^ (-125:ℤ) ≤ |r / s|) (h2 : |r / s| ≤ 2 ^ (126:ℤ)) :
    Rel (x / y) (r / s) ((d + e) / (1 - e) + (1 + (d + e) / (1 - e)) / 2 ^ 24) := by
  have hy0 := hy.ne (by linarith)
  obtain ⟨zs, h⟩ := div_def hx.1 hy.1 hy0
  have hrs := div_ne_zero hx.2.1 hy.2.1
  have hyr : (1 - e) * |s| ≤ |(y.val : ℝ)| := by
    have := abs_sub_abs_le_abs_sub s (y.val : ℝ)
    rw [abs_sub_comm s] at this
    linarith [hy.2.2]
  have hyn : (y.val : ℝ) ≠ 0 := by exact_mod_cast hy0
  have hyp : 0 < |(y.val : ℝ)| := abs_pos.2 hyn
  have hsp : 0 < |s| := abs_pos.2 hy.2.1
  have h1e : 0 < 1 - e := by linarith
  have hq : |((x.val / y.val : ℚ) : ℝ) - r / s| ≤ (d + e) / (1 - e) * |r / s| := by
    push_cast
    have hs := hy.2.1
    have : (x.val : ℝ) / y.val - r / s = (s * (x.val - r) - r * (y.val - s)) / (y.val * s) := by
      field_simp; ring
    rw [this, abs_div, abs_mul (y.val : ℝ), div_le_iff₀ (mul_pos hyp hsp)]
    have hn : |s * ((x.val : ℝ) - r) - r * (y.val - s)| ≤ (d + e) * (|r| * |s|) := by
      refine (abs_sub _ _).trans ?_
      rw [abs_mul, abs_mul]
      have a1 := mul_le_mul_of_nonneg_left hy.2.2 (abs_nonneg r)
      have a2 := mul_le_mul_of_nonneg_left hx.2.2 (abs_nonneg s)
      linarith
    refine hn.trans ?_
    have : (d + e) / (1 - e) * |r / s| * (|(y.val : ℝ)| * |s|) = (d + e) * |r| * (|(y.val : ℝ)| / (1 - e)) := by
      rw [abs_div]; field_simp
    rw [this]
    have hys : |s| ≤ |(y.val : ℝ)| / (1 - e) := by rw [le_div_iff₀ h1e]; linarith
    have hdr : 0 ≤ (d + e) * |r| := mul_nonneg (by linarith) (abs_nonneg r)
    linarith [mul_le_mul_of_nonneg_left hys hdr]
  rw [h]
  have hle : (d + e) / (1 - e) ≤ 1 / 2 := by rw [div_le_iff₀ h1e]; linarith
  have hm := mul_le_mul_of_nonneg_right hle (abs_nonneg (r / s))
  have hb := abs_sub_abs_le_abs_sub ((x.val / y.val : ℚ) : ℝ) (r / s)
  have hb' := abs_sub_abs_le_abs_sub (r / s) ((x.val / y.val : ℚ) : ℝ)
  rw [abs_sub_comm (r / s)] at hb'
  refine rel_of hrs hq ?_ ?_
  · have : (2:ℝ) ^ (-126:ℤ) = 2 ^ (-125:ℤ) / 2 := by norm_num
    rw [this]
    generalize (2:ℝ) ^ (-125:ℤ) = A at *
    linarith
  · have : (2:ℝ) ^ (127:ℤ) = 2 ^ (126:ℤ) * 2 := by norm_num
    rw [this]
    generalize (2:ℝ) ^ (126:ℤ) = A at *
    linarith

/-- `exp` of a negative number known to a small relative error. -/
theorem exp_rel {a θ ε : ℝ} (hε : 0 ≤ ε) (hε' : ε ≤ 1 / 100) (h : |a - θ| ≤ ε * θ) :
    |Real.exp (-a) - Real.exp (-θ)| ≤ 0.38 * ε := by
  -- the larger of the two exponentials, and the difference
  have key : ∀ b c : ℝ, b ≤ c → c - b ≤ ε * θ → (1 - ε) * θ ≤ b → |Real.exp (-b) - Real.exp (-c)| ≤ 0.38 * ε := by
    intro b c hbc hd hlo
    have h1 : Real.exp (-c) = Real.exp (-b) * Real.exp (-(c - b)) := by rw [← Real.exp_add]; congr 1; ring
    have h2 := Real.add_one_le_exp (-(c - b))
    have h3 : Real.exp (-(c - b)) ≤ 1 := Real.exp_le_one_iff.2 (by linarith)
    have hp := Real.exp_pos (-b)
    rw [h1, show Real.exp (-b) - Real.exp (-b) * Real.exp (-(c - b)) = Real.exp (-b) * (1 - Real.exp (-(c - b))) by ring,
      abs_of_nonneg (mul_nonneg hp.le (by linarith))]
    have h4 : Real.exp (-b) ≤ Real.exp (-((1 - ε) * θ)) := Real.exp_le_exp.2 (by linarith)
    have h5 : θ * Real.exp (-((1 - ε) * θ)) ≤ 0.38 := by
      have h6 := Real.add_one_le_exp ((1 - ε) * θ - 1)
      have h7 : Real.exp ((1 - ε) * θ - 1) * Real.exp (-((1 - ε) * θ)) = Real.exp (-1) := by rw [← Real.exp_add]; congr 1; ring
      have h8 : Real.exp (-1) ≤ 0.3679 := by
        rw [Real.exp_neg, inv_le_comm₀ (Real.exp_pos 1) (by norm_num)]
        exact le_trans (by norm_num) Real.exp_one_gt_d9.le
      have h9 := Real.exp_pos (-((1 - ε) * θ))
      nlinarith [mul_le_mul_of_nonneg_right h6 h9.le]
    calc Real.exp (-b) * (1 - Real.exp (-(c - b))) ≤ Real.exp (-((1 - ε) * θ)) * (ε * θ) :=
          mul_le_mul h4 (by linarith) (by linarith) (Real.exp_pos _).le
      _ = ε * (θ * Real.exp (-((1 - ε) * θ))) := by ring
      _ ≤ ε * 0.38 := mul_le_mul_of_nonneg_left h5 hε
      _ = _ := by ring
  have hb := abs_le.1 h
  rcases le_total a θ with hle | hle
  · exact key a θ hle (by linarith) (by linarith)
  · rw [abs_sub_comm]
    exact key θ a hle (by linarith) (by nlinarith)

/-- `exp` of a negative number that is known up to the factor `1 ± 5 · 2^-24`. -/
theorem near_exp [Libm F32] [LibmSpec] {x : F32} {θ : ℝ} (hθ : 0 < θ) (h : Rel x (-θ) (5 / 2 ^ 24)) :
    Near (Libm.exp x) (Real.exp (-θ)) (4 / 2 ^ 24) := by
  obtain ⟨h1, -, h2⟩ := h
  rw [abs_neg, abs_of_pos hθ] at h2
  have hx : (x.val : ℝ) ≤ 0 := by nlinarith [(abs_le.1 h2).2]
  have hx' : x.val ≤ 0 := by exact_mod_cast hx
  have ha := LibmSpec.exp_acc x h1 hx'
  have hin := LibmSpec.exp_nonpos x (Or.inr ⟨h1, hx'⟩)
  refine ⟨hin.1, ?_⟩
  have hd := exp_rel (a := -x.val) (θ := θ) (ε := 5 / 2 ^ 24) (by norm_num) (by norm_num) (by
    rw [show -(x.val : ℝ) - θ = -(x.val - -θ) by ring, abs_neg]; exact h2)
  rw [neg_neg] at hd
  have h3 : (2:ℝ) ^ (-23:ℤ) = 2 / 2 ^ 24 := by norm_num
  rw [h3] at ha
  have := abs_sub_le ((Libm.exp x : F32).val : ℝ) (Real.exp x.val) (Real.exp (-θ))
  norm_num at *
  linarith

end Verif.FP
