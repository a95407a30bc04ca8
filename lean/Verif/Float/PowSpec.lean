import Verif.Float.LibmSpec

/-!
# What is assumed about `powf` and `sqrtf`

`powf(2, x)` for `|x| ≤ 1` lies in `[1/2, 2]`, and `sqrtf` of a number in `[4, 16]` lies in `[2, 4]` (IEEE-754 requires `sqrt` to be
correctly rounded). `idealLibm` meets both.
-/

namespace Verif

/-- Assumptions on single-precision `pow` and `sqrt`. -/
class PowSpec [Libm F32] : Prop where
  pow_two : ∀ x : F32, x.In (-1) 1 → (Libm.pow (lit 2) x).In (1 / 2) 2
  sqrt_in : ∀ x : F32, x.In 4 16 → (Libm.sqrt x).In 2 4

theorem idealLibm_pow : @PowSpec idealLibm := by
  refine @PowSpec.mk idealLibm ?_ ?_
  · intro x hx
    obtain ⟨w, nz, hw, rfl⟩ := FP.isFin_cases hx.1
    have h2 : (lit 2 : F32).In 2 2 := FP.lit_rep (by decide +kernel)
    obtain ⟨v, nv, hv, e⟩ := FP.isFin_cases h2.1
    rw [e] at h2 ⊢
    have ev : v = 2 := h2.val_eq
    have hx1 : (-1 : ℝ) ≤ (w : ℝ) := by exact_mod_cast hx.2.1
    have hx2 : (w : ℝ) ≤ 1 := by exact_mod_cast hx.2.2
    show (if 0 < v then (FP.ofK ((v : ℝ) ^ (w : ℝ)) false : F32) else .nan).In (1 / 2) 2
    rw [if_pos (by rw [ev]; norm_num), ev]
    refine FP.ofK_in' (by decide +kernel) (by decide +kernel) ?_ ?_
    · have := Real.rpow_le_rpow_of_exponent_le (x := 2) (by norm_num) hx1
      rw [Real.rpow_neg_one] at this
      push_cast
      linarith
    · have := Real.rpow_le_rpow_of_exponent_le (x := 2) (by norm_num) hx2
      rw [Real.rpow_one] at this
      push_cast
      exact this
  · intro x hx
    obtain ⟨w, nz, hw, rfl⟩ := FP.isFin_cases hx.1
    have hx1 : (4 : ℚ) ≤ w := hx.2.1
    have hx2 : w ≤ 16 := hx.2.2
    show (if w < 0 then (.nan : F32) else FP.ofK (Real.sqrt w) false).In 2 4
    rw [if_neg (by linarith)]
    have h1 : (4 : ℝ) ≤ (w : ℝ) := by exact_mod_cast hx1
    have h2 : (w : ℝ) ≤ 16 := by exact_mod_cast hx2
    refine FP.ofK_in' (by decide +kernel) (by decide +kernel) ?_ ?_
    · push_cast; exact Real.le_sqrt_of_sq_le (by linarith)
    · push_cast; exact (Real.sqrt_le_left (by norm_num)).2 (by linarith)
end Verif

namespace Verif

/-- Accuracy assumed of single-precision `powf(2, x)` for `|x| ≤ 1` (two units in the last place) and of `sqrtf(7)` (one; IEEE-754 asks for
half a unit). -/
class PowAcc [Libm F32] : Prop where
  pow_acc : ∀ x : F32, x.In (-1) 1 → |((Libm.pow (lit 2) x : F32).val : ℝ) - (2:ℝ) ^ (x.val : ℝ)| ≤ 2 ^ (-22:ℤ) * (2:ℝ) ^ (x.val : ℝ)
  sqrt_acc : ∀ x : F32, x.In 4 16 → |((Libm.sqrt x : F32).val : ℝ) - Real.sqrt x.val| ≤ 2 ^ (-23:ℤ) * Real.sqrt x.val

theorem ofK_rel {x : ℝ} (h1 : 1 / 2 ≤ x) (h2 : x ≤ 4) : |((FP.ofK x false : F32).val : ℝ) - x| ≤ 2 ^ (-24:ℤ) * x := by
  have hb := FP.ofK_in (f := binary32) (x := x) (zs := false) (l := 1 / 2) (u := 4) (by decide +kernel) (by decide +kernel)
    (by push_cast; linarith) (by push_cast; linarith)
  rw [hb.2.1, abs_sub_comm]
  have hl : (2:ℝ) ^ (-126:ℤ) ≤ |x| := by
    rw [abs_of_pos (by linarith)]
    refine le_trans ?_ h1
    norm_num
  have := binary32.rnd_rel_err_normal (x := x) hl
  rw [abs_of_pos (show 0 < x by linarith)] at this
  rw [mul_comm]
  exact this

theorem idealLibm_powAcc : @PowAcc idealLibm := by
  refine @PowAcc.mk idealLibm ?_ ?_
  · intro x hx
    obtain ⟨w, nz, hw, rfl⟩ := FP.isFin_cases hx.1
    have h2 : (lit 2 : F32).In 2 2 := FP.lit_rep (by decide +kernel)
    obtain ⟨v, nv, hv, e⟩ := FP.isFin_cases h2.1
    rw [e] at h2 ⊢
    have ev : v = 2 := h2.val_eq
    have hx1 : (-1 : ℝ) ≤ (w : ℝ) := by exact_mod_cast hx.2.1
    have hx2 : (w : ℝ) ≤ 1 := by exact_mod_cast hx.2.2
    show |(((if 0 < v then (FP.ofK ((v : ℝ) ^ (w : ℝ)) false : F32) else .nan).val : ℚ) : ℝ) - (2:ℝ) ^ (w : ℝ)| ≤ 2 ^ (-22:ℤ) * (2:ℝ) ^ (w : ℝ)
    rw [if_pos (by rw [ev]; norm_num), ev, show ((2:ℚ) : ℝ) = 2 by norm_num]
    have a := Real.rpow_le_rpow_of_exponent_le (x := 2) (by norm_num) hx1
    rw [Real.rpow_neg_one] at a
    have b := Real.rpow_le_rpow_of_exponent_le (x := 2) (by norm_num) hx2
    rw [Real.rpow_one] at b
    refine (ofK_rel (by linarith) (by linarith)).trans ?_
    gcongr <;> norm_num
  · intro x hx
    obtain ⟨w, nz, hw, rfl⟩ := FP.isFin_cases hx.1
    have hx1 : (4 : ℚ) ≤ w := hx.2.1
    have hx2 : w ≤ 16 := hx.2.2
    show |(((if w < 0 then (.nan : F32) else FP.ofK (Real.sqrt w) false).val : ℚ) : ℝ) - Real.sqrt w| ≤ 2 ^ (-23:ℤ) * Real.sqrt w
    rw [if_neg (by linarith)]
    have h1 : (4 : ℝ) ≤ (w : ℝ) := by exact_mod_cast hx1
    have h2 : (w : ℝ) ≤ 16 := by exact_mod_cast hx2
    have a : 2 ≤ Real.sqrt (w : ℝ) := Real.le_sqrt_of_sq_le (by linarith)
    have b : Real.sqrt (w : ℝ) ≤ 4 := (Real.sqrt_le_left (by norm_num)).2 (by linarith)
    refine (ofK_rel (by linarith) b).trans ?_
    gcongr <;> norm_num

end Verif
