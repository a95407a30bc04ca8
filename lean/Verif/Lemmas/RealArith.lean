import Verif.Lemmas.RealAttr
import Verif.Model.Types

/-!
# The ideal-arithmetic instance in terms of the ordinary operations on `ℝ`
-/

namespace Verif

@[real_arith] theorem rAdd (a b : ℝ) : @HAdd.hAdd ℝ ℝ ℝ (@instHAdd ℝ instArithReal.toAdd) a b = a + b := rfl
@[real_arith] theorem rSub (a b : ℝ) : @HSub.hSub ℝ ℝ ℝ (@instHSub ℝ instArithReal.toSub) a b = a - b := rfl
@[real_arith] theorem rMul (a b : ℝ) : @HMul.hMul ℝ ℝ ℝ (@instHMul ℝ instArithReal.toMul) a b = a * b := rfl
@[real_arith] theorem rDiv (a b : ℝ) : @HDiv.hDiv ℝ ℝ ℝ (@instHDiv ℝ instArithReal.toDiv) a b = a / b := rfl
@[real_arith] theorem rNeg (a : ℝ) : @Neg.neg ℝ instArithReal.toNeg a = -a := rfl
@[real_arith] theorem rLit (q : ℚ) : (lit q : ℝ) = (q : ℝ) := rfl
@[real_arith] theorem rLt (a b : ℝ) : (a <. b) = decide (a < b) := rfl
@[real_arith] theorem rLe (a b : ℝ) : (a <=. b) = decide (a ≤ b) := rfl
@[real_arith] theorem rEq (a b : ℝ) : (a ==. b) = decide (a = b) := rfl
@[real_arith] theorem rFloor (a : ℝ) : Arith.floor a = (⌊a⌋ : ℤ) := rfl
@[real_arith] theorem rCeil (a : ℝ) : Arith.ceil a = (⌈a⌉ : ℤ) := rfl
@[real_arith] theorem rRound (a : ℝ) : Arith.round a = (roundR a : ℤ) := rfl
@[real_arith] theorem rFmod (a b : ℝ) : Arith.fmod a b = a - b * (truncR (a / b) : ℤ) := rfl
@[real_arith] theorem rAbs (a : ℝ) : Arith.fabs a = |a| := rfl
@[real_arith] theorem rOfInt (n : ℤ) : (Arith.ofInt n : ℝ) = (n : ℝ) := rfl
@[real_arith] theorem rOfNat (n : ℕ) : (Arith.ofNat n : ℝ) = (n : ℝ) := by simp [Arith.ofNat, rOfInt]
@[real_arith] theorem rToInt (a : ℝ) : Arith.toInt? a = some (truncR a) := rfl
@[real_arith] theorem rSin (a : ℝ) : Libm.sin a = Real.sin a := rfl
@[real_arith] theorem rCos (a : ℝ) : Libm.cos a = Real.cos a := rfl
@[real_arith] theorem rTan (a : ℝ) : Libm.tan a = Real.tan a := rfl
@[real_arith] theorem rExp (a : ℝ) : Libm.exp a = Real.exp a := rfl
@[real_arith] theorem rTanh (a : ℝ) : Libm.tanh a = Real.tanh a := rfl
@[real_arith] theorem rLog (a : ℝ) : Libm.log a = Real.log a := rfl
@[real_arith] theorem rPow (a b : ℝ) : Libm.pow a b = a ^ b := rfl
@[real_arith] theorem rSqrt (a : ℝ) : Libm.sqrt a = Real.sqrt a := rfl
@[real_arith] theorem rAtan (a : ℝ) : Libm.atan a = Real.arctan a := rfl

attribute [real_arith] decide_eq_true_eq

/-- `clamp` in ideal arithmetic, for an ordered pair of bounds. -/
theorem clamp_real {lo hi : ℝ} (h : lo ≤ hi) (x : ℝ) : clamp x lo hi = max lo (min hi x) := by
  simp only [clamp, real_arith]
  rcases lt_or_ge x lo with h1 | h1
  · rw [if_pos h1, min_eq_right (by linarith), max_eq_left (by linarith)]
  · rw [if_neg (by linarith)]
    rcases lt_or_ge hi x with h2 | h2
    · rw [if_pos h2, min_eq_left (by linarith), max_eq_right h]
    · rw [if_neg (by linarith), min_eq_right h2, max_eq_right h1]

theorem clamp_real_in {lo hi : ℝ} (h : lo ≤ hi) (x : ℝ) : lo ≤ clamp x lo hi ∧ clamp x lo hi ≤ hi := by
  rw [clamp_real h]
  exact ⟨le_max_left _ _, max_le h (min_le_left _ _)⟩

end Verif
