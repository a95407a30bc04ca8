import Mathlib.Data.Real.Basic

/-!
# Specification: linear block maps
-/

namespace Verif

/-- Pointwise `a * x + b * y` of two signals of the same length. -/
noncomputable def mix (a b : ℝ) (xs ys : List ℝ) : List ℝ := List.zipWith (fun x y => a * x + b * y) xs ys

/-- A map from blocks to blocks is linear. -/
def IsLinearBlockMap (F : List ℝ → List ℝ) : Prop :=
  ∀ (a b : ℝ) (xs ys : List ℝ), xs.length = ys.length → F (mix a b xs ys) = mix a b (F xs) (F ys)

end Verif
