import Lean.Meta.Tactic.Simp.RegisterCommand

/-- Unfolds the operations of the ideal-arithmetic instance `Arith ℝ` to the ordinary operations on `ℝ`. -/
register_simp_attr real_arith
