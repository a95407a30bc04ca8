import Verif.Lemmas.Loops
import Verif.Lemmas.RealArith
import Mathlib.Analysis.SpecificLimits.Basic
import Mathlib.Analysis.SpecialFunctions.Complex.Log

/-!
# Endless inputs and the response to sinusoids

`heard tick s x n` is sample `n` of what a unit plays when it starts in state `s` and is fed with the samples `x 0, x 1, …`.
-/

namespace Verif

variable {σ α : Type}

/-- The state before sample `n`. -/
def feed (tick : σ → α → σ × α) (s : σ) (x : ℕ → α) : ℕ → σ
  | 0 => s
  | n + 1 => (tick (feed tick s x n) (x n)).1

/-- Sample `n` of the output. -/
def heard (tick : σ → α → σ × α) (s : σ) (x : ℕ → α) (n : ℕ) : α := (tick (feed tick s x n) (x n)).2

/-- This is what `process` writes. -/
theorem heard_process (tick : σ → α → σ × α) (s : σ) (x : ℕ → α) (N : ℕ) :
    forEach tick s ((List.range N).map x) = (feed tick s x N, (List.range N).map (heard tick s x)) := by
  induction N with
  | zero => rfl
  | succ N ih =>
    rw [List.range_succ, List.map_append, forEach_append, ih]
    simp [forEach, feed, heard]

/-- The sinusoid with complex amplitude `C` (its absolute value is the amplitude, its argument the phase) and `θ` radians per sample. -/
noncomputable def sinusoid (C : ℂ) (θ : ℝ) (n : ℕ) : ℝ := (C * Complex.exp (θ * Complex.I) ^ n).re

/-- A unit that answers every sinusoid of frequency `θ`, after a transient that dies out, with that sinusoid multiplied by the complex gain
`H`: the amplitude is multiplied by `‖H‖` and the phase shifted by the argument of `H`. -/
def Responds (tick : σ → ℝ → σ × ℝ) (s : σ) (θ : ℝ) (H : ℂ) : Prop :=
  ∀ C : ℂ, Filter.Tendsto (fun n => heard tick s (sinusoid C θ) n - sinusoid (H * C) θ n) Filter.atTop (nhds 0)

/-- The usual way to write a sinusoid. -/
theorem sinusoid_polar (a φ θ : ℝ) (n : ℕ) : sinusoid (a * Complex.exp (φ * Complex.I)) θ n = a * Real.cos (θ * n + φ) := by
  have : (a * Complex.exp (φ * Complex.I)) * Complex.exp (θ * Complex.I) ^ n =
      (a : ℂ) * Complex.exp ((θ * n + φ : ℝ) * Complex.I) := by
    rw [← Complex.exp_nat_mul, mul_assoc, ← Complex.exp_add]
    congr 2
    push_cast; ring
  rw [sinusoid, this, Complex.re_ofReal_mul, Complex.exp_ofReal_mul_I_re]

theorem sinusoid_succ (C : ℂ) (θ : ℝ) (n : ℕ) : sinusoid C θ (n + 1) = sinusoid (C * Complex.exp (θ * Complex.I)) θ n := by
  simp only [sinusoid, pow_succ']; rw [mul_assoc]

theorem sinusoid_add (C D : ℂ) (θ : ℝ) (n : ℕ) : sinusoid (C + D) θ n = sinusoid C θ n + sinusoid D θ n := by
  simp only [sinusoid, add_mul, Complex.add_re]

theorem sinusoid_smul (a : ℝ) (C : ℂ) (θ : ℝ) (n : ℕ) : sinusoid (a * C) θ n = a * sinusoid C θ n := by
  simp only [sinusoid, mul_assoc, Complex.re_ofReal_mul]

/-- A first-order recursion with `|p| < 1` dies out. -/
theorem decays_one {p : ℝ} (hp : |p| < 1) (e : ℕ → ℝ) (he : ∀ n, e (n + 1) = p * e n) : Filter.Tendsto e Filter.atTop (nhds 0) := by
  have : e = fun n => p ^ n * e 0 := by
    funext n
    induction n with
    | zero => simp
    | succ n ih => rw [he, ih, pow_succ]; ring
  rw [this]
  simpa using (tendsto_pow_atTop_nhds_zero_of_abs_lt_one hp).mul_const (e 0)

end Verif
