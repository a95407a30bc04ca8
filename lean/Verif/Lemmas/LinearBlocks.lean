import Verif.Spec.Linear
import Verif.Lemmas.Loops
import Verif.Lemmas.RealArith
import Verif.Float.Order

/-! # Lemmas for linear filters and silence -/

namespace Verif

/-- If three runs stay related and every output is the mix of the other two, so is the whole block. -/
theorem forEach_mix {σ : Type} {tick : σ → ℝ → σ × ℝ} {a b : ℝ} {R : σ → σ → σ → Prop}
    (h : ∀ s1 s2 s3 x y, R s1 s2 s3 → R (tick s1 x).1 (tick s2 y).1 (tick s3 (a * x + b * y)).1 ∧
      (tick s3 (a * x + b * y)).2 = a * (tick s1 x).2 + b * (tick s2 y).2) :
    ∀ (xs ys : List ℝ) (s1 s2 s3 : σ), R s1 s2 s3 → xs.length = ys.length →
      (forEach tick s3 (mix a b xs ys)).2 = mix a b (forEach tick s1 xs).2 (forEach tick s2 ys).2 := by
  intro xs
  induction xs with
  | nil => intro ys s1 s2 s3 _ hl; cases ys <;> simp [mix, forEach] at *
  | cons x xs ih =>
    intro ys s1 s2 s3 hR hl
    cases ys with
    | nil => simp at hl
    | cons y ys =>
      obtain ⟨h1, h2⟩ := h s1 s2 s3 x y hR
      have := ih ys _ _ _ h1 (by simpa using hl)
      simp only [mix, List.zipWith_cons_cons, forEach] at this ⊢
      rw [this, h2]

namespace FP
variable {f : Fmt}

/-- A zero of either sign. -/
def Zero (x : FP f) : Prop := x.In 0 0

theorem Zero.val {x : FP f} (h : x.Zero) : x.val = 0 := In.val_eq h
theorem Zero.fin {x : FP f} (h : x.Zero) : x.isFin = true := h.1
theorem zero_lit : (lit 0 : FP f).Zero := lit_zero

theorem zero_add_zero {x y : FP f} (hx : x.Zero) (hy : y.Zero) : (x + y).Zero := by
  obtain ⟨zs, e⟩ := add_def hx.1 hy.1
  rw [e, hx.val, hy.val, add_zero]; exact ofRat_rep rep_zero

theorem zero_sub_zero {x y : FP f} (hx : x.Zero) (hy : y.Zero) : (x - y).Zero := by
  obtain ⟨zs, e⟩ := sub_def hx.1 hy.1
  rw [e, hx.val, hy.val, sub_zero]; exact ofRat_rep rep_zero

theorem mul_zero' {x y : FP f} (hx : x.isFin = true) (hy : y.Zero) : (x * y).Zero := by
  obtain ⟨zs, e⟩ := mul_def hx hy.1
  rw [e, hy.val, mul_zero]; exact ofRat_rep rep_zero

theorem zero_mul' {x y : FP f} (hx : x.Zero) (hy : y.isFin = true) : (x * y).Zero := by
  obtain ⟨zs, e⟩ := mul_def hx.1 hy
  rw [e, hx.val, zero_mul]; exact ofRat_rep rep_zero

theorem zero_neg' {x : FP f} (hx : x.Zero) : (-x).Zero := by
  have := neg_in hx; simpa [Zero] using this

theorem zero_div' {x y : FP f} (hx : x.Zero) (hy : y.isFin = true) (h0 : y.val ≠ 0) : (x / y).Zero := by
  obtain ⟨zs, e⟩ := div_def hx.1 hy h0
  rw [e, hx.val, zero_div]; exact ofRat_rep rep_zero

theorem add_zero' {x y : FP f} (hx : x.isFin = true) (hy : y.Zero) : (x + y).In x.val x.val := by
  obtain ⟨zs, e⟩ := add_def hx hy.1
  rw [e, hy.val, add_zero]; exact ofRat_rep (rep_val x)

theorem zero_add' {x y : FP f} (hx : x.Zero) (hy : y.isFin = true) : (x + y).In y.val y.val := by
  obtain ⟨zs, e⟩ := add_def hx.1 hy
  rw [e, hx.val, zero_add]; exact ofRat_rep (rep_val y)

theorem zero_convert {g : Fmt} {x : FP f} (hx : x.Zero) : (convert x : FP g).Zero := by
  obtain ⟨v, nz, hv, rfl⟩ := isFin_cases hx.1
  have hv0 : v = 0 := hx.val
  subst hv0
  exact ofRat_rep rep_zero

end FP

/-- A block loop fed with zeros from a state with invariant `I` only produces zeros. -/
theorem forEach_silent {f : Fmt} {σ : Type} {tick : σ → FP f → σ × FP f} {I : σ → Prop}
    (h : ∀ s x, I s → x.Zero → I (tick s x).1 ∧ (tick s x).2.Zero) :
    ∀ (xs : List (FP f)) (s : σ), I s → (∀ x ∈ xs, x.Zero) → ∀ y ∈ (forEach tick s xs).2, y.Zero := by
  intro xs
  induction xs with
  | nil => intro s _ _ y hy; simp [forEach] at hy
  | cons x xs ih =>
    intro s hs hx y hy
    obtain ⟨h1, h2⟩ := h s x hs (hx x List.mem_cons_self)
    simp only [forEach, List.mem_cons] at hy
    rcases hy with rfl | hy
    · exact h2
    · exact ih _ h1 (fun x hx' => hx x (List.mem_cons_of_mem _ hx')) y hy

end Verif
