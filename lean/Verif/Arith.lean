import Verif.Float.FP
import Mathlib.Algebra.Order.Archimedean.Real.Basic
import Mathlib.Analysis.SpecialFunctions.Trigonometric.Basic
import Mathlib.Analysis.SpecialFunctions.Pow.Real
import Mathlib.Analysis.SpecialFunctions.Trigonometric.Arctan

/-!
# Arithmetic used by the model

`Arith α` collects the operations that the library performs on `float`/`double` and that IEEE-754 or C fix exactly;
it has **no laws**.  `Libm α` collects the transcendental functions.  The model is written
once over these classes; theorems pick an instance:

* no instance (law-free): statements that hold whatever the operations do;
* `F32`, `F64`: IEEE-754;
* `ℝ`: ideal arithmetic.
-/

namespace Verif

class Arith (α : Type) extends Add α, Sub α, Mul α, Div α, Neg α where
  /-- a decimal literal of the source, e.g. `0.0001f` is `lit 0.0001` -/
  lit : ℚ → α
  lt : α → α → Bool
  le : α → α → Bool
  eq : α → α → Bool
  /-- conversion from an integer type -/
  ofInt : ℤ → α
  floor : α → α
  ceil : α → α
  round : α → α
  fmod : α → α → α
  fabs : α → α
  /-- truncation to an integer; `none` if not finite -/
  toInt? : α → Option ℤ

class Libm (α : Type) where
  sin : α → α
  cos : α → α
  tan : α → α
  exp : α → α
  tanh : α → α
  log : α → α
  pow : α → α → α
  sqrt : α → α
  atan : α → α

/-- Conversion between the two floating-point types used in one expression (`float` and `double`). -/
class Conv (α β : Type) where
  conv : α → β

export Arith (lit)

infix:50 " <. " => Arith.lt
infix:50 " <=. " => Arith.le
infix:50 " ==. " => Arith.eq
/-- `a > b` -/
notation:50 a:51 " >. " b:51 => Arith.lt b a
/-- `a >= b` -/
notation:50 a:51 " >=. " b:51 => Arith.le b a

namespace Arith
variable {α : Type} [Arith α]

/-- `x != y` -/
def ne (x y : α) : Bool := !(x ==. y)

/-- `static_cast<size_t>(x)` for 64-bit `size_t`; `none` is undefined behaviour ([conv.fpint]: the truncated value is not
representable in the target type). -/
def toSize? (x : α) : Option ℕ :=
  match Arith.toInt? x with
  | some n => if 0 ≤ n ∧ n < 2 ^ 64 then some n.toNat else none
  | none => none

/-- `static_cast<int>(x)` for 32-bit `int`; `none` is undefined behaviour. -/
def toI32? (x : α) : Option ℤ :=
  match Arith.toInt? x with
  | some n => if -2 ^ 31 ≤ n ∧ n < 2 ^ 31 then some n else none
  | none => none

/-- `static_cast<Sample>(n)` for an unsigned `n`. -/
def ofNat (n : ℕ) : α := Arith.ofInt (n : ℤ)

/-- `std::max(a, b)`: `(a < b) ? b : a` -/
def stdMax (a b : α) : α := if a <. b then b else a
/-- `std::min(a, b)`: `(b < a) ? b : a` -/
def stdMin (a b : α) : α := if b <. a then b else a
end Arith

/-- IEEE-754 arithmetic. -/
instance (f : Fmt) : Arith (FP f) where
  add := FP.add
  sub := FP.sub
  mul := FP.mul
  div := FP.div
  neg := FP.neg
  lit q := FP.ofRat q
  lt := FP.lt
  le := FP.le
  eq := FP.eq
  ofInt n := FP.ofRat n
  floor := FP.floor
  ceil := FP.ceil
  round := FP.round
  fmod := FP.fmod
  fabs := FP.abs
  toInt? := FP.toInt?

instance (f g : Fmt) : Conv (FP f) (FP g) := ⟨FP.convert⟩

/-- Truncation toward zero. -/
noncomputable def truncR (x : ℝ) : ℤ := if 0 ≤ x then ⌊x⌋ else ⌈x⌉
/-- Round half away from zero. -/
noncomputable def roundR (x : ℝ) : ℤ := if 0 ≤ x then ⌊x + 1 / 2⌋ else ⌈x - 1 / 2⌉

/-- Ideal arithmetic: literals are the exact decimals, `x / 0 = 0` (theorems about `ℝ` carry
the hypotheses that exclude division by zero). -/
noncomputable instance instArithReal : Arith ℝ where
  add := (· + ·)
  sub := (· - ·)
  mul := (· * ·)
  div := (· / ·)
  neg x := -x
  lit q := (q : ℝ)
  lt x y := decide (x < y)
  le x y := decide (x ≤ y)
  eq x y := decide (x = y)
  ofInt n := (n : ℝ)
  floor x := (⌊x⌋ : ℤ)
  ceil x := (⌈x⌉ : ℤ)
  round x := (roundR x : ℤ)
  fmod x y := x - y * (truncR (x / y) : ℤ)
  fabs x := |x|
  toInt? x := some (truncR x)

noncomputable instance instLibmReal : Libm ℝ where
  sin := Real.sin
  cos := Real.cos
  tan := Real.tan
  exp := Real.exp
  tanh := Real.tanh
  log := Real.log
  pow := fun x y => x ^ y
  sqrt := Real.sqrt
  atan := Real.arctan

noncomputable instance : Conv ℝ ℝ := ⟨id⟩

end Verif
