import Verif.Float.Round

/-!
# IEEE-754 values and operations

`FP f` is the set of values of the format `f` (NaNs identified; every other value, including both zeros,
distinct).  Operations follow IEEE-754 with round-to-nearest-even and C's `<math.h>` for
`floor`, `ceil`, `round`, `fmod`, `fabs`.
-/

namespace Verif

/-- Representable finite value `v`; `nz` flags the negative zero. -/
def Fmt.Rep (f : Fmt) (v : ℚ) (nz : Bool) : Prop :=
  f.Grid v ∧ |v| < 2 ^ f.emaxp1 ∧ (nz = true → v = 0)

instance (f : Fmt) (v : ℚ) (nz : Bool) : Decidable (f.Rep v nz) := by
  unfold Fmt.Rep; infer_instance

/-- Floating-point values of format `f`. -/
inductive FP (f : Fmt) where
  | nan
  | inf (neg : Bool)
  | fin (v : ℚ) (nz : Bool) (h : f.Rep v nz)
deriving DecidableEq

/-- `float`, the library's `Sample` (types.h:17-20). -/
abbrev F32 := FP binary32
/-- `double`. -/
abbrev F64 := FP binary64

namespace FP
variable {f : Fmt}

section
variable {K : Type*} [Field K] [LinearOrder K] [IsStrictOrderedRing K] [FloorRing K]

/-- Correctly rounded value of `x` with overflow to infinity; `zs` is the sign given to a zero result. -/
def ofK (x : K) (zs : Bool) : FP f :=
  if h : |f.rnd x| < 2 ^ f.emaxp1 then
    fin (f.rnd x) (zs && decide (f.rnd x = 0)) ⟨f.grid_rnd x, h, by simp⟩
  else inf (decide (x < 0))
end

/-- Correctly rounded rational. -/
def ofRat (q : ℚ) (zs : Bool := false) : FP f := ofK q zs

/-- Sign bit (`false` for NaN). -/
def sign : FP f → Bool
  | nan => false
  | inf b => b
  | fin v nz _ => decide (v < 0) || nz

def isFin : FP f → Bool
  | fin .. => true
  | _ => false

/-- Value of a finite number (0 otherwise; only used together with finiteness). -/
def val : FP f → ℚ
  | fin v _ _ => v
  | _ => 0

protected def neg : FP f → FP f
  | nan => nan
  | inf b => inf (!b)
  | fin v nz h => fin (-v) (decide (v = 0) && !nz) ⟨h.1.neg, by rw [abs_neg]; exact h.2.1, by simp; tauto⟩

protected def abs : FP f → FP f
  | nan => nan
  | inf _ => inf false
  | fin v _ h => fin |v| false ⟨by
      rcases abs_choice v with hv | hv <;> rw [hv]
      · exact h.1
      · exact h.1.neg, by rw [abs_abs]; exact h.2.1, by simp⟩

protected def add : FP f → FP f → FP f
  | nan, _ => nan
  | _, nan => nan
  | inf a, inf b => if a = b then inf a else nan
  | inf a, fin .. => inf a
  | fin .., inf b => inf b
  | fin x zx _, fin y zy _ => ofRat (x + y) (zx && zy)

protected def sub (x y : FP f) : FP f := FP.add x (FP.neg y)

protected def mul : FP f → FP f → FP f
  | nan, _ => nan
  | _, nan => nan
  | inf a, inf b => inf (a ^^ b)
  | inf a, fin y zy h => if y = 0 then nan else inf (a ^^ sign (fin y zy h))
  | fin x zx h, inf b => if x = 0 then nan else inf (sign (fin x zx h) ^^ b)
  | fin x zx hx, fin y zy hy => ofRat (x * y) (sign (fin x zx hx) ^^ sign (fin y zy hy))

protected def div : FP f → FP f → FP f
  | nan, _ => nan
  | _, nan => nan
  | inf _, inf _ => nan
  | inf a, fin y zy h => inf (a ^^ sign (fin y zy h))
  | fin x zx h, inf b => ofRat 0 (sign (fin x zx h) ^^ b)
  | fin x zx hx, fin y zy hy =>
    if y = 0 then
      if x = 0 then nan else inf (sign (fin x zx hx) ^^ sign (fin y zy hy))
    else ofRat (x / y) (sign (fin x zx hx) ^^ sign (fin y zy hy))

/-- `x < y` (false if either is NaN). -/
def lt : FP f → FP f → Bool
  | nan, _ => false
  | _, nan => false
  | inf a, inf b => a && !b
  | inf a, fin .. => a
  | fin .., inf b => !b
  | fin x _ _, fin y _ _ => decide (x < y)

/-- `x == y` (false if either is NaN; the two zeros are equal). -/
def eq : FP f → FP f → Bool
  | nan, _ => false
  | _, nan => false
  | inf a, inf b => a == b
  | inf _, fin .. => false
  | fin .., inf _ => false
  | fin x _ _, fin y _ _ => decide (x = y)

/-- `x <= y`. -/
def le (x y : FP f) : Bool := lt x y || eq x y

/-- Round a finite number to an integer-valued number by `g`. -/
def mapInt (g : ℚ → ℤ) : FP f → FP f
  | nan => nan
  | inf b => inf b
  | fin v nz h => ofRat (g v) (sign (fin v nz h))

/-- Truncation toward zero of a rational. -/
def truncQ (q : ℚ) : ℤ := if 0 ≤ q then ⌊q⌋ else ⌈q⌉

/-- Round half away from zero of a rational. -/
def roundQ (q : ℚ) : ℤ := if 0 ≤ q then ⌊q + 1 / 2⌋ else ⌈q - 1 / 2⌉

/-- `std::floor`. -/
def floor : FP f → FP f := mapInt fun q => ⌊q⌋
/-- `std::ceil`. -/
def ceil : FP f → FP f := mapInt fun q => ⌈q⌉
/-- `std::round` (half away from zero). -/
def round : FP f → FP f := mapInt roundQ

/-- `std::fmod`. -/
def fmod : FP f → FP f → FP f
  | nan, _ => nan
  | _, nan => nan
  | inf _, _ => nan
  | x@(fin ..), inf _ => x
  | fin x zx hx, fin y _ _ =>
    if y = 0 then nan else ofRat (x - y * truncQ (x / y)) (sign (fin x zx hx))

/-- Mathematical value of a conversion to an integer type (truncation); `none` for NaN and infinities, for which the
C++ conversion is undefined. Range checks are the caller's. -/
def toInt? : FP f → Option ℤ
  | fin v _ _ => some (truncQ v)
  | _ => none

/-- Conversion between formats. -/
def convert {g : Fmt} : FP f → FP g
  | nan => nan
  | inf b => inf b
  | fin v nz _ => ofRat v nz

end FP
end Verif
