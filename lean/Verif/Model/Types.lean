import Verif.Arith

/-!
# types.h and the block loops shared by all unit generators
-/

namespace Verif

section
variable {α : Type} [Arith α]

/-- types.h:21 `DEFAULT_SAMPLE_RATE`. -/
def DEFAULT_SAMPLE_RATE : α := lit 48000
/-- types.h:27 `PI`. -/
def PI : α := lit 3.14159265358979323846
/-- types.h:30 `TWO_PI = 2.0f * PI` (a product of two floats). -/
def TWO_PI : α := lit 2 * PI
/-- types.h:33 `LCG_NORM`. -/
def LCG_NORM : α := lit 2147483648

/-- types.h:42-44 `lerp`. -/
def lerp (a b t : α) : α := a + t * (b - a)

/-- types.h:53-55 `clamp`. A NaN `value` is returned unchanged because both comparisons are false. -/
def clamp (value min max : α) : α :=
  if value <. min then min else if value >. max then max else value

/-- types.h:63-66 `Stereo`. -/
structure Stereo (α : Type) where
  left : α
  right : α
deriving DecidableEq

/-- types.h:69 default constructor `Stereo()`. -/
def Stereo.zero : Stereo α := ⟨lit 0, lit 0⟩
/-- types.h:75 `explicit Stereo(Sample mono)`. -/
def Stereo.ofMono (x : α) : Stereo α := ⟨x, x⟩

end

/-- The loop `for (i = 0; i < n; ++i) buf[i] = step(state, buf[i])` that all `process*` functions of the library share: the
buffer cells are visited in order, each is replaced, the state is threaded through. The list is the contents of
the `n` cells (`n` is the length of the list; the caller must pass at least `n` valid cells, as the C++ code
requires). -/
def forEach {σ β γ : Type} (step : σ → β → σ × γ) : σ → List β → σ × List γ
  | s, [] => (s, [])
  | s, b :: bs =>
    let (s1, c) := step s b
    let (s2, cs) := forEach step s1 bs
    (s2, c :: cs)

/-- `n` successive calls of `tick`, collecting the returned samples (the observable behaviour of a caller that ticks a unit
generator `n` times). -/
def ticks {σ γ : Type} (tick : σ → σ × γ) : ℕ → σ → σ × List γ
  | 0, s => (s, [])
  | n + 1, s =>
    let (s1, c) := tick s
    let (s2, cs) := ticks tick n s1
    (s2, c :: cs)

/-- State after `n` calls of `tick`. -/
def tickState {σ γ : Type} (tick : σ → σ × γ) (n : ℕ) (s : σ) : σ := (fun s => (tick s).1)^[n] s

/-- Output of the `n`-th call of `tick` (counting from 0). -/
def tickOut {σ γ : Type} (tick : σ → σ × γ) (n : ℕ) (s : σ) : γ := (tick (tickState tick n s)).2

end Verif
