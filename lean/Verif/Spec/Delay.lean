import Verif.Model.FVerbDSP
import Mathlib.Logic.Function.Basic

/-!
# Specification: ideal delays

A delay line that remembers everything ever written to it, by the time of writing; before time 0 it holds silence.
-/

namespace Verif.FVerbDSP

variable {α : Type} [Arith α]

/-- A delay by `d` returns exactly what was written `d` samples earlier. There is no array, no length and no wrap-around. -/
def ideal : LineImpl (ℤ → α) α where
  clear _ := fun _ => lit 0
  rd _ line now d := some (line (now - d))
  wr _ line now x := some (Function.update line now x)

/-- What happens to a reverb between `init` and its end: blocks of frames processed with some parameter values, and `instanceClear`. -/
inductive Event (α : Type) where
  | block (p : Params α) (frames : List (Stereo α))
  | clear

variable [Libm α] {L : Type}

/-- The output of a history of events; `none` is undefined behaviour. -/
def run (I : LineImpl L α) (k : Consts α) : State L α → List (Event α) → Option (State L α × List (Stereo α))
  | s, [] => some (s, [])
  | s, .block p xs :: es => (compute I k p s xs).bind fun (s, ys) => (run I k s es).map fun (s, zs) => (s, ys ++ zs)
  | _, .clear :: es => run I k (clear I) es

end Verif.FVerbDSP
