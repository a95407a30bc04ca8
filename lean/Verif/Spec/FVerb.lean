import Verif.Model.FVerb

/-!
# Specification: reverbs without memory

A reverb is a value: absent, declared, or running with its DSP state. There is no heap, no pointer, no buffer.
-/

namespace Verif.FVerb
open FVerbDSP

variable {α : Type} [Arith α] [Libm α]

/-- A reverb as its user sees it. `warm` records that a non-empty block has been processed. -/
structure Unit' (α : Type) where
  dsp : Option (Dsp (List α) α)
  warm : Bool

/-- What a call does. `none`: the program is outside the contract (copying a reverb, an empty block before the first non-empty one, calls
on absent reverbs) or the DSP itself has undefined behaviour. -/
def specStep (u : ℕ → Option (Unit' α)) : Call α → Option ((ℕ → Option (Unit' α)) × List (Stereo α))
  | .declare c => if (u c).isNone then some (Function.update u c (some ⟨none, false⟩), []) else none
  | .init c sr => (u c).bind fun r => (newDsp arrays sr).map fun D => (Function.update u c (some { r with dsp := some D }), [])
  | .process c xs => (u c).bind fun r =>
    match r.dsp with
    | none => some (u, xs)
    | some D =>
      if 2 ^ 31 ≤ xs.length ∨ (xs = [] ∧ r.warm = false) then none
      else (compute arrays D.consts D.params D.state xs).map fun (s, ys) =>
        (Function.update u c (some ⟨some { D with state := s }, true⟩), ys)
  | .set c w x => (u c).map fun r =>
      (Function.update u c (some { r with dsp := r.dsp.map fun D => { D with params := setParam w x D.params } }), [])
  | .reset c => (u c).map fun r => (Function.update u c (some { r with dsp := r.dsp.map fun D => { D with state := clear arrays } }), [])
  | .copy _ _ => none
  | .destroy c => (u c).map fun _ => (Function.update u c none, [])

/-- A whole program. -/
def specRun : (ℕ → Option (Unit' α)) → List (Call α) → Option ((ℕ → Option (Unit' α)) × List (List (Stereo α)))
  | u, [] => some (u, [])
  | u, c :: cs => (specStep u c).bind fun (u, ys) => (specRun u cs).map fun (u, zs) => (u, ys :: zs)

end Verif.FVerb
