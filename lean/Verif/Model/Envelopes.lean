import Verif.Model.Types

/-!
# EnvelopeAR.h and EnvelopeADSR.h
-/

namespace Verif
variable {α : Type} [Arith α] [Libm α]

namespace EnvelopeAR

/-- EnvelopeAR.h:46-50 `enum class State`. -/
inductive State | idle | attack | release
deriving DecidableEq, Repr

/-- EnvelopeAR.h:52-75 data members. -/
structure Env (α : Type) where
  value : α
  attackCoeff : α
  releaseCoeff : α
  attackTime : α
  releaseTime : α
  sampleRate : α
  state : State
  gate : Bool

/-- EnvelopeAR.h:115-118 `updateAttackCoefficient`. -/
def updateAttackCoefficient (s : Env α) : Env α :=
  { s with attackCoeff := Libm.exp (-lit 1 / (s.attackTime * s.sampleRate)) }

/-- EnvelopeAR.h:126-129 `updateReleaseCoefficient`. -/
def updateReleaseCoefficient (s : Env α) : Env α :=
  { s with releaseCoeff := Libm.exp (-lit 1 / (s.releaseTime * s.sampleRate)) }

/-- EnvelopeAR.h:134-137 `updateCoefficients`. -/
def updateCoefficients (s : Env α) : Env α := updateReleaseCoefficient (updateAttackCoefficient s)

/-- EnvelopeAR.h:81-89 `init` (every member is overwritten, so the previous contents do not matter; the two coefficients
are placeholders here and set by `updateCoefficients`). -/
def init (sr : α) : Env α :=
  updateCoefficients
    { sampleRate := sr, value := lit 0, attackTime := lit 0.01, releaseTime := lit 0.1,
      state := .idle, gate := false, attackCoeff := lit 0, releaseCoeff := lit 0 }

/-- EnvelopeAR.h:95-98 `setAttack`. -/
def setAttack (time : α) (s : Env α) : Env α :=
  updateAttackCoefficient { s with attackTime := if time >. lit 0.0001 then time else lit 0.0001 }

/-- EnvelopeAR.h:104-107 `setRelease`. -/
def setRelease (time : α) (s : Env α) : Env α :=
  updateReleaseCoefficient { s with releaseTime := if time >. lit 0.0001 then time else lit 0.0001 }

/-- EnvelopeAR.h:142-145 `trigger`. -/
def trigger (s : Env α) : Env α := { s with gate := true, state := .attack }

/-- EnvelopeAR.h:150-155 `release`. -/
def release (s : Env α) : Env α :=
  { s with gate := false, state := if s.state ≠ .idle then .release else s.state }

/-- EnvelopeAR.h:161-167 `setGate`. -/
def setGate (gateOn : Bool) (s : Env α) : Env α :=
  if gateOn && !s.gate then trigger s
  else if !gateOn && s.gate then release s
  else s

/-- EnvelopeAR.h:173-175 `isActive`. -/
def isActive (s : Env α) : Bool := s.state ≠ .idle

/-- EnvelopeAR.h:181-210 `tick`. -/
def tick (s : Env α) : Env α × α :=
  let s' :=
    match s.state with
    | .attack =>
      let v := lit 1 - s.attackCoeff * (lit 1 - s.value)
      if v >=. lit 0.999 then
        { s with value := lit 1, state := if !s.gate then .release else s.state }
      else { s with value := v }
    | .release =>
      let v := s.releaseCoeff * s.value
      if v <=. lit 0.0001 then { s with value := lit 0, state := .idle }
      else { s with value := v }
    | .idle => { s with value := lit 0 }
  (s', s'.value)

/-- EnvelopeAR.h:217-221 `process`. -/
def process : Env α → List α → Env α × List α := forEach fun s _ => tick s

/-- EnvelopeAR.h:228-232 `processMul`. -/
def processMul : Env α → List α → Env α × List α :=
  forEach fun s b => let (s', o) := tick s; (s', b * o)

/-- EnvelopeAR.h:237-241 `reset`. -/
def reset (s : Env α) : Env α := { s with value := lit 0, state := .idle, gate := false }

/-- The public calls a client can make after `init`. -/
inductive Op (α : Type)
  | init (sr : α) | setAttack (t : α) | setRelease (t : α) | trigger | release | setGate (g : Bool)
  | tick | process (buf : List α) | processMul (buf : List α) | reset

/-- Effect of one call: new state and the samples it returned or wrote. -/
def step (s : Env α) : Op α → Env α × List α
  | .init sr => (init sr, [])
  | .setAttack t => (setAttack t s, [])
  | .setRelease t => (setRelease t s, [])
  | .trigger => (trigger s, [])
  | .release => (release s, [])
  | .setGate g => (setGate g s, [])
  | .tick => let (s', o) := tick s; (s', [o])
  | .process buf => process s buf
  | .processMul buf => processMul s buf
  | .reset => (reset s, [])

/-- State after a history of calls. -/
def run (s : Env α) (ops : List (Op α)) : Env α := ops.foldl (fun s op => (step s op).1) s

end EnvelopeAR

namespace EnvelopeADSR

/-- EnvelopeADSR.h:51-57 `enum class State`. -/
inductive State | idle | attack | decay | sustain | release
deriving DecidableEq, Repr

/-- EnvelopeADSR.h:60-64 `enum class DoneAction`. -/
inductive DoneAction | none | pause | free
deriving DecidableEq, Repr

/-- EnvelopeADSR.h:66-103 data members. -/
structure Env (α : Type) where
  value : α
  attackCoeff : α
  decayCoeff : α
  releaseCoeff : α
  attackTime : α
  decayTime : α
  sustainLevel : α
  releaseTime : α
  sampleRate : α
  state : State
  gateValue : α
  doneAction : DoneAction
  done : Bool

/-- EnvelopeADSR.h:169-171. -/
def updateAttackCoefficient (s : Env α) : Env α :=
  { s with attackCoeff := Libm.exp (-lit 1 / (s.attackTime * s.sampleRate)) }
/-- EnvelopeADSR.h:176-178. -/
def updateDecayCoefficient (s : Env α) : Env α :=
  { s with decayCoeff := Libm.exp (-lit 1 / (s.decayTime * s.sampleRate)) }
/-- EnvelopeADSR.h:183-185. -/
def updateReleaseCoefficient (s : Env α) : Env α :=
  { s with releaseCoeff := Libm.exp (-lit 1 / (s.releaseTime * s.sampleRate)) }
/-- EnvelopeADSR.h:190-194. -/
def updateCoefficients (s : Env α) : Env α :=
  updateReleaseCoefficient (updateDecayCoefficient (updateAttackCoefficient s))

/-- EnvelopeADSR.h:109-121 `init` (coefficients are placeholders until `updateCoefficients`). -/
def init (sr : α) : Env α :=
  updateCoefficients
    { sampleRate := sr, value := lit 0, attackTime := lit 0.01, decayTime := lit 0.1,
      sustainLevel := lit 0.7, releaseTime := lit 0.3, state := .idle, gateValue := lit 0,
      doneAction := .none, done := false, attackCoeff := lit 0, decayCoeff := lit 0,
      releaseCoeff := lit 0 }

/-- EnvelopeADSR.h:127-130 `setAttack`. -/
def setAttack (time : α) (s : Env α) : Env α :=
  updateAttackCoefficient { s with attackTime := if time >. lit 0.0001 then time else lit 0.0001 }
/-- EnvelopeADSR.h:136-139 `setDecay`. -/
def setDecay (time : α) (s : Env α) : Env α :=
  updateDecayCoefficient { s with decayTime := if time >. lit 0.0001 then time else lit 0.0001 }
omit [Libm α] in
/-- EnvelopeADSR.h:145-147 `setSustain`. -/
def setSustain (level : α) (s : Env α) : Env α := { s with sustainLevel := clamp level (lit 0) (lit 1) }
/-- EnvelopeADSR.h:153-156 `setRelease`. -/
def setRelease (time : α) (s : Env α) : Env α :=
  updateReleaseCoefficient { s with releaseTime := if time >. lit 0.0001 then time else lit 0.0001 }
/-- EnvelopeADSR.h:162-164 `setDoneAction`. -/
def setDoneAction (a : DoneAction) (s : Env α) : Env α := { s with doneAction := a }

/-- EnvelopeADSR.h:203-218 `gate`. -/
def gate (g : α) (s : Env α) : Env α :=
  let prevGate := s.gateValue
  let s := { s with gateValue := g }
  if prevGate <=. lit 0 && g >. lit 0 then { s with state := .attack, done := false }
  else if prevGate >. lit 0 && g <=. lit 0 then
    { s with state := if s.state ≠ .idle then .release else s.state }
  else s

/-- EnvelopeADSR.h:224-226 `isActive`. -/
def isActive (s : Env α) : Bool := s.state ≠ .idle
/-- EnvelopeADSR.h:232-234 `isDone`. -/
def isDone (s : Env α) : Bool := s.done

/-- EnvelopeADSR.h:240-301 `tick`. -/
def tick (s : Env α) : Env α × α :=
  let s' :=
    match s.state with
    | .attack =>
      let v := lit 1 - s.attackCoeff * (lit 1 - s.value)
      let s1 := if v >=. lit 0.999 then { s with value := lit 1, state := .decay } else { s with value := v }
      if s.gateValue <=. lit 0 then { s1 with state := .release } else s1
    | .decay =>
      let v := s.sustainLevel + s.decayCoeff * (s.value - s.sustainLevel)
      let s1 :=
        if Arith.fabs (v - s.sustainLevel) <. lit 0.001 then
          { s with value := s.sustainLevel, state := .sustain }
        else { s with value := v }
      if s.gateValue <=. lit 0 then { s1 with state := .release } else s1
    | .sustain =>
      let s1 := { s with value := s.sustainLevel }
      if s.gateValue <=. lit 0 then { s1 with state := .release } else s1
    | .release =>
      let v := s.releaseCoeff * s.value
      if v <=. lit 0.0001 then { s with value := lit 0, state := .idle, done := true }
      else { s with value := v }
    | .idle => { s with value := lit 0 }
  (s', s'.value)

/-- EnvelopeADSR.h:308-312 `process`. -/
def process : Env α → List α → Env α × List α := forEach fun s _ => tick s
/-- EnvelopeADSR.h:319-323 `processMul`. -/
def processMul : Env α → List α → Env α × List α :=
  forEach fun s b => let (s', o) := tick s; (s', b * o)
/-- EnvelopeADSR.h:328-333 `reset`. -/
def reset (s : Env α) : Env α :=
  { s with value := lit 0, state := .idle, gateValue := lit 0, done := false }

/-- The public calls a client can make after `init`. -/
inductive Op (α : Type)
  | init (sr : α) | setAttack (t : α) | setDecay (t : α) | setSustain (l : α) | setRelease (t : α)
  | setDoneAction (a : DoneAction) | gate (g : α)
  | tick | process (buf : List α) | processMul (buf : List α) | reset

/-- Effect of one call: new state and the samples it returned or wrote. -/
def step (s : Env α) : Op α → Env α × List α
  | .init sr => (init sr, [])
  | .setAttack t => (setAttack t s, [])
  | .setDecay t => (setDecay t s, [])
  | .setSustain l => (setSustain l s, [])
  | .setRelease t => (setRelease t s, [])
  | .setDoneAction a => (setDoneAction a s, [])
  | .gate g => (gate g s, [])
  | .tick => let (s', o) := tick s; (s', [o])
  | .process buf => process s buf
  | .processMul buf => processMul s buf
  | .reset => (reset s, [])

/-- State after a history of calls. -/
def run (s : Env α) (ops : List (Op α)) : Env α := ops.foldl (fun s op => (step s op).1) s

end EnvelopeADSR
end Verif
