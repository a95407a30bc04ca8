import Verif.Model.Types

/-!
# Tape.h
-/

namespace Verif
variable {α : Type} [Arith α] [Libm α]

namespace TapeFollower

/-- Tape.h:17-19 data members. -/
structure Fol (α : Type) where
  attackCoeff : α
  releaseCoeff : α
  state : α

/-- Tape.h:21-27 `init`. -/
def init (sr attackTime releaseTime : α) : Fol α :=
  ⟨Libm.exp (-lit 1 / (attackTime * sr)), Libm.exp (-lit 1 / (releaseTime * sr)), lit 0⟩

/-- Tape.h:29-37 `process`. -/
def process (s : Fol α) (x : α) : Fol α × α :=
  let absX := Arith.fabs x
  let v :=
    if absX >. s.state then s.attackCoeff * s.state + (lit 1 - s.attackCoeff) * absX
    else s.releaseCoeff * s.state + (lit 1 - s.releaseCoeff) * absX
  ({ s with state := v }, v)

/-- Tape.h:39-41 `reset`. -/
def reset (s : Fol α) : Fol α := { s with state := lit 0 }

end TapeFollower

namespace TapeDcBlocker

/-- Tape.h:46-48 data members. -/
structure Blk (α : Type) where
  prevInput : α
  prevOutput : α
  gain : α

/-- Tape.h:50-54 `init`. -/
def init (coeff : α) : Blk α := ⟨lit 0, lit 0, coeff⟩

/-- Tape.h:56-61 `process`. -/
def process (s : Blk α) (input : α) : Blk α × α :=
  let output := input - s.prevInput + (s.gain * s.prevOutput)
  ({ s with prevInput := input, prevOutput := output }, output)

/-- Tape.h:63-66 `reset`. -/
def reset (s : Blk α) : Blk α := { s with prevInput := lit 0, prevOutput := lit 0 }

end TapeDcBlocker

namespace Tape

/-- Tape.h:71-77 data members. -/
structure T (α : Type) where
  sampleRate : α
  bias : α
  pregain : α
  follower : TapeFollower.Fol α
  dcLeft : TapeDcBlocker.Blk α
  dcRight : TapeDcBlocker.Blk α
  followerValue : α

/-- Tape.h:79-87 `init` (with the default arguments of the two sub-inits, Tape.h:21-23 and :50). -/
def init (sr : α) : T α :=
  { sampleRate := sr, bias := lit 0, pregain := lit 1, follower := TapeFollower.init sr (lit 0.001) (lit 0.020),
    dcLeft := TapeDcBlocker.init (lit 0.99), dcRight := TapeDcBlocker.init (lit 0.99), followerValue := lit 0 }

/-- Tape.h:89-91 `setBias`. -/
def setBias (b : α) (s : T α) : T α := { s with bias := b }
/-- Tape.h:93-95 `setPregain`. -/
def setPregain (pg : α) (s : T α) : T α := { s with pregain := pg }

/-- Tape.h:101-108 `tick`. -/
def tick (s : T α) (input : α) : T α × α :=
  let out := input * s.pregain
  let (follower, fv) := TapeFollower.process s.follower out
  let out := Libm.tanh (out + (fv * s.bias))
  let (dcLeft, out) := TapeDcBlocker.process s.dcLeft out
  ({ s with follower := follower, followerValue := fv, dcLeft := dcLeft }, Libm.tanh out)

/-- Tape.h:110-127 `tickStereo`. -/
def tickStereo (s : T α) (inputL inputR : α) : T α × Stereo α :=
  let l := inputL * s.pregain
  let r := inputR * s.pregain
  let (follower, fv) := TapeFollower.process s.follower l
  let l := Libm.tanh (l + (fv * s.bias))
  let r := Libm.tanh (r + (fv * s.bias))
  let (dcLeft, l) := TapeDcBlocker.process s.dcLeft l
  let (dcRight, r) := TapeDcBlocker.process s.dcRight r
  ({ s with follower := follower, followerValue := fv, dcLeft := dcLeft, dcRight := dcRight },
    ⟨Libm.tanh l, Libm.tanh r⟩)

/-- Tape.h:129-133 `process`. -/
def process : T α → List α → T α × List α := forEach tick
/-- Tape.h:135-141 `processStereo`; the two blocks as a list of pairs. -/
def processStereo : T α → List (α × α) → T α × List (Stereo α) := forEach fun s b => tickStereo s b.1 b.2

/-- Tape.h:143-148 `reset`. -/
def reset (s : T α) : T α :=
  { s with follower := TapeFollower.reset s.follower, dcLeft := TapeDcBlocker.reset s.dcLeft,
           dcRight := TapeDcBlocker.reset s.dcRight, followerValue := lit 0 }

end Tape
end Verif
