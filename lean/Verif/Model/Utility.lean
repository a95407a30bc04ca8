import Verif.Model.Types

/-!
# LinLin.h, DBAmp.h, Pan2.h, Balance2.h, XFade2.h, Wrap.h
-/

namespace Verif
variable {α : Type} [Arith α] [Libm α]

/-- LinLin.h:27-34 `LinLin`. -/
def LinLin (input srcLo srcHi destLo destHi : α) : α :=
  let denom := srcHi - srcLo
  if denom ==. lit 0 then destLo
  else
    let normalized := (input - srcLo) / denom
    destLo + normalized * (destHi - destLo)

/-- DBAmp.h:28-30 `process(db)` (and :35-37 `tick`). -/
def DBAmp.process (db : α) : α := Libm.pow (lit 10) (db * lit 0.05)

/-- DBAmp.h:45-49 `process(input, output, numSamples)`: the output block. -/
def DBAmp.processBlock (input : List α) : List α := input.map DBAmp.process

namespace Pan2

/-- Pan2.h:83-84 cached gains. -/
structure Pan (α : Type) where
  cachedLeft : α
  cachedRight : α

/-- Pan2.h:83-84 default member initialisers. -/
def new : Pan α := ⟨lit 0.70710678118, lit 0.70710678118⟩

/-- Pan2.h:44-60 `process`. -/
def process (input pan : α) : Stereo α :=
  let pan := clamp pan (-lit 1) (lit 1)
  let angle := (pan + lit 1) * lit 0.78539816339
  let left := Libm.cos angle
  let right := Libm.sin angle
  ⟨input * left, input * right⟩

/-- Pan2.h:67-69 `tick`. -/
def tick (s : Pan α) (input : α) : Stereo α := ⟨input * s.cachedLeft, input * s.cachedRight⟩

/-- Pan2.h:75-80 `setPan`. -/
def setPan (pan : α) : Pan α :=
  let pan := clamp pan (-lit 1) (lit 1)
  let angle := (pan + lit 1) * lit 0.78539816339
  ⟨Libm.cos angle, Libm.sin angle⟩

end Pan2

namespace Balance2

/-- Balance2.h:106-107 cached gains. -/
structure Bal (α : Type) where
  cachedLeftGain : α
  cachedRightGain : α

/-- Balance2.h:106-107 default member initialisers. -/
def new : Bal α := ⟨lit 0.70710678118, lit 0.70710678118⟩

/-- Balance2.h:53-69 `process`. -/
def process (left right pos level : α) : Stereo α :=
  let pos := clamp pos (-lit 1) (lit 1)
  let angle := (pos + lit 1) * lit 0.78539816339
  let leftGain := Libm.cos angle
  let rightGain := Libm.sin angle
  ⟨left * leftGain * level, right * rightGain * level⟩

/-- Balance2.h:77-79 `tick`. -/
def tick (s : Bal α) (left right : α) : Stereo α := ⟨left * s.cachedLeftGain, right * s.cachedRightGain⟩

/-- Balance2.h:86-91 `setPosition`. -/
def setPosition (pos level : α) : Bal α :=
  let pos := clamp pos (-lit 1) (lit 1)
  let angle := (pos + lit 1) * lit 0.78539816339
  ⟨Libm.cos angle * level, Libm.sin angle * level⟩

/-- Balance2.h:97-103 `setLevel`. -/
def setLevel (level : α) (s : Bal α) : Bal α :=
  let ratio := s.cachedRightGain / (s.cachedLeftGain + lit 1e-10)
  let angle := Libm.atan ratio
  ⟨Libm.cos angle * level, Libm.sin angle * level⟩

end Balance2

namespace XFade2

/-- XFade2.h:106-109 cached gains. -/
structure Fade (α : Type) where
  cachedBaseA : α
  cachedBaseB : α
  cachedGainA : α
  cachedGainB : α

/-- XFade2.h:106-109 default member initialisers. -/
def new : Fade α := ⟨lit 0.70710678118, lit 0.70710678118, lit 0.70710678118, lit 0.70710678118⟩

/-- XFade2.h:98-104 `computeGains`. -/
def computeGains (pos level : α) : α × α :=
  let pos := clamp pos (-lit 1) (lit 1)
  let angle := (pos + lit 1) * lit 0.78539816339
  (Libm.cos angle * level, Libm.sin angle * level)

/-- XFade2.h:32-37 `process` (mono). -/
def process (inA inB pos level : α) : α :=
  let gains := computeGains pos level
  inA * gains.1 + inB * gains.2

/-- XFade2.h:47-53 `process` (stereo). -/
def processStereo (inA inB : Stereo α) (pos level : α) : Stereo α :=
  let gains := computeGains pos level
  ⟨inA.left * gains.1 + inB.left * gains.2, inA.right * gains.1 + inB.right * gains.2⟩

/-- XFade2.h:58-60 `tick` (mono). -/
def tick (s : Fade α) (inA inB : α) : α := inA * s.cachedGainA + inB * s.cachedGainB

/-- XFade2.h:65-68 `tick` (stereo). -/
def tickStereo (s : Fade α) (inA inB : Stereo α) : Stereo α :=
  ⟨inA.left * s.cachedGainA + inB.left * s.cachedGainB, inA.right * s.cachedGainA + inB.right * s.cachedGainB⟩

/-- XFade2.h:75-83 `setPosition`. -/
def setPosition (pos level : α) : Fade α :=
  let gains := computeGains pos level
  { cachedBaseA := gains.1 / (level + lit 1e-12), cachedBaseB := gains.2 / (level + lit 1e-12),
    cachedGainA := gains.1, cachedGainB := gains.2 }

/-- XFade2.h:89-92 `setLevel`. -/
def setLevel (level : α) (s : Fade α) : Fade α :=
  { s with cachedGainA := s.cachedBaseA * level, cachedGainB := s.cachedBaseB * level }

end XFade2

namespace Wrap

/-- Wrap.h:84-85 cached range. -/
structure W (α : Type) where
  cachedLow : α
  cachedRange : α

/-- Wrap.h:84-85 default member initialisers. -/
def new : W α := ⟨lit 0, lit 1⟩

/-- Wrap.h:77-82 `wrapValue`. -/
def wrapValue (input low range : α) : α :=
  let normalized := (input - low) / range
  input - range * Arith.floor normalized

/-- Wrap.h:31-37 `process(input, low, high)`. -/
def process (input low high : α) : α :=
  let range := high - low
  if range <=. lit 0 then low else wrapValue input low range

/-- Wrap.h:44-49 `tick`. -/
def tick (s : W α) (input : α) : α :=
  if s.cachedRange <=. lit 0 then s.cachedLow else wrapValue input s.cachedLow s.cachedRange

/-- Wrap.h:57-61 `process(input, output, numSamples)`. -/
def processBlock (s : W α) (input : List α) : List α := input.map (tick s)

/-- Wrap.h:68-74 `setRange`. -/
def setRange (low high : α) : W α :=
  let range := high - low
  ⟨low, if range <=. lit 0 then lit 0 else range⟩

end Wrap
end Verif
