import Verif.Model.Types

/-!
# XLine.h and Phasor.h
-/

namespace Verif
variable {α : Type} [Arith α] [Libm α]

namespace XLine

/-- XLine.h:45-75 data members. -/
structure Line (α : Type) where
  value : α
  start : α
  stop : α
  dur : α
  mul : α
  add : α
  growthFactor : α
  durSamples : α
  counter : α
  sampleRate : α
  done : Bool

/-- XLine.h:152-161 `updateGrowthFactor`. -/
def updateGrowthFactor (s : Line α) : Line α :=
  { s with growthFactor :=
      if (s.durSamples >. lit 0) && Arith.ne s.start (lit 0) then
        Libm.exp (Libm.log (s.stop / s.start) / s.durSamples)
      else lit 1 }

/-- XLine.h:81-93 `init`. -/
def init (sr : α) : Line α :=
  updateGrowthFactor
    { sampleRate := sr, value := lit 1, start := lit 1, stop := lit 2, dur := lit 1, mul := lit 1, add := lit 0,
      counter := lit 0, durSamples := lit 1 * sr, done := false, growthFactor := lit 1 }

/-- XLine.h:118-125 the adjustment of the end points made by `set`. -/
def endpoints (startVal endVal : α) : α × α :=
  let startVal := if startVal ==. lit 0 then lit 0.0001 else startVal
  let endVal := if endVal ==. lit 0 then lit 0.0001 else endVal
  if (startVal >. lit 0) != (endVal >. lit 0) then (Arith.fabs startVal, Arith.fabs endVal) else (startVal, endVal)

/-- XLine.h:115-137 `set`. -/
def set (startVal endVal duration mulVal addVal : α) (s : Line α) : Line α :=
  let (startVal, endVal) := endpoints startVal endVal
  let dur := if duration >. lit 0 then duration else lit 0.001
  updateGrowthFactor
    { s with start := startVal, stop := endVal, dur := dur, mul := mulVal, add := addVal, value := startVal,
             counter := lit 0, durSamples := dur * s.sampleRate, done := false }

/-- XLine.h:167-181 `tick`. -/
def tick (s : Line α) : Line α × α :=
  let out := s.value * s.mul + s.add
  let s' :=
    if !s.done then
      let counter := s.counter + lit 1
      if counter >=. s.durSamples then { s with counter := counter, value := s.stop, done := true }
      else { s with counter := counter, value := s.value * s.growthFactor }
    else s
  (s', out)

/-- XLine.h:188-192 `process`. -/
def process : Line α → List α → Line α × List α := forEach fun s _ => tick s

/-- XLine.h:199-203 `processMul`. -/
def processMul : Line α → List α → Line α × List α := forEach fun s b => let (s', o) := tick s; (s', b * o)

/-- XLine.h:210-214 `processAdd`. -/
def processAdd : Line α → List α → Line α × List α := forEach fun s b => let (s', o) := tick s; (s', b + o)

/-- XLine.h:220-222 `isDone`. -/
def isDone (s : Line α) : Bool := s.done

/-- XLine.h:227-231 `reset` (and :238-240 `trigger`). -/
def reset (s : Line α) : Line α := { s with value := s.start, counter := lit 0, done := false }

end XLine

namespace Phasor

/-- Phasor.h:58-76 data members. -/
structure Ph (α : Type) where
  value : α
  rate : α
  start : α
  stop : α
  resetPos : α
  prevTrig : α
  sampleRate : α

/-- Phasor.h:82-90 `init`. -/
def init (sr : α) : Ph α :=
  { sampleRate := sr, rate := lit 1, start := lit 0, stop := lit 1, resetPos := lit 0, value := lit 0, prevTrig := lit 0 }

/-- Phasor.h:99-106 `set`. -/
def set (rateVal startVal endVal resetPosVal : α) (s : Ph α) : Ph α :=
  { s with rate := rateVal, start := startVal, stop := endVal, resetPos := resetPosVal, value := startVal }

/-- Phasor.h:116-118 `setFrequency`. -/
def setFrequency (freq : α) (s : Ph α) : Ph α := { s with rate := (s.stop - s.start) * freq / s.sampleRate }
/-- Phasor.h:124-126 `setRate`. -/
def setRate (rateVal : α) (s : Ph α) : Ph α := { s with rate := rateVal }
/-- Phasor.h:132-134 `setStart`. -/
def setStart (startVal : α) (s : Ph α) : Ph α := { s with start := startVal }
/-- Phasor.h:140-142 `setEnd`. -/
def setEnd (endVal : α) (s : Ph α) : Ph α := { s with stop := endVal }
/-- Phasor.h:148-150 `setResetPos`. -/
def setResetPos (resetPosVal : α) (s : Ph α) : Ph α := { s with resetPos := resetPosVal }

/-- Phasor.h:158-180 the wrapping done at the start of `tick`. -/
def wrap (value start stop : α) : α :=
  let range := stop - start
  if range >. lit 0 then
    if (value >=. stop) || (value <. start) then
      let v := Arith.fmod (value - start) range
      let v := if v <. lit 0 then v + range else v
      v + start
    else value
  else if range <. lit 0 then
    let absRange := -range
    if (value <=. stop) || (value >. start) then
      let offset := Arith.fmod (value - stop) absRange
      let offset := if offset <=. lit 0 then offset + absRange else offset
      stop + offset
    else value
  else value

/-- Phasor.h:156-189 `tick()`. -/
def tick (s : Ph α) : Ph α × α :=
  let out := wrap s.value s.start s.stop
  ({ s with value := out + s.rate }, out)

/-- Phasor.h:199-207 `tick(trig)`. -/
def tickTrig (s : Ph α) (trig : α) : Ph α × α :=
  let s := if (s.prevTrig <=. lit 0) && (trig >. lit 0) then { s with value := s.resetPos } else s
  tick { s with prevTrig := trig }

/-- Phasor.h:214-218 `process`. -/
def process : Ph α → List α → Ph α × List α := forEach fun s _ => tick s
/-- Phasor.h:226-230 `process` with a trigger block. -/
def processTrig : Ph α → List α → Ph α × List α := forEach tickTrig
/-- Phasor.h:237-241 `processAdd`. -/
def processAdd : Ph α → List α → Ph α × List α := forEach fun s b => let (s', o) := tick s; (s', b + o)

/-- Phasor.h:246-249 `reset()`. -/
def reset (s : Ph α) : Ph α := { s with value := s.start, prevTrig := lit 0 }
/-- Phasor.h:255-258 `reset(pos)`. -/
def resetTo (pos : α) (s : Ph α) : Ph α := { s with value := pos, prevTrig := lit 0 }

end Phasor
end Verif
