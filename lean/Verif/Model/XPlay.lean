import Verif.Model.BufRd
import Verif.Model.Utility
import Verif.Model.Envelopes
import Verif.Model.Filters

/-!
# XPlay.h
-/

namespace Verif.XPlay
variable {α : Type} [Arith α]

/-- XPlay.h:46 `enum class PlayMode`. -/
inductive PlayMode | loop | bounce
deriving DecidableEq, Repr

/-- XPlay.h:48-72 data members. The stateless helpers `wrapper`, `xfader` and `dbAmp` are left out: `tick` only calls member
functions of theirs that do not touch their members. As for `BufRd`, the `const Buffer*` is null or a buffer description that
stays unchanged while it is being played. -/
structure Player (α : Type) where
  buffer : Option (Buffer α)
  sampleRate : α
  start : α
  stop : α
  rate : α
  fadeTime : α
  gateValue : α
  playMode : PlayMode
  frames : α
  loopStart : α
  loopEnd : α
  loopSize : α
  phasor : α
  isReverse : Bool
  inSecondHalf : Bool
  reader : BufRd.Reader α
  fadeLag : LagLinear.Ramp α
  env : EnvelopeADSR.Env α

/-- `while (cond(x)) x = step(x);` run for at most `fuel` rounds; `none` if the condition still holds afterwards. The loop
terminates exactly if some fuel gives a result. -/
def whileLoop (cond : α → Bool) (step : α → α) : ℕ → α → Option α
  | 0, x => if cond x then none else some x
  | n + 1, x => if cond x then whileLoop cond step n (step x) else some x

/-- XPlay.h:245 `frames`. -/
def framesOf (s : Player α) : α :=
  match s.buffer with
  | none => lit 0
  | some b => if b.isValid then Arith.ofNat b.numSamples else lit 0

/-- XPlay.h:245-251: the first half of `updateLoopBounds`. -/
def bounds (s : Player α) : Player α :=
  let frames := framesOf s
  let loopStart := Arith.stdMin s.start s.stop * frames
  let loopEnd := Arith.stdMax s.start s.stop * frames
  { s with frames := frames, loopStart := loopStart, loopEnd := loopEnd,
           loopSize := Arith.stdMax (lit 0) (loopEnd - loopStart), isReverse := s.start >. s.stop }

/-- XPlay.h:258 and :218 `loopWindowStart`. -/
def windowStart (s : Player α) : α := s.loopStart
/-- XPlay.h:259 and :219 `loopWindowEnd`. -/
def windowEnd (s : Player α) : α := s.loopStart + s.loopSize * lit 2

/-- XPlay.h:262-267: the two loops that bring the play head into the window. -/
def intoWindow (fuel : ℕ) (s : Player α) : Option α :=
  (whileLoop (fun p => p <. windowStart s) (fun p => p + s.loopSize * lit 2) fuel s.phasor).bind
    (whileLoop (fun p => p >=. windowEnd s) (fun p => p - s.loopSize * lit 2) fuel)

/-- XPlay.h:244-269 `updateLoopBounds`; `none` if one of its loops needs more than `fuel` rounds. -/
def updateLoopBounds (fuel : ℕ) (resetPhasor : Bool) (s : Player α) : Option (Player α) :=
  let s := bounds s
  if resetPhasor || s.loopSize <=. lit 0 then some { s with phasor := s.loopStart, inSecondHalf := false }
  else (intoWindow fuel s).map fun p => { s with phasor := p, inSecondHalf := p >=. s.loopStart + s.loopSize }

/-- XPlay.h:95-99 `setBuffer` (`updateLoopBounds` is called with `resetPhasor = true`, so its loops are not reached). -/
def setBuffer (buf : Option (Buffer α)) (s : Player α) : Option (Player α) :=
  updateLoopBounds 0 true { s with buffer := buf, reader := BufRd.setBuffer buf s.reader }

/-- XPlay.h:104-115 `setStartEnd`. -/
def setStartEnd (fuel : ℕ) (startNorm endNorm : α) (preservePhasor : Bool) (s : Player α) : Option (Player α) :=
  let clampedStart := clamp startNorm (lit 0) (lit 1)
  let clampedEnd := clamp endNorm (lit 0) (lit 1)
  if (Arith.fabs (clampedStart - s.start) <. lit 1e-9) && (Arith.fabs (clampedEnd - s.stop) <. lit 1e-9) then some s
  else updateLoopBounds fuel (!preservePhasor) { s with start := clampedStart, stop := clampedEnd }

/-- XPlay.h:120 `setRate`. -/
def setRate (newRate : α) (s : Player α) : Player α := { s with rate := newRate }
/-- XPlay.h:125 `setPlayMode`. -/
def setPlayMode (mode : PlayMode) (s : Player α) : Player α := { s with playMode := mode }
/-- XPlay.h:148 `isDone`. -/
def isDone (s : Player α) : Bool := EnvelopeADSR.isDone s.env
/-- XPlay.h:153 `resetPhasor`. -/
def resetPhasor (s : Player α) : Player α := { s with phasor := s.loopStart }
/-- XPlay.h:140-143 `setGate`. -/
def setGate (g : α) (s : Player α) : Player α := { s with gateValue := g, env := EnvelopeADSR.gate g s.env }

/-- XPlay.h:165-167 `effectiveRate`. -/
def effectiveRate (s : Player α) (b : Buffer α) : α :=
  let rateScale := if b.sampleRate >. lit 0 then b.sampleRate / s.sampleRate else lit 1
  s.rate * rateScale * (if s.isReverse then -lit 1 else lit 1)

/-- XPlay.h:195-197 the local function `pingpong`. -/
def pingpong (s : Player α) (p : α) : α := if p <=. s.loopSize then p else s.loopSize * lit 2 - p

/-- XPlay.h:183-205: the positions of the two read heads. -/
def heads (s : Player α) : α × α :=
  match s.playMode with
  | .loop => (Wrap.process s.phasor (lit 0) s.frames, Wrap.process (s.phasor - s.loopSize) (lit 0) s.frames)
  | .bounce =>
    let twoSize := s.loopSize * lit 2
    let phaseWithin := Arith.fmod (s.phasor - s.loopStart) twoSize
    let phaseWithin := if phaseWithin <. lit 0 then phaseWithin + twoSize else phaseWithin
    (s.loopStart + pingpong s phaseWithin, s.loopStart + pingpong s (twoSize - phaseWithin))

/-- XPlay.h:217-227: moving the play head. -/
def advance (s : Player α) (effectiveRate : α) : Player α :=
  let p := s.phasor + effectiveRate
  if p >=. windowEnd s then { s with phasor := p - s.loopSize * lit 2, inSecondHalf := false }
  else if p <. windowStart s then
    let p := p + s.loopSize * lit 2
    { s with phasor := p, inSecondHalf := p >=. s.loopStart + s.loopSize }
  else { s with phasor := p }

variable [Libm α]

/-- XPlay.h:48-72 default member initialisers (of the helper UGens: BufRd.h:58-62, LagLinear.h:30-45, EnvelopeADSR.h:66-103;
their values are only used before `init`). -/
def new (reader : BufRd.Reader α) (fadeLag : LagLinear.Ramp α) (env : EnvelopeADSR.Env α) : Player α where
  buffer := none
  sampleRate := DEFAULT_SAMPLE_RATE
  start := lit 0
  stop := lit 1
  rate := lit 1
  fadeTime := lit 0.05
  gateValue := lit 1
  playMode := .loop
  frames := lit 0
  loopStart := lit 0
  loopEnd := lit 0
  loopSize := lit 0
  phasor := lit 0
  isReverse := false
  inSecondHalf := false
  reader := reader
  fadeLag := fadeLag
  env := env

/-- XPlay.h:78-90 `init`; `none` is the undefined conversion in `LagLinear`. -/
def init (sr : α) (s : Player α) : Option (Player α) :=
  (LagLinear.init sr (-lit 1) s.fadeTime).bind fun fadeLag =>
    let env := EnvelopeADSR.gate s.gateValue <| EnvelopeADSR.setDoneAction .free <| EnvelopeADSR.setRelease s.fadeTime <|
      EnvelopeADSR.setSustain (lit 1) <| EnvelopeADSR.setDecay (lit 0) <| EnvelopeADSR.setAttack s.fadeTime <|
      EnvelopeADSR.init sr
    updateLoopBounds 0 true { s with sampleRate := sr, reader := BufRd.init none, fadeLag := fadeLag, env := env }

/-- XPlay.h:130-135 `setFadeTime`. -/
def setFadeTime (timeSeconds : α) (s : Player α) : Option (Player α) :=
  let fadeTime := Arith.stdMax (lit 0) timeSeconds
  (LagLinear.setTime fadeTime s.fadeLag).map fun fadeLag =>
    { s with fadeTime := fadeTime, fadeLag := fadeLag,
             env := EnvelopeADSR.setRelease fadeTime (EnvelopeADSR.setAttack fadeTime s.env) }

/-- XPlay.h:159-230 `tick`; `none` is undefined behaviour in the fader or the reader. -/
def tick (s : Player α) (m : Mem α) : Option (Player α × Stereo α) :=
  match s.buffer with
  | none => some (s, Stereo.zero)
  | some b =>
    if !b.isValid || s.loopSize <=. lit 0 then some (s, Stereo.zero)
    else
      let inSecondHalf := s.phasor >=. s.loopStart + s.loopSize
      (LagLinear.tick s.fadeLag (if inSecondHalf then lit 1 else -lit 1)).bind fun (fadeLag, fadeCtrl) =>
        let (pos1, pos2) := heads s
        (BufRd.tickStereo s.reader m pos1).bind fun sig1 => (BufRd.tickStereo s.reader m pos2).map fun sig2 =>
          let snd := XFade2.processStereo sig1 sig2 fadeCtrl (lit 1)
          let (env, envVal) := EnvelopeADSR.tick s.env
          (advance { s with inSecondHalf := inSecondHalf, fadeLag := fadeLag, env := env } (effectiveRate s b),
            ⟨snd.left * envVal, snd.right * envVal⟩)

/-- XPlay.h:235-241 `process`: `numSamples` ticks (the output arrays are taken to be separate from the buffer's memory). -/
def process (s : Player α) (m : Mem α) : ℕ → Option (Player α × List (Stereo α))
  | 0 => some (s, [])
  | n + 1 => (tick s m).bind fun (s1, y) => (process s1 m n).map fun (s2, ys) => (s2, y :: ys)

/-- The public calls. -/
inductive Op (α : Type)
  | init (sr : α) | setBuffer (b : Option (Buffer α)) | setStartEnd (a b : α) (preserve : Bool) | setRate (r : α)
  | setPlayMode (p : PlayMode) | setFadeTime (t : α) | setGate (g : α) | resetPhasor | tick

/-- Effect of one call (with `fuel` rounds for the loops of `setStartEnd`) and the samples it returned. -/
def step (fuel : ℕ) (m : Mem α) (s : Player α) : Op α → Option (Player α × List (Stereo α))
  | .init sr => (init sr s).map (·, [])
  | .setBuffer b => (setBuffer b s).map (·, [])
  | .setStartEnd a b p => (setStartEnd fuel a b p s).map (·, [])
  | .setRate r => some (setRate r s, [])
  | .setPlayMode p => some (setPlayMode p s, [])
  | .setFadeTime t => (setFadeTime t s).map (·, [])
  | .setGate g => some (setGate g s, [])
  | .resetPhasor => some (resetPhasor s, [])
  | .tick => (tick s m).map fun (s', y) => (s', [y])

/-- A history of calls: final state and all samples. -/
def run (fuel : ℕ) (m : Mem α) (s : Player α) : List (Op α) → Option (Player α × List (Stereo α))
  | [] => some (s, [])
  | op :: ops => (step fuel m s op).bind fun (s1, y) => (run fuel m s1 ops).map fun (s2, ys) => (s2, y ++ ys)

end Verif.XPlay
