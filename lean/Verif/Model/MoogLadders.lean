import Verif.Model.Types

/-!
# The seven Moog ladder filters

`α` is `Sample` (float), `β` is `double`; every implicit conversion of the usual arithmetic conversions is written out as
`Conv.conv`.  Fixed-size member arrays (`state[4]`, …) are modelled by one structure field per element and the constant loops
over them are unrolled; the literal indices are in range by inspection.
-/

set_option linter.unusedSectionVars false

namespace Verif

variable {α β : Type} [Arith α] [Arith β] [Libm β] [Conv α β] [Conv β α]

/-- The expression `r < 0.0f ? 0.0f : (r > 1.0f ? 1.0f : r)` used by every ladder's `setResonance`. -/
def clamp01 (r : α) : α := if r <. lit 0 then lit 0 else if r >. lit 1 then lit 1 else r

/-- C `fmax`: the other argument if one is NaN. (For zeros of opposite sign C leaves the choice open; the callers only pass a
non-zero bound.) -/
def cFmax (a b : β) : β := if !(a ==. a) then b else if !(b ==. b) then a else if a <. b then b else a
/-- C `fmin`. -/
def cFmin (a b : β) : β := if !(a ==. a) then b else if !(b ==. b) then a else if b <. a then b else a

namespace Microtracker

/-- MicrotrackerMoogLadder.h:40-46, 122-129 data members. -/
structure Ladder (α β : Type) where
  sampleRate : α
  cutoff : α
  resonance : α
  p0 : β
  p1 : β
  p2 : β
  p3 : β
  p32 : β
  p33 : β
  p34 : β
  cutoffCoeff : β

/-- MicrotrackerMoogLadder.h:64-68 `setCutoff`. -/
def setCutoff (c : α) (s : Ladder α β) : Ladder α β :=
  let k : β := Conv.conv c * lit 2 * Conv.conv (PI : α) / Conv.conv s.sampleRate
  { s with cutoff := c, cutoffCoeff := if k >. lit 1 then lit 1 else k }

/-- MicrotrackerMoogLadder.h:74-76 `setResonance`. -/
def setResonance (r : α) (s : Ladder α β) : Ladder α β := { s with resonance := clamp01 r }

/-- MicrotrackerMoogLadder.h:52-58 `init`; `s` is the state before the call (uninitialised members of a fresh object). -/
def init (sr : α) (s : Ladder α β) : Ladder α β :=
  setResonance (lit 0.1) (setCutoff (lit 1000)
    { s with sampleRate := sr, p0 := lit 0, p1 := lit 0, p2 := lit 0, p3 := lit 0, p32 := lit 0, p33 := lit 0,
             p34 := lit 0, cutoffCoeff := lit 0 })

/-- MicrotrackerMoogLadder.h:131-134 `fastTanh`. -/
def fastTanh (x : β) : β :=
  let x2 := x * x
  x * (lit 27 + x2) / (lit 27 + lit 9 * x2)

/-- MicrotrackerMoogLadder.h:83-101 `tick`; `resonance * 4` is a float product. -/
def tick (s : Ladder α β) (input : α) : Ladder α β × α :=
  let k : β := Conv.conv (s.resonance * lit 4)
  let out := s.p3 * lit 0.360891 + s.p32 * lit 0.417290 + s.p33 * lit 0.177896 + s.p34 * lit 0.0439725
  let p0 := s.p0 + (fastTanh (Conv.conv input - k * out) - fastTanh s.p0) * s.cutoffCoeff
  let p1 := s.p1 + (fastTanh p0 - fastTanh s.p1) * s.cutoffCoeff
  let p2 := s.p2 + (fastTanh p1 - fastTanh s.p2) * s.cutoffCoeff
  let p3 := s.p3 + (fastTanh p2 - fastTanh s.p3) * s.cutoffCoeff
  ({ s with p34 := s.p33, p33 := s.p32, p32 := s.p3, p0 := p0, p1 := p1, p2 := p2, p3 := p3 }, Conv.conv out)

/-- MicrotrackerMoogLadder.h:108-112 `process`. -/
def process : Ladder α β → List α → Ladder α β × List α := forEach tick

/-- MicrotrackerMoogLadder.h:117-119 `reset`. -/
def reset (s : Ladder α β) : Ladder α β :=
  { s with p0 := lit 0, p1 := lit 0, p2 := lit 0, p3 := lit 0, p32 := lit 0, p33 := lit 0, p34 := lit 0 }

end Microtracker

namespace Krajeski

/-- KrajeskiMoogLadder.h:44-50, 126-132 data members; `delay[4]` is never read or written after `init` and is left out. -/
structure Ladder (α β : Type) where
  sampleRate : α
  cutoff : α
  resonance : α
  s0 : β
  s1 : β
  s2 : β
  s3 : β
  s4 : β
  d0 : β
  d1 : β
  d2 : β
  d3 : β
  wc : β
  g : β
  gRes : β
  gComp : β
  drive : β

/-- KrajeskiMoogLadder.h:75-79 `setCutoff`. -/
def setCutoff (c : α) (s : Ladder α β) : Ladder α β :=
  let wc : β := lit 2 * Conv.conv (PI : α) * Conv.conv c / Conv.conv s.sampleRate
  { s with cutoff := c, wc := wc,
           g := lit 0.9892 * wc - lit 0.4342 * Libm.pow wc (lit 2) + lit 0.1381 * Libm.pow wc (lit 3)
                  - lit 0.0202 * Libm.pow wc (lit 4) }

/-- KrajeskiMoogLadder.h:85-88 `setResonance`. -/
def setResonance (r : α) (s : Ladder α β) : Ladder α β :=
  { s with resonance := clamp01 r,
           gRes := Conv.conv (clamp01 r) * (lit 1.0029 + lit 0.0526 * s.wc - lit 0.926 * Libm.pow s.wc (lit 2)
                     + lit 0.0218 * Libm.pow s.wc (lit 3)) }

/-- KrajeskiMoogLadder.h:120-123 `reset`. -/
def reset (s : Ladder α β) : Ladder α β :=
  { s with s0 := lit 0, s1 := lit 0, s2 := lit 0, s3 := lit 0, s4 := lit 0, d0 := lit 0, d1 := lit 0, d2 := lit 0, d3 := lit 0 }

/-- KrajeskiMoogLadder.h:56-69 `init`. -/
def init (sr : α) (s : Ladder α β) : Ladder α β :=
  setResonance (lit 0.1) (setCutoff (lit 1000)
    { reset s with sampleRate := sr, drive := lit 1, gComp := lit 1, wc := lit 0, g := lit 0, gRes := lit 0 })

/-- KrajeskiMoogLadder.h:134-136 `fclamp`. -/
def fclamp (x lo hi : β) : β := cFmin (cFmax x lo) hi

/-- KrajeskiMoogLadder.h:99 one ladder stage: `si` is `state[i]`, `di` is `delay[i]`, `sn` is `state[i + 1]`. -/
def stage (g si di sn : β) : β :=
  fclamp (g * (lit 0.3 / lit 1.3 * si + lit 1 / lit 1.3 * di - sn) + sn) (lit (-1e30)) (lit 1e30)

/-- KrajeskiMoogLadder.h:95-104 `tick`. -/
def tick (s : Ladder α β) (input : α) : Ladder α β × α :=
  let x : β := Conv.conv input
  let s0 := Libm.tanh (s.drive * (x - lit 4 * s.gRes * (s.s4 - s.gComp * x)))
  let s1 := stage s.g s0 s.d0 s.s1
  let s2 := stage s.g s1 s.d1 s.s2
  let s3 := stage s.g s2 s.d2 s.s3
  let s4 := stage s.g s3 s.d3 s.s4
  ({ s with s0 := s0, s1 := s1, s2 := s2, s3 := s3, s4 := s4, d0 := s0, d1 := s1, d2 := s2, d3 := s3 }, Conv.conv s4)

/-- KrajeskiMoogLadder.h:111-115 `process`. -/
def process : Ladder α β → List α → Ladder α β × List α := forEach tick

end Krajeski

namespace MusicDSP

/-- MusicDSPMoogLadder.h:43-49, 138-145 data members. -/
structure Ladder (α β : Type) where
  sampleRate : α
  cutoff : α
  resonance : α
  s0 : β
  s1 : β
  s2 : β
  s3 : β
  d0 : β
  d1 : β
  d2 : β
  d3 : β
  p : β
  k : β
  t1 : β
  t2 : β
  resonanceCoeff : β

/-- MusicDSPMoogLadder.h:88-91 `setResonance`. -/
def setResonance (r : α) (s : Ladder α β) : Ladder α β :=
  { s with resonance := clamp01 r,
           resonanceCoeff := Conv.conv (clamp01 r) * (s.t2 + lit 6 * s.t1) / (s.t2 - lit 6 * s.t1) }

/-- MusicDSPMoogLadder.h:72-82 `setCutoff`. -/
def setCutoff (c : α) (s : Ladder α β) : Ladder α β :=
  let fc : β := lit 2 * Conv.conv c / Conv.conv s.sampleRate
  let p := fc * (lit 1.8 - lit 0.8 * fc)
  let k := lit 2 * Libm.sin (fc * Conv.conv (PI : α) * lit 0.5) - lit 1
  let t1 := (lit 1 - p) * lit 1.386249
  let t2 := lit 12 + t1 * t1
  setResonance s.resonance { s with cutoff := c, p := p, k := k, t1 := t1, t2 := t2 }

/-- MusicDSPMoogLadder.h:132-135 `reset`. -/
def reset (s : Ladder α β) : Ladder α β :=
  { s with s0 := lit 0, s1 := lit 0, s2 := lit 0, s3 := lit 0, d0 := lit 0, d1 := lit 0, d2 := lit 0, d3 := lit 0 }

/-- MusicDSPMoogLadder.h:55-66 `init`. The call of `setCutoff` reads the member `resonance`, which on a fresh object has not been
written yet; the model passes the (arbitrary) previous content `s.resonance` on. -/
def init (sr : α) (s : Ladder α β) : Ladder α β :=
  setResonance (lit 0.1) (setCutoff (lit 1000)
    { reset s with sampleRate := sr, p := lit 0, k := lit 0, t1 := lit 0, t2 := lit 0, resonanceCoeff := lit 0 })

/-- MusicDSPMoogLadder.h:98-116 `tick`. -/
def tick (s : Ladder α β) (input : α) : Ladder α β × α :=
  let x : β := Conv.conv input - s.resonanceCoeff * s.s3
  let s0 := x * s.p + s.d0 * s.p - s.k * s.s0
  let s1 := s0 * s.p + s.d1 * s.p - s.k * s.s1
  let s2 := s1 * s.p + s.d2 * s.p - s.k * s.s2
  let s3 := s2 * s.p + s.d3 * s.p - s.k * s.s3
  let s3' := s3 - (s3 * s3 * s3) / lit 6
  ({ s with s0 := s0, s1 := s1, s2 := s2, s3 := s3', d0 := x, d1 := s0, d2 := s1, d3 := s2 }, Conv.conv s3')

/-- MusicDSPMoogLadder.h:123-127 `process`. -/
def process : Ladder α β → List α → Ladder α β × List α := forEach tick

end MusicDSP

namespace Improved

/-- ImprovedMoogLadder.h:57-66, 181-187 data members. -/
structure Ladder (α β : Type) where
  sampleRate : α
  cutoff : α
  resonance : α
  makeupGain : β
  V0 : β
  V1 : β
  V2 : β
  V3 : β
  dV0 : β
  dV1 : β
  dV2 : β
  dV3 : β
  tV0 : β
  tV1 : β
  tV2 : β
  tV3 : β
  x : β
  g : β
  drive : β

/-- ImprovedMoogLadder.h:179 `VT`. -/
def VT : β := lit 0.312

/-- ImprovedMoogLadder.h:101-106 and RKSimulationMoogLadder.h:114-118, the make-up gain; `cutoff` and `sampleRate` are floats,
`sampleRate * 0.5` is computed in double. -/
def makeup (cutoff sampleRate : α) : β :=
  let nyquist : β := Conv.conv sampleRate * lit 0.5
  let norm := if nyquist >. lit 0 then Conv.conv cutoff / nyquist else lit 0
  let norm := if norm <. lit 0 then lit 0 else if norm >. lit 1 then lit 1 else norm
  let m := lit 1 / (lit 0.2 + norm)
  if m >. lit 8 then lit 8 else m

/-- ImprovedMoogLadder.h:91-107 `setCutoff`; `(sampleRate / PI) * 0.99f` and `(PI * cutoff) / sampleRate` are float expressions. -/
def setCutoff (c : α) (s : Ladder α β) : Ladder α β :=
  let maxCutoff := (s.sampleRate / PI) * lit 0.99
  let cutoff := clamp c (lit 0) maxCutoff
  let x : β := Conv.conv ((PI * cutoff) / s.sampleRate)
  { s with cutoff := cutoff, x := x,
           g := lit 4 * Conv.conv (PI : α) * VT * Conv.conv cutoff * (lit 1 - x) / (lit 1 + x),
           makeupGain := makeup cutoff s.sampleRate }

/-- ImprovedMoogLadder.h:113-115 `setResonance`. -/
def setResonance (r : α) (s : Ladder α β) : Ladder α β := { s with resonance := clamp01 r }

/-- ImprovedMoogLadder.h:121-123 `setDrive`; the comparison is made in double. -/
def setDrive (d : α) (s : Ladder α β) : Ladder α β :=
  { s with drive := if (Conv.conv d : β) <. lit 0 then lit 0 else Conv.conv d }

/-- ImprovedMoogLadder.h:171-175 `reset`. -/
def reset (s : Ladder α β) : Ladder α β :=
  { s with V0 := lit 0, V1 := lit 0, V2 := lit 0, V3 := lit 0, dV0 := lit 0, dV1 := lit 0, dV2 := lit 0, dV3 := lit 0,
           tV0 := lit 0, tV1 := lit 0, tV2 := lit 0, tV3 := lit 0 }

/-- ImprovedMoogLadder.h:72-85 `init`. -/
def init (sr : α) (s : Ladder α β) : Ladder α β :=
  setResonance (lit 0.1) (setCutoff (lit 1000)
    { reset s with sampleRate := sr, drive := lit 1, x := lit 0, g := lit 0, makeupGain := lit 1 })

/-- ImprovedMoogLadder.h:130-155 `tick`. -/
def tick (s : Ladder α β) (input : α) : Ladder α β × α :=
  let res : β := Conv.conv s.resonance * lit 4
  let sr2 : β := lit 2 * Conv.conv s.sampleRate
  let dV0 := -s.g * (Libm.tanh ((s.drive * Conv.conv input + res * s.V3) / (lit 2 * VT)) + s.tV0)
  let V0 := s.V0 + (dV0 + s.dV0) / sr2
  let tV0 := Libm.tanh (V0 / (lit 2 * VT))
  let dV1 := s.g * (tV0 - s.tV1)
  let V1 := s.V1 + (dV1 + s.dV1) / sr2
  let tV1 := Libm.tanh (V1 / (lit 2 * VT))
  let dV2 := s.g * (tV1 - s.tV2)
  let V2 := s.V2 + (dV2 + s.dV2) / sr2
  let tV2 := Libm.tanh (V2 / (lit 2 * VT))
  let dV3 := s.g * (tV2 - s.tV3)
  let V3 := s.V3 + (dV3 + s.dV3) / sr2
  let tV3 := Libm.tanh (V3 / (lit 2 * VT))
  ({ s with V0 := V0, V1 := V1, V2 := V2, V3 := V3, dV0 := dV0, dV1 := dV1, dV2 := dV2, dV3 := dV3,
            tV0 := tV0, tV1 := tV1, tV2 := tV2, tV3 := tV3 }, Conv.conv (V3 * s.makeupGain))

/-- ImprovedMoogLadder.h:162-166 `process`. -/
def process : Ladder α β → List α → Ladder α β × List α := forEach tick

end Improved

namespace Stilson

/-- StilsonMoogLadder.h:44-50, 157-160 data members. -/
structure Ladder (α β : Type) where
  sampleRate : α
  cutoff : α
  resonance : α
  p : β
  Q : β
  s0 : β
  s1 : β
  s2 : β
  s3 : β
  output : β

/-- StilsonMoogLadder.h:162-183 `S_GAINTABLE`. -/
def gainTable : List α :=
  [lit 0.999969, lit 0.990082, lit 0.980347, lit 0.970764, lit 0.961304, lit 0.951996, lit 0.94281, lit 0.933777, lit 0.924866, lit 0.916077,
   lit 0.90741, lit 0.898865, lit 0.890442, lit 0.882141, lit 0.873962, lit 0.865906, lit 0.857941, lit 0.850067, lit 0.842346, lit 0.834686,
   lit 0.827148, lit 0.819733, lit 0.812378, lit 0.805145, lit 0.798004, lit 0.790955, lit 0.783997, lit 0.77713, lit 0.770355, lit 0.763672,
   lit 0.75708, lit 0.75058, lit 0.744141, lit 0.737793, lit 0.731537, lit 0.725342, lit 0.719238, lit 0.713196, lit 0.707245, lit 0.701355,
   lit 0.695557, lit 0.689819, lit 0.684174, lit 0.678558, lit 0.673035, lit 0.667572, lit 0.66217, lit 0.65686, lit 0.651581, lit 0.646393,
   lit 0.641235, lit 0.636169, lit 0.631134, lit 0.62619, lit 0.621277, lit 0.616425, lit 0.611633, lit 0.606903, lit 0.602234, lit 0.597626,
   lit 0.593048, lit 0.588531, lit 0.584045, lit 0.579651, lit 0.575287, lit 0.570953, lit 0.566681, lit 0.562469, lit 0.558289, lit 0.554169,
   lit 0.550079, lit 0.546051, lit 0.542053, lit 0.538116, lit 0.53421, lit 0.530334, lit 0.52652, lit 0.522736, lit 0.518982, lit 0.515289,
   lit 0.511627, lit 0.507996, lit 0.504425, lit 0.500885, lit 0.497375, lit 0.493896, lit 0.490448, lit 0.487061, lit 0.483704, lit 0.480377,
   lit 0.477081, lit 0.473816, lit 0.470581, lit 0.467377, lit 0.464203, lit 0.46109, lit 0.457977, lit 0.454926, lit 0.451874, lit 0.448883,
   lit 0.445892, lit 0.442932, lit 0.440033, lit 0.437134, lit 0.434265, lit 0.431427, lit 0.428619, lit 0.425842, lit 0.423096, lit 0.42038,
   lit 0.417664, lit 0.415009, lit 0.412354, lit 0.409729, lit 0.407135, lit 0.404572, lit 0.402008, lit 0.399506, lit 0.397003, lit 0.394501,
   lit 0.392059, lit 0.389618, lit 0.387207, lit 0.384827, lit 0.382477, lit 0.380127, lit 0.377808, lit 0.375488, lit 0.37323, lit 0.370972,
   lit 0.368713, lit 0.366516, lit 0.364319, lit 0.362122, lit 0.359985, lit 0.357849, lit 0.355713, lit 0.353607, lit 0.351532, lit 0.349457,
   lit 0.347412, lit 0.345398, lit 0.343384, lit 0.34137, lit 0.339417, lit 0.337463, lit 0.33551, lit 0.333588, lit 0.331665, lit 0.329773,
   lit 0.327911, lit 0.32605, lit 0.324188, lit 0.322357, lit 0.320557, lit 0.318756, lit 0.316986, lit 0.315216, lit 0.313446, lit 0.311707,
   lit 0.309998, lit 0.308289, lit 0.30658, lit 0.304901, lit 0.303223, lit 0.301575, lit 0.299927, lit 0.298309, lit 0.296692, lit 0.295074,
   lit 0.293488, lit 0.291931, lit 0.290375, lit 0.288818, lit 0.287262, lit 0.285736, lit 0.284241, lit 0.282715, lit 0.28125, lit 0.279755,
   lit 0.27829, lit 0.276825, lit 0.275391, lit 0.273956, lit 0.272552, lit 0.271118, lit 0.269745, lit 0.268341, lit 0.266968, lit 0.265594,
   lit 0.264252, lit 0.262909, lit 0.261566, lit 0.260223, lit 0.258911, lit 0.257599, lit 0.256317, lit 0.255035, lit 0.25375]

/-- `S_GAINTABLE[i]` for an `int` index; `none` is an out-of-bounds read. -/
def gainAt (i : ℤ) : Option α := if 0 ≤ i then gainTable[i.toNat]? else none

/-- StilsonMoogLadder.h:88-107 `setResonance`; `none` is undefined behaviour (float-to-int conversion out of range, or table read out
of bounds). -/
def setResonance (r : α) (s : Ladder α β) : Option (Ladder α β) :=
  let r := clamp01 r
  let ix := s.p * lit 99
  (Arith.toI32? (Arith.floor ix)).bind fun ixint =>
  let ixfrac := ix - Arith.ofInt ixint
  let ixint := if ixint < -99 then -99 else ixint
  let ixint := if ixint > 98 then 98 else ixint
  (gainAt (ixint + 99)).bind fun a =>
  (gainAt (ixint + 100)).map fun b =>
  { s with resonance := r, Q := Conv.conv (r * lerp a b (Conv.conv ixfrac)) }

/-- StilsonMoogLadder.h:70-82 `setCutoff`. -/
def setCutoff (c : α) (s : Ladder α β) : Option (Ladder α β) :=
  let fc : β := Conv.conv c / Conv.conv s.sampleRate
  let x2 := fc * fc
  let x3 := fc * fc * fc
  setResonance s.resonance { s with cutoff := c, p := -lit 0.69346 * x3 - lit 0.59515 * x2 + lit 3.2937 * fc - lit 1.0072 }

/-- StilsonMoogLadder.h:151-154 `reset`. -/
def reset (s : Ladder α β) : Ladder α β :=
  { s with s0 := lit 0, s1 := lit 0, s2 := lit 0, s3 := lit 0, output := lit 0 }

/-- StilsonMoogLadder.h:56-64 `init`. As in `MusicDSP.init`, `setCutoff` reads `resonance` before it has been written. -/
def init (sr : α) (s : Ladder α β) : Option (Ladder α β) :=
  (setCutoff (lit 1000) { reset s with sampleRate := sr, p := lit 0, Q := lit 0 }).bind (setResonance (lit 0.1))

/-- StilsonMoogLadder.h:185-189 `saturate`. -/
def saturate (x : β) : β :=
  let x1 := Arith.fabs (x + lit 0.95)
  let x2 := Arith.fabs (x - lit 0.95)
  lit 0.5 * (x1 - x2)

/-- StilsonMoogLadder.h:191-193 `snapToZero`. -/
def snapToZero (n : β) : β := if !(n <. -lit 1.0e-8 || n >. lit 1.0e-8) then lit 0 else n

/-- StilsonMoogLadder.h:123-128 the body of the loop over the poles: returns `(state[pole], output)`. -/
def pole (p output localState : β) : β × β :=
  let output := saturate (output + p * (output - localState))
  (output, saturate (output + localState))

/-- StilsonMoogLadder.h:114-135 `tick`. -/
def tick (s : Ladder α β) (input : α) : Ladder α β × α :=
  let inp : β := Conv.conv input * lit 0.65
  let o := lit 0.25 * (inp - s.output)
  let (s0, o) := pole s.p o s.s0
  let (s1, o) := pole s.p o s.s1
  let (s2, o) := pole s.p o s.s2
  let (s3, o) := pole s.p o s.s3
  let result := snapToZero o
  ({ s with s0 := s0, s1 := s1, s2 := s2, s3 := s3, output := result * s.Q }, Conv.conv result)

/-- StilsonMoogLadder.h:142-146 `process`. -/
def process : Ladder α β → List α → Ladder α β × List α := forEach tick

end Stilson

namespace Oberheim

/-- OberheimMoogLadder.h:186-195 `OnePole`. -/
structure OnePole (β : Type) where
  alpha : β
  beta : β
  gamma : β
  delta : β
  epsilon : β
  a0 : β
  feedback : β
  z1 : β

/-- OberheimMoogLadder.h:41-47, 197-203 data members. -/
structure Ladder (α β : Type) where
  sampleRate : α
  cutoff : α
  resonance : α
  f0 : OnePole β
  f1 : OnePole β
  f2 : OnePole β
  f3 : OnePole β
  K : β
  gamma : β
  alpha0 : β
  saturation : β
  c0 : β
  c1 : β
  c2 : β
  c3 : β
  c4 : β

/-- OberheimMoogLadder.h:86-116 `setCutoff`. -/
def setCutoff (c : α) (s : Ladder α β) : Ladder α β :=
  let wd : β := lit 2 * Conv.conv (PI : α) * Conv.conv c
  let T : β := lit 1 / Conv.conv s.sampleRate
  let wa := (lit 2 / T) * Libm.tan (wd * T / lit 2)
  let g := wa * T / lit 2
  let G := g / (lit 1 + g)
  let gamma := G * G * G * G
  { s with
    cutoff := c
    f0 := { s.f0 with alpha := G, beta := G * G * G / (lit 1 + g) }
    f1 := { s.f1 with alpha := G, beta := G * G / (lit 1 + g) }
    f2 := { s.f2 with alpha := G, beta := G / (lit 1 + g) }
    f3 := { s.f3 with alpha := G, beta := lit 1 / (lit 1 + g) }
    gamma := gamma
    alpha0 := lit 1 / (lit 1 + s.K * gamma)
    c0 := lit 0, c1 := lit 0, c2 := lit 0, c3 := lit 0, c4 := lit 1 }

/-- OberheimMoogLadder.h:122-127 `setResonance`. -/
def setResonance (r : α) (s : Ladder α β) : Ladder α β :=
  let K : β := lit 4 * Conv.conv (clamp01 r)
  { s with resonance := clamp01 r, K := K, alpha0 := lit 1 / (lit 1 + K * s.gamma) }

/-- OberheimMoogLadder.h:57-66 initial value of every `lpf[i]`. -/
def OnePole.init : OnePole β :=
  { alpha := lit 1, beta := lit 0, gamma := lit 1, delta := lit 0, epsilon := lit 0, a0 := lit 1, feedback := lit 0, z1 := lit 0 }

/-- OberheimMoogLadder.h:53-80 `init`. -/
def init (sr : α) (s : Ladder α β) : Ladder α β :=
  setResonance (lit 0.1) (setCutoff (lit 1000)
    { s with sampleRate := sr, f0 := OnePole.init, f1 := OnePole.init, f2 := OnePole.init, f3 := OnePole.init,
             saturation := lit 1, K := lit 0, gamma := lit 0, alpha0 := lit 1,
             c0 := lit 0, c1 := lit 0, c2 := lit 0, c3 := lit 0, c4 := lit 1 })

/-- OberheimMoogLadder.h:205-207 `getFeedbackOutput`. -/
def OnePole.feedbackOutput (f : OnePole β) : β := f.beta * (f.z1 + f.feedback * f.delta)

/-- OberheimMoogLadder.h:209-215 `tickOnePole`. -/
def OnePole.tick (f : OnePole β) (s : β) : OnePole β × β :=
  let s := s * f.gamma + f.feedback + f.epsilon * f.feedbackOutput
  let vn := (f.a0 * s - f.z1) * f.alpha
  let out := vn + f.z1
  ({ f with z1 := vn + out }, out)

/-- OberheimMoogLadder.h:134-162 `tick`. -/
def tick (s : Ladder α β) (input : α) : Ladder α β × α :=
  let sigma := s.f0.feedbackOutput + s.f1.feedbackOutput + s.f2.feedbackOutput + s.f3.feedbackOutput
  let inp : β := Conv.conv input * (lit 1 + s.K)
  let u := (inp - s.K * sigma) * s.alpha0
  let u := Libm.tanh (s.saturation * u)
  let (f0, stage1) := s.f0.tick u
  let (f1, stage2) := s.f1.tick stage1
  let (f2, stage3) := s.f2.tick stage2
  let (f3, stage4) := s.f3.tick stage3
  let out := s.c0 * u + s.c1 * stage1 + s.c2 * stage2 + s.c3 * stage3 + s.c4 * stage4
  ({ s with f0 := f0, f1 := f1, f2 := f2, f3 := f3 }, Conv.conv out)

/-- OberheimMoogLadder.h:169-173 `process`. -/
def process : Ladder α β → List α → Ladder α β × List α := forEach tick

/-- OberheimMoogLadder.h:178-183 `reset`. -/
def reset (s : Ladder α β) : Ladder α β :=
  { s with f0 := { s.f0 with z1 := lit 0, feedback := lit 0 }, f1 := { s.f1 with z1 := lit 0, feedback := lit 0 },
           f2 := { s.f2 with z1 := lit 0, feedback := lit 0 }, f3 := { s.f3 with z1 := lit 0, feedback := lit 0 } }

end Oberheim

namespace RKSimulation

/-- A `double[4]`. -/
structure Vec (β : Type) where
  x0 : β
  x1 : β
  x2 : β
  x3 : β

/-- RKSimulationMoogLadder.h:70-82, 178-183 data members. -/
structure Ladder (α β : Type) where
  sampleRate : α
  cutoff : α
  resonance : α
  drive : β
  makeupGain : β
  state : Vec β
  saturation : β
  saturationInv : β
  cutoffCoeff : β
  oversampleFactor : ℤ
  stepSize : β

/-- RKSimulationMoogLadder.h:109-119 `setCutoff`. -/
def setCutoff (c : α) (s : Ladder α β) : Ladder α β :=
  { s with cutoff := c, cutoffCoeff := lit 2 * Conv.conv (PI : α) * Conv.conv c,
           makeupGain := Improved.makeup c s.sampleRate }

/-- RKSimulationMoogLadder.h:125-127 `setResonance`. -/
def setResonance (r : α) (s : Ladder α β) : Ladder α β := { s with resonance := clamp01 r }

/-- RKSimulationMoogLadder.h:133-135 `setDrive`. -/
def setDrive (d : α) (s : Ladder α β) : Ladder α β :=
  { s with drive := if d <. lit 0 then Conv.conv (lit 0 : α) else Conv.conv d }

/-- RKSimulationMoogLadder.h:99, 143 `1.0 / (oversampleFactor * sampleRate)`; the product is a float product of the converted
`int`. -/
def stepSizeOf (n : ℤ) (sr : α) : β := lit 1 / Conv.conv (Arith.ofInt n * sr)

/-- RKSimulationMoogLadder.h:141-144 `setOversampleFactor`. -/
def setOversampleFactor (factor : ℤ) (s : Ladder α β) : Ladder α β :=
  let n := if factor < 1 then 1 else factor
  { s with oversampleFactor := n, stepSize := stepSizeOf n s.sampleRate }

/-- RKSimulationMoogLadder.h:173-175 `reset`. -/
def reset (s : Ladder α β) : Ladder α β := { s with state := ⟨lit 0, lit 0, lit 0, lit 0⟩ }

/-- RKSimulationMoogLadder.h:88-103 `init`. -/
def init (sr : α) (s : Ladder α β) : Ladder α β :=
  setResonance (lit 0.1) (setCutoff (lit 1000)
    { reset s with sampleRate := sr, saturation := lit 3, saturationInv := lit 1 / lit 3, cutoffCoeff := lit 0, drive := lit 1,
                   makeupGain := lit 1, oversampleFactor := 1, stepSize := stepSizeOf 1 sr })

/-- RKSimulationMoogLadder.h:185-190 `clip`. -/
def clip (s : Ladder α β) (value : β) : β :=
  let v2 := if value * s.saturationInv >. lit 1 then lit 1
            else if value * s.saturationInv <. -lit 1 then -lit 1 else value * s.saturationInv
  s.saturation * (v2 - lit 1 / lit 3 * v2 * v2 * v2)

/-- RKSimulationMoogLadder.h:192-203 `calculateDerivatives`. -/
def derivatives (s : Ladder α β) (input : β) (x : Vec β) : Vec β :=
  let res : β := Conv.conv s.resonance * lit 10
  let sat0 := clip s x.x0
  let sat1 := clip s x.x1
  let sat2 := clip s x.x2
  ⟨s.cutoffCoeff * (clip s (input * s.drive - res * x.x3) - sat0), s.cutoffCoeff * (sat0 - sat1),
   s.cutoffCoeff * (sat1 - sat2), s.cutoffCoeff * (sat2 - clip s x.x3)⟩

/-- The loop `for (i < 4) t[i] = x[i] + h * d[i]` (lines 210-211, 215-216, 220-221). -/
def Vec.step (x : Vec β) (h : β) (d : Vec β) : Vec β := ⟨x.x0 + h * d.x0, x.x1 + h * d.x1, x.x2 + h * d.x2, x.x3 + h * d.x3⟩

/-- RKSimulationMoogLadder.h:205-227 `rungekutteSolver`. -/
def solver (input : β) (s : Ladder α β) : Ladder α β :=
  let x := s.state
  let h := s.stepSize
  let d1 := derivatives s input x
  let d2 := derivatives s input (x.step (lit 0.5 * h) d1)
  let d3 := derivatives s input (x.step (lit 0.5 * h) d2)
  let d4 := derivatives s input (x.step h d3)
  let comb (a b c d : β) : β := lit 1 / lit 6 * h * (a + lit 2 * b + lit 2 * c + d)
  { s with state :=
    ⟨x.x0 + comb d1.x0 d2.x0 d3.x0 d4.x0, x.x1 + comb d1.x1 d2.x1 d3.x1 d4.x1, x.x2 + comb d1.x2 d2.x2 d3.x2 d4.x2,
     x.x3 + comb d1.x3 d2.x3 d3.x3 d4.x3⟩ }

/-- RKSimulationMoogLadder.h:151-157 `tick`. -/
def tick (s : Ladder α β) (input : α) : Ladder α β × α :=
  let s := (solver (Conv.conv input))^[s.oversampleFactor.toNat] s
  (s, Conv.conv (s.state.x3 * s.makeupGain))

/-- RKSimulationMoogLadder.h:164-168 `process`. -/
def process : Ladder α β → List α → Ladder α β × List α := forEach tick

end RKSimulation

end Verif
