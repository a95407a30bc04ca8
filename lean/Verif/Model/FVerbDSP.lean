import Verif.Model.Types

/-!
# fverb/FVerbDSP.h: the Faust-generated reverb

Every `fRecN[2]` / `iRecN[2]` pair is a one-sample memory: `[0]` is the value of this sample, `[1]` the one before (lines 941-979 copy
them). The state holds the `[1]` values only. The generated code treats the two channels alike, on different members; the model has one
`Half` for the members fed from `input1` (`fVec0` … `fRec2`) and one for those fed from `input0` (`fVec9` … `fRec5`).
The assignments of one sample are independent where the model lists them in another order than the text: control values never depend on
the audio.
-/

namespace Verif.FVerbDSP

/-- 32-bit `int` arithmetic: `none` is signed overflow. -/
def i32 (n : ℤ) : Option ℤ := if -2 ^ 31 ≤ n ∧ n < 2 ^ 31 then some n else none

/-- `i & (N - 1)` on 32-bit two's complement integers. -/
def maskIdx (N : ℕ) (i : ℤ) : ℕ := (BitVec.ofInt 32 i &&& BitVec.ofNat 32 (N - 1)).toNat

/-- What a delay line offers: the model below is written against this interface so that the specification can replace the arrays of the
code by ideal delays. -/
structure LineImpl (L α : Type) where
  /-- an array of `N` zeros -/
  clear : (N : ℕ) → L
  /-- `line[(IOTA0 - d) & (N - 1)]` -/
  rd : (N : ℕ) → L → (iota d : ℤ) → Option α
  /-- `line[IOTA0 & (N - 1)] = x` -/
  wr : (N : ℕ) → L → (iota : ℤ) → α → Option L

section
variable {α : Type} [Arith α]

/-- The arrays of the code (FVerbDSP.h:195-268): `none` is an access outside the array or an `int` overflow in the index. -/
def arrays : LineImpl (List α) α where
  clear N := List.replicate N (lit 0)
  rd N l iota d := (i32 (iota - d)).bind fun i => l[maskIdx N i]?
  wr N l iota x := if maskIdx N iota < l.length then some (l.set (maskIdx N iota) x) else none

end

variable {α L : Type} [Arith α] [Libm α]

/-! ### Constants and parameters -/

/-- FVerbDSP.h:174-283 the constants `fConstN`, `iConstN`. -/
structure Consts (α : Type) where
  c0 : α
  c1 : α
  c2 : α
  c3 : α
  c4 : α
  c5 : α
  c11 : α
  c12 : α
  i6 : ℤ
  i7 : ℤ
  i8 : ℤ
  i9 : ℤ
  i10 : ℤ
  i13 : ℤ
  i14 : ℤ
  i15 : ℤ
  i16 : ℤ
  i17 : ℤ
  i18 : ℤ
  i19 : ℤ
  i20 : ℤ
  i21 : ℤ
  i22 : ℤ
  i23 : ℤ
  i24 : ℤ
  i25 : ℤ
  i26 : ℤ
  i27 : ℤ
  i28 : ℤ
  i29 : ℤ
  i30 : ℤ
  i31 : ℤ
  i32 : ℤ
  i33 : ℤ
  i34 : ℤ
  i35 : ℤ

/-- `std::min<int>(65536, std::max<int>(0, n))` -/
def clampDelay (n : ℤ) : ℤ := min 65536 (max 0 n)

/-- `std::min<int>(65536, std::max<int>(0, int(q * fConst0) + off))`; `none` is undefined behaviour. -/
def delayConst (c0 : α) (q : ℚ) (off : ℤ) : Option ℤ :=
  (Arith.toI32? (lit q * c0)).bind fun n => (FVerbDSP.i32 (n + off)).map clampDelay

/-- FVerbDSP.h:345-412 `instanceConstants`. -/
def instanceConstants (sampleRate : ℤ) : Option (Consts α) :=
  let c0 : α := Arith.stdMin (lit 1.92e+05) (Arith.stdMax (lit 1) (Arith.ofInt sampleRate))
  let c1 := lit 44.1 / c0
  (delayConst c0 0.0046282047 (-1)).bind fun i6 =>
  (delayConst c0 0.0037031686 (-1)).bind fun i7 =>
  (delayConst c0 0.013116831 (-1)).bind fun i8 =>
  (delayConst c0 0.009028259 (-1)).bind fun i9 =>
  (delayConst c0 0.10628003 0).bind fun i10 =>
  (Arith.toI32? (lit 0.01 * c0)).bind fun n12 =>
  (delayConst c0 0.14169551 0).bind fun i13 =>
  (delayConst c0 0.08924431 (-1)).bind fun i14 =>
  (delayConst c0 0.0049144854 (-1)).bind fun i15 =>
  (delayConst c0 0.00348745 (-1)).bind fun i16 =>
  (delayConst c0 0.012352743 (-1)).bind fun i17 =>
  (delayConst c0 0.009586708 (-1)).bind fun i18 =>
  (delayConst c0 0.1249958 0).bind fun i19 =>
  (delayConst c0 0.14962535 0).bind fun i20 =>
  (delayConst c0 0.06048184 (-1)).bind fun i21 =>
  (delayConst c0 0.03581869 0).bind fun i22 =>
  (delayConst c0 0.006283391 0).bind fun i23 =>
  (delayConst c0 0.06686603 0).bind fun i24 =>
  (delayConst c0 0.06427875 0).bind fun i25 =>
  (delayConst c0 0.06706764 0).bind fun i26 =>
  (delayConst c0 0.09992944 0).bind fun i27 =>
  (delayConst c0 0.008937872 0).bind fun i28 =>
  (delayConst c0 0.0040657236 0).bind fun i29 =>
  (delayConst c0 0.011256342 0).bind fun i30 =>
  (delayConst c0 0.070931755 0).bind fun i31 =>
  (delayConst c0 0.041262053 0).bind fun i32 =>
  (delayConst c0 0.08981553 0).bind fun i33 =>
  (delayConst c0 0.121870905 0).bind fun i34 =>
  (delayConst c0 0.01186116 0).bind fun i35 =>
  some {
    c0 := c0, c1 := c1, c2 := lit 1 - c1, c3 := lit 6.2831855 / c0, c4 := lit 0.441 / c0, c5 := lit 0.0441 / c0,
    c11 := lit 1 / c0, c12 := lit 1 / Arith.ofInt n12,
    i6 := i6, i7 := i7, i8 := i8, i9 := i9, i10 := i10 + 1, i13 := i13, i14 := i14, i15 := i15, i16 := i16, i17 := i17, i18 := i18,
    i19 := i19 + 1, i20 := i20, i21 := i21, i22 := i22, i23 := i23, i24 := i24, i25 := i25, i26 := i26, i27 := i27, i28 := i28,
    i29 := i29, i30 := i30, i31 := i31, i32 := i32, i33 := i33, i34 := i34, i35 := i35 }

/-- FVerbDSP.h:178-221 the parameters `fHslider0` … `fHslider10`, by what they control. -/
structure Params (α : Type) where
  /-- `fHslider0` -/
  damping : α
  /-- `fHslider1` -/
  tailDensity : α
  /-- `fHslider2` -/
  diffusion2 : α
  /-- `fHslider3` -/
  diffusion1 : α
  /-- `fHslider4` -/
  highPass : α
  /-- `fHslider5` -/
  lowPass : α
  /-- `fHslider6` -/
  inputAmount : α
  /-- `fHslider7` -/
  predelay : α
  /-- `fHslider8` -/
  decay : α
  /-- `fHslider9` -/
  modFrequency : α
  /-- `fHslider10` -/
  modDepth : α

/-- FVerbDSP.h:414-426 `instanceResetUserInterface`. -/
def resetUI : Params α :=
  { damping := lit 5500, tailDensity := lit 70, diffusion2 := lit 62.5, diffusion1 := lit 75, highPass := lit 100, lowPass := lit 10000,
    inputAmount := lit 100, predelay := lit 0, decay := lit 50, modFrequency := lit 1, modDepth := lit 0.5 }

/-- FVerbDSP.h:759-769 the values computed once per block. -/
structure Slow (α : Type) where
  s0 : α
  s1 : α
  s2 : α
  s3 : α
  s4 : α
  s5 : α
  s6 : α
  s7 : α
  s8 : α
  s9 : α
  s10 : α

/-- FVerbDSP.h:759-769. -/
def slow (k : Consts α) (p : Params α) : Slow α :=
  { s0 := k.c1 * Libm.exp (-(k.c3 * p.damping))
    s1 := k.c4 * p.tailDensity
    s2 := k.c4 * p.diffusion2
    s3 := k.c4 * p.diffusion1
    s4 := k.c1 * Libm.exp (-(k.c3 * p.highPass))
    s5 := k.c1 * Libm.exp (-(k.c3 * p.lowPass))
    s6 := k.c4 * p.inputAmount
    s7 := k.c5 * p.predelay
    s8 := k.c4 * p.decay
    s9 := k.c1 * p.modFrequency
    s10 := k.c5 * p.modDepth }

/-! ### Control signals -/

/-- FVerbDSP.h:224-227 and 255-258 one crossfading delay: `fRec30`, `fRec31`, `iRec32`, `iRec33` (or `fRec53`, `fRec54`, `iRec55`,
`iRec56`). -/
structure Fade (α : Type) where
  slope : α
  mix : α
  dA : ℤ
  dB : ℤ

/-- The smoothed parameters, the modulator's phase and the crossfades. -/
structure Ctrl (α : Type) where
  rec8 : α
  rec12 : α
  rec15 : α
  rec20 : α
  rec24 : α
  rec25 : α
  rec27 : α
  rec28 : α
  rec29 : α
  rec35 : α
  rec36 : α
  rec37 : α
  fadeR : Fade α
  fadeL : Fade α

/-- FVerbDSP.h:154-162 entry `k` of the sine table (`iRec34` runs through 0, 1, 2, …). The table is filled by `init` before any
`compute`, so it is given as a function. -/
def table (k : ℤ) : α := Libm.sin (lit 9.58738e-05 * Arith.ofInt k)

/-- `std::max<int>(0, std::min<int>(n, 65535))` -/
def clampIndex (n : ℤ) : ℤ := max 0 (min n 65535)

/-- FVerbDSP.h:823-837 and 891-905 one step of a crossfade towards the delay `target`. -/
def fadeStep (c12 : α) (target : ℤ) (f : Fade α) : Fade α :=
  let t :=
    if Arith.ne f.slope (lit 0) then (if (f.mix >. lit 0) && (f.mix <. lit 1) then f.slope else lit 0)
    else if (f.mix ==. lit 0) && (target != f.dA) then c12
    else if (f.mix ==. lit 1) && (target != f.dB) then -c12
    else lit 0
  { slope := t
    mix := Arith.stdMax (lit 0) (Arith.stdMin (lit 1) (f.mix + t))
    dA := if (f.mix >=. lit 1) && (f.dB != target) then target else f.dA
    dB := if (f.mix <=. lit 0) && (f.dA != target) then target else f.dB }

/-- FVerbDSP.h:771-783, 804, 808-837 and 884-905: the control values of this sample, and the predelay `iTemp2` in samples. -/
def ctrlStep (k : Consts α) (s : Slow α) (c : Ctrl α) : Option (Ctrl α × ℤ) :=
  let rec28 := s.s7 + k.c2 * c.rec28
  let rec36 := s.s9 + k.c2 * c.rec36
  let rec37 := s.s10 + k.c2 * c.rec37
  (Arith.toI32? (k.c0 * rec28)).bind fun pre =>
  let temp9 := c.rec35 + k.c11 * rec36
  (Arith.toI32? temp9).bind fun whole =>
  let rec35 := temp9 - Arith.ofInt whole
  (Arith.toI32? (rec35 + lit 0.25)).bind fun quarter =>
  (Arith.toI32? (lit 65536 * (rec35 + (lit 0.25 - Arith.ofInt quarter)))).bind fun idx =>
  (Arith.toI32? (k.c0 * (rec37 * table (clampIndex idx) + lit 0.030509727))).bind fun n10 =>
  (i32 (n10 + -1)).bind fun temp10 =>
  (Arith.toI32? (lit 65536 * rec35)).bind fun idx' =>
  (Arith.toI32? (k.c0 * (rec37 * table (clampIndex idx') + lit 0.025603978))).bind fun n21 =>
  (i32 (n21 + -1)).bind fun temp21 =>
  some ({ rec8 := s.s0 + k.c2 * c.rec8
          rec12 := s.s1 + k.c2 * c.rec12
          rec15 := s.s2 + k.c2 * c.rec15
          rec20 := s.s3 + k.c2 * c.rec20
          rec24 := s.s4 + k.c2 * c.rec24
          rec25 := s.s5 + k.c2 * c.rec25
          rec27 := s.s6 + k.c2 * c.rec27
          rec28 := rec28
          rec29 := s.s8 + k.c2 * c.rec29
          rec35 := rec35
          rec36 := rec36
          rec37 := rec37
          fadeR := fadeStep k.c12 temp10 c.fadeR
          fadeL := fadeStep k.c12 temp21 c.fadeL }, clampDelay pre)

/-! ### Audio -/

/-- The members of one channel. Names of the members fed from `input1` first, of those fed from `input0` second. -/
structure Half (L α : Type) where
  /-- `fVec0[131072]` / `fVec9[131072]` -/
  preLine : L
  /-- `fRec26` / `fRec52` -/
  lp : α
  /-- `fRec23` / `fRec51` -/
  hp : α
  /-- `fVec1[1024]` / `fVec10[1024]` -/
  line1 : L
  /-- `fRec21` / `fRec49` -/
  ap1 : α
  /-- `fVec2[1024]` / `fVec11[1024]` -/
  line2 : L
  /-- `fRec18` / `fRec47` -/
  ap2 : α
  /-- `fVec3[4096]` / `fVec12[4096]` -/
  line3 : L
  /-- `fRec16` / `fRec45` -/
  ap3 : α
  /-- `fVec4[2048]` / `fVec13[2048]` -/
  line4 : L
  /-- `fRec13` / `fRec43` -/
  ap4 : α
  /-- `fVec5[131072]` / `fVec14[131072]` -/
  modLine : L
  /-- `fRec10` / `fRec41` -/
  modOut : α
  /-- `fVec7[32768]` / `fVec15[32768]` -/
  dampLine : L
  /-- `fRec9` / `fRec40` -/
  damp : α
  /-- `fVec8[32768]` / `fVec16[16384]` -/
  tailLine : L
  /-- `fRec6` / `fRec38` -/
  tail : α
  /-- `fRec0[32768]` / `fRec3[32768]` -/
  outA : L
  /-- `fRec1[16384]` / `fRec4[8192]` -/
  outB : L
  /-- `fRec2[32768]` / `fRec5[32768]` -/
  outC : L

/-- The whole object apart from parameters and constants. -/
structure State (L α : Type) where
  ctrl : Ctrl α
  /-- fed from `input1` -/
  r : Half L α
  /-- fed from `input0` -/
  l : Half L α
  /-- `IOTA0` -/
  iota : ℤ

/-- FVerbDSP.h:428-610 `instanceClear`. -/
def clear (I : LineImpl L α) : State L α :=
  let z : α := lit 0
  let f : Fade α := ⟨z, z, 0, 0⟩
  let h (tailN outBN : ℕ) : Half L α :=
    { preLine := I.clear 131072, lp := z, hp := z, line1 := I.clear 1024, ap1 := z, line2 := I.clear 1024, ap2 := z,
      line3 := I.clear 4096, ap3 := z, line4 := I.clear 2048, ap4 := z, modLine := I.clear 131072, modOut := z,
      dampLine := I.clear 32768, damp := z, tailLine := I.clear tailN, tail := z, outA := I.clear 32768, outB := I.clear outBN,
      outC := I.clear 32768 }
  { ctrl := ⟨z, z, z, z, z, z, z, z, z, z, z, z, f, f⟩, r := h 32768 16384, l := h 16384 8192, iota := 0 }

/-- One allpass of the input diffuser (FVerbDSP.h:787-791 and the seven like it): `t = x - g * prev`, written to the line; the result is
the line, the value read `d` samples back, and `g * t`. -/
def allpass (I : LineImpl L α) (N : ℕ) (iota d : ℤ) (g x prev : α) (line : L) : Option (L × α × α) :=
  let t := x - g * prev
  (I.wr N line iota t).bind fun line => (I.rd N line iota d).map fun y => (line, y, g * t)

/-- FVerbDSP.h:780-803 / 860-879: predelay, input filters and the four diffusers. `lpIn` is `fRec26[0] * fTemp1` or
`fTemp1 * fRec52[0]`, in the order of the source. Returns the channel and `fRec14` / `fRec44`. -/
def inputStep (I : LineImpl L α) (iota pre d1 d2 d3 d4 : ℤ) (c : Ctrl α) (lpIn : α → α) (input : α) (h : Half L α) :
    Option (Half L α × α) :=
  (I.wr 131072 h.preLine iota (input * c.rec27)).bind fun preLine =>
  (I.rd 131072 preLine iota pre).bind fun p =>
  let lp := p + c.rec25 * h.lp
  let hp := lpIn lp + c.rec24 * h.hp
  let temp3 := c.rec24 + lit 1
  (allpass I 1024 iota d1 c.rec20 (lit 0.5 * temp3 * (hp - h.hp)) h.ap1 h.line1).bind fun (line1, ap1, x1) =>
  (allpass I 1024 iota d2 c.rec20 (x1 + h.ap1) h.ap2 h.line2).bind fun (line2, ap2, x2) =>
  (allpass I 4096 iota d3 c.rec15 (x2 + h.ap2) h.ap3 h.line3).bind fun (line3, ap3, x3) =>
  (allpass I 2048 iota d4 c.rec15 (x3 + h.ap3) h.ap4 h.line4).map fun (line4, ap4, x4) =>
  ({ h with preLine := preLine, lp := lp, hp := hp, line1 := line1, ap1 := ap1, line2 := line2, ap2 := ap2, line3 := line3, ap3 := ap3,
            line4 := line4, ap4 := ap4 }, x4)

/-- FVerbDSP.h:805-807, 838-859 / 880-883, 906-926: one half of the tank. `prev` is the channel before `inputStep`, `x4` is `fRec14` /
`fRec44`, `fb` the sample fed back from the other channel's `outA`, `d` the damping delay, `dT` the tail delay; `toTail` and `toB` are the
products of lines 853/858 or 920/925 in the order of the source. -/
def tankStep (I : LineImpl L α) (tailN outBN : ℕ) (iota d dT : ℤ) (c : Ctrl α) (f : Fade α) (toTail toB : α → α) (fb x4 : α)
    (prev h : Half L α) : Option (Half L α) :=
  let temp8 := prev.ap4 + c.rec29 * fb + x4 + c.rec12 * prev.modOut
  (I.wr 131072 h.modLine iota temp8).bind fun modLine =>
  (I.rd 131072 modLine iota (clampDelay f.dA)).bind fun a =>
  (I.rd 131072 modLine iota (clampDelay f.dB)).bind fun b =>
  let modOut := a + f.mix * (b - a)
  let temp13 := -(c.rec12 * temp8) + prev.modOut
  (I.wr 32768 h.dampLine iota temp13).bind fun dampLine =>
  (I.rd 32768 dampLine iota d).bind fun y =>
  let damp := y + c.rec8 * prev.damp
  let temp14 := Arith.stdMin (lit 0.5) (Arith.stdMax (lit 0.25) (c.rec29 + lit 0.15))
  let temp15 := temp14 * prev.tail + toTail damp
  (I.wr tailN h.tailLine iota temp15).bind fun tailLine =>
  (I.rd tailN tailLine iota dT).bind fun tail =>
  (I.wr 32768 h.outA iota (-(temp14 * temp15) + prev.tail)).bind fun outA =>
  (I.wr outBN h.outB iota (toB damp)).bind fun outB =>
  (I.wr 32768 h.outC iota temp13).map fun outC =>
  { h with modLine := modLine, modOut := modOut, dampLine := dampLine, damp := damp, tailLine := tailLine, tail := tail, outA := outA,
           outB := outB, outC := outC }

/-- FVerbDSP.h:927-933 / 934-940: one output sample from seven taps, given as lines with delays. -/
def tap (I : LineImpl L α) (iota : ℤ) (a b c d e f g : ℕ × L × ℤ) : Option α :=
  let rd := fun t : ℕ × L × ℤ => I.rd t.1 t.2.1 iota t.2.2
  (rd a).bind fun a => (rd b).bind fun b => (rd c).bind fun c => (rd d).bind fun d => (rd e).bind fun e => (rd f).bind fun f =>
  (rd g).map fun g => lit 0.6 * (a + b + c - (d + e + f + g))

/-- FVerbDSP.h:771-979 the loop body: new state and the output frame `(output0, output1)`. -/
def step (I : LineImpl L α) (k : Consts α) (sl : Slow α) (s : State L α) (x : Stereo α) : Option (State L α × Stereo α) :=
  (ctrlStep k sl s.ctrl).bind fun (c, pre) =>
  let temp0 := lit 1 - c.rec8
  let temp1 := lit 1 - c.rec25
  (inputStep I s.iota pre k.i6 k.i7 k.i8 k.i9 c (fun v => v * temp1) x.right s.r).bind fun (r, r14) =>
  (I.rd 32768 s.l.outA s.iota k.i10).bind fun fbR =>
  (tankStep I 32768 16384 s.iota k.i13 k.i14 c c.fadeR (fun v => c.rec29 * v * temp0) (fun v => v * temp0) fbR r14 s.r r).bind fun r =>
  (inputStep I s.iota pre k.i15 k.i16 k.i17 k.i18 c (fun v => temp1 * v) x.left s.l).bind fun (l, r44) =>
  (I.rd 32768 r.outA s.iota k.i19).bind fun fbL =>
  (tankStep I 16384 8192 s.iota k.i20 k.i21 c c.fadeL (fun v => c.rec29 * temp0 * v) (fun v => temp0 * v) fbL r44 s.l l).bind fun l =>
  (tap I s.iota (32768, r.outC, k.i28) (32768, r.outC, k.i27) (32768, r.outA, k.i26) (16384, r.outB, k.i25) (32768, l.outC, k.i24)
    (8192, l.outB, k.i23) (32768, l.outA, k.i22)).bind fun out0 =>
  (tap I s.iota (32768, l.outC, k.i35) (32768, l.outC, k.i34) (32768, l.outA, k.i33) (8192, l.outB, k.i32) (32768, r.outC, k.i31)
    (16384, r.outB, k.i30) (32768, r.outA, k.i29)).bind fun out1 =>
  (i32 (s.iota + 1)).map fun iota => (⟨c, r, l, iota⟩, ⟨out0, out1⟩)

/-- FVerbDSP.h:770-980 the loop of `compute`, on lists of frames. -/
def loop (I : LineImpl L α) (k : Consts α) (sl : Slow α) : State L α → List (Stereo α) → Option (State L α × List (Stereo α))
  | s, [] => some (s, [])
  | s, x :: xs => (step I k sl s x).bind fun (s, y) => (loop I k sl s xs).map fun (s, ys) => (s, y :: ys)

/-- FVerbDSP.h:753-981 `compute`. -/
def compute (I : LineImpl L α) (k : Consts α) (p : Params α) (s : State L α) (xs : List (Stereo α)) :
    Option (State L α × List (Stereo α)) :=
  loop I k (slow k p) s xs

end Verif.FVerbDSP
