import Verif.Model.ExampleVoice
import Verif.Model.AudioLoop

/-!
# examples/basic_example.cpp

Printing is left out; what is printed is a component of the results below. `AudioBuffer` objects start zeroed (AudioBuffer.h:34-41); their
old contents are not looked at by any `process` used here.
-/

namespace Verif.BasicExample
variable {α : Type} [Arith α] [Libm α]

/-- basic_example.cpp:19-21. -/
def SAMPLE_RATE : α := lit 48000
def BLOCK_SIZE : ℕ := 64
def NUM_BLOCKS : ℕ := 100

/-- basic_example.cpp:32-44 example 1: the block of which the first eight samples are printed. -/
def oscBlock : List α :=
  (SinOsc.process (SinOsc.setFrequency (lit 440) (SinOsc.init SAMPLE_RATE)) (AudioBuffer.clear BLOCK_SIZE)).2

/-- basic_example.cpp:49-65 example 2. -/
def envBlock : List α :=
  (EnvelopeAR.process
    (EnvelopeAR.trigger (EnvelopeAR.setRelease (lit 0.1) (EnvelopeAR.setAttack (lit 0.01) (EnvelopeAR.init SAMPLE_RATE))))
    (AudioBuffer.clear BLOCK_SIZE)).2

omit [Libm α] in
/-- basic_example.cpp:69-83 example 3. -/
def noiseBlock : List α :=
  (LFNoise2.process (LFNoise2.setFrequency (lit 4) (LFNoise2.init SAMPLE_RATE 42)) (AudioBuffer.clear BLOCK_SIZE)).2

/-- basic_example.cpp:88-97 example 4: the voice before the first block. -/
def soloVoice : ExampleVoice.Voice α :=
  ExampleVoice.trigger <| ExampleVoice.setAmplitude (lit 0.8) <| ExampleVoice.setVibratoRate (lit 5) <|
    ExampleVoice.setVibratoDepth (lit 0.1) <| ExampleVoice.setRelease (lit 0.5) <| ExampleVoice.setAttack (lit 0.01) <|
    ExampleVoice.setFrequency (lit 440) <| ExampleVoice.init SAMPLE_RATE

/-- The variables of example 4 that live across the loop: the voice and the two peaks. -/
structure Solo (α : Type) where
  voice : ExampleVoice.Voice α
  maxValL : α
  maxValR : α

omit [Libm α] in
/-- basic_example.cpp:108-113 one pass of the inner loop for one channel; `std::abs` of a float. -/
def peakStep (m x : α) : α := if Arith.fabs x >. m then Arith.fabs x else m

/-- basic_example.cpp:104-121 one pass of the outer loop: a block of `B` frames, the peaks, and the release after block `numBlocks / 2`. -/
def soloStep (B numBlocks : ℕ) (s : Solo α) (block : ℕ) : Solo α :=
  let (voice, out) := ExampleVoice.process s.voice (List.replicate B Stereo.zero)
  { voice := if block = numBlocks / 2 then ExampleVoice.release voice else voice
    maxValL := out.foldl (fun m x => peakStep m x.left) s.maxValL
    maxValR := out.foldl (fun m x => peakStep m x.right) s.maxValR }

/-- basic_example.cpp:102-121 the loop of example 4, for any block size and number of blocks. -/
def solo (B numBlocks : ℕ) : Solo α :=
  (List.range numBlocks).foldl (soloStep B numBlocks) { voice := soloVoice, maxValL := lit 0, maxValR := lit 0 }

/-- What example 4 prints: the two peaks and whether the voice is active. -/
def soloReport : α × α × Bool :=
  let s := solo BLOCK_SIZE NUM_BLOCKS
  (s.maxValL, s.maxValR, ExampleVoice.isActive s.voice)

omit [Libm α] in
/-- ExampleVoice.h:217-223 the stores of `process` through the two pointers it is given, from index `i` on. -/
def storeFrames (pL pR : AudioLoop.Side) : ℕ → List (Stereo α) → AudioLoop.Loop α → AudioLoop.Loop α →
    Option (AudioLoop.Loop α × AudioLoop.Loop α)
  | _, [], l, r => some (l, r)
  | i, x :: xs, l, r => do
    let l ← AudioLoop.write pL i x.left l
    let r ← AudioLoop.write pR i x.right r
    storeFrames pL pR (i + 1) xs l r

/-- The objects of example 5. -/
structure Duo (α : Type) where
  voice : ExampleVoice.Voice α
  loopL : AudioLoop.Loop α
  loopR : AudioLoop.Loop α

/-- basic_example.cpp:130-138 example 5 before the loop, for any block size. -/
def duoInit (B : ℕ) : Duo α :=
  { loopL := AudioLoop.init B SAMPLE_RATE, loopR := AudioLoop.init B SAMPLE_RATE
    voice := ExampleVoice.trigger (ExampleVoice.setFrequency (lit 440) (ExampleVoice.init SAMPLE_RATE)) }

/-- basic_example.cpp:142-156 one pass of the loop: the pointers are taken, the buffers cleared, the voice writes through the pointers, the
buffers are swapped. -/
def duoStep (B : ℕ) (s : Duo α) : Option (Duo α) := do
  let pL := AudioLoop.getProcessingBuffer s.loopL
  let pR := AudioLoop.getProcessingBuffer s.loopR
  let l := AudioLoop.clearProcessingBuffer B s.loopL
  let r := AudioLoop.clearProcessingBuffer B s.loopR
  let (voice, out) := ExampleVoice.process s.voice (List.replicate B Stereo.zero)
  let (l, r) ← storeFrames pL pR 0 out l r
  some { voice := voice, loopL := AudioLoop.swapBuffers l, loopR := AudioLoop.swapBuffers r }

/-- basic_example.cpp:141-157 the loop, `n` times. -/
def duo (B : ℕ) : ℕ → Option (Duo α)
  | 0 => some (duoInit B)
  | n + 1 => (duo B n).bind (duoStep B)

end Verif.BasicExample
