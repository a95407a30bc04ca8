import Verif.Model.BufferAllocator
import Verif.Model.BufRd
import Verif.Model.Downsampler
import Verif.Model.Filters
import Verif.Model.Lines
import Verif.Model.ExampleVoice
import Verif.Model.MoogLadders
import Verif.Model.SuperSaw
import Verif.Model.FVerb
import Verif.Model.XPlay

/-!
# The programs in examples/

The calls into JACK, X11, libsndfile and the C++ streams are parameters: the audio server chooses the block sizes and the sample rate, the
mouse position and the typed line are inputs, a sound file is what libsndfile reports about it and the samples it decodes.  A relaxed
atomic load returns whatever the other thread stored last, so the loaded values are arguments of the callbacks.  Output to the terminal is
left out.
-/

set_option linter.unusedSectionVars false

namespace Verif

/-! ## Loading a sound file -/

/-- A file as libsndfile presents it: the fields of `SF_INFO` that are used, and the decoded samples, interleaved. -/
structure SndFile (α : Type) where
  samplerate : ℤ
  channels : ℕ
  frames : ℕ
  data : List α

section
variable {α : Type} [Arith α]

/-- `sf_read_float(file, p, items)` and, with `items = frames * channels`, `sf_readf_float(file, p, frames)` directly after `sf_open`: both
store the interleaved samples one after the other, as many as were asked for and are there.  Returns the memory and the number of
samples stored. -/
def SndFile.read (f : SndFile α) (p : Ptr) (items : ℕ) (m : Mem α) : Option (Mem α × ℕ) :=
  (forLoop (fun i m => f.data[i]?.bind fun x => m.store p i x) 0 (min items f.data.length) m).map fun m => (m, min items f.data.length)

/-- jack_playback_example.cpp:105-133, jack_xplay.cpp:110-130: allocate a buffer and read the file into it. `none` for the buffer: the
allocation failed and the program ends. The conversion of `frames` to `size_t` and of the channel count to `uint8_t` keep the value. -/
def SndFile.load (P M : ℕ) (f : SndFile α) (a : BufferAllocator.Alloc α) (m : Mem α) :
    Option (BufferAllocator.Alloc α × Mem α × Option (Buffer α)) :=
  let channels := if f.channels ≥ 2 then 2 else 1
  (BufferAllocator.allocate P M f.frames channels a).bind fun (a, b) =>
    if !b.isValid then some (a, m, none)
    else if channels = 1 then (f.read b.data f.frames m).map fun (m, _) => (a, m, some b)
    else (f.read b.data (f.frames * f.channels) m).map fun (m, _) => (a, m, some b)

/-- The program that `jack_xplay.cpp` loads: as above, and the rate of the file is noted in the buffer (line 132). -/
def SndFile.loadX (P M : ℕ) (f : SndFile α) (a : BufferAllocator.Alloc α) (m : Mem α) :
    Option (BufferAllocator.Alloc α × Mem α × Option (Buffer α)) :=
  (f.load P M a m).map fun (a, m, b) => (a, m, b.map fun b => { b with sampleRate := Arith.ofInt f.samplerate })

end

/-- `std::max(0.0f, std::min(1.0f, x))`, used by every example on the mouse position. -/
def unit01 {α : Type} [Arith α] (x : α) : α := Arith.stdMax (lit 0) (Arith.stdMin (lit 1) x)

/-! ## jack_playback_example.cpp -/

namespace JackPlayback
variable {α : Type} [Arith α] [Libm α]

/-- Line 39 `OVERSAMPLE_FACTOR`. -/
def OVERSAMPLE_FACTOR : ℕ := 2

/-- Lines 41-52 the globals used by the audio thread. `g_bufRd` holds a pointer to `g_audioBuffer`, which is only written before `init`. -/
structure State (α : Type) where
  audioBuffer : Buffer α
  phasor : Phasor.Ph α
  bufRd : BufRd.Reader α
  rateLag : Lag.Filt α
  downsampler : StereoDownsampler.SDown α
  fileSampleRate : α
  sampleRate : α
  internalSampleRate : α
  basePlaybackRate : α

/-- Lines 58-78 `configurePlayback`; `rateControl` is the value loaded in line 70. -/
def configurePlayback (sr rateControl : α) (s : State α) : State α :=
  let internalRate := sr * Arith.ofNat OVERSAMPLE_FACTOR
  let s := { s with sampleRate := sr, internalSampleRate := internalRate, phasor := Phasor.init internalRate,
                    rateLag := Lag.init internalRate (lit 0.2), downsampler := StereoDownsampler.init sr OVERSAMPLE_FACTOR }
  if s.audioBuffer.isValid then
    let base := s.fileSampleRate / internalRate
    let target := base * rateControl
    { s with basePlaybackRate := base, rateLag := Lag.setValue target s.rateLag,
             phasor := Phasor.set target (lit 0) (Arith.ofNat s.audioBuffer.numSamples) (lit 0) s.phasor }
  else s

/-- Lines 249-268 of `main`, with 103 and 107: load, configure, set up the reader. `old` is what the globals held before; the result `none` inside is the
early exit. -/
def setup (P M : ℕ) (f : SndFile α) (jackRate : ℕ) (rateControl : α) (a : BufferAllocator.Alloc α) (m : Mem α) (old : State α) :
    Option (Mem α × Option (State α)) :=
  (BufferAllocator.init P (Arith.ofNat jackRate) a m).bind fun (a, m) =>
    (f.load P M a m).map fun (_, m, b) =>
      (m, b.map fun b =>
        let s := configurePlayback (Arith.ofNat jackRate) rateControl { old with fileSampleRate := Arith.ofInt f.samplerate, audioBuffer := b }
        { s with bufRd := BufRd.setInterpolation 4 (BufRd.setLoop true (BufRd.init (some b))) })

/-- Lines 160-165 the body of the inner loop: one sample at the internal rate. -/
def inner (target : α) (m : Mem α) (s : State α) : Option (State α) :=
  let (rateLag, smoothRate) := Lag.tick s.rateLag target
  let (phasor, phase) := Phasor.tick (Phasor.setRate smoothRate s.phasor)
  (BufRd.tickStereo s.bufRd m phase).map fun sample =>
    { s with rateLag := rateLag, phasor := phasor, downsampler := StereoDownsampler.write s.downsampler sample }

/-- Lines 158-170 one frame of output. -/
def frame (target : α) (m : Mem α) (s : State α) : Option (State α × Stereo α) :=
  (forLoop (fun _ s => inner target m s) 0 OVERSAMPLE_FACTOR s).map fun s =>
    let (d, y) := StereoDownsampler.read s.downsampler
    ({ s with downsampler := d }, y)

/-- Lines 146-174 `jackProcessCallback`; `rateControl` is the value loaded in line 154. -/
def processCallback (nframes : ℕ) (rateControl : α) (m : Mem α) (s : State α) : Option (State α × List (Stereo α)) :=
  forLoop (fun _ (s, out) => (frame (s.basePlaybackRate * rateControl) m s).map fun (s, y) => (s, out ++ [y])) 0 nframes (s, [])

/-- The server calls back for one block after the other; each entry is the size of the block and the control loaded for it. The audio of
all blocks in one piece. -/
def playBlocks (m : Mem α) : State α → List (ℕ × α) → Option (State α × List (Stereo α))
  | s, [] => some (s, [])
  | s, (n, c) :: bs => (processCallback n c m s).bind fun (s, y) => (playBlocks m s bs).map fun (s, ys) => (s, y ++ ys)

/-- Lines 179-185 `jackSampleRateCallback`. -/
def sampleRateCallback (nframes : ℕ) (rateControl : α) (s : State α) : State α := configurePlayback (Arith.ofNat nframes) rateControl s

/-- Line 54 `MIN_RATE`. -/
def MIN_RATE : α := lit 0.25
/-- Line 55 `MAX_RATE`. -/
def MAX_RATE : α := lit 4
/-- Line 56 `CENTER_DEADZONE`. -/
def CENTER_DEADZONE : α := lit 0.02

/-- Lines 314-331 the playback rate for the mouse at `rootX` on a screen of the given width. -/
def rateOf (rootX screenWidth : ℤ) : α :=
  let normalizedX := unit01 (Arith.ofInt rootX / Arith.ofInt screenWidth : α)
  let centered := (normalizedX - lit 0.5) * lit 2
  let magNorm := Arith.fabs centered
  if magNorm >. CENTER_DEADZONE then
    let scaledNorm := unit01 ((magNorm - CENTER_DEADZONE) / (lit 1 - CENTER_DEADZONE))
    let logMin := Libm.log (MIN_RATE : α)
    let logMax := Libm.log (MAX_RATE : α)
    let magnitude := Libm.exp (logMin + scaledNorm * (logMax - logMin))
    if centered >. lit 0 then magnitude else -magnitude
  else lit 0

end JackPlayback

/-! ## jack_example.cpp -/

namespace JackExample
variable {α : Type} [Arith α] [Libm α]

/-- Lines 24-29 the globals, and the function-local static `lastNoteOn` of line 50. -/
structure State (α : Type) where
  voice : ExampleVoice.Voice α
  lastNoteOn : Bool
  noteOn : Bool
  frequency : α

/-- Lines 118-124 of `main`, with the initial values of the globals. -/
def setup (jackRate : ℕ) : State α :=
  { voice := ExampleVoice.setAmplitude (lit 0.5) (ExampleVoice.setVibratoRate (lit 5) (ExampleVoice.setVibratoDepth (lit 0.1)
      (ExampleVoice.setRelease (lit 0.3) (ExampleVoice.setAttack (lit 0.01) (ExampleVoice.setFrequency (lit 440)
        (ExampleVoice.init (Arith.ofNat jackRate)))))))
    lastNoteOn := false
    noteOn := false
    frequency := lit 440 }

/-- Lines 50-59 the gate handling of the callback. -/
def gateEdge (s : State α) : State α :=
  if s.noteOn ≠ s.lastNoteOn then
    { s with voice := if s.noteOn then ExampleVoice.trigger s.voice else ExampleVoice.release s.voice, lastNoteOn := s.noteOn }
  else s

/-- Lines 37-65 `jackProcessCallback`; `buf` is the contents of the two port buffers. -/
def processCallback (s : State α) (buf : List (Stereo α)) : State α × List (Stereo α) :=
  let s := gateEdge { s with voice := ExampleVoice.setFrequency s.frequency s.voice }
  let (v, out) := ExampleVoice.process s.voice buf
  ({ s with voice := v }, out)

/-- Lines 70-74 `jackSampleRateCallback`. -/
def sampleRateCallback (nframes : ℕ) (s : State α) : State α := { s with voice := ExampleVoice.init (Arith.ofNat nframes) }

/-- A line typed by the user: empty, accepted by `std::stof` with some value, or rejected by it. -/
inductive Typed (α : Type)
  | empty
  | number (x : α)
  | junk

/-- Lines 170-186 the body of the main loop. -/
def typed (l : Typed α) (s : State α) : State α :=
  match l with
  | .empty => { s with noteOn := !s.noteOn }
  | .number freq => if (freq >. lit 20) && (freq <. lit 20000) then { s with frequency := freq } else s
  | .junk => s

/-- What can happen to the program. -/
inductive Event (α : Type)
  | block (buf : List (Stereo α))
  | rate (nframes : ℕ)
  | typed (l : Typed α)

/-- One event, and the audio it produces. -/
def step (s : State α) : Event α → State α × List (Stereo α)
  | .block buf => processCallback s buf
  | .rate n => (sampleRateCallback n s, [])
  | .typed l => (typed l s, [])

/-- A history of events: the final state and all audio. -/
def run : State α → List (Event α) → State α × List (List (Stereo α))
  | s, [] => (s, [])
  | s, e :: es =>
    let (s, y) := step s e
    let (s, ys) := run s es
    (s, y :: ys)

end JackExample

/-! ## moog_example.cpp -/

namespace MoogExample
variable {α β : Type} [Arith α] [Arith β] [Libm α] [Libm β] [Conv α β] [Conv β α]

/-- Lines 30-35 the unit generators. -/
structure State (α β : Type) where
  sawC : SawDPW.Osc α
  sawE : SawDPW.Osc α
  sawG : SawDPW.Osc α
  filter : Oberheim.Ladder α β
  cutoffLag : Lag.Filt α
  resonanceLag : Lag.Filt α

/-- Lines 172-191 of `main`; `old` is what the filter held before. `init` of the oscillators has the default phase 0. -/
def setup (jackRate : ℕ) (old : Oberheim.Ladder α β) : State α β :=
  let sr : α := Arith.ofNat jackRate
  { sawC := SawDPW.setFrequency (lit 261.63) (SawDPW.init sr (lit 0))
    sawE := SawDPW.setFrequency (lit 329.63) (SawDPW.init sr (lit 0))
    sawG := SawDPW.setFrequency (lit 392) (SawDPW.init sr (lit 0))
    filter := Oberheim.setResonance (lit 0.3) (Oberheim.setCutoff (lit 1000) (Oberheim.init sr old))
    cutoffLag := Lag.setValue (lit 1000) (Lag.init sr (lit 0.2))
    resonanceLag := Lag.setValue (lit 0.3) (Lag.init sr (lit 0.2)) }

/-- Lines 70-91 one frame; `cutoff` and `resonance` are the values loaded in lines 71-72. Both channels get the result. -/
def frame (s : State α β) (cutoff resonance : α) : State α β × α :=
  let (cutoffLag, smoothCutoff) := Lag.tick s.cutoffLag cutoff
  let (resonanceLag, smoothResonance) := Lag.tick s.resonanceLag resonance
  let filter := Oberheim.setResonance smoothResonance (Oberheim.setCutoff smoothCutoff s.filter)
  let (sawC, c) := SawDPW.tick s.sawC
  let (sawE, e) := SawDPW.tick s.sawE
  let (sawG, g) := SawDPW.tick s.sawG
  let mixed := (c + e + g) / lit 3
  let (filter, filtered) := Oberheim.tick filter mixed
  (⟨sawC, sawE, sawG, filter, cutoffLag, resonanceLag⟩, filtered * lit 0.3)

/-- Lines 59-95 `jackProcessCallback` for the given loads of the two controls, one pair per frame. -/
def processCallback : State α β → List (α × α) → State α β × List α := forEach fun s c => frame s c.1 c.2

/-- Lines 100-112 `jackSampleRateCallback`. -/
def sampleRateCallback (nframes : ℕ) (s : State α β) : State α β :=
  let sr : α := Arith.ofNat nframes
  { sawC := SawDPW.setFrequency (lit 261.63) (SawDPW.init sr (lit 0))
    sawE := SawDPW.setFrequency (lit 329.63) (SawDPW.init sr (lit 0))
    sawG := SawDPW.setFrequency (lit 392) (SawDPW.init sr (lit 0))
    filter := Oberheim.init sr s.filter
    cutoffLag := Lag.init sr (lit 0.2)
    resonanceLag := Lag.init sr (lit 0.2) }

/-- Lines 241-247 the cutoff for the mouse at `rootX`; supersaw_example.cpp:449-455 is the same with other limits. -/
def cutoffOf (minCutoff maxCutoff : α) (rootX screenWidth : ℤ) : α :=
  let normalizedX := unit01 (Arith.ofInt rootX / Arith.ofInt screenWidth : α)
  let logMin := Libm.log minCutoff
  let logMax := Libm.log maxCutoff
  Libm.exp (logMin + normalizedX * (logMax - logMin))

/-- Lines 251-253 the resonance for the mouse at `rootY`. -/
def resonanceOf (rootY screenHeight : ℤ) : α :=
  lit 0 + unit01 (lit 1 - Arith.ofInt rootY / Arith.ofInt screenHeight : α) * (lit 0.99 - lit 0)

/-- What can happen: a block of audio with the controls loaded for every frame, or a change of the sample rate. -/
inductive Event (α : Type)
  | block (controls : List (α × α))
  | rate (nframes : ℕ)

/-- One event. -/
def step (s : State α β) : Event α → State α β × List α
  | .block l => processCallback s l
  | .rate n => (sampleRateCallback n s, [])

/-- A history of events: the final state and all audio. -/
def run : State α β → List (Event α) → State α β × List (List α)
  | s, [] => (s, [])
  | s, e :: es =>
    let (s, y) := step s e
    let (s, ys) := run s es
    (s, y :: ys)

end MoogExample

/-! ## supersaw_example.cpp -/

namespace SuperSawExample
variable {α β : Type} [Arith α] [Arith β] [Libm α] [Libm β] [Conv α β] [Conv β α]

/-- Line 46 `MAX_BLOCK_SIZE`. -/
def MAX_BLOCK_SIZE : ℕ := 8192
/-- Line 77 `RESONANCE`. -/
def RESONANCE : α := lit 0.01
/-- Line 66 `REVERB_WET`. -/
def REVERB_WET : α := lit 0.1

/-- Lines 83-89 `driveFromNormalized`. -/
def driveFromNormalized (normalized : α) : α := lit 0.01 * Libm.pow (lit 100 / lit 0.01) (unit01 normalized)

/-- Lines 459-461 the drive control for the mouse at `rootY`. -/
def driveOf (rootY screenHeight : ℤ) : α := unit01 (lit 1 - Arith.ofInt rootY / Arith.ofInt screenHeight : α)

/-- Lines 67-71 the meter of the processor load. -/
structure Meter (α β : Type) where
  ring : List α
  size : ℕ
  index : ℕ
  sum : β
  usage : α

/-- Lines 67-71 initial values. -/
def Meter.init : Meter α β := ⟨List.replicate 100 (lit 0), 0, 0, lit 0, lit 0⟩

/-- Lines 202-213 `cpuSample` enters the ring and the average is published. `none` is an access outside the ring. -/
def Meter.add (cpuSample : α) (k : Meter α β) : Option (Meter α β) :=
  if k.index < k.ring.length then
    (if k.size < 100 then some (k.sum + Conv.conv cpuSample, k.size + 1)
     else k.ring[k.index]?.map fun old => ((k.sum - Conv.conv old) + Conv.conv cpuSample, k.size)).map fun (sum, size) =>
      { ring := k.ring.set k.index cpuSample, size := size, index := (k.index + 1) % 100, sum := sum,
        usage := Conv.conv (sum / Arith.ofNat size) }
  else none

/-- Lines 47-61 the unit generators and the memory of the DC blockers. The reverb lives on the heap. -/
structure State (α β : Type) where
  voices : List (SuperSaw.Synth α)
  cutoffLag : Lag.Filt α
  driveLag : Lag.Filt α
  downsampler : StereoDownsampler.SDown α
  filterL : RKSimulation.Ladder α β
  filterR : RKSimulation.Ladder α β
  postL : OnePoleLPF.Filt α
  postR : OnePoleLPF.Filt α
  dcL : α × α
  dcR : α × α
  heap : FVerb.Heap α
  reverb : FVerb.Obj

/-- Lines 152-160 the DC blocker `y = x - x1 + 0.995 y1`; the state is `(x1, y1)`. -/
def dcBlock (s : α × α) (x : α) : (α × α) × α :=
  let y := x - s.1 + lit 0.995 * s.2
  ((x, y), y)

/-- Lines 139-147 the mix of the voices. -/
def mixVoices (voices : List (SuperSaw.Synth α)) : Stereo α × List (SuperSaw.Synth α) :=
  let (mix, voices) := forEach (fun (mix : Stereo α) v =>
    let (v, y) := SuperSaw.tick v
    (⟨mix.left + y.left, mix.right + y.right⟩, v)) ⟨lit 0, lit 0⟩ voices
  (⟨mix.left * (lit 1 / Arith.ofNat 3), mix.right * (lit 1 / Arith.ofNat 3)⟩, voices)

/-- Lines 120-170 the dry signal of one frame (`OVERSAMPLE_FACTOR` is 1, so the inner loop runs once); `cutoff` and `drive` are the loaded
controls. -/
def dryFrame (s : State α β) (c : α × α) : State α β × Stereo α :=
  let (cutoffLag, smoothCutoff) := Lag.tick s.cutoffLag c.1
  let (driveLag, smoothDrive) := Lag.tick s.driveLag c.2
  let driveGain := driveFromNormalized smoothDrive
  let filterL := RKSimulation.setDrive driveGain (RKSimulation.setResonance RESONANCE (RKSimulation.setCutoff smoothCutoff s.filterL))
  let filterR := RKSimulation.setDrive driveGain (RKSimulation.setResonance RESONANCE (RKSimulation.setCutoff smoothCutoff s.filterR))
  let (mix, voices) := mixVoices s.voices
  let (filterL, filteredL) := RKSimulation.tick filterL mix.left
  let (filterR, filteredR) := RKSimulation.tick filterR mix.right
  let (dcL, dcBlockedL) := dcBlock s.dcL filteredL
  let (dcR, dcBlockedR) := dcBlock s.dcR filteredR
  let (downsampler, output) := StereoDownsampler.read (StereoDownsampler.write s.downsampler ⟨dcBlockedL, dcBlockedR⟩)
  let (postL, l) := OnePoleLPF.tickMod s.postL output.left smoothCutoff
  let (postR, r) := OnePoleLPF.tickMod s.postR output.right smoothCutoff
  ({ s with voices := voices, cutoffLag := cutoffLag, driveLag := driveLag, downsampler := downsampler, filterL := filterL, filterR := filterR,
            postL := postL, postR := postR, dcL := dcL, dcR := dcR }, ⟨l, r⟩)

/-- Lines 191-192 the mix of dry and wet. -/
def wetMix (dry wet : α) : α := dry * (lit 1 - REVERB_WET) + wet * REVERB_WET

/-- Lines 107-193 the audio of `jackProcessCallback`; one pair of loaded controls per frame. The arrays `g_reverbLeftBuffer`,
`g_reverbRightBuffer`, `dryLeftBuffer` and `dryRightBuffer` have `MAX_BLOCK_SIZE` cells and are written at `i < nframes`: a longer block
is undefined behaviour. -/
def processCallback (s : State α β) (controls : List (α × α)) : Option (State α β × List (Stereo α)) :=
  if MAX_BLOCK_SIZE < controls.length then none
  else
    let (s, dry) := forEach dryFrame s controls
    (FVerb.process s.heap s.reverb dry).map fun (h, o, wet) =>
      ({ s with heap := h, reverb := o }, List.zipWith (fun d w => ⟨wetMix d.left w.left, wetMix d.right w.right⟩) dry wet)

/-- Line 78 `VOICE_FREQUENCIES`. -/
def VOICE_FREQUENCIES : List α := [lit 55, lit 329.63, lit 523.25]

/-- Lines 349-361 of `main` and 234-246 of the callback: one voice. `rand` is the sequence of random numbers the generator yields for the
seed that was used. -/
def voiceOf (sr freq : α) (rand : ℕ → α) : SuperSaw.Synth α :=
  SuperSaw.gate (lit 1) <| SuperSaw.setRelease (lit 0.3) <| SuperSaw.setSustain (lit 0.7) <| SuperSaw.setDecay (lit 0.1) <|
    SuperSaw.setAttack (lit 0.01) <| SuperSaw.setSpread (lit 0.6) <| SuperSaw.setVibratoDepth (lit 0.3) <|
    SuperSaw.setVibratoRate (lit 6) <| SuperSaw.setDetune (lit 0.2) <| SuperSaw.setFrequency freq <| SuperSaw.init sr rand

/-- Lines 362-366, 367-371 of `main` and 247-251, 252-256 of the callback: one filter. -/
def filterOf (sr drive : α) (old : RKSimulation.Ladder α β) : RKSimulation.Ladder α β :=
  RKSimulation.setDrive (driveFromNormalized drive) <| RKSimulation.setResonance RESONANCE <| RKSimulation.setCutoff (lit 5000) <|
    RKSimulation.setOversampleFactor 2 <| RKSimulation.init sr old

/-- Lines 392-398 of `main` and 274-280 of the callback: the reverb. -/
def reverbOf (sr : α) (h : FVerb.Heap α) (o : FVerb.Obj) : Option (FVerb.Heap α × FVerb.Obj) :=
  (FVerb.init h o sr).bind fun (h, o) =>
    (FVerb.set h o .predelay (lit 150)).bind fun h => (FVerb.set h o .decay (lit 82)).bind fun h =>
    (FVerb.set h o .tailDensity (lit 80)).bind fun h => (FVerb.set h o .diffusion1 (lit 70)).bind fun h =>
    (FVerb.set h o .diffusion2 (lit 75)).bind fun h => (FVerb.set h o .damping (lit 5500)).map fun h => (h, o)

/-- Lines 339-398 of `main`; `cutoff` and `drive` are the loaded controls, `rand seed` the random numbers for a seed, `old` what the
globals held. -/
def setup (jackRate : ℕ) (rand : ℕ → ℕ → α) (cutoff drive : α) (old : State α β) : Option (State α β) :=
  let sr : α := Arith.ofNat jackRate
  (reverbOf sr old.heap old.reverb).map fun (h, o) =>
    { voices := VOICE_FREQUENCIES.zipIdx.map fun fi => voiceOf sr fi.1 (rand (42 + fi.2))
      cutoffLag := Lag.setValue (lit 5000) (Lag.init sr (lit 0.2))
      driveLag := Lag.setValue drive (Lag.init sr (lit 0.2))
      downsampler := StereoDownsampler.init sr 1
      filterL := filterOf sr drive old.filterL
      filterR := filterOf sr drive old.filterR
      postL := OnePoleLPF.init sr cutoff
      postR := OnePoleLPF.init sr cutoff
      dcL := (lit 0, lit 0)
      dcR := (lit 0, lit 0)
      heap := h
      reverb := o }

/-- Lines 224-283 `jackSampleRateCallback`; the seed is the default one of SuperSaw.h:86. -/
def sampleRateCallback (nframes : ℕ) (rand : ℕ → ℕ → α) (cutoff drive : α) (s : State α β) : Option (State α β) :=
  let sr : α := Arith.ofNat nframes
  (reverbOf sr s.heap s.reverb).map fun (h, o) =>
    { voices := VOICE_FREQUENCIES.map fun f => voiceOf sr f (rand 42)
      cutoffLag := Lag.init sr (lit 0.2)
      driveLag := Lag.init sr (lit 0.2)
      downsampler := StereoDownsampler.init sr 1
      filterL := filterOf sr drive s.filterL
      filterR := filterOf sr drive s.filterR
      postL := OnePoleLPF.init sr cutoff
      postR := OnePoleLPF.init sr cutoff
      dcL := (lit 0, lit 0)
      dcR := (lit 0, lit 0)
      heap := h
      reverb := o }

/-- What can happen: a block of audio with the controls loaded for every frame, or a change of the sample rate with the controls loaded
then. -/
inductive Event (α : Type)
  | block (controls : List (α × α))
  | rate (nframes : ℕ) (cutoff drive : α)

/-- One event, and the audio it produces. -/
def step (rand : ℕ → ℕ → α) (s : State α β) : Event α → Option (State α β × List (Stereo α))
  | .block l => processCallback s l
  | .rate n cutoff drive => (sampleRateCallback n rand cutoff drive s).map (·, [])

/-- A history of events: the final state and the audio of every event. -/
def run (rand : ℕ → ℕ → α) : State α β → List (Event α) → Option (State α β × List (List (Stereo α)))
  | s, [] => some (s, [])
  | s, e :: es => (step rand s e).bind fun (s, y) => (run rand s es).map fun (s, ys) => (s, y :: ys)

end SuperSawExample

/-! ## jack_xplay.cpp -/

namespace JackXPlay
variable {α : Type} [Arith α] [Libm α]

/-- Lines 30-35 the globals used by the audio thread, with the two targets the mouse sets. -/
structure State (α : Type) where
  buffer : Buffer α
  xplay : XPlay.Player α
  startLag : Lag.Filt α
  endLag : Lag.Filt α
  startTarget : α
  endTarget : α

/-- Lines 140-158 `configurePlayback`; `none` is undefined behaviour. Nothing here preserves the play head, so the loops that need fuel
are not reached. -/
def configurePlayback (sr : α) (s : State α) : Option (State α) :=
  (XPlay.init sr s.xplay).bind fun x => (XPlay.setBuffer (some s.buffer) x).bind fun x =>
    let x := { x with reader := BufRd.setLoop true (BufRd.setInterpolation 4 x.reader) }
    (XPlay.setFadeTime (lit 0.5) x).bind fun x =>
      (XPlay.setStartEnd 0 (lit 0.25) (lit 0.75) false (XPlay.setRate (lit 0.5) (XPlay.setGate (lit 1) x))).map fun x =>
        { s with xplay := x, startLag := Lag.setValue s.startTarget (Lag.init sr (lit 0.2)),
                 endLag := Lag.setValue s.endTarget (Lag.init sr (lit 0.2)) }

/-- Lines 57-65 one frame: the lags are ticked, the call that would use their values is commented out (line 60). -/
def frame (startTarget endTarget : α) (m : Mem α) (s : State α) : Option (State α × Stereo α) :=
  let (startLag, _) := Lag.tick s.startLag startTarget
  let (endLag, _) := Lag.tick s.endLag endTarget
  (XPlay.tick s.xplay m).map fun (x, y) => ({ s with xplay := x, startLag := startLag, endLag := endLag }, y)

/-- Lines 48-68 `jackProcessCallback`. -/
def processCallback (nframes : ℕ) (m : Mem α) (s : State α) : Option (State α × List (Stereo α)) :=
  forLoop (fun _ p => (frame s.startTarget s.endTarget m p.1).map fun (t, y) => (t, p.2 ++ [y])) 0 nframes (s, [])

/-- Lines 236-242 the mouse at `(rootX, rootY)` on a screen of the given size. -/
def mouse (rootX rootY width height : ℤ) (s : State α) : State α :=
  { s with startTarget := unit01 (Arith.ofInt rootX / Arith.ofInt width), endTarget := unit01 (Arith.ofInt rootY / Arith.ofInt height) }

/-- What can happen to the running program. -/
inductive Event
  | block (nframes : ℕ)
  | rate (nframes : ℕ)
  | mouse (rootX rootY : ℤ)

/-- One event on a screen of the given size, and the audio it produces. -/
def step (width height : ℤ) (m : Mem α) (s : State α) : Event → Option (State α × List (Stereo α))
  | .block n => processCallback n m s
  | .rate n => (configurePlayback (Arith.ofNat n) s).map (·, [])
  | .mouse x y => some (mouse x y width height s, [])

/-- A history of events: the final state and all audio, in one piece. -/
def run (width height : ℤ) (m : Mem α) : State α → List Event → Option (State α × List (Stereo α))
  | s, [] => some (s, [])
  | s, e :: es => (step width height m s e).bind fun (s, y) => (run width height m s es).map fun (s, ys) => (s, y ++ ys)

end JackXPlay
end Verif
