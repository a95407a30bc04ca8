import Verif.Model.Memory

/-!
# The block loops on memory

The `process*` functions of the unit generators are loops over sample arrays. Elsewhere in the model they are functions on lists
(`forEach`); here the same loops run on memory, with pointers that may overlap and may be out of range. Four shapes occur:

* `samples[i] = tick(samples[i])`, `output[i] = tick(input[i])`, `output[i] += tick()`, `buffer[i] *= tick()` : `loopMap`, the first with
  equal pointers (DCBlock.h:70-74, Lag.h:114-118 and 126-130, LagLinear.h:122-127 and 135-139, OnePoleLPF.h:91-95, RLPF.h:104-108,
  Tape.h:129-133, CombC.h:173-177, the `process` of the seven ladders, Wrap.h:57-61, DBAmp.h:45-49, SinOsc.h:112-116, LFTri.h:142-146,
  XLine.h:199-203 and 210-214, Phasor.h:226-230 and 237-241, EnvelopeAR.h:228-232, EnvelopeADSR.h:319-323);
* `output[i] = tick()` : `loopGen` (SinOsc.h:101-105, SawDPW.h:128-132, LFTri.h:131-135, LFNoise2.h:160-164, XLine.h:188-192,
  Phasor.h:214-218, EnvelopeAR.h:217-221, EnvelopeADSR.h:308-312);
* `Stereo s = tick(); left[i] = s.left; right[i] = s.right` : `loopGenStereo` (SuperSaw.h:271-277, ExampleVoice.h:217-223, XPlay.h:235-241);
* `Stereo s = tick(left[i], right[i]); left[i] = s.left; right[i] = s.right` : `loopMapStereo` (DCBlock.h:76-82, Tape.h:135-141,
  ExampleVoice.h:231-239).
-/

namespace Verif
variable {α σ : Type}

/-- `for (i = 0; i < n; ++i) dst[i] = step(src[i])`. -/
def loopMap (step : σ → α → σ × α) (src dst : Ptr) (n : ℕ) (s : σ) (m : Mem α) : Option (σ × Mem α) :=
  forLoop (fun i (s, m) => (m.load src i).bind fun x => let (s', y) := step s x; (m.store dst i y).map (s', ·)) 0 n (s, m)

/-- `for (i = 0; i < n; ++i) dst[i] = tick()`. -/
def loopGen (tick : σ → σ × α) (dst : Ptr) (n : ℕ) (s : σ) (m : Mem α) : Option (σ × Mem α) :=
  forLoop (fun i (s, m) => let (s', y) := tick s; (m.store dst i y).map (s', ·)) 0 n (s, m)

/-- `for (i = 0; i < n; ++i) { Stereo s = tick(); l[i] = s.left; r[i] = s.right; }`. -/
def loopGenStereo (tick : σ → σ × Stereo α) (l r : Ptr) (n : ℕ) (s : σ) (m : Mem α) : Option (σ × Mem α) :=
  forLoop (fun i (s, m) =>
    let (s', y) := tick s
    (m.store l i y.left).bind fun m => (m.store r i y.right).map (s', ·)) 0 n (s, m)

/-- `for (i = 0; i < n; ++i) { Stereo s = tick(l[i], r[i]); l[i] = s.left; r[i] = s.right; }`. -/
def loopMapStereo (step : σ → Stereo α → σ × Stereo α) (l r : Ptr) (n : ℕ) (s : σ) (m : Mem α) : Option (σ × Mem α) :=
  forLoop (fun i (s, m) => (m.load l i).bind fun a => (m.load r i).bind fun b =>
    let (s', y) := step s ⟨a, b⟩
    (m.store l i y.left).bind fun m => (m.store r i y.right).map (s', ·)) 0 n (s, m)

end Verif
