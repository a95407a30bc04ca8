# Formal model of subcollider in Lean 4

The code under study is the header library in `/repo/include/subcollider` and the programs in `/repo/examples`. It is read as text only.
The model lives in `/verif/lean/Verif`; properties are listed in `properties.jsonl`, their status in
`MANIFEST.json`, and mutation attempts against the theorems in `seeded/LOG.jsonl`.

## 1. Approach

### 1.1 Numbers

Almost every observable of this library is a `float` (`Sample`), so the number model decides what the
theorems are worth. Three semantics are used and every numeric theorem says which one it is about.

* **Law-free arithmetic** (`Verif/Arith.lean`, class `Arith α`): operations without any laws. Every unit
  generator is modelled *once*, over an arbitrary `α` with `Arith α` (and `Libm α` for
  `sin`, `exp`, ...). Structural theorems (block splitting, determinism, gate logic, channel independence,
  ring-buffer bookkeeping) are proved for every such `α`, so they hold of IEEE floats, NaN included.
* **IEEE-754** (`Verif/Float/*`): `FP fmt` is a bit-exact model of binary floating point with NaN, signed
  infinities, signed zero, subnormals, overflow and round-to-nearest-even; `F32` and `F64` are
  its instances. Range and safety theorems are proved about `F32`. The four basic operations, comparisons,
  `floor`/`ceil`/`round`/`trunc`/`fmod`/`sqrt`-free conversions are *defined*; libm functions (`sin`, `cos`, `exp`, `tanh`,
  `pow`, ...) are parameters constrained only by hypotheses stated in `Verif/Float/LibmSpec.lean` (e.g. `exp`
  of a non-positive number lies in [0,1]). An instance satisfying the hypotheses is exhibited.
* **Ideal reals** (instance `Arith ℝ`): analytic statements that are only true in exact arithmetic (equal power,
  linearity, stability, convergence). Theorems about this instance say `ℝ` in their statement and their
  manifest entries say so.

### 1.2 Undefined behaviour

Out-of-range float-to-integer conversion, out-of-range array access, null or dangling dereference, signed
overflow are modelled as the outcome `none` of an `Option`-valued step ("UB"), never totalised away.
`size_t` is a natural number below 2^64 with explicit wrap-around where the code can wrap.

### 1.3 Layout

* `Verif/Float/…`   number formats, rounding, `FP`, lemmas.
* `Verif/Arith.lean` operation classes and the three instances.
* `Verif/Model/…`   the code, function by function, each definition citing file and lines.
* `Verif/Spec/…`    small specifications, independent of the model's helpers.
* `Verif/Lemmas/…`  auxiliary lemmas.
* `Verif/Props/…`   the property theorems (`C01_…`), each followed by an `example` meeting its hypotheses.

## 2. Plan per property

| id | modelled | proof |
|----|----------|-------|
| C01–C08, C12 | `BufferAllocator` at array level: table as an indexed store with checked accesses, shift loops as loops, `size_t` wrap of `numSamples*channels` | refinement of array level to a list of blocks; invariant (tiling, no adjacent free blocks, count bound) by induction over call histories with a ghost set of live buffers. C01 is **false** for requests whose float count wraps (`2^63` stereo frames): negation theorem with witness, positive theorem `_partial` under no-wrap |
| C09, C10 | `Buffer`, fill functions over a memory | direct |
| C11 | `AudioLoop` | invariant over schedules |
| C13–C16 | `EnvelopeAR`, `EnvelopeADSR` | F32 interval invariants over histories; gate logic for any `Arith`; termination by contraction with rounding error |
| C17 | all `process*` loops | generic `runTicks` lemma instantiated per UGen, any `Arith` |
| C18 | `LagLinear` incl. `int` cast UB | counting invariant (any `Arith`), no-overshoot in ℝ |
| C19 | `Lag` | hull in ℝ (float can exceed the hull by an ulp), pass-through in F32 |
| C20 | `XLine` | ℝ: closed form, monotone; F32: exact landing; negation for > 2^24 samples (`counter += 1.0f` sticks) |
| C21 | `Phasor` | ℝ: range and congruence; F32 negation witness for the open end |
| C22–C24 | oscillators | F32 interval invariants; negations outside the frequency range; C24 documented bound is false (factor 2) |
| C25–C30 | Pan2, Balance2, XFade2, Wrap, LinLin, DBAmp | ℝ identities, F32 clamp logic, negation witnesses for setter bugs and for `Wrap` returning `hi` |
| C31, C32, C36, C37 | DCBlock, OnePoleLPF, RLPF | ℝ: linear recurrences, Jury criterion |
| C33 | Downsampler | counting (any `Arith`), hull in ℝ |
| C34, C35, C50 | CombC with index safety and ownership | F32 index safety; refinement to recurrence; ownership state machine with UB (negations: uninitialised destructor, re-init leak) |
| C38, C39 | BufRd, XPlay | F32 index safety; exactness; negation witnesses |
| C40 | LFNoise2 | Hull–Dobell style period proof on `ZMod (2^32)`; F32 range |
| C41–C43 | Tape, ExampleVoice, SuperSaw | composition of the above; the rounding of the saw through magnitude bounds (`Upto`) on every intermediate value |
| C44–C47 | Moog ladders | F64/F32 ranges and ℝ algebra |
| C51 | all saturating ladders | ideal ℝ invariants (Krajeski, Oberheim, Runge-Kutta, Microtracker at low resonance by a loop gain below 1 and up to resonance 1/2 by an energy that pays for the delay in the feedback, `Props/MicrotrackerRes.lean`, and with every rounding in `Props/MicrotrackerFloat.lean`); bit-exact negation for MusicDSP by evaluation of 28 samples; Stilson is C44 |
| C48, C58 | the Faust class of `FVerbDSP`: constants, slow values, per-sample control, all delay lines | written once over an interface of delay lines; refinement of the masked arrays to unbounded ideal delays; F32 intervals for every conversion to `int` |
| C59 | the same `compute` and wrapper | relational induction over three runs sharing the control path; zero propagation in F32 |
| C60 | every clamping setter | nearest point of the range in F32, all bit patterns |
| C61 | Phasor, BufRd | bit-exact position on a dyadic grid, induction over ticks, composed with C38 |
| C62 | SinOsc, LFTri, SawDPW, LFNoise2, Phasor | periods counted from the phase signal alone; rounding error per tick bounded and summed; negations by an invariant (slow modulators) and a fixed point (phasor) |
| C63 | BufRd, LFNoise2, CombC | ideal arithmetic; the spline is specified apart (Hermite basis) and proved C¹ and exact on parabolas; each interpolator is proved to evaluate it; short delays of CombC refuted in binary32 |
| C64 | XPlay, BufRd, XFade2, LagLinear | ideal arithmetic; play head in closed form, output as a mix of two readings (C63) with the envelope and fader run on their own; induction over samples |
| C65 | XPlay | read heads on the circular recording; continuity proved except at the end of the circle, where it is refuted (iff on the loop length, and an audible witness); level swell of the default loop |
| C66 | Lag, CombC | closed form of the one-pole / impulse response from C19/C20 with `exp(-6.907755)` enclosed between 1/1000 and 0.0010000003 (Mathlib's bounds on `exp`); the documentation's 0.01 % refuted |
| C67 | EnvelopeAR, EnvelopeADSR | invariant "coefficients match times" over every history; induction over ticks against the curve `approach` and the duration `settling`; the documented durations refuted for every setting |
| C68 | RLPF, OnePoleLPF, DCBlock | `Responds` (difference to the scaled sinusoid tends to 0) for the ideal tick; transfer equation at `exp(iθ)` plus stability (C37); the gain is compared with the analog prototype `lowpass Q k` and with closed forms of the one-pole gains |
| C69 | Oberheim ladder | algebra on the ideal tick with the invariant "gains match the cutoff" over every history; uniqueness of the linear loop equation; `Responds` for the four one-poles, gain compared with `1/(1+i)` at the cutoff |
| C70 | the seven ladders | limits along the endless stream (`Near`: limsup of the distance; small-gain argument around the loop, monotone tanh stages, contraction of the cubic stage); for Improved and RKSimulation the fixed points of the tick |
| C71 | the seven ladders | C70 with `c = 0`; refuted for Krajeski (positive feedback: an invariant keeps all stages above 0.9) and Stilson (`p < -1`: sign pattern of the poles is invariant and each grows by `\|p\|` up to the saturation) |
| C72 | the file loaders of `jack_playback_example.cpp` and `jack_xplay.cpp` over the allocator model | reading as a store loop with its exact footprint; C04, C05 for success and placement; overrun refuted for three or more channels |
| C73 | `jack_playback_example.cpp` from `main` to the callback | the blocks are flattened to frames, the positions separated from the reads (`drive`, `render`); closed form in ideal arithmetic; exact half-frame grid in binary32, fixed point of the rounding at `2^23` |
| C74 | the control maps of the five programs' main loops | closed forms through `place` (pointer clamped to the screen), then range and monotonicity; in binary32 the clamp alone bounds resonance and loop points |
| C75 | `jack_example.cpp` as a state machine over blocks, typed lines and rate changes | the state after a history is expressed by counting presses and the last accepted number; invariant of C42 for the bound |
| C76 | the sample-rate callbacks | **refuted** for each program; jack_example by the idle invariant of the voice over all later histories |
| C77 | `moog_example.cpp` as a state machine | hull of the smoother, invariant of the Oberheim ladder from C51 |
| C78 | the ring of the load meter | invariant relating the ring to the list of all measurements |
| C79 | `jack_xplay.cpp` as a state machine | **refuted**: simulation between the history and the one without mouse movements |
| C80 | `Lag::tick` in binary32, fed for ever | **refuted** for long lags: every `1 - j/2^24` with `j(1-c) < 1/2` is a fixed point (the product rounds to `1-(z+j)/2^24`), monotonicity of rounding keeps every earlier value below; `_partial`: per-step rounding error summed as a geometric series |
| C81 | the fade step of `FVerbDSP::compute` driven by any requests | invariant: resting on A, on B, fading up or down by `c12`, each with the exact rounding error of the accumulated mix; arrival by counting steps against `c12 ≥ 1/(n + 1/2)`; the fades inside `compute` by induction over frames |
| C82 | both envelopes under any history of calls | invariant `Calm`: value in range, idle is zero, sustain is the level, every coefficient at least `1 - 1/(τ sr)` (`1 - exp(-x) ≤ x`); each tick moves by one coefficient step or snaps within 0.001 |
| C83 | one NaN into each unit, every later input | an invariant of the state that a NaN establishes and no input removes (a state variable is NaN); comb: in binary32 the read position always takes in the sample of age ceil(delay), so a NaN is written again each round; reverb: the smoothed predelay is monotone in binary32, so the read position takes in every sample; then the input filter and the tank line hold NaN for ever; Krajeski: `fclamp` gives a number for every argument |
| C84 | `XPlay` from `init` to silence | closed form of the held and the released ADSR level by induction over ticks; the fader at rest in the first loop length; the rest from the C64 theorem on the output |
| C85 | the callbacks of `supersaw_example.cpp` as a machine on events (block, rate change) | invariant over events: the reverb on the heap represents a DSP object whose counters have run `n` frames (C58); blocks joined by the append lemmas of the loops; **refuted** for long blocks and after 2^31 frames |
| C86 | `FVerb::process` on the explicit heap, `new`/`delete` as operations | the set of live blocks and the allocation counter followed through the call; **refuted** for a block longer than all before |
| C87 | constructors and `init` of the units | the fresh state equals (or is within `1e-10` of) the state after the documented setter calls, then the closed forms of C19-C27; **refuted** for `Phasor` (a fixed point of the wrap in binary32) and for the used space of an allocator before `init` |
| C88 | `SuperSaw` and `ExampleVoice`: `init`, setters, `tick` | every sample written as a sum over stand-alone oscillators with a frequency input (`SawDPW.swept`, `SinOsc.swept`); pitches as closed formulas over `ℝ`; **refuted** for the balance at full spread, the independence of the two noises and deep vibrato |
| C89 | `OnePoleLPF`, `Lag`, `DCBlock`: `run` of arbitrary calls, once on `F32` and once on `ℝ` | simulation: the two runs stay in the relation "finite, within `E`"; error calculus `Near`/`Rel` (Float/Near.lean), coefficient error at most `4·2^-24`, and `P·E + 13·2^-24·2^k ≤ E` for every pole `P` in use |
| C90 | `LagLinear.process` on a constant input, `XLine.tick` after `set`, on `F32` | induction over the samples: each addition or multiplication adds one rounding error to the distance (to its logarithm for XLine); freezing by `rnd_snap` (a change of less than a quarter unit in the last place is absorbed) and, for XLine, a growth factor that rounds to 1 |
| C91 | `EnvelopeADSR.isDone`, `setDoneAction` | any `Arith`: invariant linking the flag with a fold over the calls; erasing all `setDoneAction` calls changes nothing |
| C92 | `SuperSawExample.dryFrame` after `setup` | any `Arith`: the loop with one combined state is taken apart into one stream per unit; ℝ: DC blocker as a running mean, ladder bound by the slope of the half step (as in C70); binary32: held envelopes never become idle |
| C93 | EnvelopeAR and EnvelopeADSR in binary32 | release: logarithm of the level, relative rounding per sample; attack and decay: distance to the goal, error split into the last rounding (summed over `N + 1` samples) and a part that fades with the curve |
| C94 | `Model/BasicExample.lean` (the five examples of `basic_example.cpp`) | `Props/BasicExample.lean`: structure for any arithmetic by induction over the blocks; values in binary32 from C93 (envelope), a kernel evaluation of the 64 phases plus `sin_acc` (oscillator), C40 (noise) and the frame bound of the voice (peaks) |
| C95 | ExampleVoice and LFNoise2 | `Props/VoiceModulation.lean`: induction over the history of calls with a clock (rate, frames) as specification; the stretched form from a closed form of the phase over the reals. A surprise rather than a bug in a function: the default seed is used everywhere, so "random" modulation is the same in all voices |
| C96 | Pan2, Balance2, XFade2, LinLin, Wrap in binary32 | `Props/UtilityFloat.lean`: one lemma per rounded operation (relative error plus the smallest subnormal), composed by hand; sine and cosine by `sin_acc`/`cos_acc` |
| C97 | Krajeski and Oberheim ladders in double and single precision | `Props/KrajeskiFloat.lean`, `Props/OberheimFloat.lean`: rounding error of one double operation (`Float/Step64.lean`), each stage kept within a representable level (the last rounding is monotone, so the level is not exceeded), invariant over any list of calls |
| C98 | Improved and Runge-Kutta ladders in double and single precision | `Props/ImprovedFloat.lean`, `Props/RKFloat.lean`: beyond a level the saturator is constant, so every increment points inwards or is a rounding error absorbed by the spacing of the numbers there; invariant over any list of calls |
| C99 | Stability of the comb at fractional delays | `Props/CombStable.lean`: the Catmull-Rom segment read at a fixed position is passive (explicit stored energy, a sum of squares), so the loop with gain `g` has energy gain at most `1/(1-|g|)²`. False between one and two samples: the fourth interpolation point is the oldest cell, and at 1.5 samples the output grows like `(17g/16)^(n/3)`; `Props/CombShort.lean` shows the same for every delay `2 - t` in between, with the factor `1 + t²(1-t)/2`. Below one sample (`Props/CombSub.lean`, delay `1 - t`) two points are the oldest cells; on a line of odd length with negative gain an alternating input grows by `1 + t(1-t)` times the gain per length of the line. At a delay of zero the gain is one whatever the decay time, and a constant input sums up without end. `Props/CombStableFloat.lean` repeats the energy argument in binary32: the rounding of the read position moves the interpolation point by at most `(2N+3)/2^24`, everything else is a relative error, and both are absorbed as a second gain `κ`; `Props/CombStableGain.lean` adds the rounding of the gain computed from the two times; `Props/CombStableWhole.lean` treats whole delays, where reading is exact, for gains up to `1 - 2^-22` |
| C100 | Stale copies of released handles | `Props/StaleHandle.lean`: live buffers only shrink under releases and stores, so a released handle stays refused; false after an allocation, because placement depends only on which floats are taken and the same request gets the same handle back |
| C101 | Frequency response of the downsampler (exact arithmetic) | `Props/Decimation.lean`: each filter stage fed with something that settles on a sinusoid settles on that sinusoid times `onePole`; the mean over the block is a geometric sum; the size of the gain from half-angle formulas and the concavity of `sin x - r sinh(k x)`. False as documented: the fold frequency is only 14 dB down and the nominal cutoff more than 11 dB |
| C102 | Opposite input gives opposite output | `Props/Polarity.lean`: class `Polar` collects how `+ - * / fabs <` treat a change of sign, proved for `FP` (round to nearest is symmetric) and for the reals; a relation "same settings, opposite contents" is kept by every tick. Krajeski's `fmax`/`fmin` clamp needs that no NaN arises, which the bounds of C97 give |
| C103 | The reverb is stable | `Props/FVerbEnergy.lean`, `Lemmas/Energy.lean`: `FVerbDSP.step` with exact real arithmetic; the arrays are replaced by ideal delays (C48), whose lines are then the signals themselves. The controls with fixed parameters rise from 0 to their values, the modulated delays fade in once. Proved by energy: an allpass whose coefficient only grows is lossless or lossy, a one-pole lowpass with smoothed coefficient has ℓ2 gain at most `sqrt (1 + c1 / (1/2 - c1))` (storage `p (1 - p) s²`), the start-up crossfade adds at most what the diffusers delivered during it, and the loop gain `1.006 decay²` is below 1. `Props/FVerbModEnergy.lean`, `Lemmas/Crossfade.lean`: with modulation the taps follow the targets of `fadeStep`; each tap moves only while it has no weight, and the weight moves by at most `c12` per sample, so every sample of the line is read with total weight at most `1 + c12 W` where `W` is the width of the band of delays (counting argument over the times at which a sample is read); the allpass around it then has gain `swell`, and `C103_as_it_comes` evaluates this for the default parameters. `_partial`: decay at most 99.7 % (less with modulation), depth below about 5 ms, parameters not changed while running, no rounding. |
| C104 | The reverb's tail dies away exponentially | `Props/FVerbTail.lean`, `Lemmas/FVerbTail.lean`, `Lemmas/WeightedEnergy.lean`: same model as C103. The energy argument is repeated with every signal multiplied by `exp (α t / rate)`: a delay of `d` frames then has gain `exp (α d / rate)`, an allpass around it `swell`, a one-pole filter with coefficient below `A` gains `1 + (λ - 1) / (1 - λ A)`; as long as the weighted loop gain stays below 1 the weighted output is bounded by the weighted input, and silence from frame `m` on turns the weight into decay. `C104_tail_partial`: all conditions are continuous in `α` and hold at 0 under the hypotheses of C103, so some `α > 0` meets them, for all inputs at once. `C104_as_it_comes` evaluates the gains at `α = 0.7 > log 2` for the default parameters. `_partial`: the conditions of C103, diffusers below 100 %, filters above 0 Hz, no rounding. |
| C105 | Modulating the delay of a comb | `Props/CombMoving.lean`: histories of setters, resets and ticks on the `CombC` model with exact real arithmetic. A value read through the Catmull-Rom segment is at most 5/4 of the largest cell, so gains below 4/5 keep the line bounded (invariant over all histories). The bound is sharp: a line holding two samples up and two samples down, read always in the middle of an equal pair, comes back 5/4 as large; this takes a delay that alternates between `4q - 1/2` and `4q + 1/2` samples, and `C105_explodes` follows the line by induction over the ticks. `Props/CombMovingFloat.lean` repeats the bound in binary32: interpolation error below 2^-8 on a line within ±256, gain at most 0.795 through the accuracy of `expf` |
| C106 | Torn blocks | `Props/AudioLoopTorn.lean`: a session is an arbitrary interleaving of single reads through the pointer taken at the start with the operations of the double buffer model of C11. Induction over the interleaving shows the block whole while the processing side stays at most one swap ahead; beyond that the block is torn, shown for every block size and position. Assumes sequentially consistent memory |
| C107 | Modulating the low pass | `Props/RLPFPlayed.lean`: histories of setters, resets and ticks on the `RLPF` model with exact real arithmetic. For a fixed cutoff the quadratic form `z1² + 2 cos ω z1 z2 + (1+ε) z2²` falls at every tick whatever the resonance; for low resonance a tilted sum norm falls whatever the cutoff; for a gliding cutoff (`Props/RLPFGlide.lean`) the energies of neighbouring cutoffs differ by less than a tick takes away; otherwise the left eigenvector of the product of two steps with an eigenvalue beyond one shows the growth |
| C108 | The low pass in its own arithmetic | `Props/RLPFFloat.lean` on `Lemmas/RLPFEnergy.lean` and `Float/Near64.lean`: in the coordinates `z2 + cos ω z1`, `sin ω z1` a step is a damping and a rotation by ω; a slightly tilted sum of squares falls by the factor `1 − sin ω / 66` at every tick for all resonances, which outweighs the rounding errors of coefficients and steps (bit-exact binary64) as long as `sin ω ≥ 10⁻⁵`; `Props/RLPFGlideFloat.lean` adds cutoffs that glide |
| C49 | `FVerb` wrapper on an explicit heap (`new`, `delete`, double free and dangling access are UB) | refinement of every program to a memory-free specification |
| C52–C54 | XPlay buffer hand-over, bounce heads, loop-point setter | any `Arith` / ℝ / F32; all three false of the code in part, negations with witnesses |
| C55 | ExampleVoice vibrato | any `Arith`, negation with witness |
| C56 | the index loops of all `process` functions on a memory with aliasing pointers | induction, any step function |
| C57 | `reset` of every unit generator | bisimulation of the reset object and a fresh one, any `Arith` |

## 3. Trusted base

* The Lean kernel. Axioms allowed: `propext`, `Classical.choice`, `Quot.sound` (checked with `#print axioms`).
* The transcription of the C++ text into the definitions of `Verif/Model` (each cites its lines).
* Compilation assumptions: IEEE-754 binary32/binary64 with round-to-nearest-even, `FLT_EVAL_METHOD = 0`, no
  contraction into fused multiply-add, no `-ffast-math` (the build files set none), flush-to-zero off,
  64-bit `size_t`, 32-bit `int`.
* Libm: single-precision functions satisfy `LibmSpec` (ranges of `exp`, `sin`, `cos`, `tanh`; accuracy 2^-23 of `exp` on
  non-positive arguments and of `sin`, `cos` on [-4, 4]) and, for XLine, `LogSpec` (`expf` and `logf` within 2^-23 relative on bounded arguments, `expf(x)` = 1 for |x| <= 2^-26) and, for SuperSaw, `PowSpec` (`powf(2, x)` in [1/2, 2] for x in
  [-1, 1]; `sqrt` in [2, 4] on [4, 16]) and, for its loudness, `PowAcc` (`powf(2, x)` within 2^-22 and `sqrtf` within 2^-23, relative, on the same ranges); double-precision functions satisfy `Libm64Spec`, for C97 also `Pow64Acc` (squares, cubes and fourth powers of numbers up to 8 within 2^-40, relative, and exact at zero) and `Tan64Spec` (`tan x` at most 0.99 for x up to 0.78), for C108 `SinCos64` (`sin` and `cos` within 2^-50 on [0, 3.15]), for C98 `Tanh64Sat` (`tanh` exactly 1 or -1 beyond 22), for C102 `Tanh64Odd` and `Tanh32Odd` (`tanh(-x)` is `-tanh(x)` up to the sign of a zero, and zero goes to zero). These classes
  are shown consistent by an instance that rounds the mathematical function correctly. Theorems that use them carry
  the class as an instance argument.
* Heap of `FVerb` and `CombC`: `new` succeeds and never returns an address handed out before; the left and right arrays given to
  `FVerb::process` do not overlap. Freeing null is allowed, freeing a dead or foreign address is UB.
* The example programs (`Verif/Model/Examples.lean`): the file is a parameter (rate, channels, frames, samples), `sf_read_float` and
  `sf_readf_float` store what the file has, one sample after the other; JACK calls back with any block sizes, the mouse and the
  keyboard are a sequence of events between blocks.
* Not modelled: thread-level races and memory ordering, process start-up, error messages and ports of the examples, performance, the
  Faust UI glue (`buildUserInterface`, metadata).

## 4. Outcome per property

The theorem names are in `MANIFEST.json`. Theorems whose names end in `_partial` prove part of the statement; theorems marked **negative** in their comment refute the full statement for the unchanged code with a concrete witness.

* **C01** Live pool buffers never overlap and stay inside the pool — *partial*. false of the code when numSamples*channels wraps size_t (C01_wrapped_request_escapes: 2^63 stereo frames); proved for all histories whose requests do not wrap
* **C02** Pool accounting is exact — *proved*. histories whose requests do not wrap size_t
* **C03** Releasing everything restores the pristine pool — *proved*. histories whose requests do not wrap size_t
* **C04** Allocation succeeds exactly when a large enough gap exists — *proved*. histories whose requests do not wrap size_t
* **C05** First fit returns the lowest feasible address — *proved*. histories whose requests do not wrap size_t
* **C06** Release accepts exactly live block starts — *proved*. histories whose requests do not wrap size_t
* **C07** Allocator calls on one buffer never disturb another — *proved*. histories whose requests do not wrap size_t
* **C08** The block table is never overrun — *proved*. all histories, wrapped requests included
* **C09** Fill then read returns the data — *proved*. any arithmetic; source memory outside the buffer
* **C10** Buffer accessors are memory safe and consistent — *partial*. the clause about invalid buffers is false for a bad channel count (C10_bad_channels_read); proved for null and empty buffers
* **C100** A released buffer handle stays dead — *partial*. Proved as long as nothing is allocated in between; false after an allocation of the same size (C100_stale_release). Requests whose float count wraps around are excluded as in C01.
* **C101** The downsampler keeps the band and keeps out what would fold back into it — *partial*. exact arithmetic; false as documented: aliasing is reduced to a fifth, not prevented (C101_aliases_sharp), and more than 11 dB are lost at the nominal cutoff (C101_cutoff_loss)
* **C102** The filters have no preferred polarity — *proved*. one proof for floating-point and exact arithmetic, over the laws of sign change; tanh is assumed odd (Tanh64Odd, Tanh32Odd), with a correctly rounded witness
* **C103** The reverb is stable: it never turns a finite burst into a growing tail — *partial*. Exact arithmetic, arrays of the code (through C48/C59): ℓ2 gain at most 5 (1 + 1/(1 - density)) / (1 - 1.006 decay²), by losslessness of the allpasses with rising coefficients, a storage function for the smoothed one-pole filters and a small-gain argument around the two halves. With modulation: the two crossfaded taps of a moving delay read every sample with total weight at most 1 + band / crossfade, so the allpass around them has a gain slightly above 1; a new reverb (default parameters) has l2 gain at most 108 at every rate from 8 kHz. Missing: deep modulation, decays between 99.7 % and 100 %, parameter changes while running, rounding.
* **C104** The reverb's tail dies away exponentially — *partial*. Exact arithmetic. Energy argument of C103 with exponentially weighted signals: some rate and constant for all inputs under the conditions of C103 with diffusers below 100 % and filters above 0 Hz; for the default parameters the bound is 350 times the loudness of the input, halving every second, at every rate from 8 kHz. Missing: deep modulation, longer decays, parameter changes while running, rounding.
* **C105** The delay of a comb can be modulated safely — *partial*. False of the code: from a gain of 4/5 on (decay times beyond about 31 times the delay, which includes the default decay of one second for delays below 32 ms) moving the delay to and fro by one sample makes a short burst grow for ever, for every sample rate and every delay of 4q samples. Proved for all histories whose gains stay below 4/5, for delays of any length, in ideal arithmetic; and in single precision with every rounding for decay times up to 30 times the delay (expf assumed accurate to 2^-23).
* **C106** A block read by the audio side is never torn — *partial*. False as it stands: the swap does not wait for the reader. C106_torn shows that a swap followed by clearProcessingBuffer silences the rest of the block being read, for every block, size and position; C106_leaks that the next stores are heard at once. C106_whole_partial proves the claim for every interleaving with at most one swap and no store or clear after it while the block is read. Single loads, stores and calls are atomic and seen in order (sequential consistency is assumed; the index is a volatile uint8_t, which alone does not guarantee that).
* **C107** The low pass can be played: moving its cutoff and resonance keeps it stable — *partial*. True for the resonance: with any fixed cutoff every history of resonances is stable (C107_resonance). For the cutoff it holds as long as 2 Q stays below |tan w|, w the cutoff in radians per sample (C107_cutoff_partial), and is false beyond: with tan w1 |tan w2| < 4 Q^2 a cutoff that alternates between w1 and w2 from sample to sample makes a single click grow beyond every bound (C107_explodes), already for the default resonance and any two cutoffs below 0.1 and above 0.4 of the sample rate (C107_explodes_butterworth). At every resonance it also holds for a cutoff that moves by at most sin^2 w / 300 from sample to sample (C107_glide_partial). Open: modulation that is faster than this but gentler than the alternation. Ideal arithmetic.
* **C108** The resonant low pass never blows up in the arithmetic it is computed in — *proved*. bit-exact double and single precision; sin and cos assumed accurate to 2^-50 on [0, 3.15] (SinCos64, with a correctly rounded witness). Every sample is finite and at most 2^22 (C108_finite), at most 512 with cutoffs up to a quarter of the sample rate (C108_dark). In these two the cutoff is changed only together with a reset; a cutoff that glides by at most sin^2 w / 300 from sample to sample while the filter rings keeps every sample below 2^45 (C108_glide). C107 shows that jumping about with it can make the filter explode.
* **C11** Double buffering publishes exactly the processed block — *proved*. any sample type; sequential interleavings (thread-level races are outside the model)
* **C12** Reset and uninitialised allocator behaviour — *proved*. 
* **C13** Attack-release envelope output stays in [0,1] — *proved*. IEEE binary32 model, libm constrained by LibmSpec
* **C14** ADSR envelope output stays in [0,1] — *proved*. non-NaN arguments; C14_nan_sustain_escapes shows the NaN exclusion is needed
* **C15** Envelope stages follow gate edges only — *proved*. 
* **C16** Envelopes always finish — *partial*. Binary32. Release always finishes. The attack part is false of the code for slow attacks, and exactly these: it finishes if and only if the coefficient is at most 1-501/2^24 (C16_adsr_attack_iff), which is attack times below about 33500 samples, 0.7 s at 48 kHz (C16_adsr_attack_time). The decay finishes for coefficients up to 1-2^-15 and stalls above 1-2^-17.
* **C17** Block processing equals per-sample processing for any block split — *proved*. every unit generator, in every arithmetic; C17_memory states the split for the index loops on memory with arbitrary pointers, C56 ties those loops to the list functions
* **C18** LagLinear ramps land exactly on the target — *partial*. landing and length proved in binary32; the straight line in ideal arithmetic; in binary32 the ramp can overshoot (C18_float_overshoots) and a very long ramp is undefined behaviour (C18_long_ramp_undefined)
* **C19** Lag output never leaves the hull of its history — *partial*. ideal arithmetic proved; in binary32 the exact hull is false by an ulp (C19_float_leaves_hull), symmetric power-of-two ranges are kept (C19_range_float)
* **C20** XLine finishes exactly at its end value — *partial*. shape proved in ideal arithmetic, completion in binary32 up to 2^24 samples; beyond that the line never finishes (C20_long_line_never_done)
* **C21** Phasor output stays in its loop range — *partial*. ideal arithmetic proved; in binary32 the open end is reached (C21_hits_end), the closed range from 0 is kept
* **C22** SinOsc phase and output stay bounded — *proved*. binary32 for 0 <= f <= sr/2; the two runaway theorems show the frequency range is needed
* **C23** LFTri stays in [-1,1] — *proved*. bounds in binary32, shape and continuity in ideal arithmetic
* **C24** SawDPW amplitude bound — *partial*. the documented bound 1 is false (C24_documented_bound_false, and a frequency change alone can spike above 80: C24_frequency_change_spike); the steady-state bound 2 and the bound 2f/g across a frequency change from f to g are proved in ideal arithmetic, and in single precision with the rounding (at most 2.005 for 20 Hz at 48 kHz)
* **C25** Pan2 is equal power — *proved*. equal power exactly in ideal arithmetic, with an explicit error bound in binary32
* **C26** Balance2 is equal power and its setters are consistent — *partial*. false of the code after setLevel(0) (C26_mute_loses_position) and in binary32 (C26_setLevel_not_inverse); proved for nonzero levels in ideal arithmetic
* **C27** XFade2 is equal power and its setters are consistent — *partial*. setLevel loses the position after level 0 and the right end leaks in binary32; the rest is proved in ideal arithmetic
* **C28** Wrap maps into the half-open range — *partial*. proved in ideal arithmetic; false in binary32 (C28_wrap_hits_hi, C28_wrap_leaves_range)
* **C29** LinLin maps the source range affinely onto the target range — *partial*. proved in ideal arithmetic; in binary32 the low end is exact and the high end is not (C29_high_end_inexact)
* **C30** DBAmp turns sums of decibels into products of gains — *proved*. ideal arithmetic
* **C31** DC blocker removes any constant offset — *proved*. ideal arithmetic
* **C32** One-pole low pass is a contraction onto the input hull — *proved*. ideal arithmetic, and power-of-two ranges in binary32
* **C33** Downsampler conserves its contract — *proved*. control flow in any arithmetic, hull in ideal arithmetic
* **C34** CombC never touches memory outside its delay line — *partial*. false for NaN delay times (C34_nan_delay_undefined) and for absurd sample rates (C34_hang: the wrap loop never ends); proved for sample rates and line lengths up to 2^22, all histories, inputs and decay times
* **C35** CombC implements the comb recurrence — *proved*. recurrence in ideal arithmetic for every whole delay of at least one sample, and to the last bit in binary32 for inputs within one; gain bound in binary32; C35_zero_delay_is_longest describes delay 0
* **C36** Linear filters are linear and silent on silence — *proved*. Linearity in ideal arithmetic (rounding makes it false in floats); silence bit-exact.
* **C37** RLPF is stable and has unit gain at DC — *proved*. ideal arithmetic
* **C38** BufRd never reads outside the buffer and interpolates — *partial*. Safety for every finite phase, whole-phase reads, clamping and mono = left proved in single precision; linear interpolation between neighbours in single precision for phases inside the buffer (up to 2^24 frames) and for every phase in ideal arithmetic; periodicity in ideal arithmetic. Negations: NaN phase is an undefined conversion, a tiny negative phase rounds up to numSamples and reads silence, cubic interpolation in clamp mode wraps to the other end of the buffer.
* **C39** XPlay stays inside its loop window and is silent without material — *proved*. silence without material in every arithmetic; window invariant over all call histories and read positions in exact arithmetic; in single precision every read is inside the buffer for every history (buffers up to 2^40 frames), and bounce positions stay between the loop points; a bounce position equal to the buffer end is wrapped by the reader to the first frame (C39_bounce_turn_reads_first_frame)
* **C40** Noise generator is a full-period deterministic stream — *proved*. 
* **C41** Tape saturation is bounded — *proved*. output range in binary32 for finite sane inputs, follower hull in ideal arithmetic
* **C42** ExampleVoice is bounded and silent when idle — *proved*. Single precision, rounding included, for every history of calls whose parameters are in the stated ranges; a NaN amplitude is shown not to be clamped.
* **C43** SuperSaw is silent when idle and bounded — *partial*. silence and finiteness are proved bit-exactly for every history with pitches from 1 Hz to a quarter of the sample rate, the bound 2*sqrt(7)*vibrato ratio*envelope in ideal arithmetic and, with the rounding, in single precision; for every history it is false: a pitch of 0 Hz gives NaN while idle (C43_zero_frequency_nan)
* **C44** Stilson ladder output is limited and its table lookups are in range — *proved*. Bit-exact floats. Table indexing in range in every arithmetic; setters defined for |cutoff| <= 64 sample rates, undefined (proved witness) for 1e9 Hz at 48 kHz; every output of every call sequence within 0.95 even for NaN/inf inputs; a NaN input mutes the filter for good.
* **C45** Ladder setters are well defined and order independent — *partial*. Order independence proved for six ladders in every arithmetic; false for Krajeski (setCutoff does not refresh gRes: proved counterexample) where only setting cutoff before resonance is right. Divisors proved bounded away from zero in ideal arithmetic and, with every rounding, in double precision (MusicDSP for every finite cutoff, Oberheim up to 0.45 of the sample rate, Improved for every cutoff that is not NaN).
* **C46** Ladders map silence to silence — *proved*. Bit-exact floats, libm under Libm64Spec. All seven ladders, fresh or after any signal plus reset, map silence to exact silence for ordinary settings and for any finite coefficients; reset forgets the signal in every arithmetic.
* **C47** RK ladder saturator and gain limits — *proved*. Odd, monotone, bounded by 2 in ideal arithmetic after every call history; bounded by 2+2^-48 in double for every non-NaN; make-up gain in [0.828,5] bit-exact for every finite cutoff and any sample rate; oversampling at least 1; state slew bound.
* **C48** Reverb delay reads stay inside their delay lines — *proved*. Every int sample rate (float DSP): all integer delays are smaller than their lines, and for every history of blocks and clears the run on the masked arrays returns exactly what unbounded ideal delays return. Arithmetic is bit-exact binary32.
* **C49** Reverb wrapper lifecycle is safe — *partial*. Explicit heap with pointers. For all programs without copies the wrapper is exactly the memory-free specification, frees everything, and clamps all non-NaN parameters. False in general: an empty first block dereferences null, copies double free, NaN is not clamped (all proved).
* **C50** CombC delay-line ownership is safe — *partial*. false of the code: destruction without init, repeated init and copies are unsafe; proved for histories with one init per object and no copies
* **C51** Saturating ladder filters stay bounded — *partial*. Ideal arithmetic, every input and every history of setter calls: Krajeski |out| <= 1 for cutoffs up to 0.3 of the sample rate (3.85 up to Nyquist), Oberheim <= max 1 (tan^4), Runge-Kutta <= 5(3 + 16 pi top/sr) for any drive and oversampling, Microtracker for resonance up to one half (35.5 (M + 17.4) for inputs up to M; a sharper bound below 0.2499). False of MusicDSP: a full-scale square wave at cutoff 20 kHz, 44.1 kHz and full resonance gives NaN for ever after 28 samples (bit-exact, sin only assumed accurate to one ulp). With every rounding: Krajeski and Oberheim (C97), Improved <= 88.75 and Runge-Kutta <= 160 (C98), Stilson (C44), Microtracker up to resonance one half (same bound, inputs up to 16, cutoffs zero or at least 2^-10 Hz). Missing: Microtracker at resonances above one half.
* **C52** XPlay plays the buffer it was given — *partial*. false of the code as stated: init() re-initialises the reader, which forgets its buffer while the player still holds one, so the player is mute until setBuffer is called again (C52_init_drops_buffer, C52_mute); proved for the order init then setBuffer
* **C53** XPlay bounce heads travel in opposite directions — *partial*. false of the code: in bounce mode both heads read the same position for every state; the negation is proved for all states
* **C54** Changing XPlay's loop points always returns — *partial*. false of the single-precision code: after an ordinary history setStartEnd loops forever because adding the window no longer changes the head (C54_setStartEnd_hangs); it returns for every state in exact arithmetic
* **C55** Vibrato depth zero means no vibrato — *partial*. False as stated: setting the depth to zero leaves the oscillator at the last modulated pitch for ever. Proved when the frequency is set after the depth.
* **C56** Block processing touches exactly the block and allows in-place use — *proved*. the four loop shapes of the process functions on a memory with aliasing pointers, any sample type and any tick function
* **C57** reset forgets the signal — *partial*. proved for every unit generator except SuperSaw, whose reset keeps the vibrato phases and nothing else (C57_supersaw_partial, C57_supersaw_reset_remembers), and ExampleVoice with its vibrato off (C55)
* **C58** Reverb never leaves defined behaviour under its contract — *proved*. Proved for every program keeping the stated contract; every clause of the contract is shown to be needed, the sample rate of 23 Hz included (C58_low_rate: undefined at every rate up to 22 Hz).
* **C59** Reverb is linear and silent on silence — *proved*. linearity in ideal arithmetic (rounding makes it false in floats), on the masked arrays, with definedness for sample rates from 45 Hz; silence bit-exact for all programs of the wrapper with non-NaN setter arguments and rates from 45 Hz
* **C60** Setters store the nearest value of the documented range — *partial*. Proved bit-exactly for every non-NaN argument and every state for all clamping setters. False in three places: NaN is stored as it is by every two-sided clamp (C60_nan_stored), CombC::init stores a delay of 0.2 s even above the maximum delay (C60_comb_init_exceeds), XPlay ignores loop-point changes below 1e-9 (C60_xplay_tiny_change_ignored).
* **C61** Sample playback does not drift — *proved*. Bit-exact for binary32; every number of ticks; dyadic rates r/2^d with N*2^d + |r| <= 2^24. For other rates the position is rounded at every tick: see C62.
* **C62** Oscillators hold their frequency — *proved*. Bit-exact for binary32, any number of samples; periods are counted as drops of the phase (LFNoise2: points drawn from the generator). The three last theorems prove the stated limits: modulators below sr*2^-25 Hz and a long phasor stop for ever.
* **C63** The cubic interpolators draw one smooth curve — *proved*. Ideal arithmetic (rounding left out) except the last theorem, which refutes delays below two samples in binary32.
* **C64** XPlay plays at the requested pitch and mixes as designed — *proved*. Ideal arithmetic; for states in the window with derived members up to date, which C39_window proves of every history.
* **C65** XPlay's loop is seamless — *partial*. False of the code. Proved: no seam except at the end of the circle of two loops; there the fading head jumps unless the loop is the whole recording or half of it (C65_jump, heard in C65_heard); the default loop swells by 3 dB (C65_level).
* **C66** The times of Lag and CombC are 60 dB times — *proved*. over the reals; the 60 dB reading is proved, the percentage in the documentation of Lag is refuted
* **C67** An envelope stage lasts the time it was set to — *partial*. false as documented; the exact durations over the reals are proved
* **C68** Cutoff and resonance mean what they say: frequency responses of the linear filters — *proved*. exact arithmetic; heard_process ties the endless stream to process, sinusoid_polar to the usual way of writing a sinusoid
* **C69** The delay-free loop of the Oberheim ladder is solved exactly and its poles are tuned exactly — *proved*. exact arithmetic
* **C70** A constant input comes out at a known level — *partial*. exact arithmetic; missing: high resonance (where the loop may oscillate), loud inputs for Stilson and MusicDSP, and for Improved and RKSimulation that the rest is reached (the rest level itself is proved)
* **C71** A ladder falls silent after its input does — *partial*. the full statement is false: two ladders latch at full scale (witnesses proved); the partial theorems give ranges of settings in which the output dies away; exact arithmetic
* **C72** A loaded sound file is in the buffer, and only there — *partial*. any sample type; false of the code for three or more channels (two witnesses: other buffers are overwritten, or the pool is left); proved for mono and stereo files in every reachable state of the allocator
* **C73** The player example plays a file at its own speed — *partial*. proved in ideal arithmetic for every file, block sequence and control; in binary32 exact for files of at most 2^23 frames at the server rate, and false for longer files (two negations); missing: a binary32 error bound for other rates and short files
* **C74** The mouse controls cover the announced ranges — *proved*. Exact formulas in ideal arithmetic (the maps use log and exp); single-precision ranges for resonance and loop points. C74_right_edge is the negative result.
* **C75** The keyboard example plays what was typed — *proved*. What every block plays after every history; two presses between blocks are lost (negative result). The bound needs pitches up to a quarter of the rate.
* **C76** A change of the sample rate keeps the sound — *proved*. The claim is false of the code; these are the negations, one per program.
* **C77** The filter example never exceeds 0.3 — *proved*. Ideal arithmetic; follows the Oberheim bound C51.
* **C78** The load meter shows the mean of the last hundred blocks — *proved*. Ideal arithmetic; that no access leaves the ring is part of the statement.
* **C79** The mouse moves the loop points of the loop player — *proved*. The claim is false of the code; the negation is proved for every history.
* **C80** A smoothed parameter arrives — *partial*. The claim is false of the code for long lag times (negation proved with a documented initialisation); the bound that holds has a floor of 2^-22/(1-coeff). Binary32; exp assumed accurate to 2^-23.
* **C81** The reverb's delay modulation never clicks — *proved*. The fade in bit-exact binary32, accumulated rounding included; the mixing of the two taps in ideal arithmetic.
* **C82** Envelopes never click — *proved*. Ideal arithmetic.
* **C83** A bad sample does not silence a unit for ever — *partial*. the claim is false of the code; the negation is proved unit by unit, for all continuations; recovery is proved of LagLinear, LFNoise2 and the Krajeski ladder. The conditions on tanh and sin say that they pass NaN on, as C requires.
* **C84** The player starts, holds and stops with its gate — *proved*. ideal arithmetic; loop mode. The first pass through the loop is described in full; the passes after it are C64 and C65. That the binary32 fade-in of long fades never completes is C16
* **C85** The super-saw program processes every block JACK asks for — *partial*. false for blocks over 8192 frames (C85_long_block) and from 2^31 frames on (C85_half_day); proved for everything else. Atomic loads of the controls are inputs of the model, one pair per frame; libm is a parameter of assumed accuracy
* **C86** No heap in the audio thread — *partial*. false when a block is longer than all before (C86_allocates, C86_first_block); proved for all other blocks
* **C87** Units work before any setter is called — *partial*. false for Phasor (C87_usage_example_stuck, binary32) and for the used space of an allocator before init (C87_used_before_init)
* **C88** The synthesizers play the pitch, detuning, vibrato and placement that were set — *partial*. pitches, detuning, vibrato and mono sum proved in ideal arithmetic, the parts of ExampleVoice in any arithmetic; balance at full spread, independence of the noises and deep vibrato refuted
* **C89** Rounding errors do not pile up in the one-pole filters — *proved*. binary32 run against the run of the same program over the reals, under LibmSpec (exp within 2^-23 on non-positive arguments); OnePoleLPF: 2 <= sr <= 2^20, any finite cutoffs (f = 1 asks nothing); Lag: lag times non-positive or at least 2^-40 s and at most N <= 2^20 samples; DCBlock: cutoffs non-positive or at least f >= sr/2^20
* **C90** How far ramps and lines drift from the exact curve, and below which slope they stand still — *proved*. binary32; XLine under LogSpec (expf and logf within 2^-23 relative, expf of arguments up to 2^-26 rounds to 1), multiplier 1 and offset 0; the line length is the rounded product of duration and sample rate
* **C91** An ADSR envelope reports the end of a note, whatever done action is set — *proved*. every number format; the second theorem is negative towards the documentation: the done action is stored and never read
* **C92** What the super-saw program plays: three held notes, two separate channels, no DC, a fixed bound — *proved*. signal path and shared phases for every number format, notes in binary32, DC and bound in exact arithmetic; the reverb that follows is in C85 and C86
* **C93** In single precision the stages of an envelope last as long as their curves say — *proved*. binary32 counterpart of C67; exp and log are parameters with LibmSpec and LogSpec (one unit in the last place); settleTol states the tolerance; slower attacks and decays than 2^15 samples may never end, see C16
* **C94** What the basic example program computes and prints — *proved*. The structure for any arithmetic, block size and number of passes; the values in binary32 with all rounding for any libm meeting LibmSpec and LogSpec (the noise needs none).
* **C95** The modulators of all example voices walk over the same random points — *proved*. Any arithmetic, except C95_stretched, which is about exact arithmetic (in binary32 the phases of the two generators are rounded differently).
* **C96** Panning, balancing, crossfading, range mapping and wrapping are accurate in single precision — *proved*. Binary32 with all rounding. Magnitudes: samples up to 2^60 (Pan2 2^100), levels up to 2^40, LinLin and Wrap arguments up to 2^30 with ranges of at least 2^-30. The exact ends are lost to rounding (C27, C28, C29); this says by how much.
* **C97** The Krajeski and Oberheim ladders are bounded in the arithmetic they are computed in — *proved*. bit-exact double and single precision; libm assumed by Libm64Spec, Pow64Acc (pow of small integer exponents accurate to 40 bits, exact at zero) and Tan64Spec (tan x ≤ 0.99 up to 0.78), all with a correctly rounded witness
* **C98** The Improved and Runge-Kutta ladders are bounded in the arithmetic they are computed in — *proved*. bit-exact double and single precision; Improved assumes Libm64Spec and Tanh64Sat (tanh is exactly 1 or -1 beyond 22), with a correctly rounded witness; Runge-Kutta uses no library function
* **C99** CombC is stable for every delay and decay time — *partial*. Proved for a delay of one sample and for all delays of at least two samples in ideal arithmetic; the claim is false at every delay strictly between one and two samples (C99_unstable_between; C99_explodes at 1.5) and, on lines of odd length with negative decay times, at every delay below one sample (C99_explodes_below, C99_unstable_below) and at a delay of zero (C99_zero_delay_grows). In binary32 with every rounding (C99_energy_float_partial; C99_stable_float_partial in terms of the delay and decay times alone) for delays of at least two samples and gains below 1 - (L + 36) / 2^20, L the length of the line in samples: below 0.99 for the default line of 0.2 s at 48 kHz; for whole delays from one sample on and gains below 1 - 2^-22 (C99_whole_float_partial). Missing: delays below one sample on lines of even length or with positive decay times at gains above 4/5, gains between 4/5 and the threshold of C99_explodes_between for delays between one and two samples, binary32 at gains closer to one.
