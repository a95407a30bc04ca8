{"id": "C01", "title": "Live pool buffers never overlap and stay inside the pool", "statement": "After any sequence of init/allocate/release/reset calls on a BufferAllocator, every valid Buffer that was handed out and not yet released occupies numSamples*channels floats that lie entirely inside the pool, and no two such buffers share a float.", "quantifier": "every pool size and block-table size, every finite history of allocator calls with every argument value", "why_tests_cant": "overlap needs a particular interleaving of splits, merges and table-full grants; the number of histories is unbounded", "anchors": ["include/subcollider/BufferAllocator.h: BufferAllocator::init, allocate, release, mergeAdjacentFreeBlocks, reset"]}
{"id": "C02", "title": "Pool accounting is exact", "statement": "In every reachable initialised state freeSpace() + usedSpace() = poolSize(), freeSpace() is the number of floats not covered by any block in use, and usedSpace() is at least the total number of floats requested by the live buffers.", "quantifier": "every reachable allocator state; histories whose requests have a float count n*ch that fits size_t (requests that wrap are the subject of C01)", "why_tests_cant": "a drift of one float per split or merge would only show after particular histories", "anchors": ["include/subcollider/BufferAllocator.h: freeSpace, usedSpace, allocate, release"]}
{"id": "C03", "title": "Releasing everything restores the pristine pool", "statement": "Whatever was allocated and in whatever order it is released, once no buffer is live the allocator again has exactly one block and poolSize() free floats, and an allocation of the entire pool succeeds.", "quantifier": "every history ending with no live buffer; histories whose requests have a float count n*ch that fits size_t (requests that wrap are the subject of C01)", "why_tests_cant": "release orders grow factorially", "anchors": ["include/subcollider/BufferAllocator.h: release, mergeAdjacentFreeBlocks"]}
{"id": "C04", "title": "Allocation succeeds exactly when a large enough gap exists", "statement": "allocate(n, ch) on an initialised allocator with n > 0 and ch in {1,2} returns a valid buffer if and only if some run of n*ch consecutive pool floats is disjoint from every block in use; in particular free memory is never lost to unmerged neighbours.", "quantifier": "every reachable state and every request; histories whose requests have a float count n*ch that fits size_t (requests that wrap are the subject of C01)", "why_tests_cant": "fragmentation depends on unbounded histories", "anchors": ["include/subcollider/BufferAllocator.h: allocate, mergeAdjacentFreeBlocks"]}
{"id": "C05", "title": "First fit returns the lowest feasible address", "statement": "A successful allocate(n, ch) returns the lowest offset p such that the floats p .. p+n*ch-1 are all unused before the call.", "quantifier": "every reachable state and every request; histories whose requests have a float count n*ch that fits size_t (requests that wrap are the subject of C01)", "why_tests_cant": "needs comparison against all candidate offsets in all states", "anchors": ["include/subcollider/BufferAllocator.h: allocate"]}
{"id": "C06", "title": "Release accepts exactly live block starts", "statement": "release(buf) returns true if and only if buf.data points at the first float of a block in use; otherwise it returns false and changes nothing (double release, interior pointer, foreign pointer, null, uninitialised allocator).", "quantifier": "every reachable state and every Buffer value, including forged ones; histories whose requests have a float count n*ch that fits size_t (requests that wrap are the subject of C01)", "why_tests_cant": "forged and stale handles form an unbounded set", "anchors": ["include/subcollider/BufferAllocator.h: release"]}
{"id": "C07", "title": "Allocator calls on one buffer never disturb another", "statement": "allocate and release (of another buffer) leave every other live buffer live, at the same place, with the same sample contents; filling a live buffer changes no sample of any other live buffer.", "quantifier": "every reachable state with at least two live buffers and every call; histories whose requests have a float count n*ch that fits size_t (requests that wrap are the subject of C01)", "why_tests_cant": "non-interference quantifies over all pairs of buffers and all contents", "anchors": ["include/subcollider/BufferAllocator.h: allocate, release, fillMono, fillStereo, fillStereoInterleaved"]}
{"id": "C08", "title": "The block table is never overrun", "statement": "Starting from init, no allocator call reads or writes block metadata outside the MaxBlocks-entry table, and blockCount() stays between 1 and MaxBlocks; when the table is full an allocation still succeeds by handing out the whole free block.", "quantifier": "every MaxBlocks >= 1, every history", "why_tests_cant": "out-of-bounds writes are undefined behaviour, which a passing test does not exclude", "anchors": ["include/subcollider/BufferAllocator.h: allocate (shift loop), mergeAdjacentFreeBlocks (shift loop)"]}
{"id": "C09", "title": "Fill then read returns the data", "statement": "After fillMono / fillStereo / fillStereoInterleaved of a valid buffer of the right format, getSample / getStereoSample return the source data for the first min(count, numSamples) frames and the previous contents for the rest; a buffer of the wrong format is rejected and left unchanged; fillStereo equals fillStereoInterleaved of the interleaved source.", "quantifier": "every buffer size, every count, every source contents", "why_tests_cant": "round trip for all lengths and contents", "anchors": ["include/subcollider/BufferAllocator.h: fillMono, fillStereo, fillStereoInterleaved", "include/subcollider/Buffer.h: getSample, getStereoSample"]}
{"id": "C10", "title": "Buffer accessors are memory safe and consistent", "statement": "getSample and getStereoSample read only inside the buffer's numSamples*channels floats, return zero for every index at or beyond numSamples and for invalid buffers; a mono buffer gives left = right = getSample; a stereo buffer's getSample is the left channel.", "quantifier": "every buffer, every index", "why_tests_cant": "all indices and sizes", "anchors": ["include/subcollider/Buffer.h: isValid, totalFloats, getSample, getStereoSample, duration"]}
{"id": "C11", "title": "Double buffering publishes exactly the processed block", "statement": "In AudioLoop the output and processing buffers are always different buffers; writes to the processing buffer never change what the audio side sees until swapBuffers, after which the audio side sees exactly the block written; buffers are silent after init.", "quantifier": "every interleaving of writes, clears and swaps", "why_tests_cant": "all schedules", "anchors": ["include/subcollider/AudioLoop.h: AudioLoop::init, getOutputBuffer, getProcessingBuffer, clearProcessingBuffer, swapBuffers"]}
{"id": "C12", "title": "Reset and uninitialised allocator behaviour", "statement": "Before init every allocate returns an invalid buffer and every release returns false; init and reset leave a single free block covering the pool with all samples zero, and reset keeps the sample rate.", "quantifier": "every prior state", "why_tests_cant": "every history before the reset", "anchors": ["include/subcollider/BufferAllocator.h: BufferAllocator, init, reset, allocate, release"]}
{"id": "C13", "title": "Attack-release envelope output stays in [0,1]", "statement": "Once initialised, whatever finite or infinite attack and release times are set and whatever trigger/release/setGate/tick/process calls are made in any order, every EnvelopeAR output is a number in [0,1] (IEEE single precision, rounding included).", "quantifier": "every finite history of calls and every non-NaN time argument", "why_tests_cant": "unbounded histories and 2^32 parameter values", "anchors": ["include/subcollider/ugens/EnvelopeAR.h: init, setAttack, setRelease, trigger, release, setGate, tick"]}
{"id": "C14", "title": "ADSR envelope output stays in [0,1]", "statement": "Once initialised, for every history of setAttack/setDecay/setSustain/setRelease/gate/tick calls with non-NaN arguments, every EnvelopeADSR output is a number in [0,1] (IEEE single precision).", "quantifier": "every finite history of calls", "why_tests_cant": "unbounded histories", "anchors": ["include/subcollider/ugens/EnvelopeADSR.h: init, setAttack, setDecay, setSustain, setRelease, gate, tick"]}
{"id": "C15", "title": "Envelope stages follow gate edges only", "statement": "For both envelopes the stage changes caused by setGate/gate depend only on gate edges: repeating the same gate value is a no-op, a rising edge enters attack from any stage without resetting the level, a falling edge enters release from any non-idle stage; an idle envelope outputs exactly 0 until the next rising edge.", "quantifier": "every reachable state and every gate sequence", "why_tests_cant": "all gate sequences", "anchors": ["include/subcollider/ugens/EnvelopeAR.h: setGate, trigger, release, tick", "include/subcollider/ugens/EnvelopeADSR.h: gate, tick, isDone"]}
{"id": "C16", "title": "Envelopes always finish", "statement": "With the gate held low and a release coefficient bounded away from one, a finite number of ticks brings either envelope to the idle stage with value exactly 0; with the gate high, attack reaches value exactly 1 in finitely many ticks, and decay reaches the sustain level. (Attack and decay are false of the code for slow settings; the exact line is proved for the attack.)", "quantifier": "every reachable state and every coefficient below the stated bound", "why_tests_cant": "termination for every state", "anchors": ["include/subcollider/ugens/EnvelopeAR.h: tick", "include/subcollider/ugens/EnvelopeADSR.h: tick"]}
{"id": "C17", "title": "Block processing equals per-sample processing for any block split", "statement": "For every unit generator, process(n+m) produces the same samples and final state as process(n) followed by process(m), and equals n+m calls of tick; processAdd adds exactly the samples process would write and processMul multiplies by them.", "quantifier": "every state, every split of every length, every sample contents, every arithmetic (including NaN and rounding)", "why_tests_cant": "all block sizes", "anchors": ["include/subcollider/ugens/*.h: process, processAdd, processMul", "include/subcollider/ExampleVoice.h: process, processAdd"]}
{"id": "C18", "title": "LagLinear ramps land exactly on the target", "statement": "After the target changes while time is fixed, LagLinear reaches exactly the target after max(1, round(time*sampleRate)) ticks, stays there until the target changes again, and never overshoots.", "quantifier": "every current value, target, time and sample rate within the stated ranges, every later number of ticks", "why_tests_cant": "all ramp lengths and values", "anchors": ["include/subcollider/ugens/LagLinear.h: init, setTime, tick, reset, setValue, recalcIncrement"]}
{"id": "C19", "title": "Lag output never leaves the hull of its history", "statement": "With any non-negative lag time, every Lag output lies between the least and greatest of the initial value and the inputs so far; lag time <= 0 passes the input through unchanged; in exact arithmetic the distance to a constant target shrinks by exp(-6.907755...) per lag time.", "quantifier": "every input sequence and every lag time", "why_tests_cant": "all input sequences", "anchors": ["include/subcollider/ugens/Lag.h: init, setLagTime, tick"]}
{"id": "C20", "title": "XLine finishes exactly at its end value", "statement": "An XLine from start to end over dur seconds is monotone between its end points, outputs exactly the end value once done, completes after ceil(dur*sampleRate) ticks and holds the end value for ever after.", "quantifier": "every start, end, duration and number of ticks", "why_tests_cant": "all line lengths; float counters misbehave only beyond 2^24 samples", "anchors": ["include/subcollider/ugens/XLine.h: init, set, updateGrowthFactor, tick, reset"]}
{"id": "C21", "title": "Phasor output stays in its loop range", "statement": "With start < end, after any history of ticks, triggers and resets inside the range, every Phasor output v satisfies start <= v < end (mirrored for start > end), whatever the sign or size of the rate, and the value at each tick is congruent to reset + k*rate modulo the range.", "quantifier": "every rate, range, reset position and every number of ticks", "why_tests_cant": "all rates and histories", "anchors": ["include/subcollider/ugens/Phasor.h: init, set, tick, reset"]}
{"id": "C22", "title": "SinOsc phase and output stay bounded", "statement": "For every frequency between 0 and half the sample rate, the SinOsc phase remains in [0, 2*pi) and every output lies in [-1,1] after any number of ticks (IEEE single precision).", "quantifier": "every frequency in range, every number of ticks", "why_tests_cant": "phase drift appears only after arbitrarily many ticks", "anchors": ["include/subcollider/ugens/SinOsc.h: init, setFrequency, tick, reset"]}
{"id": "C23", "title": "LFTri stays in [-1,1]", "statement": "For every frequency between 0 and the sample rate every LFTri output lies in [-1,1] for ever, the waveform is continuous at the wrap and is a triangle of the phase.", "quantifier": "every frequency in range, every number of ticks", "why_tests_cant": "unbounded time", "anchors": ["include/subcollider/ugens/LFTri.h: init, tick, setFrequency"]}
{"id": "C24", "title": "SawDPW amplitude bound", "statement": "In steady state every SawDPW output has magnitude at most 1 (as documented: approximately [-1,1]).", "quantifier": "every frequency in (0, sampleRate/2) and every number of ticks", "why_tests_cant": "unbounded time, all frequencies", "anchors": ["include/subcollider/ugens/SawDPW.h: init, setFrequency, tick, reset"]}
{"id": "C25", "title": "Pan2 is equal power", "statement": "For every input and every pan position left^2 + right^2 = input^2; positions outside [-1,1] act like the nearest end; the cached tick equals process at the last set position.", "quantifier": "every input and pan value", "why_tests_cant": "all real positions", "anchors": ["include/subcollider/ugens/Pan2.h: process, tick, setPan"]}
{"id": "C26", "title": "Balance2 is equal power and its setters are consistent", "statement": "For every input pair, position and level the two gains satisfy gl^2 + gr^2 = level^2; tick after setPosition(p, l) equals process(l, r, p, level); setLevel changes the level and keeps the position.", "quantifier": "every position and level, every order of setter calls", "why_tests_cant": "all setter histories", "anchors": ["include/subcollider/ugens/Balance2.h: process, tick, setPosition, setLevel"]}
{"id": "C27", "title": "XFade2 is equal power and its setters are consistent", "statement": "For every position and level the two crossfade gains satisfy ga^2 + gb^2 = level^2, position -1 selects input A only, +1 selects input B only; tick after setPosition equals process; setLevel changes the level and keeps the position.", "quantifier": "every position, level and setter history", "why_tests_cant": "all setter histories", "anchors": ["include/subcollider/ugens/XFade2.h: process, tick, setPosition, setLevel, computeGains"]}
{"id": "C28", "title": "Wrap maps into the half-open range", "statement": "For lo < hi and every input x, Wrap returns y with lo <= y < hi and y congruent to x modulo hi - lo; for hi <= lo it returns lo; wrapping twice equals wrapping once.", "quantifier": "every input, lo and hi", "why_tests_cant": "all values; the boundary case is a rounding case", "anchors": ["include/subcollider/ugens/Wrap.h: process, tick, setRange, wrapValue"]}
{"id": "C29", "title": "LinLin maps the source range affinely onto the target range", "statement": "LinLin maps srclo to dstlo, srchi to dsthi, is affine in between, is inverted by swapping the ranges, and returns dstlo when the source range is empty.", "quantifier": "every input and every four range ends", "why_tests_cant": "all values", "anchors": ["include/subcollider/ugens/LinLin.h"]}
{"id": "C30", "title": "DBAmp turns sums of decibels into products of gains", "statement": "dbamp(a + b) = dbamp(a) * dbamp(b), dbamp(0) = 1, dbamp is positive and strictly increasing.", "quantifier": "every pair of decibel values", "why_tests_cant": "all values", "anchors": ["include/subcollider/ugens/DBAmp.h"]}
{"id": "C31", "title": "DC blocker removes any constant offset", "statement": "Fed with a constant, DCBlock's output is the constant times the n-th power of its coefficient and tends to zero; the filter is linear; the stereo tick is two independent mono ticks.", "quantifier": "every constant, input sequence and number of ticks", "why_tests_cant": "limits and all inputs", "anchors": ["include/subcollider/ugens/DCBlock.h: init, setCutoff, tick, tickStereo, process, reset"]}
{"id": "C32", "title": "One-pole low pass is a contraction onto the input hull", "statement": "With a coefficient in [0,1] every OnePoleLPF output lies in the hull of the initial state and the inputs; a constant input is a fixed point approached geometrically; tick(in, cutoff) equals setCutoff(cutoff) followed by tick(in) but leaves the stored cutoff unchanged.", "quantifier": "every input sequence and every cutoff", "why_tests_cant": "all sequences", "anchors": ["include/subcollider/ugens/OnePoleLPF.h: init, setCutoff, tick, process"]}
{"id": "C33", "title": "Downsampler conserves its contract", "statement": "With oversampling factor f (clamped to 1..16), isReady is true exactly after f writes since the last read, read returns a value inside the hull of the values written (and 0 if nothing was written), process(n*f inputs) yields exactly n outputs equal to the write/read loop, and the two channels of the stereo version never influence each other.", "quantifier": "every factor, every input sequence", "why_tests_cant": "all sequences and factors", "anchors": ["include/subcollider/ugens/Downsampler.h: init, write, read, process, isReady, reset, StereoDownsampler"]}
{"id": "C34", "title": "CombC never touches memory outside its delay line", "statement": "After init, every CombC tick reads and writes only inside the allocated delay line whatever delay and decay times are set, for any number of ticks.", "quantifier": "every delay time, decay time and history", "why_tests_cant": "out-of-range accesses are undefined behaviour", "anchors": ["include/subcollider/ugens/CombC.h: init, setDelayTime, setDecayTime, tick, reset, updateFeedback"]}
{"id": "C35", "title": "CombC implements the comb recurrence", "statement": "With a delay of exactly d samples (1 <= d, whole number) the output is y[n] = x[n-d]-line recurrence out[n] = buf[n-d] with buf[n] = x[n] + g*out[n], silent for the first d ticks, and |g| <= 1, g negative exactly for negative decay.", "quantifier": "every input sequence, every whole delay within the line, every decay time", "why_tests_cant": "all input sequences and delays", "anchors": ["include/subcollider/ugens/CombC.h: tick, updateFeedback"]}
{"id": "C36", "title": "Linear filters are linear and silent on silence", "statement": "With fixed coefficients RLPF, DCBlock, OnePoleLPF and CombC map sums to sums and multiples to multiples, and output silence from a reset state on silent input. (The Moog ladders all contain a nonlinearity; their silence is C46.)", "quantifier": "every input sequence, every coefficient value", "why_tests_cant": "all sequences", "anchors": ["include/subcollider/ugens/RLPF.h", "include/subcollider/ugens/DCBlock.h", "include/subcollider/ugens/OnePoleLPF.h", "include/subcollider/ugens/CombC.h"]}
{"id": "C37", "title": "RLPF is stable and has unit gain at DC", "statement": "For every frequency and resonance accepted by the setters the RLPF poles lie strictly inside the unit circle and a constant input converges to the same constant.", "quantifier": "every sample rate and every clamped parameter pair", "why_tests_cant": "all parameters; convergence", "anchors": ["include/subcollider/ugens/RLPF.h: init, setFreq, setResonance, tick, updateCoefficients"]}
{"id": "C38", "title": "BufRd never reads outside the buffer and interpolates", "statement": "For every finite phase, loop flag and interpolation mode BufRd executes no out-of-range conversion and no out-of-range read; whole-number phases return exactly the stored frame, linear interpolation stays between its two neighbours, loop mode is periodic with the buffer length, clamp mode holds the end frames, and the mono tick of a buffer equals the left channel of the stereo tick.", "quantifier": "every buffer, every finite phase, every mode", "why_tests_cant": "all phases", "anchors": ["include/subcollider/ugens/BufRd.h: tick, tickStereo, wrapIndex, cubicInterp"]}
{"id": "C39", "title": "XPlay stays inside its loop window and is silent without material", "statement": "XPlay outputs silence for a null, invalid or empty-loop buffer without advancing; its play head stays in the two-loop window for every rate of magnitude at most the window; bounce-mode read positions stay between the loop points.", "quantifier": "every buffer, loop points, rate and number of ticks", "why_tests_cant": "unbounded histories", "anchors": ["include/subcollider/ugens/XPlay.h: init, setBuffer, setStartEnd, tick, updateLoopBounds"]}
{"id": "C40", "title": "Noise generator is a full-period deterministic stream", "statement": "LFNoise2's random sequence visits every 32-bit state exactly once per period of 2^32, every random value lies in [-1,1], reset(seed) reproduces the sequence of a fresh init with that seed, and the output depends only on seed, frequency and number of ticks.", "quantifier": "every seed and number of draws", "why_tests_cant": "period 2^32 and all seeds", "anchors": ["include/subcollider/ugens/LFNoise2.h: init, nextRandom, tick, reset"]}
{"id": "C41", "title": "Tape saturation is bounded", "statement": "Every Tape output lies in [-1,1] (limiter of the tanh stage, DC blocker aside) and the envelope follower never exceeds the largest rectified drive seen nor goes below zero.", "quantifier": "every input sequence and parameter setting", "why_tests_cant": "all sequences", "anchors": ["include/subcollider/ugens/Tape.h: TapeFollower, TapeDcBlocker, Tape"]}
{"id": "C42", "title": "ExampleVoice is bounded and silent when idle", "statement": "A voice whose envelope is idle outputs exactly zero, |output| never exceeds the set amplitude, and process/processAdd agree with tick.", "quantifier": "every history of note and parameter calls, the amplitude any number, frequencies from 0 to a quarter and vibrato rates from 0 to all of the sample rate, every block length", "why_tests_cant": "unbounded histories", "anchors": ["include/subcollider/ExampleVoice.h: init, trigger, release, setGate, setAmplitude, tick, process, processAdd"]}
{"id": "C43", "title": "SuperSaw is silent when idle and bounded", "statement": "SuperSaw outputs exact silence on both channels while its envelope is idle and its state depends deterministically on the call history.", "quantifier": "every history", "why_tests_cant": "unbounded histories", "anchors": ["include/subcollider/ugens/SuperSaw.h: init, tick, setDetune, reset"]}
{"id": "C44", "title": "Stilson ladder output is limited and its table lookups are in range", "statement": "For every input and every cutoff (up to 64 sample rates) and resonance set through the API, StilsonMoogLadder indexes its gain table only inside its 199 entries and every output has magnitude at most 0.95. Beyond that cutoff range the float-to-int conversion in setResonance can be undefined.", "quantifier": "every input sequence (including NaN and infinities) and every cutoff of magnitude up to 64 sample rates and every resonance", "why_tests_cant": "out-of-range index is undefined behaviour; all inputs", "anchors": ["include/subcollider/ugens/StilsonMoogLadder.h: setCutoff, setResonance, tick, saturate, snapToZero"]}
{"id": "C45", "title": "Ladder setters are well defined and order independent", "statement": "For every cutoff and resonance the ladder coefficient computations never divide by zero, and the final coefficients do not depend on whether cutoff or resonance was set last.", "quantifier": "every parameter pair and setter order", "why_tests_cant": "all parameter values", "anchors": ["include/subcollider/ugens/MusicDSPMoogLadder.h", "include/subcollider/ugens/KrajeskiMoogLadder.h:56-136", "include/subcollider/ugens/OberheimMoogLadder.h:53-215"]}
{"id": "C46", "title": "Ladders map silence to silence", "statement": "From the freshly configured state, and after reset following any signal, each of the seven Moog ladder models outputs exact zeros for a silent input of any length; reset forgets the processed signal completely.", "quantifier": "every cutoff up to 0.45 of the sample rate and every resonance, more generally every finite coefficient value; every length; every previous signal", "why_tests_cant": "all lengths and coefficients", "anchors": ["include/subcollider/ugens/*MoogLadder.h: tick, reset"]}
{"id": "C47", "title": "RK ladder saturator and gain limits", "statement": "The Runge-Kutta ladder's clipping function is odd, monotone and bounded, and its make-up gain is bounded.", "quantifier": "every input and parameter", "why_tests_cant": "all values", "anchors": ["include/subcollider/ugens/RKSimulationMoogLadder.h: clip, tick, setResonance, setOversampleFactor"]}
{"id": "C48", "title": "Reverb delay reads stay inside their delay lines", "statement": "For every sample rate the integer delay of every FVerb delay line is smaller than the length of the line it indexes, so every masked read returns the sample written that many steps earlier.", "quantifier": "every sample rate, every predelay, every time", "why_tests_cant": "all sample rates and long runs", "anchors": ["include/subcollider/ugens/fverb/FVerbDSP.h: instanceConstants, compute"]}
{"id": "C49", "title": "Reverb wrapper lifecycle is safe", "statement": "FVerb may be initialised repeatedly, processed with any mix of block sizes before or after init, reset and destroyed without null dereference, double free or use after free; parameters are clamped to their documented ranges.", "quantifier": "every sequence of calls and block sizes", "why_tests_cant": "memory errors are undefined behaviour; all sequences", "anchors": ["include/subcollider/ugens/fverb/FVerb.cpp: init, allocateBuffers, freeBuffers, process, setters, reset, ~FVerb"]}
{"id": "C50", "title": "CombC delay-line ownership is safe", "statement": "A CombC may be constructed, initialised once or repeatedly, used and destroyed without freeing memory it does not own and without leaking its delay line.", "quantifier": "every sequence of lifecycle calls", "why_tests_cant": "undefined behaviour and leaks are invisible to assertions", "anchors": ["include/subcollider/ugens/CombC.h: init, ~CombC, reset"]}
{"id": "C51", "title": "Saturating ladder filters stay bounded", "statement": "A Moog ladder with a saturator in its loop cannot run away: for every input signal, every resonance and every cutoff between 0 and Nyquist, changed at any time, all output samples stay below a fixed bound.", "quantifier": "all input sequences of any length and amplitude, all histories of setter calls", "why_tests_cant": "Boundedness is a statement about infinitely long runs under all parameter automations; a run-away may need one particular signal, as the MusicDSP ladder shows.", "anchors": ["include/subcollider/ugens/KrajeskiMoogLadder.h: tick, setCutoff", "include/subcollider/ugens/OberheimMoogLadder.h: tick, setCutoff", "include/subcollider/ugens/RKSimulationMoogLadder.h: rungekutteSolver, clip, tick", "include/subcollider/ugens/MicrotrackerMoogLadder.h: tick, fastTanh", "include/subcollider/ugens/MusicDSPMoogLadder.h: tick", "include/subcollider/ugens/StilsonMoogLadder.h: tick"]}
{"id": "C52", "title": "XPlay plays the buffer it was given", "statement": "After init and setBuffer, in either order, XPlay plays the buffer that was set; re-initialising a player does not detach the buffer it still reports.", "quantifier": "every order of init, setBuffer and parameter calls", "why_tests_cant": "all call orders; the player gives no error when it is mute", "anchors": ["include/subcollider/ugens/XPlay.h: init, setBuffer, tick", "include/subcollider/ugens/BufRd.h: init, setBuffer"]}
{"id": "C53", "title": "XPlay bounce heads travel in opposite directions", "statement": "In bounce mode the two read heads sit at different frames and travel in opposite directions, so that one can be faded into the other.", "quantifier": "every loop window and every position of the play head", "why_tests_cant": "all real positions", "anchors": ["include/subcollider/ugens/XPlay.h: tick"]}
{"id": "C54", "title": "Changing XPlay's loop points always returns", "statement": "setStartEnd and setBuffer return for every pair of loop points, whether or not the play position is preserved.", "quantifier": "every player state and every pair of loop points", "why_tests_cant": "non-termination cannot be observed by a finite test", "anchors": ["include/subcollider/ugens/XPlay.h: setStartEnd, updateLoopBounds"]}
{"id": "C55", "title": "Vibrato depth zero means no vibrato", "statement": "With vibrato depth zero an ExampleVoice plays at its base frequency, whatever was played before.", "quantifier": "every voice state, every number of samples", "why_tests_cant": "the stored pitch depends on the sample at which the depth was changed; all later samples are meant", "anchors": ["include/subcollider/ExampleVoice.h: init, setVibratoDepth, setFrequency, tick"]}
{"id": "C56", "title": "Block processing touches exactly the block and allows in-place use", "statement": "Given blocks that exist, every process function is defined, writes to the output block exactly the samples of the per-sample function applied to the input block as it was before the call, and changes no other memory. Input and output may be the same block, or may overlap with the output first; an output starting inside the input corrupts the result. Stereo processing needs two separate blocks.", "quantifier": "every memory, every pair of pointers, every block length, every unit generator state", "why_tests_cant": "all overlaps, offsets and lengths; out-of-range accesses are undefined behaviour", "anchors": ["include/subcollider/ugens/*.h: process, processAdd, processMul", "include/subcollider/ExampleVoice.h: process, processAdd"]}
{"id": "C57", "title": "reset forgets the signal", "statement": "After reset a unit generator behaves as if the samples, triggers and gates since its last setting had never happened: only its settings survive. SuperSaw and, with the vibrato turned off, ExampleVoice break this.", "quantifier": "every state (including NaN and infinite ones), every block processed before the reset, every arithmetic", "why_tests_cant": "all signal histories and all states", "anchors": ["include/subcollider/ugens/*.h: reset", "include/subcollider/ExampleVoice.h: reset"]}
{"id": "C58", "title": "Reverb never leaves defined behaviour under its contract", "statement": "A program using FVerb with sample rates of at least 23 Hz that fit an int, non-NaN parameters, no copies, a non-empty first block and fewer than 2^31 frames between resets never converts an out-of-range value to int, overflows the sample counter, indexes outside a delay line or misuses memory, whatever samples it processes. Each clause of this contract is needed; at 22 Hz and below the smoothing of the predelay is unstable.", "quantifier": "every program, block size, parameter value and sample value, including NaN and infinities", "why_tests_cant": "the counter overflows after 12 hours of audio at 48 kHz; conversions depend on all parameter histories", "anchors": ["include/subcollider/ugens/fverb/FVerbDSP.h: instanceConstants, compute", "include/subcollider/ugens/fverb/FVerb.cpp: init, process, setters"]}
{"id": "C59", "title": "Reverb is linear and silent on silence", "statement": "The reverb is a linear (time-varying) system: for one history of parameter changes and resets, the output for a*x + b*y is a times the output for x plus b times the output for y, because modulation and delay crossfades never depend on the audio. In single precision a reverb that is only given zeros outputs only zeros, for every order of initialisation, setter calls, resets and blocks.", "quantifier": "all sample rates, all parameter histories, all block sizes, all pairs of input signals and coefficients; for silence all programs over any number of reverbs", "why_tests_cant": "Linearity quantifies over all pairs of signals and all parameter automations of a system with about half a million state variables; silence needs every control value to stay finite for ever, whatever setter calls are made.", "anchors": ["include/subcollider/ugens/fverb/FVerbDSP.h: compute (753-981)", "include/subcollider/ugens/fverb/FVerb.cpp: process, setters, reset"]}
{"id": "C60", "title": "Setters store the nearest value of the documented range", "statement": "Every setter that documents a range for its parameter holds, after a call with any number or infinity, the value of that range nearest to the argument - the argument itself if it is inside - whatever state the object is in: resonance, sustain, amplitude, pan depth and spread in [0,1], filter frequencies up to Nyquist, envelope times of at least a tenth of a millisecond, loop points in [0,1], comb delay up to its maximum.", "quantifier": "all 2^32 argument bit patterns, all object states, all sample rates in the stated range", "why_tests_cant": "A test checks a handful of arguments; NaN, infinities, negative zero and rounding at the ends of the range are where clamps go wrong, and the guarantee has to hold in every state of the object.", "anchors": ["include/subcollider/types.h: clamp (53-55)", "include/subcollider/ugens/*MoogLadder.h: setResonance, setDrive, setCutoff", "include/subcollider/ugens/EnvelopeADSR.h: setAttack, setDecay, setSustain, setRelease", "include/subcollider/ugens/CombC.h: init (74-88), setDelayTime (104-107)", "include/subcollider/ugens/XPlay.h: setStartEnd (104-115), setFadeTime (130-135)"]}
{"id": "C61", "title": "Sample playback does not drift", "statement": "A Phasor whose start, end, rate and position are multiples of a common power of two is exactly at start + (position - start + n*rate) mod (end - start) after n ticks, in binary32 and for ever. Hence a looping BufRd driven by it at a rate r/2^d plays the buffer without drift: whenever the ideal position is a whole frame j, the reader returns exactly the sample stored in frame j, in every interpolation mode and in both directions.", "quantifier": "all tick counts, all buffers and contents, all dyadic rates and loop bounds whose positions fit 24 bits, all interpolation modes", "why_tests_cant": "Drift of one unit in the last place per loop only becomes audible after hours of playback; no finite run shows that it never builds up.", "anchors": ["include/subcollider/ugens/Phasor.h: tick, wrap, set", "include/subcollider/ugens/BufRd.h: tick, wrapPhase, interpolation"]}
{"id": "C62", "title": "Oscillators hold their frequency", "statement": "However long an oscillator runs, the number of periods it has completed after n samples is n*f/sr with an error of at most n*2^-22 (sine) or n*2^-23 (saw, triangle, noise points), rounding of increment and phase included: the frequency is right to within sr*2^-22 Hz. The guarantee is absolute, not relative, and below it modulators stop: a triangle or noise oscillator slower than sr*2^-25 Hz never completes a period, LFNoise2 with a frequency of zero never draws a point although it falls back to 0.001 Hz, and a Phasor at half speed stops at frame 2^23.", "quantifier": "all frequencies between 0 and half the sample rate, all sample rates, all start phases, all numbers of samples", "why_tests_cant": "Rounding of one part in 2^24 per sample is invisible in a test but accumulates to a detuned oscillator or a modulator that stands still after minutes; only an induction over all samples settles it.", "anchors": ["include/subcollider/ugens/SinOsc.h: tick, updatePhaseIncrement", "include/subcollider/ugens/LFTri.h: tick (105-124)", "include/subcollider/ugens/SawDPW.h: tick (100-121)", "include/subcollider/ugens/LFNoise2.h: setFrequency (82-85), tick (124-153)", "include/subcollider/ugens/Phasor.h: tick (156-189)"]}
{"id": "C63", "title": "The cubic interpolators draw one smooth curve", "statement": "All three cubic interpolators of the library compute the Catmull-Rom spline of their data: the curve passes through every sample, is continuously differentiable everywhere (no kink where one segment meets the next), has the central differences as slopes and reproduces straight lines and parabolas exactly. A looping BufRd reads the spline through the periodically continued buffer at every real phase, across the loop point and for negative phases (mode 2: the polygon, other modes: the sample at the floor); LFNoise2 outputs one such curve through its random points, clamped to [-1, 1]; CombC with a delay of D samples, whole or fractional, outputs the spline through its line read D samples ago. For CombC this needs D >= 2: below that the fourth point is the oldest cell of the line and an impulse is answered a second time a whole line later, even with no feedback.", "quantifier": "all phases, buffers, lengths and contents; all frequencies, seeds and numbers of samples; all delays from 2 samples to the maximum, all decay times and inputs", "why_tests_cant": "A wrong weight, a wrapped index off by one at the seam, or a discontinuous slope only shows at particular phases; tests sample a few of a continuum and cannot establish smoothness at all.", "anchors": ["include/subcollider/ugens/BufRd.h: tick, wrapPhase, cubicInterp", "include/subcollider/ugens/LFNoise2.h: tick, cubic interpolation", "include/subcollider/ugens/CombC.h: tick (123-166)"]}
{"id": "C64", "title": "XPlay plays at the requested pitch and mixes as designed", "statement": "With unchanged parameters XPlay's play head moves exactly rate * (sample rate of the recording / output sample rate) frames per sample on a circle of two loop lengths, backwards when the loop points are swapped, for ever. In loop mode every output sample is the envelope times the equal-power mix of the recording (interpolated, repeated circularly) at the play head and one loop length behind it, with the fader driven by the half of the circle the head is in; when the fader rests the output is just the recording at one place.", "quantifier": "all buffers, contents, loop points, rates up to two loops per sample, interpolation modes, fade times, envelopes and numbers of samples", "why_tests_cant": "A recording at another sample rate that plays at the inverse ratio, or a head that loses a fraction at each wrap, only shows in long runs with unusual combinations of rates and loop points.", "anchors": ["include/subcollider/ugens/XPlay.h: tick (159-230)", "include/subcollider/ugens/BufRd.h: tickStereo", "include/subcollider/ugens/XFade2.h: process"]}
{"id": "C65", "title": "XPlay's loop is seamless", "statement": "Looping makes no audible seam: at every sample both read heads move on by the speed, so that the crossfade joins two continuous readings of the recording, at constant level, and only material of the loop and its continuation is heard. (False of the code in two ways: at the end of the circle of two loops the head being faded out jumps, to material outside the loop, unless the loop is the whole recording or half of it; and when the loop is the whole recording, the default, both heads read the same place and the crossfade raises the level by 3 dB.)", "quantifier": "all loops, positions, speeds, recordings", "why_tests_cant": "The seam appears once per two loops and only for loops of other lengths than those of the tests; a level swell is no error a test asserts on.", "anchors": ["include/subcollider/ugens/XPlay.h: tick (159-230)", "include/subcollider/ugens/XFade2.h: computeGains"]}
{"id": "C66", "title": "The times of Lag and CombC are 60 dB times", "statement": "Fed with a constant, a Lag is still at least 1/1000 of the original distance away before the lag time has passed and (to 3 parts in ten million) at most 1/1000 afterwards, whatever the lag time and sample rate. The echoes of an impulse in CombC are at least at -60 dB before the decay time has passed and at most at -60 dB afterwards. (The percentage in Lag's documentation, 0.01 %, is refuted: it is 0.1 %.)", "quantifier": "all lag times, decay times, delay times, sample rates, targets, starting points and numbers of samples", "why_tests_cant": "A test measures one time at one sample rate with a tolerance; a wrong constant or a missing sample rate shows only elsewhere.", "anchors": ["include/subcollider/ugens/Lag.h: setLagTime, tick", "include/subcollider/ugens/CombC.h: updateCoefficients (191-213), tick"]}
{"id": "C67", "title": "An envelope stage lasts the time it was set to", "statement": "Attack goes from 0 to 1 in the attack time, decay from 1 to the sustain level in the decay time, release from the current level to 0 in the release time. (False of the code: the times are time constants. What holds: each stage follows the exponential curve with that time constant and ends, with a jump of at most 0.001 resp. 0.0001 onto its goal, after exactly time * ln(distance / threshold) seconds, rounded up to the next sample; after the set time 37 % of the way is still missing, a full attack takes 6.9 times and a full release 9.2 times as long as set.)", "quantifier": "all times, sample rates, sustain levels, starting levels, histories of calls and numbers of samples", "why_tests_cant": "Tests wait generously for the end of a stage; that every setting is 7 to 9 times slower than documented is a law over all settings.", "anchors": ["include/subcollider/ugens/EnvelopeADSR.h: tick, updateAttackCoefficient, updateDecayCoefficient, updateReleaseCoefficient (docs 27-30)", "include/subcollider/ugens/EnvelopeAR.h: tick, updateAttackCoefficient, updateReleaseCoefficient"]}
{"id": "C68", "title": "Cutoff and resonance mean what they say: frequency responses of the linear filters", "statement": "Whatever happened before, once the transient has died out a filter answers a sinusoid of any frequency with the same sinusoid times a fixed complex gain. For RLPF it is the gain of the analog resonant low pass with the set resonance as Q, with the frequency axis warped by the tangent so that the set frequency is kept: at the set frequency the gain is exactly the resonance and the lag a quarter period, Nyquist is removed completely, without resonance nothing is amplified, and the slope is 12 dB per octave. For OnePoleLPF and DCBlock it is the one-pole response with the pole exp(-2 pi f / sr): unit resp. zero gain at DC, monotone, -3 dB at the cutoff within half a dB (OnePoleLPF; never exactly), at most 3 dB loss from the cutoff on and a slight boost 2/(1+r) at Nyquist (DCBlock).", "quantifier": "all histories of calls, cutoffs, resonances, sample rates, states, frequencies, amplitudes and phases", "why_tests_cant": "A frequency response is a limit over infinitely many samples for a continuum of frequencies and settings.", "anchors": ["include/subcollider/ugens/RLPF.h: updateCoefficients (132-156), tick (90-97)", "include/subcollider/ugens/OnePoleLPF.h: setCutoff (54-59), tick", "include/subcollider/ugens/DCBlock.h: setCutoff (38-50), tick"]}
{"id": "C69", "title": "The delay-free loop of the Oberheim ladder is solved exactly and its poles are tuned exactly", "statement": "In every reachable state the first stage of OberheimMoogLadder is driven by the one and only solution of the loop equation of the circuit (input minus four times the resonance times the output of the fourth stage of the same sample), although that output is only computed afterwards. The four stages in a row answer a sinusoid with the fourth power of the gain of an analog one-pole low pass whose frequency axis is warped by the tangent, so at the set cutoff each stage loses exactly 3 dB and lags an eighth of a period.", "quantifier": "all histories of calls, cutoffs up to 0.4999 of the sample rate, resonances, sample rates, states, inputs and frequencies", "why_tests_cant": "A test can compare single samples; that the one-sample formula equals the solution of an implicit equation in every state, and a limit over infinitely many samples for every frequency, are statements over a continuum.", "anchors": ["include/subcollider/ugens/OberheimMoogLadder.h: tick, setCutoff, setResonance, VAOnePole"]}
{"id": "C70", "title": "A constant input comes out at a known level", "statement": "When the input of a Moog ladder settles at a constant, the output settles at a constant that is determined by the settings alone and not by the history. (The seven ladders disagree: without resonance Microtracker and the RK simulation keep the level, Krajeski and Oberheim give tanh of it, Stilson 2.6 times it, MusicDSP the solution of a cubic equation, up to 1.2^4 times it, and Improved inverts the polarity.)", "quantifier": "all settled inputs, cutoffs, resonances, sample rates and earlier histories", "why_tests_cant": "Convergence for every starting state and every setting is a limit statement; the existing tests only check that outputs are finite.", "anchors": ["include/subcollider/ugens/MicrotrackerMoogLadder.h: tick", "include/subcollider/ugens/KrajeskiMoogLadder.h: tick", "include/subcollider/ugens/OberheimMoogLadder.h: tick", "include/subcollider/ugens/StilsonMoogLadder.h: tick", "include/subcollider/ugens/MusicDSPMoogLadder.h: tick", "include/subcollider/ugens/ImprovedMoogLadder.h: tick", "include/subcollider/ugens/RKSimulationMoogLadder.h: tick"]}
{"id": "C71", "title": "A ladder falls silent after its input does", "statement": "When the input of a Moog ladder dies away, so does the output. (False of the code: a Krajeski ladder with the cutoff between 0.25 and 0.3 of the sample rate at full resonance, and a Stilson ladder with the cutoff below 0.00218 of the sample rate, 104 Hz at 48 kHz, latch at full scale and stay there for ever; with Stilson a single positive sample of any size is enough.)", "quantifier": "all inputs that die away, cutoffs, resonances, sample rates and earlier histories", "why_tests_cant": "Silence is a limit over infinitely many samples; the latch needs a setting and an input that no test uses.", "anchors": ["include/subcollider/ugens/KrajeskiMoogLadder.h: setResonance (85-88), tick", "include/subcollider/ugens/StilsonMoogLadder.h: setCutoff (70-80), tick (114-135)", "include/subcollider/ugens/MicrotrackerMoogLadder.h: tick", "include/subcollider/ugens/OberheimMoogLadder.h: tick", "include/subcollider/ugens/MusicDSPMoogLadder.h: tick"]}
{"id": "C72", "title": "A loaded sound file is in the buffer, and only there", "statement": "The loaders of the two player examples put every frame the file delivers into the allocated buffer, in order, and touch no other buffer; they fail exactly if the pool has no room. (False for files of three or more channels: the frames are stored with the file's channel count into a stereo buffer and overrun it, destroying other buffers or leaving the pool.)", "quantifier": "all files, pools and earlier allocation histories", "why_tests_cant": "The examples are not under test; the overrun depends on the file and on the state of the pool.", "anchors": ["examples/jack_playback_example.cpp: loadAudioFile (85-137)", "examples/jack_xplay.cpp: loadAudio"]}
{"id": "C73", "title": "The player example plays a file at its own speed", "statement": "jack_playback_example reads the file from the beginning, in a loop, at the file's sample rate times the control, whatever blocks the server asks for. (False in single precision: a file of more than 2^23 frames, 2 min 55 s at 48 kHz, freezes at frame 2^23 for ever, and a 44.1 kHz file on a 48 kHz server runs at the server's rate from frame 2^22 on.)", "quantifier": "all mono and stereo files that fit the pool, all block sizes, controls and playing times", "why_tests_cant": "The failure needs minutes of audio and the example is not under test; exactness is a statement about every sample of an endless loop.", "anchors": ["examples/jack_playback_example.cpp: configurePlayback (58-78), jackProcessCallback (146-174), main (249-268)", "include/subcollider/ugens/Phasor.h: tick (156-189)", "include/subcollider/ugens/Lag.h: tick (103-107)"]}
{"id": "C74", "title": "The mouse controls cover the announced ranges", "statement": "The controls derived from the pointer run monotonically through their ranges: speed from -4 to 4 with a stop in the middle, cutoff from its minimum to its maximum in equal intervals, resonance from 0.99 to 0, drive from 100 to 0.01; no position, on screen or off, leaves the range. (The announced speed 4 is not reached: on every pixel of the screen it is below 4, while -4 is.)", "quantifier": "all pointer positions and screen sizes", "why_tests_cant": "The examples are not under test, and the range is a claim about every position, also outside the screen.", "anchors": ["examples/jack_playback_example.cpp: main (314-331)", "examples/moog_example.cpp: main (241-253)", "examples/supersaw_example.cpp: driveFromNormalized (83-89), main (449-461)", "examples/jack_xplay.cpp: main (236-242)"]}
{"id": "C75", "title": "The keyboard example plays what was typed", "statement": "In jack_example every block is played at the last pitch accepted, and each press of return starts or releases the note; the pitch is always strictly between 20 and 20000 and the output at most one half. (False for presses: two of them between two blocks cancel and nothing is played.)", "quantifier": "all histories of typed lines, blocks and rate changes", "why_tests_cant": "The outcome depends on how presses interleave with audio blocks; the example is not under test.", "anchors": ["examples/jack_example.cpp: jackProcessCallback (37-65), main (118-124, 170-186)", "include/subcollider/ExampleVoice.h: tick (182-209)"]}
{"id": "C76", "title": "A change of the sample rate keeps the sound", "statement": "When the server changes its sample rate, an example program keeps its settings and what is sounding. (False of all four: jack_example loses a held note until return is pressed again and changes its vibrato from 0.1 to 0.5 semitones for good, moog_example and supersaw_example restart their smoothed controls from 0, so that the cutoff falls below a thousandth, supersaw_example gives its three voices the same random phases, jack_playback_example starts the file again.)", "quantifier": "all histories before and after the change, all sample rates", "why_tests_cant": "Needs a server that changes its rate while a note is held; the claim is about everything that follows.", "anchors": ["examples/jack_example.cpp: jackSampleRateCallback (70-74)", "examples/moog_example.cpp: jackSampleRateCallback (100-112)", "examples/supersaw_example.cpp: jackSampleRateCallback (224-283)", "examples/jack_playback_example.cpp: jackSampleRateCallback (179-185)"]}
{"id": "C77", "title": "The filter example never exceeds 0.3", "statement": "However the mouse moves and whatever the block sizes, no sample of moog_example exceeds 0.3, at any sample rate of at least 32 kHz.", "quantifier": "all histories of blocks, controls and rate changes", "why_tests_cant": "A bound over every movement of a resonant, time-varying filter.", "anchors": ["examples/moog_example.cpp: jackProcessCallback (59-95), main (172-191)", "include/subcollider/ugens/OberheimMoogLadder.h: tick (134-162)"]}
{"id": "C78", "title": "The load meter shows the mean of the last hundred blocks", "statement": "The processor load shown by supersaw_example is the mean of the last 100 measurements, or of all while there are fewer, after any number of blocks.", "quantifier": "all sequences of measurements", "why_tests_cant": "The running sum is updated for ever; a ring error shows only after it wraps.", "anchors": ["examples/supersaw_example.cpp: jackProcessCallback (195-213)"]}
{"id": "C79", "title": "The mouse moves the loop points of the loop player", "statement": "jack_xplay announces that the mouse sets the start and the end of the loop. (False of the code: no movement of the mouse changes a single sample of any history; a block is exactly a block of the player with the loop from 25 % to 75 %.)", "quantifier": "all histories of blocks, movements and rate changes, all screens", "why_tests_cant": "Independence is a statement about two whole histories; the example is not under test.", "anchors": ["examples/jack_xplay.cpp: jackProcessCallback (48-68), configurePlayback (140-158), main (200-242)"]}
{"id": "C80", "title": "A smoothed parameter arrives", "statement": "A Lag sent to a constant target comes within 60 dB of it after its lag time, in the single precision it runs in. (False of the code for long lag times: the update stops moving once its step is below half a unit in the last place; sent from 0 to 1, a smoother never passes any 1 - j/2^24 with j(1-coeff) < 1/2, and a ten-second lag at 48 kHz never comes within 0.002. What holds: the distance after n samples is at most coeff^n times the first plus 2^-22/(1-coeff), and inputs in [a,b] keep the output in [a,b] widened by that much.)", "quantifier": "all coefficients, starts and targets of magnitude at most one, all numbers of samples", "why_tests_cant": "That a value is never reached is a statement about infinitely many samples; the rounding bound is over all coefficients and inputs.", "anchors": ["include/subcollider/ugens/Lag.h: class comment (22-36), setLagTime (80-96), tick"]}
{"id": "C81", "title": "The reverb's delay modulation never clicks", "statement": "The reverb's two modulated delays move their taps only while they are silent: a tap's delay changes only when the mix gives it weight zero, the mix moves by at most one step of the 10 ms fade per sample and stays in [0,1], the output is the weighted mean of the two taps, and a delay requested for 20 ms and a few samples is the one heard.", "quantifier": "all sequences of requested delays, all numbers of frames, sample rates from 101 Hz to 192 kHz, binary32", "why_tests_cant": "A click needs a particular alignment of modulation and fade; the accumulated rounding of the fade differs at every sample rate.", "anchors": ["include/subcollider/ugens/fverb/FVerbDSP.h: compute (823-837, 891-905), instanceConstants"]}
{"id": "C82", "title": "Envelopes never click", "statement": "With no stage time below tau, consecutive samples of an EnvelopeAR or EnvelopeADSR differ by at most 1/(tau sr) + 0.001, and the first by as much from zero, whatever triggers, gates, releases and time changes arrive and when: restarting a sounding note goes on from where it is. (The exception, also proved: changing the sustain level of a sustaining ADSR note jumps to the new level in one sample.)", "quantifier": "all histories of calls after init, all sample rates and times", "why_tests_cant": "The jump could come from any interleaving of calls at any point of the envelope.", "anchors": ["include/subcollider/ugens/EnvelopeAR.h: trigger, release, gate, tick", "include/subcollider/ugens/EnvelopeADSR.h: gate, setSustain, tick"]}
{"id": "C83", "title": "A bad sample does not silence a unit for ever", "statement": "A unit that forgets old input also recovers from a single NaN or from one sample at an undefined frequency. (False of most of the code, proved for every state, setting and later input: DC blocker, one-pole and resonant low pass, Lag, Tape, Downsampler and six of the ladders put out NaN for ever, the Stilson ladder puts out exactly 0 for ever, the comb repeats the NaN every delay time for ever, the reverb puts out NaN on both channels for ever, a NaN on the left channel of the Tape destroys the right one as well, and an oscillator whose frequency was NaN for one sample stays NaN whatever frequency is set. True of LagLinear, LFNoise2 and the Krajeski ladder, whose outputs are always numbers, at the price of a burst below -2^72.)", "quantifier": "all states, settings, positions of the NaN and later inputs, binary32 and binary64", "why_tests_cant": "That a unit never recovers, whatever comes later, is a statement about all infinite continuations; that it always does is one about all states.", "anchors": ["include/subcollider/ugens/DCBlock.h, OnePoleLPF.h, RLPF.h, Lag.h, LagLinear.h, Tape.h, Downsampler.h, CombC.h: tick", "include/subcollider/ugens/*MoogLadder.h: tick", "include/subcollider/ugens/fverb/FVerbDSP.h:771-981", "include/subcollider/ugens/SinOsc.h, SawDPW.h, LFTri.h, Phasor.h, LFNoise2.h: setFrequency, tick"]}
{"id": "C84", "title": "The player starts, holds and stops with its gate", "statement": "A player with an open gate that is initialised and then given a recording plays it: until the head reaches the end of the loop, sample j is the recording at start + j*rate*(ratio of sample rates), read by linear interpolation, times a fade-in 1 - a^(j+1) that ends at exactly 1 and stays there. Closing the gate fades the sound out from the level it has reached, without disturbing what is played, to exact silence, and isDone becomes true at just that sample. Opening the gate again starts the envelope anew.", "quantifier": "all sample rates, recordings, loop points, rates, fade times and numbers of samples, ideal arithmetic", "why_tests_cant": "The level after every number of samples and every fade time, and the moment isDone turns true, are one formula over real parameters.", "anchors": ["include/subcollider/ugens/XPlay.h: init (78-90), setBuffer, setRate, setGate (140-143), isDone, tick (159-230)", "include/subcollider/ugens/EnvelopeADSR.h: gate, tick"]}
{"id": "C85", "title": "The super-saw program processes every block JACK asks for", "statement": "From its start the super-saw program fills every block JACK asks for, across changes of the sample rate and whatever the keyboard sets, and the audio is one stream that does not depend on how it is cut into blocks: the downsampled, filtered and DC-blocked voices mixed 9:1 with one pass of the reverb over all of it. (False for blocks of more than 8192 frames, which overrun the callback's arrays, and after 2^31 frames, 12.4 hours at 48 kHz, when a signed counter of the reverb overflows.)", "quantifier": "all sequences of block sizes, control values (NaN included) and sample rate changes, all sample rates from 45 Hz to 2^24 Hz, binary32 and binary64", "why_tests_cant": "No test runs the JACK program; the sequences of block sizes and the half day before the overflow are out of reach of one.", "anchors": ["examples/supersaw_example.cpp: jackProcessCallback (107-217), jackSampleRateCallback, main", "include/subcollider/ugens/fverb/FVerb.cpp: process"]}
{"id": "C86", "title": "No heap in the audio thread", "statement": "Processing a block neither allocates nor frees heap memory, as the README and the comment on the callback of the super-saw program promise. (False of FVerb::process: a block longer than every one before makes it delete its buffers and call new six times, and so does the first block of the super-saw program. True of every block no longer than an earlier one: exactly the same heap blocks are live afterwards.)", "quantifier": "all heaps, reverb states, block lengths and contents", "why_tests_cant": "A test sees the output of the blocks it sends, not the allocator; the claim is about every length after every history.", "anchors": ["README.md: Features, Design Principles", "include/subcollider/ugens/fverb/FVerb.cpp: allocateBuffers, freeBuffers (35-55), process (83-101)", "examples/supersaw_example.cpp:99-102"]}
{"id": "C87", "title": "Units work before any setter is called", "statement": "A unit does what its documentation says as soon as it is constructed or initialised: panner, balancer and crossfader are in the centre, Wrap wraps to the unit interval, the oscillators run at 440 Hz, XLine rises from 1 to 2 in one second, and a buffer allocator before init hands out nothing and reports no space. (False for Phasor: after init, and after the calls of its usage example, it outputs 0 for ever because its step is as long as its range; and for the allocator, which reports the whole pool as used.)", "quantifier": "all inputs, sample rates, numbers of samples and pool contents", "why_tests_cant": "The outputs at every later sample for every sample rate and input are closed formulas over the reals; the stuck phasor is a statement about all times.", "anchors": ["include/subcollider/ugens/Pan2.h, Balance2.h, XFade2.h, Wrap.h: constructors", "include/subcollider/ugens/SinOsc.h, LFTri.h, SawDPW.h, XLine.h, Phasor.h: init", "include/subcollider/ugens/Phasor.h:37-52", "include/subcollider/BufferAllocator.h: constructor, getFreeSpace, getUsedSpace"]}
{"id": "C88", "title": "The synthesizers play the pitch, detuning, vibrato and placement that were set", "statement": "A SuperSaw plays seven saw oscillators, each equal to a stand-alone one, spread from half the detuning below the frequency to half above it in semitones, with the vibrato moving each pitch by at most the depth in semitones, the voices placed alternately left and right by the spread, and in mono when the spread is 0. An ExampleVoice is a stand-alone sine times its envelope times its amplitude, with vibrato in semitones, panned by an independent noise. (False in part: at full spread the left channel has four voices and the right three; the voice's two noises have the same seed, so at equal rates they are the same; and its vibrato is linear in the frequency, so 17.4 semitones down give a negative frequency.)", "quantifier": "all sample rates, random phases, frequencies, vibrato and detuning settings, spreads, states and numbers of samples", "why_tests_cant": "The pitch of every voice at every sample is a closed formula over all settings and all random draws; a rendered mix does not show which oscillator has which pitch.", "anchors": ["include/subcollider/ugens/SuperSaw.h:84-168, 215-270", "include/subcollider/ExampleVoice.h:83-140", "include/subcollider/ExampleVoice.h: tick, process"]}
{"id": "C89", "title": "Rounding errors do not pile up in the one-pole filters", "statement": "OnePoleLPF, Lag and DCBlock feed their output back for as long as the program runs. Run with 32-bit floats, every output stays within a fixed distance of the output that exact arithmetic would give for the same calls, however long the run and however the parameters are changed on the way. The distance is a few units of 2^-24 of the loudest input, divided by one minus the largest pole in use.", "quantifier": "for all finite sampling rates, cutoffs or lag times in the stated ranges, all call sequences of any length mixing parameter changes, ticks and resets, and all inputs up to 2^k", "why_tests_cant": "A test compares a few thousand samples with a reference. Whether the error keeps growing over hours, or explodes for some sequence of cutoff changes, needs an argument about all runs.", "anchors": ["include/subcollider/ugens/OnePoleLPF.h:54-84", "include/subcollider/ugens/Lag.h:80-107", "include/subcollider/ugens/DCBlock.h:38-57"]}
{"id": "C90", "title": "How far ramps and lines drift from the exact curve, and below which slope they stand still", "statement": "LagLinear adds the same increment, and XLine multiplies by the same factor, at every sample, so a rounding error in it is repeated thousands of times. With 32-bit floats, sample i of a LagLinear ramp stays within (i+7) 2^-24 of the straight line (relative to the larger of the two ends, rounded up to a power of two), and sample i of an XLine is the exponential curve up to a factor whose logarithm is at most (4i + 3|log(end/start)| + 2) 2^-24; both reach the exact end value at their last sample. Below a certain slope they do not move at all: a LagLinear ramp of n samples whose whole way is less than n 2^-28 of its present value, and an XLine of N samples with |log(end/start)| <= 0.99 N 2^-26, stand still to the last sample and then jump the whole way, e.g. a ten-second glide from 440 to 443 Hz at 48 kHz.", "quantifier": "all present values and targets up to 2^100, all ramps of up to 2^20 samples (LagLinear, freezing up to 2^24); all positive end points in [2^-50, 2^50] and lines of 2 to 2^20 samples (XLine, freezing for 2^11 to 2^24); every sample", "why_tests_cant": "A test looks at one ramp of one length. Whether the error of the increment, repeated n times, leaves a jump at the end depends on the rounding of values that differ for every pair of end points and every length.", "anchors": ["include/subcollider/ugens/LagLinear.h:89", "include/subcollider/ugens/LagLinear.h:168", "include/subcollider/ugens/XLine.h:157", "include/subcollider/ugens/XLine.h:167"]}
{"id": "C91", "title": "An ADSR envelope reports the end of a note, whatever done action is set", "statement": "isDone() is true exactly when a note was started since init() or reset() and the envelope has become inactive: it is false on a fresh envelope, during the note and its release, and again as soon as the next note starts. The done action set with setDoneAction() has no influence: the samples, isDone() and isActive() are the same for ActionNone, ActionPause and ActionFree, although the documentation says that nothing happens for the first and that the second pauses.", "quantifier": "all sequences of public calls of any length, all arguments including NaN, all number formats and all exp functions", "why_tests_cant": "A test plays one note. A voice allocator depends on the flag after every interleaving of gates, retriggers, resets and parameter changes.", "anchors": ["include/subcollider/ugens/EnvelopeADSR.h:59-64", "include/subcollider/ugens/EnvelopeADSR.h:162-164", "include/subcollider/ugens/EnvelopeADSR.h:203-234", "include/subcollider/ugens/EnvelopeADSR.h:280-292"]}
{"id": "C92", "title": "What the super-saw program plays: three held notes, two separate channels, no DC, a fixed bound", "statement": "From its start the program sounds three voices, at 55, 329.63 and 523.25 Hz, and no frame ever ends them. The dry left channel is ladder, DC blocker, downsampler and low pass applied to a third of the sum of the left outputs of the three voices, and the dry right channel the same, with its own units, for the right: nothing crosses over. The DC blocker removes every constant or settling offset and at most doubles the peak. In exact arithmetic no dry sample exceeds 10 (3 + 8 pi top / sampleRate), where top is the largest cutoff the mouse can ask for: 93 at 48 kHz. After a change of the sample rate the three voices lose their different random phases: they are identical except for the pitch.", "quantifier": "all sample rates, all random phases, all mouse positions at every frame, any number of frames", "why_tests_cant": "The program has no tests; it runs for as long as the user plays, with a control that moves at every frame, through a non-linear filter whose stability depends on the path of the cutoff.", "anchors": ["examples/supersaw_example.cpp:107-193", "examples/supersaw_example.cpp:224-290", "examples/supersaw_example.cpp:339-400"]}
{"id": "C93", "title": "In single precision the stages of an envelope last as long as their curves say", "statement": "With the coefficients of any history of calls and binary32 arithmetic, a release of N samples time constant follows v exp(-n/N) and is over after N ln(10000 v) samples, with the time off by at most the factor 1 +- (4N+3) 2^-24; an attack follows 1 - (1-v) exp(-n/N) and a decay follows S + (v-S) exp(-n/N) within a tolerance of about 0.55 (N+1) 2^-24 late in the stage, and they end when that curve comes within 0.001 of the goal, up to the same tolerance. In particular the default AR envelope at 48 kHz held for at least 3600 samples is at exactly 1, still sounding 44100 samples after it is let go, and silent 44300 samples after.", "quantifier": "all sample rates and times with time constants of 1 to 2^20 (release) or 2^15 (attack, decay) samples, all start levels, all numbers of samples, every exp within one unit in the last place", "why_tests_cant": "A test measures a few settings on one machine; the rounding error accumulates over hundreds of thousands of samples and depends on the coefficient, so agreement at one setting says nothing about others.", "anchors": ["include/subcollider/ugens/EnvelopeAR.h:115-210", "include/subcollider/ugens/EnvelopeADSR.h:169-301"]}
{"id": "C94", "title": "What the basic example program computes and prints", "statement": "For any arithmetic: example 4 accumulates exactly the frames of one ExampleVoice triggered before the first block and released after block NUM_BLOCKS / 2, independent of how these are cut into blocks, and example 5 runs to the end without undefined behaviour, the loop's output buffers holding the voice's most recently rendered block. In binary32 with rounding: every value of example 1 is within 0.00001 of the sine of 440 Hz at 48 kHz; every value of example 2 is in [0, 1] and within 0.00005 of 1 - exp(-t / 10 ms); every value of example 3 is in [-1, 1] and the first is exactly the second number drawn from the seed 42; the printed peaks of example 4 are in [0, 0.8]; and it prints \"active: yes\", the attack being still unfinished when the release comes and the envelope at 0.86 to 0.88 at the end.", "quantifier": "for all arithmetics, block sizes and numbers of passes (structure); for all libm meeting the accuracy assumptions (binary32 values)", "why_tests_cant": "the program prints eight values of a block and asserts nothing; a run shows one library's values on one machine", "anchors": ["examples/basic_example.cpp:18-163", "include/subcollider/ExampleVoice.h", "include/subcollider/ugens/SinOsc.h", "include/subcollider/ugens/EnvelopeAR.h", "include/subcollider/ugens/LFNoise2.h"]}
{"id": "C95", "title": "The modulators of all example voices walk over the same random points", "statement": "The vibrato and the pan modulator of an ExampleVoice are seeded alike, in every voice. After any history of calls the pan modulator depends only on the sample rate and on the number of frames since the last init or reset, so voices started together pan in unison whatever else is called on them. In every reachable state both modulators of a voice stand somewhere in the one sequence of numbers drawn from the seed 12345. With the vibrato at 1 Hz from the start and never switched off, one and the same random value sets pitch and position in every frame for ever; and with the vibrato at r Hz (5 by default) the position repeats what the pitch did r times as slowly (exact arithmetic).", "quantifier": "for all arithmetics, sample rates and histories of calls; the stretched form for all integer rates up to the sample rate, in exact arithmetic", "why_tests_cant": "random modulation looks plausible in any finite listening or range test; that two generators never part is a statement about all histories", "anchors": ["include/subcollider/ExampleVoice.h:83-107", "include/subcollider/ExampleVoice.h:182-209", "include/subcollider/ExampleVoice.h:243-248", "include/subcollider/ugens/LFNoise2.h:65-176"]}
{"id": "C96", "title": "Panning, balancing, crossfading, range mapping and wrapping are accurate in single precision", "statement": "In binary32 with every rounding: a panned sample is within 7/2^24 of the sample times the exact equal-power gain (cosine or sine of (position+1) pi/4, positions outside [-1,1] acting like the nearest end); a balanced sample, direct or with cached gains, is within 9/2^24 of sample times level; a crossfade is within 10/2^24 of (|a|+|b|) times level; LinLin is within (6.2 |moved| + |destLo|)/2^24 of destLo + moved, where moved is the exact offset, also outside the source range; Wrap differs from its input by a whole number of ranges and stays in the range, up to 2^-21 of the sizes involved.", "quantifier": "for all finite inputs, positions and levels within the stated magnitudes, and every libm accurate to 2^-23 on [-4,4]", "why_tests_cant": "tests compare a handful of values against a loose tolerance; the bound is over all 2^32 inputs in each argument", "anchors": ["include/subcollider/ugens/Pan2.h:44-80", "include/subcollider/ugens/Balance2.h:53-91", "include/subcollider/ugens/XFade2.h:32-104", "include/subcollider/ugens/LinLin.h:27-34", "include/subcollider/ugens/Wrap.h:31-82"]}
{"id": "C97", "title": "The Krajeski and Oberheim ladders are bounded in the arithmetic they are computed in", "statement": "Computed as the program computes them (coefficients and stages in double precision, samples in single precision, every operation rounded), the Krajeski ladder never outputs a sample beyond 1 while its cutoff stays within 0.3 of the sample rate, nor beyond 3.92 with cutoffs up to the Nyquist frequency, and the Oberheim ladder never outputs a sample beyond 1 while its cutoff stays within 0.248 of the sample rate, nor beyond 2^28 up to 0.45 of it. This holds for every finite input, every resonance that is not NaN, and every sequence of cutoff changes, resonance changes and resets, for however long the filter runs.", "quantifier": "all sample rates from a few kHz to 2^20 Hz, all previous object states, all lists of calls of any length with finite inputs, cutoffs in range and resonances that are not NaN", "why_tests_cant": "Rounding errors can accumulate over millions of samples and over arbitrary sequences of parameter changes; a test sees a few seconds of a few settings.", "anchors": ["include/subcollider/ugens/KrajeskiMoogLadder.h:56-136", "include/subcollider/ugens/OberheimMoogLadder.h:53-215"]}
{"id": "C98", "title": "The Improved and Runge-Kutta ladders are bounded in the arithmetic they are computed in", "statement": "Computed as the program computes them (states in double precision, samples in single precision, every operation rounded), the Improved ladder never outputs a sample beyond 88.75, whatever cutoffs, resonances, drives and resets are called in whatever order, and the Runge-Kutta ladder never outputs a sample beyond 160 for cutoffs between 0 and half the sample rate, any resonance, any drive and any oversampling factor. This holds for every finite input, however loud, and however long the filter runs.", "quantifier": "all sample rates up to 2^24 Hz (from 1 Hz for Improved, from 2000 Hz for Runge-Kutta, whose start cutoff is 1000 Hz), all previous object states, all lists of calls of any length with finite inputs and drives and cutoffs and resonances that are not NaN", "why_tests_cant": "The state integrates increments for as long as the filter runs; that rounding never lets it creep past a level, under any schedule of parameter changes and input, is a statement about unboundedly many samples.", "anchors": ["include/subcollider/ugens/ImprovedMoogLadder.h:51-150", "include/subcollider/ugens/RKSimulationMoogLadder.h:88-227"]}
{"id": "C99", "title": "CombC is stable for every delay and decay time", "statement": "Whatever the delay time (whole or fractional number of samples) and whatever the finite decay time, the comb does not build up: up to any moment the energy (sum of squares) of its output is at most the energy of its input up to that moment divided by (1 - |g|)^2, where g is the feedback gain and |g| < 1; hence after the input stops only finitely many output samples exceed any given level, with an explicit count. This holds for a delay of one sample and for every delay of two samples or more. It is false between one and two samples: there the fourth interpolation point is the oldest cell of the line, the loop gain at low frequencies exceeds one, and with a delay of 1.5 samples and g >= 16/17 a constant input makes the output grow exponentially.", "quantifier": "every input sequence, every real delay from two samples up to the maximum, every decay time, every number of samples; for the negation every line length", "why_tests_cant": "stability is a statement about all inputs and unbounded running time; fractional delays form a continuum", "anchors": ["include/subcollider/ugens/CombC.h: tick, setDelayTime, setDecayTime"]}
{"id": "C100", "title": "A released buffer handle stays dead", "statement": "Copies of a Buffer survive its release. A handle that has been released is refused by every later release, and refusing changes nothing. True as long as nothing is allocated in between, whatever else is released or written. False after an allocation: in every reachable state, allocate, release, allocate with the same request returns the very same handle (address, size, channels, rate), so a stale copy names the new owner's buffer and releasing it succeeds and frees that buffer.", "quantifier": "every pool and table size, every reachable allocator state, every request size, every sequence of releases and stores in between", "why_tests_cant": "needs every history of calls, not one example of a double release", "anchors": ["include/subcollider/BufferAllocator.h: allocate, release", "include/subcollider/Buffer.h"]}
{"id": "C101", "title": "The downsampler keeps the band and keeps out what would fold back into it", "statement": "A sinusoid written into a Downsampler at the high rate comes out, after a transient that dies out, as the sinusoid of the same frequency (or, above half the output rate, its alias) multiplied by one fixed complex gain, whatever was written before. A constant passes unchanged, no frequency is amplified, and multiples of the output rate, which would fold onto a constant, are removed completely. Everything between half the output rate and half the input rate is reduced to a fifth of its amplitude and everything below a quarter of the output rate keeps at least half. The documentation promises more: that the filter prevents aliasing (it does not: at twice the output rate a tone at the fold frequency is only 14 dB down) and that the loss at the nominal cutoff is small (it is more than 11 dB, not 3).", "quantifier": "for all output rates, factors 1 to 16 (the shape for all factors), earlier inputs, amplitudes, phases, frequencies and lengths", "why_tests_cant": "The response is a statement about infinitely long signals and about every frequency; a test measures a few tones for a finite time.", "anchors": ["include/subcollider/ugens/Downsampler.h:1-10", "include/subcollider/ugens/Downsampler.h:90-108", "include/subcollider/ugens/Downsampler.h:123-187"]}
{"id": "C102", "title": "The filters have no preferred polarity", "statement": "Turning the input upside down turns the output upside down, sample for sample and to the last bit (up to the sign of a zero): this holds, after a reset and with any settings, for OnePoleLPF, DCBlock, Lag, RLPF, the tape saturator without bias and the ladders Microtracker, MusicDSP, Stilson, Improved, Oberheim and Runge-Kutta, on every input including infinities and NaN, saturation and overflow included. For the Krajeski ladder it holds in every use with finite samples; a NaN sample makes it answer with a large negative number in either polarity. With a non-zero bias the tape saturator is asymmetric from the first sample on, which is what the bias is for.", "quantifier": "for all settings, all input sequences of any length, in binary32/binary64 arithmetic and in exact arithmetic; for Krajeski all interleavings of cutoff, resonance, reset and tick calls", "why_tests_cant": "A polarity test compares one signal with its mirror image; a rounding mode, a clamp or a comparison that is lopsided for one value only would go unnoticed.", "anchors": ["include/subcollider/ugens/OnePoleLPF.h", "include/subcollider/ugens/DCBlock.h", "include/subcollider/ugens/Lag.h", "include/subcollider/ugens/RLPF.h", "include/subcollider/ugens/Tape.h:101-108", "include/subcollider/ugens/KrajeskiMoogLadder.h:95-136", "include/subcollider/ugens/RKSimulationMoogLadder.h:151-227"]}
{"id": "C103", "title": "The reverb is stable: it never turns a finite burst into a growing tail", "statement": "With the decay below 100 % the reverb is stable: up to every frame the energy of either output channel is at most a fixed multiple of the energy of the input that has left the predelay, and the multiple depends only on the decay and the tail density, not on the input and not on how long the reverb has been running. The feedback between the two halves of the tank, the allpasses, the damping filters whose coefficients drift while the parameters are smoothed, the start-up crossfade of the long delays and their modulation cannot make energy without end.", "quantifier": "All sample rates from 8 kHz, all parameters in the setters' ranges (proved without modulation for decays up to 99.7 %, with modulation for shallow depths and moderate decays, which includes the parameters of a new reverb; tail density below 100 %, parameters left alone while running), all inputs in blocks of any lengths up to 2^31 frames, every frame of the output; ideal arithmetic.", "why_tests_cant": "Instability of a feedback network can be slow, can need a particular frequency or parameter combination, and shows only after long runs; a test hears a finite number of seconds of a finite number of settings.", "anchors": ["include/subcollider/ugens/fverb/FVerbDSP.h:753-981", "include/subcollider/ugens/fverb/FVerbDSP.h:345-412"]}
{"id": "C104", "title": "The reverb's tail dies away exponentially", "statement": "When the input falls silent the reverb falls silent too, and exponentially: from the frame on at which nothing but silence leaves the predelay, no output sample is larger than a fixed multiple of the loudness of the input so far times exp(-a s), s seconds later, and neither the rate a nor the multiple depends on the input or on how long it lasted. For the parameters of a new reverb the multiple is at most 350 and the bound halves every second. No limit cycle, no frozen tail and no mode that rings on.", "quantifier": "All sample rates from 8 kHz, all parameters in the setters' ranges with shallow modulation, a decay small enough for the density and the depth, diffusers below 100 % and filters above 0 Hz (parameters left alone while running), all inputs in blocks of any lengths up to 2^31 frames, every frame from which on the input is silent, every later output frame; ideal arithmetic.", "why_tests_cant": "The decay of a feedback network is governed by its slowest mode, which a particular input may hardly excite; a test hears a few inputs for a few seconds and cannot tell a very slow decay from none.", "anchors": ["include/subcollider/ugens/fverb/FVerbDSP.h:753-981", "include/subcollider/ugens/fverb/FVerbDSP.h:345-412"]}
{"id": "C105", "title": "The delay of a comb can be modulated safely", "statement": "CombC is documented for high-quality delay time modulation: however the delay and decay times are moved about while it runs, bounded input gives bounded output as long as the gain stays below one.", "quantifier": "All sample rates, all maximum delays, all histories of setDelayTime, setDecayTime, reset and tick in any order, whole and fractional delays of any length, all bounded inputs of any length; ideal arithmetic.", "why_tests_cant": "Whether a time-varying feedback loop is stable depends on the whole schedule of the modulation; sweeps that sound fine say nothing about the one that resonates with the interpolation.", "anchors": ["include/subcollider/ugens/CombC.h:104-166", "include/subcollider/ugens/CombC.h:196-214"]}
{"id": "C106", "title": "A block read by the audio side is never torn", "statement": "AudioLoop is documented as ISR-safe double buffering: when the audio side has taken the output pointer, every sample it reads from it is a sample of the block that was published at that moment, however the calls of the processing side are interleaved with the reads.", "quantifier": "All block sizes, all contents, all interleavings of any length of single reads by the audio side with clears, stores and swaps by the processing side, all positions at which the block is interrupted.", "why_tests_cant": "A test runs one interleaving, normally that of a single thread; the claim is about all of them, and a torn block needs an interruption in the middle of a read.", "anchors": ["include/subcollider/AudioLoop.h:19", "include/subcollider/AudioLoop.h:72", "include/subcollider/AudioLoop.h:103"]}
{"id": "C107", "title": "The low pass can be played: moving its cutoff and resonance keeps it stable", "statement": "Cutoff and resonance of RLPF may be set at any time between two samples. However they are moved about while the filter runs, bounded input gives bounded output: setResonance clamps its argument 'to avoid instability', and every single setting is stable.", "quantifier": "All sample rates, all histories of setFreq, setResonance, reset and tick in any order and of any length, all bounded inputs; ideal arithmetic.", "why_tests_cant": "Stability of a filter whose coefficients vary depends on the whole schedule of changes, not on the settings passed through; a test runs one schedule for a short time, and a slow growth or a rare pumping schedule escapes it.", "anchors": ["include/subcollider/ugens/RLPF.h:68", "include/subcollider/ugens/RLPF.h:79", "include/subcollider/ugens/RLPF.h:90", "include/subcollider/ugens/RLPF.h:132"]}
{"id": "C108", "title": "The resonant low pass never blows up in the arithmetic it is computed in", "statement": "RLPF keeps its state in double precision and converts each result to float. At every sample rate from 1 to 384 kHz, with any cutoff, set at a reset or moved slowly while the filter rings, with the resonance changed at any time, and with input within full scale, every output sample is a finite number below a fixed bound, for however long the filter runs: the rounding errors of the coefficients and of every step do not add up, not even at a cutoff of 1 Hz, where the poles are a few millionths from the edge of stability.", "quantifier": "All sample rates from 1000 to 384000, all histories of setResonance, reset, setFreq (together with a reset, or by at most sin^2 w / 300 radians from sample to sample), and tick, all resonances and cutoffs that are not NaN (infinities included), all inputs in [-1, 1]; bit-exact binary32 and binary64, any sin and cos accurate to 2^-50.", "why_tests_cant": "At a low cutoff the poles are so close to the unit circle that an instability caused by rounding would take hours to show, and only for some settings out of 2^32 times 2^32.", "anchors": ["include/subcollider/ugens/RLPF.h:68", "include/subcollider/ugens/RLPF.h:79", "include/subcollider/ugens/RLPF.h:90", "include/subcollider/ugens/RLPF.h:132"]}
