import Verif.Model.Blocks
import Verif.Model.SuperSaw
import Verif.Model.ExampleVoice
import Verif.Model.Filters
import Verif.Model.Tape
import Verif.Model.MoogLadders
import Verif.Model.CombC
import Verif.Model.XPlay
import Verif.Model.BufRd
import Verif.Model.Lines
import Verif.Model.Utility
import Verif.Lemmas.Loops
import Verif.Props.Downsampler
import Verif.Props.Blocks

/-!
# Property C17: blocks may be split anywhere

For every unit generator, in every arithmetic (so for `float` with its rounding and its NaNs): a block processed at once gives the samples
and the final state of the two parts processed one after the other, and of one `tick` per sample; `processAdd` and `processMul` combine the
samples `process` would write with what the buffer held.
-/

set_option linter.unusedSectionVars false

namespace Verif

/-! ### Specification -/

/-- One call on `xs ++ ys` is the call on `xs` followed by the call on `ys`. -/
def SplitsAnywhere {σ β γ : Type} (process : σ → List β → σ × List γ) : Prop :=
  ∀ s xs ys, process s (xs ++ ys) =
    ((process (process s xs).1 ys).1, (process s xs).2 ++ (process (process s xs).1 ys).2)

/-- The block function of a filter is one `tick` per sample: sample `i` of the output is `tick` of sample `i` of the input in the state
left by processing the samples before it, and the final state is the state after the last `tick`. -/
def TickPerSample {σ β γ : Type} (tick : σ → β → σ × γ) (process : σ → List β → σ × List γ) : Prop :=
  ∀ s, process s [] = (s, []) ∧ ∀ xs x, process s (xs ++ [x]) =
    ((tick (process s xs).1 x).1, (process s xs).2 ++ [(tick (process s xs).1 x).2])

/-- The block function of a generator returns the successive ticks, whatever the buffer held: same number of samples as the buffer, sample
`i` is what `tick` returns after `i` ticks, and the final state is the state after all of them. -/
def WritesTicks {σ β γ : Type} (tick : σ → σ × γ) (process : σ → List β → σ × List γ) : Prop :=
  ∀ s buf, (process s buf).1 = (fun s => (tick s).1)^[buf.length] s ∧ (process s buf).2.length = buf.length ∧
    ∀ i < buf.length, (process s buf).2[i]? = some (tick ((fun s => (tick s).1)^[i] s)).2

/-- `processOp` leaves the state `process` leaves, and each of its samples is `op` of the buffer's sample and the one `process` writes. -/
def Combines {σ β γ : Type} (op : β → γ → γ) (process processOp : σ → List β → σ × List γ) : Prop :=
  ∀ s buf, (processOp s buf).1 = (process s buf).1 ∧ (processOp s buf).2 = List.zipWith op buf (process s buf).2

/-- As `SplitsAnywhere`, for block functions that may be undefined: the whole is defined exactly when both parts are. -/
def SplitsAnywhereUB {σ β γ : Type} (process : σ → List β → Option (σ × List γ)) : Prop :=
  ∀ s xs ys, process s (xs ++ ys) =
    (process s xs).bind fun r => (process r.1 ys).bind fun q => some (q.1, r.2 ++ q.2)

/-- As `TickPerSample`, for block functions that may be undefined. -/
def TickPerSampleUB {σ β γ : Type} (tick : σ → β → Option (σ × γ)) (process : σ → List β → Option (σ × List γ)) : Prop :=
  ∀ s, process s [] = some (s, []) ∧ ∀ xs x, process s (xs ++ [x]) =
    (process s xs).bind fun r => (tick r.1 x).bind fun q => some (q.1, r.2 ++ [q.2])

/-! ### Loops -/

theorem splits_forEach {σ β γ : Type} (step : σ → β → σ × γ) : SplitsAnywhere (forEach step) := fun s xs ys => forEach_append step s xs ys

theorem tickPerSample_forEach {σ β γ : Type} (step : σ → β → σ × γ) : TickPerSample step (forEach step) :=
  fun s => ⟨rfl, fun xs x => by rw [forEach_append]; rfl⟩

theorem writesTicks_forEach {σ β γ : Type} (tick : σ → σ × γ) : WritesTicks (β := β) tick (forEach fun s _ => tick s) := by
  intro s buf
  refine ⟨by rw [forEach_eq_ticks, ticks_state]; rfl, forEach_length _ _ _, fun i h => ?_⟩
  rw [forEach_eq_ticks, ticks_get tick _ s i h]; rfl

theorem combines_forEach {σ β γ : Type} (tick : σ → σ × γ) (op : β → γ → γ) :
    Combines op (forEach fun s _ => tick s) (forEach fun s b => let (s', o) := tick s; (s', op b o)) := by
  intro s buf
  have := forEach_zip tick op s buf
  rw [show (fun s b => let (s', o) := tick s; (s', op b o)) = (fun s b => ((tick s).1, op b (tick s).2)) from rfl, this, forEach_eq_ticks]
  exact ⟨rfl, rfl⟩

theorem splitsUB_rec {σ β γ : Type} {tick : σ → β → Option (σ × γ)} {process : σ → List β → Option (σ × List γ)}
    (h0 : ∀ s, process s [] = some (s, []))
    (h1 : ∀ s x xs, process s (x :: xs) = (tick s x).bind fun q => (process q.1 xs).map fun r => (r.1, q.2 :: r.2)) :
    SplitsAnywhereUB process ∧ TickPerSampleUB tick process := by
  have key : SplitsAnywhereUB process := by
    intro s xs ys
    induction xs generalizing s with
    | nil => rw [List.nil_append, h0]; cases h : process s ys <;> simp [h]
    | cons x xs ih =>
      rw [List.cons_append, h1, h1]
      cases tick s x with
      | none => rfl
      | some q =>
        simp only [Option.bind_some, ih]
        cases process q.1 xs with
        | none => rfl
        | some r =>
          simp only [Option.bind_some, Option.map_some]
          cases process r.1 ys <;> rfl
  refine ⟨key, fun s => ⟨h0 s, fun xs x => ?_⟩⟩
  rw [key s xs [x]]
  congr 1
  funext r
  rw [h1]
  cases tick r.1 x with
  | none => rfl
  | some q => simp [h0]

/-! ### The unit generators -/

variable {α β : Type} [Arith α] [Libm α] [Arith β] [Libm β] [Conv α β] [Conv β α]

/-- **C17**, generators: `process` writes the successive ticks and splits anywhere. -/
theorem C17_generators :
    (WritesTicks SinOsc.tick (SinOsc.process (α := α)) ∧ SplitsAnywhere (SinOsc.process (α := α))) ∧
    (WritesTicks SawDPW.tick (SawDPW.process (α := α)) ∧ SplitsAnywhere (SawDPW.process (α := α))) ∧
    (WritesTicks LFTri.tick (LFTri.process (α := α)) ∧ SplitsAnywhere (LFTri.process (α := α))) ∧
    (WritesTicks LFNoise2.tick (LFNoise2.process (α := α)) ∧ SplitsAnywhere (LFNoise2.process (α := α))) ∧
    (WritesTicks XLine.tick (XLine.process (α := α)) ∧ SplitsAnywhere (XLine.process (α := α))) ∧
    (WritesTicks Phasor.tick (Phasor.process (α := α)) ∧ SplitsAnywhere (Phasor.process (α := α))) ∧
    (WritesTicks EnvelopeAR.tick (EnvelopeAR.process (α := α)) ∧ SplitsAnywhere (EnvelopeAR.process (α := α))) ∧
    (WritesTicks EnvelopeADSR.tick (EnvelopeADSR.process (α := α)) ∧ SplitsAnywhere (EnvelopeADSR.process (α := α))) ∧
    (WritesTicks SuperSaw.tick (SuperSaw.process (α := α)) ∧ SplitsAnywhere (SuperSaw.process (α := α))) ∧
    (WritesTicks ExampleVoice.tick (ExampleVoice.process (α := α)) ∧ SplitsAnywhere (ExampleVoice.process (α := α))) := by
  refine ⟨?_, ?_, ?_, ?_, ?_, ?_, ?_, ?_, ?_, ?_⟩ <;> exact ⟨writesTicks_forEach _, splits_forEach _⟩

/-- **C17**, adding and multiplying: each of these loops leaves the state `process` would leave, and combines the buffer with the samples
`process` would write; it splits anywhere as well. -/
theorem C17_combining :
    (Combines (· + ·) (SinOsc.process (α := α)) SinOsc.processAdd ∧ SplitsAnywhere (SinOsc.processAdd (α := α))) ∧
    (Combines (· + ·) (LFTri.process (α := α)) LFTri.processAdd ∧ SplitsAnywhere (LFTri.processAdd (α := α))) ∧
    (Combines (· + ·) (XLine.process (α := α)) XLine.processAdd ∧ SplitsAnywhere (XLine.processAdd (α := α))) ∧
    (Combines (· * ·) (XLine.process (α := α)) XLine.processMul ∧ SplitsAnywhere (XLine.processMul (α := α))) ∧
    (Combines (· + ·) (Phasor.process (α := α)) Phasor.processAdd ∧ SplitsAnywhere (Phasor.processAdd (α := α))) ∧
    (Combines (· * ·) (EnvelopeAR.process (α := α)) EnvelopeAR.processMul ∧ SplitsAnywhere (EnvelopeAR.processMul (α := α))) ∧
    (Combines (· * ·) (EnvelopeADSR.process (α := α)) EnvelopeADSR.processMul ∧ SplitsAnywhere (EnvelopeADSR.processMul (α := α))) ∧
    (Combines (fun b o => ⟨b.left + o.left, b.right + o.right⟩) (ExampleVoice.process (α := α)) ExampleVoice.processAdd ∧
      SplitsAnywhere (ExampleVoice.processAdd (α := α))) := by
  refine ⟨?_, ?_, ?_, ?_, ?_, ?_, ?_, ?_⟩ <;> exact ⟨combines_forEach _ _, splits_forEach _⟩

/-- **C17**, filters: one tick per sample, splitting anywhere; stereo and modulated versions on pairs. -/
theorem C17_filters :
    (TickPerSample DCBlock.tick (DCBlock.process (α := α)) ∧ SplitsAnywhere (DCBlock.process (α := α))) ∧
    (TickPerSample (fun s b => DCBlock.tickStereo s b.1 b.2) (DCBlock.processStereo (α := α)) ∧
      SplitsAnywhere (DCBlock.processStereo (α := α))) ∧
    (TickPerSample OnePoleLPF.tick (OnePoleLPF.process (α := α)) ∧ SplitsAnywhere (OnePoleLPF.process (α := α))) ∧
    (TickPerSample (fun s b => OnePoleLPF.tickMod s b.1 b.2) (OnePoleLPF.processMod (α := α)) ∧
      SplitsAnywhere (OnePoleLPF.processMod (α := α))) ∧
    (TickPerSample RLPF.tick (RLPF.process (α := α) (β := β)) ∧ SplitsAnywhere (RLPF.process (α := α) (β := β))) ∧
    (TickPerSample Lag.tick (Lag.process (α := α)) ∧ SplitsAnywhere (Lag.process (α := α))) ∧
    (TickPerSample Tape.tick (Tape.process (α := α)) ∧ SplitsAnywhere (Tape.process (α := α))) ∧
    (TickPerSample (fun s b => Tape.tickStereo s b.1 b.2) (Tape.processStereo (α := α)) ∧
      SplitsAnywhere (Tape.processStereo (α := α))) ∧
    (TickPerSample Phasor.tickTrig (Phasor.processTrig (α := α)) ∧ SplitsAnywhere (Phasor.processTrig (α := α))) := by
  refine ⟨?_, ?_, ?_, ?_, ?_, ?_, ?_, ?_, ?_⟩ <;> exact ⟨tickPerSample_forEach _, splits_forEach _⟩

/-- **C17**, the seven ladders. -/
theorem C17_ladders :
    (TickPerSample Microtracker.tick (Microtracker.process (α := α) (β := β)) ∧ SplitsAnywhere (Microtracker.process (α := α) (β := β))) ∧
    (TickPerSample Krajeski.tick (Krajeski.process (α := α) (β := β)) ∧ SplitsAnywhere (Krajeski.process (α := α) (β := β))) ∧
    (TickPerSample MusicDSP.tick (MusicDSP.process (α := α) (β := β)) ∧ SplitsAnywhere (MusicDSP.process (α := α) (β := β))) ∧
    (TickPerSample Improved.tick (Improved.process (α := α) (β := β)) ∧ SplitsAnywhere (Improved.process (α := α) (β := β))) ∧
    (TickPerSample Stilson.tick (Stilson.process (α := α) (β := β)) ∧ SplitsAnywhere (Stilson.process (α := α) (β := β))) ∧
    (TickPerSample Oberheim.tick (Oberheim.process (α := α) (β := β)) ∧ SplitsAnywhere (Oberheim.process (α := α) (β := β))) ∧
    (TickPerSample RKSimulation.tick (RKSimulation.process (α := α) (β := β)) ∧ SplitsAnywhere (RKSimulation.process (α := α) (β := β))) := by
  refine ⟨?_, ?_, ?_, ?_, ?_, ?_, ?_⟩ <;> exact ⟨tickPerSample_forEach _, splits_forEach _⟩

/-- **C17** for the two block functions that can be undefined (LagLinear converts a float to `int`, CombC to `size_t`): the whole block is
defined exactly when both parts are, and then gives the same. -/
theorem C17_checked (fuel : ℕ) :
    (SplitsAnywhereUB (LagLinear.process (α := α)) ∧ TickPerSampleUB LagLinear.tick (LagLinear.process (α := α))) ∧
    (SplitsAnywhereUB (CombC.process (α := α) fuel) ∧ TickPerSampleUB (CombC.tick fuel) (CombC.process (α := α) fuel)) :=
  ⟨splitsUB_rec (fun _ => rfl) (fun _ _ _ => rfl), splitsUB_rec (fun _ => rfl) (fun _ _ _ => rfl)⟩

/-- **C17** for XPlay: `n + k` frames are `n` frames and then `k` frames, one tick each. -/
theorem C17_xplay (s : XPlay.Player α) (m : Mem α) (n k : ℕ) :
    XPlay.process s m (n + k) =
      (XPlay.process s m n).bind (fun r => (XPlay.process r.1 m k).bind fun q => some (q.1, r.2 ++ q.2)) ∧
    XPlay.process s m (n + 1) =
      (XPlay.process s m n).bind (fun r => (XPlay.tick r.1 m).bind fun q => some (q.1, r.2 ++ [q.2])) := by
  have key : ∀ (n k : ℕ) (s : XPlay.Player α), XPlay.process s m (n + k) =
      (XPlay.process s m n).bind (fun r => (XPlay.process r.1 m k).bind fun q => some (q.1, r.2 ++ q.2)) := by
    intro n k
    induction n with
    | zero => intro s; rw [Nat.zero_add, XPlay.process]; cases h : XPlay.process s m k <;> simp [h]
    | succ n ih =>
      intro s
      rw [show n + 1 + k = (n + k) + 1 by omega, XPlay.process, XPlay.process]
      cases XPlay.tick s m with
      | none => rfl
      | some q =>
        simp only [Option.bind_some, ih]
        cases XPlay.process q.1 m n with
        | none => rfl
        | some r =>
          simp only [Option.bind_some, Option.map_some]
          cases XPlay.process r.1 m k <;> rfl
  refine ⟨key n k s, ?_⟩
  rw [key n 1 s]
  congr 1
  funext r
  rw [XPlay.process]
  cases XPlay.tick r.1 m with
  | none => rfl
  | some q => simp [XPlay.process]

/-- **C17** for the memoryless block functions: BufRd, Wrap and DBAmp. -/
theorem C17_memoryless (rd : BufRd.Reader α) (m : Mem α) (w : Wrap.W α) (xs ys : List α) :
    BufRd.process rd m (xs ++ ys) = (BufRd.process rd m xs).bind (fun a => (BufRd.process rd m ys).bind fun b => some (a ++ b)) ∧
    BufRd.processStereo rd m (xs ++ ys) =
      (BufRd.processStereo rd m xs).bind (fun a => (BufRd.processStereo rd m ys).bind fun b => some (a ++ b)) ∧
    Wrap.processBlock w (xs ++ ys) = Wrap.processBlock w xs ++ Wrap.processBlock w ys ∧
    DBAmp.processBlock (xs ++ ys) = DBAmp.processBlock xs ++ DBAmp.processBlock ys := by
  refine ⟨?_, ?_, by simp [Wrap.processBlock], by simp [DBAmp.processBlock]⟩
  · simp only [BufRd.process, List.mapM_append]; rfl
  · simp only [BufRd.processStereo, List.mapM_append]; rfl

/-! ### On memory -/

section memory
omit [Arith α] [Libm α]
variable {σ : Type}

/-- The pointer `k` elements further on. -/
def Ptr.advance (k : ℕ) : Ptr → Ptr
  | .null => .null
  | .at o i => .at o (i + k)

theorem forLoop_add (body : ℕ → σ → Option σ) (lo n k : ℕ) (s : σ) :
    forLoop body lo (n + k) s = (forLoop body lo n s).bind (forLoop body (lo + n) k) := by
  induction n generalizing lo s with
  | zero => simp [forLoop]
  | succ n ih =>
    rw [show n + 1 + k = (n + k) + 1 by omega, forLoop, forLoop]
    cases body lo s with
    | none => rfl
    | some t => simp only [Option.bind_some, ih]; rw [show lo + 1 + n = lo + (n + 1) by omega]

theorem forLoop_advance (body body' : ℕ → σ → Option σ) (c : ℕ) (h : ∀ i, body (i + c) = body' i) (lo n : ℕ) (s : σ) :
    forLoop body (lo + c) n s = forLoop body' lo n s := by
  induction n generalizing lo s with
  | zero => rfl
  | succ n ih =>
    simp only [forLoop, h]
    congr 1; funext t; rw [show lo + c + 1 = lo + 1 + c by omega]; exact ih (lo + 1) t

theorem load_advance (m : Mem α) (p : Ptr) (i c : ℕ) : m.load p (i + c) = m.load (p.advance c) i := by
  cases p with
  | null => rfl
  | «at» o k => simp only [Mem.load, Ptr.advance]; congr 1; omega

theorem store_advance (m : Mem α) (p : Ptr) (i c : ℕ) (x : α) : m.store p (i + c) x = m.store (p.advance c) i x := by
  cases p with
  | null => rfl
  | «at» o k => simp only [Mem.store, Ptr.advance]; rw [show k + (i + c) = k + c + i by omega]

/-- **C17** on memory: whatever the pointers – overlapping, out of range, null – processing `n + k` samples is processing the first `n` and
then the `k` that follow, with the same memory and the same outcome, undefined behaviour included. -/
theorem C17_memory (n k : ℕ) (s : σ) (m : Mem α) (p q : Ptr) :
    (∀ step : σ → α → σ × α, loopMap step p q (n + k) s m =
      (loopMap step p q n s m).bind fun r => loopMap step (p.advance n) (q.advance n) k r.1 r.2) ∧
    (∀ tick : σ → σ × α, loopGen tick p (n + k) s m = (loopGen tick p n s m).bind fun r => loopGen tick (p.advance n) k r.1 r.2) ∧
    (∀ tick : σ → σ × Stereo α, loopGenStereo tick p q (n + k) s m =
      (loopGenStereo tick p q n s m).bind fun r => loopGenStereo tick (p.advance n) (q.advance n) k r.1 r.2) ∧
    (∀ step : σ → Stereo α → σ × Stereo α, loopMapStereo step p q (n + k) s m =
      (loopMapStereo step p q n s m).bind fun r => loopMapStereo step (p.advance n) (q.advance n) k r.1 r.2) := by
  refine ⟨fun step => ?_, fun tick => ?_, fun tick => ?_, fun step => ?_⟩
  · unfold loopMap
    rw [forLoop_add]
    congr 1; funext r
    exact forLoop_advance _ _ n (fun i => by funext t; simp only [load_advance, store_advance]) 0 k r
  · unfold loopGen
    rw [forLoop_add]
    congr 1; funext r
    exact forLoop_advance _ _ n (fun i => by funext t; simp only [store_advance]) 0 k r
  · unfold loopGenStereo
    rw [forLoop_add]
    congr 1; funext r
    exact forLoop_advance _ _ n (fun i => by funext t; simp only [store_advance]) 0 k r
  · unfold loopMapStereo
    rw [forLoop_add]
    congr 1; funext r
    exact forLoop_advance _ _ n (fun i => by funext t; simp only [load_advance, store_advance]) 0 k r

end memory

/-- Two calls on four and three samples of a seven-sample block, in single precision, with a saw whose phase is NaN from the start. -/
example [Libm F32] (s : SawDPW.Osc F32) (m : Mem F32) :
    loopGen SawDPW.tick (.at 0 5) (4 + 3) { s with phase := FP.nan } m =
      (loopGen SawDPW.tick (.at 0 5) 4 { s with phase := FP.nan } m).bind fun r => loopGen SawDPW.tick (.at 0 9) 3 r.1 r.2 :=
  (C17_memory 4 3 _ m (.at 0 5) .null).2.1 SawDPW.tick

end Verif

namespace Verif.Downsampler
variable {α : Type} [Arith α] [Libm α]

theorem writeRead_factor (f n : ℕ) (xs : List α) (s : Down α) : (writeRead f n xs s).1.oversampleFactor = s.oversampleFactor := by
  induction n generalizing xs s with
  | zero => rfl
  | succ n ih => simp only [writeRead, ih, read_factor, write_factor]

theorem writeRead_add (f n k : ℕ) (xs : List α) (s : Down α) : writeRead f (n + k) xs s =
    ((writeRead f k (xs.drop (n * f)) (writeRead f n xs s).1).1,
      (writeRead f n xs s).2 ++ (writeRead f k (xs.drop (n * f)) (writeRead f n xs s).1).2) := by
  induction n generalizing xs s with
  | zero => simp [writeRead]
  | succ n ih =>
    rw [show n + 1 + k = (n + k) + 1 by omega]
    simp only [writeRead, ih, List.drop_drop, show f + n * f = (n + 1) * f by ring, List.cons_append]

/-- **C17** for the Downsampler: producing `n + k` outputs at once is producing `n`, then `k` from the input that follows the first `n`
groups, given enough input for both. -/
theorem C17_downsampler (s : Down α) (input : List α) (n k : ℕ) (h : (n + k) * s.oversampleFactor ≤ input.length)
    (hl : input.length < 2 ^ 64) :
    ∃ r q, process input n s = some r ∧ process (input.drop (n * s.oversampleFactor)) k r.1 = some q ∧
      process input (n + k) s = some (q.1, r.2 ++ q.2) := by
  have e : (n + k) * s.oversampleFactor = n * s.oversampleFactor + k * s.oversampleFactor := by ring
  have f := writeRead_factor s.oversampleFactor n input s
  refine ⟨_, _, (C33_process_eq_loop s input n (by omega) hl).1,
    (C33_process_eq_loop _ _ k (by rw [f, List.length_drop]; omega) (by rw [List.length_drop]; omega)).1, ?_⟩
  rw [(C33_process_eq_loop s input (n + k) h hl).1, f, writeRead_add]

/-- Six inputs at factor two: one output and then two. -/
example : (2 + 1) * (⟨(0 : ℝ), 2, 0, 0, [0, 0, 0, 0], 1⟩ : Down ℝ).oversampleFactor ≤ ([1, 2, 3, 4, 5, 6] : List ℝ).length ∧
    ([1, 2, 3, 4, 5, 6] : List ℝ).length < 2 ^ 64 := by norm_num

end Verif.Downsampler
