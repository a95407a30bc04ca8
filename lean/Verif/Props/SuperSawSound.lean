import Verif.Props.SuperSawProgram
import Verif.Props.ExamplePrograms
import Verif.Props.LadderBounds
import Verif.Props.Filters
import Mathlib.Analysis.SpecificLimits.Basic
import Mathlib.Analysis.Real.Pi.Bounds

/-!
# C92: the signal path of supersaw_example.cpp: three notes, two separate channels, no DC, bounded
-/

set_option linter.unusedSectionVars false

namespace Verif.SuperSawExample
open FVerb FVerbDSP

/-! ## Specification -/

section
variable {σ β γ : Type}

/-- The state of a unit after `n` samples of the input stream `x`. -/
def stateAt (step : σ → β → σ × γ) (s : σ) (x : ℕ → β) : ℕ → σ
  | 0 => s
  | n + 1 => (step (stateAt step s x n) (x n)).1

/-- The output of a unit for sample `n` of the input stream `x`. -/
def outAt (step : σ → β → σ × γ) (s : σ) (x : ℕ → β) (n : ℕ) : γ := (step (stateAt step s x n) (x n)).2

/-- `outAt` is what a loop over the samples collects. -/
theorem forEach_outAt (step : σ → β → σ × γ) (x : ℕ → β) (n : ℕ) : ∀ s : σ,
    forEach step s ((List.range n).map x) = (stateAt step s x n, (List.range n).map (outAt step s x)) := by
  induction n with
  | zero => intro s; rfl
  | succ n ih =>
    intro s
    rw [List.range_succ, List.map_append, List.map_append, forEach_append, ih]
    rfl
end

section
variable {α β : Type} [Arith α] [Arith β] [Libm α] [Libm β] [Conv α β] [Conv β α]

/-- The DC blocker as a difference equation: `y[n] = x[n] - x[n-1] + 0.995 y[n-1]`, with zeros before the start. -/
def dcOut (x : ℕ → α) : ℕ → α
  | 0 => x 0 - lit 0 + lit 0.995 * lit 0
  | n + 1 => x (n + 1) - x n + lit 0.995 * dcOut x n

/-- The ladder filter with the cutoff and the drive of every sample, at the resonance 0.01. -/
def ladderStep (f : RKSimulation.Ladder α β) (x : α × α × α) : RKSimulation.Ladder α β × α :=
  RKSimulation.tick (RKSimulation.setDrive x.2.1 (RKSimulation.setResonance (lit 0.01) (RKSimulation.setCutoff x.1 f))) x.2.2

/-- One channel: the ladder filter, the DC blocker, the downsampler and the low pass, in this order, for the streams of cutoffs, drives and
input samples. -/
def channel (f : RKSimulation.Ladder α β) (d : Downsampler.Down α) (p : OnePoleLPF.Filt α) (cut gain x : ℕ → α) : ℕ → α :=
  let filtered := outAt ladderStep f fun n => (cut n, gain n, x n)
  let down := outAt (fun d x => Downsampler.read (Downsampler.write d x)) d (dcOut filtered)
  outAt (fun p (q : α × α) => OnePoleLPF.tickMod p q.1 q.2) p fun n => (down n, cut n)

/-- The third of the sum of three voices. -/
def third (a b c : α) : α := (lit 0 + a + b + c) * (lit 1 / Arith.ofNat 3)

/-! ## The chain -/

/-- The memory of the DC blocker. -/
def dcMem (x : ℕ → α) : ℕ → α × α
  | 0 => (lit 0, lit 0)
  | n + 1 => (x n, dcOut x n)

omit [Libm α] in
theorem dcBlock_mem (x : ℕ → α) (n : ℕ) : dcBlock (dcMem x n) (x n) = (dcMem x (n + 1), dcOut x n) := by
  cases n <;> rfl

/-- **C92** (every number format): the dry sound of the program. After the start, for any number of frames and any controls, the left channel
is the chain of ladder, DC blocker, downsampler and low pass applied to the third of the sum of what the three voices give on the left; the right
channel is the same chain, with its own units, applied to the right. The cutoff of every sample is the smoothed cutoff control, for both
filters of both channels, and the drive is the gain of the smoothed drive control. -/
theorem C92_chain (R : ℕ) (rand : ℕ → ℕ → α) (cutoff drive : α) (old s : State α β) (h : setup R rand cutoff drive old = some s)
    (controls : ℕ → α × α) (n : ℕ) :
    ∃ a b c : SuperSaw.Synth α, s.voices = [a, b, c] ∧
      let cut := outAt Lag.tick s.cutoffLag fun i => (controls i).1
      let gain := fun i => driveFromNormalized (outAt Lag.tick s.driveLag (fun i => (controls i).2) i)
      let left := fun i => third (tickOut SuperSaw.tick i a).left (tickOut SuperSaw.tick i b).left (tickOut SuperSaw.tick i c).left
      let right := fun i => third (tickOut SuperSaw.tick i a).right (tickOut SuperSaw.tick i b).right (tickOut SuperSaw.tick i c).right
      (forEach dryFrame s ((List.range n).map controls)).2 =
        (List.range n).map fun i =>
          ⟨channel s.filterL s.downsampler.left s.postL cut gain left i, channel s.filterR s.downsampler.right s.postR cut gain right i⟩ := by
  obtain ⟨a, b, c, hv, hL, hR⟩ : ∃ a b c, s.voices = [a, b, c] ∧ s.dcL = (lit 0, lit 0) ∧ s.dcR = (lit 0, lit 0) := by
    unfold setup at h
    obtain ⟨⟨h', o'⟩, -, rfl⟩ := Option.map_eq_some_iff.1 h
    exact ⟨_, _, _, rfl, rfl, rfl⟩
  refine ⟨a, b, c, hv, ?_⟩
  intro cut gain left right
  set fl := outAt ladderStep s.filterL fun n => (cut n, gain n, left n) with hfl
  set fr := outAt ladderStep s.filterR fun n => (cut n, gain n, right n) with hfr
  set dl := outAt (fun d x => Downsampler.read (Downsampler.write d x)) s.downsampler.left (dcOut fl) with hdl
  set dr := outAt (fun d x => Downsampler.read (Downsampler.write d x)) s.downsampler.right (dcOut fr) with hdr
  set St : ℕ → State α β := fun n => { s with
        voices := [tickState SuperSaw.tick n a, tickState SuperSaw.tick n b, tickState SuperSaw.tick n c]
        cutoffLag := stateAt Lag.tick s.cutoffLag (fun i => (controls i).1) n
        driveLag := stateAt Lag.tick s.driveLag (fun i => (controls i).2) n
        downsampler := ⟨stateAt (fun d x => Downsampler.read (Downsampler.write d x)) s.downsampler.left (dcOut fl) n,
          stateAt (fun d x => Downsampler.read (Downsampler.write d x)) s.downsampler.right (dcOut fr) n⟩
        filterL := stateAt ladderStep s.filterL (fun n => (cut n, gain n, left n)) n
        filterR := stateAt ladderStep s.filterR (fun n => (cut n, gain n, right n)) n
        postL := stateAt (fun p (q : α × α) => OnePoleLPF.tickMod p q.1 q.2) s.postL (fun n => (dl n, cut n)) n
        postR := stateAt (fun p (q : α × α) => OnePoleLPF.tickMod p q.1 q.2) s.postR (fun n => (dr n, cut n)) n
        dcL := dcMem fl n
        dcR := dcMem fr n } with hSt
  have h0 : s = St 0 := by
    obtain ⟨v, cl, drl, ds, f1, f2, p1, p2, d1, d2, hp, rv⟩ := s
    simp only at hv hL hR
    subst hv hL hR
    rfl
  have hstep : ∀ n, dryFrame (St n) (controls n) = (St (n + 1), ⟨channel s.filterL s.downsampler.left s.postL cut gain left n,
      channel s.filterR s.downsampler.right s.postR cut gain right n⟩) := by
    intro n
    have e1 : dcBlock (St n).dcL (fl n) = _ := dcBlock_mem fl n
    have e2 : dcBlock (St n).dcR (fr n) = _ := dcBlock_mem fr n
    have ts : ∀ v : SuperSaw.Synth α, tickState SuperSaw.tick (n + 1) v = (SuperSaw.tick (tickState SuperSaw.tick n v)).1 := fun v => tickState_succ _ _ _
    have er : dryFrame (St n) (controls n) =
      (let dcL := dcBlock (St n).dcL (fl n)
       let dcR := dcBlock (St n).dcR (fr n)
       let d := StereoDownsampler.read (StereoDownsampler.write (St n).downsampler ⟨dcL.2, dcR.2⟩)
       let pl := OnePoleLPF.tickMod (St n).postL d.2.left (cut n)
       let pr := OnePoleLPF.tickMod (St n).postR d.2.right (cut n)
       ({ St (n + 1) with
          voices := [(SuperSaw.tick (tickState SuperSaw.tick n a)).1, (SuperSaw.tick (tickState SuperSaw.tick n b)).1,
            (SuperSaw.tick (tickState SuperSaw.tick n c)).1]
          downsampler := d.1, postL := pl.1, postR := pr.1, dcL := dcL.1, dcR := dcR.1 }, ⟨pl.2, pr.2⟩)) := rfl
    rw [er, e1, e2]
    simp only [hSt, ts]
    rfl
  have key : ∀ n, stateAt dryFrame s controls n = St n := by
    intro n
    induction n with
    | zero => exact h0
    | succ n ih => rw [stateAt, ih, hstep]
  rw [forEach_outAt]
  exact List.map_congr_left fun i _ => by rw [outAt, key, hstep]

end
/-! ## The DC blocker in exact arithmetic -/

theorem dcOut_zero (x : ℕ → ℝ) : dcOut x 0 = x 0 := by simp only [dcOut, real_arith]; push_cast; ring

theorem dcOut_succ (x : ℕ → ℝ) (n : ℕ) : dcOut x (n + 1) = x (n + 1) - x n + 0.995 * dcOut x n := by
  rw [dcOut]; simp only [real_arith]; norm_num

/-- What the blocker has taken away is a running mean of the input. -/
theorem dcOut_mean (x : ℕ → ℝ) (n : ℕ) : x (n + 1) - dcOut x (n + 1) = 0.995 * (x n - dcOut x n) + 0.005 * x n := by
  rw [dcOut_succ]; ring

/-- **C92** (exact arithmetic): the DC blocker at most doubles the peak. -/
theorem C92_dc_bounded (x : ℕ → ℝ) (B : ℝ) (hx : ∀ n, |x n| ≤ B) (n : ℕ) : |dcOut x n| ≤ 2 * B := by
  have h0 : 0 ≤ B := (abs_nonneg _).trans (hx 0)
  have key : ∀ n, |x n - dcOut x n| ≤ B := by
    intro n
    induction n with
    | zero => rw [dcOut_zero, sub_self, abs_zero]; exact h0
    | succ n ih =>
      rw [dcOut_mean]
      have a := abs_le.1 ih
      have b := abs_le.1 (hx n)
      rw [abs_le]
      constructor <;> linarith
  have a := abs_le.1 (key n)
  have b := abs_le.1 (hx n)
  rw [abs_le]
  constructor <;> linarith

/-- **C92** (exact arithmetic): a constant decays by the factor 0.995 per sample. -/
theorem C92_dc_constant (c : ℝ) (n : ℕ) : dcOut (fun _ => c) n = c * 0.995 ^ n := by
  induction n with
  | zero => rw [dcOut_zero]; ring
  | succ n ih => rw [dcOut_succ, ih]; ring

/-- **C92** (exact arithmetic): an input that settles, at whatever level, comes out as silence. -/
theorem C92_dc_removed (x : ℕ → ℝ) (L : ℝ) (hx : Filter.Tendsto x Filter.atTop (nhds L)) :
    Filter.Tendsto (dcOut x) Filter.atTop (nhds 0) := by
  rw [Metric.tendsto_atTop] at hx ⊢
  intro ε hε
  obtain ⟨N, hN⟩ := hx (ε / 4) (by linarith)
  set D := |x N - dcOut x N - L| with hD
  have key : ∀ k, |x (N + k) - dcOut x (N + k) - L| ≤ 0.995 ^ k * D + ε / 4 := by
    intro k
    induction k with
    | zero => simp only [Nat.add_zero, pow_zero, one_mul]; rw [← hD]; linarith
    | succ k ih =>
      rw [← Nat.add_assoc, dcOut_mean]
      have h := hN (N + k) (by omega)
      rw [Real.dist_eq] at h
      have a := abs_le.1 ih
      have b := abs_lt.1 h
      have e : (0.995:ℝ) ^ (k + 1) * D = 0.995 * (0.995 ^ k * D) := by rw [pow_succ]; ring
      rw [e, abs_le]
      generalize (0.995:ℝ) ^ k * D = G at *
      constructor <;> linarith
  have hz : Filter.Tendsto (fun k : ℕ => (0.995:ℝ) ^ k * D) Filter.atTop (nhds 0) := by
    have := (tendsto_pow_atTop_nhds_zero_of_lt_one (r := (0.995:ℝ)) (by norm_num) (by norm_num)).mul_const D
    rwa [zero_mul] at this
  obtain ⟨M, hM⟩ := (Metric.tendsto_atTop.1 hz) (ε / 4) (by linarith)
  refine ⟨N + M, fun n hn => ?_⟩
  obtain ⟨k, rfl⟩ : ∃ k, n = N + k := ⟨n - N, by omega⟩
  have h1 := key k
  have h2 := hM k (by omega)
  have h3 := hN (N + k) (by omega)
  rw [Real.dist_eq] at h2 h3 ⊢
  rw [sub_zero] at h2 ⊢
  have a := abs_le.1 h1
  have b := abs_lt.1 h2
  have c := abs_lt.1 h3
  rw [abs_lt]
  generalize (0.995:ℝ) ^ k * D = G at *
  constructor <;> linarith

/-- Concrete case: after 200 samples less than 0.4 of a constant offset is left. -/
example : dcOut (fun _ => (1:ℝ)) 200 ≤ 0.4 := by rw [C92_dc_constant]; norm_num

/-! ## The level of the dry sound in exact arithmetic -/

/-- The ladder of the program: twice oversampled, so that a step is half a sample. -/
def FilterOk (sr top : ℝ) (f : RKSimulation.Ladder ℝ ℝ) : Prop :=
  RKSimulation.Bdd (2 * sr) top { f with sampleRate := 2 * sr }

theorem filterOk_cutoff {sr top c : ℝ} {f : RKSimulation.Ladder ℝ ℝ} (c0 : 0 ≤ c) (c1 : c ≤ top) (h : FilterOk sr top f) :
    FilterOk sr top (RKSimulation.setCutoff c f) := by
  have e : (RKSimulation.setCutoff c f).cutoffCoeff = 2 * 3.14159265358979323846 * c := by
    show (lit 2 * Conv.conv (PI : ℝ) : ℝ) * c = _
    have ePI : (lit 2 * Conv.conv (PI : ℝ) : ℝ) = 2 * 3.14159265358979323846 := by simp only [PI, Conv.conv, id, real_arith]; norm_num
    rw [ePI]
  exact ⟨rfl, h.sat, h.satInv, by show 0 ≤ (RKSimulation.setCutoff c f).cutoffCoeff; rw [e]; positivity,
    by show (RKSimulation.setCutoff c f).cutoffCoeff ≤ _; rw [e]; norm_num; linarith, h.h0, h.h1, RKSimulation.makeup_ideal _ _, h.x0, h.x1, h.x2, h.x3⟩

theorem filterOk_tick {sr top x : ℝ} {f : RKSimulation.Ladder ℝ ℝ} (h : FilterOk sr top f) :
    FilterOk sr top (RKSimulation.tick f x).1 ∧
      |(RKSimulation.tick f x).2| ≤ 5 * (3 + 8 * (2 * 3.14159265358979323846 * top / (2 * sr))) := by
  have ht : FilterOk sr top (RKSimulation.tick f x).1 := by
    show FilterOk sr top ((RKSimulation.solver (Conv.conv x))^[f.oversampleFactor.toNat] f)
    generalize f.oversampleFactor.toNat = n
    induction n generalizing f with
    | zero => exact h
    | succ n ih =>
      rw [Function.iterate_succ_apply]
      exact ih (f := RKSimulation.solver (Conv.conv x) f) (RKSimulation.solver_bdd (Conv.conv x) _ h)
  refine ⟨ht, ?_⟩
  show |(RKSimulation.tick f x).1.state.x3 * (RKSimulation.tick f x).1.makeupGain| ≤ _
  rw [abs_mul, mul_comm]
  exact mul_le_mul ht.m ht.x3 (abs_nonneg _) (by norm_num)

theorem filterOk_step {sr top : ℝ} {f : RKSimulation.Ladder ℝ ℝ} {x : ℝ × ℝ × ℝ} (h : FilterOk sr top f) (c0 : 0 ≤ x.1) (c1 : x.1 ≤ top) :
    FilterOk sr top (ladderStep f x).1 ∧ |(ladderStep f x).2| ≤ 5 * (3 + 8 * (2 * 3.14159265358979323846 * top / (2 * sr))) := by
  have hc := filterOk_cutoff c0 c1 h
  refine filterOk_tick (f := RKSimulation.setDrive _ (RKSimulation.setResonance (lit 0.01) (RKSimulation.setCutoff x.1 f))) ?_
  exact ⟨rfl, hc.sat, hc.satInv, hc.w0, hc.w1, hc.h0, hc.h1, hc.m, hc.x0, hc.x1, hc.x2, hc.x3⟩

theorem filterOk_setup {sr top drive : ℝ} (hsr : 0 < sr) (h5000 : 5000 ≤ top) (old : RKSimulation.Ladder ℝ ℝ) : FilterOk sr top (filterOf sr drive old) := by
  have z0 : |(lit 0 : ℝ)| ≤ 3 + 8 * (2 * 3.14159265358979323846 * top / (2 * sr)) := by
    have : 0 ≤ top := by linarith
    simp only [real_arith]
    push_cast
    rw [abs_zero]
    positivity
  have e : (RKSimulation.stepSizeOf 2 sr : ℝ) = 1 / (2 * sr) := by simp only [RKSimulation.stepSizeOf, Conv.conv, id, real_arith]; push_cast; rfl
  have l3 : (lit 3 : ℝ) = 3 := by simp only [real_arith]; norm_num
  have l1 : (lit 1 / lit 3 : ℝ) = 1 / 3 := by simp only [real_arith]; norm_num
  have l5 : (lit 5000 : ℝ) = 5000 := by simp only [real_arith]; norm_num
  have ePI : (lit 2 * Conv.conv (PI : ℝ) : ℝ) = 2 * 3.14159265358979323846 := by simp only [PI, Conv.conv, id, real_arith]; norm_num
  have hw : (filterOf sr drive old).cutoffCoeff = 2 * 3.14159265358979323846 * 5000 := by
    show (lit 2 * Conv.conv (PI : ℝ) : ℝ) * lit 5000 = _
    rw [ePI, l5]
  have hh : (filterOf sr drive old).stepSize = 1 / (2 * sr) := e
  refine ⟨rfl, l3, l1, ?_, ?_, ?_, ?_, RKSimulation.makeup_ideal _ _, z0, z0, z0, z0⟩
  · show 0 ≤ (filterOf sr drive old).cutoffCoeff
    rw [hw]; norm_num
  · show (filterOf sr drive old).cutoffCoeff ≤ _
    rw [hw]; norm_num; linarith
  · show 0 ≤ (filterOf sr drive old).stepSize
    rw [hh]; positivity
  · exact hh.le

theorem stateAt_inv {σ β γ : Type} {step : σ → β → σ × γ} {x : ℕ → β} {I : σ → Prop} {P : γ → Prop}
    (hstep : ∀ s n, I s → I (step s (x n)).1 ∧ P (step s (x n)).2) {s : σ} (h : I s) (n : ℕ) : P (outAt step s x n) := by
  have : ∀ n, I (stateAt step s x n) := by
    intro n
    induction n with
    | zero => exact h
    | succ n ih => exact (hstep _ n ih).1
  exact (hstep _ n (this n)).2

theorem down_le {c M : ℝ} {f : ℝ} (hc0 : 0 ≤ c) (hc1 : c ≤ 1) (l : List ℝ) (hl : ∀ y ∈ l, |y| ≤ M) (hf : |f| ≤ M) :
    |(Downsampler.cascade c f l).1| ≤ M ∧ ∀ y ∈ (Downsampler.cascade c f l).2, |y| ≤ M := by
  induction l generalizing f with
  | nil => exact ⟨hf, by simp [Downsampler.cascade, forEach]⟩
  | cons y l ih =>
    have hy := hl y List.mem_cons_self
    have hn : |(y + c * (f - y) : ℝ)| ≤ M := by
      have a := abs_le.1 hy
      have b := abs_le.1 hf
      rw [abs_le]
      constructor <;> nlinarith
    obtain ⟨i1, i2⟩ := ih (f := y + c * (f - y)) (fun z hz => hl z (List.mem_cons_of_mem _ hz)) hn
    refine ⟨i1, ?_⟩
    intro z hz
    rcases List.mem_cons.1 (show z ∈ (y + c * (f - y)) :: (Downsampler.cascade c (y + c * (f - y)) l).2 from hz) with rfl | hz
    · exact hn
    · exact i2 z hz

/-- The downsampler between two frames: empty, states below `M`. -/
def DownOk (M : ℝ) (d : Downsampler.Down ℝ) : Prop :=
  0 ≤ d.filterCoeff ∧ d.filterCoeff ≤ 1 ∧ (∀ y ∈ d.filterState, |y| ≤ M) ∧ d.accumulator = 0 ∧ d.sampleCount = 0

theorem downOk_step {M : ℝ} {d : Downsampler.Down ℝ} {x : ℝ} (h : DownOk M d) (hx : |x| ≤ M) :
    DownOk M (Downsampler.read (Downsampler.write d x)).1 ∧ |(Downsampler.read (Downsampler.write d x)).2| ≤ M := by
  obtain ⟨c0, c1, hs, ha, hn⟩ := h
  obtain ⟨i1, i2⟩ := down_le c0 c1 d.filterState hs hx
  have hz : (Downsampler.write d x).sampleCount = 1 := by simp [Downsampler.write, hn, szAdd]
  have e : Downsampler.read (Downsampler.write d x) = ({ Downsampler.write d x with accumulator := lit 0, sampleCount := 0 },
      (Downsampler.write d x).accumulator / Arith.ofNat 1) := by
    rw [Downsampler.read, hz]; rfl
  rw [e]
  refine ⟨⟨c0, c1, i2, by simp only [real_arith]; norm_num, rfl⟩, ?_⟩
  have ea : (Downsampler.write d x).accumulator = (Downsampler.cascade d.filterCoeff x d.filterState).1 := by
    show d.accumulator + _ = _
    rw [ha, rAdd, zero_add]
    rfl
  rw [ea]
  simp only [real_arith]
  push_cast
  rw [div_one]
  exact i1

theorem post_step {M : ℝ} {p : OnePoleLPF.Filt ℝ} (hsr : 0 < p.sampleRate) (hz : |p.z| ≤ M) {x c : ℝ} (hx : |x| ≤ M) :
    0 < (OnePoleLPF.tickMod p x c).1.sampleRate ∧ |(OnePoleLPF.tickMod p x c).1.z| ≤ M ∧ |(OnePoleLPF.tickMod p x c).2| ≤ M := by
  obtain ⟨h0, h1⟩ := OnePoleLPF.pole_real hsr c
  have hb : |(OnePoleLPF.tickMod p x c).2| ≤ M := by
    have e : (OnePoleLPF.tickMod p x c).2 = (1 - Real.exp (-TWO_PI * clamp c (lit 1) (p.sampleRate * lit 0.5) / p.sampleRate)) * x +
        Real.exp (-TWO_PI * clamp c (lit 1) (p.sampleRate * lit 0.5) / p.sampleRate) * p.z := by
      have l1 : (lit 1 : ℝ) = 1 := by simp only [real_arith]; norm_num
      conv_rhs => rw [show (1:ℝ) = lit 1 from l1.symm]
      rfl
    rw [e]
    generalize Real.exp (-TWO_PI * clamp c (lit 1) (p.sampleRate * lit 0.5) / p.sampleRate) = q at *
    have a := abs_le.1 hz
    have b := abs_le.1 hx
    rw [abs_le]
    constructor <;> nlinarith
  exact ⟨hsr, hb, hb⟩

/-- One channel is bounded. -/
theorem channel_bounded {sr top : ℝ} {f : RKSimulation.Ladder ℝ ℝ} {d : Downsampler.Down ℝ} {p : OnePoleLPF.Filt ℝ}
    (hf : FilterOk sr top f) (hd : DownOk (10 * (3 + 8 * (2 * 3.14159265358979323846 * top / (2 * sr)))) d) (hp : 0 < p.sampleRate)
    (hz : |p.z| ≤ 10 * (3 + 8 * (2 * 3.14159265358979323846 * top / (2 * sr)))) {cut gain x : ℕ → ℝ} (hc : ∀ n, 0 ≤ cut n ∧ cut n ≤ top) (n : ℕ) :
    |channel f d p cut gain x n| ≤ 10 * (3 + 8 * (2 * 3.14159265358979323846 * top / (2 * sr))) := by
  have h1 : ∀ n, |outAt ladderStep f (fun n => (cut n, gain n, x n)) n| ≤ 5 * (3 + 8 * (2 * 3.14159265358979323846 * top / (2 * sr))) :=
    fun n => stateAt_inv (I := FilterOk sr top) (P := fun y => |y| ≤ _) (fun s n hs => filterOk_step hs (hc n).1 (hc n).2) hf n
  have h2 : ∀ n, |dcOut (outAt ladderStep f (fun n => (cut n, gain n, x n))) n| ≤ 10 * (3 + 8 * (2 * 3.14159265358979323846 * top / (2 * sr))) :=
    fun n => (C92_dc_bounded _ _ h1 n).trans (by linarith)
  have h3 := fun n => stateAt_inv (step := fun d x => Downsampler.read (Downsampler.write d x)) (I := DownOk _)
    (P := fun y => |y| ≤ 10 * (3 + 8 * (2 * 3.14159265358979323846 * top / (2 * sr)))) (fun s n hs => downOk_step hs (h2 n)) hd n
  exact stateAt_inv (step := fun p (q : ℝ × ℝ) => OnePoleLPF.tickMod p q.1 q.2)
    (I := fun p => 0 < p.sampleRate ∧ |p.z| ≤ 10 * (3 + 8 * (2 * 3.14159265358979323846 * top / (2 * sr))))
    (P := fun y => |y| ≤ 10 * (3 + 8 * (2 * 3.14159265358979323846 * top / (2 * sr))))
    (fun s n hs => by
      obtain ⟨a, b, c⟩ := post_step hs.1 hs.2 (h3 n) (c := cut n)
      exact ⟨⟨a, b⟩, c⟩) ⟨hp, hz⟩ n

/-- **C92** (exact arithmetic): whatever the controls do, as long as the cutoff stays between 0 and `top` (at least the 5000 Hz of the start),
and whatever the random phases, no dry sample of either channel exceeds `10 (3 + 8 π top / sampleRate)`: 93 at 48 kHz for the 12 kHz of
the mouse range. -/
theorem C92_bounded (R : ℕ) (hR : 0 < R) (rand : ℕ → ℕ → ℝ) (cutoff drive top : ℝ) (h5000 : 5000 ≤ top) (old s : State ℝ ℝ)
    (h : setup R rand cutoff drive old = some s) (controls : List (ℝ × ℝ)) (hc : ∀ c ∈ controls, 0 ≤ c.1 ∧ c.1 ≤ top) :
    ∀ y ∈ (forEach dryFrame s controls).2,
      |y.left| ≤ 10 * (3 + 8 * (Real.pi * top / R)) ∧ |y.right| ≤ 10 * (3 + 8 * (Real.pi * top / R)) := by
  have hsr : (0:ℝ) < R := by exact_mod_cast hR
  have h' := h
  unfold setup at h
  obtain ⟨⟨hp, o⟩, -, rfl⟩ := Option.map_eq_some_iff.1 h
  set cs : ℕ → ℝ × ℝ := fun i => controls.getD i (0, 0) with hcs
  have hcsr : ∀ i, 0 ≤ (cs i).1 ∧ (cs i).1 ≤ top := by
    intro i
    by_cases hi : i < controls.length
    · have : cs i = controls[i] := by simp [hcs, hi]
      rw [this]; exact hc _ (List.getElem_mem _)
    · have : cs i = (0, 0) := by simp [hcs, not_lt.1 hi]
      rw [this]; exact ⟨le_rfl, by show (0:ℝ) ≤ top; linarith⟩
  have hlist : controls = (List.range controls.length).map cs := by
    apply List.ext_getElem
    · simp
    · intro i h1 h2
      simp [hcs, h1]
  obtain ⟨a, b, c, -, hch⟩ := C92_chain R rand cutoff drive old _ h' cs controls.length
  rw [hlist, hch]
  intro y hy
  obtain ⟨i, -, rfl⟩ := List.mem_map.1 hy
  have M0 : 0 ≤ 10 * (3 + 8 * (2 * 3.14159265358979323846 * top / (2 * (R:ℝ)))) := by
    have : 0 ≤ top := by linarith
    positivity
  have hcut : ∀ n, 0 ≤ outAt Lag.tick (Lag.setValue (lit 5000) (Lag.init (Arith.ofNat R) (lit 0.2)) : Lag.Filt ℝ) (fun i => (cs i).1) n ∧
      outAt Lag.tick (Lag.setValue (lit 5000) (Lag.init (Arith.ofNat R) (lit 0.2)) : Lag.Filt ℝ) (fun i => (cs i).1) n ≤ top := by
    obtain ⟨k0, k1, -, -⟩ := Lag.coeff_real { sampleRate := (Arith.ofNat R : ℝ), prevOutput := lit 0, lagTime := lit 0, coeff := lit 0 }
      (by show (0 : ℝ) < Arith.ofNat R; rw [rOfNat]; exact hsr) (lit 0.2)
    have l5 : (lit 5000 : ℝ) = 5000 := by simp only [real_arith]; norm_num
    refine fun n => stateAt_inv (step := Lag.tick) (x := fun i => (cs i).1) (s := Lag.setValue (lit 5000) (Lag.init (Arith.ofNat R) (lit 0.2)))
      (I := fun f : Lag.Filt ℝ => (0 ≤ f.coeff ∧ f.coeff ≤ 1) ∧ 0 ≤ f.prevOutput ∧ f.prevOutput ≤ top)
      (P := fun y => 0 ≤ y ∧ y ≤ top) (fun f n hf => ?_) ⟨⟨k0, k1.le⟩, ?_⟩ n
    · have hl : (Lag.tick f (cs n).1).2 = f.coeff * f.prevOutput + (1 - f.coeff) * (cs n).1 := by
        simp only [Lag.tick, real_arith]; push_cast; ring
      have hb : 0 ≤ (Lag.tick f (cs n).1).2 ∧ (Lag.tick f (cs n).1).2 ≤ top := by
        obtain ⟨⟨q0, q1⟩, p0, p1⟩ := hf
        obtain ⟨x0, x1⟩ := hcsr n
        rw [hl]
        exact ⟨add_nonneg (mul_nonneg q0 p0) (mul_nonneg (by linarith) x0), by nlinarith⟩
      exact ⟨⟨hf.1, hb⟩, hb⟩
    · show 0 ≤ (lit 5000 : ℝ) ∧ (lit 5000 : ℝ) ≤ top
      rw [l5]; exact ⟨by norm_num, h5000⟩
  have hdown : DownOk (10 * (3 + 8 * (2 * 3.14159265358979323846 * top / (2 * (R:ℝ))))) (Downsampler.init (Arith.ofNat R : ℝ) 1) := by
    obtain ⟨e0, e1⟩ : 0 ≤ (1 - Real.exp (-(TWO_PI * ((R:ℝ) * lit 0.45) / ((R:ℝ) * Arith.ofNat 1))) : ℝ) ∧
        (1 - Real.exp (-(TWO_PI * ((R:ℝ) * lit 0.45) / ((R:ℝ) * Arith.ofNat 1))) : ℝ) ≤ 1 := by
      have : 0 ≤ TWO_PI * ((R:ℝ) * lit 0.45) / ((R:ℝ) * Arith.ofNat 1) := by simp only [TWO_PI, PI, real_arith]; push_cast; positivity
      have h1 := Real.exp_le_one_iff.2 (neg_nonpos.2 this)
      exact ⟨by linarith, by linarith [Real.exp_pos (-(TWO_PI * ((R:ℝ) * lit 0.45) / ((R:ℝ) * Arith.ofNat 1)))]⟩
    have ec : (Downsampler.init (Arith.ofNat R : ℝ) 1).filterCoeff =
        1 - Real.exp (-(TWO_PI * ((R:ℝ) * lit 0.45) / ((R:ℝ) * Arith.ofNat 1))) := by
      have l1 : (lit 1 : ℝ) = 1 := by simp only [real_arith]; norm_num
      have hr : (Arith.ofNat R : ℝ) = R := rOfNat R
      rw [← hr, ← l1]
      rfl
    refine ⟨by rw [ec]; exact e0, by rw [ec]; exact e1, ?_, by show (lit 0 : ℝ) = 0; simp only [real_arith]; norm_num, rfl⟩
    intro y hy
    have : y = (lit 0 : ℝ) := List.eq_of_mem_replicate hy
    rw [this]
    simp only [real_arith]
    push_cast
    rw [abs_zero]
    exact M0
  have hz : |(OnePoleLPF.init (Arith.ofNat R) cutoff : OnePoleLPF.Filt ℝ).z| ≤ 10 * (3 + 8 * (2 * 3.14159265358979323846 * top / (2 * (R:ℝ)))) := by
    show |(lit 0 : ℝ)| ≤ _
    simp only [real_arith]
    push_cast
    rw [abs_zero]
    exact M0
  have hpr : 0 < (OnePoleLPF.init (Arith.ofNat R) cutoff : OnePoleLPF.Filt ℝ).sampleRate := by
    show (0:ℝ) < Arith.ofNat R
    rw [rOfNat]; exact hsr
  have hfin : 10 * (3 + 8 * (2 * 3.14159265358979323846 * top / (2 * (R:ℝ)))) ≤ 10 * (3 + 8 * (Real.pi * top / R)) := by
    have hpi := Real.pi_gt_d20
    have e : 2 * 3.14159265358979323846 * top / (2 * (R:ℝ)) = 3.14159265358979323846 * top / R := by field_simp
    rw [e]
    have : 3.14159265358979323846 * top / (R:ℝ) ≤ Real.pi * top / R := by
      refine div_le_div_of_nonneg_right (mul_le_mul_of_nonneg_right hpi.le (by linarith)) hsr.le
    linarith
  have hfo : ∀ old, FilterOk R top (filterOf (Arith.ofNat R) drive old) := fun old => by rw [rOfNat]; exact filterOk_setup hsr h5000 old
  exact ⟨(channel_bounded (hfo _) hdown hpr hz hcut i).trans hfin, (channel_bounded (hfo _) hdown hpr hz hcut i).trans hfin⟩

/-! ## The start of the program in exact arithmetic -/

theorem toI32_real {x : ℝ} (h0 : 0 ≤ x) (h1 : x < 2 ^ 31) : Arith.toI32? x = some ⌊x⌋ := by
  have e : truncR x = ⌊x⌋ := if_pos h0
  have a : 0 ≤ ⌊x⌋ := Int.floor_nonneg.2 h0
  have b : ⌊x⌋ < 2 ^ 31 := Int.floor_lt.2 (by exact_mod_cast h1)
  simp only [Arith.toI32?, real_arith, e]
  rw [if_pos ⟨by omega, b⟩]

theorem delayConst_real {c0 : ℝ} (h0 : 1 ≤ c0) (h1 : c0 ≤ 192000) {q : ℚ} (q0 : 0 ≤ q) (q1 : q ≤ 1) {off : ℤ} (o0 : -1 ≤ off) (o1 : off ≤ 0) :
    delayConst c0 q off = some (clampDelay (⌊(q:ℝ) * c0⌋ + off)) := by
  have q0' : (0:ℝ) ≤ q := by exact_mod_cast q0
  have q1' : (q:ℝ) ≤ 1 := by exact_mod_cast q1
  have a : 0 ≤ (q:ℝ) * c0 := by positivity
  have b : (q:ℝ) * c0 ≤ 192000 := by nlinarith
  have c : ⌊(q:ℝ) * c0⌋ ≤ 192000 := by
    have := Int.floor_le_floor b
    simpa using this
  have d : 0 ≤ ⌊(q:ℝ) * c0⌋ := Int.floor_nonneg.2 a
  have e : (lit q * c0 : ℝ) = q * c0 := rfl
  simp only [delayConst]
  rw [e, toI32_real a (by linarith), Option.bind_some, FVerbDSP.i32, if_pos ⟨by omega, by omega⟩]
  rfl

theorem constants_real (n : ℤ) : ∃ k : Consts ℝ, instanceConstants n = some k := by
  rw [← Option.isSome_iff_exists]
  have hc : (1:ℝ) ≤ Arith.stdMin (lit 1.92e+05) (Arith.stdMax (lit 1) (Arith.ofInt n)) ∧
      (Arith.stdMin (lit 1.92e+05) (Arith.stdMax (lit 1) (Arith.ofInt n)) : ℝ) ≤ 192000 := by
    simp only [Arith.stdMin, Arith.stdMax, real_arith]
    push_cast
    constructor <;> split_ifs <;> linarith
  unfold instanceConstants
  generalize (Arith.stdMin (lit 1.92e+05) (Arith.stdMax (lit 1) (Arith.ofInt n)) : ℝ) = c0 at *
  have ht : Arith.toI32? (lit 0.01 * c0 : ℝ) = some ⌊(lit 0.01 * c0 : ℝ)⌋ := by
    have : (lit 0.01 * c0 : ℝ) = 0.01 * c0 := by simp only [real_arith]; norm_num
    rw [this]
    exact toI32_real (by linarith [hc.1]) (by linarith [hc.2])
  simp (disch := norm_num) only [delayConst_real hc.1 hc.2, ht, Option.bind_some, Option.isSome_some]

/-- The program starts in exact arithmetic, so the theorems above are not vacuous. -/
theorem setup_real (R : ℕ) (hR : R < 2 ^ 31) (rand : ℕ → ℕ → ℝ) (cutoff drive : ℝ) (old : State ℝ ℝ) (h1 : old.heap = ⟨0, fun _ => none⟩)
    (h2 : old.reverb = .fresh) : ∃ s, setup R rand cutoff drive old = some s := by
  have hset : ∀ {h : Heap ℝ} (_ : HOk h) {o : Obj} {r : Unit' ℝ} {t : Finset ℕ} (_ : Rep h o r t) (p : Setter) (x : ℝ),
      ∃ h' r', FVerb.set h o p x = some h' ∧ HOk h' ∧ Rep h' o r' t := by
    intro h H o r t P p x
    obtain ⟨h', e, U, P'⟩ := dsp_rep H P (fun D => { D with params := setParam p x D.params })
    exact ⟨h', _, e, U.ok, P'⟩
  have H : HOk old.heap ∧ Rep old.heap old.reverb ⟨none, false⟩ ∅ := by
    rw [h1, h2]
    exact ⟨fun _ _ => rfl, [], [], by simp, rfl, rfl, Or.inl ⟨rfl, rfl, rfl, rfl, rfl⟩⟩
  obtain ⟨k, hk⟩ := constants_real (R : ℤ)
  have hD : ∃ D, newDsp arrays (Arith.ofNat R : ℝ) = some D := by
    have hR' : (R:ℝ) < 2 ^ 31 := by exact_mod_cast hR
    rw [← Option.isSome_iff_exists, newDsp, rOfNat, toI32_real (Nat.cast_nonneg _) hR', Option.bind_some, Int.floor_natCast, hk, Option.map_some]
    rfl
  obtain ⟨D, hD⟩ := hD
  obtain ⟨g0, o', t', e0, U, R0⟩ := init_rep H.1 H.2 hD
  obtain ⟨g1, r1, e1, H1, R1⟩ := hset U.ok R0 .predelay (lit 150)
  obtain ⟨g2, r2, e2, H2, R2⟩ := hset H1 R1 .decay (lit 82)
  obtain ⟨g3, r3, e3, H3, R3⟩ := hset H2 R2 .tailDensity (lit 80)
  obtain ⟨g4, r4, e4, H4, R4⟩ := hset H3 R3 .diffusion1 (lit 70)
  obtain ⟨g5, r5, e5, H5, R5⟩ := hset H4 R4 .diffusion2 (lit 75)
  obtain ⟨g6, r6, e6, H6, R6⟩ := hset H5 R5 .damping (lit 5500)
  have e : reverbOf (Arith.ofNat R) old.heap old.reverb = some (g6, o') := by
    simp only [reverbOf, e0, Option.bind_some, e1, e2, e3, e4, e5, e6, Option.map_some]
  exact ⟨_, by simp only [setup, e, Option.map_some]; rfl⟩

/-- Concrete case: at 48 kHz, with the pointer anywhere, no dry sample exceeds 93. -/
example (rand : ℕ → ℕ → ℝ) (old : State ℝ ℝ) (h1 : old.heap = ⟨0, fun _ => none⟩) (h2 : old.reverb = .fresh) (w h : ℤ) (pointer : List (ℤ × ℤ)) :
    ∃ s, setup 48000 rand 5000 0.5 old = some s ∧
      ∀ y ∈ (forEach dryFrame s (pointer.map fun p => (MoogExample.cutoffOf 100 12000 p.1 w, driveOf p.2 h))).2, |y.left| ≤ 93 ∧ |y.right| ≤ 93 := by
  obtain ⟨s, hs⟩ := setup_real 48000 (by norm_num) rand 5000 0.5 old h1 h2
  refine ⟨s, hs, fun y hy => ?_⟩
  have := C92_bounded 48000 (by norm_num) rand 5000 0.5 12000 (by norm_num) old s hs _ (fun c hc => ?_) y hy
  · have hpi := Real.pi_lt_d2
    push_cast at this
    exact ⟨this.1.trans (by linarith), this.2.trans (by linarith)⟩
  · obtain ⟨p, -, rfl⟩ := List.mem_map.1 hc
    obtain ⟨a, b⟩ := MoogExample.C74_cutoff_range 100 12000 (by norm_num) (by norm_num) p.1 w
    exact ⟨by show (0:ℝ) ≤ MoogExample.cutoffOf 100 12000 p.1 w; linarith, b⟩

/-! ## The notes -/

/-- A note that has been started and not been released. -/
def Held (f : F32) (v : SuperSaw.Synth F32) : Prop :=
  v.frequency = f ∧ v.envelope.gateValue = lit 1 ∧ (v.envelope.state = .attack ∨ v.envelope.state = .decay ∨ v.envelope.state = .sustain)

theorem Held.active {f : F32} {v : SuperSaw.Synth F32} (h : Held f v) : SuperSaw.isActive v = true := by
  obtain ⟨-, -, h⟩ := h
  rw [SuperSaw.isActive, EnvelopeADSR.isActive]
  rcases h with h | h | h <;> rw [h] <;> rfl

set_option linter.unusedSimpArgs false in
theorem Held.tick [Libm F32] {f : F32} {v : SuperSaw.Synth F32} (h : Held f v) : Held f (SuperSaw.tick v).1 := by
  obtain ⟨h1, h2, h3⟩ := h
  have hg : ((lit 1 : F32) <=. lit 0) = false := by decide +kernel
  have key : (EnvelopeADSR.tick v.envelope).1.gateValue = lit 1 ∧ ((EnvelopeADSR.tick v.envelope).1.state = .attack ∨
      (EnvelopeADSR.tick v.envelope).1.state = .decay ∨ (EnvelopeADSR.tick v.envelope).1.state = .sustain) := by
    unfold EnvelopeADSR.tick
    rcases h3 with h3 | h3 | h3
    · simp only [h3, h2, hg, Bool.false_eq_true, if_false]
      by_cases c : ((lit 1 - v.envelope.attackCoeff * (lit 1 - v.envelope.value)) >=. lit 0.999) = true <;> simp [c, h2, h3]
    · simp only [h3, h2, hg, Bool.false_eq_true, if_false]
      by_cases c : (Arith.fabs (v.envelope.sustainLevel + v.envelope.decayCoeff * (v.envelope.value - v.envelope.sustainLevel)
        - v.envelope.sustainLevel) <. lit 0.001) = true <;> simp [c, h2, h3]
    · simp [h3, h2, hg]
  exact ⟨h1, key⟩

/-- **C92** (binary32): from the start of the program and again after every change of the sample rate three voices sound, at 55, 329.63 and
523.25 Hz, and after any number of frames, whatever the controls, they still sound at those pitches. -/
theorem C92_notes [Libm F32] [Libm F64] (R : ℕ) (rand : ℕ → ℕ → F32) (cutoff drive : F32) (old s : State F32 F64)
    (h : setup R rand cutoff drive old = some s ∨ sampleRateCallback R rand cutoff drive old = some s) (controls : List (F32 × F32)) :
    (forEach dryFrame s controls).1.voices.map (fun v => v.frequency) = [lit 55, lit 329.63, lit 523.25] ∧
    ∀ v ∈ (forEach dryFrame s controls).1.voices, SuperSaw.isActive v = true := by
  have h0 : ∀ (sr f : F32) (r : ℕ → F32), Held f (voiceOf sr f r) := by
    intro sr f r
    have h1 : ((lit 0 : F32) <=. lit 0 && (lit 1 : F32) >. lit 0) = true := by decide +kernel
    refine ⟨rfl, ?_⟩
    show (EnvelopeADSR.gate (lit 1) _).gateValue = lit 1 ∧ ((EnvelopeADSR.gate (lit 1) _).state = .attack ∨ _)
    rw [EnvelopeADSR.gate]
    dsimp only
    rw [if_pos (by exact h1)]
    exact ⟨rfl, Or.inl rfl⟩
  have hs : ∃ a b c, s.voices = [a, b, c] ∧ Held (lit 55) a ∧ Held (lit 329.63) b ∧ Held (lit 523.25) c := by
    rcases h with h | h
    · unfold setup at h
      obtain ⟨⟨h', o'⟩, -, rfl⟩ := Option.map_eq_some_iff.1 h
      exact ⟨_, _, _, rfl, h0 _ _ _, h0 _ _ _, h0 _ _ _⟩
    · unfold sampleRateCallback at h
      obtain ⟨⟨h', o'⟩, -, rfl⟩ := Option.map_eq_some_iff.1 h
      exact ⟨_, _, _, rfl, h0 _ _ _, h0 _ _ _, h0 _ _ _⟩
  have hn : ∃ a b c, (forEach dryFrame s controls).1.voices = [a, b, c] ∧ Held (lit 55) a ∧ Held (lit 329.63) b ∧ Held (lit 523.25) c := by
    refine (forEach_inv (I := fun s : State F32 F64 => ∃ a b c, s.voices = [a, b, c] ∧ Held (lit 55) a ∧ Held (lit 329.63) b ∧ Held (lit 523.25) c)
      (P := fun _ _ => True) ?_ hs controls).1
    rintro s x ⟨a, b, c, hv, ha, hb, hc⟩
    refine ⟨⟨(SuperSaw.tick a).1, (SuperSaw.tick b).1, (SuperSaw.tick c).1, ?_, ha.tick, hb.tick, hc.tick⟩, trivial⟩
    simp only [dryFrame, mixVoices, hv, forEach]
  obtain ⟨a, b, c, e, ha, hb, hc⟩ := hn
  rw [e]
  refine ⟨by simp [ha.1, hb.1, hc.1], ?_⟩
  intro v hv
  simp only [List.mem_cons, List.not_mem_nil, or_false] at hv
  rcases hv with rfl | rfl | rfl
  · exact ha.active
  · exact hb.active
  · exact hc.active

/-- Concrete case: at 48 kHz the program starts, and the three notes sound after any number of frames. -/
example [Libm F32] [LibmSpec] [Libm F64] (rand : ℕ → ℕ → F32) (old : State F32 F64) (ho : Pristine old) (controls : List (F32 × F32)) :
    ∃ s, setup 48000 rand (lit 5000) (lit 0.5) old = some s ∧
      (forEach dryFrame s controls).1.voices.map (fun v => v.frequency) = [lit 55, lit 329.63, lit 523.25] := by
  obtain ⟨s, D, t, h, -⟩ := setup_runs (R := 48000) (by norm_num) (by norm_num) rand (lit 5000) (lit 0.5) ho
  exact ⟨s, h, (C92_notes 48000 rand _ _ old s (Or.inl h) controls).1⟩

/-- **C92, negative** (every number format): at the start every voice has random phases of its own (seeds 42, 43 and 44), but after a change of
the sample rate all three voices share those of the default seed: apart from the pitch they are identical. -/
theorem C92_shared_phases {α β : Type} [Arith α] [Arith β] [Libm α] [Libm β] [Conv α β] [Conv β α] (R : ℕ) (rand : ℕ → ℕ → α) (cutoff drive : α)
    (old s : State α β) :
    (setup R rand cutoff drive old = some s → ∀ i < 3, (s.voices.map fun v => v.voices.map fun w => (w.vibratoPhase, w.sawPhase))[i]? =
      some ((List.range 7).map fun k => (rand (42 + i) (2 * k), rand (42 + i) (2 * k + 1)))) ∧
    (sampleRateCallback R rand cutoff drive old = some s → ∀ v ∈ s.voices, ∀ w ∈ s.voices, SuperSaw.setFrequency w.frequency v = w) := by
  constructor
  · intro h i hi
    unfold setup at h
    obtain ⟨⟨h', o'⟩, -, rfl⟩ := Option.map_eq_some_iff.1 h
    match i, hi with
    | 0, _ => rfl
    | 1, _ => rfl
    | 2, _ => rfl
  · intro h v hv w hw
    unfold sampleRateCallback at h
    obtain ⟨⟨h', o'⟩, -, rfl⟩ := Option.map_eq_some_iff.1 h
    obtain ⟨f, -, rfl⟩ := List.mem_map.1 hv
    obtain ⟨g, -, rfl⟩ := List.mem_map.1 hw
    rfl

/-- **C92** (every number format): from the start and again after every change of the sample rate the two channels are in the same state: the
DC blockers, the downsamplers and the output filters are cleared, and the ladders agree if they agreed before. -/
theorem C92_channels_alike {α β : Type} [Arith α] [Arith β] [Libm α] [Libm β] [Conv α β] [Conv β α] (R : ℕ) (rand : ℕ → ℕ → α) (cutoff drive : α)
    (old s : State α β) (h : setup R rand cutoff drive old = some s ∨ sampleRateCallback R rand cutoff drive old = some s) :
    s.dcL = (lit 0, lit 0) ∧ s.dcR = (lit 0, lit 0) ∧ s.postR = s.postL ∧ s.downsampler.right = s.downsampler.left ∧
      s.downsampler.left.filterState = [lit 0, lit 0, lit 0, lit 0] ∧ s.downsampler.left.accumulator = lit 0 ∧
      s.downsampler.left.sampleCount = 0 ∧ (old.filterR = old.filterL → s.filterR = s.filterL) := by
  rcases h with h | h
  · unfold setup at h
    obtain ⟨⟨h', o'⟩, -, rfl⟩ := Option.map_eq_some_iff.1 h
    exact ⟨rfl, rfl, rfl, rfl, rfl, rfl, rfl, fun e => by simp only [e]⟩
  · unfold sampleRateCallback at h
    obtain ⟨⟨h', o'⟩, -, rfl⟩ := Option.map_eq_some_iff.1 h
    exact ⟨rfl, rfl, rfl, rfl, rfl, rfl, rfl, fun e => by simp only [e]⟩

end Verif.SuperSawExample
