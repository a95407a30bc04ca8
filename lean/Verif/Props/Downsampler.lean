import Verif.Model.Downsampler
import Verif.Lemmas.LinearBlocks

/-!
# Property C33: Downsampler
-/

set_option linter.unusedSectionVars false

namespace Verif

namespace Downsampler

/-- Calls a user can make. -/
inductive Call (α : Type) where
  | write (x : α)
  | read
  | reset
  | setOversampleFactor (f : ℕ)

section
variable {α : Type} [Arith α] [Libm α]

/-- Perform calls; collect the values returned by `read`. -/
def run : Down α → List (Call α) → Down α × List α
  | s, [] => (s, [])
  | s, .write x :: cs => run (write s x) cs
  | s, .read :: cs => let r := read s; let q := run r.1 cs; (q.1, r.2 :: q.2)
  | s, .reset :: cs => run (reset s) cs
  | s, .setOversampleFactor f :: cs => run (setOversampleFactor f s) cs

/-- The factor in force and the number of writes since the last read, after some calls. -/
def expected : ℕ × ℕ → List (Call α) → ℕ × ℕ
  | p, [] => p
  | (f, n), .write _ :: cs => expected (f, n + 1) cs
  | (f, _), .read :: cs => expected (f, 0) cs
  | (f, _), .reset :: cs => expected (f, 0) cs
  | _, .setOversampleFactor f :: cs => expected (max 1 (min 16 f), 0) cs

/-- **C33**: the factor is clamped to `1..16`; after any history (shorter than `2^64` calls) `isReady` says whether at least as
many samples as the factor were written since the last read, and `read` resets it. -/
theorem C33_ready (rate : α) (f : ℕ) (cs : List (Call α)) (hlen : cs.length < 2 ^ 64) :
    let s := (run (init rate f) cs).1
    let e := expected (max 1 (min 16 f), 0) cs
    s.oversampleFactor = e.1 ∧ (isReady s = true ↔ e.1 ≤ e.2) ∧ isReady (read s).1 = false := by
  have hinit : ∀ (r : α) (f : ℕ), (init r f).oversampleFactor = max 1 (min 16 f) := by
    intro r f
    show (if f > MAX_OVERSAMPLE then MAX_OVERSAMPLE else if f < 1 then 1 else f) = _
    by_cases h1 : f > 16
    · rw [if_pos (by exact h1), MAX_OVERSAMPLE]; omega
    · rw [if_neg (by exact h1)]
      by_cases h2 : f < 1
      · rw [if_pos h2]; omega
      · rw [if_neg h2]; omega
  have key : ∀ (cs : List (Call α)) (s : Down α) (k m : ℕ), s.oversampleFactor = k → s.sampleCount = m → 1 ≤ k →
      m + cs.length < 2 ^ 64 → (run s cs).1.oversampleFactor = (expected (k, m) cs).1 ∧
        (run s cs).1.sampleCount = (expected (k, m) cs).2 ∧ 1 ≤ (expected (k, m) cs).1 := by
    intro cs
    induction cs with
    | nil => intro s k m h1 h2 h3 _; exact ⟨h1, h2, h3⟩
    | cons c cs ih =>
      intro s k m h1 h2 h3 hl
      simp only [List.length_cons] at hl
      cases c with
      | write x =>
        refine ih (write s x) k (m + 1) h1 ?_ h3 (by omega)
        show szAdd s.sampleCount 1 = m + 1
        rw [h2, szAdd, Nat.mod_eq_of_lt (by omega)]
      | read =>
        simp only [run, expected]
        refine ih (read s).1 k 0 ?_ ?_ h3 (by omega)
        · simp only [read]; split_ifs <;> exact h1
        · simp only [read]; split_ifs with h
          · exact h
          · rfl
      | reset => exact ih (reset s) k 0 h1 rfl h3 (by omega)
      | setOversampleFactor f =>
        exact ih (setOversampleFactor f s) _ 0 (hinit _ f) rfl (by omega) (by omega)
  obtain ⟨a, b, c⟩ := key cs (init rate f) _ 0 (hinit rate f) rfl (by omega) (by omega)
  refine ⟨a, ?_, ?_⟩
  · simp [isReady, a, b]
  · have h : ∀ s : Down α, 1 ≤ s.oversampleFactor → isReady (read s).1 = false := by
      intro s h
      simp only [isReady, read]
      split_ifs with h0
      · simp; omega
      · simp; omega
    exact h _ (by rw [a]; exact c)

/-- **C33**: with nothing written since the last read, `read` returns 0 and changes nothing. -/
theorem C33_read_empty (s : Down α) (h : s.sampleCount = 0) : read s = (s, lit 0) := by simp [read, h]

/-- What `process` should do: for every output, write the next `f` input samples, then read. -/
def writeRead (f : ℕ) : ℕ → List α → Down α → Down α × List α
  | 0, _, s => (s, [])
  | n + 1, xs, s =>
    let r := read ((xs.take f).foldl write s)
    let q := writeRead f n (xs.drop f) r.1
    (q.1, r.2 :: q.2)

theorem write_factor (xs : List α) (s : Down α) : (xs.foldl write s).oversampleFactor = s.oversampleFactor := by
  induction xs generalizing s with
  | nil => rfl
  | cons x xs ih => exact ih (write s x)

theorem read_factor (s : Down α) : (read s).1.oversampleFactor = s.oversampleFactor := by
  simp only [read]; split_ifs <;> rfl

theorem inner_loop (input : List α) (f base : ℕ) : ∀ (n j : ℕ) (s : Down α), s.oversampleFactor = f →
    base * f + j + n ≤ input.length → input.length < 2 ^ 64 →
    forLoop (fun j s => (input[szAdd (szMul base s.oversampleFactor) j]?).map (write s)) j n s =
      some ((((input.drop (base * f + j)).take n)).foldl write s) := by
  intro n
  induction n with
  | zero => intro j s _ _ _; simp [forLoop]
  | succ n ih =>
    intro j s hs hb hl
    have h1 : base * f < 2 ^ 64 := by omega
    have h2 : base * f + j < 2 ^ 64 := by omega
    have hidx : szAdd (szMul base s.oversampleFactor) j = base * f + j := by
      rw [szMul, szAdd, hs, Nat.mod_eq_of_lt h1, Nat.mod_eq_of_lt h2]
    have hlt : base * f + j < input.length := by omega
    simp only [forLoop, hidx, List.getElem?_eq_getElem hlt, Option.map_some, Option.bind_some]
    rw [ih (j + 1) (write s _) hs (by omega) hl, List.drop_eq_getElem_cons hlt, List.take_succ_cons, List.foldl_cons]
    rfl

theorem outer_loop (input : List α) (f : ℕ) : ∀ (n i : ℕ) (s : Down α) (out : List α), s.oversampleFactor = f →
    (i + n) * f ≤ input.length → input.length < 2 ^ 64 →
    forLoop (fun i (p : Down α × List α) =>
      (forLoop (fun j s => (input[szAdd (szMul i s.oversampleFactor) j]?).map (write s)) 0 p.1.oversampleFactor p.1).map fun s =>
        let r := read s
        (r.1, p.2 ++ [r.2])) i n (s, out) =
      some ((writeRead f n (input.drop (i * f)) s).1, out ++ (writeRead f n (input.drop (i * f)) s).2) := by
  intro n
  induction n with
  | zero => intro i s out _ _ _; simp [forLoop, writeRead]
  | succ n ih =>
    intro i s out hs hb hl
    have e : (i + (n + 1)) * f = i * f + n * f + f := by ring
    have e2 : (i + 1 + n) * f = i * f + n * f + f := by ring
    have hin := inner_loop input f i f 0 s hs (by have := Nat.zero_le (n * f); omega) hl
    have e3 : (i + 1) * f = i * f + f := by ring
    simp only [forLoop, hs, hin, Option.map_some, Option.bind_some, Nat.add_zero]
    rw [ih (i + 1) _ _ (by rw [read_factor, write_factor]; exact hs) (by omega) hl]
    simp only [writeRead, List.drop_drop, e3]
    simp [List.append_assoc]

/-- **C33**: `process` with `n` outputs on at least `n·f` inputs is the write/read loop over the first `n·f` inputs, and returns
exactly `n` outputs. -/
theorem C33_process_eq_loop (s : Down α) (input : List α) (n : ℕ) (h : n * s.oversampleFactor ≤ input.length)
    (hl : input.length < 2 ^ 64) :
    process input n s = some (writeRead s.oversampleFactor n input s) ∧
      (writeRead s.oversampleFactor n input s).2.length = n := by
  constructor
  · have := outer_loop input s.oversampleFactor n 0 s [] rfl (by simpa using h) hl
    simpa [process] using this
  · have : ∀ (f n : ℕ) (xs : List α) (s : Down α), (writeRead f n xs s).2.length = n := by
      intro f n
      induction n with
      | zero => intro xs s; rfl
      | succ n ih => intro xs s; simp [writeRead, ih]
    exact this _ _ _ _

end

/-! ### Exact arithmetic -/

theorem coeff_range (rate : ℝ) (f : ℕ) : 0 ≤ (init rate f).filterCoeff ∧ (init rate f).filterCoeff ≤ 1 := by
  have hT : (TWO_PI : ℝ) = 2 * 3.14159265358979323846 := by simp only [TWO_PI, PI, real_arith]; norm_num
  set k : ℕ := if f > MAX_OVERSAMPLE then MAX_OVERSAMPLE else if f < 1 then 1 else f with hk
  have e : (init rate f).filterCoeff = 1 - Real.exp (-((2 * 3.14159265358979323846) * (rate * 0.45) / (rate * k))) := by
    simp only [init, real_arith, hT, ← hk]
    push_cast
    norm_num
  have h0 : 0 ≤ (2 * 3.14159265358979323846) * (rate * 0.45) / (rate * k) := by
    rcases eq_or_ne rate 0 with h | h
    · simp [h]
    · have : (2 * 3.14159265358979323846) * (rate * 0.45) / (rate * (k:ℝ)) = (2 * 3.14159265358979323846) * 0.45 / k := by
        rw [show (2 * 3.14159265358979323846) * (rate * 0.45) = rate * ((2 * 3.14159265358979323846) * (0.45:ℝ)) by ring]
        exact mul_div_mul_left _ _ h
      rw [this]; positivity
  rw [e]
  have h1 := Real.exp_pos (-((2 * 3.14159265358979323846) * (rate * 0.45) / (rate * k)))
  have h2 : Real.exp (-((2 * 3.14159265358979323846) * (rate * 0.45) / (rate * k))) ≤ 1 := by
    rw [Real.exp_le_one_iff]; linarith
  constructor <;> linarith

theorem cascade_hull {lo hi c : ℝ} (hc0 : 0 ≤ c) (hc1 : c ≤ 1) : ∀ (st : List ℝ) (x : ℝ), lo ≤ x → x ≤ hi →
    (∀ y ∈ st, lo ≤ y ∧ y ≤ hi) →
    (lo ≤ (cascade c x st).1 ∧ (cascade c x st).1 ≤ hi) ∧ ∀ y ∈ (cascade c x st).2, lo ≤ y ∧ y ≤ hi := by
  intro st
  induction st with
  | nil => intro x h1 h2 _; exact ⟨⟨h1, h2⟩, by simp [cascade, forEach]⟩
  | cons y st ih =>
    intro x h1 h2 h
    have hy := h y List.mem_cons_self
    have hn : lo ≤ y + c * (x - y) ∧ y + c * (x - y) ≤ hi := by constructor <;> nlinarith
    have := ih (y + c * (x - y)) hn.1 hn.2 (fun z hz => h z (List.mem_cons_of_mem _ hz))
    refine ⟨this.1, fun z hz => ?_⟩
    have e : (cascade c x (y :: st)).2 = (y + c * (x - y)) :: (cascade c (y + c * (x - y)) st).2 := rfl
    rw [e, List.mem_cons] at hz
    rcases hz with rfl | hz
    · exact hn
    · exact this.2 z hz

/-- **C33** (exact arithmetic): if every sample written lies in `[lo, hi]`, a range that contains the initial filter value 0,
then so does every value read, whatever the order of writes, reads, resets and changes of the factor. -/
theorem C33_read_hull (rate lo hi : ℝ) (f : ℕ) (hlo : lo ≤ 0) (hhi : 0 ≤ hi) (cs : List (Call ℝ))
    (hlen : cs.length < 2 ^ 64) (hcs : ∀ x, Call.write x ∈ cs → lo ≤ x ∧ x ≤ hi) :
    ∀ y ∈ (run (init rate f) cs).2, lo ≤ y ∧ y ≤ hi := by
  have key : ∀ (cs : List (Call ℝ)) (s : Down ℝ), 0 ≤ s.filterCoeff → s.filterCoeff ≤ 1 →
      (∀ y ∈ s.filterState, lo ≤ y ∧ y ≤ hi) → s.sampleCount * lo ≤ s.accumulator → s.accumulator ≤ s.sampleCount * hi →
      s.sampleCount + cs.length < 2 ^ 64 → (∀ x, Call.write x ∈ cs → lo ≤ x ∧ x ≤ hi) →
      ∀ y ∈ (run s cs).2, lo ≤ y ∧ y ≤ hi := by
    intro cs
    induction cs with
    | nil => intro s _ _ _ _ _ _ _; simp [run]
    | cons c cs ih =>
      intro s c0 c1 hst h1 h2 hl hT
      have hT' : ∀ x, Call.write x ∈ cs → lo ≤ x ∧ x ≤ hi := fun x hx => hT x (List.mem_cons_of_mem _ hx)
      simp only [List.length_cons] at hl
      cases c with
      | write x =>
        have hx := hT x List.mem_cons_self
        obtain ⟨k1, k2⟩ := cascade_hull c0 c1 s.filterState x hx.1 hx.2 hst
        have hc : (write s x).sampleCount = s.sampleCount + 1 := by
          show szAdd s.sampleCount 1 = s.sampleCount + 1
          rw [szAdd, Nat.mod_eq_of_lt (by omega)]
        refine ih (write s x) c0 c1 k2 ?_ ?_ (by rw [hc]; omega) hT'
        · rw [hc]; push_cast
          show _ ≤ s.accumulator + (cascade s.filterCoeff x s.filterState).1
          linarith
        · rw [hc]; push_cast
          show s.accumulator + (cascade s.filterCoeff x s.filterState).1 ≤ _
          linarith
      | read =>
        intro y hy
        simp only [run, List.mem_cons] at hy
        by_cases h0 : s.sampleCount = 0
        · rw [C33_read_empty s h0] at hy
          rcases hy with rfl | hy
          · simp only [real_arith, Rat.cast_zero]; exact ⟨hlo, hhi⟩
          · exact ih s c0 c1 hst h1 h2 (by omega) hT' y hy
        · have hr : read s = ({ s with accumulator := lit 0, sampleCount := 0 }, s.accumulator / s.sampleCount) := by
            simp [read, h0, real_arith]
          rw [hr] at hy
          have hpos : (0:ℝ) < s.sampleCount := by exact_mod_cast Nat.pos_of_ne_zero h0
          rcases hy with rfl | hy
          · show lo ≤ s.accumulator / s.sampleCount ∧ s.accumulator / s.sampleCount ≤ hi
            rw [le_div_iff₀ hpos, div_le_iff₀ hpos]
            constructor <;> linarith
          · exact ih { s with accumulator := lit 0, sampleCount := 0 } c0 c1 hst (by simp [real_arith]) (by simp [real_arith])
              (by show 0 + cs.length < _; omega) hT' y hy
      | reset =>
        refine ih (reset s) c0 c1 ?_ (by simp [reset, real_arith]) (by simp [reset, real_arith])
          (by show 0 + cs.length < _; omega) hT'
        intro y hy
        have := List.eq_of_mem_replicate hy
        rw [this]; simp only [real_arith, Rat.cast_zero]; exact ⟨hlo, hhi⟩
      | setOversampleFactor f =>
        obtain ⟨a, b⟩ := coeff_range s.outputSampleRate f
        refine ih (setOversampleFactor f s) a b ?_ (by simp [setOversampleFactor, init, real_arith])
          (by simp [setOversampleFactor, init, real_arith]) (by show 0 + cs.length < _; omega) hT'
        intro y hy
        have := List.eq_of_mem_replicate hy
        rw [this]; simp only [real_arith, Rat.cast_zero]; exact ⟨hlo, hhi⟩
  obtain ⟨a, b⟩ := coeff_range rate f
  refine key cs (init rate f) a b ?_ (by simp [init, real_arith]) (by simp [init, real_arith])
    (by show 0 + cs.length < _; omega) hcs
  intro y hy
  have := List.eq_of_mem_replicate hy
  rw [this]; simp only [real_arith, Rat.cast_zero]; exact ⟨hlo, hhi⟩

/-- **C33** (exact arithmetic): a settled filter passes a constant unchanged: writing `c` any number of times and reading gives
`c`. -/
theorem C33_dc (s : Down ℝ) (c : ℝ) (hst : ∀ y ∈ s.filterState, y = c) (h0 : s.sampleCount = 0) (ha : s.accumulator = 0)
    (n : ℕ) (hn : 0 < n) (hn' : n < 2 ^ 64) : (read ((List.replicate n c).foldl write s)).2 = c := by
  have hcas : ∀ (k : ℝ) (st : List ℝ), (∀ y ∈ st, y = c) → cascade k c st = (c, st) := by
    intro k st
    induction st with
    | nil => intro _; rfl
    | cons y st ih =>
      intro h
      have hy : y = c := h y List.mem_cons_self
      subst hy
      have e : cascade k y (y :: st) = ((cascade k (y + k * (y - y)) st).1, (y + k * (y - y)) :: (cascade k (y + k * (y - y)) st).2) := rfl
      rw [e, show y + k * (y - y) = y by ring, ih (fun z hz => h z (List.mem_cons_of_mem _ hz))]
  have key : ∀ (n : ℕ) (s : Down ℝ), (∀ y ∈ s.filterState, y = c) → s.accumulator = s.sampleCount * c →
      s.sampleCount + n < 2 ^ 64 → ((List.replicate n c).foldl write s).accumulator = (s.sampleCount + n : ℕ) * c ∧
        ((List.replicate n c).foldl write s).sampleCount = s.sampleCount + n := by
    intro n
    induction n with
    | zero => intro s _ h2 _; exact ⟨by simpa using h2, rfl⟩
    | succ n ih =>
      intro s h1 h2 h3
      have hw : write s c = { s with accumulator := s.accumulator + c, sampleCount := s.sampleCount + 1 } := by
        have hc' : szAdd s.sampleCount 1 = s.sampleCount + 1 := by rw [szAdd, Nat.mod_eq_of_lt (by omega)]
        simp only [write, hcas _ _ h1, hc', real_arith]
      have := ih (write s c) (by rw [hw]; exact h1) (by rw [hw, h2]; push_cast; ring) (by rw [hw]; show s.sampleCount + 1 + n < _; omega)
      simp only [List.replicate_succ, List.foldl_cons]
      rw [this.1, this.2, hw]
      refine ⟨?_, by show s.sampleCount + 1 + n = _; omega⟩
      show ((s.sampleCount + 1 + n : ℕ) : ℝ) * c = _
      rw [show s.sampleCount + 1 + n = s.sampleCount + (n + 1) by omega]
  obtain ⟨k1, k2⟩ := key n s hst (by rw [ha, h0]; simp) (by rw [h0]; omega)
  rw [h0, Nat.zero_add] at k1 k2
  have hn0 : (n:ℝ) ≠ 0 := by exact_mod_cast hn.ne'
  simp only [read, k2, hn.ne', if_false, k1, real_arith]
  field_simp

example : ∀ y ∈ (run (init (48000:ℝ) 20) [.write 0.5, .write (-1), .read, .read, .setOversampleFactor 4, .write 1, .read]).2,
    -1 ≤ y ∧ y ≤ 1 := by
  refine C33_read_hull 48000 (-1) 1 20 (by norm_num) (by norm_num) _ (by simp) ?_
  intro x hx
  simp at hx
  rcases hx with rfl | rfl | rfl <;> norm_num

example : (expected (max 1 (min 16 2), 0) [Call.write (0.5:ℚ), .write (-1), .read, .write 3]) = (2, 1) := by decide +kernel

end Downsampler

namespace StereoDownsampler
open Downsampler (Call)
variable {α : Type} [Arith α] [Libm α]

/-- Calls on a stereo downsampler; `write` takes both samples. -/
def run : SDown α → List (Call (α × α)) → SDown α × List (Stereo α)
  | s, [] => (s, [])
  | s, .write x :: cs => run (write s ⟨x.1, x.2⟩) cs
  | s, .read :: cs => let r := read s; let q := run r.1 cs; (q.1, r.2 :: q.2)
  | s, .reset :: cs => run (reset s) cs
  | s, .setOversampleFactor f :: cs => run (setOversampleFactor f s) cs

/-- One channel's share of the calls. -/
def channel {β : Type} (g : α × α → β) : Call (α × α) → Call β
  | .write x => .write (g x)
  | .read => .read
  | .reset => .reset
  | .setOversampleFactor f => .setOversampleFactor f

/-- **C33**: the stereo downsampler is two independent mono downsamplers: each channel's state and results are those of a mono
downsampler that only ever sees that channel's samples. In any arithmetic. -/
theorem C33_stereo_independent (s : SDown α) (cs : List (Call (α × α))) :
    (run s cs).1.left = (Downsampler.run s.left (cs.map (channel Prod.fst))).1 ∧
      (run s cs).1.right = (Downsampler.run s.right (cs.map (channel Prod.snd))).1 ∧
      (run s cs).2.map Stereo.left = (Downsampler.run s.left (cs.map (channel Prod.fst))).2 ∧
      (run s cs).2.map Stereo.right = (Downsampler.run s.right (cs.map (channel Prod.snd))).2 := by
  induction cs generalizing s with
  | nil => simp [run, Downsampler.run]
  | cons c cs ih =>
    cases c with
    | write x => exact ih _
    | read =>
      obtain ⟨a, b, c, d⟩ := ih (read s).1
      refine ⟨a, b, ?_, ?_⟩
      · simp only [run, List.map_cons, channel, Downsampler.run, c]; rfl
      · simp only [run, List.map_cons, channel, Downsampler.run, d]; rfl
    | reset => exact ih _
    | setOversampleFactor f => exact ih _

/-- **C33**: stereo block processing is mono block processing of each channel. -/
theorem C33_stereo_process (s : SDown α) (inL inR : List α) (n : ℕ) (l r : Downsampler.Down α) (outL outR : List α)
    (hl : Downsampler.process inL n s.left = some (l, outL)) (hr : Downsampler.process inR n s.right = some (r, outR)) :
    process inL inR n s = some (⟨l, r⟩, outL, outR) := by
  simp [process, hl, hr]

/-- **C33**: a stereo downsampler set up for a rate and a factor gives on each channel, after any calls, exactly what a mono downsampler
set up for the same rate and factor gives on that channel's samples; and it is ready exactly when the number of frames written since it was
last emptied has reached the factor. In any arithmetic. -/
theorem C33_stereo_ready (rate : α) (f : ℕ) (cs : List (Call (α × α))) (hlen : cs.length < 2 ^ 64) :
    (run (init rate f) cs).2.map Stereo.left = (Downsampler.run (Downsampler.init rate f) (cs.map (channel Prod.fst))).2 ∧
      (run (init rate f) cs).2.map Stereo.right = (Downsampler.run (Downsampler.init rate f) (cs.map (channel Prod.snd))).2 ∧
      (isReady (run (init rate f) cs).1 = true ↔
        (Downsampler.expected (max 1 (min 16 f), 0) cs).1 ≤ (Downsampler.expected (max 1 (min 16 f), 0) cs).2) ∧
      isReady (read (run (init rate f) cs).1).1 = false := by
  obtain ⟨a, b, c, d⟩ := C33_stereo_independent (init rate f) cs
  have ex : ∀ {β : Type} (g : α × α → β) (cs : List (Call (α × α))) (e : ℕ × ℕ),
      Downsampler.expected e (cs.map (channel g)) = Downsampler.expected e cs := by
    intro β g cs
    induction cs with
    | nil => intro e; rfl
    | cons c cs ih => intro e; cases c <;> simp only [List.map_cons, channel, Downsampler.expected, ih]
  obtain ⟨-, l2, l3⟩ := Downsampler.C33_ready rate f (cs.map (channel Prod.fst)) (by simpa using hlen)
  obtain ⟨-, r2, -⟩ := Downsampler.C33_ready rate f (cs.map (channel Prod.snd)) (by simpa using hlen)
  rw [ex] at l2 r2
  refine ⟨c, d, ?_, ?_⟩
  · rw [isReady, Bool.and_eq_true, a, b]
    exact ⟨fun h => l2.mp h.1, fun h => ⟨l2.mpr h, r2.mpr h⟩⟩
  · have e : (read (run (init rate f) cs).1).1.left = (Downsampler.read (run (init rate f) cs).1.left).1 := rfl
    rw [isReady, e, a]
    exact Bool.and_eq_false_iff.mpr (Or.inl l3)

example : (Downsampler.expected (max 1 (min 16 2), 0) [Call.write ((0.5 : ℚ), (1 : ℚ)), .write (-1, 0), .read, .write (3, 3)]) = (2, 1) := by
  decide +kernel

end StereoDownsampler
end Verif
