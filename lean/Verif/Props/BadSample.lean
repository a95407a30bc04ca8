import Verif.Lemmas.Stream
import Verif.Model.Filters
import Verif.Model.Tape
import Verif.Props.Downsampler
import Verif.Model.MoogLadders
import Verif.Model.Oscillators
import Verif.Props.Lag
import Verif.Float.Mag
import Verif.Float.LibmSpec64
import Verif.Lemmas.EnvInv
import Verif.Model.Lines

/-!
# Property C83: a bad sample does not silence a unit for ever

A division by zero or an uninitialised variable upstream produces a NaN now and then. A unit that forgets old input forgets a NaN as well.
The theorems say which units do. In single (double) precision, for every state, every setting and every later input.
-/

set_option linter.unusedSectionVars false

namespace Verif
open FP Arith

/-- After a NaN in the input, at any time, everything from `d` samples later on is NaN, whatever comes in. -/
def NeverRecovers {σ : Type} (tick : σ → F32 → σ × F32) (d : ℕ) : Prop :=
  ∀ (s : σ) (x : ℕ → F32) (m : ℕ), x m = .nan → ∀ n, m + d ≤ n → heard tick s x n = .nan

/-- A property of the state that a NaN establishes, that no input removes, and that makes the output NaN. -/
theorem neverRecovers {σ : Type} {tick : σ → F32 → σ × F32} {d : ℕ} (I : σ → Prop) (h0 : ∀ s, I (tick s .nan).1)
    (hI : ∀ s x, I s → I (tick s x).1) (ho : ∀ s x, I s → (tick s x).2 = .nan) (hn : d = 0 → ∀ s, (tick s .nan).2 = .nan) :
    NeverRecovers tick d := by
  intro s x m hm n hmn
  have inv : ∀ k, I (feed tick s x (m + 1 + k)) := by
    intro k
    induction k with
    | zero => show I (tick _ (x m)).1; rw [hm]; exact h0 _
    | succ k ih => exact hI _ _ ih
  rcases Nat.eq_or_lt_of_le hmn with e | e
  · rcases Nat.eq_zero_or_pos d with hd | hd
    · subst hd; rw [← e, heard, Nat.add_zero, hm]; exact hn rfl _
    · obtain ⟨k, hk⟩ := Nat.exists_eq_add_of_le (show m + 1 ≤ n by omega)
      rw [hk]; exact ho _ _ (inv k)
  · obtain ⟨k, hk⟩ := Nat.exists_eq_add_of_le (show m + 1 ≤ n by omega)
    rw [hk]; exact ho _ _ (inv k)

section nan
variable {f : Fmt} (a : FP f)
theorem nan_add : (.nan : FP f) + a = .nan := by cases a <;> rfl
theorem add_nan : a + (.nan : FP f) = .nan := by cases a <;> rfl
theorem nan_sub : (.nan : FP f) - a = .nan := by cases a <;> rfl
theorem sub_nan : a - (.nan : FP f) = .nan := by cases a <;> rfl
theorem nan_mul : (.nan : FP f) * a = .nan := by cases a <;> rfl
theorem mul_nan : a * (.nan : FP f) = .nan := by cases a <;> rfl
theorem nan_div : (.nan : FP f) / a = .nan := by cases a <;> rfl
theorem div_nan : a / (.nan : FP f) = .nan := by cases a <;> rfl
theorem nan_lt : ((.nan : FP f) <. a) = false := by cases a <;> rfl
theorem lt_nan : (a <. (.nan : FP f)) = false := by cases a <;> rfl
theorem nan_le : ((.nan : FP f) <=. a) = false := by cases a <;> rfl
theorem le_nan : (a <=. (.nan : FP f)) = false := by cases a <;> rfl
theorem nan_eq : ((.nan : FP f) ==. a) = false := by cases a <;> rfl
theorem eq_nan : (a ==. (.nan : FP f)) = false := by cases a <;> rfl
theorem neg_nan : -(.nan : FP f) = .nan := rfl
theorem fabs_nan : Arith.fabs (.nan : FP f) = .nan := rfl
end nan
theorem conv_nan : (Conv.conv (.nan : F32) : F64) = .nan := rfl
theorem conv_nan' : (Conv.conv (.nan : F64) : F32) = .nan := rfl

/-- Everything arithmetic does with a NaN. -/
macro "nans" : tactic => `(tactic| simp only [nan_add, add_nan, nan_sub, sub_nan, nan_mul, mul_nan, nan_div, div_nan, nan_lt, lt_nan, nan_le,
  le_nan, nan_eq, eq_nan, neg_nan, fabs_nan, conv_nan, conv_nan', Bool.false_eq_true, if_false, Bool.or_self, Bool.not_false, if_true])

/-- The same, with a further fact. -/
macro "nans_with " h:term : tactic => `(tactic| simp only [nan_add, add_nan, nan_sub, sub_nan, nan_mul, mul_nan, nan_div, div_nan, nan_lt, lt_nan,
  nan_le, le_nan, nan_eq, eq_nan, neg_nan, fabs_nan, conv_nan, conv_nan', Bool.false_eq_true, if_false, Bool.or_self, Bool.not_false, if_true,
  $h:term])

/-- **C83, false** of the linear filters: DC blocker, one-pole low pass, resonant low pass and the exponential lag never recover from one
NaN sample. -/
theorem C83_filters_stick :
    NeverRecovers (DCBlock.tick (α := F32)) 0 ∧ NeverRecovers (OnePoleLPF.tick (α := F32)) 0 ∧
    NeverRecovers (RLPF.tick (α := F32) (β := F64)) 0 ∧ NeverRecovers (Lag.tick (α := F32)) 0 := by
  refine ⟨neverRecovers (fun s => s.prevOutputL = .nan) ?_ ?_ ?_ ?_, neverRecovers (fun s => s.z = .nan) ?_ ?_ ?_ ?_,
    neverRecovers (fun s => s.z1 = .nan) ?_ ?_ ?_ ?_, neverRecovers (fun s => s.prevOutput = .nan) ?_ ?_ ?_ ?_⟩ <;>
  intros <;> simp_all only [DCBlock.tick, OnePoleLPF.tick, RLPF.tick, Lag.tick] <;> nans

/-- The stereo DC blocker keeps its channels apart: the right one plays what it would have played with any other left input. -/
theorem C83_dcblock_channels (s : DCBlock.Filt F32) (l l' r : ℕ → F32) (N : ℕ) :
    ((DCBlock.processStereo s ((List.range N).map fun n => (l n, r n))).2.map Stereo.right) =
      ((DCBlock.processStereo s ((List.range N).map fun n => (l' n, r n))).2.map Stereo.right) := by
  suffices h : ∀ (ns : List ℕ) (s s' : DCBlock.Filt F32), s.coeff = s'.coeff → s.prevInputR = s'.prevInputR → s.prevOutputR = s'.prevOutputR →
      ((DCBlock.processStereo s (ns.map fun n => (l n, r n))).2.map Stereo.right) =
        ((DCBlock.processStereo s' (ns.map fun n => (l' n, r n))).2.map Stereo.right) from h _ s s rfl rfl rfl
  intro ns
  induction ns with
  | nil => intros; rfl
  | cons n ns ih =>
    intro s s' h1 h2 h3
    simp only [DCBlock.processStereo, forEach, List.map_cons, DCBlock.tickStereo, h1, h2, h3, List.cons.injEq, true_and]
    exact ih _ _ rfl rfl rfl

section tape
variable [Libm F32]

theorem TapeFollower.nan_in (s : TapeFollower.Fol F32) :
    (TapeFollower.process s .nan).1.state = .nan ∧ (TapeFollower.process s .nan).2 = .nan := by
  simp only [TapeFollower.process]; nans; trivial

theorem TapeFollower.nan_stays (s : TapeFollower.Fol F32) (x : F32) (h : s.state = .nan) :
    (TapeFollower.process s x).1.state = .nan ∧ (TapeFollower.process s x).2 = .nan := by
  simp only [TapeFollower.process, h]; nans; trivial

/-- **C83, false** of the Tape, with a `tanh` that passes NaN on (as C's does). -/
theorem C83_tape_sticks (ht : Libm.tanh (.nan : F32) = .nan) : NeverRecovers (Tape.tick (α := F32)) 0 := by
  refine neverRecovers (fun s => s.follower.state = .nan) ?_ ?_ ?_ ?_
  · intro s; simp only [Tape.tick]; nans; exact (TapeFollower.nan_in _).1
  · intro s x h; exact (TapeFollower.nan_stays _ _ h).1
  · intro s x h
    simp only [Tape.tick, (TapeFollower.nan_stays _ _ h).2, TapeDcBlocker.process]; nans
    simp only [ht]; nans; exact ht
  · intro _ s
    simp only [Tape.tick]; nans
    simp only [TapeDcBlocker.process, ht]; nans; exact ht

/-- **C83, false** of the stereo Tape across channels: one NaN on the left silences the right channel as well, for ever and whatever the
bias, because both channels use the follower of the left one. -/
theorem C83_tape_silences_right (ht : Libm.tanh (.nan : F32) = .nan) (s : Tape.T F32) (before after : List (F32 × F32)) (r : F32) :
    ∀ o ∈ (Tape.processStereo s (before ++ (.nan, r) :: after)).2.drop before.length, o.left = .nan ∧ o.right = .nan := by
  have start : ∀ t : Tape.T F32, (Tape.tickStereo t .nan r).1.follower.state = .nan ∧ (Tape.tickStereo t .nan r).2.left = .nan ∧
      (Tape.tickStereo t .nan r).2.right = .nan := by
    intro t
    simp only [Tape.tickStereo]; nans
    simp only [(TapeFollower.nan_in _), TapeDcBlocker.process]; nans_with ht
    trivial
  have step : ∀ (t : Tape.T F32) a b, t.follower.state = .nan → (Tape.tickStereo t a b).1.follower.state = .nan ∧
      (Tape.tickStereo t a b).2.left = .nan ∧ (Tape.tickStereo t a b).2.right = .nan := by
    intro t a b h
    have := TapeFollower.nan_stays t.follower (a * t.pregain) h
    simp only [Tape.tickStereo, this, TapeDcBlocker.process]; nans_with ht
    trivial
  intro o ho
  rw [Tape.processStereo, forEach_append] at ho
  dsimp only at ho
  rw [List.drop_append_of_le_length (by simp), show before.length = (forEach _ s before).2.length by simp, List.drop_length, List.nil_append] at ho
  simp only [forEach, List.mem_cons] at ho
  rcases ho with rfl | ho
  · exact (start _).2
  · have inv := forEach_inv (step := fun (t : Tape.T F32) (b : F32 × F32) => Tape.tickStereo t b.1 b.2) (I := fun t => t.follower.state = .nan)
      (P := fun _ o => o.left = .nan ∧ o.right = .nan) (fun t b h => ⟨(step t b.1 b.2 h).1, (step t b.1 b.2 h).2⟩)
      (s := (Tape.tickStereo (forEach (fun s (b : F32 × F32) => Tape.tickStereo s b.1 b.2) s before).1 .nan r).1) (start _).1 after
    exact forall₂_right inv.2 o ho

end tape

namespace Downsampler

theorem cascade_nan (c : F32) (st : List F32) : (cascade c .nan st).1 = .nan ∧ ∀ z ∈ (cascade c .nan st).2, z = .nan := by
  induction st with
  | nil => exact ⟨rfl, by simp [cascade, forEach]⟩
  | cons a st ih =>
    simp only [cascade, forEach] at ih ⊢
    nans
    exact ⟨ih.1, by simpa using ih.2⟩

/-- The first filter stage holds a NaN. -/
def Stuck (s : Down F32) : Prop := ∃ st, s.filterState = .nan :: st

theorem cascade_stuck (c x : F32) (st : List F32) :
    (cascade c x (.nan :: st)).1 = .nan ∧ ∃ st', (cascade c x (.nan :: st)).2 = .nan :: st' := by
  have := cascade_nan c st
  simp only [cascade, forEach] at this ⊢
  nans
  exact ⟨this.1, _, rfl⟩

variable [Libm F32]

/-- Reads and writes only. -/
def Call.plain : Call F32 → Bool
  | .write _ => true
  | .read => true
  | _ => false

/-- **C83, false** of the Downsampler: after one NaN has been written, at any time, every later write makes the next `read` NaN, whatever is
written. -/
theorem C83_downsampler_sticks (rate y : F32) (f : ℕ) (before after : List (Call F32)) (hp : ∀ c ∈ after, c.plain = true)
    (hl : before.length + after.length < 2 ^ 64 - 2) :
    (read (write (run (write (run (init rate f) before).1 .nan) after).1 y)).2 = .nan := by
  have stuck_write : ∀ (s : Down F32) x, Stuck s → Stuck (write s x) ∧ (write s x).accumulator = .nan := by
    rintro s x ⟨st, h⟩
    obtain ⟨h1, h2⟩ := cascade_stuck s.filterCoeff x st
    refine ⟨by rw [Stuck, write, h]; exact h2, ?_⟩
    simp only [write, h, h1]; nans
  have kb : ∀ (cs : List (Call F32)) (s : Down F32), s.filterState ≠ [] → s.sampleCount + cs.length < 2 ^ 64 →
      (run s cs).1.filterState ≠ [] ∧ (run s cs).1.sampleCount ≤ s.sampleCount + cs.length := by
    intro cs
    induction cs with
    | nil => intro s h _; exact ⟨h, le_rfl⟩
    | cons c cs ih =>
      intro s h hl
      simp only [List.length_cons] at hl ⊢
      have hsz : szAdd s.sampleCount 1 = s.sampleCount + 1 := by rw [szAdd, Nat.mod_eq_of_lt (by omega)]
      cases c with
      | write x =>
        have hw : (write s x).filterState ≠ [] := by
          obtain ⟨a, st, e⟩ := List.exists_cons_of_ne_nil h
          simp [write, cascade, forEach, e]
        have := ih (write s x) hw (by show szAdd s.sampleCount 1 + _ < _; omega)
        refine ⟨this.1, this.2.trans ?_⟩
        show szAdd s.sampleCount 1 + _ ≤ _; omega
      | read =>
        simp only [run]
        have hr : (read s).1.filterState ≠ [] ∧ (read s).1.sampleCount ≤ s.sampleCount := by
          simp only [read]; split_ifs
          · exact ⟨h, le_rfl⟩
          · exact ⟨h, Nat.zero_le _⟩
        have := ih (read s).1 hr.1 (by omega)
        exact ⟨this.1, by omega⟩
      | reset =>
        have := ih (reset s) (by simp [reset, FILTER_ORDER]) (by show 0 + _ < _; omega)
        exact ⟨this.1, this.2.trans (by show 0 + _ ≤ _; omega)⟩
      | setOversampleFactor g =>
        have := ih (setOversampleFactor g s) (by simp [setOversampleFactor, init, FILTER_ORDER]) (by show 0 + _ < _; omega)
        exact ⟨this.1, this.2.trans (by show 0 + _ ≤ _; omega)⟩
  have ka : ∀ (cs : List (Call F32)) (s : Down F32), (∀ c ∈ cs, c.plain = true) → Stuck s → s.sampleCount + cs.length < 2 ^ 64 →
      Stuck (run s cs).1 ∧ (run s cs).1.sampleCount ≤ s.sampleCount + cs.length := by
    intro cs
    induction cs with
    | nil => intro s _ h _; exact ⟨h, le_rfl⟩
    | cons c cs ih =>
      intro s hp h hl
      simp only [List.length_cons] at hl ⊢
      have hsz : szAdd s.sampleCount 1 = s.sampleCount + 1 := by rw [szAdd, Nat.mod_eq_of_lt (by omega)]
      have hp' : ∀ c ∈ cs, c.plain = true := fun c hc => hp c (List.mem_cons_of_mem _ hc)
      have hc := hp c List.mem_cons_self
      cases c with
      | write x =>
        have := ih (write s x) hp' (stuck_write s x h).1 (by show szAdd s.sampleCount 1 + _ < _; omega)
        refine ⟨this.1, this.2.trans ?_⟩
        show szAdd s.sampleCount 1 + _ ≤ _; omega
      | read =>
        simp only [run]
        have hr : Stuck (read s).1 ∧ (read s).1.sampleCount ≤ s.sampleCount := by
          simp only [read]; split_ifs
          · exact ⟨h, le_rfl⟩
          · exact ⟨h, Nat.zero_le _⟩
        have := ih (read s).1 hp' hr.1 (by omega)
        exact ⟨this.1, by omega⟩
      | reset => cases hc
      | setOversampleFactor g => cases hc
  obtain ⟨b1, b2⟩ := kb before (init rate f) (by simp [init, FILTER_ORDER]) (by show 0 + _ < _; omega)
  have b2' : (run (init rate f) before).1.sampleCount ≤ before.length := by simpa [init] using b2
  obtain ⟨s, hs⟩ : ∃ s, s = (run (init rate f) before).1 := ⟨_, rfl⟩
  rw [← hs] at b1 b2' ⊢
  have e1 : (write s .nan).sampleCount = s.sampleCount + 1 := by
    show szAdd s.sampleCount 1 = _; rw [szAdd, Nat.mod_eq_of_lt (by omega)]
  have w : Stuck (write s .nan) := by
    obtain ⟨a, st, e⟩ := List.exists_cons_of_ne_nil b1
    have := (cascade_nan s.filterCoeff s.filterState).2
    obtain ⟨z, st', e'⟩ : ∃ z st', (cascade s.filterCoeff .nan s.filterState).2 = z :: st' := by
      simp [cascade, forEach, e]
    rw [e'] at this
    exact ⟨st', by rw [write]; dsimp only; rw [e', this z List.mem_cons_self]⟩
  obtain ⟨a1, a2⟩ := ka after _ hp w (by omega)
  obtain ⟨t, ht⟩ : ∃ t, t = (run (write s .nan) after).1 := ⟨_, rfl⟩
  rw [← ht] at a1 a2 ⊢
  have e2 : (write t y).sampleCount = t.sampleCount + 1 := by
    show szAdd t.sampleCount 1 = _; rw [szAdd, Nat.mod_eq_of_lt (by omega)]
  rw [read, if_neg (by omega)]
  dsimp only
  rw [(stuck_write t y a1).2]; nans

end Downsampler

/-! ### Ladders -/

/-- **C83, false** of the ladders built on arithmetic alone: they never recover from one NaN sample. -/
theorem C83_ladders_stick :
    NeverRecovers (Microtracker.tick (α := F32) (β := F64)) 1 ∧ NeverRecovers (MusicDSP.tick (α := F32) (β := F64)) 0 := by
  refine ⟨neverRecovers (fun s => s.p0 = .nan ∧ s.p3 = .nan) ?_ ?_ ?_ ?_, neverRecovers (fun s => s.s3 = .nan) ?_ ?_ ?_ ?_⟩
  · intro s; simp only [Microtracker.tick, Microtracker.fastTanh]; nans; trivial
  · rintro s x ⟨h1, h2⟩; simp only [Microtracker.tick, Microtracker.fastTanh, h1, h2]; nans; trivial
  · rintro s x ⟨h1, h2⟩; simp only [Microtracker.tick, Microtracker.fastTanh, h1, h2]; nans
  · intro h; cases h
  · intro s; simp only [MusicDSP.tick]; nans
  · intro s x h; simp only [MusicDSP.tick, h]; nans
  · intro s x h; simp only [MusicDSP.tick, h]; nans
  · intro _ s; simp only [MusicDSP.tick]; nans

/-- **C83, false** of the ladders that use `tanh`, if that passes NaN on (as C's does). -/
theorem C83_tanh_ladders_stick [Libm F64] (ht : Libm.tanh (.nan : F64) = .nan) :
    NeverRecovers (Improved.tick (α := F32) (β := F64)) 0 ∧ NeverRecovers (Oberheim.tick (α := F32) (β := F64)) 0 := by
  refine ⟨neverRecovers (fun s => s.V3 = .nan) ?_ ?_ ?_ ?_, neverRecovers (fun s => s.f3.z1 = .nan) ?_ ?_ ?_ ?_⟩
  · intro s; simp only [Improved.tick]; nans_with ht
  · intro s x h; simp only [Improved.tick, h]; nans
  · intro s x h; simp only [Improved.tick, h]; nans
  · intro _ s; simp only [Improved.tick]; nans_with ht
  · intro s; simp only [Oberheim.tick, Oberheim.OnePole.tick]; nans_with ht
  · intro s x h; simp only [Oberheim.tick, Oberheim.OnePole.tick, h]; nans
  · intro s x h; simp only [Oberheim.tick, Oberheim.OnePole.tick, h]; nans
  · intro _ s; simp only [Oberheim.tick, Oberheim.OnePole.tick]; nans_with ht

namespace RKSimulation

theorem solver_nan (s : Ladder F32 F64) : (solver .nan s).state.x3 = .nan := by
  have c : clip s .nan = .nan := by simp only [clip]; nans
  simp only [solver, derivatives, Vec.step]; nans_with c

theorem solver_stuck (x : F64) (s : Ladder F32 F64) (h : s.state.x3 = .nan) : (solver x s).state.x3 = .nan := by
  simp only [solver, h]; nans

theorem solver_factor (x : F64) (n : ℕ) (s : Ladder F32 F64) : ((solver x)^[n] s).oversampleFactor = s.oversampleFactor := by
  induction n with
  | zero => rfl
  | succ n ih => rw [Function.iterate_succ_apply']; exact ih

theorem iterate_stuck (x : F64) (n : ℕ) (s : Ladder F32 F64) (h : s.state.x3 = .nan) : ((solver x)^[n] s).state.x3 = .nan := by
  induction n with
  | zero => exact h
  | succ n ih => rw [Function.iterate_succ_apply']; exact solver_stuck _ _ ih

/-- **C83, false** of the Runge-Kutta ladder, for every oversampling factor the setters allow. -/
theorem C83_rk_sticks (s : Ladder F32 F64) (hs : 1 ≤ s.oversampleFactor) (x : ℕ → F32) (m : ℕ) (hx : x m = .nan) (n : ℕ) (hn : m ≤ n) :
    heard tick s x n = .nan := by
  have fac : ∀ k, (feed tick s x k).oversampleFactor = s.oversampleFactor := by
    intro k
    induction k with
    | zero => rfl
    | succ k ih =>
      show (tick _ _).1.oversampleFactor = _
      simp only [tick]
      rw [solver_factor, ih]
  have step : ∀ t : Ladder F32 F64, t.oversampleFactor = s.oversampleFactor → (tick t .nan).1.state.x3 = .nan := by
    intro t h
    obtain ⟨k, hk⟩ : ∃ k, t.oversampleFactor.toNat = k + 1 := ⟨t.oversampleFactor.toNat - 1, by omega⟩
    simp only [tick, hk, Function.iterate_succ_apply', conv_nan]
    exact solver_nan _
  have inv : ∀ k, (feed tick s x (m + 1 + k)).state.x3 = .nan := by
    intro k
    induction k with
    | zero => show (tick _ (x m)).1.state.x3 = _; rw [hx]; exact step _ (fac m)
    | succ k ih => exact iterate_stuck _ _ _ ih
  have out : ∀ k, (tick (feed tick s x k) (x k)).2 = Conv.conv ((feed tick s x (k + 1)).state.x3 * (feed tick s x (k + 1)).makeupGain) := fun k => rfl
  obtain ⟨k, rfl⟩ := Nat.exists_eq_add_of_le hn
  rw [heard, out, show m + k + 1 = m + 1 + k by ring, inv]; nans

end RKSimulation

namespace Stilson

theorem saturate_nan : saturate (.nan : F64) = .nan := by simp only [saturate]; nans

theorem pole_stuck (p o : F64) : pole p o .nan = (.nan, .nan) := by simp only [pole]; nans_with saturate_nan
theorem pole_nan (p l : F64) : pole p .nan l = (.nan, .nan) := by simp only [pole]; nans_with saturate_nan
theorem snap_nan : snapToZero (.nan : F64) = lit 0 := by simp only [snapToZero]; nans

/-- **C83, false** of the Stilson ladder, and without any sign of it: one NaN sample and the output is exactly `0` for ever, whatever comes
in. (`snapToZero` turns NaN into zero, but the filter states stay NaN.) -/
theorem C83_stilson_mute (s : Ladder F32 F64) (x : ℕ → F32) (m : ℕ) (hx : x m = .nan) (n : ℕ) (hn : m ≤ n) : heard tick s x n = lit 0 := by
  have z : (Conv.conv (lit 0 : F64) : F32) = lit 0 := by decide +kernel
  have start : ∀ t : Ladder F32 F64, (tick t .nan).1.s0 = .nan ∧ (tick t .nan).2 = lit 0 := by
    intro t
    simp only [tick]; nans
    simp only [pole_nan, snap_nan, z, and_self]
  have step : ∀ (t : Ladder F32 F64) y, t.s0 = .nan → (tick t y).1.s0 = .nan ∧ (tick t y).2 = lit 0 := by
    intro t y h
    simp only [tick, h, pole_stuck, pole_nan, snap_nan, z, and_self]
  have inv : ∀ k, (feed tick s x (m + 1 + k)).s0 = .nan := by
    intro k
    induction k with
    | zero => show (tick _ (x m)).1.s0 = _; rw [hx]; exact (start _).1
    | succ k ih => exact (step _ _ ih).1
  obtain ⟨k, rfl⟩ := Nat.exists_eq_add_of_le hn
  cases k with
  | zero => rw [heard, Nat.add_zero, hx]; exact (start _).2
  | succ k =>
    rw [heard, show m + (k + 1) = m + 1 + k by ring]
    exact (step _ _ (inv k)).2

end Stilson

namespace Krajeski
variable [Libm F64]

theorem big : (lit (-1e30) : F64).isFin = true ∧ (lit 1e30 : F64).isFin = true ∧ (lit (-1e30) : F64).val = -(lit 1e30 : F64).val ∧
    0 < (lit 1e30 : F64).val := by
  refine ⟨?_, ?_, ?_, ?_⟩ <;> decide +kernel

/-- `fclamp` gives a number of its range for every argument, NaN included. -/
theorem fclamp_in (x : F64) : (fclamp x (lit (-1e30)) (lit 1e30)).In (lit (-1e30) : F64).val (lit 1e30 : F64).val := by
  obtain ⟨h1, h2, h3, h4⟩ := big
  have s1 : ((lit (-1e30) : F64) ==. lit (-1e30)) = true := by decide +kernel
  have s2 : ((lit 1e30 : F64) ==. lit 1e30) = true := by decide +kernel
  have key : ∀ y : F64, y.isFin = true → (lit (-1e30) : F64).val ≤ y.val →
      (cFmin y (lit 1e30)).In (lit (-1e30) : F64).val (lit 1e30 : F64).val := by
    intro y hy hl
    have sy : (y ==. y) = true := by rw [eq_fin hy hy]; simp
    simp only [cFmin, sy, s2, Bool.not_true, Bool.false_eq_true, if_false]
    split_ifs with c
    · exact ⟨h2, by linarith, le_rfl⟩
    · rw [lt_fin h2 hy] at c
      simp only [decide_eq_true_eq, not_lt] at c
      exact ⟨hy, hl, c⟩
  rw [fclamp]
  rcases (Classical.em (x = .nan)).imp_right not_nan_cases with rfl | rfl | rfl | hx
  · rw [show cFmax (.nan : F64) (lit (-1e30)) = lit (-1e30) by simp only [cFmax]; nans]
    exact key _ h1 le_rfl
  · rw [show cFmax (.inf true : F64) (lit (-1e30)) = lit (-1e30) by decide +kernel]
    exact key _ h1 le_rfl
  · rw [show cFmin (cFmax (.inf false : F64) (lit (-1e30))) (lit 1e30) = lit 1e30 by decide +kernel]
    exact ⟨h2, by linarith, le_rfl⟩
  · have sx : (x ==. x) = true := by rw [eq_fin hx hx]; simp
    have : (cFmax x (lit (-1e30))).isFin = true ∧ (lit (-1e30) : F64).val ≤ (cFmax x (lit (-1e30))).val := by
      simp only [cFmax, sx, s1, Bool.not_true, Bool.false_eq_true, if_false]
      split_ifs with c
      · exact ⟨h1, le_rfl⟩
      · rw [lt_fin hx h1] at c
        simp only [decide_eq_true_eq, not_lt] at c
        exact ⟨hx, c⟩
    exact key _ this.1 this.2

theorem stage_in (g si di sn : F64) : (stage g si di sn).In (lit (-1e30) : F64).val (lit 1e30 : F64).val := fclamp_in _

theorem stage_mag (g si di sn : F64) : (stage g si di sn).Mag 100 := by
  have h1 : -2 ^ 100 ≤ (lit (-1e30) : F64).val := by decide +kernel
  have h2 : (lit 1e30 : F64).val ≤ 2 ^ 100 := by decide +kernel
  exact (stage_in g si di sn).mono h1 h2

/-- **C83**: the Krajeski ladder never puts out a NaN or an infinity: whatever its state, its settings and its input, the output lies
between `-1e30` and `1e30`. -/
theorem C83_krajeski_finite (s : Ladder F32 F64) (x : ℕ → F32) (n : ℕ) : (heard tick s x n).In (lit (-1e30) : F32).val (lit 1e30 : F32).val := by
  obtain ⟨h1, h2, h3⟩ := stage_in (feed tick s x n).g _ (feed tick s x n).d3 (feed tick s x n).s4
  have r1 : (lit (-1e30) : F32).val ≤ (lit (-1e30) : F64).val := by decide +kernel
  have r2 : (lit 1e30 : F64).val ≤ (lit 1e30 : F32).val := by decide +kernel
  obtain ⟨v, nz, hv, e⟩ := isFin_cases h1
  rw [heard]
  show (Conv.conv (stage _ _ _ _) : F32).In _ _
  rw [e]
  rw [e] at h2 h3
  exact ofRat_in (rep_val (lit (-1e30) : F32)) (rep_val (lit 1e30 : F32)) (r1.trans h2) (h3.trans r2)

theorem fclamp_nan : fclamp (.nan : F64) (lit (-1e30)) (lit 1e30) = lit (-1e30) := by
  rw [fclamp, show cFmax (.nan : F64) (lit (-1e30)) = lit (-1e30) by simp only [cFmax]; nans]
  decide +kernel

theorem fclamp_small {x : F64} (h : x.Mag 99) : fclamp x (lit (-1e30)) (lit 1e30) = x := by
  obtain ⟨h1, h2, h3, h4⟩ := big
  have s1 : ((lit (-1e30) : F64) ==. lit (-1e30)) = true := by decide +kernel
  have s2 : ((lit 1e30 : F64) ==. lit 1e30) = true := by decide +kernel
  have l : (lit (-1e30) : F64).val ≤ -2 ^ 99 := by decide +kernel
  have u : (2:ℚ) ^ 99 ≤ (lit 1e30 : F64).val := by decide +kernel
  have sx : (x ==. x) = true := by rw [eq_fin h.1 h.1]; simp
  have c1 : (x <. lit (-1e30)) = false := by rw [lt_fin h.1 h1]; simpa using l.trans h.2.1
  have c2 : ((lit 1e30 : F64) <. x) = false := by rw [lt_fin h2 h.1]; simpa using h.2.2.trans u
  simp only [fclamp, cFmax, cFmin, sx, s1, s2, c1, c2, Bool.not_true, Bool.false_eq_true, if_false]

/-- A stage at rest passes a large negative value on. -/
theorem stage_burst {g si di sn : F64} {a b : ℕ} (ha : a ≤ b) (hb : b ≤ 100) (h9 : 9 ≤ a) (hg : g.In (1 / 2 ^ 6) 1) (hs : si.In (-2 ^ b) (-2 ^ a)) (hd : di.In 0 0)
    (hn : sn.In 0 0) : (stage g si di sn).In (-2 ^ (b - 2)) (-2 ^ (a - 9)) := by
  have c : (lit 0.3 / lit 1.3 : F64).In (1 / 2 ^ 3) (1 / 2 ^ 2) := by refine ⟨?_, ?_, ?_⟩ <;> decide +kernel
  have c' : (lit 1 / lit 1.3 : F64).isFin = true := by decide +kernel
  have rp : ∀ k : ℕ, k ≤ 100 → binary64.Rep (-2 ^ k) false := by
    intro k hk
    exact Rep.neg (rep64_two_pow (by omega))
  have pa : (2:ℚ) ^ a = 2 ^ (a - 9) * 2 ^ 9 := by rw [← pow_add]; congr 1; omega
  have pb : (2:ℚ) ^ b = 2 ^ (b - 2) * 2 ^ 2 := by rw [← pow_add]; congr 1; omega
  have pa' : (2:ℚ) ^ (a - 3) = 2 ^ (a - 9) * 2 ^ 6 := by rw [← pow_add]; congr 1; omega
  have A0 : (0:ℚ) < 2 ^ (a - 9) := by positivity
  have B0 : (0:ℚ) < 2 ^ (b - 2) := by positivity
  obtain ⟨A, hA⟩ : ∃ A : ℚ, A = 2 ^ (a - 9) := ⟨_, rfl⟩
  obtain ⟨B, hB⟩ : ∃ B : ℚ, B = 2 ^ (b - 2) := ⟨_, rfl⟩
  have m1 : (lit 0.3 / lit 1.3 * si : F64).In (-2 ^ (b - 2)) (-2 ^ (a - 3)) := by
    refine mul_in c.1 hs.1 (rp _ (by omega)) (rp _ (by omega)) ?_ ?_
    · rw [← hB]; rw [pb, ← hB] at hs
      nlinarith [c.2.1, c.2.2, hs.2.1, hs.2.2]
    · rw [pa', ← hA]; rw [pa, ← hA] at hs; rw [← hA] at A0
      nlinarith [c.2.1, c.2.2, hs.2.1, hs.2.2]
  have m2 : (lit 1 / lit 1.3 * di : F64).In 0 0 :=
    mul_in c' hd.1 rep_zero rep_zero (by rw [hd.val_eq]; simp) (by rw [hd.val_eq]; simp)
  have m3 : (lit 0.3 / lit 1.3 * si + lit 1 / lit 1.3 * di : F64).In (-2 ^ (b - 2)) (-2 ^ (a - 3)) :=
    add_in m1 m2 (rp _ (by omega)) (rp _ (by omega)) (by rw [add_zero]) (by rw [add_zero])
  have m4 : (lit 0.3 / lit 1.3 * si + lit 1 / lit 1.3 * di - sn : F64).In (-2 ^ (b - 2)) (-2 ^ (a - 3)) :=
    sub_in m3 hn (rp _ (by omega)) (rp _ (by omega)) (by rw [sub_zero]) (by rw [sub_zero])
  have m5 : (g * (lit 0.3 / lit 1.3 * si + lit 1 / lit 1.3 * di - sn) : F64).In (-2 ^ (b - 2)) (-2 ^ (a - 9)) := by
    refine mul_in hg.1 m4.1 (rp _ (by omega)) (rp _ (by omega)) ?_ ?_
    · rw [← hB]; rw [← hB] at m4 B0
      have := m4.2.2
      rw [pa', ← hA] at this; rw [← hA] at A0
      nlinarith [hg.2.1, hg.2.2, m4.2.1]
    · rw [← hA]; rw [pa', ← hA] at m4; rw [← hA] at A0
      nlinarith [hg.2.1, hg.2.2, m4.2.2]
  have m6 : (g * (lit 0.3 / lit 1.3 * si + lit 1 / lit 1.3 * di - sn) + sn : F64).In (-2 ^ (b - 2)) (-2 ^ (a - 9)) :=
    add_in m5 hn (rp _ (by omega)) (rp _ (by omega)) (by rw [add_zero]) (by rw [add_zero])
  rw [stage, fclamp_small]
  · exact m6
  · refine ⟨m6.1, ?_, ?_⟩
    · exact le_trans (neg_le_neg (pow_le_pow_right₀ (by norm_num) (by omega))) m6.2.1
    · exact m6.2.2.trans (by have : (0:ℚ) < 2 ^ 99 := by positivity
                             linarith)

/-- **C83**: the price: with the filter at rest and its coefficient `g` between 1/64 and 1, a NaN sample comes out as a number below `-2^72`,
more than 430 dB above full scale. -/
theorem C83_krajeski_burst (ht : Libm.tanh (.nan : F64) = .nan) (s : Ladder F32 F64) (hg : s.g.In (1 / 2 ^ 6) 1) :
    (tick (reset s) .nan).2.isFin = true ∧ (tick (reset s) .nan).2.val ≤ -2 ^ 72 := by
  have z : (lit 0 : F64).In 0 0 := lit_zero
  have b1 : (lit (-1e30) : F64).In (-2 ^ 100) (-2 ^ 99) := by refine ⟨?_, ?_, ?_⟩ <;> decide +kernel
  have h1 : stage s.g .nan (lit 0) (lit 0) = lit (-1e30) := by
    simp only [stage]; nans; exact fclamp_nan
  have h2 := stage_burst (by norm_num) (by norm_num) (by norm_num) hg b1 z z
  have h3 := stage_burst (by norm_num) (by norm_num) (by norm_num) hg h2 z z
  have h4 := stage_burst (by norm_num) (by norm_num) (by norm_num) hg h3 z z
  obtain ⟨v, nz, hv, e⟩ := isFin_cases h4.1
  have : (Conv.conv (stage s.g (stage s.g (stage s.g (lit (-1e30)) (lit 0) (lit 0)) (lit 0) (lit 0)) (lit 0) (lit 0)) : F32).In (-2 ^ 94) (-2 ^ 72) := by
    rw [e] at h4 ⊢
    exact ofRat_in (Rep.neg (rep_two_pow (by norm_num))) (Rep.neg (rep_two_pow (by norm_num))) h4.2.1 h4.2.2
  simp only [tick, reset]; nans_with ht
  simp only [h1]
  exact ⟨this.1, this.2.2⟩

/-- **C83**: with the drive and compensation that `init` sets and any sane resonance, it does recover: from any state, after three samples
that are numbers the whole state consists of numbers again. -/
theorem C83_krajeski_recovers [Libm64Spec] (s : Ladder F32 F64) (hd : s.drive = lit 1) (hc : s.gComp = lit 1) (hg : s.gRes.Mag 10) (x : ℕ → F32)
    (hx : ∀ n, (x n).isFin = true) (n : ℕ) (hn : 3 ≤ n) :
    let t := feed tick s x n
    t.s0.Mag 0 ∧ t.s1.Mag 100 ∧ t.s2.Mag 100 ∧ t.s3.Mag 100 ∧ t.s4.Mag 100 ∧ t.d0.Mag 0 ∧ t.d1.Mag 100 ∧ t.d2.Mag 100 ∧ t.d3.Mag 100 := by
  have set : ∀ k, (feed tick s x k).drive = lit 1 ∧ (feed tick s x k).gComp = lit 1 ∧ (feed tick s x k).gRes = s.gRes := by
    intro k
    induction k with
    | zero => exact ⟨hd, hc, rfl⟩
    | succ k ih => exact ih
  have four : (lit 4 : F64).Mag 2 := by refine ⟨?_, ?_, ?_⟩ <;> decide +kernel
  have one : (lit 1 : F64).Mag 0 := by refine ⟨?_, ?_, ?_⟩ <;> decide +kernel
  have s4 : ∀ k, (feed tick s x (k + 1)).s4.Mag 100 := fun k => stage_mag _ _ _ _
  have s0 : ∀ k, (feed tick s x (k + 2)).s0.Mag 0 := by
    intro k
    obtain ⟨e1, e2, e3⟩ := set (k + 1)
    have hin := conv_up_mag (hx (k + 1))
    show (Libm.tanh _ : F64).Mag 0
    rw [e1, e2, e3]
    have m : ((lit 1 : F64) * (Conv.conv (x (k + 1)) - lit 4 * s.gRes * ((feed tick s x (k + 1)).s4 - lit 1 * Conv.conv (x (k + 1))))).Mag 142 := by
      have m1 := (one.mul hin)
      have m2 := ((s4 k).up 128).sub (m1.up 128)
      have m3 := (four.mul hg).mul m2
      have m4 := (hin.up 141).sub (m3.up 141)
      exact (one.mul m4).up 142
    have hnn : ∀ z : F64, z.Mag 142 → z ≠ .nan := by rintro z hz rfl; cases hz.1
    have := Libm64Spec.tanh_range _ (hnn _ m)
    simpa [Mag] using this
  obtain ⟨k, rfl⟩ := Nat.exists_eq_add_of_le' hn
  exact ⟨s0 (k + 1), stage_mag _ _ _ _, stage_mag _ _ _ _, stage_mag _ _ _ _, stage_mag _ _ _ _, s0 (k + 1), stage_mag _ _ _ _, stage_mag _ _ _ _,
    stage_mag _ _ _ _⟩

end Krajeski

/-! ### Ramps and oscillators -/

/-- **C83**, true of the linear ramp: after a NaN, `n` samples of a number `x` (`n` the length of a ramp) bring it to exactly `x`. -/
theorem C83_laglinear_recovers (s s' : LagLinear.Ramp F32) (y : F32) (h : LagLinear.tick s .nan = some (s', y)) (x : F32) (hx : x ≠ .nan)
    (ht : (s.timeSeconds <=. lit 0) = false) (n : ℤ) (hn : LagLinear.rampLength s = some n) (k : ℕ) :
    ∃ s'' ys, LagLinear.process s' (List.replicate k x) = some (s'', ys) ∧ ys.length = k ∧ ∀ i < k, n ≤ i + 1 → ys[i]? = some x := by
  have sx : (x ==. x) = true := by
    rcases not_nan_cases hx with rfl | rfl | hx
    · rfl
    · rfl
    · rw [eq_fin hx hx]; simp
  have adv : ∀ t : LagLinear.Ramp F32, (LagLinear.advance t).1.targetValue = t.targetValue ∧ (LagLinear.advance t).1.timeSeconds = t.timeSeconds ∧
      (LagLinear.advance t).1.sampleRate = t.sampleRate := by
    intro t; unfold LagLinear.advance; dsimp only; split_ifs <;> exact ⟨rfl, rfl, rfl⟩
  have rc : ∀ t : LagLinear.Ramp F32, (LagLinear.recalcIncrement t).targetValue = t.targetValue ∧
      (LagLinear.recalcIncrement t).timeSeconds = t.timeSeconds ∧ (LagLinear.recalcIncrement t).sampleRate = t.sampleRate := by
    intro t; unfold LagLinear.recalcIncrement; split_ifs <;> exact ⟨rfl, rfl, rfl⟩
  have hs : s'.targetValue = .nan ∧ s'.timeSeconds = s.timeSeconds ∧ s'.sampleRate = s.sampleRate := by
    have hne : Arith.ne (.nan : F32) s.targetValue = true := by rw [Arith.ne, nan_eq]; rfl
    have hn' : LagLinear.rampLength { s with targetValue := (.nan : F32) } = some n := hn
    simp only [LagLinear.tick, hne, if_true, ht, Bool.false_eq_true, if_false, hn', Option.map_some, Option.some.injEq] at h
    have e := congrArg Prod.fst h
    dsimp only at e
    rw [← e, (adv _).1, (adv _).2.1, (adv _).2.2, (rc _).1, (rc _).2.1, (rc _).2.2]
    exact ⟨rfl, rfl, rfl⟩
  obtain ⟨s'', ys, h1, h2, h3, -⟩ := LagLinear.C18_lands_exactly s' x sx (by rw [hs.1, Arith.ne, eq_nan]; rfl) (by rw [hs.2.1]; exact ht) n
    (by rw [LagLinear.rampLength, hs.2.1, hs.2.2]; exact hn) k
  exact ⟨s'', ys, h1, h2, h3⟩

/-- One call on an oscillator: a tick, or `setFrequency`. -/
inductive OscCall where
  | tick
  | setFrequency (f : F32)

/-- The state after some calls. -/
def oscRun {σ : Type} (tick : σ → σ × F32) (set : F32 → σ → σ) (s : σ) : List OscCall → σ
  | [] => s
  | .tick :: cs => oscRun tick set (tick s).1 cs
  | .setFrequency f :: cs => oscRun tick set (set f s) cs

/-- One sample at frequency NaN, and every later sample is NaN, whatever the frequency is set to afterwards. -/
def PitchNeverRecovers {σ : Type} (tick : σ → σ × F32) (set : F32 → σ → σ) : Prop :=
  ∀ (s : σ) (cs : List OscCall), (tick (oscRun tick set (tick (set .nan s)).1 cs)).2 = .nan

theorem pitchNeverRecovers {σ : Type} {tick : σ → σ × F32} {set : F32 → σ → σ} (I : σ → Prop) (h0 : ∀ s, I (tick (set .nan s)).1)
    (ht : ∀ s, I s → I (tick s).1 ∧ (tick s).2 = .nan) (hs : ∀ f s, I s → I (set f s)) : PitchNeverRecovers tick set := by
  intro s cs
  have : ∀ (cs : List OscCall) (s : σ), I s → I (oscRun tick set s cs) := by
    intro cs
    induction cs with
    | nil => intro s h; exact h
    | cons c cs ih =>
      intro s h
      cases c with
      | tick => exact ih _ (ht s h).1
      | setFrequency f => exact ih _ (hs f s h)
  exact (ht _ (this cs _ (h0 s))).2

/-- **C83, false** of the oscillators' frequency inputs: one sample at frequency NaN spoils the phase for ever; setting the frequency right
again does not help. (`reset` does: C57.) -/
theorem C83_oscillators_stick [Libm F32] (hsin : Libm.sin (.nan : F32) = .nan) :
    PitchNeverRecovers (SinOsc.tick (α := F32)) SinOsc.setFrequency ∧ PitchNeverRecovers (SawDPW.tick (α := F32)) SawDPW.setFrequency ∧
    PitchNeverRecovers (LFTri.tick (α := F32)) LFTri.setFrequency ∧ PitchNeverRecovers (Phasor.tick (α := F32)) Phasor.setFrequency := by
  refine ⟨pitchNeverRecovers (fun s => s.phase = .nan) ?_ ?_ ?_, pitchNeverRecovers (fun s => s.phase = .nan) ?_ ?_ ?_,
    pitchNeverRecovers (fun s => s.phase = .nan) ?_ ?_ ?_, pitchNeverRecovers (fun s => s.value = .nan) ?_ ?_ ?_⟩
  · intro s; simp only [SinOsc.tick, SinOsc.setFrequency, SinOsc.updatePhaseIncrement]; nans
  · intro s h; simp only [SinOsc.tick, h, hsin]; nans; trivial
  · intro f s h; exact h
  · intro s; simp only [SawDPW.tick, SawDPW.setFrequency]; nans
  · intro s h; simp only [SawDPW.tick, h]; nans; trivial
  · intro f s h; exact h
  · intro s; simp only [LFTri.tick, LFTri.setFrequency, LFTri.updatePhaseIncrement]; nans
  · intro s h; simp only [LFTri.tick, h]; nans; trivial
  · intro f s h; exact h
  · intro s; simp only [Phasor.tick, Phasor.setFrequency]; nans
  · intro s h
    have : ∀ a b : F32, Phasor.wrap .nan a b = .nan := by
      intro a b
      simp only [Phasor.wrap]; nans
      split_ifs <;> rfl
    simp only [Phasor.tick, h, this]; nans; trivial
  · intro f s h; exact h

/-- **C83**, true of the noise generator, which replaces a frequency that is not positive, NaN included. -/
theorem C83_noise_shrugs [Libm F32] (s : LFNoise2.Osc F32) : LFNoise2.setFrequency .nan s = LFNoise2.setFrequency (lit 0.001) s := by
  have : ((lit 0.001 : F32) >. lit 0) = true := by decide +kernel
  simp only [LFNoise2.setFrequency, this]; nans

/-! ### Non-trivial cases -/

/-- A NaN as the second of otherwise good samples. -/
example : heard (OnePoleLPF.tick (α := F32)) ⟨lit 48000, lit 1000, lit 0.5, lit 0.5, lit 0⟩
    (fun n => if n = 1 then .nan else lit 0.25) 1000000 = .nan :=
  C83_filters_stick.2.1 _ _ 1 rfl _ (by norm_num)

/-- The library functions of the trusted base meet the conditions. -/
example : idealLibm.tanh .nan = .nan ∧ idealLibm.sin .nan = .nan ∧ idealLibm64.tanh .nan = .nan := ⟨rfl, rfl, rfl⟩

/-- The Krajeski ladder at 1 kHz: its coefficient and resonance. -/
example : (lit 0.12 : F64).In (1 / 2 ^ 6) 1 ∧ (lit 0.1 : F64).Mag 10 := by
  refine ⟨⟨?_, ?_, ?_⟩, ?_, ?_, ?_⟩ <;> decide +kernel

/-- A ramp of 480 samples. -/
example : LagLinear.rampLength (⟨lit 48000, lit 0.01, lit 0, lit 0, lit 0, 0⟩ : LagLinear.Ramp F32) = some 480 ∧
    ((lit 0.01 : F32) <=. lit 0) = false := by decide +kernel

/-- The oversampling factor after `init`. -/
example [Libm F64] (s : RKSimulation.Ladder F32 F64) : 1 ≤ (RKSimulation.init (lit 48000) s).oversampleFactor := le_rfl

end Verif
