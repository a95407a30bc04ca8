import Verif.Model.Examples
import Verif.Props.FVerbProgram
import Verif.Props.FVerbBlocks
import Verif.Props.CombC
import Verif.Lemmas.Loops

/-!
# C85, C86: supersaw_example.cpp block by block, and the heap in the audio thread
-/

set_option linter.unusedSectionVars false

namespace Verif

/-! ## C86: who allocates -/

namespace FVerb
open FVerbDSP

section
variable {α : Type} [Arith α] [Libm α]

/-- The same blocks are live. -/
def SameLive (h h' : Heap α) : Prop := h'.next = h.next ∧ ∀ a, (h'.cell a).isSome = (h.cell a).isSome

theorem SameLive.refl (h : Heap α) : SameLive h h := ⟨rfl, fun _ => rfl⟩

theorem SameLive.trans {h1 h2 h3 : Heap α} (A : SameLive h1 h2) (B : SameLive h2 h3) : SameLive h1 h3 :=
  ⟨B.1.trans A.1, fun a => (B.2 a).trans (A.2 a)⟩

theorem sameLive_put {h : Heap α} {a : ℕ} {c : Cell α} (d : Cell α) (e : h.cell a = some c) : SameLive h (h.put a d) := by
  refine ⟨rfl, fun b => ?_⟩
  by_cases hb : b = a
  · subst hb; simp only [Heap.put, Function.update_self, e, Option.isSome_some]
  · simp only [Heap.put, Function.update_of_ne hb]

theorem sameLive_write {h h' : Heap α} {p : Option ℕ} {xs : List α} (e : writeSamples h p xs = some h') : SameLive h h' := by
  unfold writeSamples at e
  split at e
  · cases e
  · split at e
    · split at e
      · cases e; exact sameLive_put _ ‹_›
      · cases e
    · cases e

theorem dsp_cell {h : Heap α} {a : ℕ} {D : Dsp (List α) α} (e : loadDsp h a = some D) : h.cell a = some (.dsp D) := by
  unfold loadDsp at e
  split at e
  · cases e; assumption
  · cases e

/-- After the buffers are there, `process` neither allocates nor frees. -/
theorem process_live {h h' : Heap α} {o o' : Obj} {xs ys : List (Stereo α)} (e : process h o xs = some (h', o', ys)) {d : ℕ}
    (hd : o.dsp = some d) : ∃ h1, allocateBuffers h o xs.length = some (h1, o') ∧ SameLive h1 h' := by
  unfold process at e
  rw [hd] at e
  dsimp only at e
  by_cases hlt : 2 ^ 31 ≤ xs.length
  · rw [if_pos hlt] at e; cases e
  · rw [if_neg hlt] at e
    simp only [Option.bind_eq_some_iff, Option.map_eq_some_iff, Prod.exists, Prod.mk.injEq] at e
    obtain ⟨h1, o1, e1, i0, i1, -, h2, e2, h3, e3, D, e4, o0, o1', -, ls, -, rs, -, s, zs, -, h5, e5, h6, e6, ls', -, rs', -, rfl, rfl, -⟩ := e
    exact ⟨h1, e1, (sameLive_write e2).trans ((sameLive_write e3).trans ((sameLive_put _ (dsp_cell e4)).trans
      ((sameLive_write e5).trans (sameLive_write e6))))⟩

theorem delete_next {h h' : Heap α} {a : ℕ} (e : h.delete a = some h') : h'.next = h.next := by
  unfold Heap.delete at e
  split at e
  · cases e; rfl
  · cases e

theorem deleteIf_next {h h' : Heap α} {a : Option ℕ} (e : h.deleteIf a = some h') : h'.next = h.next := by
  cases a with
  | none => cases e; rfl
  | some a => exact delete_next e

theorem freePair_next {h h' : Heap α} {p : Option ℕ} (e : freePair h p = some h') : h'.next = h.next := by
  cases p with
  | none => cases e; rfl
  | some p =>
    unfold freePair at e
    split at e
    · cases e; rfl
    · rename_i q heq
      cases heq
      split at e
      · simp only [Option.bind_eq_some_iff] at e
        obtain ⟨h1, e1, h2, e2, e3⟩ := e
        rw [delete_next e3, deleteIf_next e2, deleteIf_next e1]
      · cases e

/-- **C86** (any arithmetic): a block that is not longer than the longest one before is processed without allocating and without freeing
anything: exactly the same heap blocks are live afterwards. -/
theorem C86_no_heap_partial (h h' : Heap α) (o o' : Obj) (xs ys : List (Stereo α)) (e : process h o xs = some (h', o', ys))
    (hx : xs.length ≤ o.allocatedBlockSize) : SameLive h h' ∧ o'.allocatedBlockSize = o.allocatedBlockSize := by
  cases hd : o.dsp with
  | none =>
    unfold process at e
    rw [hd] at e
    cases e
    exact ⟨.refl h, rfl⟩
  | some d =>
    obtain ⟨h1, e1, S⟩ := process_live e hd
    rw [allocateBuffers, if_pos hx] at e1
    cases e1
    exact ⟨S, rfl⟩

/-- **C86, negative** (any arithmetic): a block longer than every one before makes the audio thread call `new` six times. -/
theorem C86_allocates (h h' : Heap α) (o o' : Obj) (xs ys : List (Stereo α)) (e : process h o xs = some (h', o', ys)) (hd : o.dsp ≠ none)
    (hx : o.allocatedBlockSize < xs.length) : h'.next = h.next + 6 ∧ o'.allocatedBlockSize = xs.length := by
  obtain ⟨d, hd⟩ := Option.ne_none_iff_exists'.1 hd
  obtain ⟨h1, e1, S⟩ := process_live e hd
  rw [allocateBuffers, if_neg (by omega)] at e1
  simp only [freeBuffers, Option.map_eq_some_iff, Option.bind_eq_some_iff, Prod.exists, Prod.mk.injEq] at e1
  obtain ⟨h2, o2, ⟨h3, e3, h4, e4, rfl, rfl⟩, rfl, rfl⟩ := e1
  refine ⟨?_, rfl⟩
  rw [S.1, ← freePair_next e3, ← freePair_next e4]
  rfl

end
end FVerb

/-! ## C85: the program -/

namespace SuperSawExample
open FVerb FVerbDSP

section
variable {α β : Type} [Arith α] [Arith β] [Libm α] [Libm β] [Conv α β] [Conv β α]

theorem dry_reverb (cs : List (α × α)) : ∀ s : State α β, (forEach dryFrame s cs).1.heap = s.heap ∧ (forEach dryFrame s cs).1.reverb = s.reverb := by
  induction cs with
  | nil => intro s; exact ⟨rfl, rfl⟩
  | cons c cs ih => intro s; exact ih (dryFrame s c).1

theorem dry_length (cs : List (α × α)) : ∀ s : State α β, (forEach dryFrame s cs).2.length = cs.length := by
  induction cs with
  | nil => intro s; rfl
  | cons c cs ih => intro s; exact congrArg (· + 1) (ih (dryFrame s c).1)

/-- The reverb is only touched by `processCallback` through `FVerb.process`. -/
theorem dry_congr (cs : List (α × α)) : ∀ (s : State α β) (h : Heap α) (o : Obj),
    (forEach dryFrame { s with heap := h, reverb := o } cs).2 = (forEach dryFrame s cs).2 ∧
    (forEach dryFrame { s with heap := h, reverb := o } cs).1 = { (forEach dryFrame s cs).1 with heap := h, reverb := o } := by
  induction cs with
  | nil => intro s h o; exact ⟨rfl, rfl⟩
  | cons c cs ih =>
    intro s h o
    obtain ⟨a, b⟩ := ih (dryFrame s c).1 h o
    exact ⟨congrArg ((dryFrame s c).2 :: ·) a, b⟩

/-- The two channels of the mix. -/
def mixFrame (d w : Stereo α) : Stereo α :=
  ⟨d.left * (lit 1 - lit 0.1) + w.left * lit 0.1, d.right * (lit 1 - lit 0.1) + w.right * lit 0.1⟩

/-- **C85, negative** (any arithmetic): the arrays of the callback have room for 8192 frames; a longer block is undefined behaviour. -/
theorem C85_long_block (s : State α β) (cs : List (α × α)) (h : 8192 < cs.length) : processCallback s cs = none := if_pos h

end

section
variable [Libm F32] [LibmSpec] [Libm F64]

/-- The reverb of the program is running, has processed `n` frames since it was initialised, and has buffers if `w`. -/
structure Running (s : State F32 F64) (n : ℕ) (w : Bool) : Prop where
  ok : HOk s.heap
  rep : ∃ D t, Rep s.heap s.reverb ⟨some D, w⟩ t ∧ Runs D n

theorem set_runs {h : Heap F32} (H : HOk h) {o : Obj} {D : Dsp (List F32) F32} {w : Bool} {t : Finset ℕ} (R : Rep h o ⟨some D, w⟩ t) (p : Setter)
    (x : F32) : ∃ h', FVerb.set h o p x = some h' ∧ HOk h' ∧ Rep h' o ⟨some { D with params := setParam p x D.params }, w⟩ t := by
  obtain ⟨h', e, U, R'⟩ := dsp_rep H R (fun D => { D with params := setParam p x D.params })
  exact ⟨h', e, U.ok, R'⟩

/-- The reverb as the program sets it up. -/
def programReverb (sr : F32) : Option (Dsp (List F32) F32) :=
  (newDsp arrays sr).map fun D =>
    { D with params := { D.params with predelay := lit 150, decay := lit 82, tailDensity := lit 80, diffusion1 := lit 70,
                                       diffusion2 := lit 75, damping := lit 5500 } }

theorem limit_id {lo hi : ℚ} {x : F32} (h1 : (x <. lit lo) = false) (h2 : (x >. lit hi) = false) : limit lo hi x = x := by
  simp only [limit, h1, h2]; rfl

theorem reverbOf_runs {h : Heap F32} (H : HOk h) {o : Obj} {r : Unit' F32} {t : Finset ℕ} (R : Rep h o r t) {sr : F32} (hf : sr.isFin = true)
    (h1 : 45 ≤ sr.val) (h2 : sr.val < 2 ^ 31) :
    ∃ h' o' D t', reverbOf sr h o = some (h', o') ∧ HOk h' ∧ programReverb sr = some D ∧ Rep h' o' ⟨some D, r.warm⟩ t' ∧ Runs D 0 := by
  obtain ⟨D, hD, hR⟩ := newDsp_runs hf (by linarith) h2
  obtain ⟨g0, o', t', e0, U, R0⟩ := init_rep H R hD
  obtain ⟨g1, e1, H1, R1⟩ := set_runs U.ok R0 .predelay (lit 150)
  obtain ⟨g2, e2, H2, R2⟩ := set_runs H1 R1 .decay (lit 82)
  obtain ⟨g3, e3, H3, R3⟩ := set_runs H2 R2 .tailDensity (lit 80)
  obtain ⟨g4, e4, H4, R4⟩ := set_runs H3 R3 .diffusion1 (lit 70)
  obtain ⟨g5, e5, H5, R5⟩ := set_runs H4 R4 .diffusion2 (lit 75)
  obtain ⟨g6, e6, H6, R6⟩ := set_runs H5 R5 .damping (lit 5500)
  refine ⟨g6, o', _, t', ?_, H6, ?_, R6, ?_⟩
  · simp only [reverbOf, e0, Option.bind_some, e1, e2, e3, e4, e5, e6, Option.map_some]
  · rw [programReverb, hD, Option.map_some]
    simp only [setParam]
    rw [limit_id (lo := 0) (hi := 300) (by decide +kernel) (by decide +kernel), limit_id (lo := 0) (hi := 100) (x := lit 82) (by decide +kernel) (by decide +kernel),
      limit_id (lo := 0) (hi := 100) (x := lit 80) (by decide +kernel) (by decide +kernel),
      limit_id (lo := 0) (hi := 100) (x := lit 70) (by decide +kernel) (by decide +kernel),
      limit_id (lo := 0) (hi := 100) (x := lit 75) (by decide +kernel) (by decide +kernel),
      limit_id (lo := 10) (hi := 20000) (by decide +kernel) (by decide +kernel)]
  · refine ⟨hR.rate, ?_, hR.state⟩
    exact setParam_inRange .damping _ (by decide +kernel) (setParam_inRange .diffusion2 _ (by decide +kernel)
      (setParam_inRange .diffusion1 _ (by decide +kernel) (setParam_inRange .tailDensity _ (by decide +kernel)
      (setParam_inRange .decay _ (by decide +kernel) (setParam_inRange .predelay _ (by decide +kernel) hR.params)))))

/-- A sample rate JACK could report. -/
theorem rate_ok {R : ℕ} (h1 : 45 ≤ R) (h2 : R ≤ 2 ^ 24) :
    (Arith.ofNat R : F32).isFin = true ∧ 45 ≤ (Arith.ofNat R : F32).val ∧ (Arith.ofNat R : F32).val < 2 ^ 31 := by
  have h := CombC.ofNat_in h2
  refine ⟨h.1, ?_, ?_⟩
  · rw [h.val_eq]; exact_mod_cast h1
  · rw [h.val_eq]; exact_mod_cast (lt_of_le_of_lt h2 (by norm_num))

theorem block_runs {s : State F32 F64} {n : ℕ} {w : Bool} (H : HOk s.heap) {D : Dsp (List F32) F32} {t : Finset ℕ}
    (R : Rep s.heap s.reverb ⟨some D, w⟩ t) (hR : Runs D n) (cs : List (F32 × F32)) (h1 : cs.length ≤ 8192) (hw : cs = [] → w = true)
    (hn : n + cs.length < 2 ^ 31) :
    ∃ h o S ys t', HOk h ∧ compute arrays D.consts D.params D.state (forEach dryFrame s cs).2 = some (S, ys) ∧
      processCallback s cs = some ({ (forEach dryFrame s cs).1 with heap := h, reverb := o }, List.zipWith mixFrame (forEach dryFrame s cs).2 ys) ∧
      Rep h o ⟨some { D with state := S }, true⟩ t' ∧ Runs { D with state := S } (n + cs.length) := by
  have hl := dry_length cs s
  obtain ⟨S, ys, ec, hR'⟩ := compute_runs hR (forEach dryFrame s cs).2 (by rw [hl]; exact hn)
  have hlt : ¬ 2 ^ 31 ≤ (forEach dryFrame s cs).2.length := by rw [hl]; omega
  have hw' : (forEach dryFrame s cs).2 = [] → (⟨some D, w⟩ : Unit' F32).warm = true := by
    intro e
    refine hw ?_
    have := congrArg List.length e
    rw [hl] at this
    exact List.length_eq_zero_iff.1 this
  obtain ⟨h', o', t', ep, U, R'⟩ := process_rep H R rfl hlt hw' ec
  rw [hl] at hR'
  refine ⟨h', o', S, ys, t', U.ok, ec, ?_, R', hR'⟩
  obtain ⟨d1, d2⟩ := dry_reverb cs s
  rw [processCallback, if_neg (show ¬ MAX_BLOCK_SIZE < cs.length from not_lt.2 h1)]
  dsimp only
  rw [d1, d2, ep, Option.map_some]
  rfl

/-- The state of the globals when the program starts: nothing on the heap, a default-constructed reverb. The other units are arbitrary. -/
def Pristine (old : State F32 F64) : Prop := old.heap = ⟨0, fun _ => none⟩ ∧ old.reverb = .fresh

theorem pristine_rep {old : State F32 F64} (h : Pristine old) : HOk old.heap ∧ Rep old.heap old.reverb ⟨none, false⟩ ∅ := by
  rw [h.1, h.2]
  exact ⟨fun _ _ => rfl, [], [], by simp, rfl, rfl, Or.inl ⟨rfl, rfl, rfl, rfl, rfl⟩⟩

/-- What JACK has to keep to: no empty block and none longer than 8192 frames, sample rates from 45 Hz to 16 MHz, and fewer than `2^31` frames
(12.4 hours at 48 kHz) from one change of the sample rate to the next. The first argument counts the frames. -/
def Usable : ℕ → List (Event F32) → Prop
  | _, [] => True
  | n, .block cs :: es => cs ≠ [] ∧ cs.length ≤ 8192 ∧ n + cs.length < 2 ^ 31 ∧ Usable (n + cs.length) es
  | _, .rate R _ _ :: es => 45 ≤ R ∧ R ≤ 2 ^ 24 ∧ Usable 0 es

/-- The number of frames an event asks for. -/
def Event.frames : Event F32 → ℕ
  | .block cs => cs.length
  | .rate _ _ _ => 0

theorem setup_runs {R : ℕ} (h1 : 45 ≤ R) (h2 : R ≤ 2 ^ 24) (rand : ℕ → ℕ → F32) (cutoff drive : F32) {old : State F32 F64} (ho : Pristine old) :
    ∃ s0 D t, setup R rand cutoff drive old = some s0 ∧ HOk s0.heap ∧ programReverb (Arith.ofNat R) = some D ∧
      Rep s0.heap s0.reverb ⟨some D, false⟩ t ∧ Runs D 0 := by
  obtain ⟨f, a, b⟩ := rate_ok h1 h2
  obtain ⟨H, P⟩ := pristine_rep ho
  obtain ⟨h', o', D, t', e, H', eD, R', hR⟩ := reverbOf_runs H P f a b
  refine ⟨_, D, t', by simp only [setup, e, Option.map_some]; rfl, H', eD, R', hR⟩

theorem events_run (rand : ℕ → ℕ → F32) (es : List (Event F32)) : ∀ {n : ℕ} {s : State F32 F64} {w : Bool}, Running s n w → Usable n es →
    ∃ s' outs, run rand s es = some (s', outs) ∧ List.Forall₂ (fun e ys => ys.length = e.frames) es outs := by
  induction es with
  | nil => intro n s w _ _; exact ⟨s, [], rfl, .nil⟩
  | cons e es ih =>
    rintro n s w ⟨H, D, t, R, hR⟩ hu
    cases e with
    | block cs =>
      obtain ⟨u1, u2, u3, u4⟩ := hu
      obtain ⟨h', o', S, ys, t', H', ec, ep, R', hR'⟩ := block_runs H R hR cs u2 (fun h => absurd h u1) u3
      obtain ⟨s', outs, er, ho⟩ := ih (s := { (forEach dryFrame s cs).1 with heap := h', reverb := o' }) ⟨H', _, t', R', hR'⟩ u4
      refine ⟨s', _ :: outs, by simp only [run, step, ep, Option.bind_some, er, Option.map_some]; rfl, .cons ?_ ho⟩
      have := loop_length _ _ _ _ _ _ _ ec
      rw [List.length_zipWith, this, min_self, dry_length]
      rfl
    | rate r c d =>
      obtain ⟨u1, u2, u3⟩ := hu
      obtain ⟨f, a, b⟩ := rate_ok u1 u2
      obtain ⟨h', o', D', t', e, H', eD, R', hR'⟩ := reverbOf_runs H R f a b
      obtain ⟨s1, e1, H1, P1⟩ : ∃ s1, sampleRateCallback r rand c d s = some s1 ∧ s1.heap = h' ∧ s1.reverb = o' :=
        ⟨_, by simp only [sampleRateCallback, e, Option.map_some]; rfl, rfl, rfl⟩
      have hrun : Running s1 0 w := ⟨by rw [H1]; exact H', D', t', by rw [H1, P1]; exact R', hR'⟩
      obtain ⟨s', outs, er, ho⟩ := ih hrun u3
      exact ⟨s', [] :: outs, by simp only [run, step, e1, Option.map_some, Option.bind_some, er], .cons rfl ho⟩

/-- **C85, partial** (binary32, every libm of the assumed accuracy): from the start of the program, any sequence of blocks and changes of the
sample rate that JACK may ask for is processed without undefined behaviour, whatever controls are loaded (NaN included), and every
block is filled completely.  Missing, because false: blocks of more than 8192 frames (`C85_long_block`) and `2^31` frames
without a change of the sample rate (`C85_half_day`). -/
theorem C85_runs_partial (R : ℕ) (h1 : 45 ≤ R) (h2 : R ≤ 2 ^ 24) (rand : ℕ → ℕ → F32) (cutoff drive : F32) (old : State F32 F64)
    (ho : Pristine old) (es : List (Event F32)) (hu : Usable 0 es) :
    ∃ s0 s outs, setup R rand cutoff drive old = some s0 ∧ run rand s0 es = some (s, outs) ∧
      List.Forall₂ (fun e ys => ys.length = e.frames) es outs := by
  obtain ⟨s0, D, t, e0, H, -, P, hR⟩ := setup_runs h1 h2 rand cutoff drive ho
  obtain ⟨s, outs, e, hl⟩ := events_run rand es (s := s0) (w := false) ⟨H, D, t, P, hR⟩ hu
  exact ⟨s0, s, outs, e0, e, hl⟩

theorem blocks_run (rand : ℕ → ℕ → F32) (bs : List (List (F32 × F32))) : ∀ {n : ℕ} {s : State F32 F64} {w : Bool} {D : Dsp (List F32) F32}
    {t : Finset ℕ}, HOk s.heap → Rep s.heap s.reverb ⟨some D, w⟩ t → Runs D n → (∀ b ∈ bs, b ≠ [] ∧ b.length ≤ 8192) →
    n + bs.flatten.length < 2 ^ 31 → ∃ s' outs S wet, run rand s (bs.map .block) = some (s', outs) ∧
      compute arrays D.consts D.params D.state (forEach dryFrame s bs.flatten).2 = some (S, wet) ∧
      outs.flatten = List.zipWith mixFrame (forEach dryFrame s bs.flatten).2 wet := by
  induction bs with
  | nil => intro n s w D t _ _ _ _ _; exact ⟨s, [], D.state, [], rfl, rfl, rfl⟩
  | cons b bs ih =>
    intro n s w D t H R hR hb hn
    obtain ⟨u1, u2⟩ := hb b (by simp)
    rw [List.flatten_cons, List.length_append] at hn
    obtain ⟨h', o', S, ys, t', H', ec, ep, R', hR'⟩ := block_runs H R hR b u2 (fun h => absurd h u1) (by omega)
    obtain ⟨s', outs, S', wet, er, ew, eo⟩ := ih (s := { (forEach dryFrame s b).1 with heap := h', reverb := o' }) H' R' hR'
      (fun c hc => hb c (by simp [hc])) (by omega)
    rw [(dry_congr _ _ _ _).1] at ew eo
    refine ⟨s', _ :: outs, S', ys ++ wet, by simp only [List.map_cons, run, step, ep, Option.bind_some, er, Option.map_some]; rfl, ?_, ?_⟩
    · rw [List.flatten_cons, forEach_append]
      show loop arrays D.consts _ D.state _ = _
      rw [loop_append]
      have ec' : loop arrays D.consts (slow D.consts D.params) D.state (forEach dryFrame s b).2 = some (S, ys) := ec
      have ew' : loop arrays D.consts (slow D.consts D.params) S (forEach dryFrame (forEach dryFrame s b).1 bs.flatten).2 = some (S', wet) := ew
      rw [ec', Option.bind_some]
      dsimp only
      rw [ew', Option.map_some]
    · rw [List.flatten_cons, eo, List.flatten_cons, forEach_append]
      have hl := loop_length _ _ _ _ _ _ _ ec
      rw [List.zipWith_append hl.symm]

/-- **C85** (binary32): the audio does not depend on how JACK cuts it into blocks. Whatever the sizes of the blocks, the output is that of one
stream: the dry signal of all frames in order, mixed 9 : 1 with what one pass of the reverb DSP (set up as the program does it) makes of
the whole dry signal. -/
theorem C85_one_stream (R : ℕ) (h1 : 45 ≤ R) (h2 : R ≤ 2 ^ 24) (rand : ℕ → ℕ → F32) (cutoff drive : F32) (old : State F32 F64)
    (ho : Pristine old) (bs : List (List (F32 × F32))) (hb : ∀ b ∈ bs, b ≠ [] ∧ b.length ≤ 8192) (hn : bs.flatten.length < 2 ^ 31) :
    ∃ s0 s outs D S wet, setup R rand cutoff drive old = some s0 ∧ run rand s0 (bs.map .block) = some (s, outs) ∧
      programReverb (Arith.ofNat R) = some D ∧
      compute arrays D.consts D.params (clear arrays) (forEach dryFrame s0 bs.flatten).2 = some (S, wet) ∧
      outs.flatten = List.zipWith mixFrame (forEach dryFrame s0 bs.flatten).2 wet := by
  obtain ⟨s0, D, t, e0, H, eD, P, hR⟩ := setup_runs h1 h2 rand cutoff drive ho
  obtain ⟨s, outs, S, wet, e1, e2, e3⟩ := blocks_run rand bs H P hR hb (by omega)
  refine ⟨s0, s, outs, D, S, wet, e0, e1, eD, ?_, e3⟩
  have hs : D.state = clear arrays := by
    simp only [programReverb, newDsp, Option.map_eq_some_iff, Option.bind_eq_some_iff] at eD
    obtain ⟨D1, ⟨m, -, k, -, rfl⟩, rfl⟩ := eD
    rfl
  rw [← hs]; exact e2

theorem blocks_overflow (rand : ℕ → ℕ → F32) (bs : List (List (F32 × F32))) : ∀ {n : ℕ} {s : State F32 F64} {w : Bool} {D : Dsp (List F32) F32}
    {t : Finset ℕ}, HOk s.heap → Rep s.heap s.reverb ⟨some D, w⟩ t → D.state.iota = n → n < 2 ^ 31 → 2 ^ 31 ≤ n + bs.flatten.length →
    run rand s (bs.map .block) = none := by
  induction bs with
  | nil => intro n s w D t _ _ _ h h'; simp only [List.flatten_nil, List.length_nil] at h'; omega
  | cons b bs ih =>
    intro n s w D t H R hi hn hs
    rw [List.flatten_cons, List.length_append] at hs
    simp only [List.map_cons, run, step]
    by_cases hb : 8192 < b.length
    · rw [C85_long_block s b hb]; rfl
    rw [processCallback, if_neg (show ¬ MAX_BLOCK_SIZE < b.length from hb)]
    dsimp only
    obtain ⟨d1, d2⟩ := dry_reverb b s
    have hl := dry_length b s
    rw [d1, d2]
    by_cases hc : (forEach dryFrame s b).2 = [] ∧ w = false
    · rw [hc.1, process_cold R (by simp) hc.2]; rfl
    have hw : (forEach dryFrame s b).2 = [] → (⟨some D, w⟩ : Unit' F32).warm = true := by
      intro e
      by_contra h
      exact hc ⟨e, by simpa using h⟩
    cases ec : compute arrays D.consts D.params D.state (forEach dryFrame s b).2 with
    | none => rw [process_dsp_none H R rfl hw ec]; rfl
    | some r =>
      obtain ⟨S, ys⟩ := r
      obtain ⟨c1, c2⟩ := loop_count _ ec
      rw [hl, hi] at c1
      obtain ⟨h', o', t', ep, U, R'⟩ := process_rep H R rfl (by rw [hl]; omega) hw ec
      rw [ep, Option.map_some, Option.bind_some]
      have := ih (n := n + b.length) (s := { (forEach dryFrame s b).1 with heap := h', reverb := o' }) U.ok R'
        (by show S.iota = _; rw [c1]; push_cast; ring) (by
          by_cases he : (forEach dryFrame s b).2 = []
          · have : b.length = 0 := by rw [← hl, he]; rfl
            omega
          · have := c2 he
            omega) (by omega)
      simp only [this, Option.map_none]

/-- **C85, negative** (binary32): `2^31` frames after the start, 12.4 hours at 48 kHz, the program has overflowed a signed counter in the reverb,
whatever the block sizes and the controls. -/
theorem C85_half_day (R : ℕ) (h1 : 45 ≤ R) (h2 : R ≤ 2 ^ 24) (rand : ℕ → ℕ → F32) (cutoff drive : F32) (old s0 : State F32 F64)
    (ho : Pristine old) (h0 : setup R rand cutoff drive old = some s0) (bs : List (List (F32 × F32))) (hn : 2 ^ 31 ≤ bs.flatten.length) :
    run rand s0 (bs.map .block) = none := by
  obtain ⟨s1, D, t, e0, H, eD, P, hR⟩ := setup_runs h1 h2 rand cutoff drive ho
  rw [h0] at e0
  cases e0
  obtain ⟨D1, hD1, rfl⟩ : ∃ D1, newDsp arrays (Arith.ofNat R : F32) = some D1 ∧ _ = D := Option.map_eq_some_iff.1 eD
  refine blocks_overflow rand bs (n := 0) H P ?_ (by norm_num) (by omega)
  simp only [newDsp, Option.map_eq_some_iff, Option.bind_eq_some_iff] at hD1
  obtain ⟨m, -, k, -, rfl⟩ := hD1
  rfl

/-- **C86** for the program: a block that is no longer than an earlier one is processed without allocating or freeing; a block longer than all
before makes the audio thread allocate six arrays. The first block is always of the second kind (`C86_first_block`). -/
theorem C86_program_partial (s s' : State F32 F64) (cs : List (F32 × F32)) (ys : List (Stereo F32)) (h : processCallback s cs = some (s', ys))
    (hd : s.reverb.dsp ≠ none) :
    (cs.length ≤ s.reverb.allocatedBlockSize → SameLive s.heap s'.heap ∧ s'.reverb.allocatedBlockSize = s.reverb.allocatedBlockSize) ∧
    (s.reverb.allocatedBlockSize < cs.length → s'.heap.next = s.heap.next + 6 ∧ s'.reverb.allocatedBlockSize = cs.length) := by
  by_cases hb : 8192 < cs.length
  · rw [C85_long_block s cs hb] at h; cases h
  rw [processCallback, if_neg (show ¬ MAX_BLOCK_SIZE < cs.length from hb)] at h
  dsimp only at h
  obtain ⟨d1, d2⟩ := dry_reverb cs s
  have hl := dry_length cs s
  rw [d1, d2, Option.map_eq_some_iff] at h
  obtain ⟨⟨h', o', zs⟩, ep, e⟩ := h
  cases e
  refine ⟨fun hle => C86_no_heap_partial _ _ _ _ _ _ ep (by rw [hl]; exact hle), fun hlt => ?_⟩
  have := C86_allocates _ _ _ _ _ _ ep hd (by rw [hl]; exact hlt)
  rw [hl] at this
  exact this

/-- **C86, negative**: the first block of the program allocates, in the audio thread. -/
theorem C86_first_block (R : ℕ) (h1 : 45 ≤ R) (h2 : R ≤ 2 ^ 24) (rand : ℕ → ℕ → F32) (cutoff drive : F32) (old s0 : State F32 F64)
    (ho : Pristine old) (h0 : setup R rand cutoff drive old = some s0) (cs : List (F32 × F32)) (hc : cs ≠ []) (hb : cs.length ≤ 8192) :
    ∃ s1 ys, processCallback s0 cs = some (s1, ys) ∧ s1.heap.next = s0.heap.next + 6 := by
  obtain ⟨s1, D, t, e0, H, eD, P, hR⟩ := setup_runs h1 h2 rand cutoff drive ho
  rw [h0] at e0
  cases e0
  obtain ⟨h', o', S, ys, t', -, -, ep, -, -⟩ := block_runs H P hR cs hb (fun h => absurd h hc) (by omega)
  refine ⟨_, _, ep, ((C86_program_partial _ _ _ _ ep ?_).2 ?_).1⟩
  · obtain ⟨l, m, -, -, hd, -⟩ := P
    intro h
    rw [h] at hd
    exact hd
  · obtain ⟨l, m, -, -, -, hm⟩ := P
    rcases hm with ⟨-, -, e, -⟩ | ⟨b, -, -, -, hw, -⟩
    · rw [e]; exact List.length_pos_iff.2 hc
    · cases hw

/-- A usable history: two blocks with wild controls, a change of the rate, another block. -/
example : Usable 0 [.block (List.replicate 256 (.nan, .inf false)), .block [(lit 1000, lit 0.5)], .rate 96000 (lit 5000) (lit 0.5),
    .block (List.replicate 8192 (lit 20, lit 1))] := by
  simp only [Usable, List.length_replicate]
  refine ⟨fun h => ?_, by norm_num, by norm_num, by simp, by norm_num, by norm_num, by norm_num, by norm_num, fun h => ?_, by norm_num, by norm_num,
    trivial⟩
  · have := congrArg List.length h
    rw [List.length_replicate] at this; cases this
  · have := congrArg List.length h
    rw [List.length_replicate] at this; cases this

end
end SuperSawExample
end Verif
