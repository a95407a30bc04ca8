import Verif.Model.Examples
import Verif.Props.Envelopes
import Verif.Props.ExampleVoice
import Verif.Props.CombC

/-!
# C75, C76: the keyboard synthesiser jack_example.cpp
-/

set_option linter.unusedSectionVars false

namespace Verif.JackExample

section generic
variable {α : Type} [Arith α] [Libm α]

/-! ## What the user asked for -/

/-- The lines typed in a history. -/
def lines (es : List (Event α)) : List (Typed α) := es.filterMap fun e => match e with | .typed l => some l | _ => none

/-- How often the return key alone was pressed. -/
def presses (es : List (Event α)) : ℕ := (lines es).countP fun l => match l with | .empty => true | _ => false

/-- A number the program takes as a pitch. -/
def accepted : Typed α → Option α
  | .number f => if (lit 20 <. f) && (f <. lit 20000) then some f else none
  | _ => none

/-- The last number taken, 440 before the first. -/
def pitch (es : List (Event α)) : α := ((lines es).filterMap accepted).getLast?.getD (lit 440)

/-- The event is a block of audio. -/
def Event.isBlock : Event α → Bool
  | .block _ => true
  | _ => false

/-- What happened since the last block of audio (the latest event first). -/
def sinceBlock (es : List (Event α)) : List (Event α) := es.reverse.takeWhile fun e => !e.isBlock

/-! ## The state after a history -/

theorem run_append (s : State α) (xs ys : List (Event α)) :
    run s (xs ++ ys) = ((run (run s xs).1 ys).1, (run s xs).2 ++ (run (run s xs).1 ys).2) := by
  induction xs generalizing s with
  | nil => rfl
  | cons x xs ih => simp only [List.cons_append, run, ih]

theorem run_snoc (s : State α) (xs : List (Event α)) (e : Event α) : (run s (xs ++ [e])).1 = (step (run s xs).1 e).1 := by
  rw [run_append]; rfl

theorem presses_snoc (es : List (Event α)) (e : Event α) : presses (es ++ [e]) = presses es + presses [e] := by
  simp [presses, lines, List.filterMap_append]

theorem pitch_snoc (es : List (Event α)) (e : Event α) :
    pitch (es ++ [e]) = match e with | .typed l => (accepted l).getD (pitch es) | _ => pitch es := by
  rcases e with _ | _ | l
  · simp [pitch, lines, List.filterMap_append]
  · simp [pitch, lines, List.filterMap_append]
  · simp only [pitch, lines, List.filterMap_append, List.filterMap_cons, List.filterMap_nil]
    rcases accepted l with _ | f <;> simp

theorem gateEdge_rest (s : State α) : (gateEdge s).noteOn = s.noteOn ∧ (gateEdge s).frequency = s.frequency ∧ (gateEdge s).lastNoteOn = s.noteOn := by
  unfold gateEdge
  by_cases h : s.noteOn = s.lastNoteOn
  · rw [if_neg (not_not.mpr h)]; exact ⟨rfl, rfl, h.symm⟩
  · rw [if_pos h]; exact ⟨rfl, rfl, rfl⟩

/-- After every history the two controls hold what was asked for, and the gate the audio thread remembers is the one at its last block. -/
theorem state_after (R : ℕ) (es : List (Event α)) :
    let s := (run (setup R) es).1
    s.noteOn = decide (presses es % 2 = 1) ∧ s.frequency = pitch es ∧
    (s.lastNoteOn = s.noteOn ↔ presses (sinceBlock es) % 2 = 0) := by
  induction es using List.reverseRecOn with
  | nil => exact ⟨rfl, rfl, by simp [sinceBlock, presses, lines, run, setup]⟩
  | append_singleton es e ih =>
    obtain ⟨h1, h2, h3⟩ := ih
    simp only [run_snoc, presses_snoc, pitch_snoc]
    generalize (run (setup R) es).1 = s at h1 h2 h3
    cases e with
    | block buf =>
      obtain ⟨g1, g2, g3⟩ := gateEdge_rest { s with voice := ExampleVoice.setFrequency s.frequency s.voice }
      have hp : presses [Event.block buf] = 0 := rfl
      refine ⟨?_, ?_, ?_⟩
      · show (gateEdge _).noteOn = _
        rw [g1, hp, add_zero]; exact h1
      · show (gateEdge _).frequency = _
        rw [g2]; exact h2
      · have : sinceBlock (es ++ [Event.block buf]) = [] := by simp [sinceBlock, Event.isBlock]
        rw [this]
        refine ⟨fun _ => rfl, fun _ => ?_⟩
        show (gateEdge _).lastNoteOn = (gateEdge _).noteOn
        rw [g1, g3]
    | rate n =>
      have hp : presses [Event.rate (α := α) n] = 0 := rfl
      refine ⟨by rw [hp, add_zero]; exact h1, h2, ?_⟩
      have : sinceBlock (es ++ [Event.rate n]) = .rate n :: sinceBlock es := by simp [sinceBlock, Event.isBlock]
      rw [this]
      exact h3
    | typed l =>
      have hs : sinceBlock (es ++ [Event.typed l]) = .typed l :: sinceBlock es := by simp [sinceBlock, Event.isBlock]
      rw [hs]
      cases l with
      | empty =>
        have hp : presses [Event.typed (α := α) .empty] = 1 := rfl
        have hq : presses (Event.typed .empty :: sinceBlock es) = presses (sinceBlock es) + 1 := by simp [presses, lines]
        refine ⟨?_, h2, ?_⟩
        · show (!s.noteOn) = _
          rw [h1, hp]
          rcases Nat.mod_two_eq_zero_or_one (presses es) with h | h <;> simp [h, Nat.add_mod]
        · show s.lastNoteOn = (!s.noteOn) ↔ _
          rw [hq]
          rcases Nat.mod_two_eq_zero_or_one (presses (sinceBlock es)) with h | h
          · rw [h3.mpr h]
            simp [h, Nat.add_mod]
          · have : s.lastNoteOn ≠ s.noteOn := fun hh => by rw [h3.mp hh] at h; cases h
            rw [show (presses (sinceBlock es) + 1) % 2 = 0 by omega]
            refine ⟨fun _ => rfl, fun _ => ?_⟩
            cases h' : s.lastNoteOn <;> cases h'' : s.noteOn <;> simp_all
      | number f =>
        have hp : presses [Event.typed (α := α) (.number f)] = 0 := rfl
        have hq : presses (Event.typed (.number f) :: sinceBlock es) = presses (sinceBlock es) := by simp [presses, lines]
        rw [hq, hp, add_zero]
        simp only [step, typed, accepted]
        split_ifs with hc
        · exact ⟨h1, rfl, h3⟩
        · exact ⟨h1, h2, h3⟩
      | junk =>
        have hp : presses [Event.typed (α := α) .junk] = 0 := rfl
        have hq : presses (Event.typed .junk :: sinceBlock es) = presses (sinceBlock es) := by simp [presses, lines]
        rw [hq, hp, add_zero]
        exact ⟨h1, h2, h3⟩

/-! ## C75 -/

/-- **C75** (any arithmetic): what a block of audio plays. Whatever happened before, the voice is first set to the last pitch taken; if the
return key was pressed an odd number of times since the last block, the note starts (an odd number of presses in all) or is released; then
the voice plays. -/
theorem C75_block (R : ℕ) (es : List (Event α)) (buf : List (Stereo α)) :
    let before := (run (setup R) es).1.voice
    let tuned := ExampleVoice.setFrequency (pitch es) before
    let struck := if presses (sinceBlock es) % 2 = 0 then tuned
      else if presses es % 2 = 1 then ExampleVoice.trigger tuned else ExampleVoice.release tuned
    (step (run (setup R) es).1 (.block buf)).2 = (ExampleVoice.process struck buf).2 ∧
    (run (setup R) (es ++ [.block buf])).1.voice = (ExampleVoice.process struck buf).1 := by
  obtain ⟨h1, h2, h3⟩ := state_after R es
  intro before tuned struck
  have hb : before = (run (setup R) es).1.voice := rfl
  have ht : tuned = ExampleVoice.setFrequency (pitch es) before := rfl
  have hs : struck = if presses (sinceBlock es) % 2 = 0 then tuned
      else if presses es % 2 = 1 then ExampleVoice.trigger tuned else ExampleVoice.release tuned := rfl
  clear_value before tuned struck
  rw [run_snoc]
  generalize (run (setup R) es).1 = s at h1 h2 h3 hb
  have : (gateEdge { s with voice := ExampleVoice.setFrequency s.frequency s.voice }).voice = struck := by
    rw [hs, ht, hb, ← h2]
    unfold gateEdge
    by_cases h : presses (sinceBlock es) % 2 = 0
    · rw [if_pos h, if_neg (by simpa using (h3.mpr h).symm)]
    · rw [if_neg h, if_pos (by
        intro hh
        exact h (h3.mp hh.symm))]
      by_cases h' : presses es % 2 = 1
      · have e : s.noteOn = true := by rw [h1]; exact decide_eq_true h'
        rw [if_pos h']; simp only [e]; rfl
      · have e : s.noteOn = false := by rw [h1]; exact decide_eq_false h'
        rw [if_neg h']; simp only [e]; rfl
  rw [← this]
  exact ⟨rfl, rfl⟩

/-- **C75** (any arithmetic): between two blocks the voice changes only when the server changes its rate. -/
theorem C75_between (R : ℕ) (es : List (Event α)) (l : Typed α) (n : ℕ) :
    (run (setup R) (es ++ [.typed l])).1.voice = (run (setup R) es).1.voice ∧
    (run (setup R) (es ++ [.rate n])).1.voice = ExampleVoice.init (Arith.ofNat n) := by
  rw [run_snoc, run_snoc]
  refine ⟨?_, rfl⟩
  cases l with
  | empty => rfl
  | junk => rfl
  | number f => simp only [step, typed]; split_ifs <;> rfl

/-- **C75, negative** (any arithmetic): pressing return to start a note does not always start one. Two presses between two blocks cancel
each other: every later sample is as if neither had happened. -/
theorem C75_two_presses_lost (R : ℕ) (es later : List (Event α)) :
    (run (setup R) (es ++ [.typed .empty, .typed .empty] ++ later)).2.flatten = (run (setup R) (es ++ later)).2.flatten := by
  rw [List.append_assoc, run_append (xs := es), run_append (xs := es)]
  have : run (run (setup R) es).1 ([.typed .empty, .typed .empty] ++ later) =
      ((run (run (setup R) es).1 later).1, [] :: [] :: (run (run (setup R) es).1 later).2) := by
    simp [run, step, typed]
  rw [this]
  simp

/-- Concrete case: a note started and released, with a number that is refused in between. -/
example : presses [Event.typed (.empty : Typed F32), .block [], .typed (.number (lit 7)), .typed .empty] = 2 ∧
    presses (sinceBlock [Event.typed (.empty : Typed F32), .block [], .typed (.number (lit 7)), .typed .empty]) = 1 ∧
    pitch [Event.typed (.number (lit 220 : F32)), .block [], .typed (.number (lit 7)), .typed (.number .nan), .typed .empty] = lit 220 := by
  refine ⟨by decide, by decide, ?_⟩
  have h1 : accepted (.number (lit 220 : F32)) = some (lit 220) := by
    rw [accepted, if_pos (by decide +kernel)]
  have h2 : accepted (.number (lit 7 : F32)) = none := by rw [accepted, if_neg (by decide +kernel)]
  have h3 : accepted (.number (.nan : F32)) = none := by rw [accepted, if_neg (by decide +kernel)]
  have h4 : accepted (.empty : Typed F32) = none := rfl
  simp [pitch, lines, h1, h2, h3, h4]

/-- **C76, negative** (any arithmetic): the vibrato set up by the program, 0.1 semitones, becomes 0.5 with the
first change of rate and stays there for every later history. -/
theorem C76_vibrato_lost (R n : ℕ) (es later : List (Event α)) :
    (run (setup R) (es ++ .rate n :: later)).1.voice.vibratoDepth = lit 0.5 ∧ (setup R : State α).voice.vibratoDepth = lit 0.1 := by
  refine ⟨?_, rfl⟩
  rw [run_append]
  generalize (run (setup R) es).1 = s
  have key : ∀ (l : List (Event α)) (s : State α), s.voice.vibratoDepth = lit 0.5 → (run s l).1.voice.vibratoDepth = lit 0.5 := by
    intro l
    induction l with
    | nil => intro s h; exact h
    | cons e l ih =>
      intro s h
      refine ih _ ?_
      cases e with
      | block b =>
        have hg : (gateEdge { s with voice := ExampleVoice.setFrequency s.frequency s.voice }).voice.vibratoDepth = lit 0.5 := by
          unfold gateEdge; split_ifs <;> exact h
        have := (forEach_inv (I := fun t : ExampleVoice.Voice α => t.vibratoDepth = lit 0.5) (step := fun s (_ : Stereo α) => ExampleVoice.tick s)
          (P := fun _ _ => True) (fun t b ht => ⟨(ExampleVoice.tick_depth t).1.trans ht, trivial⟩) hg b).1
        exact this
      | rate k => rfl
      | typed t =>
        cases t with
        | empty => exact h
        | junk => exact h
        | number f =>
          show (typed (.number f) s).voice.vibratoDepth = _
          rw [typed]; split_ifs <;> exact h
  exact key later _ rfl

/-- The two depths differ. -/
example : (lit 0.5 : F32) ≠ lit 0.1 := by decide +kernel

end generic

/-! ## Single precision -/

section float
open FP
variable [Libm F32] [LibmSpec]

/-- **C75** (single precision): whatever is typed, NaN, infinities and refused numbers included, the pitch is a number above 20 and below
20000. -/
theorem C75_pitch_range (es : List (Event F32)) : (pitch es).isFin = true ∧ 20 < (pitch es).val ∧ (pitch es).val < 20000 := by
  have h20 : (lit 20 : F32).In 20 20 := lit_rep (by decide +kernel)
  have h2k : (lit 20000 : F32).In 20000 20000 := lit_rep (by decide +kernel)
  have key : ∀ f ∈ (lines es).filterMap accepted, f.isFin = true ∧ 20 < f.val ∧ f.val < 20000 := by
    intro f hf
    obtain ⟨l, -, hl⟩ := List.mem_filterMap.mp hf
    cases l with
    | empty => cases hl
    | junk => cases hl
    | number g =>
      rw [accepted] at hl
      split_ifs at hl with hc
      obtain rfl : f = g := (Option.some.inj hl).symm
      obtain ⟨p, q⟩ := Bool.and_eq_true_iff.mp hc
      have hfin : f.isFin = true := by
        by_cases hn : f = .nan
        · subst hn; revert p; decide +kernel
        · rcases not_nan_cases hn with rfl | rfl | h
          · revert p; decide +kernel
          · revert q; decide +kernel
          · exact h
      rw [lt_fin h20.1 hfin, decide_eq_true_eq, h20.val_eq] at p
      rw [lt_fin hfin h2k.1, decide_eq_true_eq, h2k.val_eq] at q
      exact ⟨hfin, p, q⟩
  unfold pitch
  rcases h : ((lines es).filterMap accepted).getLast? with _ | f
  · have : (lit 440 : F32).In 440 440 := lit_rep (by decide +kernel)
    rw [Option.getD_none, this.val_eq]
    exact ⟨this.1, by norm_num, by norm_num⟩
  · exact key f (List.mem_of_getLast? h)

/-- The pitches and the rates of a history leave room for the vibrato: no rate is below `4 cap`, no pitch above `cap`. -/
def Room (cap : ℕ) : Event F32 → Prop
  | .rate n => 4 * cap ≤ n ∧ n ≤ 2 ^ 24
  | .typed (.number f) => accepted (.number f) ≠ none → f.val ≤ cap
  | _ => True

theorem ofNat_rate {n : ℕ} (h : n ≤ 2 ^ 24) : (Arith.ofNat n : F32).In n n := CombC.ofNat_in h

theorem setup_inv {R cap : ℕ} (hc : 440 ≤ cap) (h4 : 4 * cap ≤ R) (hR : R ≤ 2 ^ 24) :
    ExampleVoice.Inv (Arith.ofNat R) (setup R : State F32).voice ∧ (setup R : State F32).voice.amplitude = lit 0.5 := by
  have hr := ofNat_rate hR
  have h4' : (1760 : ℚ) ≤ R := by exact_mod_cast (by omega : 1760 ≤ R)
  have hR' : (R : ℚ) ≤ 2 ^ 24 := by exact_mod_cast hR
  have hsr : (Arith.ofNat R : F32).In 1760 (2 ^ 100) := hr.mono h4' (hR'.trans (by norm_num))
  have h440 : (lit 440 : F32).In 440 440 := lit_rep (by decide +kernel)
  refine ⟨ExampleVoice.inv_run hsr (ExampleVoice.inv_init hsr) [.setFrequency (lit 440), .setAttack (lit 0.01), .setRelease (lit 0.3),
    .setVibratoDepth (lit 0.1), .setVibratoRate (lit 5), .setAmplitude (lit 0.5)] ?_, ?_⟩
  · simp only [List.forall_mem_cons, List.not_mem_nil, false_imp_iff, implies_true, and_true, ExampleVoice.Op.Legal]
    refine ⟨?_, trivial, trivial, fun _ => ⟨by decide +kernel, by decide +kernel, by decide +kernel⟩, ?_, by decide +kernel⟩
    · rw [hr.val_eq]; exact h440.mono (by norm_num) (by linarith)
    · have h5 : (lit 5 : F32).In 5 5 := lit_rep (by decide +kernel)
      exact ExampleVoice.fin_not_gt h5.1 hr.1 (by rw [h5.val_eq, hr.val_eq]; linarith)
  · show clamp (lit 0.5 : F32) (lit 0) (lit 1) = lit 0.5
    decide +kernel

/-- The voice is sound for some rate, the pitch is low enough for every rate, the amplitude is a half. -/
def Good (cap : ℕ) (s : State F32) : Prop :=
  (∃ sr : F32, sr.In (4 * cap) (2 ^ 24) ∧ ExampleVoice.Inv sr s.voice) ∧ s.frequency.In 0 cap ∧ s.voice.amplitude = lit 0.5

theorem good_setup {R cap : ℕ} (hc : 440 ≤ cap) (h4 : 4 * cap ≤ R) (hR : R ≤ 2 ^ 24) : Good cap (setup R) := by
  have hr := ofNat_rate hR
  have h4' : (4 * cap : ℚ) ≤ R := by exact_mod_cast h4
  have hR' : (R : ℚ) ≤ 2 ^ 24 := by exact_mod_cast hR
  have hc' : (440 : ℚ) ≤ cap := by exact_mod_cast hc
  have h440 : (lit 440 : F32).In 440 440 := lit_rep (by decide +kernel)
  obtain ⟨h1, h2⟩ := setup_inv hc h4 hR
  exact ⟨⟨_, hr.mono h4' hR', h1⟩, h440.mono (by norm_num) hc', h2⟩

theorem process_inv {sr : F32} (hsr : sr.In 1760 (2 ^ 100)) {v : ExampleVoice.Voice F32} (h : ExampleVoice.Inv sr v) (ha : v.amplitude = lit 0.5)
    (buf : List (Stereo F32)) : ExampleVoice.Inv sr (ExampleVoice.process v buf).1 ∧ (ExampleVoice.process v buf).1.amplitude = lit 0.5 ∧
      (∀ x ∈ (ExampleVoice.process v buf).2, ExampleVoice.Within (1 / 2) x) ∧
      (v.env.state = .idle → (ExampleVoice.process v buf).1.env.state = .idle ∧ ∀ x ∈ (ExampleVoice.process v buf).2, ExampleVoice.Within 0 x) := by
  have hh : (lit 0.5 : F32).val = 1 / 2 := by decide +kernel
  have h1 := forEach_inv (I := fun t => ExampleVoice.Inv sr t ∧ t.amplitude = lit 0.5) (step := fun s (_ : Stereo F32) => ExampleVoice.tick s)
    (P := fun _ x => ExampleVoice.Within (1 / 2) x) (fun t b ht => by
      obtain ⟨p, q, r, -⟩ := ExampleVoice.inv_tick hsr ht.1
      rw [ht.2, hh] at q r
      exact ⟨⟨p, (ExampleVoice.tick_amp t).trans ht.2⟩, q, r⟩) ⟨h, ha⟩ buf
  refine ⟨h1.1.1, h1.1.2, forall₂_right h1.2, fun hi => ?_⟩
  have h2 := forEach_inv (I := fun t => ExampleVoice.Inv sr t ∧ t.env.state = .idle) (step := fun s (_ : Stereo F32) => ExampleVoice.tick s)
    (P := fun _ x => ExampleVoice.Within 0 x) (fun t b ht => by
      obtain ⟨p, -, -, r⟩ := ExampleVoice.inv_tick hsr ht.1
      obtain ⟨r1, r2⟩ := r ht.2
      refine ⟨⟨p, ?_⟩, by rw [ExampleVoice.Within, neg_zero]; exact ⟨r1, r2⟩⟩
      have hm := (ExampleVoice.modulate_rest t).2
      show (EnvelopeAR.tick (ExampleVoice.modulate t).env).1.state = .idle
      rw [hm, EnvelopeAR.tick_idle ht.2]; exact ht.2) ⟨h, hi⟩ buf
  exact ⟨h2.1.2, forall₂_right h2.2⟩

theorem good_step {cap : ℕ} (hc : 440 ≤ cap) {s : State F32} (h : Good cap s) (e : Event F32) (he : Room cap e) :
    Good cap (step s e).1 ∧ ∀ x ∈ (step s e).2, ExampleVoice.Within (1 / 2) x := by
  obtain ⟨⟨sr, hsr, hv⟩, hf, ha⟩ := h
  have hc' : (440 : ℚ) ≤ cap := by exact_mod_cast hc
  cases e with
  | block buf =>
    have hsr' : sr.In 1760 (2 ^ 100) := hsr.mono (by linarith) (by norm_num)
    have hleg : ExampleVoice.Op.Legal sr (.setFrequency s.frequency) := hf.mono le_rfl (by linarith [hsr.2.1])
    have h1 := ExampleVoice.inv_step hsr' hv _ hleg
    have h2 : ExampleVoice.Inv sr (gateEdge { s with voice := ExampleVoice.setFrequency s.frequency s.voice }).voice ∧
        (gateEdge { s with voice := ExampleVoice.setFrequency s.frequency s.voice }).voice.amplitude = lit 0.5 := by
      unfold gateEdge
      split_ifs
      · exact ⟨ExampleVoice.inv_step hsr' h1 .trigger trivial, ha⟩
      · exact ⟨ExampleVoice.inv_step hsr' h1 .release trivial, ha⟩
      · exact ⟨h1, ha⟩
    obtain ⟨p, q, r, -⟩ := process_inv hsr' h2.1 h2.2 buf
    refine ⟨⟨⟨sr, hsr, p⟩, ?_, q⟩, r⟩
    show (gateEdge { s with voice := ExampleVoice.setFrequency s.frequency s.voice }).frequency.In _ _
    rw [(gateEdge_rest _).2.1]; exact hf
  | rate n =>
    obtain ⟨h4, hR⟩ := he
    have hr := ofNat_rate hR
    have h4' : (4 * cap : ℚ) ≤ n := by exact_mod_cast h4
    have hR' : (n : ℚ) ≤ 2 ^ 24 := by exact_mod_cast hR
    exact ⟨⟨⟨_, hr.mono h4' hR', ExampleVoice.inv_init (hr.mono (by linarith) (hR'.trans (by norm_num)))⟩, hf, rfl⟩,
      fun x hx => absurd hx List.not_mem_nil⟩
  | typed l =>
    refine ⟨?_, fun x hx => absurd hx List.not_mem_nil⟩
    cases l with
    | empty => exact ⟨⟨sr, hsr, hv⟩, hf, ha⟩
    | junk => exact ⟨⟨sr, hsr, hv⟩, hf, ha⟩
    | number f =>
      show Good cap (typed (.number f) s)
      rw [typed]
      split_ifs with hcnd
      · have hacc : accepted (.number f) = some f := by rw [accepted, if_pos hcnd]
        have hp := C75_pitch_range [.typed (.number f)]
        have hpe : pitch [Event.typed (.number f)] = f := by simp [pitch, lines, hacc]
        rw [hpe] at hp
        exact ⟨⟨sr, hsr, hv⟩, ⟨hp.1, by linarith [hp.2.1], he (by rw [hacc]; simp)⟩, ha⟩
      · exact ⟨⟨sr, hsr, hv⟩, hf, ha⟩

/-- **C75** (single precision, rounding included): for every history of presses, numbers, blocks and changes of rate in which no pitch lies
above a quarter of a rate, both channels of every frame are numbers of magnitude at most one half. -/
theorem C75_bounded (R cap : ℕ) (hc : 440 ≤ cap) (h4 : 4 * cap ≤ R) (hR : R ≤ 2 ^ 24) (es : List (Event F32)) (he : ∀ e ∈ es, Room cap e) :
    ∀ ys ∈ (run (setup R) es).2, ∀ x ∈ ys, ExampleVoice.Within (1 / 2) x := by
  have key : ∀ (es : List (Event F32)) (s : State F32), Good cap s → (∀ e ∈ es, Room cap e) →
      ∀ ys ∈ (run s es).2, ∀ x ∈ ys, ExampleVoice.Within (1 / 2) x := by
    intro es
    induction es with
    | nil => intro s _ _ ys hy; simp [run] at hy
    | cons e es ih =>
      intro s hs he ys hy
      obtain ⟨g, o⟩ := good_step hc hs e (he _ List.mem_cons_self)
      rcases List.mem_cons.mp hy with rfl | hy
      · exact o
      · exact ih _ g (fun e' h' => he e' (List.mem_cons_of_mem _ h')) ys hy
  exact key es _ (good_setup hc h4 hR) he

/-! ## C76: a change of the sample rate -/

/-- **C76, negative** (single precision): a held note does not survive a change of the sample rate. Let a block be played, then let the
server change its rate: until return is pressed again, whatever is typed and however long one waits, the voice is idle and every sample is
0, although the program still shows the note as on whenever it was. -/
theorem C76_note_falls_silent (R cap : ℕ) (hc : 440 ≤ cap) (h4 : 4 * cap ≤ R) (hR : R ≤ 2 ^ 24) (es : List (Event F32)) (buf : List (Stereo F32))
    (n : ℕ) (later : List (Event F32)) (he : ∀ e ∈ es ++ .rate n :: later, Room cap e) (hp : presses later = 0) :
    let held := (run (setup R) (es ++ [.block buf])).1
    let r := run held (.rate n :: later)
    r.1.noteOn = held.noteOn ∧ ExampleVoice.isActive r.1.voice = false ∧ ∀ ys ∈ r.2, ∀ x ∈ ys, ExampleVoice.Within 0 x := by
  have hc' : (440 : ℚ) ≤ cap := by exact_mod_cast hc
  have good : ∀ (es : List (Event F32)) (s : State F32), Good cap s → (∀ e ∈ es, Room cap e) → Good cap (run s es).1 := by
    intro es
    induction es with
    | nil => intro s hs _; exact hs
    | cons e es ih =>
      intro s hs he
      exact ih _ (good_step hc hs e (he _ List.mem_cons_self)).1 fun e' h' => he e' (List.mem_cons_of_mem _ h')
  intro held r
  have gh : Good cap held := good _ _ (good_setup hc h4 hR) (by
    intro e h'
    rcases List.mem_append.mp h' with h' | h'
    · exact he e (List.mem_append_left _ h')
    · rw [List.mem_singleton] at h'; subst h'; trivial)
  have hl : held.lastNoteOn = held.noteOn := by
    refine (state_after R (es ++ [.block buf])).2.2.mpr ?_
    simp [sinceBlock, Event.isBlock, presses, lines]
  have g1 := (good_step hc gh (.rate n) (he _ (by simp))).1
  have key : ∀ (l : List (Event F32)) (s : State F32), Good cap s → s.lastNoteOn = s.noteOn → s.voice.env.state = .idle →
      (∀ e ∈ l, Room cap e) → presses l = 0 →
      (run s l).1.noteOn = s.noteOn ∧ (run s l).1.voice.env.state = .idle ∧ ∀ ys ∈ (run s l).2, ∀ x ∈ ys, ExampleVoice.Within 0 x := by
    intro l
    induction l with
    | nil => intro s _ _ hi _ _; exact ⟨rfl, hi, fun ys hy => by simp [run] at hy⟩
    | cons e l ih =>
      intro s hs hl hi he hp
      have hs1 := (good_step hc hs e (he _ List.mem_cons_self)).1
      have hel : ∀ e ∈ l, Room cap e := fun e' h' => he e' (List.mem_cons_of_mem _ h')
      have one : (step s e).1.noteOn = s.noteOn ∧ (step s e).1.lastNoteOn = s.noteOn ∧ (step s e).1.voice.env.state = .idle ∧
          (∀ x ∈ (step s e).2, ExampleVoice.Within 0 x) ∧ presses l = 0 := by
        cases e with
        | block b =>
          have hsame : gateEdge { s with voice := ExampleVoice.setFrequency s.frequency s.voice } =
              { s with voice := ExampleVoice.setFrequency s.frequency s.voice } := by
            unfold gateEdge
            rw [if_neg (not_not.mpr hl.symm)]
          obtain ⟨⟨sr, hsr, hv⟩, hf, ha⟩ := hs
          have hsr' : sr.In 1760 (2 ^ 100) := hsr.mono (by linarith) (by norm_num)
          have hleg : ExampleVoice.Op.Legal sr (.setFrequency s.frequency) := hf.mono le_rfl (by linarith [hsr.2.1])
          obtain ⟨-, -, -, q⟩ := process_inv hsr' (ExampleVoice.inv_step hsr' hv _ hleg) ha b
          obtain ⟨q1, q2⟩ := q hi
          simp only [step, processCallback, hsame]
          exact ⟨trivial, hl, q1, q2, hp⟩
        | rate k => exact ⟨rfl, hl, rfl, fun x hx => absurd hx List.not_mem_nil, hp⟩
        | typed t =>
          cases t with
          | empty => simp [presses, lines] at hp
          | junk => exact ⟨rfl, hl, hi, fun x hx => absurd hx List.not_mem_nil, hp⟩
          | number f =>
            have hp' : presses l = 0 := by simpa [presses, lines] using hp
            simp only [step, typed]
            split_ifs
            · exact ⟨rfl, hl, hi, fun x hx => absurd hx List.not_mem_nil, hp'⟩
            · exact ⟨rfl, hl, hi, fun x hx => absurd hx List.not_mem_nil, hp'⟩
      obtain ⟨o1, o2, o3, o4, o5⟩ := one
      obtain ⟨p1, p2, p3⟩ := ih _ hs1 (o2.trans o1.symm) o3 hel o5
      refine ⟨p1.trans o1, p2, fun ys hy => ?_⟩
      rcases List.mem_cons.mp hy with rfl | hy
      · exact o4
      · exact p3 ys hy
  obtain ⟨k1, k2, k3⟩ := key later _ g1 hl rfl (fun e h' => he e (by simp [h'])) hp
  refine ⟨k1, ?_, fun ys hy => ?_⟩
  · show decide (_ ≠ _) = false
    exact decide_eq_false (not_not.mpr k2)
  · rcases List.mem_cons.mp hy with rfl | hy
    · intro x hx; exact absurd hx List.not_mem_nil
    · exact k3 ys hy

/-- Concrete case: a note is struck at 48 kHz, a block is played, the server goes to 96 kHz, a number is typed. -/
example : (∀ e ∈ ([.typed .empty] : List (Event F32)) ++ .rate 96000 :: [.typed (.number (lit 220)), .block [⟨lit 0, lit 0⟩]], Room 440 e) ∧
    presses ([.typed (.number (lit 220)), .block [⟨lit 0, lit 0⟩]] : List (Event F32)) = 0 ∧
    (run (setup 48000 : State F32) ([.typed .empty] ++ [.block []])).1.noteOn = true := by
  refine ⟨?_, rfl, rfl⟩
  simp only [List.cons_append, List.nil_append, List.forall_mem_cons, List.not_mem_nil, false_imp_iff, implies_true, and_true, Room, true_and]
  exact ⟨by norm_num, fun _ => by decide +kernel⟩

end float
end Verif.JackExample
