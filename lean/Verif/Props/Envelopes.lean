import Verif.Lemmas.EnvInv

/-!
# Properties C13–C16: envelopes
-/

namespace Verif
open FP

section C13_C14
variable [Libm F32] [LibmSpec]

/-- **C13.** After any history of calls on an `EnvelopeAR` initialised with a positive sample rate — attack and release
times may be any float, NaN and infinities included — the next `tick` and every sample written by `process` is a number in
`[0,1]`, and `processMul` never increases the magnitude of a (finite) buffer sample. -/
theorem C13_ar_output_in_unit {sr : F32} (hsr : sr.Pos) (ops : List (EnvelopeAR.Op F32))
    (hops : ∀ op ∈ ops, EnvelopeAR.Op.Legal op) :
    let s := EnvelopeAR.run (EnvelopeAR.init sr) ops
    (EnvelopeAR.tick s).2.In 0 1 ∧
    (∀ buf, ∀ y ∈ (EnvelopeAR.process s buf).2, y.In 0 1) ∧
    (∀ buf, List.Forall₂ (fun b y : F32 => b.isFin = true → y.isFin = true ∧ |y.val| ≤ |b.val|)
      buf (EnvelopeAR.processMul s buf).2) := by
  intro s
  have hi : EnvelopeAR.Inv s := EnvelopeAR.inv_run (EnvelopeAR.inv_init hsr) ops hops
  refine ⟨(EnvelopeAR.inv_tick hi).2, fun buf => ?_, fun buf => ?_⟩
  · exact forall₂_right (forEach_inv (I := EnvelopeAR.Inv) (step := fun s _ => EnvelopeAR.tick s)
      (P := fun _ y => y.In 0 1) (fun s _ hs => EnvelopeAR.inv_tick hs) hi buf).2
  · exact (forEach_inv (I := EnvelopeAR.Inv)
      (step := fun s b => ((EnvelopeAR.tick s).1, b * (EnvelopeAR.tick s).2))
      (fun s b hs => ⟨(EnvelopeAR.inv_tick hs).1,
        fun hb => mul_unit_abs hb (EnvelopeAR.inv_tick hs).2⟩) hi buf).2

/-- The hypotheses are met by a history with extreme arguments. -/
example : (lit 48000 : F32).Pos ∧ ∀ op ∈ [EnvelopeAR.Op.setAttack (.nan : F32), .trigger, .tick,
    .setRelease (.inf false), .release, .tick, .init (lit 1)], EnvelopeAR.Op.Legal op := by
  refine ⟨by decide +kernel, ?_⟩
  intro op hop
  simp only [List.mem_cons, List.not_mem_nil, or_false] at hop
  rcases hop with rfl | rfl | rfl | rfl | rfl | rfl | rfl <;>
    first | exact trivial | (show (lit 1 : F32).Pos; decide +kernel)

/-- **C14.** The same for `EnvelopeADSR`; the sustain level must not be NaN, everything else may be any float. -/
theorem C14_adsr_output_in_unit {sr : F32} (hsr : sr.Pos) (ops : List (EnvelopeADSR.Op F32))
    (hops : ∀ op ∈ ops, EnvelopeADSR.Op.Legal op) :
    let s := EnvelopeADSR.run (EnvelopeADSR.init sr) ops
    (EnvelopeADSR.tick s).2.In 0 1 ∧
    (∀ buf, ∀ y ∈ (EnvelopeADSR.process s buf).2, y.In 0 1) ∧
    (∀ buf, List.Forall₂ (fun b y : F32 => b.isFin = true → y.isFin = true ∧ |y.val| ≤ |b.val|)
      buf (EnvelopeADSR.processMul s buf).2) := by
  intro s
  have hi : EnvelopeADSR.Inv s := EnvelopeADSR.inv_run (EnvelopeADSR.inv_init hsr) ops hops
  refine ⟨(EnvelopeADSR.inv_tick hi).2, fun buf => ?_, fun buf => ?_⟩
  · exact forall₂_right (forEach_inv (I := EnvelopeADSR.Inv) (step := fun s _ => EnvelopeADSR.tick s)
      (P := fun _ y => y.In 0 1) (fun s _ hs => EnvelopeADSR.inv_tick hs) hi buf).2
  · exact (forEach_inv (I := EnvelopeADSR.Inv)
      (step := fun s b => ((EnvelopeADSR.tick s).1, b * (EnvelopeADSR.tick s).2))
      (fun s b hs => ⟨(EnvelopeADSR.inv_tick hs).1,
        fun hb => mul_unit_abs hb (EnvelopeADSR.inv_tick hs).2⟩) hi buf).2

example : (lit 44100 : F32).Pos ∧ ∀ op ∈ [EnvelopeADSR.Op.setSustain (.inf true : F32), .gate (lit 1), .tick,
    .setDecay .nan, .gate (lit 0), .tick], EnvelopeADSR.Op.Legal op := by
  refine ⟨by decide +kernel, ?_⟩
  intro op hop
  simp only [List.mem_cons, List.not_mem_nil, or_false] at hop
  rcases hop with rfl | rfl | rfl | rfl | rfl | rfl <;> first | exact trivial | (intro h; cases h)

omit [Libm F32] [LibmSpec] in
/-- The NaN exclusion in C14 is necessary: a NaN sustain level reaches the output. -/
theorem C14_nan_sustain_escapes (s : EnvelopeADSR.Env F32) (h : s.state = .sustain) :
    (EnvelopeADSR.tick (EnvelopeADSR.setSustain .nan s)).2 = .nan := by
  have hc : (clamp .nan (lit 0) (lit 1) : F32) = .nan := by decide +kernel
  obtain ⟨v, ac, dc, rc, at', dt, sl, rt, sr, st, gv, da, dn⟩ := s
  simp only at h
  subst h
  simp only [EnvelopeADSR.tick, EnvelopeADSR.setSustain, hc]
  split_ifs <;> rfl

end C13_C14

section C15
variable {α : Type} [Arith α] [Libm α]

omit [Arith α] [Libm α] in
/-- **C15 (AR).** Gate semantics of `EnvelopeAR`, for any arithmetic: repeated values are no-ops, a rising edge enters
the attack stage and a falling edge the release stage (or stays idle), the level is never touched by gate calls. -/
theorem C15_ar_gate_edges (s : EnvelopeAR.Env α) :
    (s.gate = true → EnvelopeAR.setGate true s = s) ∧
    (s.gate = false → EnvelopeAR.setGate false s = s) ∧
    (s.gate = false → EnvelopeAR.setGate true s = { s with gate := true, state := .attack }) ∧
    (s.gate = true → s.state ≠ .idle →
      EnvelopeAR.setGate false s = { s with gate := false, state := .release }) ∧
    (s.gate = true → s.state = .idle → EnvelopeAR.setGate false s = { s with gate := false }) := by
  refine ⟨?_, ?_, ?_, ?_, ?_⟩
  · intro h; simp [EnvelopeAR.setGate, h]
  · intro h; simp [EnvelopeAR.setGate, h]
  · intro h; simp [EnvelopeAR.setGate, EnvelopeAR.trigger, h]
  · intro h h2; simp [EnvelopeAR.setGate, EnvelopeAR.release, h, h2]
  · intro h h2; simp [EnvelopeAR.setGate, EnvelopeAR.release, h, h2]

/-- Calls that cannot start a note. -/
def EnvelopeAR.Op.NoStart : EnvelopeAR.Op α → Prop
  | .trigger => False
  | .setGate g => g = false
  | _ => True

/-- Samples produced by an idle envelope: exact zeros (`processMul` multiplies by exact zeros). -/
def EnvelopeAR.Op.SilentOut : EnvelopeAR.Op α → List α → Prop
  | .tick, out => out = [lit 0]
  | .process buf, out => out = List.replicate buf.length (lit 0)
  | .processMul buf, out => out = buf.map (· * lit 0)
  | _, out => out = []

omit [Libm α] in
theorem EnvelopeAR.tick_idle {s : EnvelopeAR.Env α} (h : s.state = .idle) :
    EnvelopeAR.tick s = ({ s with value := lit 0 }, lit 0) := by
  cases s; simp only at h; subst h; rfl

/-- **C15 (AR, idle).** From the idle stage, any history without a trigger or a gate-on keeps the envelope idle, and each
call outputs exact zeros. -/
theorem C15_ar_idle_silent (s : EnvelopeAR.Env α) (h : s.state = .idle) (ops : List (EnvelopeAR.Op α))
    (hops : ∀ op ∈ ops, op.NoStart) :
    (EnvelopeAR.run s ops).state = .idle ∧
    ∀ op : EnvelopeAR.Op α, op.NoStart → op.SilentOut (EnvelopeAR.step (EnvelopeAR.run s ops) op).2 := by
  have loop : ∀ (buf : List α) (s : EnvelopeAR.Env α), s.state = .idle →
      (forEach (fun s (_ : α) => EnvelopeAR.tick s) s buf).1.state = .idle ∧
      (forEach (fun s (_ : α) => EnvelopeAR.tick s) s buf).2 = List.replicate buf.length (lit 0) := by
    intro buf
    induction buf with
    | nil => intro s hs; exact ⟨hs, rfl⟩
    | cons b bs ih =>
      intro s hs
      have := ih { s with value := lit 0 } hs
      simp only [forEach, EnvelopeAR.tick_idle hs]
      exact ⟨this.1, by rw [this.2]; rfl⟩
  have loopMul : ∀ (buf : List α) (s : EnvelopeAR.Env α), s.state = .idle →
      (EnvelopeAR.processMul s buf).1.state = .idle ∧
      (EnvelopeAR.processMul s buf).2 = buf.map (· * lit 0) := by
    intro buf
    induction buf with
    | nil => intro s hs; exact ⟨hs, rfl⟩
    | cons b bs ih =>
      intro s hs
      have := ih { s with value := lit 0 } hs
      simp only [EnvelopeAR.processMul, forEach, EnvelopeAR.tick_idle hs]
      exact ⟨this.1, by rw [List.map_cons, ← this.2]; rfl⟩
  have hstep : ∀ (s : EnvelopeAR.Env α) op, s.state = .idle → op.NoStart →
      (EnvelopeAR.step s op).1.state = .idle ∧ op.SilentOut (EnvelopeAR.step s op).2 := by
    intro s op hs hop
    cases op with
    | init sr => exact ⟨rfl, rfl⟩
    | setAttack t => exact ⟨hs, rfl⟩
    | setRelease t => exact ⟨hs, rfl⟩
    | trigger => exact hop.elim
    | release =>
      refine ⟨?_, rfl⟩
      simp [EnvelopeAR.step, EnvelopeAR.release, hs]
    | setGate g =>
      have : g = false := hop
      subst this
      refine ⟨?_, rfl⟩
      simp only [EnvelopeAR.step, EnvelopeAR.setGate, EnvelopeAR.release]
      split_ifs <;> simp_all
    | tick =>
      simp only [EnvelopeAR.step, EnvelopeAR.tick_idle hs]
      exact ⟨hs, rfl⟩
    | process buf => exact loop buf s hs
    | processMul buf => exact loopMul buf s hs
    | reset => exact ⟨rfl, rfl⟩
  have hrun : (EnvelopeAR.run s ops).state = .idle := by
    induction ops generalizing s with
    | nil => exact h
    | cons op ops ih =>
      exact ih _ (hstep s op h (hops op (by simp))).1 (fun o ho => hops o (by simp [ho]))
  exact ⟨hrun, fun op hop => (hstep _ op hrun hop).2⟩

/-- A non-trivial idle history. -/
example : ∀ op ∈ [EnvelopeAR.Op.tick, .setAttack (lit 2 : F32), .process [lit 1, .nan], .setGate false],
    op.NoStart := by
  intro op hop
  simp only [List.mem_cons, List.not_mem_nil, or_false] at hop
  rcases hop with rfl | rfl | rfl | rfl <;> first | exact trivial | rfl

/-- **C15 (AR, reachable stages).** In every state reachable from `init` the attack stage implies gate on and the
release stage implies gate off (so the early-release branch of `tick` is dead code). -/
theorem C15_ar_stage_gate (sr : α) (ops : List (EnvelopeAR.Op α)) :
    let s := EnvelopeAR.run (EnvelopeAR.init sr) ops
    (s.state = .attack → s.gate = true) ∧ (s.state = .release → s.gate = false) := by
  let I : EnvelopeAR.Env α → Prop := fun s =>
    (s.state = .attack → s.gate = true) ∧ (s.state = .release → s.gate = false)
  have htick : ∀ s, I s → I (EnvelopeAR.tick s).1 := by
    rintro ⟨v, ac, rc, at', rt, sr, st, g⟩ ⟨h1, h2⟩
    cases st <;> simp only [EnvelopeAR.tick, I] at *
    · exact ⟨by simp, by simp⟩
    · split_ifs <;> simp_all
    · split_ifs <;> simp_all
  have hstep : ∀ s op, I s → I (EnvelopeAR.step s op).1 := by
    intro s op hs
    cases op with
    | init sr => exact ⟨(by intro h; cases h), (by intro h; cases h)⟩
    | setAttack t => exact hs
    | setRelease t => exact hs
    | trigger => exact ⟨fun _ => rfl, by intro h; cases h⟩
    | release =>
      refine ⟨?_, fun _ => rfl⟩
      simp only [EnvelopeAR.step, EnvelopeAR.release]
      split_ifs <;> simp_all
    | setGate g =>
      simp only [EnvelopeAR.step, EnvelopeAR.setGate]
      split_ifs
      · exact ⟨fun _ => rfl, by intro h; cases h⟩
      · refine ⟨?_, fun _ => rfl⟩
        simp only [EnvelopeAR.release]
        split_ifs <;> simp_all
      · exact hs
    | tick => exact htick s hs
    | process buf =>
      exact (forEach_inv (I := I) (step := fun s _ => EnvelopeAR.tick s) (P := fun _ _ => True)
        (fun s b hs => ⟨htick s hs, trivial⟩) hs buf).1
    | processMul buf =>
      exact (forEach_inv (I := I) (step := fun s b => ((EnvelopeAR.tick s).1, b * (EnvelopeAR.tick s).2))
        (P := fun _ _ => True) (fun s b hs => ⟨htick s hs, trivial⟩) hs buf).1
    | reset => exact ⟨(by intro h; cases h), (by intro h; cases h)⟩
  have : ∀ ops s, I s → I (EnvelopeAR.run s ops) := by
    intro ops
    induction ops with
    | nil => exact fun s h => h
    | cons op ops ih => exact fun s h => ih _ (hstep s op h)
  exact this ops _ ⟨(by intro h; cases h), (by intro h; cases h)⟩

omit [Libm α] in
/-- **C15 (ADSR).** Gate semantics of `EnvelopeADSR`: only crossings of zero change the stage, the level is never touched,
a rising edge clears `isDone`. -/
theorem C15_adsr_gate_edges (s : EnvelopeADSR.Env α) (g : α) :
    ((s.gateValue <=. lit 0) = true → (g >. lit 0) = true →
      EnvelopeADSR.gate g s = { s with gateValue := g, state := .attack, done := false }) ∧
    ((s.gateValue <=. lit 0) = false → (s.gateValue >. lit 0) = true → (g <=. lit 0) = true →
      EnvelopeADSR.gate g s =
        { s with gateValue := g, state := if s.state = .idle then .idle else .release }) ∧
    ((s.gateValue <=. lit 0) = true → (s.gateValue >. lit 0) = false → (g >. lit 0) = false →
      EnvelopeADSR.gate g s = { s with gateValue := g }) ∧
    ((s.gateValue <=. lit 0) = false → (g <=. lit 0) = false →
      EnvelopeADSR.gate g s = { s with gateValue := g }) := by
  refine ⟨?_, ?_, ?_, ?_⟩ <;> intros <;> simp_all [EnvelopeADSR.gate]

/-- The four cases of `C15_adsr_gate_edges` are all inhabited in single precision. -/
example : ((lit 0 : F32) <=. lit 0) = true ∧ ((lit 1 : F32) >. lit 0) = true ∧
    ((lit 1 : F32) <=. lit 0) = false ∧ ((lit 0 : F32) >. lit 0) = false := by decide +kernel

omit [Libm α] in
/-- **C15 (ADSR, ticks).** Stage changes made by `tick` alone: idle stays idle with output zero; sustain holds the sustain
level; with gate on the stage order attack → decay → sustain is never reversed and release is never entered. -/
theorem C15_adsr_tick_stages (s : EnvelopeADSR.Env α) :
    (s.state = .idle → (EnvelopeADSR.tick s).1.state = .idle ∧ (EnvelopeADSR.tick s).2 = lit 0) ∧
    (s.state = .sustain → (EnvelopeADSR.tick s).2 = s.sustainLevel) ∧
    ((s.gateValue <=. lit 0) = false →
      (s.state = .attack → (EnvelopeADSR.tick s).1.state = .attack ∨
        (EnvelopeADSR.tick s).1.state = .decay ∧ (EnvelopeADSR.tick s).2 = lit 1) ∧
      (s.state = .decay → (EnvelopeADSR.tick s).1.state = .decay ∨
        (EnvelopeADSR.tick s).1.state = .sustain ∧ (EnvelopeADSR.tick s).2 = s.sustainLevel) ∧
      (s.state = .sustain → (EnvelopeADSR.tick s).1.state = .sustain)) ∧
    ((s.gateValue <=. lit 0) = true → s.state = .attack ∨ s.state = .decay ∨ s.state = .sustain →
      (EnvelopeADSR.tick s).1.state = .release) ∧
    (s.state = .release → (EnvelopeADSR.tick s).1.state = .release ∨
      (EnvelopeADSR.tick s).1.state = .idle ∧ (EnvelopeADSR.tick s).2 = lit 0 ∧
        EnvelopeADSR.isDone (EnvelopeADSR.tick s).1 = true) := by
  obtain ⟨v, ac, dc, rc, at', dt, sl, rt, sr, st, gv, da, dn⟩ := s
  refine ⟨?_, ?_, ?_, ?_, ?_⟩
  · rintro rfl; exact ⟨rfl, rfl⟩
  · rintro rfl; simp only [EnvelopeADSR.tick]; split_ifs <;> rfl
  · intro hg
    simp only at hg
    refine ⟨?_, ?_, ?_⟩
    · rintro rfl; simp only [EnvelopeADSR.tick, hg]; split_ifs <;> simp_all
    · rintro rfl; simp only [EnvelopeADSR.tick, hg]; split_ifs <;> simp_all
    · rintro rfl; simp only [EnvelopeADSR.tick, hg]; split_ifs <;> simp_all
  · intro hg h
    simp only at hg h
    rcases h with rfl | rfl | rfl <;> simp only [EnvelopeADSR.tick, hg] <;> split_ifs <;> simp_all
  · rintro rfl; simp only [EnvelopeADSR.tick, EnvelopeADSR.isDone]; split_ifs <;> simp_all

/-- **C15 (ADSR, done).** In every state reachable from `init`, `isDone` implies the idle stage, so a finished
envelope is silent. -/
theorem C15_adsr_done_idle (sr : α) (ops : List (EnvelopeADSR.Op α)) :
    let s := EnvelopeADSR.run (EnvelopeADSR.init sr) ops
    EnvelopeADSR.isDone s = true → s.state = .idle := by
  let I : EnvelopeADSR.Env α → Prop := fun s => s.done = true → s.state = .idle
  have htick : ∀ s, I s → I (EnvelopeADSR.tick s).1 := by
    rintro ⟨v, ac, dc, rc, at', dt, sl, rt, sr, st, gv, da, dn⟩ h
    cases st <;> simp only [EnvelopeADSR.tick, I] at * <;> (try split_ifs) <;> simp_all
  have hstep : ∀ s op, I s → I (EnvelopeADSR.step s op).1 := by
    intro s op hs
    cases op with
    | init sr => intro h; cases h
    | setAttack t => exact hs
    | setDecay t => exact hs
    | setSustain l => exact hs
    | setRelease t => exact hs
    | setDoneAction a => exact hs
    | gate g =>
      simp only [EnvelopeADSR.step, EnvelopeADSR.gate, I] at *
      split_ifs <;> simp_all
    | tick => exact htick s hs
    | process buf =>
      exact (forEach_inv (I := I) (step := fun s _ => EnvelopeADSR.tick s) (P := fun _ _ => True)
        (fun s b hs => ⟨htick s hs, trivial⟩) hs buf).1
    | processMul buf =>
      exact (forEach_inv (I := I) (step := fun s b => ((EnvelopeADSR.tick s).1, b * (EnvelopeADSR.tick s).2))
        (P := fun _ _ => True) (fun s b hs => ⟨htick s hs, trivial⟩) hs buf).1
    | reset => intro h; cases h
  have : ∀ ops s, I s → I (EnvelopeADSR.run s ops) := by
    intro ops
    induction ops with
    | nil => exact fun s h => h
    | cons op ops ih => exact fun s h => ih _ (hstep s op h)
  exact this ops _ (by intro h; cases h)

end C15

end Verif
