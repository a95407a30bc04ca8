import Verif.Lemmas.EnvRange

/-! # Envelope invariants over call histories -/

namespace Verif
open FP

namespace EnvelopeAR
variable [Libm F32] [LibmSpec]

/-- Single-precision invariant of `EnvelopeAR`. -/
structure Inv (s : Env F32) : Prop where
  value : s.value.In 0 1
  attack : s.attackCoeff.In 0 1
  release : s.releaseCoeff.In 0 1
  sr : s.sampleRate.Pos
  at_pos : s.attackTime.Pos
  rt_pos : s.releaseTime.Pos

theorem inv_init {sr : F32} (h : sr.Pos) : Inv (init sr) where
  value := lit_zero.mono le_rfl zero_le_one
  attack := expCoeff_in (t := lit 0.01) (by decide +kernel) h
  release := expCoeff_in (t := lit 0.1) (by decide +kernel) h
  sr := h
  at_pos := by show (lit 0.01 : F32).Pos; decide +kernel
  rt_pos := by show (lit 0.1 : F32).Pos; decide +kernel

omit [Libm F32] [LibmSpec] in
theorem inv_tick {s : Env F32} (h : Inv s) : Inv (tick s).1 ∧ (tick s).2.In 0 1 := by
  have h0 : (lit 0 : F32).In 0 1 := lit_zero.mono le_rfl zero_le_one
  have h1 : (lit 1 : F32).In 0 1 := lit_one.mono zero_le_one le_rfl
  have key : (tick s).1.value.In 0 1 := by
    unfold tick
    rcases hs : s.state <;> simp only
    · exact h0
    · split_ifs
      · exact h1
      · exact h1
      · exact attack_in h.attack h.value
    · split_ifs
      · exact h0
      · exact release_in h.release h.value
  refine ⟨⟨key, ?_, ?_, ?_, ?_, ?_⟩, key⟩
  all_goals
    unfold tick
    rcases hs : s.state <;> simp only <;> (try split_ifs) <;>
      first | exact h.attack | exact h.release | exact h.sr | exact h.at_pos | exact h.rt_pos

/-- Calls that keep the sample rate positive. -/
def Op.Legal : Op F32 → Prop
  | .init sr => sr.Pos
  | _ => True

theorem inv_step {s : Env F32} (h : Inv s) (op : Op F32) (ho : op.Legal) : Inv (step s op).1 := by
  cases op with
  | init sr => exact inv_init ho
  | setAttack t =>
    exact ⟨h.value, expCoeff_in (clampTime_pos t) h.sr, h.release, h.sr, clampTime_pos t, h.rt_pos⟩
  | setRelease t =>
    exact ⟨h.value, h.attack, expCoeff_in (clampTime_pos t) h.sr, h.sr, h.at_pos, clampTime_pos t⟩
  | trigger => exact ⟨h.value, h.attack, h.release, h.sr, h.at_pos, h.rt_pos⟩
  | release => exact ⟨h.value, h.attack, h.release, h.sr, h.at_pos, h.rt_pos⟩
  | setGate g =>
    simp only [step, setGate]
    split_ifs
    · exact ⟨h.value, h.attack, h.release, h.sr, h.at_pos, h.rt_pos⟩
    · exact ⟨h.value, h.attack, h.release, h.sr, h.at_pos, h.rt_pos⟩
    · exact h
  | tick => exact (inv_tick h).1
  | process buf =>
    exact (forEach_inv (I := Inv) (P := fun _ _ => True) (fun s b hs => ⟨(inv_tick hs).1, trivial⟩) h buf).1
  | processMul buf =>
    exact (forEach_inv (I := Inv) (step := fun s b => ((tick s).1, b * (tick s).2)) (P := fun _ _ => True) (fun s b hs => ⟨(inv_tick hs).1, trivial⟩) h buf).1
  | reset =>
    exact ⟨lit_zero.mono le_rfl zero_le_one, h.attack, h.release, h.sr, h.at_pos, h.rt_pos⟩

theorem inv_run {s : Env F32} (h : Inv s) (ops : List (Op F32)) (ho : ∀ op ∈ ops, op.Legal) :
    Inv (run s ops) := by
  induction ops generalizing s with
  | nil => exact h
  | cons op ops ih =>
    exact ih (inv_step h op (ho _ (by simp))) (fun o hm => ho o (by simp [hm]))

end EnvelopeAR

namespace EnvelopeADSR
variable [Libm F32] [LibmSpec]

/-- Single-precision invariant of `EnvelopeADSR`. -/
structure Inv (s : Env F32) : Prop where
  value : s.value.In 0 1
  attack : s.attackCoeff.In 0 1
  decay : s.decayCoeff.In 0 1
  release : s.releaseCoeff.In 0 1
  sustain : s.sustainLevel.In 0 1
  sr : s.sampleRate.Pos

theorem inv_init {sr : F32} (h : sr.Pos) : Inv (init sr) where
  value := lit_zero.mono le_rfl zero_le_one
  attack := expCoeff_in (t := lit 0.01) (by decide +kernel) h
  decay := expCoeff_in (t := lit 0.1) (by decide +kernel) h
  release := expCoeff_in (t := lit 0.3) (by decide +kernel) h
  sustain := by show (lit 0.7 : F32).In 0 1; decide +kernel
  sr := h

omit [Libm F32] [LibmSpec] in
theorem inv_tick {s : Env F32} (h : Inv s) : Inv (tick s).1 ∧ (tick s).2.In 0 1 := by
  have h0 : (lit 0 : F32).In 0 1 := lit_zero.mono le_rfl zero_le_one
  have h1 : (lit 1 : F32).In 0 1 := lit_one.mono zero_le_one le_rfl
  have key : (tick s).1.value.In 0 1 := by
    unfold tick
    rcases hs : s.state <;> simp only <;> (try split_ifs) <;>
      first
      | exact h0
      | exact h1
      | exact attack_in h.attack h.value
      | exact decay_in h.decay h.value h.sustain
      | exact h.sustain
      | exact release_in h.release h.value
  refine ⟨⟨key, ?_, ?_, ?_, ?_, ?_⟩, key⟩
  all_goals
    unfold tick
    rcases hs : s.state <;> simp only <;> (try split_ifs) <;>
      first | exact h.attack | exact h.decay | exact h.release | exact h.sustain | exact h.sr

/-- Calls with a positive sample rate and a sustain level that is a number. -/
def Op.Legal : Op F32 → Prop
  | .init sr => sr.Pos
  | .setSustain l => l ≠ .nan
  | _ => True

theorem inv_step {s : Env F32} (h : Inv s) (op : Op F32) (ho : op.Legal) : Inv (step s op).1 := by
  cases op with
  | init sr => exact inv_init ho
  | setAttack t =>
    exact ⟨h.value, expCoeff_in (clampTime_pos t) h.sr, h.decay, h.release, h.sustain, h.sr⟩
  | setDecay t =>
    exact ⟨h.value, h.attack, expCoeff_in (clampTime_pos t) h.sr, h.release, h.sustain, h.sr⟩
  | setSustain l => exact ⟨h.value, h.attack, h.decay, h.release, clamp01_in ho, h.sr⟩
  | setRelease t =>
    exact ⟨h.value, h.attack, h.decay, expCoeff_in (clampTime_pos t) h.sr, h.sustain, h.sr⟩
  | setDoneAction a => exact ⟨h.value, h.attack, h.decay, h.release, h.sustain, h.sr⟩
  | gate g =>
    simp only [step, gate]
    split_ifs <;> exact ⟨h.value, h.attack, h.decay, h.release, h.sustain, h.sr⟩
  | tick => exact (inv_tick h).1
  | process buf =>
    exact (forEach_inv (I := Inv) (P := fun _ _ => True) (fun s b hs => ⟨(inv_tick hs).1, trivial⟩) h buf).1
  | processMul buf =>
    exact (forEach_inv (I := Inv) (step := fun s b => ((tick s).1, b * (tick s).2)) (P := fun _ _ => True) (fun s b hs => ⟨(inv_tick hs).1, trivial⟩) h buf).1
  | reset =>
    exact ⟨lit_zero.mono le_rfl zero_le_one, h.attack, h.decay, h.release, h.sustain, h.sr⟩

theorem inv_run {s : Env F32} (h : Inv s) (ops : List (Op F32)) (ho : ∀ op ∈ ops, op.Legal) :
    Inv (run s ops) := by
  induction ops generalizing s with
  | nil => exact h
  | cons op ops ih =>
    exact ih (inv_step h op (ho _ (by simp))) (fun o hm => ho o (by simp [hm]))

end EnvelopeADSR

theorem forall₂_right {β γ : Type} {P : γ → Prop} {xs : List β} {ys : List γ}
    (h : List.Forall₂ (fun _ y => P y) xs ys) : ∀ y ∈ ys, P y := by
  induction h with
  | nil => simp
  | cons h1 _ ih => simp [h1]; exact ih

/-- Multiplying a finite number by a factor in `[0,1]` does not increase its magnitude. -/
theorem mul_unit_abs {b o : F32} (hb : b.isFin = true) (ho : o.In 0 1) :
    (b * o).isFin = true ∧ |(b * o).val| ≤ |b.val| := by
  have hr := rep_val b
  have h1 := ho.2.1
  have h2 := ho.2.2
  have hrl : binary32.Rep (-|b.val|) false := by
    rcases abs_choice b.val with h | h <;> rw [h]
    · exact Rep.neg hr
    · simpa using hr
  have hru : binary32.Rep |b.val| false := by simpa using Rep.neg hrl
  have := mul_in (x := b) (y := o) hb ho.1 hrl hru
    (by nlinarith [neg_abs_le b.val, abs_nonneg b.val]) (by nlinarith [le_abs_self b.val, abs_nonneg b.val])
  exact ⟨this.1, abs_le.mpr this.2⟩

end Verif
