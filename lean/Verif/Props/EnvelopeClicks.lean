import Verif.Props.Times
import Verif.Props.Envelopes

/-!
# C82: gating an envelope does not click

Whatever is triggered, gated and released, and whenever: two consecutive samples of an envelope differ by at most the largest step of a
stage, `1 / (t * sampleRate)` for the shortest stage time `t`, plus 0.001, the distance at which a stage jumps to its end.  Exact arithmetic.
-/

namespace Verif

/-- From level `a`, through the samples `l`, to level `b`, each sample in relation `R` to the one before. -/
def Path {β : Type} (R : β → β → Prop) : β → List β → β → Prop
  | a, [], b => a = b
  | a, x :: l, b => R a x ∧ Path R x l b

theorem Path.append {β : Type} {R : β → β → Prop} {l m : List β} {a b c : β} (h1 : Path R a l b) (h2 : Path R b m c) : Path R a (l ++ m) c := by
  induction l generalizing a with
  | nil => cases h1; exact h2
  | cons x l ih => exact ⟨h1.1, ih h1.2⟩

theorem Path.chain {β : Type} {R : β → β → Prop} {l : List β} {a b : β} (h : Path R a l b) : List.IsChain R (a :: l) := by
  induction l generalizing a with
  | nil => exact List.isChain_singleton a
  | cons x l ih => exact List.isChain_cons_cons.mpr ⟨h.1, ih h.2⟩

/-- Samples `δ` apart at most. -/
def Close (δ : ℝ) (a b : ℝ) : Prop := |b - a| ≤ δ

/-- `1 - exp (-1 / T) ≤ 1 / T`. -/
theorem one_sub_exp_le {t τ sr : ℝ} (hτ : 0 < τ) (hsr : 0 < sr) (h : τ ≤ t) : 1 - Real.exp (-1 / (t * sr)) ≤ 1 / (τ * sr) := by
  have h1 := Real.add_one_le_exp (-1 / (t * sr))
  have h2 : 1 / (t * sr) ≤ 1 / (τ * sr) := one_div_le_one_div_of_le (mul_pos hτ hsr) (mul_le_mul_of_nonneg_right h hsr.le)
  have h3 : -1 / (t * sr) = -(1 / (t * sr)) := by ring
  rw [h3] at h1 ⊢
  linarith

theorem coeff_unit {t sr : ℝ} (ht : 0 < t) (hsr : 0 < sr) : 0 ≤ Real.exp (-1 / (t * sr)) ∧ Real.exp (-1 / (t * sr)) ≤ 1 := by
  refine ⟨(Real.exp_pos _).le, Real.exp_le_one_iff.mpr ?_⟩
  exact div_nonpos_of_nonpos_of_nonneg (by norm_num) (mul_pos ht hsr).le

namespace EnvelopeAR

/-- The samples a history of calls returns. -/
noncomputable def outputs (s : Env ℝ) : List (Op ℝ) → List ℝ
  | [] => []
  | op :: ops => (step s op).2 ++ outputs (step s op).1 ops

/-- The calls considered: everything but starting over, and no time below `τ`.  (`processMul` returns the buffer times the level.) -/
def Gentle (τ : ℝ) : Op ℝ → Prop
  | .init _ => False
  | .reset => False
  | .processMul _ => False
  | .setAttack t => τ ≤ t
  | .setRelease t => τ ≤ t
  | _ => True

structure Calm (τ sr : ℝ) (s : Env ℝ) : Prop where
  v0 : 0 ≤ s.value
  v1 : s.value ≤ 1
  idle : s.state = .idle → s.value = 0
  a0 : 0 ≤ s.attackCoeff
  a1 : s.attackCoeff ≤ 1
  aT : 1 - s.attackCoeff ≤ 1 / (τ * sr)
  r0 : 0 ≤ s.releaseCoeff
  r1 : s.releaseCoeff ≤ 1
  rT : 1 - s.releaseCoeff ≤ 1 / (τ * sr)
  rate : s.sampleRate = sr

theorem calm_tick {τ sr : ℝ} (hτ : 0 < τ) (hsr : 0 < sr) {s : Env ℝ} (h : Calm τ sr s) :
    Calm τ sr (tick s).1 ∧ (tick s).1.value = (tick s).2 ∧ Close (1 / (τ * sr) + 0.001) s.value (tick s).2 := by
  have hp : 0 < 1 / (τ * sr) := one_div_pos.mpr (mul_pos hτ hsr)
  obtain ⟨v0, v1, idle, a0, a1, aT, r0, r1, rT, rate⟩ := h
  obtain ⟨G, hG⟩ : ∃ G, G = 1 / (τ * sr) := ⟨_, rfl⟩
  have hz : (lit 0 : ℝ) = 0 := by simp [real_arith]
  have ho : (lit 1 : ℝ) = 1 := by simp [real_arith]
  have e9 : (lit 0.999 : ℝ) = 0.999 := by simp only [real_arith]; norm_num
  have e4 : (lit 0.0001 : ℝ) = 0.0001 := by simp only [real_arith]; norm_num
  unfold Close
  rw [← hG] at hp aT rT ⊢
  cases hs : s.state with
  | idle =>
    have e : tick s = ({ s with value := 0 }, 0) := by simp only [tick, hs, hz]
    rw [e]
    refine ⟨⟨le_rfl, zero_le_one, fun _ => rfl, a0, a1, hG ▸ aT, r0, r1, hG ▸ rT, rate⟩, rfl, ?_⟩
    rw [idle hs, sub_zero, abs_zero]; linarith
  | attack =>
    have w0 : s.value ≤ 1 - s.attackCoeff * (1 - s.value) := by nlinarith
    have w1 : 1 - s.attackCoeff * (1 - s.value) ≤ 1 := by nlinarith
    have w2 : 1 - s.attackCoeff * (1 - s.value) - s.value ≤ G := by nlinarith
    by_cases c : (0.999 : ℝ) ≤ 1 - s.attackCoeff * (1 - s.value)
    · have e : tick s = ({ s with value := 1, state := if !s.gate then .release else .attack }, 1) := by
        simp only [tick, hs, ho, e9]
        rw [if_pos (show ((1 - s.attackCoeff * (1 - s.value)) >=. (0.999 : ℝ)) = true by simp [real_arith, c])]
      rw [e]
      refine ⟨⟨zero_le_one, le_rfl, ?_, a0, a1, hG ▸ aT, r0, r1, hG ▸ rT, rate⟩, rfl, ?_⟩
      · dsimp only; split_ifs <;> intro e <;> cases e
      · rw [abs_of_nonneg (by linarith)]; linarith
    · have e : tick s = ({ s with value := 1 - s.attackCoeff * (1 - s.value) }, 1 - s.attackCoeff * (1 - s.value)) := by
        simp only [tick, hs, ho, e9]
        rw [if_neg (show ¬ ((1 - s.attackCoeff * (1 - s.value)) >=. (0.999 : ℝ)) = true by simpa [real_arith] using c)]
      rw [e]
      refine ⟨⟨v0.trans w0, w1, fun e => (by have := hs.symm.trans e; cases this), a0, a1, hG ▸ aT, r0, r1, hG ▸ rT, rate⟩, rfl, ?_⟩
      rw [abs_of_nonneg (by linarith)]; linarith
  | release =>
    have w0 : s.releaseCoeff * s.value ≤ s.value := by nlinarith
    have w1 : 0 ≤ s.releaseCoeff * s.value := mul_nonneg r0 v0
    have w2 : s.value - s.releaseCoeff * s.value ≤ G := by nlinarith
    by_cases c : s.releaseCoeff * s.value ≤ 0.0001
    · have e : tick s = ({ s with value := 0, state := .idle }, 0) := by
        simp only [tick, hs, hz, e4]
        rw [if_pos (show ((s.releaseCoeff * s.value) <=. (0.0001 : ℝ)) = true by simp [real_arith, c])]
      rw [e]
      refine ⟨⟨le_rfl, zero_le_one, fun _ => rfl, a0, a1, hG ▸ aT, r0, r1, hG ▸ rT, rate⟩, rfl, ?_⟩
      rw [zero_sub, abs_neg, abs_of_nonneg v0]; linarith
    · have e : tick s = ({ s with value := s.releaseCoeff * s.value }, s.releaseCoeff * s.value) := by
        simp only [tick, hs, e4]
        rw [if_neg (show ¬ ((s.releaseCoeff * s.value) <=. (0.0001 : ℝ)) = true by simpa [real_arith] using c)]
      rw [e]
      refine ⟨⟨w1, w0.trans v1, fun e => (by have := hs.symm.trans e; cases this), a0, a1, hG ▸ aT, r0, r1, hG ▸ rT, rate⟩, rfl, ?_⟩
      rw [abs_of_nonpos (by linarith)]; linarith

theorem calm_step {τ sr : ℝ} (hτ : 0 < τ) (hsr : 0 < sr) {s : Env ℝ} (h : Calm τ sr s) (op : Op ℝ) (ho : Gentle τ op) :
    Calm τ sr (step s op).1 ∧ Path (Close (1 / (τ * sr) + 0.001)) s.value (step s op).2 (step s op).1.value := by
  have time : ∀ t : ℝ, τ ≤ t → τ ≤ (if t >. (lit 0.0001 : ℝ) then t else lit 0.0001) ∧ 0 < (if t >. (lit 0.0001 : ℝ) then t else lit 0.0001) := by
    intro t ht
    simp only [real_arith]
    push_cast
    split_ifs with c
    · exact ⟨ht, lt_of_lt_of_le hτ ht⟩
    · simp only [not_lt] at c
      exact ⟨ht.trans c, by norm_num⟩
  have hsr' := h.rate
  cases op with
  | init _ => exact absurd ho id
  | reset => exact absurd ho id
  | processMul _ => exact absurd ho id
  | setAttack t =>
    obtain ⟨t1, t2⟩ := time t ho
    refine ⟨{ h with a0 := ?_, a1 := ?_, aT := ?_ }, rfl⟩ <;> simp only [step, setAttack, updateAttackCoefficient, real_arith] <;>
      rw [hsr'] <;> push_cast
    · exact (Real.exp_pos _).le
    · exact (coeff_unit (by simpa [real_arith] using t2) hsr).2
    · exact one_sub_exp_le hτ hsr (by simpa [real_arith] using t1)
  | setRelease t =>
    obtain ⟨t1, t2⟩ := time t ho
    refine ⟨{ h with r0 := ?_, r1 := ?_, rT := ?_ }, rfl⟩ <;> simp only [step, setRelease, updateReleaseCoefficient, real_arith] <;>
      rw [hsr'] <;> push_cast
    · exact (Real.exp_pos _).le
    · exact (coeff_unit (by simpa [real_arith] using t2) hsr).2
    · exact one_sub_exp_le hτ hsr (by simpa [real_arith] using t1)
  | trigger => exact ⟨{ h with idle := fun e => by cases e }, rfl⟩
  | release =>
    refine ⟨{ h with idle := ?_ }, rfl⟩
    simp only [step, EnvelopeAR.release]
    split_ifs with c
    · intro e; cases e
    · exact h.idle
  | setGate g =>
    simp only [step, setGate]
    split_ifs
    · exact ⟨{ h with idle := fun e => by cases e }, rfl⟩
    · refine ⟨{ h with idle := ?_ }, rfl⟩
      simp only [EnvelopeAR.release]
      split_ifs with c
      · intro e; cases e
      · exact h.idle
    · exact ⟨h, rfl⟩
  | tick =>
    obtain ⟨h1, h2, h3⟩ := calm_tick hτ hsr h
    exact ⟨h1, h3, h2.symm⟩
  | process buf =>
    have : ∀ (buf : List ℝ) (s : Env ℝ), Calm τ sr s → Calm τ sr (process s buf).1 ∧
        Path (Close (1 / (τ * sr) + 0.001)) s.value (process s buf).2 (process s buf).1.value := by
      intro buf
      induction buf with
      | nil => exact fun s h => ⟨h, rfl⟩
      | cons x buf ih =>
        intro s h
        obtain ⟨h1, h2, h3⟩ := calm_tick hτ hsr h
        obtain ⟨i1, i2⟩ := ih _ h1
        refine ⟨i1, h3, ?_⟩
        rw [h2] at i2
        exact i2
    exact this buf s h

/-- **C82, EnvelopeAR.** In any history of calls without `init` and `reset` in which no stage time below `τ ≤ 10 ms` is set, consecutive samples
differ by at most `1 / (τ sr) + 0.001`, and the first by as much from zero: however often and at whatever moment the envelope is triggered,
released or gated. -/
theorem C82_ar_no_click (τ sr : ℝ) (hτ : 0 < τ) (hd : τ ≤ 0.01) (hsr : 0 < sr) (ops : List (Op ℝ)) (ho : ∀ op ∈ ops, Gentle τ op) :
    List.IsChain (Close (1 / (τ * sr) + 0.001)) (0 :: outputs (init sr) ops) := by
  have h0 : Calm τ sr (init sr) := by
    have e : -((1 : ℚ) : ℝ) = -1 := by norm_num
    have d1 : (((0.01 : ℚ)) : ℝ) = 0.01 := by norm_num
    have d2 : (((0.1 : ℚ)) : ℝ) = 0.1 := by norm_num
    refine ⟨?_, ?_, ?_, ?_, ?_, ?_, ?_, ?_, ?_, rfl⟩ <;>
      simp only [init, updateCoefficients, updateReleaseCoefficient, updateAttackCoefficient, real_arith] <;>
      (try rw [e]) <;> (try rw [d1]) <;> (try rw [d2])
    · norm_num
    · norm_num
    · intro _; norm_num
    · exact (Real.exp_pos _).le
    · exact (coeff_unit (by norm_num) hsr).2
    · exact one_sub_exp_le hτ hsr hd
    · exact (Real.exp_pos _).le
    · exact (coeff_unit (by norm_num) hsr).2
    · exact one_sub_exp_le hτ hsr (by linarith)
  have key : ∀ (ops : List (Op ℝ)) (s : Env ℝ), Calm τ sr s → (∀ op ∈ ops, Gentle τ op) →
      ∃ b, Path (Close (1 / (τ * sr) + 0.001)) s.value (outputs s ops) b := by
    intro ops
    induction ops with
    | nil => exact fun s _ _ => ⟨s.value, rfl⟩
    | cons op ops ih =>
      intro s h ho
      obtain ⟨h1, h2⟩ := calm_step hτ hsr h op (ho op List.mem_cons_self)
      obtain ⟨b, hb⟩ := ih _ h1 fun o hm => ho o (List.mem_cons_of_mem _ hm)
      exact ⟨b, h2.append hb⟩
  obtain ⟨b, hb⟩ := key ops _ h0 ho
  have v : (init sr : Env ℝ).value = 0 := by simp [init, updateCoefficients, updateReleaseCoefficient, updateAttackCoefficient, real_arith]
  rw [v] at hb
  exact hb.chain

/-- Instance: a retrigger in the middle of a release. -/
example : ∀ op ∈ [Op.setAttack (0.02 : ℝ), .trigger, .process [0, 0, 0], .release, .tick, .trigger, .tick], Gentle (0.01 : ℝ) op := by
  simp [Gentle]; norm_num

end EnvelopeAR

namespace EnvelopeADSR

/-- The samples a history of calls returns. -/
noncomputable def outputs (s : Env ℝ) : List (Op ℝ) → List ℝ
  | [] => []
  | op :: ops => (step s op).2 ++ outputs (step s op).1 ops

/-- The calls considered: everything but starting over and changing the sustain level, and no time below `τ`. -/
def Gentle (τ : ℝ) : Op ℝ → Prop
  | .init _ => False
  | .reset => False
  | .processMul _ => False
  | .setSustain _ => False
  | .setAttack t => τ ≤ t
  | .setDecay t => τ ≤ t
  | .setRelease t => τ ≤ t
  | _ => True

structure Calm (τ sr : ℝ) (s : Env ℝ) : Prop where
  v0 : 0 ≤ s.value
  v1 : s.value ≤ 1
  idle : s.state = .idle → s.value = 0
  sust : s.state = .sustain → s.value = s.sustainLevel
  l0 : 0 ≤ s.sustainLevel
  l1 : s.sustainLevel ≤ 1
  a0 : 0 ≤ s.attackCoeff
  a1 : s.attackCoeff ≤ 1
  aT : 1 - s.attackCoeff ≤ 1 / (τ * sr)
  d0 : 0 ≤ s.decayCoeff
  d1 : s.decayCoeff ≤ 1
  dT : 1 - s.decayCoeff ≤ 1 / (τ * sr)
  r0 : 0 ≤ s.releaseCoeff
  r1 : s.releaseCoeff ≤ 1
  rT : 1 - s.releaseCoeff ≤ 1 / (τ * sr)
  rate : s.sampleRate = sr

theorem calm_tick {τ sr : ℝ} (hτ : 0 < τ) (hsr : 0 < sr) {s : Env ℝ} (h : Calm τ sr s) :
    Calm τ sr (tick s).1 ∧ (tick s).1.value = (tick s).2 ∧ Close (1 / (τ * sr) + 0.001) s.value (tick s).2 := by
  have hp : 0 < 1 / (τ * sr) := one_div_pos.mpr (mul_pos hτ hsr)
  obtain ⟨v0, v1, idle, sust, l0, l1, a0, a1, aT, d0, d1, dT, r0, r1, rT, rate⟩ := h
  obtain ⟨G, hG⟩ : ∃ G, G = 1 / (τ * sr) := ⟨_, rfl⟩
  have hz : (lit 0 : ℝ) = 0 := by simp [real_arith]
  have ho : (lit 1 : ℝ) = 1 := by simp [real_arith]
  have e9 : (lit 0.999 : ℝ) = 0.999 := by simp only [real_arith]; norm_num
  have e3 : (lit 0.001 : ℝ) = 0.001 := by simp only [real_arith]; norm_num
  have e4 : (lit 0.0001 : ℝ) = 0.0001 := by simp only [real_arith]; norm_num
  unfold Close
  rw [← hG] at hp aT dT rT ⊢
  -- a new value and a new stage
  have mk : ∀ (v : ℝ) (st : State) (dn : Bool), 0 ≤ v → v ≤ 1 → (st = .idle → v = 0) → (st = .sustain → v = s.sustainLevel) →
      Calm τ sr { s with value := v, state := st, done := dn } := fun v st dn h0 h1 h2 h3 =>
    ⟨h0, h1, h2, h3, l0, l1, a0, a1, hG ▸ aT, d0, d1, hG ▸ dT, r0, r1, hG ▸ rT, rate⟩
  -- the stage after the gate test
  have gate : ∀ (st : State), ∃ st', (st' = st ∨ st' = .release) ∧ ∀ s1 : Env ℝ, s1.state = st →
      (if (s.gateValue <=. lit 0) = true then { s1 with state := State.release } else s1) = { s1 with state := st' } := by
    intro st
    by_cases c : (s.gateValue <=. lit 0) = true
    · exact ⟨.release, Or.inr rfl, fun s1 _ => if_pos c⟩
    · exact ⟨st, Or.inl rfl, fun s1 h => by rw [if_neg c, ← h]⟩
  cases hs : s.state with
  | idle =>
    have e : tick s = ({ s with value := 0, state := .idle, done := s.done }, 0) := by simp only [tick, hs, hz]
    rw [e]
    refine ⟨mk 0 .idle s.done le_rfl zero_le_one (fun _ => rfl) (fun e => by cases e), rfl, ?_⟩
    rw [idle hs, sub_zero, abs_zero]; linarith
  | attack =>
    have w0 : s.value ≤ 1 - s.attackCoeff * (1 - s.value) := by nlinarith
    have w1 : 1 - s.attackCoeff * (1 - s.value) ≤ 1 := by nlinarith
    have w2 : 1 - s.attackCoeff * (1 - s.value) - s.value ≤ G := by nlinarith
    by_cases c : (0.999 : ℝ) ≤ 1 - s.attackCoeff * (1 - s.value)
    · obtain ⟨st', h1, h2⟩ := gate .decay
      have e : tick s = ({ s with value := 1, state := st', done := s.done }, 1) := by
        simp only [tick, hs, ho, e9]
        rw [if_pos (show ((1 - s.attackCoeff * (1 - s.value)) >=. (0.999 : ℝ)) = true by simp [real_arith, c]), h2 _ rfl]
      rw [e]
      refine ⟨mk 1 st' s.done zero_le_one le_rfl ?_ ?_, rfl, ?_⟩
      · rcases h1 with rfl | rfl <;> intro e <;> cases e
      · rcases h1 with rfl | rfl <;> intro e <;> cases e
      · rw [abs_of_nonneg (by linarith)]; linarith
    · obtain ⟨st', h1, h2⟩ := gate .attack
      have e : tick s = ({ s with value := 1 - s.attackCoeff * (1 - s.value), state := st', done := s.done },
          1 - s.attackCoeff * (1 - s.value)) := by
        simp only [tick, hs, ho, e9]
        rw [if_neg (show ¬ ((1 - s.attackCoeff * (1 - s.value)) >=. (0.999 : ℝ)) = true by simpa [real_arith] using c), h2 _ rfl]
      rw [e]
      refine ⟨mk _ st' s.done (v0.trans w0) w1 ?_ ?_, rfl, ?_⟩
      · rcases h1 with rfl | rfl <;> intro e <;> cases e
      · rcases h1 with rfl | rfl <;> intro e <;> cases e
      · rw [abs_of_nonneg (by linarith)]; linarith
  | decay =>
    obtain ⟨w, hw⟩ : ∃ w, w = s.sustainLevel + s.decayCoeff * (s.value - s.sustainLevel) := ⟨_, rfl⟩
    have w0 : 0 ≤ w := by rw [hw]; nlinarith [mul_nonneg d0 v0, mul_nonneg (sub_nonneg.mpr d1) l0]
    have w1 : w ≤ 1 := by rw [hw]; nlinarith [mul_nonneg d0 (sub_nonneg.mpr v1), mul_nonneg (sub_nonneg.mpr d1) (sub_nonneg.mpr l1)]
    have w2 : |w - s.value| ≤ G := by
      have : w - s.value = (1 - s.decayCoeff) * (s.sustainLevel - s.value) := by rw [hw]; ring
      rw [this, abs_mul, abs_of_nonneg (by linarith)]
      have : |s.sustainLevel - s.value| ≤ 1 := by rw [abs_le]; constructor <;> linarith
      nlinarith [abs_nonneg (s.sustainLevel - s.value)]
    by_cases c : |w - s.sustainLevel| < 0.001
    · obtain ⟨st', h1, h2⟩ := gate .sustain
      have e : tick s = ({ s with value := s.sustainLevel, state := st', done := s.done }, s.sustainLevel) := by
        simp only [tick, hs, e3, ← hw]
        rw [if_pos (show (Arith.fabs (w - s.sustainLevel) <. (0.001 : ℝ)) = true by simp only [real_arith, decide_eq_true_eq]; exact c), h2 _ rfl]
      rw [e]
      refine ⟨mk _ st' s.done l0 l1 ?_ (fun _ => rfl), rfl, ?_⟩
      · rcases h1 with rfl | rfl <;> intro e <;> cases e
      · have : s.sustainLevel - s.value = (w - s.value) + -(w - s.sustainLevel) := by ring
        rw [this]
        refine (abs_add_le _ _).trans ?_
        rw [abs_neg]; linarith
    · obtain ⟨st', h1, h2⟩ := gate .decay
      have e : tick s = ({ s with value := w, state := st', done := s.done }, w) := by
        simp only [tick, hs, e3, ← hw]
        rw [if_neg (show ¬ (Arith.fabs (w - s.sustainLevel) <. (0.001 : ℝ)) = true by simp only [real_arith, decide_eq_true_eq]; exact c), h2 _ rfl]
      rw [e]
      refine ⟨mk _ st' s.done w0 w1 ?_ ?_, rfl, ?_⟩
      · rcases h1 with rfl | rfl <;> intro e <;> cases e
      · rcases h1 with rfl | rfl <;> intro e <;> cases e
      · linarith
  | sustain =>
    obtain ⟨st', h1, h2⟩ := gate .sustain
    have e : tick s = ({ s with value := s.sustainLevel, state := st', done := s.done }, s.sustainLevel) := by
      simp only [tick, hs]
      rw [h2 { s with value := s.sustainLevel, state := .sustain } rfl]
    rw [e]
    refine ⟨mk _ st' s.done l0 l1 ?_ (fun _ => rfl), rfl, ?_⟩
    · rcases h1 with rfl | rfl <;> intro e <;> cases e
    · rw [sust hs, sub_self, abs_zero]; linarith
  | release =>
    have w0 : s.releaseCoeff * s.value ≤ s.value := by nlinarith
    have w1 : 0 ≤ s.releaseCoeff * s.value := mul_nonneg r0 v0
    have w2 : s.value - s.releaseCoeff * s.value ≤ G := by nlinarith
    by_cases c : s.releaseCoeff * s.value ≤ 0.0001
    · have e : tick s = ({ s with value := 0, state := .idle, done := true }, 0) := by
        simp only [tick, hs, hz, e4]
        rw [if_pos (show ((s.releaseCoeff * s.value) <=. (0.0001 : ℝ)) = true by simp [real_arith, c])]
      rw [e]
      refine ⟨mk 0 .idle true le_rfl zero_le_one (fun _ => rfl) (fun e => by cases e), rfl, ?_⟩
      rw [zero_sub, abs_neg, abs_of_nonneg v0]; linarith
    · have e : tick s = ({ s with value := s.releaseCoeff * s.value, state := .release, done := s.done }, s.releaseCoeff * s.value) := by
        simp only [tick, hs, e4]
        rw [if_neg (show ¬ ((s.releaseCoeff * s.value) <=. (0.0001 : ℝ)) = true by simpa [real_arith] using c)]
      rw [e]
      refine ⟨mk _ .release s.done w1 (w0.trans v1) (fun e => by cases e) (fun e => by cases e), rfl, ?_⟩
      rw [abs_of_nonpos (by linarith)]; linarith

theorem calm_step {τ sr : ℝ} (hτ : 0 < τ) (hsr : 0 < sr) {s : Env ℝ} (h : Calm τ sr s) (op : Op ℝ) (ho : Gentle τ op) :
    Calm τ sr (step s op).1 ∧ Path (Close (1 / (τ * sr) + 0.001)) s.value (step s op).2 (step s op).1.value := by
  have time : ∀ t : ℝ, τ ≤ t → τ ≤ (if t >. (lit 0.0001 : ℝ) then t else lit 0.0001) ∧ 0 < (if t >. (lit 0.0001 : ℝ) then t else lit 0.0001) := by
    intro t ht
    simp only [real_arith]
    push_cast
    split_ifs with c
    · exact ⟨ht, lt_of_lt_of_le hτ ht⟩
    · simp only [not_lt] at c
      exact ⟨ht.trans c, by norm_num⟩
  have hsr' := h.rate
  cases op with
  | init _ => exact absurd ho id
  | reset => exact absurd ho id
  | processMul _ => exact absurd ho id
  | setSustain _ => exact absurd ho id
  | setDoneAction a => exact ⟨{ h with }, rfl⟩
  | setAttack t =>
    obtain ⟨t1, t2⟩ := time t ho
    refine ⟨{ h with a0 := ?_, a1 := ?_, aT := ?_ }, rfl⟩ <;> simp only [step, setAttack, updateAttackCoefficient, real_arith] <;>
      rw [hsr'] <;> push_cast
    · exact (Real.exp_pos _).le
    · exact (coeff_unit (by simpa [real_arith] using t2) hsr).2
    · exact one_sub_exp_le hτ hsr (by simpa [real_arith] using t1)
  | setDecay t =>
    obtain ⟨t1, t2⟩ := time t ho
    refine ⟨{ h with d0 := ?_, d1 := ?_, dT := ?_ }, rfl⟩ <;> simp only [step, setDecay, updateDecayCoefficient, real_arith] <;>
      rw [hsr'] <;> push_cast
    · exact (Real.exp_pos _).le
    · exact (coeff_unit (by simpa [real_arith] using t2) hsr).2
    · exact one_sub_exp_le hτ hsr (by simpa [real_arith] using t1)
  | setRelease t =>
    obtain ⟨t1, t2⟩ := time t ho
    refine ⟨{ h with r0 := ?_, r1 := ?_, rT := ?_ }, rfl⟩ <;> simp only [step, setRelease, updateReleaseCoefficient, real_arith] <;>
      rw [hsr'] <;> push_cast
    · exact (Real.exp_pos _).le
    · exact (coeff_unit (by simpa [real_arith] using t2) hsr).2
    · exact one_sub_exp_le hτ hsr (by simpa [real_arith] using t1)
  | gate g =>
    simp only [step, EnvelopeADSR.gate]
    split_ifs
    · exact ⟨{ h with idle := fun e => (by cases e), sust := fun e => (by cases e) }, rfl⟩
    · exact ⟨{ h with idle := fun e => (by cases e), sust := fun e => (by cases e) }, rfl⟩
    · exact ⟨{ h with }, rfl⟩
    · exact ⟨{ h with }, rfl⟩
  | tick =>
    obtain ⟨h1, h2, h3⟩ := calm_tick hτ hsr h
    exact ⟨h1, h3, h2.symm⟩
  | process buf =>
    have : ∀ (buf : List ℝ) (s : Env ℝ), Calm τ sr s → Calm τ sr (process s buf).1 ∧
        Path (Close (1 / (τ * sr) + 0.001)) s.value (process s buf).2 (process s buf).1.value := by
      intro buf
      induction buf with
      | nil => exact fun s h => ⟨h, rfl⟩
      | cons x buf ih =>
        intro s h
        obtain ⟨h1, h2, h3⟩ := calm_tick hτ hsr h
        obtain ⟨i1, i2⟩ := ih _ h1
        refine ⟨i1, h3, ?_⟩
        rw [h2] at i2
        exact i2
    exact this buf s h

/-- **C82, EnvelopeADSR.** In any history of calls after `init` and `setSustain`, without further `init`, `reset` and `setSustain`, in which no
stage time below `τ ≤ 10 ms` is set, consecutive samples differ by at most `1 / (τ sr) + 0.001`, and the first by as much from zero:
whatever the gate does, and when. -/
theorem C82_adsr_no_click (τ sr level : ℝ) (hτ : 0 < τ) (hd : τ ≤ 0.01) (hsr : 0 < sr) (ops : List (Op ℝ)) (ho : ∀ op ∈ ops, Gentle τ op) :
    List.IsChain (Close (1 / (τ * sr) + 0.001)) (0 :: outputs (setSustain level (init sr)) ops) := by
  have h0 : Calm τ sr (setSustain level (init sr)) := by
    have e : -((1 : ℚ) : ℝ) = -1 := by norm_num
    have t1 : (((0.01 : ℚ)) : ℝ) = 0.01 := by norm_num
    have t2 : (((0.1 : ℚ)) : ℝ) = 0.1 := by norm_num
    have t3 : (((0.3 : ℚ)) : ℝ) = 0.3 := by norm_num
    have c : 0 ≤ (clamp level (lit 0) (lit 1) : ℝ) ∧ (clamp level (lit 0) (lit 1) : ℝ) ≤ 1 := by
      simp only [clamp, real_arith]
      push_cast
      split_ifs with a b
      · exact ⟨le_rfl, zero_le_one⟩
      · exact ⟨zero_le_one, le_rfl⟩
      · simp only [not_lt] at a b
        exact ⟨a, b⟩
    refine ⟨?_, ?_, ?_, fun e => (by cases e), c.1, c.2, ?_, ?_, ?_, ?_, ?_, ?_, ?_, ?_, ?_, rfl⟩ <;>
      simp only [setSustain, init, updateCoefficients, updateReleaseCoefficient, updateDecayCoefficient, updateAttackCoefficient, real_arith] <;>
      (try rw [e]) <;> (try rw [t1]) <;> (try rw [t2]) <;> (try rw [t3])
    · norm_num
    · norm_num
    · intro _; norm_num
    · exact (Real.exp_pos _).le
    · exact (coeff_unit (by norm_num) hsr).2
    · exact one_sub_exp_le hτ hsr hd
    · exact (Real.exp_pos _).le
    · exact (coeff_unit (by norm_num) hsr).2
    · exact one_sub_exp_le hτ hsr (by linarith)
    · exact (Real.exp_pos _).le
    · exact (coeff_unit (by norm_num) hsr).2
    · exact one_sub_exp_le hτ hsr (by linarith)
  have key : ∀ (ops : List (Op ℝ)) (s : Env ℝ), Calm τ sr s → (∀ op ∈ ops, Gentle τ op) →
      ∃ b, Path (Close (1 / (τ * sr) + 0.001)) s.value (outputs s ops) b := by
    intro ops
    induction ops with
    | nil => exact fun s _ _ => ⟨s.value, rfl⟩
    | cons op ops ih =>
      intro s h ho
      obtain ⟨h1, h2⟩ := calm_step hτ hsr h op (ho op List.mem_cons_self)
      obtain ⟨b, hb⟩ := ih _ h1 fun o hm => ho o (List.mem_cons_of_mem _ hm)
      exact ⟨b, h2.append hb⟩
  obtain ⟨b, hb⟩ := key ops _ h0 ho
  have v : (setSustain level (init sr) : Env ℝ).value = 0 := by
    simp [setSustain, init, updateCoefficients, updateReleaseCoefficient, updateDecayCoefficient, updateAttackCoefficient, real_arith]
  rw [v] at hb
  exact hb.chain

/-- **C82, the exception.** Setting the sustain level of a sustaining note does click: the very next sample is the new level. -/
theorem C82_adsr_sustain_clicks (s : Env ℝ) (level : ℝ) (hs : s.state = .sustain) (h0 : 0 ≤ level) (h1 : level ≤ 1) :
    (tick (setSustain level s)).2 = level := by
  have c : (clamp level (lit 0) (lit 1) : ℝ) = level := by
    simp only [clamp, real_arith]
    push_cast
    rw [if_neg (by simpa using h0), if_neg (by simpa using h1)]
  simp only [tick, setSustain, hs, c]
  split_ifs <;> rfl

/-- Instance: the gate opens and closes twice, the second time before the note has died away. -/
example : ∀ op ∈ [Op.setRelease (0.5 : ℝ), .gate 1, .process [0, 0, 0], .gate 0, .tick, .gate 1, .tick, .gate (-1), .tick], Gentle (0.01 : ℝ) op := by
  simp [Gentle]; norm_num

/-- Instance: a sustaining note. -/
example : (run (init (48000 : ℝ)) []).state = .idle ∧ ({ init (48000 : ℝ) with state := .sustain } : Env ℝ).state = .sustain := ⟨rfl, rfl⟩

end EnvelopeADSR
end Verif
