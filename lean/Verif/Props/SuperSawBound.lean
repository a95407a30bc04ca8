import Verif.Props.SuperSaw
import Verif.Props.SawSweep

/-!
# Property C43, continued: how loud SuperSaw gets (exact arithmetic)
-/

set_option linter.unusedSectionVars false

namespace Verif.SuperSaw

/-- Arguments a user may pass at sample rate `sr`: pitches above zero and up to a quarter of the sample rate, a vibrato of at most an
octave, a detune of at most two octaves, vibrato rates from zero to the sample rate. -/
def Op.LegalR (sr : ℝ) : Op ℝ → Prop
  | .setFrequency f => 0 < f ∧ f ≤ sr / 4
  | .setVibratoRate r => 0 ≤ r ∧ r ≤ sr
  | .setVibratoDepth d => |d| ≤ 12
  | .setDetune d => |d| ≤ 24
  | _ => True

/-- Voice invariant. -/
structure VInvR (sr : ℝ) (v : Voice ℝ) : Prop where
  sawRate : v.saw.sampleRate = sr
  scale : v.saw.scaleFactor = sr / 2
  phase0 : 0 ≤ v.saw.phase
  phase1 : v.saw.phase ≤ 1
  vibRate : v.vibrato.sampleRate = sr
  vibInc0 : 0 ≤ v.vibrato.phaseIncrement
  vibInc1 : v.vibrato.phaseIncrement ≤ 1
  vib0 : 0 ≤ v.vibrato.phase
  vib1 : v.vibrato.phase ≤ 1
  detune : |v.detuneOffset| ≤ 12

/-- State invariant. -/
structure InvR (sr : ℝ) (s : Synth ℝ) : Prop where
  voices : ∀ v ∈ s.voices, VInvR sr v
  count : s.voices.length = 7
  freq0 : 0 < s.frequency
  freq1 : s.frequency ≤ sr / 4
  depth : |s.vibrDepth| ≤ 12

/-- What a tick at pitch `F` and depth `d` leaves in a voice: the parabola is one step from the stored one, and the voice sounded at the
pitch times its detune ratio times at most the vibrato ratio. -/
def Left (sr F d : ℝ) (v : Voice ℝ) : Prop :=
  |SawDPW.parabola v.saw.phase - v.saw.prevParabolic| ≤ 4 * (F * 2 ^ (|d| / 12) * 2 ^ (v.detuneOffset / 12) / sr)

theorem detuneR {i : ℕ} (hi : i < 7) {d : ℝ} (hd : |d| ≤ 24) : |(detuneOf i d : ℝ)| ≤ 12 := by
  have h5 : |(i : ℝ) / 6 - 1 / 2| ≤ 1 / 2 := by
    have : (i : ℝ) ≤ 6 := by exact_mod_cast (by omega : i ≤ 6)
    have h0 : (0:ℝ) ≤ i := Nat.cast_nonneg i
    rw [abs_le]; constructor <;> linarith
  have e : (detuneOf i d : ℝ) = ((i : ℝ) / 6 - 1 / 2) * d := by
    simp only [detuneOf, NUM_VOICES, real_arith]; push_cast; norm_num
  rw [e, abs_mul]
  nlinarith [abs_nonneg ((i : ℝ) / 6 - 1 / 2), abs_nonneg d]

theorem inv_initR {sr : ℝ} (hsr : 1600 ≤ sr) (rand : ℕ → ℝ) : InvR sr (init sr rand) := by
  refine ⟨?_, rfl, ?_, ?_, ?_⟩
  · intro v hv
    obtain ⟨i, hi, rfl⟩ := List.mem_map.1 hv
    have hi7 : i < 7 := List.mem_range.1 hi
    refine ⟨rfl, ?_, ?_, ?_, rfl, ?_, ?_, ?_, ?_, detuneR hi7 ?_⟩
    · simp only [initVoice, SawDPW.init, real_arith]; push_cast; ring
    · simp only [initVoice, SawDPW.init, real_arith]; push_cast; split_ifs <;> (norm_num at *; try linarith)
    · simp only [initVoice, SawDPW.init, real_arith]; push_cast; split_ifs <;> (norm_num at *; try linarith)
    · simp only [initVoice, LFTri.init, LFTri.setFrequency, LFTri.updatePhaseIncrement, real_arith]; push_cast
      exact div_nonneg (by norm_num) (by linarith)
    · simp only [initVoice, LFTri.init, LFTri.setFrequency, LFTri.updatePhaseIncrement, real_arith]; push_cast
      rw [div_le_one (by linarith)]; linarith
    · simp only [initVoice, LFTri.init, LFTri.setFrequency, LFTri.updatePhaseIncrement, real_arith]
      linarith [Int.floor_le (rand (2 * i) * ((4:ℚ):ℝ) * ((0.25 : ℚ) : ℝ))]
    · simp only [initVoice, LFTri.init, LFTri.setFrequency, LFTri.updatePhaseIncrement, real_arith]
      linarith [Int.lt_floor_add_one (rand (2 * i) * ((4:ℚ):ℝ) * ((0.25 : ℚ) : ℝ))]
    · simp only [real_arith]; norm_num [abs_le]
  · simp only [init, real_arith]; norm_num
  · simp only [init, real_arith]; push_cast; linarith
  · simp only [init, real_arith]; norm_num [abs_le]

theorem tri_tickR {o : LFTri.Osc ℝ} (h0 : 0 ≤ o.phase) (h1 : o.phase ≤ 1) (i0 : 0 ≤ o.phaseIncrement) (i1 : o.phaseIncrement ≤ 1) :
    0 ≤ (LFTri.tick o).1.phase ∧ (LFTri.tick o).1.phase ≤ 1 ∧ |(LFTri.tick o).2| ≤ 1 := by
  simp only [LFTri.tick, real_arith]
  push_cast
  refine ⟨?_, ?_, ?_⟩
  · split_ifs with h <;> linarith
  · split_ifs with h <;> linarith
  · split_ifs with h <;> norm_num at h <;> rw [abs_le] <;> constructor <;> linarith

/-- One voice: the invariant is kept, and if the last tick was at the same pitch and depth the sample is bounded. -/
theorem voiceTickR {sr F d : ℝ} (hF0 : 0 < F) (hF1 : F ≤ sr / 4) (hd : |d| ≤ 12) {v : Voice ℝ} (h : VInvR sr v) :
    VInvR sr (voiceTick F d v).1 ∧ Left sr F d (voiceTick F d v).1 ∧
    (Left sr F d v → |(voiceTick F d v).2| ≤ 2 * 2 ^ (|d| / 6)) := by
  obtain ⟨t0, t1, tv⟩ := tri_tickR h.vib0 h.vib1 h.vibInc0 h.vibInc1
  have hi : (LFTri.tick v.vibrato).1.phaseIncrement = v.vibrato.phaseIncrement := rfl
  have hrr : (LFTri.tick v.vibrato).1.sampleRate = v.vibrato.sampleRate := rfl
  unfold voiceTick
  generalize LFTri.tick v.vibrato = t at t0 t1 tv hi hrr
  dsimp only
  have ed : (Libm.pow (lit 2) (v.detuneOffset / lit 12) : ℝ) = 2 ^ (v.detuneOffset / 12) := by
    show ((2:ℚ):ℝ) ^ (v.detuneOffset / ((12:ℚ):ℝ)) = _; push_cast; rfl
  have ev : (Libm.pow (lit 2) (t.2 * d / lit 12) : ℝ) = 2 ^ (t.2 * d / 12) := by
    show ((2:ℚ):ℝ) ^ (t.2 * d / ((12:ℚ):ℝ)) = _; push_cast; rfl
  rw [ed, ev]
  have hx : |t.2 * d| ≤ |d| := by rw [abs_mul]; nlinarith [abs_nonneg d]
  have hx1 := (abs_le.1 hx).1
  have hx2 := (abs_le.1 hx).2
  have two : (1:ℝ) ≤ 2 := by norm_num
  have v1 : (2:ℝ) ^ (t.2 * d / 12) ≤ 2 ^ (|d| / 12) := Real.rpow_le_rpow_of_exponent_le two (by linarith)
  have v2 : (2:ℝ) ^ (-(|d| / 12)) ≤ 2 ^ (t.2 * d / 12) := Real.rpow_le_rpow_of_exponent_le two (by linarith)
  have vd : (2:ℝ) ^ (|d| / 12) ≤ 2 := by
    have := Real.rpow_le_rpow_of_exponent_le two (show |d| / 12 ≤ 1 by linarith)
    rwa [Real.rpow_one] at this
  have vo : (2:ℝ) ^ (v.detuneOffset / 12) ≤ 2 := by
    have := Real.rpow_le_rpow_of_exponent_le two (show v.detuneOffset / 12 ≤ 1 by linarith [(abs_le.1 h.detune).2])
    rwa [Real.rpow_one] at this
  have p1 : (0:ℝ) < 2 ^ (t.2 * d / 12) := Real.rpow_pos_of_pos (by norm_num) _
  have p2 : (0:ℝ) < 2 ^ (v.detuneOffset / 12) := Real.rpow_pos_of_pos (by norm_num) _
  have p3 : (0:ℝ) < 2 ^ (-(|d| / 12)) := Real.rpow_pos_of_pos (by norm_num) _
  have p4 : (0:ℝ) < 2 ^ (|d| / 12) := Real.rpow_pos_of_pos (by norm_num) _
  have e6 : (2:ℝ) ^ (|d| / 6) * 2 ^ (-(|d| / 12)) = 2 ^ (|d| / 12) := by
    rw [← Real.rpow_add (by norm_num)]; congr 1; ring
  have p6 : (0:ℝ) < 2 ^ (|d| / 6) := Real.rpow_pos_of_pos (by norm_num) _
  generalize (2:ℝ) ^ (t.2 * d / 12) = V at *
  have hgen : Left sr F d v ↔ |SawDPW.parabola v.saw.phase - v.saw.prevParabolic| ≤
      4 * (F * 2 ^ (|d| / 12) * 2 ^ (v.detuneOffset / 12) / sr) := Iff.rfl
  rw [hgen]
  have hgen2 : ∀ saw : SawDPW.Osc ℝ, Left sr F d { v with vibrato := t.1, saw := saw } ↔
      |SawDPW.parabola saw.phase - saw.prevParabolic| ≤ 4 * (F * 2 ^ (|d| / 12) * 2 ^ (v.detuneOffset / 12) / sr) := fun _ => Iff.rfl
  rw [hgen2]
  generalize (2:ℝ) ^ (v.detuneOffset / 12) = O at *
  generalize (2:ℝ) ^ (|d| / 12) = D at *
  generalize (2:ℝ) ^ (|d| / 6) = E at *
  generalize (2:ℝ) ^ (-(|d| / 12)) = M at *
  have hs : 0 < sr := by linarith
  have hFV : F * V ≤ sr / 2 := by nlinarith
  have hFVO : F * V * O ≤ sr := by nlinarith [mul_pos hF0 p1]
  have hpos : 0 < F * V * O := mul_pos (mul_pos hF0 p1) p2
  obtain ⟨a, b, c⟩ := SawDPW.tick_left v.saw (F * V * O) hpos (by rw [h.sawRate]; exact hFVO) h.phase0 h.phase1
  refine ⟨⟨h.sawRate, h.scale, a, b, hrr.trans h.vibRate, hi ▸ h.vibInc0, hi ▸ h.vibInc1, t0, t1, h.detune⟩, ?_, ?_⟩
  · refine c.trans ?_
    rw [h.sawRate]
    gcongr
  · intro hl
    rw [SawDPW.tick_out, h.scale, abs_mul, abs_of_pos (div_pos (by linarith) hpos : 0 < sr / 2 / (F * V * O))]
    calc _ ≤ 4 * (F * D * O / sr) * (sr / 2 / (F * V * O)) := mul_le_mul_of_nonneg_right hl (div_pos (by linarith) hpos).le
      _ = 2 * (D / V) := by field_simp; ring
      _ ≤ 2 * E := by
        have : D / V ≤ E := by
          rw [div_le_iff₀ p1, ← e6]
          exact mul_le_mul_of_nonneg_left v2 p6.le
        linarith

theorem mixR {sr F d x : ℝ} (hF0 : 0 < F) (hF1 : F ≤ sr / 4) (hd : |d| ≤ 12) :
    ∀ (vs : List (Voice ℝ)) (acc : ℕ × Stereo ℝ), (∀ v ∈ vs, VInvR sr v) →
      let r := forEach (mixStep F d x) acc vs
      r.2.length = vs.length ∧ (∀ v ∈ r.2, VInvR sr v ∧ Left sr F d v) ∧
      ((∀ v ∈ vs, Left sr F d v) → |r.1.2.left| ≤ |acc.2.left| + vs.length * (2 * 2 ^ (|d| / 6)) ∧
        |r.1.2.right| ≤ |acc.2.right| + vs.length * (2 * 2 ^ (|d| / 6))) := by
  intro vs
  induction vs with
  | nil => intro acc _; simp [forEach]
  | cons v vs ih =>
    intro acc hv
    obtain ⟨h1, h2, h3⟩ := voiceTickR hF0 hF1 hd (hv v List.mem_cons_self)
    obtain ⟨r1, r2, r3⟩ := ih (mixStep F d x acc v).1 (fun w hw => hv w (List.mem_cons_of_mem _ hw))
    refine ⟨by simp [forEach, r1], ?_, ?_⟩
    · intro w hw
      simp only [forEach, List.mem_cons] at hw
      rcases hw with rfl | hw
      · exact ⟨h1, h2⟩
      · exact r2 w hw
    · intro hl
      obtain ⟨b1, b2⟩ := r3 fun w hw => hl w (List.mem_cons_of_mem _ hw)
      have hb := h3 (hl v List.mem_cons_self)
      have one : ∀ m g : ℝ, |g| ≤ 1 → |m + (voiceTick F d v).2 * g| ≤ |m| + 2 * 2 ^ (|d| / 6) := by
        intro m g hg
        refine (abs_add_le _ _).trans ?_
        rw [abs_mul]
        nlinarith [abs_nonneg (voiceTick F d v).2, abs_nonneg g]
      have c1 := one acc.2.left (Real.cos ((clamp (panOf acc.1 x) (-lit 1) (lit 1) + lit 1) * lit 0.78539816339)) (Real.abs_cos_le_one _)
      have c2 := one acc.2.right (Real.sin ((clamp (panOf acc.1 x) (-lit 1) (lit 1) + lit 1) * lit 0.78539816339)) (Real.abs_sin_le_one _)
      simp only [List.length_cons]
      push_cast
      exact ⟨b1.trans (by linarith [show |(mixStep F d x acc v).1.2.left| ≤ _ from c1]),
        b2.trans (by linarith [show |(mixStep F d x acc v).1.2.right| ≤ _ from c2])⟩

theorem inv_tickR {sr : ℝ} {s : Synth ℝ} (h : InvR sr s) :
    InvR sr (tick s).1 ∧ (∀ v ∈ (tick s).1.voices, Left sr s.frequency s.vibrDepth v) ∧
    ((∀ v ∈ s.voices, Left sr s.frequency s.vibrDepth v) →
      |(tick s).2.left| ≤ 2 * Real.sqrt 7 * 2 ^ (|s.vibrDepth| / 6) * |(EnvelopeADSR.tick s.envelope).2| ∧
      |(tick s).2.right| ≤ 2 * Real.sqrt 7 * 2 ^ (|s.vibrDepth| / 6) * |(EnvelopeADSR.tick s.envelope).2|) := by
  obtain ⟨m1, m2, m3⟩ := mixR (x := s.spread) h.freq0 h.freq1 h.depth s.voices (0, Stereo.zero) h.voices
  refine ⟨⟨fun v hv => (m2 v hv).1, m1.trans h.count, h.freq0, h.freq1, h.depth⟩, fun v hv => (m2 v hv).2, fun hl => ?_⟩
  obtain ⟨b1, b2⟩ := m3 hl
  have z1 : (Stereo.zero : Stereo ℝ).left = 0 := by simp only [Stereo.zero, real_arith]; norm_num
  have z2 : (Stereo.zero : Stereo ℝ).right = 0 := by simp only [Stereo.zero, real_arith]; norm_num
  rw [h.count] at b1 b2
  simp only [z1, z2, abs_zero, zero_add] at b1 b2
  push_cast at b1 b2
  have hn : (lit 1 / Libm.sqrt (Arith.ofNat NUM_VOICES) : ℝ) = 1 / Real.sqrt 7 := by
    simp only [NUM_VOICES, real_arith]; push_cast; rfl
  have p7 : 0 < Real.sqrt 7 := Real.sqrt_pos.2 (by norm_num)
  have s7 : Real.sqrt 7 * Real.sqrt 7 = 7 := Real.mul_self_sqrt (by norm_num)
  have out : ∀ x e : ℝ, |x| ≤ 7 * (2 * 2 ^ (|s.vibrDepth| / 6)) →
      |x * (1 / Real.sqrt 7) * e| ≤ 2 * Real.sqrt 7 * 2 ^ (|s.vibrDepth| / 6) * |e| := by
    intro x e hx
    rw [abs_mul, abs_mul, abs_of_pos (by positivity : 0 < 1 / Real.sqrt 7)]
    refine mul_le_mul_of_nonneg_right ?_ (abs_nonneg e)
    rw [mul_one_div, div_le_iff₀ p7]
    calc |x| ≤ 7 * (2 * 2 ^ (|s.vibrDepth| / 6)) := hx
      _ = 2 * Real.sqrt 7 * 2 ^ (|s.vibrDepth| / 6) * Real.sqrt 7 := by linear_combination (-2 * (2:ℝ) ^ (|s.vibrDepth| / 6)) * s7
  constructor
  · show |_ * (lit 1 / Libm.sqrt (Arith.ofNat NUM_VOICES) : ℝ) * _| ≤ _
    rw [hn]; exact out _ _ b1
  · show |_ * (lit 1 / Libm.sqrt (Arith.ofNat NUM_VOICES) : ℝ) * _| ≤ _
    rw [hn]; exact out _ _ b2

theorem inv_stepR {sr : ℝ} (hsr : 0 < sr) {s : Synth ℝ} (h : InvR sr s) (op : Op ℝ) (ho : op.LegalR sr) : InvR sr (step s op).1 := by
  cases op with
  | setFrequency f => exact ⟨h.voices, h.count, ho.1, ho.2, h.depth⟩
  | setVibratoRate r =>
    refine ⟨?_, by simpa [step, setVibratoRate] using h.count, h.freq0, h.freq1, h.depth⟩
    intro v hv
    obtain ⟨w, hw, rfl⟩ := List.mem_map.1 hv
    have i := h.voices w hw
    have e : (LFTri.setFrequency r w.vibrato).phaseIncrement = r / sr := by
      show r / w.vibrato.sampleRate = _; rw [i.vibRate]
    exact ⟨i.sawRate, i.scale, i.phase0, i.phase1, i.vibRate, by rw [e]; exact div_nonneg ho.1 hsr.le,
      by rw [e, div_le_one hsr]; exact ho.2, i.vib0, i.vib1, i.detune⟩
  | setVibratoDepth d => exact ⟨h.voices, h.count, h.freq0, h.freq1, ho⟩
  | setDetune d =>
    refine ⟨?_, by simpa [step, setDetune] using h.count, h.freq0, h.freq1, h.depth⟩
    intro v hv
    obtain ⟨i, hi, rfl⟩ := List.mem_mapIdx.1 hv
    have j := h.voices _ (List.getElem_mem hi)
    exact ⟨j.sawRate, j.scale, j.phase0, j.phase1, j.vibRate, j.vibInc0, j.vibInc1, j.vib0, j.vib1,
      detuneR (by rw [← h.count]; exact hi) ho⟩
  | tick => exact (inv_tickR h).1
  | process buf =>
    exact (forEach_inv (I := InvR sr) (step := fun s (_ : Stereo ℝ) => tick s) (P := fun _ _ => True)
      (fun s b hs => ⟨(inv_tickR hs).1, trivial⟩) h buf).1
  | reset =>
    refine ⟨?_, by simpa [step, reset] using h.count, h.freq0, h.freq1, h.depth⟩
    intro v hv
    obtain ⟨w, hw, rfl⟩ := List.mem_map.1 hv
    have i := h.voices w hw
    have z : (lit 0 : ℝ) = 0 := by simp only [real_arith]; norm_num
    have z0 : (SawDPW.reset w.saw).phase = 0 := z
    exact ⟨i.sawRate, i.scale, by rw [z0], by rw [z0]; exact zero_le_one, i.vibRate, i.vibInc0, i.vibInc1, i.vib0, i.vib1, i.detune⟩
  | _ => exact ⟨h.voices, h.count, h.freq0, h.freq1, h.depth⟩

theorem inv_runR {sr : ℝ} (hsr : 0 < sr) {s : Synth ℝ} (h : InvR sr s) (ops : List (Op ℝ)) (ho : ∀ op ∈ ops, op.LegalR sr) :
    InvR sr (run s ops) := by
  induction ops generalizing s with
  | nil => exact h
  | cons op ops ih => exact ih (inv_stepR hsr h op (ho _ (by simp))) (fun o hm => ho o (by simp [hm]))

/-- **C43** (exact arithmetic): after any history of calls and any random phases, from the second sample on – the first may click, as
each saw starts or was retuned – both channels are at most `2 √7` times the vibrato ratio squared times the envelope. -/
theorem C43_bounded (sr : ℝ) (hsr : 1600 ≤ sr) (rand : ℕ → ℝ) (ops : List (Op ℝ)) (ho : ∀ op ∈ ops, op.LegalR sr) (n : ℕ) :
    let s := run (init sr rand) ops
    let bound := 2 * Real.sqrt 7 * 2 ^ (|s.vibrDepth| / 6) * |tickOut EnvelopeADSR.tick (n + 1) s.envelope|
    |(tickOut tick (n + 1) s).left| ≤ bound ∧ |(tickOut tick (n + 1) s).right| ≤ bound := by
  intro s bound
  have h := inv_runR (by linarith) (inv_initR hsr rand) ops ho
  have key : ∀ n, InvR sr (tickState tick n s) ∧ (tickState tick n s).frequency = s.frequency ∧
      (tickState tick n s).vibrDepth = s.vibrDepth ∧ (tickState tick n s).envelope = tickState EnvelopeADSR.tick n s.envelope := by
    intro n
    induction n with
    | zero => exact ⟨h, rfl, rfl, rfl⟩
    | succ n ih =>
      rw [tickState_succ, tickState_succ]
      obtain ⟨a, b, c, d⟩ := ih
      exact ⟨(inv_tickR a).1, b, c, by rw [← d]; rfl⟩
  obtain ⟨a, b, c, d⟩ := key (n + 1)
  obtain ⟨a', b', c', d'⟩ := key n
  have hl := (inv_tickR a').2.1
  rw [← tickState_succ, b', c'] at hl
  have := (inv_tickR a).2.2 (by rw [b, c]; exact hl)
  rw [c, d] at this
  exact this

example : ∀ op ∈ [Op.setFrequency 12000, .setVibratoDepth (-12), .setDetune 24, .gate 1, .tick, .setSpread 7, .reset, .setVibratoRate 48000],
    op.LegalR 48000 := by
  simp only [List.forall_mem_cons, List.not_mem_nil, false_imp_iff, implies_true, and_true, Op.LegalR]
  norm_num

end Verif.SuperSaw
