import Verif.Model.SuperSaw
import Verif.Float.PowSpec
import Verif.Props.ExampleVoice
import Verif.Props.CombC
import Mathlib.Tactic.IntervalCases

/-!
# Property C43: SuperSaw
-/

set_option linter.unusedSectionVars false

namespace Verif.SuperSaw
open FP
open ExampleVoice (mul_unit_in rep_half)

section generic
variable {α : Type} [Arith α] [Libm α]

/-- **C43**, blocks: in any arithmetic `process` writes what successive ticks return, whatever the buffers held, and a block may be
split anywhere. -/
theorem C43_blocks (s : Synth α) (xs ys : List (Stereo α)) :
    process s xs = ticks tick xs.length s ∧
    process s (xs ++ ys) = ((process (process s xs).1 ys).1, (process s xs).2 ++ (process (process s xs).1 ys).2) :=
  ⟨forEach_eq_ticks tick s xs, forEach_append _ s xs ys⟩

end generic

/-! ### Single precision -/

/-- Arguments a user may pass at sample rate `sr`: pitches from 1 Hz to a quarter of the sample rate, a vibrato of at most an octave,
a detune of at most two octaves, vibrato rates up to the sample rate. Spread and sustain are any numbers, envelope times and gates
anything. -/
def Op.Legal (sr : F32) : Op F32 → Prop
  | .setFrequency f => f.In 1 (sr.val / 4)
  | .setVibratoRate r => r.In 0 sr.val
  | .setVibratoDepth d => d.In (-12) 12
  | .setDetune d => d.In (-24) 24
  | .setSpread x => x ≠ nan
  | .setSustain l => l ≠ nan
  | _ => True

variable [Libm F32] [LibmSpec] [PowSpec]

/-- Voice invariant. -/
structure VInv (sr : F32) (v : Voice F32) : Prop where
  sawRate : v.saw.sampleRate = sr
  scale : v.saw.scaleFactor.In 0 (2 ^ 99)
  phase : v.saw.phase.In 0 1
  prev : v.saw.prevParabolic.In 0 1
  vibRate : v.vibrato.sampleRate = sr
  vibInc : v.vibrato.phaseIncrement.In 0 1
  vibPhase : v.vibrato.phase.In 0 1
  detune : v.detuneOffset.In (-12) 12

/-- State invariant. -/
structure Inv (sr : F32) (s : Synth F32) : Prop where
  voices : ∀ v ∈ s.voices, VInv sr v
  count : s.voices.length = 7
  env : EnvelopeADSR.Inv s.envelope
  freq : s.frequency.In 1 (sr.val / 4)
  depth : s.vibrDepth.In (-12) 12
  spread : s.spread.In 0 1

theorem detune_in {i : ℕ} (hi : i < 7) {d : F32} (hd : d.In (-24) 24) : (detuneOf i d).In (-12) 12 := by
  have h5 : (Arith.ofNat i / Arith.ofNat (NUM_VOICES - 1) - lit 0.5 : F32).In (-0.5) 0.5 := by
    interval_cases i <;> decide +kernel
  have hb : |(Arith.ofNat i / Arith.ofNat (NUM_VOICES - 1) - lit 0.5 : F32).val * d.val| ≤ 12 := by
    rw [abs_mul]
    have h1 := abs_le.2 ⟨h5.2.1, h5.2.2⟩
    have h2 : |d.val| ≤ 24 := abs_le.2 ⟨hd.2.1, hd.2.2⟩
    nlinarith [abs_nonneg d.val, abs_nonneg (Arith.ofNat i / Arith.ofNat (NUM_VOICES - 1) - lit 0.5 : F32).val]
  obtain ⟨b1, b2⟩ := abs_le.1 hb
  exact mul_in h5.1 hd.1 (by decide +kernel) (by decide +kernel) b1 b2

theorem saw_init_phase {r : F32} (hr : r.In 0 1) :
    ((r * lit 2 - lit 1 + lit 1) * lit 0.5 : F32).In 0 1 := by
  have h2 : (lit 2 : F32).In 2 2 := lit_rep (by decide +kernel)
  have hh : (lit 0.5 : F32).In 0.5 0.5 := lit_rep (by decide +kernel)
  have r2 : binary32.Rep 2 false := by decide +kernel
  have a : (r * lit 2).In 0 2 := mul_in hr.1 h2.1 rep_zero r2 (by rw [h2.val_eq]; linarith [hr.2.1]) (by rw [h2.val_eq]; linarith [hr.2.2])
  have b : (r * lit 2 - lit 1).In (-1) 1 := sub_in a lit_one (Rep.neg rep_one) rep_one (by norm_num) (by norm_num)
  have c : (r * lit 2 - lit 1 + lit 1).In 0 2 := add_in b lit_one rep_zero r2 (by norm_num) (by norm_num)
  exact mul_in c.1 hh.1 rep_zero rep_one (by rw [hh.val_eq]; linarith [c.2.1]) (by rw [hh.val_eq]; linarith [c.2.2])

theorem scaleFactor_in {sr : F32} (hsr : sr.In 1760 (2 ^ 100)) : (sr * lit 0.5 : F32).In 0 (2 ^ 99) := by
  have hh : (lit 0.5 : F32).In 0.5 0.5 := lit_rep (by decide +kernel)
  refine mul_in hsr.1 hh.1 rep_zero (rep_two_pow (by norm_num)) ?_ ?_ <;> rw [hh.val_eq]
  · linarith [hsr.2.1]
  · have := hsr.2.2; rw [show (2:ℚ) ^ 100 = 2 ^ 99 * 2 by norm_num] at this; linarith

theorem inv_init {sr : F32} (hsr : sr.In 1760 (2 ^ 100)) {rand : ℕ → F32} (hr : ∀ k, (rand k).In 0 1) : Inv sr (init sr rand) := by
  have hs0 : 0 < sr.val := by linarith [hsr.2.1]
  have hpos : sr.Pos := Or.inr ⟨hsr.1, hs0⟩
  have h4 : (lit 4 : F32).In 4 4 := lit_rep (by decide +kernel)
  refine ⟨?_, rfl, ?_, ?_, by show (lit 0.3 : F32).In (-12) 12; decide +kernel, by show (lit 0.6 : F32).In 0 1; decide +kernel⟩
  · intro v hv
    obtain ⟨i, hi, rfl⟩ := List.mem_map.1 hv
    have hi7 : i < 7 := List.mem_range.1 hi
    have hph := saw_init_phase (hr (2 * i + 1))
    refine ⟨rfl, scaleFactor_in hsr, ?_, lit_zero.mono le_rfl zero_le_one, rfl, ?_, ?_,
      detune_in hi7 (by decide +kernel)⟩
    · show (if (if _ <. lit 0 then lit 0 else _) >. lit 1 then lit 1 else (if _ <. lit 0 then lit 0 else _) : F32).In 0 1
      split_ifs
      · exact lit_one.mono zero_le_one le_rfl
      · exact lit_zero.mono le_rfl zero_le_one
      · exact lit_one.mono zero_le_one le_rfl
      · exact hph
    · have h6 : (lit 6 : F32).In 6 6 := lit_rep (by decide +kernel)
      exact LFTri.inc_in (sr := sr) hsr.1 hs0 (h6.mono (by norm_num) (by linarith [hsr.2.1]))
    · have : (rand (2 * i) * lit 4 : F32).isFin = true :=
        (mul_in (hr (2 * i)).1 h4.1 rep_zero (rep_two_pow (k := 2) (by norm_num))
          (by rw [h4.val_eq]; linarith [(hr (2 * i)).2.1]) (by rw [h4.val_eq]; linarith [(hr (2 * i)).2.2])).1
      exact LFTri.init_phase this
  · exact EnvelopeADSR.inv_run (EnvelopeADSR.inv_init hpos)
      [.setAttack (lit 0.01), .setDecay (lit 0.1), .setSustain (lit 0.7), .setRelease (lit 0.3)] (by
        intro op ho
        simp only [List.mem_cons, List.not_mem_nil, or_false] at ho
        rcases ho with rfl | rfl | rfl | rfl
        · trivial
        · trivial
        · show (lit 0.7 : F32) ≠ nan; decide +kernel
        · trivial)
  · have h : (lit 400 : F32).In 400 400 := lit_rep (by decide +kernel)
    exact h.mono (by norm_num) (by linarith [hsr.2.1])

theorem twelfth_in {x : F32} (h : x.In (-12) 12) : (x / lit 12 : F32).In (-1) 1 := by
  have h12 : (lit 12 : F32).In 12 12 := lit_rep (by decide +kernel)
  have e := h12.val_eq
  refine div_in h.1 h12.1 (by rw [e]; norm_num) (Rep.neg rep_one) rep_one ?_ ?_ <;> rw [e]
  · rw [le_div_iff₀ (by norm_num)]; linarith [h.2.1]
  · rw [div_le_one (by norm_num)]; exact h.2.2

theorem voiceFreq_in {sr f a b : F32} (hsr : sr.In 1760 (2 ^ 100)) (hf : f.In 1 (sr.val / 4)) (ha : a.In (1 / 2) 2)
    (hb : b.In (1 / 2) 2) : (f * a * b).In (1 / 4) sr.val := by
  have h1 : (f * a).In (1 / 2) (sr.val / 2) := mul_in hf.1 ha.1 (by decide +kernel) (rep_half (by linarith [hsr.2.1]))
    (by nlinarith [hf.2.1, ha.2.1]) (by nlinarith [hf.2.1, hf.2.2, ha.2.1, ha.2.2])
  exact mul_in h1.1 hb.1 (by decide +kernel) (rep_val sr)
    (by nlinarith [h1.2.1, hb.2.1]) (by nlinarith [h1.2.1, h1.2.2, hb.2.1, hb.2.2])

theorem saw_tick_in {sr f : F32} (hsr : sr.In 1760 (2 ^ 100)) {v : Voice F32} (h : VInv sr v) (hf : f.In (1 / 4) sr.val) :
    let r := SawDPW.tick (SawDPW.setFrequency f v.saw)
    r.1.phase.In 0 1 ∧ r.1.prevParabolic.In 0 1 ∧ r.1.scaleFactor.In 0 (2 ^ 99) ∧ r.1.sampleRate = sr ∧ r.2.In (-(2 ^ 101)) (2 ^ 101) := by
  have hs0 : 0 < sr.val := by linarith [hsr.2.1]
  have h2 : (lit 2 : F32).In 2 2 := lit_rep (by decide +kernel)
  have r2 : binary32.Rep 2 false := by decide +kernel
  have hm : (v.saw.phase * lit 2).In 0 2 := mul_in h.phase.1 h2.1 rep_zero r2 (by rw [h2.val_eq]; linarith [h.phase.2.1])
    (by rw [h2.val_eq]; linarith [h.phase.2.2])
  have hsaw : (v.saw.phase * lit 2 - lit 1).In (-1) 1 := sub_in hm lit_one (Rep.neg rep_one) rep_one (by norm_num) (by norm_num)
  have hpar : ((v.saw.phase * lit 2 - lit 1) * (v.saw.phase * lit 2 - lit 1)).In 0 1 :=
    mul_in hsaw.1 hsaw.1 rep_zero rep_one (mul_self_nonneg _) (by nlinarith [hsaw.2.1, hsaw.2.2])
  have hdiff : ((v.saw.phase * lit 2 - lit 1) * (v.saw.phase * lit 2 - lit 1) - v.saw.prevParabolic).In (-1) 1 :=
    sub_in hpar h.prev (Rep.neg rep_one) rep_one (by norm_num) (by norm_num)
  have hscale : (v.saw.scaleFactor / f).In 0 (2 ^ 101) := by
    have hf0 : 0 < f.val := by linarith [hf.2.1]
    refine div_in h.scale.1 hf.1 hf0.ne' rep_zero (rep_two_pow (by norm_num)) (div_nonneg h.scale.2.1 hf0.le) ?_
    rw [div_le_iff₀ hf0]
    have a := h.scale.2.2
    have b := hf.2.1
    rw [show (2:ℚ) ^ 101 = 2 ^ 99 * 4 by norm_num]
    have : (0:ℚ) < 2 ^ 99 := by positivity
    nlinarith
  have hinc : (f / v.saw.sampleRate).In 0 1 := by
    rw [h.sawRate]; exact LFTri.inc_in hsr.1 hs0 (hf.mono (by norm_num) le_rfl)
  refine ⟨LFTri.phase_step h.phase hinc, hpar, h.scale, h.sawRate, ?_⟩
  have := (mul_unit_in hdiff hscale.1).1
  rw [abs_of_nonneg hscale.2.1] at this
  exact this.mono (by linarith [hscale.2.2]) hscale.2.2

theorem voiceTick_in {sr f d : F32} (hsr : sr.In 1760 (2 ^ 100)) (hf : f.In 1 (sr.val / 4)) (hd : d.In (-12) 12) {v : Voice F32}
    (h : VInv sr v) : VInv sr (voiceTick f d v).1 ∧ (voiceTick f d v).2.In (-(2 ^ 101)) (2 ^ 101) := by
  have hv : (LFTri.tick v.vibrato).2.In (-1) 1 := LFTri.shape_in h.vibPhase
  have hp : (LFTri.tick v.vibrato).1.phase.In 0 1 := LFTri.phase_step h.vibPhase h.vibInc
  have hi : (LFTri.tick v.vibrato).1.phaseIncrement.In 0 1 := h.vibInc
  have hrr : (LFTri.tick v.vibrato).1.sampleRate = sr := h.vibRate
  unfold voiceTick
  generalize LFTri.tick v.vibrato = t at hv hp hi hrr
  dsimp only
  have hvd : (t.2 * d).In (-12) 12 := by
    have := (mul_unit_in hv hd.1).1
    have hb : |d.val| ≤ 12 := abs_le.2 ⟨hd.2.1, hd.2.2⟩
    exact this.mono (by linarith) hb
  have hfreq := voiceFreq_in hsr hf (PowSpec.pow_two _ (twelfth_in hvd)) (PowSpec.pow_two _ (twelfth_in h.detune))
  obtain ⟨a, b, c, e, o⟩ := saw_tick_in hsr h hfreq
  exact ⟨⟨e, c, a, b, hrr, hi, hp, h.detune⟩, o⟩

theorem rep_sum {i : ℕ} (hi : i ≤ 7) : binary32.Rep (i * 2 ^ 101) false := by
  interval_cases i <;> decide +kernel

theorem panOf_num {i : ℕ} {x : F32} (hx : x.In 0 1) : panOf i x ≠ nan := by
  have h : (Arith.ofNat (i % 2) * lit 2 - lit 1 : F32).In (-1) 1 := by
    have : i % 2 < 2 := Nat.mod_lt _ (by norm_num)
    generalize i % 2 = j at this
    interval_cases j <;> decide +kernel
  have := (mul_unit_in h hx.1).1
  intro e
  unfold panOf at e
  rw [e] at this
  exact absurd this.1 (by simp)

theorem mix_in {sr f d x : F32} (hsr : sr.In 1760 (2 ^ 100)) (hf : f.In 1 (sr.val / 4)) (hd : d.In (-12) 12) (hx : x.In 0 1) :
    ∀ (vs : List (Voice F32)) (acc : ℕ × Stereo F32), acc.1 + vs.length ≤ 7 → (∀ v ∈ vs, VInv sr v) →
      acc.2.left.In (-(acc.1 * 2 ^ 101)) (acc.1 * 2 ^ 101) → acc.2.right.In (-(acc.1 * 2 ^ 101)) (acc.1 * 2 ^ 101) →
      let r := forEach (mixStep f d x) acc vs
      r.2.length = vs.length ∧ (∀ v ∈ r.2, VInv sr v) ∧ r.1.2.left.In (-(7 * 2 ^ 101)) (7 * 2 ^ 101) ∧
        r.1.2.right.In (-(7 * 2 ^ 101)) (7 * 2 ^ 101) := by
  intro vs
  induction vs with
  | nil =>
    intro acc hl _ h1 h2
    have h7 : (acc.1 : ℚ) * 2 ^ 101 ≤ 7 * 2 ^ 101 := by
      have : (acc.1 : ℚ) ≤ 7 := by exact_mod_cast (by simpa using hl : acc.1 ≤ 7)
      have h0 : (0:ℚ) ≤ 2 ^ 101 := by positivity
      exact mul_le_mul_of_nonneg_right this h0
    exact ⟨rfl, by simp [forEach], h1.mono (neg_le_neg h7) h7, h2.mono (neg_le_neg h7) h7⟩
  | cons v vs ih =>
    intro acc hl hv h1 h2
    simp only [List.length_cons] at hl
    obtain ⟨hv1, hv2⟩ := voiceTick_in hsr hf hd (hv v List.mem_cons_self)
    have hang := pan_angle_float (panOf_num (i := acc.1) hx)
    have hc := LibmSpec.cos_range _ hang.1
    have hs := LibmSpec.sin_range _ hang.1
    have hb : |(voiceTick f d v).2.val| ≤ 2 ^ 101 := abs_le.2 ⟨hv2.2.1, hv2.2.2⟩
    have sum : ∀ m g : F32, m.In (-(acc.1 * 2 ^ 101)) (acc.1 * 2 ^ 101) → g.In (-1) 1 →
        (m + (voiceTick f d v).2 * g).In (-((acc.1 + 1 : ℕ) * 2 ^ 101)) ((acc.1 + 1 : ℕ) * 2 ^ 101) := by
      intro m g hm hg
      have hp := ((mul_unit_in hg hv2.1).2).mono (a' := -2 ^ 101) (b' := 2 ^ 101) (by linarith) hb
      have hr := rep_sum (i := acc.1 + 1) (by omega)
      refine add_in hm hp (Rep.neg hr) hr ?_ ?_ <;> push_cast <;> linarith
    obtain ⟨r1, r2, r3, r4⟩ := ih (mixStep f d x acc v).1 (by show acc.1 + 1 + vs.length ≤ 7; omega)
      (fun w hw => hv w (List.mem_cons_of_mem _ hw)) (sum _ _ h1 hc) (sum _ _ h2 hs)
    refine ⟨by simp [forEach, r1], ?_, r3, r4⟩
    intro w hw
    simp only [forEach, List.mem_cons] at hw
    rcases hw with rfl | hw
    · exact hv1
    · exact r2 w hw

theorem norm_in : (lit 1 / Libm.sqrt (Arith.ofNat NUM_VOICES) : F32).In 0.25 0.5 := by
  have h7 : (Arith.ofNat NUM_VOICES : F32).In 4 16 := by decide +kernel
  have hs := PowSpec.sqrt_in _ h7
  have h1 := lit_one (f := binary32)
  have h0 : 0 < (Libm.sqrt (Arith.ofNat NUM_VOICES) : F32).val := by linarith [hs.2.1]
  refine div_in h1.1 hs.1 h0.ne' (by decide +kernel) (by decide +kernel) ?_ ?_ <;> rw [h1.val_eq]
  · rw [le_div_iff₀ h0]; linarith [hs.2.2]
  · rw [div_le_iff₀ h0]; linarith [hs.2.1]

theorem inv_tick {sr : F32} (hsr : sr.In 1760 (2 ^ 100)) {s : Synth F32} (h : Inv sr s) :
    Inv sr (tick s).1 ∧ (tick s).2.left.isFin = true ∧ (tick s).2.right.isFin = true ∧
    (s.envelope.state = .idle → (tick s).2.left.In 0 0 ∧ (tick s).2.right.In 0 0) := by
  have he := EnvelopeADSR.inv_tick h.env
  have hidle : s.envelope.state = .idle → (EnvelopeADSR.tick s.envelope).2 = lit 0 := by
    intro hs; unfold EnvelopeADSR.tick; rw [hs]
  have z : (lit 0 : F32).In (-(((0:ℕ):ℚ) * 2 ^ 101)) (((0:ℕ):ℚ) * 2 ^ 101) := by simpa using lit_zero (f := binary32)
  have hm := mix_in hsr h.freq h.depth h.spread s.voices (0, Stereo.zero) (by simp [h.count]) h.voices z z
  unfold tick
  generalize EnvelopeADSR.tick s.envelope = e at he hidle
  generalize forEach (mixStep s.frequency s.vibrDepth s.spread) (0, Stereo.zero) s.voices = m at hm
  dsimp only at *
  obtain ⟨m1, m2, m3, m4⟩ := hm
  have hn := norm_in
  have hnu := hn.mono (a' := -1) (b' := 1) (by norm_num) (by norm_num)
  have heu := he.2.mono (a' := -1) (b' := 1) (by norm_num) (by norm_num)
  have out : ∀ x : F32, x.In (-(7 * 2 ^ 101)) (7 * 2 ^ 101) →
      (x * (lit 1 / Libm.sqrt (Arith.ofNat NUM_VOICES)) * e.2).isFin = true ∧
      (s.envelope.state = .idle → (x * (lit 1 / Libm.sqrt (Arith.ofNat NUM_VOICES)) * e.2).In 0 0) := by
    intro x hx
    have a := (mul_unit_in hnu hx.1).2
    refine ⟨(mul_unit_in heu a.1).2.1, fun hi => ?_⟩
    rw [hidle hi]
    have h0 := lit_zero (f := binary32)
    have ha := rep_val (x * (lit 1 / Libm.sqrt (Arith.ofNat NUM_VOICES)))
    refine mul_in a.1 h0.1 rep_zero rep_zero ?_ ?_ <;> rw [h0.val_eq] <;> simp
  refine ⟨⟨m2, m1.trans h.count, he.1, h.freq, h.depth, h.spread⟩, (out _ m3).1, (out _ m4).1,
    fun hi => ⟨(out _ m3).2 hi, (out _ m4).2 hi⟩⟩

theorem inv_step {sr : F32} (hsr : sr.In 1760 (2 ^ 100)) {s : Synth F32} (h : Inv sr s) (op : Op F32) (ho : op.Legal sr) :
    Inv sr (step s op).1 := by
  have hs0 : 0 < sr.val := by linarith [hsr.2.1]
  cases op with
  | setFrequency f => exact ⟨h.voices, h.count, h.env, ho, h.depth, h.spread⟩
  | setVibratoRate r =>
    refine ⟨?_, by simpa [step, setVibratoRate] using h.count, h.env, h.freq, h.depth, h.spread⟩
    intro v hv
    obtain ⟨w, hw, rfl⟩ := List.mem_map.1 hv
    have i := h.voices w hw
    refine ⟨i.sawRate, i.scale, i.phase, i.prev, i.vibRate, ?_, i.vibPhase, i.detune⟩
    show (r / w.vibrato.sampleRate).In 0 1
    rw [i.vibRate]; exact LFTri.inc_in hsr.1 hs0 ho
  | setVibratoDepth d => exact ⟨h.voices, h.count, h.env, h.freq, ho, h.spread⟩
  | setDetune d =>
    refine ⟨?_, by simpa [step, setDetune] using h.count, h.env, h.freq, h.depth, h.spread⟩
    intro v hv
    obtain ⟨i, hi, rfl⟩ := List.mem_mapIdx.1 hv
    have j := h.voices _ (List.getElem_mem hi)
    exact ⟨j.sawRate, j.scale, j.phase, j.prev, j.vibRate, j.vibInc, j.vibPhase, detune_in (by rw [← h.count]; exact hi) ho⟩
  | setSpread x => exact ⟨h.voices, h.count, h.env, h.freq, h.depth, clamp01_in ho⟩
  | setAttack t => exact ⟨h.voices, h.count, EnvelopeADSR.inv_step h.env (.setAttack t) trivial, h.freq, h.depth, h.spread⟩
  | setDecay t => exact ⟨h.voices, h.count, EnvelopeADSR.inv_step h.env (.setDecay t) trivial, h.freq, h.depth, h.spread⟩
  | setSustain l => exact ⟨h.voices, h.count, EnvelopeADSR.inv_step h.env (.setSustain l) ho, h.freq, h.depth, h.spread⟩
  | setRelease t => exact ⟨h.voices, h.count, EnvelopeADSR.inv_step h.env (.setRelease t) trivial, h.freq, h.depth, h.spread⟩
  | gate g => exact ⟨h.voices, h.count, EnvelopeADSR.inv_step h.env (.gate g) trivial, h.freq, h.depth, h.spread⟩
  | tick => exact (inv_tick hsr h).1
  | process buf =>
    exact (forEach_inv (I := Inv sr) (step := fun s (_ : Stereo F32) => tick s) (P := fun _ _ => True)
      (fun s b hs => ⟨(inv_tick hsr hs).1, trivial⟩) h buf).1
  | reset =>
    refine ⟨?_, by simpa [step, reset] using h.count, EnvelopeADSR.inv_step h.env .reset trivial, h.freq, h.depth, h.spread⟩
    intro v hv
    obtain ⟨w, hw, rfl⟩ := List.mem_map.1 hv
    have i := h.voices w hw
    have z : (lit 0 : F32).In 0 1 := lit_zero.mono le_rfl zero_le_one
    exact ⟨i.sawRate, i.scale, z, z, i.vibRate, i.vibInc, i.vibPhase, i.detune⟩

theorem inv_run {sr : F32} (hsr : sr.In 1760 (2 ^ 100)) {s : Synth F32} (h : Inv sr s) (ops : List (Op F32))
    (ho : ∀ op ∈ ops, op.Legal sr) : Inv sr (run s ops) := by
  induction ops generalizing s with
  | nil => exact h
  | cons op ops ih => exact ih (inv_step hsr h op (ho _ (by simp))) (fun o hm => ho o (by simp [hm]))

/-- Both channels are the number zero. -/
def Silent (x : Stereo F32) : Prop := x.left.In 0 0 ∧ x.right.In 0 0

/-- Both channels are numbers, neither NaN nor infinite. -/
def Finite (x : Stereo F32) : Prop := x.left.isFin = true ∧ x.right.isFin = true

/-- **C43** in single precision, rounding included: whatever numbers in `[0, 1]` the generator drew and whatever was called before, a
synth that is not active is exactly silent on both channels, for blocks of every length, and stays inactive. -/
theorem C43_idle_silent (sr : F32) (hsr : sr.In 1760 (2 ^ 100)) (rand : ℕ → F32) (hr : ∀ k, (rand k).In 0 1) (ops : List (Op F32))
    (ho : ∀ op ∈ ops, op.Legal sr) (hi : isActive (run (init sr rand) ops) = false) (buf : List (Stereo F32)) :
    (∀ x ∈ (process (run (init sr rand) ops) buf).2, Silent x) ∧ isActive (process (run (init sr rand) ops) buf).1 = false := by
  have h := inv_run hsr (inv_init hsr hr) ops ho
  generalize run (init sr rand) ops = s at h hi
  have hidle : s.envelope.state = .idle := by
    simpa [isActive, EnvelopeADSR.isActive] using hi
  have step1 : ∀ t : Synth F32, Inv sr t ∧ t.envelope.state = .idle →
      (Inv sr (tick t).1 ∧ (tick t).1.envelope.state = .idle) ∧ Silent (tick t).2 := by
    intro t ht
    have := inv_tick hsr ht.1
    refine ⟨⟨this.1, ?_⟩, this.2.2.2 ht.2⟩
    show (EnvelopeADSR.tick t.envelope).1.state = .idle
    unfold EnvelopeADSR.tick; rw [ht.2]
  have key := forEach_inv (I := fun t => Inv sr t ∧ t.envelope.state = .idle) (step := fun s (_ : Stereo F32) => tick s)
    (P := fun _ x => Silent x) (fun t b ht => step1 t ht) ⟨h, hidle⟩ buf
  refine ⟨forall₂_right key.2, ?_⟩
  show EnvelopeADSR.isActive _ = false
  unfold EnvelopeADSR.isActive
  rw [show (process s buf).1.envelope.state = .idle from key.1.2]
  rfl

/-- **C43** in single precision: after any history every frame, from `tick` or from a block of any length, consists of numbers. -/
theorem C43_finite (sr : F32) (hsr : sr.In 1760 (2 ^ 100)) (rand : ℕ → F32) (hr : ∀ k, (rand k).In 0 1) (ops : List (Op F32))
    (ho : ∀ op ∈ ops, op.Legal sr) (buf : List (Stereo F32)) :
    Finite (tick (run (init sr rand) ops)).2 ∧ ∀ x ∈ (process (run (init sr rand) ops) buf).2, Finite x := by
  have h := inv_run hsr (inv_init hsr hr) ops ho
  have t := inv_tick hsr h
  refine ⟨⟨t.2.1, t.2.2.1⟩, ?_⟩
  exact forall₂_right (forEach_inv (I := Inv sr) (step := fun s (_ : Stereo F32) => tick s) (P := fun _ x => Finite x)
    (fun t b ht => ⟨(inv_tick hsr ht).1, (inv_tick hsr ht).2.1, (inv_tick hsr ht).2.2.1⟩) h buf).2

/-- A `reset` leaves the synth inactive, whatever its state. -/
example (s : Synth F32) : isActive (step s .reset).1 = false := rfl

/-- A history that meets the hypotheses. -/
example : (lit 48000 : F32).In 1760 (2 ^ 100) ∧ (∀ k : ℕ, (lit 1 / Arith.ofNat (k % 8 + 1) : F32).In 0 1) ∧
    ∀ op ∈ [Op.setFrequency (lit 1), .setVibratoDepth (lit (-12)), .setDetune (lit 24), .setSpread (lit 9), .gate (lit 1), .tick,
      .setAttack (nan : F32), .setVibratoRate (lit 48000), .setFrequency (lit 12000), .gate nan, .tick, .reset], op.Legal (lit 48000) := by
  have hsr : (lit 48000 : F32).In 48000 48000 := lit_rep (by decide +kernel)
  refine ⟨hsr.mono (by norm_num) (by norm_num), ?_, ?_⟩
  · intro k
    have : k % 8 < 8 := Nat.mod_lt _ (by norm_num)
    generalize k % 8 = j at this
    interval_cases j <;> decide +kernel
  · simp only [List.forall_mem_cons, List.not_mem_nil, false_imp_iff, implies_true, and_true, Op.Legal, hsr.val_eq]
    refine ⟨?_, ?_, ?_, ?_, ?_, ?_⟩ <;> decide +kernel

/-! ### Frequency zero -/

/-- NaN or infinite. -/
def Bad (x : F32) : Prop := x.isFin = false

omit [Libm F32] [LibmSpec] [PowSpec] in
theorem Bad.mul {x : F32} (h : Bad x) (y : F32) : Bad (x * y) := by
  cases x with
  | nan => cases y <;> rfl
  | inf a =>
    cases y with
    | nan => rfl
    | inf b => rfl
    | fin v z hv => show isFin (if v = 0 then nan else inf _) = false; split_ifs <;> rfl
  | fin v z hv => exact absurd h (by simp [Bad, isFin])

omit [Libm F32] [LibmSpec] [PowSpec] in
theorem Bad.mul' {x : F32} (h : Bad x) (y : F32) : Bad (y * x) := by
  cases x with
  | nan => cases y <;> rfl
  | inf a =>
    cases y with
    | nan => rfl
    | inf b => rfl
    | fin v z hv => show isFin (if v = 0 then nan else inf _) = false; split_ifs <;> rfl
  | fin v z hv => exact absurd h (by simp [Bad, isFin])

omit [Libm F32] [LibmSpec] [PowSpec] in
theorem Bad.add {x : F32} (h : Bad x) (y : F32) : Bad (x + y) := by
  cases x with
  | nan => cases y <;> rfl
  | inf a =>
    cases y with
    | nan => rfl
    | inf b => show isFin (if a = b then inf a else nan) = false; split_ifs <;> rfl
    | fin v z hv => rfl
  | fin v z hv => exact absurd h (by simp [Bad, isFin])

omit [Libm F32] [LibmSpec] [PowSpec] in
theorem Bad.add' {x : F32} (h : Bad x) (y : F32) : Bad (y + x) := by
  cases x with
  | nan => cases y <;> rfl
  | inf a =>
    cases y with
    | nan => rfl
    | inf b => show isFin (if b = a then inf b else nan) = false; split_ifs <;> rfl
    | fin v z hv => rfl
  | fin v z hv => exact absurd h (by simp [Bad, isFin])

omit [Libm F32] [LibmSpec] [PowSpec] in
theorem Bad.mul_zero {x : F32} (h : Bad x) : x * lit 0 = nan := by
  cases x with
  | nan => rfl
  | inf a => cases a <;> decide +kernel
  | fin v z hv => exact absurd h (by simp [Bad, isFin])

omit [Libm F32] [LibmSpec] [PowSpec] in
/-- Zero times anything is zero or NaN. -/
theorem zero_mul_cases {x : F32} (hx : x = nan ∨ x.In 0 0) (y : F32) : x * y = nan ∨ (x * y).In 0 0 := by
  rcases hx with rfl | hx
  · left; cases y <;> rfl
  · cases y with
    | nan => left; cases x <;> rfl
    | inf b =>
      left
      obtain ⟨v, nz, hv, rfl⟩ := isFin_cases hx.1
      exact if_pos hx.val_eq
    | fin v z hv =>
      right
      refine mul_in hx.1 rfl rep_zero rep_zero ?_ ?_ <;> rw [hx.val_eq] <;> simp

omit [Libm F32] [LibmSpec] [PowSpec] in
theorem div_zero_bad {c f : F32} (hc : c.Pos) (hf : f = nan ∨ f.In 0 0) : Bad (c / f) := by
  rcases hf with rfl | hf
  · cases c <;> rfl
  · obtain ⟨v, nz, hv, rfl⟩ := isFin_cases hf.1
    have e : v = 0 := hf.val_eq
    rcases hc with rfl | ⟨h1, h2⟩
    · rfl
    · obtain ⟨w, nw, hw, rfl⟩ := isFin_cases h1
      show isFin (if v = 0 then if w = 0 then nan else inf _ else _) = false
      rw [if_pos e, if_neg (show ¬ w = 0 from ne_of_gt h2)]
      rfl

omit [LibmSpec] [PowSpec] in
theorem voiceTick_scale (f d : F32) (v : Voice F32) : (voiceTick f d v).1.saw.scaleFactor = v.saw.scaleFactor := rfl

omit [LibmSpec] [PowSpec] in
theorem voiceTick_bad {f d : F32} (hf : f.In 0 0) {v : Voice F32} (hv : v.saw.scaleFactor.Pos) : Bad (voiceTick f d v).2 := by
  unfold voiceTick
  exact (div_zero_bad hv (zero_mul_cases (zero_mul_cases (Or.inr hf) _) _)).mul' _

omit [LibmSpec] [PowSpec] in
theorem mix_bad {f d x : F32} (hf : f.In 0 0) : ∀ (vs : List (Voice F32)) (acc : ℕ × Stereo F32),
    (∀ v ∈ vs, v.saw.scaleFactor.Pos) → (vs ≠ [] ∨ (Bad acc.2.left ∧ Bad acc.2.right)) →
    Bad (forEach (mixStep f d x) acc vs).1.2.left ∧ Bad (forEach (mixStep f d x) acc vs).1.2.right := by
  intro vs
  induction vs with
  | nil => intro acc _ h; exact h.resolve_left (by simp)
  | cons v vs ih =>
    intro acc hv _
    have hb := voiceTick_bad (d := d) hf (hv v List.mem_cons_self)
    exact ih (mixStep f d x acc v).1 (fun w hw => hv w (List.mem_cons_of_mem _ hw))
      (Or.inr ⟨(hb.mul _).add' _, (hb.mul _).add' _⟩)

omit [LibmSpec] [PowSpec] in
theorem mix_scale (f d x : F32) (acc : ℕ × Stereo F32) (vs : List (Voice F32)) :
    (forEach (mixStep f d x) acc vs).2.map (fun v => v.saw.scaleFactor) = vs.map fun v => v.saw.scaleFactor := by
  induction vs generalizing acc with
  | nil => rfl
  | cons v vs ih => simp only [forEach, List.map_cons, ih]; rfl

omit [LibmSpec] [PowSpec] in
theorem step_scale (s : Synth F32) (op : Op F32) :
    (step s op).1.voices.map (fun v => v.saw.scaleFactor) = s.voices.map fun v => v.saw.scaleFactor := by
  cases op with
  | setVibratoRate r => simp [step, setVibratoRate, Function.comp_def, LFTri.setFrequency]
  | setDetune d =>
    simp only [step, setDetune]
    apply List.ext_getElem <;> simp
  | tick => exact mix_scale _ _ _ _ _
  | process buf =>
    exact (forEach_inv (I := fun t => t.voices.map (fun v => v.saw.scaleFactor) = s.voices.map fun v => v.saw.scaleFactor)
      (step := fun s (_ : Stereo F32) => tick s) (P := fun _ _ => True)
      (fun t b ht => ⟨(mix_scale _ _ _ _ _).trans ht, trivial⟩) rfl buf).1
  | reset => simp [step, reset, Function.comp_def, SawDPW.reset]
  | _ => rfl

omit [LibmSpec] [PowSpec] in
theorem run_scale (s : Synth F32) (ops : List (Op F32)) :
    (run s ops).voices.map (fun v => v.saw.scaleFactor) = s.voices.map fun v => v.saw.scaleFactor := by
  induction ops generalizing s with
  | nil => rfl
  | cons op ops ih => exact (ih _).trans (step_scale s op)

omit [LibmSpec] [PowSpec] in
/-- **C43, negative**: with the pitch set to 0 Hz the synth at 48 kHz is not silent when idle: after any calls at all both channels of
the next frame are NaN, because each saw divides by its frequency and the envelope's zero multiplies an infinity. While the envelope
runs the frame is infinite or NaN. Nothing is assumed about libm or the random phases. -/
theorem C43_zero_frequency_nan (rand : ℕ → F32) (ops : List (Op F32)) :
    let s := setFrequency (lit 0) (run (init (lit 48000) rand) ops)
    ¬ Finite (tick s).2 ∧ (isActive s = false → (tick s).2 = ⟨nan, nan⟩) := by
  intro s
  have hsc : s.voices.map (fun v => v.saw.scaleFactor) = List.replicate 7 (lit 48000 * lit 0.5) :=
    (run_scale (init (lit 48000) rand) ops).trans rfl
  have hpos : ∀ v ∈ s.voices, v.saw.scaleFactor.Pos := by
    intro v hv
    have : v.saw.scaleFactor ∈ s.voices.map fun v => v.saw.scaleFactor := List.mem_map_of_mem hv
    rw [hsc] at this
    rw [List.eq_of_mem_replicate this]
    have key : (lit 48000 * lit 0.5 : F32).Pos := by decide +kernel
    exact key
  have hne : s.voices ≠ [] := by
    intro e; rw [e] at hsc; exact absurd hsc (by simp)
  have hb := mix_bad (f := s.frequency) (d := s.vibrDepth) (x := s.spread) lit_zero s.voices (0, Stereo.zero) hpos (Or.inl hne)
  refine ⟨fun h => ?_, fun hi => ?_⟩
  · have := (hb.1.mul (lit 1 / Libm.sqrt (Arith.ofNat NUM_VOICES))).mul (EnvelopeADSR.tick s.envelope).2
    exact absurd h.1 (by rw [show (tick s).2.left.isFin = false from this]; simp)
  · have he : (EnvelopeADSR.tick s.envelope).2 = lit 0 := by
      have : s.envelope.state = .idle := by simpa [isActive, EnvelopeADSR.isActive] using hi
      unfold EnvelopeADSR.tick; rw [this]
    have h1 := (hb.1.mul (lit 1 / Libm.sqrt (Arith.ofNat NUM_VOICES))).mul_zero
    have h2 := (hb.2.mul (lit 1 / Libm.sqrt (Arith.ofNat NUM_VOICES))).mul_zero
    show (⟨_ * _ * (EnvelopeADSR.tick s.envelope).2, _ * _ * (EnvelopeADSR.tick s.envelope).2⟩ : Stereo F32) = _
    rw [he, h1, h2]

/-- A fresh synth is inactive, so both parts of the theorem apply to it. -/
example (rand : ℕ → F32) : isActive (setFrequency (lit 0) (run (init (lit 48000) rand) [])) = false := rfl

end Verif.SuperSaw
