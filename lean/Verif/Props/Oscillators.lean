import Verif.Model.Oscillators
import Verif.Lemmas.LinearBlocks
import Verif.Float.IntConv

/-!
# Properties C22, C23, C24: SinOsc, LFTri and SawDPW
-/

set_option linter.unusedSectionVars false

namespace Verif
open FP

/-! ## C22: SinOsc -/

namespace SinOsc

/-- Calls a user can make on an oscillator. -/
inductive Call (α : Type) where
  | setFrequency (f : α)
  | reset (phase : α)
  | tick

/-- Perform calls; collect state and outputs. -/
def run {α : Type} [Arith α] [Libm α] : Osc α → List (Call α) → Osc α × List α
  | s, [] => (s, [])
  | s, .setFrequency f :: cs => run (setFrequency f s) cs
  | s, .reset p :: cs => run (reset p s) cs
  | s, .tick :: cs => let r := tick s; let q := run r.1 cs; (q.1, r.2 :: q.2)

/-- Frequencies between 0 and half the sample rate, phases in `[0, 2π)`. -/
def InRange (sr : F32) : Call F32 → Prop
  | .setFrequency f => f.In 0 (sr.val / 2)
  | .reset p => p.isFin = true ∧ 0 ≤ p.val ∧ p.val < (TWO_PI : F32).val
  | .tick => True

theorem two_pi_in : (TWO_PI : F32).In 6.28 6.29 := by decide +kernel

theorem inc_in {sr f : F32} (hsr : sr.In 1 (2 ^ 100)) (hf : f.In 0 (sr.val / 2)) : ((TWO_PI * f) / sr : F32).In 0 4 := by
  have hT := two_pi_in
  have h8 : binary32.Rep (f.val * 2 ^ 3) false := by
    refine ⟨(grid_val f).scale 3, ?_, by simp⟩
    rw [abs_of_nonneg (mul_nonneg hf.2.1 (by norm_num))]
    refine lt_of_le_of_lt ?_ (two_pow_lt_max (k := 103) (by norm_num))
    have := hf.2.2; have := hsr.2.2
    norm_num at *; linarith
  have h1 : (TWO_PI * f : F32).In 0 (f.val * 2 ^ 3) :=
    mul_in hT.1 hf.1 rep_zero h8 (mul_nonneg (by linarith [hT.2.1]) hf.2.1) (by
      have h0 := hf.2.1
      have : (TWO_PI : F32).val ≤ 8 := by linarith [hT.2.2]
      calc _ ≤ 8 * f.val := mul_le_mul_of_nonneg_right this h0
        _ = _ := by ring)
  have hs0 : 0 < sr.val := by linarith [hsr.2.1]
  refine div_in h1.1 hsr.1 hs0.ne' rep_zero (by decide +kernel) (div_nonneg h1.2.1 hs0.le) ?_
  rw [div_le_iff₀ hs0]
  have := h1.2.2; have := hf.2.2
  norm_num at *; linarith

theorem phase_step {p i : F32} (hp : p.isFin = true) (hp0 : 0 ≤ p.val) (hp1 : p.val < (TWO_PI : F32).val) (hi : i.In 0 4) :
    let q := p + i
    let r := if q >=. TWO_PI then q - TWO_PI else q
    r.isFin = true ∧ 0 ≤ r.val ∧ r.val < (TWO_PI : F32).val := by
  intro q r
  have hT := two_pi_in
  have hq : q.In 0 10.5 := by
    have := hT.2.2
    exact add_in (⟨hp, hp0, hp1.le.trans this⟩ : p.In 0 6.29) hi rep_zero (by decide +kernel) (by norm_num) (by norm_num)
  by_cases h : (q >=. TWO_PI) = true
  · have hr : r = q - TWO_PI := if_pos h
    rw [hr]
    rw [le_fin hT.1 hq.1] at h
    have h' : (TWO_PI : F32).val ≤ q.val := by simpa using h
    obtain ⟨zs, e⟩ := sub_def hq.1 hT.1
    have hin : (q - TWO_PI).In 0 4.25 := by
      rw [e]
      refine ofRat_in rep_zero (by decide +kernel) (by linarith) ?_
      have := hq.2.2; have := hT.2.1
      norm_num at *; linarith
    refine ⟨hin.1, hin.2.1, lt_of_le_of_lt hin.2.2 (lt_of_lt_of_le (by norm_num) hT.2.1)⟩
  · have hr : r = q := if_neg h
    rw [hr]
    rw [le_fin hT.1 hq.1] at h
    exact ⟨hq.1, hq.2.1, by simpa using h⟩

/-- **C22** in single precision, rounding included: with frequencies between 0 and half the sample rate, after any history the
phase is in `[0, 2π)` and every output is in `[-1, 1]`. -/
theorem C22_bounded [Libm F32] [LibmSpec] (sr : F32) (hsr : sr.In 1 (2 ^ 100)) (h440 : 440 ≤ sr.val / 2)
    (cs : List (Call F32)) (hcs : ∀ c ∈ cs, InRange sr c) :
    let r := run (init sr) cs
    (r.1.phase.isFin = true ∧ 0 ≤ r.1.phase.val ∧ r.1.phase.val < (TWO_PI : F32).val) ∧ ∀ y ∈ r.2, y.In (-1) 1 := by
  have key : ∀ (cs : List (Call F32)) (s : Osc F32), s.sampleRate = sr → s.phaseIncrement.In 0 4 →
      (s.phase.isFin = true ∧ 0 ≤ s.phase.val ∧ s.phase.val < (TWO_PI : F32).val) → (∀ c ∈ cs, InRange sr c) →
      ((run s cs).1.phase.isFin = true ∧ 0 ≤ (run s cs).1.phase.val ∧ (run s cs).1.phase.val < (TWO_PI : F32).val) ∧
        ∀ y ∈ (run s cs).2, y.In (-1) 1 := by
    intro cs
    induction cs with
    | nil => intro s _ _ h _; exact ⟨h, by simp [run]⟩
    | cons c cs ih =>
      intro s h1 h2 h3 hT
      have hT' : ∀ c ∈ cs, InRange sr c := fun c hc => hT c (List.mem_cons_of_mem _ hc)
      have hc := hT c List.mem_cons_self
      cases c with
      | setFrequency f =>
        refine ih (setFrequency f s) h1 ?_ h3 hT'
        simp only [setFrequency, updatePhaseIncrement, h1]
        exact inc_in hsr hc
      | reset p => exact ih (reset p s) h1 h2 hc hT'
      | tick =>
        obtain ⟨a, b⟩ := ih (tick s).1 h1 h2 (phase_step h3.1 h3.2.1 h3.2.2 h2) hT'
        refine ⟨a, fun y hy => ?_⟩
        simp only [run, List.mem_cons] at hy
        rcases hy with rfl | hy
        · exact LibmSpec.sin_range _ h3.1
        · exact b y hy
  have hT := two_pi_in
  have hz := lit_zero (f := binary32)
  have h4 : (lit 440 : F32).In 440 440 := lit_rep (by decide +kernel)
  refine key cs (init sr) rfl ?_ ⟨hz.1, hz.2.1, by show (lit 0 : F32).val < _; rw [hz.val_eq]; linarith [hT.2.1]⟩ hcs
  exact inc_in hsr (h4.mono (by norm_num) h440)

/-- **C22** (exact arithmetic): `n` ticks after `setFrequency f` the phase has advanced by exactly `n·2π·f/sr` (with the library's
value of π), up to whole turns, and the sample is the sine of that phase. -/
theorem C22_phase_accumulates (s : Osc ℝ) (f : ℝ) (n : ℕ) :
    (∃ k : ℕ, (tickState tick n (setFrequency f s)).phase =
      s.phase + n * (2 * 3.14159265358979323846 * f / s.sampleRate) - k * (2 * 3.14159265358979323846)) ∧
    tickOut tick n (setFrequency f s) = Real.sin (tickState tick n (setFrequency f s)).phase := by
  have hT : (TWO_PI : ℝ) = 2 * 3.14159265358979323846 := by simp only [TWO_PI, PI, real_arith]; norm_num
  refine ⟨?_, rfl⟩
  have hi : (setFrequency f s).phaseIncrement = 2 * 3.14159265358979323846 * f / s.sampleRate := by
    simp only [setFrequency, updatePhaseIncrement, hT, real_arith]
  have hp : (setFrequency f s).phase = s.phase := rfl
  rw [← hi, ← hp]
  generalize setFrequency f s = s
  have hinc : ∀ n, (tickState tick n s).phaseIncrement = s.phaseIncrement := by
    intro n
    induction n with
    | zero => rfl
    | succ n ih => rw [tickState_succ]; exact ih
  induction n with
  | zero => exact ⟨0, by simp [tickState]⟩
  | succ n ih =>
    obtain ⟨k, hk⟩ := ih
    rw [tickState_succ]
    simp only [tick, real_arith, hinc]
    split_ifs with h
    · refine ⟨k + 1, ?_⟩
      rw [hk, hT]; push_cast; ring
    · exact ⟨k, by rw [hk]; push_cast; ring⟩

/-- **C22, negative** (exact arithmetic): with a negative frequency the phase is never wrapped and runs away below every
bound. -/
theorem C22_negative_frequency_runs_away (sr f : ℝ) (hsr : 0 < sr) (hf : f < 0) (B : ℝ) :
    ∃ n, (tickState tick n (setFrequency f (init sr))).phase < B := by
  set s := setFrequency f (init sr) with hs
  have hT : (TWO_PI : ℝ) = 2 * 3.14159265358979323846 := by simp only [TWO_PI, PI, real_arith]; norm_num
  have hi : s.phaseIncrement < 0 := by
    simp only [hs, setFrequency, updatePhaseIncrement, real_arith]
    rw [hT]
    exact div_neg_of_neg_of_pos (by nlinarith) hsr
  have key : ∀ n : ℕ, (tickState tick n s).phase = n * s.phaseIncrement ∧ (tickState tick n s).phaseIncrement = s.phaseIncrement := by
    intro n
    induction n with
    | zero => exact ⟨by simp [tickState, hs, setFrequency, updatePhaseIncrement, init, real_arith], rfl⟩
    | succ n ih =>
      rw [tickState_succ]
      refine ⟨?_, ih.2⟩
      simp only [tick, real_arith, ih.1, ih.2]
      rw [if_neg]
      · push_cast; ring
      · rw [hT]
        have : (n:ℝ) * s.phaseIncrement ≤ 0 := mul_nonpos_of_nonneg_of_nonpos (by positivity) hi.le
        have h1 : 0 < 2 * (3.14159265358979323846:ℝ) := by norm_num
        linarith
  obtain ⟨n, hn⟩ := exists_nat_gt (B / s.phaseIncrement)
  refine ⟨n, ?_⟩
  rw [(key n).1]
  rwa [div_lt_iff_of_neg hi] at hn

/-- **C22, negative** (exact arithmetic): above the sample rate one subtraction per tick does not suffice and the phase
grows beyond every bound. -/
theorem C22_high_frequency_runs_away (sr f : ℝ) (hsr : 0 < sr) (hf : sr < f) (B : ℝ) :
    ∃ n, B < (tickState tick n (setFrequency f (init sr))).phase := by
  set s := setFrequency f (init sr) with hs
  have hT : (TWO_PI : ℝ) = 2 * 3.14159265358979323846 := by simp only [TWO_PI, PI, real_arith]; norm_num
  have hT0 : (0:ℝ) < TWO_PI := by rw [hT]; norm_num
  have hi : TWO_PI < s.phaseIncrement := by
    simp only [hs, setFrequency, updatePhaseIncrement, real_arith]
    show (TWO_PI : ℝ) < TWO_PI * f / sr
    rw [lt_div_iff₀ hsr]; nlinarith
  have key : ∀ n : ℕ, n * (s.phaseIncrement - TWO_PI) ≤ (tickState tick n s).phase ∧
      (tickState tick n s).phaseIncrement = s.phaseIncrement := by
    intro n
    induction n with
    | zero => exact ⟨by simp [tickState, hs, setFrequency, updatePhaseIncrement, init, real_arith], rfl⟩
    | succ n ih =>
      rw [tickState_succ]
      refine ⟨?_, ih.2⟩
      simp only [tick, real_arith, ih.2]
      have := ih.1
      split_ifs <;> push_cast <;> linarith
  have hd : 0 < s.phaseIncrement - TWO_PI := by linarith
  obtain ⟨n, hn⟩ := exists_nat_gt (B / (s.phaseIncrement - TWO_PI))
  refine ⟨n, lt_of_lt_of_le ?_ (key n).1⟩
  rwa [div_lt_iff₀ hd] at hn

example [Libm F32] [LibmSpec] : ∀ y ∈ (run (init (lit 48000 : F32))
    [.tick, .setFrequency (lit 24000), .tick, .reset (lit 6.28), .tick, .tick]).2, y.In (-1) 1 := by
  refine (C22_bounded (lit 48000) (by decide +kernel) (by decide +kernel) _ ?_).2
  simp only [List.forall_mem_cons, List.not_mem_nil, false_imp_iff, implies_true, and_true, InRange]
  decide +kernel

end SinOsc

/-! ## C23: LFTri -/

namespace LFTri

/-- Calls a user can make on an oscillator. -/
inductive Call (α : Type) where
  | setFrequency (f : α)
  | reset (phase : α)
  | tick

/-- Perform calls; collect state and outputs. -/
def run {α : Type} [Arith α] : Osc α → List (Call α) → Osc α × List α
  | s, [] => (s, [])
  | s, .setFrequency f :: cs => run (setFrequency f s) cs
  | s, .reset p :: cs => run (reset p s) cs
  | s, .tick :: cs => let r := tick s; let q := run r.1 cs; (q.1, r.2 :: q.2)

/-- Frequencies between 0 and the sample rate, phases in `[0, 1]`. -/
def InRange (sr : F32) : Call F32 → Prop
  | .setFrequency f => f.In 0 sr.val
  | .reset p => p.In 0 1
  | .tick => True

theorem inc_in {sr f : F32} (hsr : sr.isFin = true) (hs0 : 0 < sr.val) (hf : f.In 0 sr.val) : (f / sr : F32).In 0 1 := by
  refine div_in hf.1 hsr hs0.ne' rep_zero rep_one (div_nonneg hf.2.1 hs0.le) ?_
  rw [div_le_one hs0]; exact hf.2.2

theorem phase_step {p i : F32} (hp : p.In 0 1) (hi : i.In 0 1) :
    (if (p + i) >=. lit 1 then (p + i) - lit 1 else p + i : F32).In 0 1 := by
  have h1 := lit_one (f := binary32)
  have hq : (p + i).In 0 2 := add_in hp hi rep_zero (by decide +kernel) (by norm_num) (by norm_num)
  by_cases h : ((p + i) >=. lit 1) = true
  · rw [if_pos h]
    rw [le_fin h1.1 hq.1, h1.val_eq] at h
    have h' : 1 ≤ (p + i).val := by simpa using h
    exact sub_in (⟨hq.1, h', hq.2.2⟩ : (p + i).In 1 2) h1 rep_zero rep_one (by norm_num) (by norm_num)
  · rw [if_neg h]
    rw [le_fin h1.1 hq.1, h1.val_eq] at h
    have h' : (p + i).val < 1 := by simpa using h
    exact ⟨hq.1, hq.2.1, h'.le⟩

theorem shape_in {p : F32} (hp : p.In 0 1) :
    (if p <. lit 0.5 then lit 4 * p - lit 1 else lit 3 - lit 4 * p : F32).In (-1) 1 := by
  have h1 := lit_one (f := binary32)
  have h4 : (lit 4 : F32).In 4 4 := lit_rep (by decide +kernel)
  have h3 : (lit 3 : F32).In 3 3 := lit_rep (by decide +kernel)
  have hh : (lit 0.5 : F32).In 0.5 0.5 := lit_rep (by decide +kernel)
  have rm1 : binary32.Rep (-1) false := Rep.neg rep_one
  rw [lt_fin hp.1 hh.1, hh.val_eq]
  by_cases h : p.val < 0.5
  · rw [decide_eq_true h, if_pos rfl]
    have hm : (lit 4 * p : F32).In 0 2 := mul_in h4.1 hp.1 rep_zero (by decide +kernel)
      (by rw [h4.val_eq]; linarith [hp.2.1]) (by rw [h4.val_eq]; linarith)
    exact sub_in hm h1 rm1 rep_one (by norm_num) (by norm_num)
  · rw [decide_eq_false h, if_neg (by simp)]
    push Not at h
    have hm : (lit 4 * p : F32).In 2 4 := mul_in h4.1 hp.1 (by decide +kernel) (by decide +kernel)
      (by rw [h4.val_eq]; linarith) (by rw [h4.val_eq]; linarith [hp.2.2])
    exact sub_in h3 hm rm1 rep_one (by norm_num) (by norm_num)

/-- The initial phase `frac(iphase/4)` lies in `[0, 1]`. -/
theorem init_phase {ip : F32} (h : ip.isFin = true) :
    (ip * lit 0.25 - Arith.floor (ip * lit 0.25) : F32).In 0 1 := by
  have hq : (lit 0.25 : F32).In 0.25 0.25 := lit_rep (by decide +kernel)
  have hx : (ip * lit 0.25 : F32).isFin = true := by
    have hr : binary32.Rep |ip.val| false := by
      refine ⟨?_, by rw [abs_abs]; exact abs_val_lt ip, by simp⟩
      rcases abs_choice ip.val with h | h <;> rw [h]
      · exact grid_val ip
      · exact (grid_val ip).neg
    refine (mul_in h hq.1 (Rep.neg hr) hr ?_ ?_).1 <;> rw [hq.val_eq]
    · have := neg_abs_le ip.val; have := abs_nonneg ip.val; nlinarith
    · have := le_abs_self ip.val; have := abs_nonneg ip.val; nlinarith
  have hf := floor_in hx prec32
  obtain ⟨zs, e⟩ := sub_def hx hf.1
  rw [e, hf.val_eq]
  have h1 := Int.floor_le (ip * lit 0.25 : F32).val
  have h2 := Int.lt_floor_add_one (ip * lit 0.25 : F32).val
  exact ofRat_in rep_zero rep_one (by linarith) (by linarith)

/-- **C23** in single precision, rounding included: for any finite initial phase and frequencies between 0 and the sample
rate, every output is in `[-1, 1]`, for ever. -/
theorem C23_bounded (sr ip : F32) (hsr : sr.isFin = true) (h440 : 440 ≤ sr.val) (hip : ip.isFin = true)
    (cs : List (Call F32)) (hcs : ∀ c ∈ cs, InRange sr c) : ∀ y ∈ (run (init sr ip) cs).2, y.In (-1) 1 := by
  have hs0 : 0 < sr.val := by linarith
  have key : ∀ (cs : List (Call F32)) (s : Osc F32), s.sampleRate = sr → s.phaseIncrement.In 0 1 → s.phase.In 0 1 →
      (∀ c ∈ cs, InRange sr c) → ∀ y ∈ (run s cs).2, y.In (-1) 1 := by
    intro cs
    induction cs with
    | nil => intro s _ _ h _; simp [run]
    | cons c cs ih =>
      intro s h1 h2 h3 hT
      have hT' : ∀ c ∈ cs, InRange sr c := fun c hc => hT c (List.mem_cons_of_mem _ hc)
      have hc := hT c List.mem_cons_self
      cases c with
      | setFrequency f =>
        refine ih (setFrequency f s) h1 ?_ h3 hT'
        simp only [setFrequency, updatePhaseIncrement, h1]
        exact inc_in hsr hs0 hc
      | reset p => exact ih (reset p s) h1 h2 hc hT'
      | tick =>
        intro y hy
        simp only [run, List.mem_cons] at hy
        rcases hy with rfl | hy
        · exact shape_in h3
        · exact ih (tick s).1 h1 h2 (phase_step h3 h2) hT' y hy
  have h4 : (lit 440 : F32).In 440 440 := lit_rep (by decide +kernel)
  exact key cs (init sr ip) rfl (inc_in hsr hs0 (h4.mono (by norm_num) h440)) (init_phase hip) hcs

/-- **C23** (exact arithmetic): the output is the triangle `1 - 4·|phase - 1/2|` of the phase. -/
theorem C23_triangle (s : Osc ℝ) : (tick s).2 = 1 - 4 * |s.phase - 1 / 2| := by
  simp only [tick, real_arith]
  split_ifs with h
  · rw [abs_of_neg (by norm_num at h ⊢; linarith)]; push_cast; ring
  · rw [abs_of_nonneg (by norm_num at h ⊢; linarith)]; push_cast; ring

/-- **C23** (exact arithmetic): sample `n` after `setFrequency f` is the triangle wave of frequency `f` taken at `n/sr` cycles past
the starting phase. -/
theorem C23_waveform (s : Osc ℝ) (f : ℝ) (hs : 0 < s.sampleRate) (hf : 0 ≤ f) (hf1 : f ≤ s.sampleRate)
    (h0 : 0 ≤ s.phase) (h1 : s.phase < 1) (n : ℕ) :
    tickOut tick n (setFrequency f s) = 1 - 4 * |Int.fract (s.phase + n * (f / s.sampleRate)) - 1 / 2| := by
  have hi : (setFrequency f s).phaseIncrement = f / s.sampleRate := by
    simp only [setFrequency, updatePhaseIncrement, real_arith]
  have hp : (setFrequency f s).phase = s.phase := rfl
  have d0 : 0 ≤ f / s.sampleRate := div_nonneg hf hs.le
  have d1 : f / s.sampleRate ≤ 1 := (div_le_one hs).2 hf1
  rw [← hi] at d0 d1 ⊢
  rw [← hp] at h0 h1 ⊢
  generalize setFrequency f s = s at *
  have key : (tickState tick n s).phaseIncrement = s.phaseIncrement ∧
      (tickState tick n s).phase = Int.fract (s.phase + n * s.phaseIncrement) := by
    induction n with
    | zero => exact ⟨rfl, by simp [tickState, Int.fract_eq_self.2 ⟨h0, h1⟩]⟩
    | succ n ih =>
      rw [tickState_succ]
      refine ⟨ih.1, ?_⟩
      set x := s.phase + n * s.phaseIncrement with hx
      have e : s.phase + ((n + 1 : ℕ) : ℝ) * s.phaseIncrement = Int.fract x + s.phaseIncrement + ⌊x⌋ := by
        have := Int.floor_add_fract x
        push_cast
        linear_combination (-1 : ℝ) * this + hx
      have f0 := Int.fract_nonneg x
      have f1 := Int.fract_lt_one x
      simp only [tick, real_arith, ih.1, ih.2, e, Int.fract_add_intCast, Rat.cast_one, Rat.cast_ofNat]
      generalize Int.fract x = y at f0 f1
      split_ifs with h
      · rw [← Int.fract_sub_one, Int.fract_eq_self.2 ⟨by linarith, by linarith⟩]
      · rw [Int.fract_eq_self.2 ⟨by linarith, by linarith⟩]
  unfold tickOut
  rw [C23_triangle, key.2]

/-- A quarter period of a 12 kHz triangle at 48 kHz: rising from the trough to zero. -/
example : tickOut tick 1 (setFrequency 12000 (init (48000 : ℝ) 0)) = 0 := by
  rw [C23_waveform _ _ (by norm_num [init, updatePhaseIncrement]) (by norm_num) (by norm_num [init, updatePhaseIncrement])
    (by norm_num [init, updatePhaseIncrement, real_arith]) (by norm_num [init, updatePhaseIncrement, real_arith])]
  have : Int.fract ((1:ℝ)/4) = 1/4 := Int.fract_eq_self.2 ⟨by norm_num, by norm_num⟩
  norm_num [init, updatePhaseIncrement, real_arith, this]

/-- **C23** (exact arithmetic): no jumps, the wrap included: consecutive outputs differ by at most four increments. -/
theorem C23_continuous (s : Osc ℝ) (h1 : s.phase ≤ 1) (hi : 0 ≤ s.phaseIncrement)
    (hi1 : s.phaseIncrement ≤ 1) : |(tick (tick s).1).2 - (tick s).2| ≤ 4 * s.phaseIncrement := by
  rw [C23_triangle, C23_triangle]
  simp only [tick, real_arith]
  split_ifs with h
  · push_cast at h ⊢
    rcases abs_cases (s.phase + s.phaseIncrement - 1 - 1/2) with ⟨e1, g1⟩ | ⟨e1, g1⟩ <;>
      rcases abs_cases (s.phase - 1/2) with ⟨e2, g2⟩ | ⟨e2, g2⟩ <;> rw [e1, e2, abs_le] <;> constructor <;> linarith
  · rcases abs_cases (s.phase + s.phaseIncrement - 1/2) with ⟨e1, g1⟩ | ⟨e1, g1⟩ <;>
      rcases abs_cases (s.phase - 1/2) with ⟨e2, g2⟩ | ⟨e2, g2⟩ <;> rw [e1, e2, abs_le] <;> constructor <;> linarith

example : ∀ y ∈ (run (init (lit 48000 : F32) (lit (-3.7)))
    [.tick, .setFrequency (lit 48000), .tick, .reset (lit 1), .tick, .tick]).2, y.In (-1) 1 := by
  refine C23_bounded (lit 48000) _ (by decide +kernel) (by decide +kernel) (by decide +kernel) _ ?_
  simp only [List.forall_mem_cons, List.not_mem_nil, false_imp_iff, implies_true, and_true, InRange]
  decide +kernel

end LFTri

/-! ## C24: SawDPW -/

namespace SawDPW

theorem bounded_by_two (s : Osc ℝ) (hf : 0 < s.frequency) (hsr : s.frequency ≤ s.sampleRate)
    (hsc : s.scaleFactor = s.sampleRate / 2) (hinc : s.phaseIncrement = s.frequency / s.sampleRate)
    (hp0 : 0 ≤ s.phase) (hp1 : s.phase ≤ 1) (n : ℕ) : |tickOut tick (n + 1) s| ≤ 2 := by
  have hs0 : 0 < s.sampleRate := by linarith
  have hi0 : 0 < s.phaseIncrement := by rw [hinc]; exact div_pos hf hs0
  have hi1 : s.phaseIncrement ≤ 1 := by rw [hinc, div_le_one hs0]; exact hsr
  have hscale : s.scaleFactor / s.frequency = 1 / (2 * s.phaseIncrement) := by
    rw [hsc, hinc]; field_simp
  have inv : ∀ n, (tickState tick n s).phaseIncrement = s.phaseIncrement ∧ (tickState tick n s).scaleFactor = s.scaleFactor ∧
      (tickState tick n s).frequency = s.frequency ∧ 0 ≤ (tickState tick n s).phase ∧ (tickState tick n s).phase ≤ 1 := by
    intro n
    induction n with
    | zero => exact ⟨rfl, rfl, rfl, hp0, hp1⟩
    | succ n ih =>
      rw [tickState_succ]
      obtain ⟨a, b, c, d, e⟩ := ih
      refine ⟨a, b, c, ?_⟩
      simp only [tick, real_arith, a]
      split_ifs with h
      · push_cast at h ⊢; constructor <;> linarith
      · push_cast at h; push Not at h; constructor <;> linarith
  obtain ⟨a, b, c, d, e⟩ := inv n
  simp only [tickOut]
  rw [tickState_succ]
  generalize tickState tick n s = t at a b c d e
  set i := s.phaseIncrement
  simp only [tick, real_arith, a, b, c, hscale]
  push_cast
  split_ifs with h
  · have e1 : ((t.phase + i - 1) * 2 - 1) * ((t.phase + i - 1) * 2 - 1) - (t.phase * 2 - 1) * (t.phase * 2 - 1) =
      4 * (i - 1) * (2 * t.phase + i - 2) := by ring
    rw [e1, mul_one_div, abs_div, abs_of_pos (by linarith : 0 < 2 * i), div_le_iff₀ (by linarith), abs_mul, abs_mul]
    have h2 : |2 * t.phase + i - 2| ≤ i := by rw [abs_le]; constructor <;> linarith
    have h3 : |i - 1| ≤ 1 := by rw [abs_le]; constructor <;> linarith
    have h4 : |(4:ℝ)| = 4 := by norm_num
    rw [h4]
    calc 4 * |i - 1| * |2 * t.phase + i - 2| ≤ 4 * 1 * i := by
          refine mul_le_mul ?_ h2 (abs_nonneg _) (by norm_num)
          linarith
      _ = 2 * (2 * i) := by ring
  · push Not at h
    have e1 : ((t.phase + i) * 2 - 1) * ((t.phase + i) * 2 - 1) - (t.phase * 2 - 1) * (t.phase * 2 - 1) =
      4 * i * (2 * t.phase + i - 1) := by ring
    rw [e1, mul_one_div, abs_div, abs_of_pos (by linarith : 0 < 2 * i), div_le_iff₀ (by linarith), abs_mul, abs_mul]
    have h2 : |2 * t.phase + i - 1| ≤ 1 := by rw [abs_le]; constructor <;> linarith
    have h4 : |(4:ℝ)| = 4 := by norm_num
    rw [h4, abs_of_pos hi0]
    nlinarith

/-- **C24**, partial (exact arithmetic): in steady state (from the second tick after `init`, whatever the initial phase) the
magnitude is at most **2**, for any frequency up to the sample rate. The documented bound 1 is false, see
`C24_documented_bound_false`. -/
theorem C24_bounded_by_two_partial (sr ip f : ℝ) (hf : 0 < f) (hsr : f ≤ sr) (n : ℕ) :
    |tickOut tick (n + 1) (setFrequency f (init sr ip))| ≤ 2 := by
  refine bounded_by_two _ hf hsr ?_ rfl ?_ ?_ n
  · simp only [setFrequency, init, real_arith]; push_cast; ring
  · simp only [setFrequency, init, real_arith]; split_ifs <;> push_cast at * <;> linarith
  · simp only [setFrequency, init, real_arith]; split_ifs <;> push_cast at * <;> linarith

/-- **C24, negative**: the documented range `[-1, 1]` is left in every period. At 48 kHz and 4.8 kHz, started with the
default phase, the 5th output is above 1.3 (single precision). -/
theorem C24_documented_bound_false :
    ((lit 1.3 : F32) <. tickOut tick 4 (setFrequency (lit 4800) (init (lit 48000) (lit 0)))) = true := by decide +kernel

/-- **C24, negative** (exact arithmetic): the first sample after `reset()` is a click of height `sr/(2f)`. -/
theorem C24_reset_click (s : Osc ℝ) (hsc : s.scaleFactor = s.sampleRate / 2) :
    (tick (reset s)).2 = s.sampleRate / (2 * s.frequency) := by
  simp only [tick, reset, real_arith, hsc]; push_cast
  rw [div_div]; ring

/-- **C24, negative**: at frequency 0 every sample from the second on is NaN (single precision). -/
theorem C24_zero_frequency_nan (n : ℕ) : tickOut tick (n + 1) (setFrequency (lit 0) (init (lit 48000) (lit 0) : Osc F32)) = .nan := by
  set s : Osc F32 := setFrequency (lit 0) (init (lit 48000) (lit 0)) with hs
  set t := (tick s).1 with ht
  have hfix : (tick t).1 = t := by
    have h1 : (tick t).1.phase = t.phase := by decide +kernel
    have h2 : (tick t).1.prevParabolic = t.prevParabolic := by decide +kernel
    have : (tick t).1 = { t with prevParabolic := (tick t).1.prevParabolic, phase := (tick t).1.phase } := rfl
    rw [this, h1, h2]
  have hst : ∀ n, tickState tick (n + 1) s = t := by
    intro n
    induction n with
    | zero => rfl
    | succ n ih => rw [tickState_succ, ih, hfix]
  simp only [tickOut, hst]
  decide +kernel

example : |tickOut tick 5 (setFrequency 12000 (init 48000 (-0.3) : Osc ℝ))| ≤ 2 :=
  C24_bounded_by_two_partial _ _ _ (by norm_num) (by norm_num) 4

end SawDPW
end Verif
