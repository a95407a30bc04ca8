import Verif.Props.Oscillators
import Verif.Props.Noise
import Verif.Props.Playback

/-!
# C62: oscillators run at the requested frequency

In single precision every tick rounds the phase, so the question is whether the roundings add up. Periods are counted from the phase
alone: a period ends where the phase drops.
-/

namespace Verif
open FP

/-- The number of periods completed in the first `n` steps of a phase signal: the number of steps at which the phase drops. -/
def periods (p : ℕ → ℚ) (n : ℕ) : ℕ := ((List.range n).filter fun m => decide (p (m + 1) < p m)).length

theorem periods_succ (p : ℕ → ℚ) (n : ℕ) : periods p (n + 1) = periods p n + if p (n + 1) < p n then 1 else 0 := by
  unfold periods
  rw [List.range_succ, List.filter_append, List.length_append]
  by_cases h : p (n + 1) < p n <;> simp [h]

/-- If every step advances by `i` up to an error `e`, modulo a period `T` exactly where the phase drops, the total is `n i ± n e`. -/
theorem periods_advance (p : ℕ → ℚ) (T i e : ℚ)
    (h : ∀ m, (p m ≤ p (m + 1) ∧ |p (m + 1) - (p m + i)| ≤ e) ∨ (p (m + 1) < p m ∧ |p (m + 1) - (p m + i - T)| ≤ e)) (n : ℕ) :
    |periods p n * T + p n - p 0 - n * i| ≤ n * e := by
  induction n with
  | zero => simp [periods]
  | succ n ih =>
    rw [periods_succ]
    rw [abs_le] at ih ⊢
    rcases h n with ⟨h1, h2⟩ | ⟨h1, h2⟩
    · rw [if_neg (not_lt.2 h1)]
      rw [abs_le] at h2
      push_cast; constructor <;> linarith
    · rw [if_pos h1]
      rw [abs_le] at h2
      push_cast; constructor <;> linarith

/-- A single-precision number that is at least `2^(k+23)` is a multiple of `2^k`. -/
theorem on_of_large {x : F32} (hx : x.isFin = true) {k : ℤ} (h : (2:ℚ) ^ (k + 23) ≤ |x.val|) : ∃ z, On k x z := by
  obtain ⟨n, hn⟩ := (grid_val x).mult (k := k) (by
    have e : k + binary32.prec - 1 = k + 23 := by show k + 24 - 1 = k + 23; ring
    rw [e]; exact h)
  exact ⟨n, hx, hn⟩

/-- The sum of a phase in `[0, 1]` and an increment. -/
theorem unit_sum {p i : F32} (hp : p.In 0 1) (hi : i.In 0 (1 / 2)) :
    (p + i).In 0 2 ∧ p.val ≤ (p + i).val ∧ |(p + i).val - (p.val + i.val)| ≤ 2 ^ (-24:ℤ) := by
  have hp0 := hp.2.1; have hp1 := hp.2.2; have hi0 := hi.2.1; have hi1 := hi.2.2
  have hv := (add_val (x := p) (y := i) hp.1 hi.1 (l := 0) (u := 2) rep_zero (by decide +kernel) (by linarith) (by linarith)).2
  refine ⟨add_in hp hi rep_zero (by decide +kernel) (by norm_num) (by norm_num), ?_, ?_⟩
  · rw [hv]
    exact binary32.le_rnd_of_le (K := ℚ) (grid_val p) (by push_cast; linarith)
  · have := binary32.rnd_err_of_lt (K := ℚ) (x := p.val + i.val) (k := 1) (by rw [abs_of_nonneg (by linarith)]; norm_num; linarith) (by decide)
    rw [hv, abs_sub_comm]; exact this

/-- The wrap is exact. -/
theorem unit_wrap {p i : F32} (hp : p.In 0 1) (hi : i.In 0 (1 / 2)) (h : ((p + i) >=. lit 1) = true) :
    ((p + i) - lit 1 : F32).val < p.val ∧ |((p + i) - lit 1 : F32).val - (p.val + i.val - 1)| ≤ 2 ^ (-24:ℤ) := by
  obtain ⟨hq, -, herr⟩ := unit_sum hp hi
  have h1 := lit_one (f := binary32)
  have hp0 := hp.2.1; have hp1 := hp.2.2; have hi0 := hi.2.1; have hi1 := hi.2.2
  rw [le_fin h1.1 hq.1, h1.val_eq] at h
  have h' : 1 ≤ (p + i).val := by simpa using h
  obtain ⟨z, hz⟩ := on_of_large hq.1 (k := -23) (by rw [abs_of_nonneg (by linarith)]; norm_num; exact h')
  have hz2 : 2 ^ 23 ≤ z ∧ z ≤ 2 ^ 24 := by
    have e := hz.2
    have := hq.2.2
    rw [e] at h' this
    norm_num at h' this
    constructor
    · have : (2:ℚ) ^ 23 ≤ z := by norm_num; linarith
      exact_mod_cast this
    · have : (z:ℚ) ≤ 2 ^ 24 := by norm_num; linarith
      exact_mod_cast this
  have hone : On (-23) (lit 1 : F32) (2 ^ 23) := ⟨h1.1, by rw [h1.val_eq]; norm_num⟩
  have hs := hz.sub (b := 2 ^ 23) ⟨by norm_num, by norm_num⟩ hone (by rw [abs_of_nonneg (by omega)]; omega)
  have hrv : ((p + i) - lit 1 : F32).val = (p + i).val - 1 := by
    rw [hs.2, hz.2]; push_cast; norm_num; ring
  rw [abs_le] at herr
  have e24 : (2:ℚ) ^ (-24:ℤ) ≤ 1 / 4 := by norm_num
  generalize (2:ℚ) ^ (-24:ℤ) = E at *
  refine ⟨by rw [hrv]; linarith, by rw [hrv, abs_le]; constructor <;> linarith⟩

/-- One step of a phase in `[0, 1]`. -/
theorem unit_step {p i : F32} (hp : p.In 0 1) (hi : i.In 0 (1 / 2)) :
    let r : F32 := if (p + i) >=. lit 1 then (p + i) - lit 1 else p + i
    r.In 0 1 ∧ ((p.val ≤ r.val ∧ |r.val - (p.val + i.val)| ≤ 2 ^ (-24:ℤ)) ∨
      (r.val < p.val ∧ |r.val - (p.val + i.val - 1)| ≤ 2 ^ (-24:ℤ))) := by
  intro r
  refine ⟨LFTri.phase_step hp (hi.mono le_rfl (by norm_num)), ?_⟩
  by_cases h : ((p + i) >=. lit 1) = true
  · have hr : r = (p + i) - lit 1 := if_pos h
    rw [hr]; exact Or.inr (unit_wrap hp hi h)
  · have hr : r = p + i := if_neg h
    rw [hr]; exact Or.inl (unit_sum hp hi).2

/-- The increment `f / sr`. -/
theorem unit_inc {sr f : F32} (hsr : sr.isFin = true) (hs0 : 0 < sr.val) (hf : f.In 0 (sr.val / 2)) :
    (f / sr : F32).In 0 (1 / 2) ∧ |(f / sr : F32).val - f.val / sr.val| ≤ 2 ^ (-25:ℤ) := by
  have h0 : 0 ≤ f.val / sr.val := div_nonneg hf.2.1 hs0.le
  have h2 : f.val / sr.val ≤ 1 / 2 := by rw [div_le_iff₀ hs0]; linarith [hf.2.2]
  refine ⟨div_in hf.1 hsr hs0.ne' rep_zero (by decide +kernel) h0 h2, ?_⟩
  rw [(div_val (x := f) (y := sr) hf.1 hsr hs0.ne' (l := 0) (u := 1) rep_zero rep_one h0 (by linarith)).2, abs_sub_comm]
  have := binary32.rnd_err_of_lt (K := ℚ) (x := f.val / sr.val) (k := 0) (by rw [abs_of_nonneg h0]; norm_num; linarith) (by decide)
  exact this

/-- A phase of at most one half does not get past one half by increments of at most `2^-25`. -/
theorem half_step {p i : F32} (hp : p.In 0 (1 / 2)) (hi : i.In 0 (1 / 2 ^ 25)) :
    (if (p + i) >=. lit 1 then (p + i) - lit 1 else p + i : F32).In 0 (1 / 2) ∧ ((p + i) >=. lit 1) = false := by
  have h1 := lit_one (f := binary32)
  have hp0 := hp.2.1; have hp1 := hp.2.2; have hi0 := hi.2.1; have hi1 := hi.2.2
  have e25 : (1:ℚ) / 2 ^ 25 ≤ 1 / 2 := by norm_num
  have hv := add_val (x := p) (y := i) hp.1 hi.1 (l := 0) (u := 1) rep_zero rep_one (by linarith) (by linarith)
  have hq : (p + i).In 0 (1 / 2) := by
    refine ⟨hv.1, ?_, ?_⟩
    · rw [hv.2]; exact binary32.le_rnd_of_le (K := ℚ) rep_zero.1 (by push_cast; linarith)
    · rw [hv.2]
      have e : binary32.rnd (1 / 2 + 1 / 2 ^ 25 : ℚ) = 1 / 2 := by decide +kernel
      rw [← e]
      exact binary32.rnd_mono (by linarith)
  have hc : ((p + i) >=. lit 1) = false := by
    rw [le_fin h1.1 hq.1, h1.val_eq]
    have := hq.2.2
    simp; linarith
  rw [hc]
  exact ⟨hq, rfl⟩

namespace LFTri

/-- **C62** (bit-exact single precision): at a frequency between 0 and half the sample rate the triangle oscillator has gone through
`n f / sr` periods after `n` ticks, up to an error of `n 2^-23`: its frequency is right to within `sr 2^-23` Hz (0.006 Hz at 48 kHz),
for ever. -/
theorem C62_pitch (s : Osc F32) (f : F32) (hsr : s.sampleRate.isFin = true) (hs0 : 0 < s.sampleRate.val)
    (hf : f.In 0 (s.sampleRate.val / 2)) (hp : s.phase.In 0 1) (n : ℕ) :
    let p := fun m => (tickState tick m (setFrequency f s)).phase.val
    |periods p n + p n - p 0 - n * (f.val / s.sampleRate.val)| ≤ n * 2 ^ (-23:ℤ) := by
  intro p
  obtain ⟨hi, hie⟩ := unit_inc hsr hs0 hf
  have inv : ∀ m, (tickState tick m (setFrequency f s)).phase.In 0 1 ∧
      (tickState tick m (setFrequency f s)).phaseIncrement = f / s.sampleRate := by
    intro m
    refine tickState_inv (I := fun t : Osc F32 => t.phase.In 0 1 ∧ t.phaseIncrement = f / s.sampleRate) (fun t ht => ⟨?_, ht.2⟩)
      (s := setFrequency f s) ⟨hp, rfl⟩ m
    exact (unit_step ht.1 (ht.2 ▸ hi)).1
  have := periods_advance p 1 (f.val / s.sampleRate.val) (2 ^ (-23:ℤ)) (fun m => by
    obtain ⟨h1, h2⟩ := inv m
    have hst := (unit_step h1 (h2 ▸ hi)).2
    have e : p (m + 1) = (tick (tickState tick m (setFrequency f s))).1.phase.val := by
      show (tickState tick (m + 1) (setFrequency f s)).phase.val = _
      rw [tickState_succ]
    rw [e]
    simp only [tick]
    rw [h2] at hst ⊢
    rw [abs_le] at hie
    have e1 : (2:ℚ) ^ (-24:ℤ) + 2 ^ (-25:ℤ) ≤ 2 ^ (-23:ℤ) := by norm_num
    rcases hst with ⟨a, b⟩ | ⟨a, b⟩
    · left; rw [abs_le] at b; exact ⟨a, by rw [abs_le]; constructor <;> linarith⟩
    · right; rw [abs_le] at b; exact ⟨a, by rw [abs_le]; constructor <;> linarith⟩) n
  simpa using this

/-- Concrete case: 440 Hz at 48 kHz, and a period counted: at a quarter of the sample rate the phase drops at the fourth tick. -/
example : (lit 440 : F32).In 0 ((init (lit 48000 : F32) (lit 0)).sampleRate.val / 2) ∧ (init (lit 48000 : F32) (lit 0)).phase.In 0 1 ∧
    periods (fun m => (tickState tick m (setFrequency (lit 12000) (init (lit 48000 : F32) (lit 0)))).phase.val) 5 = 1 := by decide +kernel

/-- **C62, negation for slow modulators**: at or below `sr 2^-25` Hz (0.0014 Hz at 48 kHz) the phase of a freshly initialised triangle
oscillator never gets past one half: it never completes a period, however long it runs. -/
theorem C62_slow_freezes (s : Osc F32) (f : F32) (hsr : s.sampleRate.isFin = true) (hs0 : 0 < s.sampleRate.val)
    (hf0 : f.isFin = true) (hf : 0 ≤ f.val) (hf1 : f.val ≤ s.sampleRate.val / 2 ^ 25) (hp : s.phase.In 0 (1 / 2)) (n : ℕ) :
    (tickState tick n (setFrequency f s)).phase.In 0 (1 / 2) := by
  have hi : (f / s.sampleRate : F32).In 0 (1 / 2 ^ 25) :=
    div_in hf0 hsr hs0.ne' rep_zero (by decide +kernel) (div_nonneg hf hs0.le) (by rw [div_le_iff₀ hs0]; linarith)
  refine (tickState_inv (I := fun t : Osc F32 => t.phase.In 0 (1 / 2) ∧ t.phaseIncrement = f / s.sampleRate) (fun t ht => ⟨?_, ht.2⟩)
      (s := setFrequency f s) ⟨hp, rfl⟩ n).1
  exact (half_step ht.1 (ht.2 ▸ hi)).1

end LFTri
namespace SawDPW

/-- **C62** (bit-exact single precision): at a frequency between 0 and half the sample rate the saw oscillator has gone through
`n f / sr` periods after `n` ticks, up to an error of `n 2^-23`: its frequency is right to within `sr 2^-23` Hz (0.006 Hz at 48 kHz),
for ever. -/
theorem C62_pitch (s : Osc F32) (f : F32) (hsr : s.sampleRate.isFin = true) (hs0 : 0 < s.sampleRate.val)
    (hf : f.In 0 (s.sampleRate.val / 2)) (hp : s.phase.In 0 1) (n : ℕ) :
    let p := fun m => (tickState tick m (setFrequency f s)).phase.val
    |periods p n + p n - p 0 - n * (f.val / s.sampleRate.val)| ≤ n * 2 ^ (-23:ℤ) := by
  intro p
  obtain ⟨hi, hie⟩ := unit_inc hsr hs0 hf
  have inv : ∀ m, (tickState tick m (setFrequency f s)).phase.In 0 1 ∧
      (tickState tick m (setFrequency f s)).phaseIncrement = f / s.sampleRate := by
    intro m
    refine tickState_inv (I := fun t : Osc F32 => t.phase.In 0 1 ∧ t.phaseIncrement = f / s.sampleRate) (fun t ht => ⟨?_, ht.2⟩)
      (s := setFrequency f s) ⟨hp, rfl⟩ m
    exact (unit_step ht.1 (ht.2 ▸ hi)).1
  have := periods_advance p 1 (f.val / s.sampleRate.val) (2 ^ (-23:ℤ)) (fun m => by
    obtain ⟨h1, h2⟩ := inv m
    have hst := (unit_step h1 (h2 ▸ hi)).2
    have e : p (m + 1) = (tick (tickState tick m (setFrequency f s))).1.phase.val := by
      show (tickState tick (m + 1) (setFrequency f s)).phase.val = _
      rw [tickState_succ]
    rw [e]
    simp only [tick]
    rw [h2] at hst ⊢
    rw [abs_le] at hie
    have e1 : (2:ℚ) ^ (-24:ℤ) + 2 ^ (-25:ℤ) ≤ 2 ^ (-23:ℤ) := by norm_num
    rcases hst with ⟨a, b⟩ | ⟨a, b⟩
    · left; rw [abs_le] at b; exact ⟨a, by rw [abs_le]; constructor <;> linarith⟩
    · right; rw [abs_le] at b; exact ⟨a, by rw [abs_le]; constructor <;> linarith⟩) n
  simpa using this

/-- Concrete case: at a quarter of the sample rate the phase drops once in the first four ticks (the initial phase 0 of the API is 1/2
of a period). -/
example : (lit 440 : F32).In 0 ((init (lit 48000 : F32) (lit 0)).sampleRate.val / 2) ∧ (init (lit 48000 : F32) (lit 0)).phase.In 0 1 ∧
    periods (fun m => (tickState tick m (setFrequency (lit 12000) (init (lit 48000 : F32) (lit 0)))).phase.val) 4 = 1 := by decide +kernel

end SawDPW

namespace LFNoise2

/-- **C62** (bit-exact single precision): at a frequency between 0 and half the sample rate the noise has drawn a number `k` of new
random points after `n` ticks that differs from `n f / sr` only by the change of the phase and at most `n 2^-23`. -/
theorem C62_rate (s : Osc F32) (f : F32) (hsr : s.sampleRate.isFin = true) (hs0 : 0 < s.sampleRate.val) (hf0 : 0 < f.val)
    (hf : f.In 0 (s.sampleRate.val / 2)) (hp : s.phase.In 0 1) (n : ℕ) :
    let r := tickState tick n (setFrequency f s)
    ∃ k : ℕ, r.seed = nextSeed^[k] s.seed ∧
      |k + r.phase.val - s.phase.val - n * (f.val / s.sampleRate.val)| ≤ n * 2 ^ (-23:ℤ) := by
  obtain ⟨hi, hie⟩ := unit_inc hsr hs0 hf
  have hinc : (setFrequency f s).phaseIncrement = f / s.sampleRate := by
    have : (f >. lit 0) = true := by rw [lt_fin lit_zero.1 hf.1, lit_zero.val_eq]; simpa using hf0
    simp [setFrequency, updatePhaseIncrement, this]
  intro r
  have key : ∀ n, (tickState tick n (setFrequency f s)).phase.In 0 1 ∧
      (tickState tick n (setFrequency f s)).phaseIncrement = f / s.sampleRate ∧
      ∃ k : ℕ, (tickState tick n (setFrequency f s)).seed = nextSeed^[k] s.seed ∧
        |k + (tickState tick n (setFrequency f s)).phase.val - s.phase.val - n * (f.val / s.sampleRate.val)| ≤ n * 2 ^ (-23:ℤ) := by
    intro n
    induction n with
    | zero => exact ⟨hp, hinc, 0, rfl, by simp [tickState_zero, setFrequency, updatePhaseIncrement]⟩
    | succ n ih =>
      rw [tickState_succ]
      obtain ⟨i1, i2, k, i3, i4⟩ := ih
      generalize tickState tick n (setFrequency f s) = t at *
      have hst := unit_step i1 (i2 ▸ hi)
      have hi' := i2 ▸ hi
      have e1 : (2:ℚ) ^ (-24:ℤ) + 2 ^ (-25:ℤ) ≤ 2 ^ (-23:ℤ) := by norm_num
      have e2 : (2:ℚ) ^ (-24:ℤ) ≤ 1 / 4 := by norm_num
      rw [abs_le] at hie i4
      by_cases hw : ((t.phase + t.phaseIncrement) >=. lit 1) = true
      · have et : (tick t).1 = { t with
            phase := (t.phase + t.phaseIncrement) - lit 1, p0 := t.p1, p1 := t.p2, p2 := t.p3, p3 := (nextRandom t.seed).2, seed := nextSeed t.seed } := by
          simp only [tick, hw, if_true, nextRandom]
        simp only [hw, if_true] at hst
        rw [et]
        refine ⟨hst.1, i2, k + 1, by rw [Function.iterate_succ_apply', ← i3], ?_⟩
        have hdrop : ((t.phase + t.phaseIncrement) - lit 1 : F32).val < t.phase.val ∧
            |((t.phase + t.phaseIncrement) - lit 1 : F32).val - (t.phase.val + t.phaseIncrement.val - 1)| ≤ 2 ^ (-24:ℤ) :=
          unit_wrap i1 hi' hw
        obtain ⟨a, b⟩ := hdrop
        rw [i2] at b ⊢
        rw [abs_le] at b ⊢
        push_cast
        constructor <;> linarith
      · have hw' : ((t.phase + t.phaseIncrement) >=. lit 1) = false := by simpa using hw
        have et : (tick t).1 = { t with phase := t.phase + t.phaseIncrement } := by
          simp [tick, hw']
        simp only [hw', Bool.false_eq_true, if_false] at hst
        rw [et]
        refine ⟨hst.1, i2, k, i3, ?_⟩
        obtain ⟨-, a, b⟩ := unit_sum i1 hi'
        show |(k:ℚ) + (t.phase + t.phaseIncrement : F32).val - s.phase.val - ((n + 1 : ℕ) : ℚ) * (f.val / s.sampleRate.val)| ≤ _
        rw [i2] at b ⊢
        rw [abs_le] at b ⊢
        push_cast
        constructor <;> linarith
  exact (key n).2.2

/-- Concrete case: 500 Hz at 48 kHz after construction. -/
example : (lit 500 : F32).In 0 ((init (lit 48000 : F32) 12345).sampleRate.val / 2) ∧ (0:ℚ) < (lit 500 : F32).val ∧
    (init (lit 48000 : F32) 12345).phase.In 0 1 := by decide +kernel

/-- **C62, negation for slow modulators**: `setFrequency` replaces a frequency that is not positive by 0.001 Hz so that the noise keeps
moving; but at the usual sample rates the phase then stops at one half: no new random point is ever drawn, however long it runs. -/
theorem C62_zero_frequency_freezes (sr : F32) (hsr : sr.isFin = true) (h1 : 33555 ≤ sr.val) (seed : ℕ) (f : F32)
    (hf : (f >. lit 0) = false) (n : ℕ) :
    let s := setFrequency f (init sr seed)
    let r := tickState tick n s
    r.phase.In 0 (1 / 2) ∧ r.seed = s.seed ∧ r.p0 = s.p0 ∧ r.p1 = s.p1 ∧ r.p2 = s.p2 ∧ r.p3 = s.p3 := by
  intro s r
  have hs0 : 0 < sr.val := by linarith
  have hl : (lit 0.001 : F32).In 0 0.00100001 := by decide +kernel
  have hinc : s.phaseIncrement = lit 0.001 / sr := by
    simp [s, setFrequency, updatePhaseIncrement, hf, init, drawPoints]
  have hi : (lit 0.001 / sr : F32).In 0 (1 / 2 ^ 25) := by
    refine div_in hl.1 hsr hs0.ne' rep_zero (by decide +kernel) (div_nonneg hl.2.1 hs0.le) ?_
    rw [div_le_iff₀ hs0]
    have := hl.2.2
    norm_num at *; linarith
  have := tickState_inv (tick := tick) (I := fun t : Osc F32 => t.phaseIncrement = lit 0.001 / sr ∧
      (t.phase.In 0 (1 / 2) ∧ t.seed = s.seed ∧ t.p0 = s.p0 ∧ t.p1 = s.p1 ∧ t.p2 = s.p2 ∧ t.p3 = s.p3)) (fun t ht => by
    obtain ⟨a, b, c, d, e, f, g⟩ := ht
    obtain ⟨h2, h3⟩ := half_step b (a ▸ hi)
    rw [h3] at h2
    simp only [tick, h3, Bool.false_eq_true, if_false] at h2 ⊢
    exact ⟨a, h2, c, d, e, f, g⟩) (s := s) ⟨hinc, by
      have : s.phase = lit 0 := rfl
      rw [this]; decide +kernel, rfl, rfl, rfl, rfl, rfl⟩ n
  exact this.2

/-- Concrete case: `setFrequency(0)` at 44.1 kHz. -/
example : ((lit 0 : F32) >. lit 0) = false ∧ (lit 44100 : F32).isFin = true ∧ (33555:ℚ) ≤ (lit 44100 : F32).val := by decide +kernel

end LFNoise2

namespace SinOsc

/-- The float `2π` is a multiple of `2^-21`. -/
theorem two_pi_on : On (-21) (TWO_PI : F32) 13176795 := by decide +kernel

/-- The increment `(2π f) / sr`: two roundings. -/
theorem inc_err {sr f : F32} (hsr : sr.In 1 (2 ^ 100)) (hf : f.In 0 (sr.val / 2)) :
    ((TWO_PI * f) / sr : F32).In 0 3.25 ∧
      |((TWO_PI * f) / sr : F32).val - (TWO_PI : F32).val * (f.val / sr.val)| ≤ 2 ^ (-21:ℤ) := by
  have hT := two_pi_in
  have hs0 : 0 < sr.val := by linarith [hsr.2.1]
  have hf0 := hf.2.1; have hf1 := hf.2.2
  have hT1 := hT.2.1; have hT2 := hT.2.2
  have hx0 : 0 ≤ (TWO_PI : F32).val * f.val := mul_nonneg (by linarith) hf0
  have hx1 : (TWO_PI : F32).val * f.val ≤ 3.145 * sr.val := by nlinarith
  have h2 := hsr.2.2
  have hm := mul_val (x := (TWO_PI : F32)) (y := f) hT.1 hf.1 (l := 0) (u := 2 ^ 102) rep_zero (rep_two_pow (by norm_num)) hx0
    (by norm_num at *; linarith)
  have he := binary32.rnd_rel_err (K := ℚ) ((TWO_PI : F32).val * f.val)
  have ee : |(TWO_PI * f : F32).val - (TWO_PI : F32).val * f.val| ≤ 2 ^ (-22:ℤ) * sr.val := by
    rw [hm.2, abs_sub_comm]
    refine he.trans ?_
    rw [abs_of_nonneg hx0]
    have e1 : (2:ℚ) ^ (-(binary32.prec : ℤ)) = 1 / 2 ^ 24 := by decide +kernel
    have e2 : (2:ℚ) ^ (binary32.emin - 1) ≤ 1 / 2 ^ 26 := by decide +kernel
    rw [e1]
    have := hsr.2.1
    norm_num at *
    linarith
  rw [abs_le] at ee
  have hq0 : 0 ≤ (TWO_PI * f : F32).val := by rw [hm.2]; exact binary32.le_rnd_of_le (K := ℚ) rep_zero.1 (by push_cast; exact hx0)
  have hq1 : (TWO_PI * f : F32).val / sr.val ≤ 3.25 := by
    rw [div_le_iff₀ hs0]; norm_num at *; linarith
  have hd := div_val (x := (TWO_PI * f : F32)) (y := sr) hm.1 hsr.1 hs0.ne' (l := 0) (u := 3.25) rep_zero (by decide +kernel)
    (div_nonneg hq0 hs0.le) hq1
  refine ⟨div_in hm.1 hsr.1 hs0.ne' rep_zero (by decide +kernel) (div_nonneg hq0 hs0.le) hq1, ?_⟩
  have h3 := binary32.rnd_err_of_lt (K := ℚ) (x := (TWO_PI * f : F32).val / sr.val) (k := 2)
    (by rw [abs_of_nonneg (div_nonneg hq0 hs0.le)]; norm_num at *; linarith) (by decide)
  have h3' : |(TWO_PI * f : F32).val / sr.val - binary32.rnd ((TWO_PI * f : F32).val / sr.val)| ≤ 2 ^ (-23:ℤ) := h3
  have h4 : |(TWO_PI * f : F32).val / sr.val - (TWO_PI : F32).val * (f.val / sr.val)| ≤ 2 ^ (-22:ℤ) := by
    have e : (TWO_PI * f : F32).val / sr.val - (TWO_PI : F32).val * (f.val / sr.val) =
        ((TWO_PI * f : F32).val - (TWO_PI : F32).val * f.val) / sr.val := by field_simp
    rw [e, abs_div, abs_of_pos hs0, div_le_iff₀ hs0, abs_le]
    exact ee
  rw [hd.2]
  rw [abs_le] at h3' h4 ⊢
  norm_num at *
  constructor <;> linarith

/-- One step of the phase. -/
theorem phase_err {p i : F32} (hp : p.isFin = true) (hp0 : 0 ≤ p.val) (hp1 : p.val < (TWO_PI : F32).val) (hi : i.In 0 3.25) :
    let r : F32 := if (p + i) >=. TWO_PI then (p + i) - TWO_PI else p + i
    (p.val ≤ r.val ∧ |r.val - (p.val + i.val)| ≤ 2 ^ (-21:ℤ)) ∨
      (r.val < p.val ∧ |r.val - (p.val + i.val - (TWO_PI : F32).val)| ≤ 2 ^ (-21:ℤ)) := by
  intro r
  have hT := two_pi_in
  have hT1 := hT.2.1; have hT2 := hT.2.2; have hi0 := hi.2.1; have hi1 := hi.2.2
  have hs : p.val + i.val ≤ 10 := by norm_num at *; linarith
  have hv := add_val (x := p) (y := i) hp hi.1 (l := 0) (u := 10) rep_zero (by decide +kernel) (by linarith) hs
  have hq : (p + i).In 0 10 := by
    obtain ⟨zs, e⟩ := add_def hp hi.1
    rw [e]; exact ofRat_in rep_zero (by decide +kernel) (by linarith) hs
  have herr : |(p + i).val - (p.val + i.val)| ≤ 2 ^ (-21:ℤ) := by
    have := binary32.rnd_err_of_lt (K := ℚ) (x := p.val + i.val) (k := 4) (by rw [abs_of_nonneg (by linarith)]; norm_num; linarith) (by decide)
    rw [hv.2, abs_sub_comm]; exact this
  by_cases h : ((p + i) >=. TWO_PI) = true
  · have hr : r = (p + i) - TWO_PI := if_pos h
    rw [le_fin hT.1 hq.1] at h
    have h' : (TWO_PI : F32).val ≤ (p + i).val := by simpa using h
    obtain ⟨z, hz⟩ := on_of_large hq.1 (k := -21) (by rw [abs_of_nonneg hq.2.1]; norm_num at *; linarith)
    have hz2 : 13176795 ≤ z ∧ z ≤ 20971520 := by
      have e := hz.2
      have h10 := hq.2.2
      rw [e, two_pi_on.2] at h'
      rw [e] at h10
      norm_num at h' h10
      constructor
      · have : ((13176795:ℤ):ℚ) ≤ z := by push_cast; linarith
        exact_mod_cast this
      · have : (z:ℚ) ≤ ((20971520:ℤ):ℚ) := by push_cast; linarith
        exact_mod_cast this
    have hs := hz.sub ⟨by norm_num, by norm_num⟩ two_pi_on (by rw [abs_of_nonneg (by omega)]; omega)
    have hrv : r.val = (p + i).val - (TWO_PI : F32).val := by
      rw [hr, hs.2, hz.2, two_pi_on.2]; push_cast; ring
    right
    rw [abs_le] at herr
    have e21 : (2:ℚ) ^ (-21:ℤ) ≤ 1 / 4 := by norm_num
    generalize (2:ℚ) ^ (-21:ℤ) = E at *
    norm_num at hi1 hT1
    refine ⟨by rw [hrv]; linarith, by rw [hrv, abs_le]; constructor <;> linarith⟩
  · have hr : r = p + i := if_neg h
    left
    rw [hr]
    refine ⟨?_, herr⟩
    rw [hv.2]
    exact binary32.le_rnd_of_le (K := ℚ) (grid_val p) (by push_cast; linarith)

/-- **C62** (bit-exact single precision, phase measured in cycles): at a frequency between 0 and half the sample rate the sine
oscillator has gone through `n f / sr` cycles after `n` ticks, up to an error of `n 2^-22`: its frequency is right to within
`sr 2^-22` Hz (0.011 Hz at 48 kHz), for ever. -/
theorem C62_pitch [Libm F32] (s : Osc F32) (f : F32) (hsr : s.sampleRate.In 1 (2 ^ 100)) (hf : f.In 0 (s.sampleRate.val / 2))
    (hp : s.phase.isFin = true) (hp0 : 0 ≤ s.phase.val) (hp1 : s.phase.val < (TWO_PI : F32).val) (n : ℕ) :
    let p := fun m => (tickState tick m (setFrequency f s)).phase.val / (TWO_PI : F32).val
    |periods p n + p n - p 0 - n * (f.val / s.sampleRate.val)| ≤ n * 2 ^ (-22:ℤ) := by
  intro p
  obtain ⟨hi, hie⟩ := inc_err hsr hf
  have hT := two_pi_in
  have hT1 := hT.2.1
  have hT0 : 0 < (TWO_PI : F32).val := by norm_num at hT1; linarith
  have inv : ∀ m, ((tickState tick m (setFrequency f s)).phase.isFin = true ∧ 0 ≤ (tickState tick m (setFrequency f s)).phase.val ∧
      (tickState tick m (setFrequency f s)).phase.val < (TWO_PI : F32).val) ∧
      (tickState tick m (setFrequency f s)).phaseIncrement = (TWO_PI * f) / s.sampleRate := by
    intro m
    refine tickState_inv (I := fun t : Osc F32 => (t.phase.isFin = true ∧ 0 ≤ t.phase.val ∧ t.phase.val < (TWO_PI : F32).val) ∧
      t.phaseIncrement = (TWO_PI * f) / s.sampleRate) (fun t ht => ⟨?_, ht.2⟩) (s := setFrequency f s) ⟨⟨hp, hp0, hp1⟩, rfl⟩ m
    exact phase_step ht.1.1 ht.1.2.1 ht.1.2.2 (ht.2 ▸ hi.mono le_rfl (by norm_num))
  have := periods_advance p 1 (f.val / s.sampleRate.val) (2 ^ (-22:ℤ)) (fun m => by
    obtain ⟨⟨h1, h1a, h1b⟩, h2⟩ := inv m
    have hst := phase_err h1 h1a h1b (h2 ▸ hi)
    have e : p (m + 1) = (tick (tickState tick m (setFrequency f s))).1.phase.val / (TWO_PI : F32).val := by
      show (tickState tick (m + 1) (setFrequency f s)).phase.val / _ = _
      rw [tickState_succ]
    rw [e]
    simp only [tick, p]
    rw [h2] at hst ⊢
    generalize (tickState tick m (setFrequency f s)).phase = ph at *
    generalize (TWO_PI * f) / s.sampleRate = i at *
    generalize (if (ph + i) >=. TWO_PI then (ph + i) - TWO_PI else ph + i : F32) = r at *
    have tight : ∀ d : ℚ, |d| ≤ 2 ^ (-20:ℤ) → |d / (TWO_PI : F32).val| ≤ 2 ^ (-22:ℤ) := by
      intro d hd
      rw [abs_div, abs_of_pos hT0, div_le_iff₀ hT0]
      refine hd.trans ?_
      norm_num at hT1 ⊢
      linarith
    have esum : (2:ℚ) ^ (-21:ℤ) + 2 ^ (-21:ℤ) = 2 ^ (-20:ℤ) := by norm_num
    rw [abs_le] at hie
    rcases hst with ⟨a, b⟩ | ⟨a, b⟩
    · left
      refine ⟨(div_le_div_iff_of_pos_right hT0).2 a, ?_⟩
      have e2 : r.val / (TWO_PI : F32).val - (ph.val / (TWO_PI : F32).val + f.val / s.sampleRate.val) =
          (r.val - (ph.val + (TWO_PI : F32).val * (f.val / s.sampleRate.val))) / (TWO_PI : F32).val := by
        field_simp
      rw [e2]
      refine tight _ ?_
      rw [abs_le] at b ⊢
      rw [← esum]
      clear esum tight
      generalize (2:ℚ) ^ (-21:ℤ) = E at *
      generalize (TWO_PI : F32).val * (f.val / s.sampleRate.val) = X at *
      constructor <;> linarith
    · right
      refine ⟨(div_lt_div_iff_of_pos_right hT0).2 a, ?_⟩
      have e2 : r.val / (TWO_PI : F32).val - (ph.val / (TWO_PI : F32).val + f.val / s.sampleRate.val - 1) =
          (r.val - (ph.val + (TWO_PI : F32).val * (f.val / s.sampleRate.val) - (TWO_PI : F32).val)) / (TWO_PI : F32).val := by
        field_simp
      rw [e2]
      refine tight _ ?_
      rw [abs_le] at b ⊢
      rw [← esum]
      clear esum tight
      generalize (2:ℚ) ^ (-21:ℤ) = E at *
      generalize (TWO_PI : F32).val * (f.val / s.sampleRate.val) = X at *
      constructor <;> linarith) n
  simpa using this

/-- Concrete case: 440 Hz at 48 kHz from phase 0. -/
example : (lit 48000 : F32).In 1 (2 ^ 100) ∧ (lit 440 : F32).In 0 ((lit 48000 : F32).val / 2) ∧
    (lit 0 : F32).val < (TWO_PI : F32).val := by decide +kernel

end SinOsc

namespace Phasor

/-- **C62, negation for long samples**: a phasor over a sample of 2^24 frames (six minutes at 48 kHz) at half speed plays the second half
never: from frame 2^23 on, adding 0.5 does not change the position. The output stays at frame 2^23 for ever. -/
theorem C62_phasor_stalls (sr : F32) (n : ℕ) :
    tickOut tick n (resetTo (lit (2 ^ 23)) (set (lit 0.5) (lit 0) (lit (2 ^ 24)) (lit 0) (init sr))) = lit (2 ^ 23) := by
  have step : ∀ t : Ph F32, t.start = lit 0 → t.stop = lit (2 ^ 24) → t.rate = lit 0.5 → t.value = lit (2 ^ 23) →
      (tick t).2 = lit (2 ^ 23) ∧ (tick t).1.value = lit (2 ^ 23) := by
    intro t h1 h2 h3 h4
    simp only [tick, h1, h2, h3, h4]
    decide +kernel
  have inv := tickState_inv (tick := tick) (I := fun t : Ph F32 => t.start = lit 0 ∧ t.stop = lit (2 ^ 24) ∧ t.rate = lit 0.5 ∧ t.value = lit (2 ^ 23))
    (fun t ht => ⟨ht.1, ht.2.1, ht.2.2.1, (step t ht.1 ht.2.1 ht.2.2.1 ht.2.2.2).2⟩)
    (s := resetTo (lit (2 ^ 23)) (set (lit 0.5) (lit 0) (lit (2 ^ 24)) (lit 0) (init sr))) ⟨rfl, rfl, rfl, rfl⟩ n
  exact (step _ inv.1 inv.2.1 inv.2.2.1 inv.2.2.2).1

end Phasor
end Verif
