import Verif.Props.Lines
import Verif.Props.Lag
import Verif.Props.Panning
import Verif.Props.Utility
import Verif.Props.Oscillators
import Verif.Model.BufferAllocator
import Verif.Model.XPlay

/-!
# C87: units before any setter is called

Also: C18 for `LagLinear::setValue`, C21 for the setters of `Phasor`.
-/

set_option linter.unusedSectionVars false

namespace Verif

/-! ### The panners start in the centre -/

/-- Cosine and sine of the literal 0.78539816339 are within `1e-10` of the literal 0.70710678118. -/
theorem centre_gains : |Real.cos (panAngle 0) - 0.70710678118| ≤ 1e-10 ∧ |Real.sin (panAngle 0) - 0.70710678118| ≤ 1e-10 := by
  have e : panAngle 0 = Real.pi / 4 - (Real.pi / 4 - 0.78539816339) := by unfold panAngle; norm_num
  obtain ⟨d, hd⟩ : ∃ d, d = Real.pi / 4 - 0.78539816339 := ⟨_, rfl⟩
  have p1 := Real.pi_gt_d20
  have p2 := Real.pi_lt_d20
  have d0 : 0 ≤ d := by rw [hd]; norm_num at *; linarith
  have d1 : d ≤ 8e-12 := by rw [hd]; norm_num at *; linarith
  have q : |√2 / 2 - 0.70710678118| ≤ 1e-11 := by
    have h1 : (1.41421356236 : ℝ) ≤ √2 := Real.le_sqrt_of_sq_le (by norm_num)
    have h2 : √2 ≤ (1.41421356238 : ℝ) := Real.sqrt_le_iff.2 ⟨by norm_num, by norm_num⟩
    rw [abs_le]; constructor <;> norm_num at * <;> linarith
  have c1 : Real.cos d ≤ 1 := Real.cos_le_one d
  have c2 : 1 - d ^ 2 / 2 ≤ Real.cos d := Real.one_sub_sq_div_two_le_cos
  have s1 : Real.sin d ≤ d := Real.sin_le d0
  have s2 : 0 ≤ Real.sin d := Real.sin_nonneg_of_nonneg_of_le_pi d0 (by norm_num at *; linarith)
  have hsq : d ^ 2 / 2 ≤ 1e-12 := by nlinarith
  have r1 : 0 ≤ √2 / 2 := by positivity
  have r2 : √2 / 2 ≤ 1 := by
    have := Real.sqrt_le_iff.2 (⟨by norm_num, by norm_num⟩ : (0 : ℝ) ≤ 2 ∧ (2 : ℝ) ≤ 2 ^ 2)
    linarith
  have sq : √2 / 2 * √2 / 2 ≤ 1 := by nlinarith [Real.mul_self_sqrt (show (0 : ℝ) ≤ 2 by norm_num)]
  obtain ⟨q1, q2⟩ := abs_le.1 q
  rw [e, ← hd, Real.cos_sub, Real.sin_sub, Real.cos_pi_div_four, Real.sin_pi_div_four]
  constructor <;> rw [abs_le] <;> constructor <;> norm_num at * <;> nlinarith

/-- **C87** (exact arithmetic): a new panner puts its input in the centre, as `process` does for position 0, up to `1e-10`. -/
theorem Pan2.C87_fresh (x : ℝ) : |(tick new x).left - (process x 0).left| ≤ |x| * 1e-10 ∧ |(tick new x).right - (process x 0).right| ≤ |x| * 1e-10 := by
  obtain ⟨h1, h2⟩ := centre_gains
  have e : (lit 0.70710678118 : ℝ) = 0.70710678118 := by simp only [real_arith]; norm_num
  rw [process_real]
  simp only [tick, new, e, ← mul_sub, abs_mul]
  rw [abs_sub_comm, abs_sub_comm _ (Real.sin _)]
  exact ⟨mul_le_mul_of_nonneg_left h1 (abs_nonneg _), mul_le_mul_of_nonneg_left h2 (abs_nonneg _)⟩

/-- **C87** (exact arithmetic): a new balancer is in the centre with full level. -/
theorem Balance2.C87_fresh (l r : ℝ) :
    |(tick new l r).left - (process l r 0 1).left| ≤ |l| * 1e-10 ∧ |(tick new l r).right - (process l r 0 1).right| ≤ |r| * 1e-10 := by
  obtain ⟨h1, h2⟩ := centre_gains
  have e : (lit 0.70710678118 : ℝ) = 0.70710678118 := by simp only [real_arith]; norm_num
  have p : process l r 0 1 = ⟨l * Real.cos (panAngle 0), r * Real.sin (panAngle 0)⟩ := by
    rw [← clamp_pan]; simp only [process, mul_one]; rfl
  rw [p]
  simp only [tick, new, e, ← mul_sub, abs_mul]
  rw [abs_sub_comm, abs_sub_comm _ (Real.sin _)]
  exact ⟨mul_le_mul_of_nonneg_left h1 (abs_nonneg _), mul_le_mul_of_nonneg_left h2 (abs_nonneg _)⟩

/-- **C87** (exact arithmetic): a new crossfader plays both inputs equally, at full level. -/
theorem XFade2.C87_fresh (a b : ℝ) : |tick new a b - process a b 0 1| ≤ (|a| + |b|) * 1e-10 := by
  obtain ⟨h1, h2⟩ := centre_gains
  have e : (lit 0.70710678118 : ℝ) = 0.70710678118 := by simp only [real_arith]; norm_num
  have p : process a b 0 1 = a * Real.cos (panAngle 0) + b * Real.sin (panAngle 0) := by
    rw [← clamp_pan]; simp only [process, computeGains, mul_one]; rfl
  rw [p]
  simp only [tick, new, e]
  rw [show a * 0.70710678118 + b * 0.70710678118 - (a * Real.cos (panAngle 0) + b * Real.sin (panAngle 0)) =
    -(a * (Real.cos (panAngle 0) - 0.70710678118) + b * (Real.sin (panAngle 0) - 0.70710678118)) by ring, abs_neg]
  refine (abs_add_le _ _).trans ?_
  rw [abs_mul, abs_mul, add_mul]
  exact add_le_add (mul_le_mul_of_nonneg_left h1 (abs_nonneg _)) (mul_le_mul_of_nonneg_left h2 (abs_nonneg _))

/-- **C87** (binary32): a new `Wrap` wraps to the unit interval. -/
theorem Wrap.C87_fresh (x : F32) : tick new x = process x (lit 0) (lit 1) := by
  have h : (lit 1 - lit 0 : F32) = lit 1 := by decide +kernel
  simp only [tick, new, process, h]
  rfl

example : Wrap.tick Wrap.new (lit 1.25 : F32) = lit 0.25 := by decide +kernel

/-! ### Oscillators start at 440 Hz -/

section
variable {α : Type} [Arith α] [Libm α]

/-- **C87** (any arithmetic): after `init` the oscillators run as after `setFrequency(440)`. -/
theorem C87_oscillators (sr ip : α) : SinOsc.setFrequency (lit 440) (SinOsc.init sr) = SinOsc.init sr ∧
    LFTri.setFrequency (lit 440) (LFTri.init sr ip) = LFTri.init sr ip ∧ SawDPW.setFrequency (lit 440) (SawDPW.init sr ip) = SawDPW.init sr ip :=
  ⟨rfl, rfl, rfl⟩

end

/-- **C87** (exact arithmetic): a new triangle oscillator is a 440 Hz triangle that starts at -1. -/
theorem LFTri.C87_fresh (sr : ℝ) (h : 440 ≤ sr) (n : ℕ) : tickOut tick n (init sr 0) = 1 - 4 * |Int.fract (n * (440 / sr)) - 1 / 2| := by
  have e : init sr 0 = setFrequency 440 (init sr (0 : ℝ)) := by
    have := (C87_oscillators (α := ℝ) sr 0).2.1
    rw [show (lit 440 : ℝ) = 440 by simp only [real_arith]; norm_num] at this
    exact this.symm
  have hp : (init sr (0 : ℝ)).phase = 0 := by simp [init, updatePhaseIncrement, real_arith]
  rw [e, C23_waveform _ 440 (by show 0 < sr; linarith) (by norm_num) (by exact h) hp.ge (by rw [hp]; norm_num) n, hp, zero_add]
  rfl

example : tickOut LFTri.tick 1 (LFTri.init (1760 : ℝ) 0) = 0 := by
  rw [LFTri.C87_fresh 1760 (by norm_num) 1]
  have : Int.fract (((1 : ℕ) : ℝ) * (440 / 1760)) = 1 / 4 := by rw [Int.fract_eq_iff]; exact ⟨by norm_num, by norm_num, 0, by norm_num⟩
  rw [this]; norm_num [abs_of_neg]

/-! ### XLine -/

/-- **C87** (exact arithmetic): a new line rises from 1 to 2 in one second and stays there. -/
theorem XLine.C87_fresh (sr : ℝ) (h : 0 < sr) (n : ℕ) :
    tickOut tick n (init sr) = (if (n : ℝ) < sr then 2 ^ ((n : ℝ) / sr) else 2) ∧ (isDone (tickState tick n (init sr)) = true ↔ sr ≤ n) := by
  have e : init sr = set 1 2 1 1 0 (init sr) := by
    have he : endpoints (1 : ℝ) 2 = (1, 2) := by simp [endpoints, real_arith]
    simp only [init, set, he, updateGrowthFactor, real_arith]
    norm_num
  obtain ⟨h1, h2⟩ := C20_closed_form (init sr) 1 2 1 1 0 (Or.inl ⟨one_pos, two_pos⟩) one_pos h n
  have hs : (init sr).sampleRate = sr := rfl
  rw [← e, hs, one_mul] at h1 h2
  refine ⟨?_, ?_⟩
  · rw [h1, curve]
    split_ifs <;> norm_num
  · rw [h2, Nat.ceil_le]

example : tickOut XLine.tick 12000 (XLine.init (48000 : ℝ)) = 2 ^ (1 / 4 : ℝ) := by
  rw [(XLine.C87_fresh 48000 (by norm_num) 12000).1, if_pos (by norm_num)]
  norm_num

/-! ### Phasor -/

namespace Phasor

/-- **C87, negative** (binary32): the usage example in the documentation of `Phasor` (`init(48000)`, then `set(1.0f, 0.0f, 1.0f)`) outputs 0 for ever;
so does a phasor that was only initialised: its step is as long as its range. -/
theorem C87_usage_example_stuck (sr : F32) (n : ℕ) : tickOut tick n (set (lit 1) (lit 0) (lit 1) (lit 0) (init sr)) = lit 0 ∧
    tickOut tick n (init sr) = lit 0 := by
  have e : set (lit 1) (lit 0) (lit 1) (lit 0) (init sr) = init sr := rfl
  rw [e, and_self]
  have w0 : wrap (lit 0 : F32) (lit 0) (lit 1) = lit 0 := by decide +kernel
  have w1 : wrap (lit 1 : F32) (lit 0) (lit 1) = lit 0 := by decide +kernel
  have a : (lit 0 + lit 1 : F32) = lit 1 := by decide +kernel
  have key : ∀ n, tickState tick (n + 1) (init sr) = { init sr with value := lit 1 } := by
    intro n
    induction n with
    | zero =>
      show (tick (init sr)).1 = _
      simp only [tick, init, w0, a]
    | succ n ih =>
      rw [tickState_succ, ih]
      simp only [tick, init, w1, a]
  cases n with
  | zero => exact w0
  | succ n =>
    rw [tickOut, key n]
    exact w1

/-- **C21** (exact arithmetic): moving the loop points of a running phasor. From then on every output is inside the new range; and if the phasor is
inside it already it goes on from where it is, without a jump. -/
theorem C21_move_range (s : Ph ℝ) (a b : ℝ) (h : a < b) (n : ℕ) :
    (a ≤ tickOut tick n (setStart a (setEnd b s)) ∧ tickOut tick n (setStart a (setEnd b s)) < b) ∧
    (a ≤ s.value → s.value < b → tickOut tick 0 (setStart a (setEnd b s)) = s.value) := by
  have key : ∀ n, (tickState tick n (setStart a (setEnd b s))).start = a ∧ (tickState tick n (setStart a (setEnd b s))).stop = b := by
    intro n
    induction n with
    | zero => exact ⟨rfl, rfl⟩
    | succ n ih => rw [tickState_succ]; exact ih
  constructor
  · obtain ⟨k1, k2⟩ := key n
    have := (C21_in_range (tickState tick n (setStart a (setEnd b s)))).1 (by rw [k1, k2]; exact h)
    rw [k1, k2] at this
    exact this
  · intro h1 h2
    show wrap s.value a b = s.value
    simp only [wrap, real_arith]
    rw [if_pos (by push_cast; linarith), if_neg (by simp [not_le.2 h2, not_lt.2 h1])]

/-- **C21** (exact arithmetic): a trigger sends the phasor to the reset position that was set, and on from there at the rate that was set. -/
theorem C21_reset_pos (s : Ph ℝ) (p r trig : ℝ) (h0 : s.prevTrig ≤ 0) (h1 : 0 < trig) (h2 : s.start ≤ p) (h3 : p < s.stop) :
    (tickTrig (setRate r (setResetPos p s)) trig).2 = p ∧ (tickTrig (setRate r (setResetPos p s)) trig).1.value = p + r := by
  have hw : wrap p s.start s.stop = p := by
    simp only [wrap, real_arith]
    rw [if_pos (by push_cast; linarith), if_neg (by simp [not_le.2 h3, not_lt.2 h2])]
  have hc : (((setRate r (setResetPos p s)).prevTrig <=. lit 0) && (trig >. lit 0)) = true := by
    simp [setRate, setResetPos, real_arith, h0, h1]
  unfold tickTrig
  rw [if_pos hc]
  simp only [tick, setRate, setResetPos, hw, and_self]

example : (tickTrig (setRate 5 (setResetPos 3 { value := 9, rate := 1, start := 2, stop := 10, resetPos := 0, prevTrig := 0, sampleRate := 48000 : Ph ℝ })) 1).2 = 3 :=
  (C21_reset_pos _ 3 5 1 le_rfl one_pos (by norm_num) (by norm_num)).1

example : tickOut tick 0 (setStart 4 (setEnd 8 { value := 5, rate := 1, start := 0, stop := 6, resetPos := 0, prevTrig := 0, sampleRate := 48000 : Ph ℝ })) = 5 :=
  (C21_move_range _ 4 8 (by norm_num) 0).2 (by norm_num) (by norm_num)

end Phasor

/-! ### LagLinear -/

/-- **C18** (any arithmetic): `setValue` stops any ramp: the smoother is at the value at once and stays there while the input does. -/
theorem LagLinear.C18_set_value {α : Type} [Arith α] (s : Ramp α) (x : α) (hx : (x ==. x) = true) (k : ℕ) :
    ∃ s', process (setValue x s) (List.replicate k x) = some (s', List.replicate k x) := by
  obtain ⟨s', ys, h1, h2, h3, -, -⟩ := land_from hx k (setValue x s) rfl
  have e : ys = List.replicate k x := by
    rw [List.eq_replicate_iff]
    refine ⟨h2, fun y hy => ?_⟩
    obtain ⟨i, hi, rfl⟩ := List.mem_iff_getElem.mp hy
    have := h3 i (by omega) (by show (0 : ℤ) ≤ _; omega)
    rw [List.getElem?_eq_getElem hi] at this
    simpa using this
  exact ⟨s', e ▸ h1⟩

example (s : LagLinear.Ramp ℝ) : ∃ s', LagLinear.process (LagLinear.setValue 0.25 s) [0.25, 0.25] = some (s', [0.25, 0.25]) :=
  LagLinear.C18_set_value s 0.25 (by simp [real_arith]) 2

/-! ### Buffer -/

/-- **C10** (exact arithmetic): `duration` is the time span of the readable frames: frame `i` starts before the end exactly if it is in the buffer; an
empty buffer and one without a rate have duration 0. -/
theorem Buffer.C10_duration (b : Buffer ℝ) : (0 < b.sampleRate → ∀ i : ℕ, (i < b.numSamples ↔ i / b.sampleRate < b.duration)) ∧
    (b.numSamples = 0 ∨ b.sampleRate ≤ 0 → b.duration = 0) := by
  have e : b.duration = if b.sampleRate ≤ 0 then 0 else (b.numSamples : ℝ) / b.sampleRate := by
    simp only [Buffer.duration, Arith.ofNat, real_arith]
    simp
  rw [e]
  refine ⟨fun h i => ?_, fun h => ?_⟩
  · rw [if_neg (not_le.2 h), div_lt_div_iff_of_pos_right h, Nat.cast_lt]
  · split_ifs with h'
    · rfl
    · rcases h with h | h
      · rw [h]; simp
      · exact absurd h h'

example : (Buffer.duration { data := .at 0 0, channels := 2, sampleRate := 48000, numSamples := 96000 } : ℝ) = 2 := by
  simp only [Buffer.duration, Arith.ofNat, real_arith]
  norm_num

/-! ### BufferAllocator -/

/-- **C87** (any arithmetic, any pool): before `init` an allocator hands out nothing, takes nothing back and changes nothing, whatever its
uninitialised table holds. -/
theorem BufferAllocator.C87_before_init {α : Type} [Arith α] (P M obj : ℕ) (junk : List Block) (n ch : ℕ) (b : Buffer α) (m : Mem α) :
    allocate P M n ch (construct obj junk : Alloc α) = some (construct obj junk, .empty) ∧
    release P b (construct obj junk) = some (construct obj junk, false) ∧
    reset P (construct obj junk : Alloc α) m = some (construct obj junk, m) ∧ freeSpace (construct obj junk : Alloc α) = some 0 :=
  ⟨rfl, rfl, rfl, rfl⟩

/-- **C87, negative**: but it reports the whole pool as used. -/
theorem BufferAllocator.C87_used_before_init {α : Type} [Arith α] (P : ℕ) (hP : P < 2 ^ 64) (obj : ℕ) (junk : List Block) :
    usedSpace P (construct obj junk : Alloc α) = some P := by
  have h : szSub P 0 = P := by
    unfold szSub
    omega
  exact congrArg some h

/-! ### The default sample rate -/

/-- **C87** (any arithmetic): an allocator and a buffer that were told no sample rate are at 48 kHz. -/
theorem C87_default_rate {α : Type} [Arith α] (obj : ℕ) (junk : List BufferAllocator.Block) :
    (BufferAllocator.construct obj junk : BufferAllocator.Alloc α).rate = lit 48000 ∧ (Buffer.empty : Buffer α).sampleRate = lit 48000 ∧
      (Buffer.empty : Buffer α).channels = 1 ∧ (Buffer.empty : Buffer α).numSamples = 0 := ⟨rfl, rfl, rfl, rfl⟩

/-- **C87** (exact arithmetic): a player that was told no sample rate moves through a recording of `r` Hz by `r / 48000` frames per tick,
forwards. -/
theorem XPlay.C87_fresh_rate (reader : BufRd.Reader ℝ) (lag : LagLinear.Ramp ℝ) (env : EnvelopeADSR.Env ℝ) (b : Buffer ℝ)
    (h : 0 < b.sampleRate) : effectiveRate (new reader lag env) b = b.sampleRate / 48000 := by
  simp [effectiveRate, new, DEFAULT_SAMPLE_RATE, real_arith, h]

example (reader : BufRd.Reader ℝ) (lag : LagLinear.Ramp ℝ) (env : EnvelopeADSR.Env ℝ) :
    XPlay.effectiveRate (XPlay.new reader lag env) { data := .at 0 0, channels := 2, sampleRate := 96000, numSamples := 10 } = 2 := by
  rw [XPlay.C87_fresh_rate _ _ _ _ (by norm_num)]; norm_num

end Verif
