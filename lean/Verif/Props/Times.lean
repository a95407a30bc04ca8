import Verif.Props.Lag
import Verif.Props.CombLine
import Verif.Model.Envelopes
import Mathlib.Analysis.Complex.ExponentialBounds

/-!
# C66 and C67: do the times passed to `Lag`, `CombC` and the envelopes mean what their documentation says?

All statements are about ideal arithmetic. A level of -60 dB is a factor of 1/1000.
-/

namespace Verif

/-- The constant `6.907755` of Lag.h:92 and CombC.h:207 stands for `ln 1000`. -/
theorem sixty_dB : (1/1000 : ℝ) ≤ Real.exp (-6.907755) ∧ Real.exp (-6.907755) ≤ 0.0010000003 := by
  have hb := Real.exp_bound' (x := 6.907755 / 8) (by norm_num) (by norm_num) (n := 14) (by norm_num)
  have hl := Real.sum_le_exp_of_nonneg (x := 6.907755 / 8) (by norm_num) 14
  have e8 : Real.exp 6.907755 = Real.exp (6.907755 / 8) ^ 8 := by
    rw [← Real.exp_nat_mul]; congr 1; norm_num
  have h1 : (999.99971 : ℝ) ≤ Real.exp 6.907755 := by
    rw [e8]
    refine le_trans ?_ (pow_le_pow_left₀ (by positivity) hl 8)
    norm_num [Finset.sum_range_succ, Nat.factorial]
  have h2 : Real.exp 6.907755 ≤ 1000 := by
    rw [e8]
    refine le_trans (pow_le_pow_left₀ (Real.exp_pos _).le hb 8) ?_
    norm_num [Finset.sum_range_succ, Nat.factorial]
  have hp := Real.exp_pos (6.907755 : ℝ)
  rw [Real.exp_neg]
  constructor
  · rw [one_div]; exact inv_anti₀ hp h2
  · rw [inv_le_comm₀ hp (by norm_num)]
    refine le_trans ?_ h1
    norm_num

/-! ### C66: 60 dB -/

namespace Lag

/-- **C66**: fed with a constant `c`, the distance of a `Lag` from `c` is at least 1/1000 of what it was as long as the lag time has not
passed, and at most 1/1000 (to a relative accuracy of `3e-7`) from then on. `n` counts ticks, so `n / sampleRate` is the time passed. -/
theorem C66_lag (s : Filt ℝ) (hsr : 0 < s.sampleRate) (t : ℝ) (ht : 0 < t) (c : ℝ) (n : ℕ) :
    let before := |s.prevOutput - c|
    let after := |(tickState (fun s => tick s c) n (setLagTime t s)).prevOutput - c|
    (n / s.sampleRate ≤ t → 1 / 1000 * before ≤ after) ∧ (t ≤ n / s.sampleRate → after ≤ 0.0010000003 * before) := by
  intro before after
  have h : after = Real.exp (-6.907755 * (n / (t * s.sampleRate))) * before := by
    show |_| = _
    rw [(C19_decay s hsr t ht c n).1, abs_mul, abs_of_pos (Real.exp_pos _)]
  rw [h]
  have hb : 0 ≤ before := abs_nonneg _
  have e : (n : ℝ) / (t * s.sampleRate) = n / s.sampleRate / t := by field_simp
  rw [e]
  constructor
  · intro hn
    refine mul_le_mul_of_nonneg_right (sixty_dB.1.trans ?_) hb
    rw [Real.exp_le_exp]
    have : n / s.sampleRate / t ≤ 1 := by rwa [div_le_one ht]
    linarith
  · intro hn
    refine mul_le_mul_of_nonneg_right (le_trans ?_ sixty_dB.2) hb
    rw [Real.exp_le_exp]
    have : 1 ≤ n / s.sampleRate / t := by rwa [one_le_div ht]
    linarith

/-- The other figure of the documentation, "within 0.01%" (Lag.h:7, 29, 78), is not what 60 dB is: when the lag time has just passed
the distance is still ten times that. -/
theorem C66_lag_percent (s : Filt ℝ) (hsr : 0 < s.sampleRate) (t : ℝ) (ht : 0 < t) (c : ℝ) (hc : s.prevOutput ≠ c) (n : ℕ)
    (hn : n = t * s.sampleRate) :
    ¬ |(tickState (fun s => tick s c) n (setLagTime t s)).prevOutput - c| ≤ 0.01 / 100 * |s.prevOutput - c| := by
  have h := (C66_lag s hsr t ht c n).1 (by rw [hn]; field_simp; exact le_refl _)
  have h0 : 0 < |s.prevOutput - c| := abs_pos.2 (sub_ne_zero.2 hc)
  intro h2
  linarith

/-- From 0 to 1 in 0.1 s at 48 kHz: 4800 ticks. -/
example : (4800 : ℕ) / (init (α := ℝ) 48000 0.1).sampleRate = 0.1 ∧ (init (α := ℝ) 48000 0.1).prevOutput ≠ 1 := by
  have h : (init (α := ℝ) 48000 0.1).sampleRate = 48000 ∧ (init (α := ℝ) 48000 0.1).prevOutput = 0 := by
    simp only [init, setLagTime]; constructor <;> split_ifs <;> simp [real_arith]
  rw [h.1, h.2]; norm_num

end Lag

namespace CombC

/-- **C66**: the echoes of an impulse: the first comes after `dt` at full level; an echo `T` seconds later is at least at -60 dB as long as
`T` is no longer than the decay time, and at most at -60 dB (to a relative accuracy of `3e-7`) from then on. The delay is a whole number
`d` of samples, `k` counts echoes. -/
theorem C66_comb (sr md dt dc : ℝ) (d : ℕ) (hsr : 0 ≤ sr) (hmd : 0 ≤ md) (h1 : 0 ≤ dt) (h2 : dt ≤ md)
    (hp : md * sr ≤ 2 ^ 62) (hd1 : 1 ≤ d) (hd : dt * sr = d) (hdc : dc ≠ 0) (fuel : ℕ) (hf : 1 ≤ fuel) (m : ℕ) :
    ∃ s0 s' ys, init sr md = some s0 ∧
      process fuel (setDecayTime dc (setDelayTime dt s0)) (1 :: List.replicate m 0) = some (s', ys) ∧
      (∀ n ≤ m, ¬ d ∣ n → ys.getD n 0 = 0) ∧
      ∀ k, (k + 1) * d ≤ m →
        (k = 0 → ys.getD ((k + 1) * d) 0 = 1) ∧
        (k * dt ≤ |dc| → 1 / 1000 ≤ |ys.getD ((k + 1) * d) 0|) ∧
        (|dc| ≤ k * dt → |ys.getD ((k + 1) * d) 0| ≤ 0.0010000003) := by
  obtain ⟨s0, s', ys, a, b, e⟩ := C35_echoes sr md dt dc d hsr hmd h1 h2 hp hd1 hd fuel hf m
  refine ⟨s0, s', ys, a, b, fun n hn hnd => ?_, fun k hk => ?_⟩
  · rw [e n hn, if_neg (fun h => hnd h.1)]
  have hk' := e _ hk
  rw [if_pos ⟨Dvd.intro_left _ rfl, by positivity⟩, Nat.mul_div_cancel _ (by omega), Nat.add_sub_cancel] at hk'
  have hg : |gain dt dc| = Real.exp (-6.907755 * (dt / |dc|)) := by
    have hpos := Real.exp_pos (-6.907755 * (dt / |dc|))
    rcases lt_or_gt_of_ne hdc with h | h
    · simp only [gain, if_neg hdc, sign_neg h]; simp
    · simp only [gain, if_neg hdc, sign_pos h]; simp
  have habs : |ys.getD ((k + 1) * d) 0| = Real.exp (-6.907755 * (k * dt / |dc|)) := by
    rw [hk', abs_pow, hg, ← Real.exp_nat_mul]; congr 1; ring
  have hdc' : 0 < |dc| := abs_pos.2 hdc
  refine ⟨fun h0 => by rw [hk', h0, pow_zero], fun h => ?_, fun h => ?_⟩
  · rw [habs]
    refine sixty_dB.1.trans ?_
    rw [Real.exp_le_exp]
    have : k * dt / |dc| ≤ 1 := by rwa [div_le_one hdc']
    linarith
  · rw [habs]
    refine le_trans ?_ sixty_dB.2
    rw [Real.exp_le_exp]
    have : 1 ≤ k * dt / |dc| := by rwa [one_le_div hdc']
    linarith

/-- The defaults of `CombC` at 48 kHz: delay 0.2 s, decay 1 s, so the fifth echo after the first is at -60 dB. -/
example : (0.2 : ℝ) * 48000 = (9600 : ℕ) ∧ (5 : ℕ) * (0.2 : ℝ) = |1| := by constructor <;> norm_num

end CombC

/-! ### C67: how long the stages of the envelopes take -/

/-- Exponential approach from `v` to `goal` with time constant `t` seconds, `n` samples after the start. -/
noncomputable def approach (v goal t sr : ℝ) (n : ℕ) : ℝ := goal + (v - goal) * Real.exp (-(n / (t * sr)))

theorem approach_zero (v goal t sr : ℝ) : approach v goal t sr 0 = v := by simp [approach]

theorem approach_succ (v goal t sr : ℝ) (n : ℕ) :
    approach v goal t sr (n + 1) = goal + Real.exp (-1 / (t * sr)) * (approach v goal t sr n - goal) := by
  have : Real.exp (-(((n + 1 : ℕ) : ℝ) / (t * sr))) = Real.exp (-1 / (t * sr)) * Real.exp (-(n / (t * sr))) := by
    rw [← Real.exp_add]; congr 1; push_cast; ring
  simp only [approach, this]; ring

/-- The number of samples (not necessarily whole) after which an approach over the distance `dist` is within `eps` of its goal. -/
noncomputable def settling (t sr dist eps : ℝ) : ℝ := t * sr * Real.log (dist / eps)

theorem settling_le_iff {t sr dist eps : ℝ} (hT : 0 < t * sr) (hd : 0 < dist) (he : 0 < eps) (n : ℕ) :
    settling t sr dist eps ≤ n ↔ dist * Real.exp (-(n / (t * sr))) ≤ eps := by
  have h1 : settling t sr dist eps ≤ n ↔ Real.log (dist / eps) ≤ n / (t * sr) := by
    rw [settling, le_div_iff₀ hT, mul_comm]
  rw [h1, Real.log_le_iff_le_exp (by positivity), Real.exp_neg, ← div_eq_mul_inv, div_le_iff₀ he, div_le_iff₀ (Real.exp_pos _), mul_comm]

theorem settling_lt_iff {t sr dist eps : ℝ} (hT : 0 < t * sr) (hd : 0 < dist) (he : 0 < eps) (n : ℕ) :
    settling t sr dist eps < n ↔ dist * Real.exp (-(n / (t * sr))) < eps := by
  have h1 : settling t sr dist eps < n ↔ Real.log (dist / eps) < n / (t * sr) := by
    rw [settling, lt_div_iff₀ hT, mul_comm]
  rw [h1, Real.log_lt_iff_lt_exp (by positivity), Real.exp_neg, ← div_eq_mul_inv, div_lt_iff₀ he, div_lt_iff₀ (Real.exp_pos _), mul_comm]

/-- With the thresholds of the code, 0.001 below the top of the attack and 0.0001 at the end of the release, settling takes more than 6.9
and 9.2 time constants. -/
theorem settling_full {t sr : ℝ} (hT : 0 < t * sr) :
    6.9 * (t * sr) < settling t sr 1 0.001 ∧ 9.2 * (t * sr) < settling t sr 1 0.0001 := by
  have h : (6.907755 : ℝ) ≤ Real.log 1000 := by
    rw [Real.le_log_iff_exp_le (by norm_num)]
    have := sixty_dB.1
    rw [Real.exp_neg, one_div] at this
    exact (inv_le_inv₀ (by norm_num) (Real.exp_pos _)).1 this
  have h3 : Real.log 1000 = 3 * Real.log 10 := by
    rw [show (1000:ℝ) = 10 ^ 3 by norm_num, Real.log_pow]; norm_num
  have h4 : Real.log 10000 = 4 * Real.log 10 := by
    rw [show (10000:ℝ) = 10 ^ 4 by norm_num, Real.log_pow]; norm_num
  unfold settling
  rw [show (1:ℝ) / 0.001 = 1000 by norm_num, show (1:ℝ) / 0.0001 = 10000 by norm_num]
  constructor <;> nlinarith

namespace EnvelopeAR

/-- The coefficients belong to the times. -/
def Tuned (s : Env ℝ) : Prop :=
  s.attackCoeff = Real.exp (-1 / (s.attackTime * s.sampleRate)) ∧ s.releaseCoeff = Real.exp (-1 / (s.releaseTime * s.sampleRate)) ∧
    0 < s.attackTime ∧ 0 < s.releaseTime

theorem tick_settings {α : Type} [Arith α] (s : Env α) :
    (tick s).1.attackCoeff = s.attackCoeff ∧ (tick s).1.releaseCoeff = s.releaseCoeff ∧ (tick s).1.attackTime = s.attackTime ∧
      (tick s).1.releaseTime = s.releaseTime ∧ (tick s).1.sampleRate = s.sampleRate ∧ (tick s).1.gate = s.gate := by
  unfold tick
  dsimp only
  split
  · split_ifs <;> simp
  · split_ifs <;> simp
  · simp

/-- Every history of calls leaves the coefficients in step with the times. -/
theorem tuned_run (sr : ℝ) (ops : List (Op ℝ)) : Tuned (run (init sr) ops) := by
  have hi : ∀ sr : ℝ, Tuned (init sr) := by
    intro sr
    refine ⟨?_, ?_, ?_, ?_⟩ <;>
      simp [init, updateCoefficients, updateReleaseCoefficient, updateAttackCoefficient, real_arith] <;> norm_num
  have ht : ∀ s : Env ℝ, Tuned s → Tuned (tick s).1 := by
    intro s h
    obtain ⟨a, b, c, d, e, -⟩ := tick_settings s
    unfold Tuned; rw [a, b, c, d, e]; exact h
  have hfe : ∀ {β γ : Type} (f : Env ℝ → β → Env ℝ × γ), (∀ s b, (f s b).1 = (tick s).1) → ∀ (l : List β) (s : Env ℝ), Tuned s →
      Tuned (forEach f s l).1 := by
    intro β γ f hf l
    induction l with
    | nil => intro s h; exact h
    | cons b l ih => intro s h; exact ih _ (by rw [hf]; exact ht s h)
  have hpos : ∀ t : ℝ, 0 < (if t >. lit 0.0001 then t else (lit 0.0001 : ℝ)) := by
    intro t
    simp only [real_arith]
    split_ifs with h
    · push_cast at h; linarith
    · norm_num
  have hstep : ∀ (s : Env ℝ) (op : Op ℝ), Tuned s → Tuned (step s op).1 := by
    intro s op h
    cases op with
    | init sr => exact hi sr
    | setAttack t => exact ⟨by simp [step, setAttack, updateAttackCoefficient, real_arith], h.2.1, hpos t, h.2.2.2⟩
    | setRelease t => exact ⟨h.1, by simp [step, setRelease, updateReleaseCoefficient, real_arith], h.2.2.1, hpos t⟩
    | trigger => exact h
    | release => exact h
    | setGate g =>
      show Tuned (setGate g s)
      unfold setGate; split_ifs <;> exact h
    | tick => exact ht s h
    | process buf => exact hfe _ (fun _ _ => rfl) buf s h
    | processMul buf => exact hfe (fun s b => let (s', o) := tick s; (s', b * o)) (fun _ _ => rfl) buf s h
    | reset => exact h
  unfold run
  generalize hs : init sr = s0
  have h0 : Tuned s0 := hs ▸ hi sr
  clear hs
  induction ops generalizing s0 with
  | nil => exact h0
  | cons op ops ih => exact ih _ (hstep s0 op h0)

/-- **C67** (attack): with the gate held, an attack from level `v` follows the exponential curve with the attack time as its time constant
until it is within 0.001 of the top, which takes `attackTime * ln (1000 (1 - v))` seconds, then stays at exactly 1.

Missing from the documented behaviour ("0 -> 1 over attack time"): the attack takes more than the attack time, see
`C67_ar_too_slow`. -/
theorem C67_ar_attack_partial (s : Env ℝ) (ht : Tuned s) (hsr : 0 < s.sampleRate) (hst : s.state = .attack) (hg : s.gate = true)
    (hv : s.value < 0.999) (n : ℕ) :
    let s' := tickState tick n s
    let D := settling s.attackTime s.sampleRate (1 - s.value) 0.001
    s'.state = .attack ∧ (n < D → s'.value = approach s.value 1 s.attackTime s.sampleRate n) ∧ (D ≤ n → s'.value = 1) := by
  obtain ⟨hc, -, hta, -⟩ := ht
  have hT : 0 < s.attackTime * s.sampleRate := mul_pos hta hsr
  have hlt : ∀ n : ℕ, settling s.attackTime s.sampleRate (1 - s.value) 0.001 ≤ n ↔
      0.999 ≤ approach s.value 1 s.attackTime s.sampleRate n := by
    intro n
    rw [settling_le_iff hT (by linarith) (by norm_num)]
    simp only [approach]
    constructor <;> intro h <;> linarith
  have hmono : ∀ n : ℕ, 0.999 ≤ approach s.value 1 s.attackTime s.sampleRate n →
      0.999 ≤ approach s.value 1 s.attackTime s.sampleRate (n + 1) := by
    intro n h
    rw [← hlt] at h ⊢
    push_cast; linarith
  suffices h : (tickState tick n s).state = .attack ∧ (tickState tick n s).gate = true ∧
      (tickState tick n s).attackCoeff = s.attackCoeff ∧ (tickState tick n s).value =
        if 0.999 ≤ approach s.value 1 s.attackTime s.sampleRate n then 1 else approach s.value 1 s.attackTime s.sampleRate n by
    refine ⟨h.1, fun h1 => ?_, fun h1 => ?_⟩
    · rw [h.2.2.2, if_neg]; rw [← hlt]; linarith
    · rw [h.2.2.2, if_pos ((hlt n).1 h1)]
  induction n with
  | zero => rw [tickState_zero, approach_zero]; exact ⟨hst, hg, rfl, by rw [if_neg (by linarith)]⟩
  | succ n ih =>
    rw [tickState_succ]
    obtain ⟨i1, i2, i3, i4⟩ := ih
    generalize tickState tick n s = u at i1 i2 i3 i4
    obtain ⟨-, -, -, -, -, hgate⟩ := tick_settings u
    have hstep : (tick u).1.state = .attack ∧ (tick u).1.attackCoeff = u.attackCoeff ∧ (tick u).1.value =
        if 0.999 ≤ 1 + s.attackCoeff * (u.value - 1) then 1 else 1 + s.attackCoeff * (u.value - 1) := by
      have e : (1:ℝ) - s.attackCoeff * (1 - u.value) = 1 + s.attackCoeff * (u.value - 1) := by ring
      unfold tick
      rw [i1]
      simp only [real_arith, i2, i3]
      push_cast
      rw [e]
      by_cases h : (0.999 : ℝ) ≤ 1 + s.attackCoeff * (u.value - 1)
      · simp [h]
      · simp [h]
    refine ⟨hstep.1, by rw [hgate, i2], by rw [hstep.2.1, i3], ?_⟩
    rw [hstep.2.2, i4]
    by_cases h : (0.999 : ℝ) ≤ approach s.value 1 s.attackTime s.sampleRate n
    · rw [if_pos h, if_pos (hmono n h)]; norm_num
    · rw [if_neg h, approach_succ, hc]

/-- **C67** (release): a release from level `v` follows the exponential curve with the release time as its time constant until it is at 0.0001,
which takes `releaseTime * ln (10000 v)` seconds, then the envelope is idle at exactly 0.

Missing from the documented behaviour: the release takes more than the release time, see `C67_ar_too_slow`. -/
theorem C67_ar_release_partial (s : Env ℝ) (ht : Tuned s) (hsr : 0 < s.sampleRate) (hst : s.state = .release) (hv : 0.0001 < s.value)
    (n : ℕ) :
    let s' := tickState tick n s
    let D := settling s.releaseTime s.sampleRate s.value 0.0001
    (n < D → s'.state = .release ∧ s'.value = approach s.value 0 s.releaseTime s.sampleRate n) ∧
      (D ≤ n → s'.state = .idle ∧ s'.value = 0) := by
  obtain ⟨-, hc, -, hta⟩ := ht
  have hT : 0 < s.releaseTime * s.sampleRate := mul_pos hta hsr
  have hlt : ∀ n : ℕ, settling s.releaseTime s.sampleRate s.value 0.0001 ≤ n ↔
      approach s.value 0 s.releaseTime s.sampleRate n ≤ 0.0001 := by
    intro n
    rw [settling_le_iff hT (by linarith) (by norm_num)]
    simp only [approach, sub_zero, zero_add]
  have hmono : ∀ n : ℕ, approach s.value 0 s.releaseTime s.sampleRate n ≤ 0.0001 →
      approach s.value 0 s.releaseTime s.sampleRate (n + 1) ≤ 0.0001 := by
    intro n h
    rw [← hlt] at h ⊢
    push_cast; linarith
  suffices h : (tickState tick n s).releaseCoeff = s.releaseCoeff ∧
      ((tickState tick n s).state, (tickState tick n s).value) =
        if approach s.value 0 s.releaseTime s.sampleRate n ≤ 0.0001 then (.idle, 0)
        else (.release, approach s.value 0 s.releaseTime s.sampleRate n) by
    obtain ⟨-, h⟩ := h
    refine ⟨fun h1 => ?_, fun h1 => ?_⟩
    · rw [if_neg] at h
      · exact Prod.mk.injEq _ _ _ _ ▸ h
      · rw [← hlt]; linarith
    · rw [if_pos ((hlt n).1 h1)] at h
      exact Prod.mk.injEq _ _ _ _ ▸ h
  induction n with
  | zero => rw [tickState_zero, approach_zero]; exact ⟨rfl, by rw [if_neg (by linarith), hst]⟩
  | succ n ih =>
    rw [tickState_succ]
    obtain ⟨i3, i4⟩ := ih
    generalize tickState tick n s = u at i3 i4
    refine ⟨by rw [(tick_settings u).2.1, i3], ?_⟩
    by_cases h : approach s.value 0 s.releaseTime s.sampleRate n ≤ 0.0001
    · rw [if_pos h] at i4
      rw [if_pos (hmono n h)]
      have hi : u.state = .idle := congrArg Prod.fst i4
      unfold tick; rw [hi]; simp [real_arith]
    · rw [if_neg h] at i4
      have hi : u.state = .release := congrArg Prod.fst i4
      have hval : u.value = _ := congrArg Prod.snd i4
      have e : approach s.value 0 s.releaseTime s.sampleRate (n + 1) = u.releaseCoeff * u.value := by
        rw [approach_succ, i3, hc, hval]; ring
      rw [e]
      unfold tick
      rw [hi]
      simp only [real_arith]
      push_cast
      have e2 : (1 / 10000 : ℝ) = 0.0001 := by norm_num
      by_cases h2 : u.releaseCoeff * u.value ≤ 0.0001
      · rw [if_pos h2, if_pos (by linarith)]
      · rw [if_neg h2, if_neg (by linarith)]

/-- **C67** is false as documented: for every attack and release time the attack from 0 is still below 0.64 when the attack time has passed and
takes more than 6.9 attack times; the release from 1 is still above 0.36 when the release time has passed and takes more than 9.2 release
times. -/
theorem C67_ar_too_slow (s : Env ℝ) (ht : Tuned s) (hsr : 0 < s.sampleRate) (n : ℕ) :
    (s.state = .attack → s.gate = true → s.value = 0 →
      (n / s.sampleRate ≤ s.attackTime → (tickState tick n s).value < 0.64) ∧
      (n / s.sampleRate ≤ 6.9 * s.attackTime → (tickState tick n s).value ≠ 1)) ∧
    (s.state = .release → s.value = 1 →
      (n / s.sampleRate ≤ s.releaseTime → 0.36 < (tickState tick n s).value) ∧
      (n / s.sampleRate ≤ 9.2 * s.releaseTime → (tickState tick n s).state = .release)) := by
  have he : (0.36 : ℝ) < Real.exp (-1) := lt_trans (by norm_num) Real.exp_neg_one_gt_d9
  constructor
  · intro hst hg hv
    have hT : 0 < s.attackTime * s.sampleRate := mul_pos ht.2.2.1 hsr
    obtain ⟨-, h1, -⟩ := C67_ar_attack_partial s ht hsr hst hg (by rw [hv]; norm_num) n
    rw [hv, sub_zero] at h1
    have hD := (settling_full hT).1
    have hval : (n : ℝ) / s.sampleRate ≤ 6.9 * s.attackTime → (tickState tick n s).value =
        1 - Real.exp (-(n / (s.attackTime * s.sampleRate))) := by
      intro h
      rw [div_le_iff₀ hsr] at h
      rw [h1 (by linarith)]; simp only [approach]; ring
    refine ⟨fun h => ?_, fun h => ?_⟩
    · rw [hval (by linarith [ht.2.2.1])]
      have : Real.exp (-1) ≤ Real.exp (-(n / (s.attackTime * s.sampleRate))) := by
        rw [Real.exp_le_exp, neg_le_neg_iff, div_le_one hT, ← div_le_iff₀ hsr]; exact h
      linarith
    · rw [hval h]
      have := Real.exp_pos (-((n:ℝ) / (s.attackTime * s.sampleRate)))
      intro h; linarith
  · intro hst hv
    have hT : 0 < s.releaseTime * s.sampleRate := mul_pos ht.2.2.2 hsr
    obtain ⟨h1, -⟩ := C67_ar_release_partial s ht hsr hst (by rw [hv]; norm_num) n
    rw [hv] at h1
    have hD := (settling_full hT).2
    have hval : (n : ℝ) / s.sampleRate ≤ 9.2 * s.releaseTime → (tickState tick n s).state = .release ∧ (tickState tick n s).value =
        Real.exp (-(n / (s.releaseTime * s.sampleRate))) := by
      intro h
      rw [div_le_iff₀ hsr] at h
      obtain ⟨a, b⟩ := h1 (by linarith)
      exact ⟨a, by rw [b]; simp only [approach]; ring⟩
    refine ⟨fun h => ?_, fun h => (hval h).1⟩
    rw [(hval (by linarith [ht.2.2.2])).2]
    have : Real.exp (-1) ≤ Real.exp (-(n / (s.releaseTime * s.sampleRate))) := by
      rw [Real.exp_le_exp, neg_le_neg_iff, div_le_one hT, ← div_le_iff₀ hsr]; exact h
    linarith

/-- A triggered envelope meets the hypotheses. -/
example (sr t : ℝ) : Tuned (run (init sr) [.setAttack t, .trigger]) ∧ (run (init sr) [.setAttack t, .trigger]).state = .attack ∧
    (run (init sr) [.setAttack t, .trigger]).gate = true ∧ (run (init sr) [.setAttack t, .trigger]).value = 0 :=
  ⟨tuned_run _ _, rfl, rfl, by
    simp [run, step, trigger, setAttack, updateAttackCoefficient, init, updateCoefficients, updateReleaseCoefficient, real_arith]⟩

end EnvelopeAR

namespace EnvelopeADSR

/-- The coefficients belong to the times. -/
def Tuned (s : Env ℝ) : Prop :=
  s.attackCoeff = Real.exp (-1 / (s.attackTime * s.sampleRate)) ∧ s.decayCoeff = Real.exp (-1 / (s.decayTime * s.sampleRate)) ∧
    s.releaseCoeff = Real.exp (-1 / (s.releaseTime * s.sampleRate)) ∧ 0 < s.attackTime ∧ 0 < s.decayTime ∧ 0 < s.releaseTime

/-- What `tick` leaves alone. -/
def settings {α : Type} (s : Env α) : (α × α × α) × (α × α × α) × α × α × α :=
  ((s.attackCoeff, s.decayCoeff, s.releaseCoeff), (s.attackTime, s.decayTime, s.releaseTime), s.sampleRate, s.sustainLevel, s.gateValue)

theorem tick_settings {α : Type} [Arith α] (s : Env α) : settings (tick s).1 = settings s := by
  unfold tick
  dsimp only
  split
  · split_ifs <;> rfl
  · split_ifs <;> rfl
  · split_ifs <;> rfl
  · split_ifs <;> rfl
  · rfl

theorem tuned_of_settings {s t : Env ℝ} (h : settings t = settings s) (ht : Tuned s) : Tuned t := by
  simp only [settings, Prod.mk.injEq] at h
  unfold Tuned
  rw [h.1.1, h.1.2.1, h.1.2.2, h.2.1.1, h.2.1.2.1, h.2.1.2.2, h.2.2.1]
  exact ht

/-- Every history of calls leaves the coefficients in step with the times. -/
theorem tuned_run (sr : ℝ) (ops : List (Op ℝ)) : Tuned (run (init sr) ops) := by
  have hi : ∀ sr : ℝ, Tuned (init sr) := by
    intro sr
    refine ⟨?_, ?_, ?_, ?_, ?_, ?_⟩ <;>
      simp [init, updateCoefficients, updateReleaseCoefficient, updateDecayCoefficient, updateAttackCoefficient, real_arith] <;> norm_num
  have ht : ∀ s : Env ℝ, Tuned s → Tuned (tick s).1 := fun s => tuned_of_settings (tick_settings s)
  have hfe : ∀ {β γ : Type} (f : Env ℝ → β → Env ℝ × γ), (∀ s b, (f s b).1 = (tick s).1) → ∀ (l : List β) (s : Env ℝ), Tuned s →
      Tuned (forEach f s l).1 := by
    intro β γ f hf l
    induction l with
    | nil => intro s h; exact h
    | cons b l ih => intro s h; exact ih _ (by rw [hf]; exact ht s h)
  have hpos : ∀ t : ℝ, 0 < (if t >. lit 0.0001 then t else (lit 0.0001 : ℝ)) := by
    intro t
    simp only [real_arith]
    split_ifs with h
    · push_cast at h; linarith
    · norm_num
  have hstep : ∀ (s : Env ℝ) (op : Op ℝ), Tuned s → Tuned (step s op).1 := by
    intro s op h
    obtain ⟨h1, h2, h3, h4, h5, h6⟩ := h
    have h : Tuned s := ⟨h1, h2, h3, h4, h5, h6⟩
    cases op with
    | init sr => exact hi sr
    | setAttack t => exact ⟨by simp [step, setAttack, updateAttackCoefficient, real_arith], h2, h3, hpos t, h5, h6⟩
    | setDecay t => exact ⟨h1, by simp [step, setDecay, updateDecayCoefficient, real_arith], h3, h4, hpos t, h6⟩
    | setRelease t => exact ⟨h1, h2, by simp [step, setRelease, updateReleaseCoefficient, real_arith], h4, h5, hpos t⟩
    | setSustain l => exact h
    | setDoneAction a => exact h
    | gate g =>
      show Tuned (gate g s)
      unfold gate; dsimp only; split_ifs <;> exact h
    | tick => exact ht s h
    | process buf => exact hfe _ (fun _ _ => rfl) buf s h
    | processMul buf => exact hfe (fun s b => let (s', o) := tick s; (s', b * o)) (fun _ _ => rfl) buf s h
    | reset => exact h
  unfold run
  generalize hs : init sr = s0
  have h0 : Tuned s0 := hs ▸ hi sr
  clear hs
  induction ops generalizing s0 with
  | nil => exact h0
  | cons op ops ih => exact ih _ (hstep s0 op h0)

theorem settings_ticks {α : Type} [Arith α] (s : Env α) (n : ℕ) : settings (tickState tick n s) = settings s := by
  induction n with
  | zero => rfl
  | succ n ih => rw [tickState_succ, tick_settings, ih]

/-- **C67** (attack): with the gate held, an attack from level `v` follows the exponential curve with the attack time as its time constant
until it is within 0.001 of the top, which takes `attackTime * ln (1000 (1 - v))` seconds; the next whole sample is exactly 1 and the decay
begins.

Missing from the documented behaviour ("0 -> 1 over attack time"): the attack takes more than the attack time, see
`C67_adsr_too_slow`. -/
theorem C67_adsr_attack_partial (s : Env ℝ) (ht : Tuned s) (hsr : 0 < s.sampleRate) (hst : s.state = .attack) (hg : 0 < s.gateValue)
    (hv : s.value < 0.999) :
    let D := settling s.attackTime s.sampleRate (1 - s.value) 0.001
    (∀ n : ℕ, n < D → (tickState tick n s).state = .attack ∧
      (tickState tick n s).value = approach s.value 1 s.attackTime s.sampleRate n) ∧
    (tickState tick ⌈D⌉₊ s).state = .decay ∧ (tickState tick ⌈D⌉₊ s).value = 1 := by
  intro D
  have hT : 0 < s.attackTime * s.sampleRate := mul_pos ht.2.2.2.1 hsr
  have hlt : ∀ n : ℕ, D ≤ n ↔ 0.999 ≤ approach s.value 1 s.attackTime s.sampleRate n := by
    intro n
    rw [settling_le_iff hT (by linarith) (by norm_num)]
    simp only [approach]
    constructor <;> intro h <;> linarith
  have step : ∀ u : Env ℝ, settings u = settings s → u.state = .attack → (tick u).1.state =
      (if 0.999 ≤ 1 + Real.exp (-1 / (s.attackTime * s.sampleRate)) * (u.value - 1) then State.decay else .attack) ∧
      (tick u).1.value = (if 0.999 ≤ 1 + Real.exp (-1 / (s.attackTime * s.sampleRate)) * (u.value - 1) then 1
        else 1 + Real.exp (-1 / (s.attackTime * s.sampleRate)) * (u.value - 1)) := by
    intro u hu hst
    simp only [settings, Prod.mk.injEq] at hu
    have e : (1:ℝ) - Real.exp (-1 / (s.attackTime * s.sampleRate)) * (1 - u.value) =
      1 + Real.exp (-1 / (s.attackTime * s.sampleRate)) * (u.value - 1) := by ring
    unfold tick
    rw [hst]
    simp only [real_arith, hu.1.1, ht.1]
    push_cast
    rw [e]
    have hgv : ¬ u.gateValue ≤ 0 := by rw [hu.2.2.2.2]; linarith
    by_cases h : (0.999 : ℝ) ≤ 1 + Real.exp (-1 / (s.attackTime * s.sampleRate)) * (u.value - 1)
    · simp [h, hgv]
    · simp [h, hgv]
  have h1 : ∀ n : ℕ, n < D → (tickState tick n s).state = .attack ∧
      (tickState tick n s).value = approach s.value 1 s.attackTime s.sampleRate n := by
    intro n
    induction n with
    | zero => intro _; rw [tickState_zero, approach_zero]; exact ⟨hst, rfl⟩
    | succ n ih =>
      intro hn
      obtain ⟨i1, i2⟩ := ih (by push_cast at hn; linarith)
      obtain ⟨a, b⟩ := step _ (settings_ticks s n) i1
      rw [tickState_succ, a, b, i2, ← approach_succ, if_neg (by rw [← hlt]; linarith), if_neg (by rw [← hlt]; linarith)]
      exact ⟨rfl, rfl⟩
  refine ⟨h1, ?_⟩
  have hD0 : 0 < D := by
    rw [← not_le, show (0:ℝ) = ((0:ℕ):ℝ) by simp, hlt, approach_zero]; linarith
  obtain ⟨m, hm⟩ : ∃ m, ⌈D⌉₊ = m + 1 := ⟨⌈D⌉₊ - 1, by have := Nat.ceil_pos.2 hD0; omega⟩
  have hmD : (m:ℝ) < D := by
    have := Nat.ceil_lt_add_one hD0.le
    rw [hm] at this; push_cast at this; linarith
  have hle : D ≤ ((m + 1 : ℕ) : ℝ) := by rw [← hm]; exact Nat.le_ceil D
  obtain ⟨i1, i2⟩ := h1 m hmD
  obtain ⟨a, b⟩ := step _ (settings_ticks s m) i1
  rw [hm, tickState_succ, a, b, i2, ← approach_succ, if_pos ((hlt _).1 hle), if_pos ((hlt _).1 hle)]
  exact ⟨rfl, rfl⟩

/-- **C67** (decay): with the gate held, a decay from level `v` follows the exponential curve towards the sustain level `S` with the decay
time as its time constant until it is closer than 0.001, which takes `decayTime * ln (1000 |v - S|)` seconds; the sample after that is
exactly `S` and the sustain begins. -/
theorem C67_adsr_decay_partial (s : Env ℝ) (ht : Tuned s) (hsr : 0 < s.sampleRate) (hst : s.state = .decay) (hg : 0 < s.gateValue)
    (hv : 0.001 ≤ |s.value - s.sustainLevel|) :
    let D := settling s.decayTime s.sampleRate |s.value - s.sustainLevel| 0.001
    (∀ n : ℕ, n ≤ D → (tickState tick n s).state = .decay ∧
      (tickState tick n s).value = approach s.value s.sustainLevel s.decayTime s.sampleRate n) ∧
    (tickState tick (⌊D⌋₊ + 1) s).state = .sustain ∧ (tickState tick (⌊D⌋₊ + 1) s).value = s.sustainLevel := by
  intro D
  have hT : 0 < s.decayTime * s.sampleRate := mul_pos ht.2.2.2.2.1 hsr
  have hlt : ∀ n : ℕ, D < n ↔ |approach s.value s.sustainLevel s.decayTime s.sampleRate n - s.sustainLevel| < 0.001 := by
    intro n
    rw [settling_lt_iff hT (by linarith) (by norm_num)]
    simp only [approach]
    rw [add_sub_cancel_left, abs_mul, abs_of_pos (Real.exp_pos _)]
  have step : ∀ (u : Env ℝ) (w : ℝ), settings u = settings s → u.state = .decay →
      w = s.sustainLevel + Real.exp (-1 / (s.decayTime * s.sampleRate)) * (u.value - s.sustainLevel) →
      (tick u).1.state = (if |w - s.sustainLevel| < 0.001 then State.sustain else .decay) ∧
      (tick u).1.value = (if |w - s.sustainLevel| < 0.001 then s.sustainLevel else w) := by
    intro u w hu hst hw
    simp only [settings, Prod.mk.injEq] at hu
    unfold tick
    rw [hst]
    simp only [real_arith, hu.1.2.1, ht.2.1, hu.2.2.2.1, ← hw]
    push_cast
    have hgv : ¬ u.gateValue ≤ 0 := by rw [hu.2.2.2.2]; linarith
    by_cases h : |w - s.sustainLevel| < 0.001
    · simp only [if_pos h, if_neg hgv]; exact ⟨trivial, trivial⟩
    · simp only [if_neg h, if_neg hgv]; exact ⟨trivial, trivial⟩
  have h1 : ∀ n : ℕ, n ≤ D → (tickState tick n s).state = .decay ∧
      (tickState tick n s).value = approach s.value s.sustainLevel s.decayTime s.sampleRate n := by
    intro n
    induction n with
    | zero => intro _; rw [tickState_zero, approach_zero]; exact ⟨hst, rfl⟩
    | succ n ih =>
      intro hn
      obtain ⟨i1, i2⟩ := ih (by push_cast at hn; linarith)
      obtain ⟨a, b⟩ := step _ (approach s.value s.sustainLevel s.decayTime s.sampleRate (n + 1)) (settings_ticks s n) i1
        (by rw [i2, approach_succ])
      rw [tickState_succ, a, b, if_neg (by rw [← hlt]; linarith), if_neg (by rw [← hlt]; linarith)]
      exact ⟨rfl, rfl⟩
  refine ⟨h1, ?_⟩
  have hD0 : 0 ≤ D := by
    rw [← not_lt, show (0:ℝ) = ((0:ℕ):ℝ) by simp, hlt, approach_zero]; linarith
  obtain ⟨i1, i2⟩ := h1 ⌊D⌋₊ (Nat.floor_le hD0)
  have hgt : D < ((⌊D⌋₊ + 1 : ℕ) : ℝ) := by push_cast; exact Nat.lt_floor_add_one D
  obtain ⟨a, b⟩ := step _ (approach s.value s.sustainLevel s.decayTime s.sampleRate (⌊D⌋₊ + 1)) (settings_ticks s _) i1
    (by rw [i2, approach_succ])
  rw [tickState_succ, a, b, if_pos ((hlt _).1 hgt), if_pos ((hlt _).1 hgt)]
  exact ⟨rfl, rfl⟩

/-- **C67** (release): a release from level `v` follows the exponential curve with the release time as its time constant until it is at 0.0001,
which takes `releaseTime * ln (10000 v)` seconds; the next whole sample is exactly 0 and the envelope is idle and done. -/
theorem C67_adsr_release_partial (s : Env ℝ) (ht : Tuned s) (hsr : 0 < s.sampleRate) (hst : s.state = .release) (hv : 0.0001 < s.value) :
    let D := settling s.releaseTime s.sampleRate s.value 0.0001
    (∀ n : ℕ, n < D → (tickState tick n s).state = .release ∧
      (tickState tick n s).value = approach s.value 0 s.releaseTime s.sampleRate n) ∧
    (tickState tick ⌈D⌉₊ s).state = .idle ∧ (tickState tick ⌈D⌉₊ s).value = 0 ∧ isDone (tickState tick ⌈D⌉₊ s) = true := by
  intro D
  have hT : 0 < s.releaseTime * s.sampleRate := mul_pos ht.2.2.2.2.2 hsr
  have hlt : ∀ n : ℕ, D ≤ n ↔ approach s.value 0 s.releaseTime s.sampleRate n ≤ 0.0001 := by
    intro n
    rw [settling_le_iff hT (by linarith) (by norm_num)]
    simp only [approach, sub_zero, zero_add]
  have step : ∀ (u : Env ℝ) (w : ℝ), settings u = settings s → u.state = .release →
      w = 0 + Real.exp (-1 / (s.releaseTime * s.sampleRate)) * (u.value - 0) →
      (w ≤ 0.0001 → (tick u).1.state = .idle ∧ (tick u).1.value = 0 ∧ isDone (tick u).1 = true) ∧
      (¬ w ≤ 0.0001 → (tick u).1.state = .release ∧ (tick u).1.value = w) := by
    intro u w hu hst hw
    simp only [settings, Prod.mk.injEq] at hu
    have hw' : w = Real.exp (-1 / (s.releaseTime * s.sampleRate)) * u.value := by rw [hw]; ring
    unfold tick
    rw [hst]
    simp only [real_arith, hu.1.2.2, ht.2.2.1, ← hw', isDone]
    push_cast
    constructor
    · intro h; simp [h]
    · intro h; simp [h]
  have h1 : ∀ n : ℕ, n < D → (tickState tick n s).state = .release ∧
      (tickState tick n s).value = approach s.value 0 s.releaseTime s.sampleRate n := by
    intro n
    induction n with
    | zero => intro _; rw [tickState_zero, approach_zero]; exact ⟨hst, rfl⟩
    | succ n ih =>
      intro hn
      obtain ⟨i1, i2⟩ := ih (by push_cast at hn; linarith)
      rw [tickState_succ]
      exact (step _ _ (settings_ticks s n) i1 (by rw [i2, ← approach_succ])).2 (by rw [← hlt]; linarith)
  refine ⟨h1, ?_⟩
  have hD0 : 0 < D := by
    rw [← not_le, show (0:ℝ) = ((0:ℕ):ℝ) by simp, hlt, approach_zero]; linarith
  obtain ⟨m, hm⟩ : ∃ m, ⌈D⌉₊ = m + 1 := ⟨⌈D⌉₊ - 1, by have := Nat.ceil_pos.2 hD0; omega⟩
  have hmD : (m:ℝ) < D := by
    have := Nat.ceil_lt_add_one hD0.le
    rw [hm] at this; push_cast at this; linarith
  have hle : D ≤ ((m + 1 : ℕ) : ℝ) := by rw [← hm]; exact Nat.le_ceil D
  obtain ⟨i1, i2⟩ := h1 m hmD
  rw [hm, tickState_succ]
  exact (step _ _ (settings_ticks s m) i1 (by rw [i2, ← approach_succ])).1 ((hlt _).1 hle)

/-- **C67** is false as documented ("Attack: 0 -> 1 over attack time", "Release: current level -> 0 over release time", EnvelopeADSR.h:27-30):
for every setting, the attack from 0 is still below 0.64 when the attack time has passed and takes more than 6.9 attack times; the decay
from 1 has more than a third of its way to go when the decay time has passed; the release from 1 is still above 0.36 when the release
time has passed and takes more than 9.2 release times. -/
theorem C67_adsr_too_slow (s : Env ℝ) (ht : Tuned s) (hsr : 0 < s.sampleRate) (n : ℕ) :
    (s.state = .attack → 0 < s.gateValue → s.value = 0 →
      (n / s.sampleRate ≤ s.attackTime → (tickState tick n s).value < 0.64) ∧
      (n / s.sampleRate ≤ 6.9 * s.attackTime → (tickState tick n s).state = .attack)) ∧
    (s.state = .decay → 0 < s.gateValue → s.value = 1 → s.sustainLevel ≤ 0.99 →
      (n / s.sampleRate ≤ s.decayTime → s.sustainLevel + 0.36 * (1 - s.sustainLevel) < (tickState tick n s).value)) ∧
    (s.state = .release → s.value = 1 →
      (n / s.sampleRate ≤ s.releaseTime → 0.36 < (tickState tick n s).value) ∧
      (n / s.sampleRate ≤ 9.2 * s.releaseTime → (tickState tick n s).state = .release)) := by
  have he : (0.36 : ℝ) < Real.exp (-1) := lt_trans (by norm_num) Real.exp_neg_one_gt_d9
  have hexp : ∀ t : ℝ, 0 < t * s.sampleRate → n / s.sampleRate ≤ t → 0.36 < Real.exp (-(n / (t * s.sampleRate))) := by
    intro t hT h
    refine he.trans_le ?_
    rw [Real.exp_le_exp, neg_le_neg_iff, div_le_one hT, ← div_le_iff₀ hsr]; exact h
  refine ⟨fun hst hg hv => ?_, fun hst hg hv hS h => ?_, fun hst hv => ?_⟩
  · have hT : 0 < s.attackTime * s.sampleRate := mul_pos ht.2.2.2.1 hsr
    obtain ⟨h1, -⟩ := C67_adsr_attack_partial s ht hsr hst hg (by rw [hv]; norm_num)
    have h1 := h1 n
    rw [hv, sub_zero] at h1
    have hD := (settling_full hT).1
    have hval : (n : ℝ) / s.sampleRate ≤ 6.9 * s.attackTime → (tickState tick n s).state = .attack ∧ (tickState tick n s).value =
        1 - Real.exp (-(n / (s.attackTime * s.sampleRate))) := by
      intro h
      rw [div_le_iff₀ hsr] at h
      obtain ⟨a, b⟩ := h1 (by linarith)
      exact ⟨a, by rw [b]; simp only [approach]; ring⟩
    refine ⟨fun h => ?_, fun h => (hval h).1⟩
    rw [(hval (by linarith [ht.2.2.2.1])).2]
    linarith [hexp _ hT h]
  · have hT : 0 < s.decayTime * s.sampleRate := mul_pos ht.2.2.2.2.1 hsr
    have hdist : |s.value - s.sustainLevel| = 1 - s.sustainLevel := by rw [hv, abs_of_nonneg (by linarith)]
    obtain ⟨h1, -⟩ := C67_adsr_decay_partial s ht hsr hst hg (by rw [hdist]; linarith)
    have hx := hexp _ hT h
    have hn : (n:ℝ) ≤ settling s.decayTime s.sampleRate |s.value - s.sustainLevel| 0.001 := by
      rw [← not_lt, settling_lt_iff hT (by rw [hdist]; linarith) (by norm_num), hdist]
      nlinarith
    rw [(h1 n hn).2, hv]
    simp only [approach]
    nlinarith
  · have hT : 0 < s.releaseTime * s.sampleRate := mul_pos ht.2.2.2.2.2 hsr
    obtain ⟨h1, -⟩ := C67_adsr_release_partial s ht hsr hst (by rw [hv]; norm_num)
    have h1 := h1 n
    rw [hv] at h1
    have hD := (settling_full hT).2
    have hval : (n : ℝ) / s.sampleRate ≤ 9.2 * s.releaseTime → (tickState tick n s).state = .release ∧ (tickState tick n s).value =
        Real.exp (-(n / (s.releaseTime * s.sampleRate))) := by
      intro h
      rw [div_le_iff₀ hsr] at h
      obtain ⟨a, b⟩ := h1 (by linarith)
      exact ⟨a, by rw [b]; simp only [approach]; ring⟩
    refine ⟨fun h => ?_, fun h => (hval h).1⟩
    rw [(hval (by linarith [ht.2.2.2.2.2])).2]
    exact hexp _ hT h

/-- A gated envelope meets the hypotheses. -/
example (sr t : ℝ) : Tuned (run (init sr) [.setAttack t, .gate 1]) ∧ (run (init sr) [.setAttack t, .gate 1]).state = .attack ∧
    (run (init sr) [.setAttack t, .gate 1]).value = 0 ∧ (run (init sr) [.setAttack t, .gate 1]).gateValue = 1 := by
  refine ⟨tuned_run _ _, ?_, ?_, ?_⟩ <;>
  simp [run, step, gate, setAttack, updateAttackCoefficient, init, updateCoefficients, updateReleaseCoefficient, updateDecayCoefficient,
    real_arith]

end EnvelopeADSR

end Verif
