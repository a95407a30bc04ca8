import Verif.Props.CombC
import Mathlib.Tactic.FieldSimp

/-!
# C35 and C36 (comb): the comb recurrence, the feedback gain, linearity and silence
-/

set_option linter.unusedSectionVars false

namespace Verif
open FP CombC

namespace CombC

/-! ### Ideal arithmetic: the delay line as a history -/

/-- Outputs of a comb of delay `d` and gain `g`, from the values written so far (latest first). -/
noncomputable def combFrom (g : ℝ) (d : ℕ) : List ℝ → List ℝ → List ℝ
  | _, [] => []
  | h, x :: xs => h.getD (d - 1) 0 :: combFrom g d ((x + g * h.getD (d - 1) 0) :: h) xs

theorem combFrom_length (g : ℝ) (d : ℕ) : ∀ (xs h : List ℝ), (combFrom g d h xs).length = xs.length
  | [], _ => rfl
  | _ :: xs, h => by simp [combFrom, combFrom_length g d xs]

theorem combFrom_get (g : ℝ) {d : ℕ} (hd : 1 ≤ d) : ∀ (xs h : List ℝ) (n : ℕ), n < xs.length →
    (combFrom g d h xs).getD n 0 =
      if n < d then h.getD (d - 1 - n) 0 else xs.getD (n - d) 0 + g * (combFrom g d h xs).getD (n - d) 0 := by
  intro xs
  induction xs with
  | nil => intro h n hn; simp at hn
  | cons x xs ih =>
    intro h n hn
    cases n with
    | zero => simp [combFrom]; intro h0; omega
    | succ n =>
      have := ih ((x + g * h.getD (d - 1) 0) :: h) n (by simpa using hn)
      simp only [combFrom, List.getD_cons_succ]
      rw [this]
      rcases Nat.lt_trichotomy (n + 1) d with h1 | h1 | h1
      · rw [if_pos (by omega), if_pos h1]
        obtain ⟨k, hk⟩ : ∃ k, d - 1 - n = k + 1 := ⟨d - 2 - n, by omega⟩
        rw [hk, List.getD_cons_succ]
        congr 1; omega
      · rw [if_pos (by omega), if_neg (by omega)]
        have e1 : d - 1 - n = 0 := by omega
        have e2 : n + 1 - d = 0 := by omega
        rw [e1, e2]; rfl
      · rw [if_neg (by omega), if_neg (by omega)]
        obtain ⟨k, hk⟩ : ∃ k, n + 1 - d = k + 1 := ⟨n - d, by omega⟩
        have hk2 : n - d = k := by omega
        rw [hk, hk2, List.getD_cons_succ, List.getD_cons_succ]

/-- The circular buffer holds the last values written. -/
structure Holds (s : Comb ℝ) (h : List ℝ) : Prop where
  len : s.buffer.length = s.bufferSize
  pos : s.writePos < s.bufferSize
  cell : ∀ k, 1 ≤ k → k ≤ s.bufferSize → s.buffer.getD ((s.writePos + s.bufferSize - k) % s.bufferSize) 0 = h.getD (k - 1) 0

theorem getD_set {l : List ℝ} {i j : ℕ} {v : ℝ} (h : i < l.length) :
    (l.set i v).getD j 0 = if i = j then v else l.getD j 0 := by
  simp only [List.getD_eq_getElem?_getD, List.getElem?_set]
  split_ifs with h1
  · rfl
  · rfl

theorem mod_sub {w N k : ℕ} (hw : w < N) (h1 : 1 ≤ k) (h2 : k ≤ N) :
    (w + N - k) % N = if k ≤ w then w - k else w + N - k := by
  split_ifs with h
  · have : w + N - k = (w - k) + N := by omega
    rw [this, Nat.add_mod_right, Nat.mod_eq_of_lt (by omega)]
  · exact Nat.mod_eq_of_lt (by omega)

theorem holds_advance {s : Comb ℝ} {h : List ℝ} (hs : Holds s h) (hN : s.bufferSize < 2 ^ 63) (x y : ℝ) :
    Holds (advance s x y) ((x + s.feedbackCoeff * y) :: h) := by
  have hp := hs.pos
  have hsz : szAdd s.writePos 1 = s.writePos + 1 := Nat.mod_eq_of_lt (by omega)
  have hw' : (advance s x y).writePos = if s.writePos + 1 = s.bufferSize then 0 else s.writePos + 1 := by
    show szAdd s.writePos 1 % s.bufferSize = _
    rw [hsz]
    split_ifs with h1
    · rw [h1, Nat.mod_self]
    · exact Nat.mod_eq_of_lt (by omega)
  have hb : (advance s x y).bufferSize = s.bufferSize := rfl
  have hlt : (advance s x y).writePos < s.bufferSize := by rw [hw']; split_ifs <;> omega
  refine ⟨by simpa [advance] using hs.len, by rw [hb]; exact hlt, ?_⟩
  intro k hk1 hk2
  rw [hb] at hk2 ⊢
  rw [mod_sub hlt hk1 hk2]
  show (s.buffer.set s.writePos (x + s.feedbackCoeff * y)).getD _ 0 = _
  rw [getD_set (by rw [hs.len]; exact hp)]
  by_cases hk : k = 1
  · subst hk
    rw [if_pos]
    · simp
    · rw [hw']; split_ifs <;> omega
  · obtain ⟨m, rfl⟩ : ∃ m, k = m + 2 := ⟨k - 2, by omega⟩
    have hc := hs.cell (m + 1) (by omega) (by omega)
    rw [mod_sub hp (by omega) (by omega)] at hc
    have e : (if m + 2 ≤ (advance s x y).writePos then (advance s x y).writePos - (m + 2) else
        (advance s x y).writePos + s.bufferSize - (m + 2)) =
        (if m + 1 ≤ s.writePos then s.writePos - (m + 1) else s.writePos + s.bufferSize - (m + 1)) := by
      rw [hw']; split_ifs <;> omega
    rw [e, if_neg]
    · rw [hc]; simp
    · split_ifs <;> omega

theorem hermite_zero (y0 y1 y2 y3 : ℝ) : hermite y0 y1 y2 y3 0 = y1 := by
  simp only [hermite, real_arith]; ring

theorem toSize_nat {n : ℕ} (h : n < 2 ^ 64) : Arith.toSize? (n : ℝ) = some n := by
  have : truncR (n : ℝ) = n := by
    simp only [truncR]
    rw [if_pos (by positivity), Int.floor_natCast]
  simp only [Arith.toSize?, real_arith, this]
  rw [if_pos ⟨by positivity, by exact_mod_cast h⟩]
  simp

/-- One tick with a whole delay; `D` is the number of ticks the read value lies in the past. -/
theorem tick_whole {s : Comb ℝ} {h : List ℝ} (hs : Holds s h) (hN : s.bufferSize < 2 ^ 63) {d D : ℕ}
    (hd : s.delayTime * s.sampleRate = d) (hD : (1 ≤ d ∧ d ≤ s.bufferSize ∧ D = d) ∨ (d = 0 ∧ D = s.bufferSize))
    {fuel : ℕ} (hf : 1 ≤ fuel) (x : ℝ) :
    CombC.tick fuel s x = some (advance s x (h.getD (D - 1) 0), h.getD (D - 1) 0) := by
  have hp := hs.pos
  have hD1 : 1 ≤ D ∧ D ≤ s.bufferSize := by rcases hD with ⟨a, b, rfl⟩ | ⟨rfl, rfl⟩ <;> constructor <;> omega
  set n := (s.writePos + s.bufferSize - D) % s.bufferSize with hn
  have hnl : n < s.bufferSize := Nat.mod_lt _ (by omega)
  have hr : wrapLoop (Arith.ofNat s.bufferSize) fuel (Arith.ofNat s.writePos - s.delayTime * s.sampleRate) = some (n : ℝ) := by
    obtain ⟨f, rfl⟩ : ∃ f, fuel = f + 1 := ⟨fuel - 1, by omega⟩
    simp only [real_arith, hd]
    have key := mod_sub hp hD1.1 hD1.2
    rw [← hn] at key
    rw [wrapLoop]
    simp only [real_arith]
    by_cases hc : d ≤ s.writePos
    · have hc' : (d:ℝ) ≤ s.writePos := by exact_mod_cast hc
      rw [if_neg (by push_cast; linarith)]
      congr 1
      have : n = s.writePos - d := by
        rw [key]
        rcases hD with ⟨a, b, rfl⟩ | ⟨rfl, rfl⟩
        · rw [if_pos hc]
        · rw [if_neg (by omega)]; omega
      rw [this, Nat.cast_sub hc]
    · have hc' : (s.writePos:ℝ) < d := by exact_mod_cast not_le.1 hc
      rw [if_pos (by push_cast; linarith)]
      have hDd : D = d := by
        rcases hD with ⟨_, _, h⟩ | ⟨h, _⟩
        · exact h
        · omega
      subst hDd
      rw [if_neg hc] at key
      have hval : (s.writePos : ℝ) - D + s.bufferSize = n := by
        rw [key, Nat.cast_sub (by omega)]; push_cast; ring
      rw [hval]
      have h0 : (0:ℝ) ≤ n := by positivity
      cases f <;> (rw [wrapLoop]; simp only [real_arith]; rw [if_neg (by push_cast; linarith)])
  have ht := tick_eq (x := x) (by omega) hs.len hp hr (toSize_nat (by omega))
  have hv : readAt s n ((n:ℝ) - Arith.ofNat n) = h.getD (D - 1) 0 := by
    have e : ((n:ℝ) - Arith.ofNat n) = 0 := by simp only [real_arith]; ring
    unfold readAt
    simp only [real_arith] at e ⊢
    rw [e, hermite_zero, Nat.mod_eq_of_lt hnl]
    push_cast
    rw [hn]
    exact hs.cell D hD1.1 hD1.2
  rw [ht]
  simp only [real_arith] at hv ⊢
  rw [hv]

theorem process_whole {d D : ℕ} {fuel : ℕ} (hf : 1 ≤ fuel) : ∀ (xs : List ℝ) {s : Comb ℝ} {h : List ℝ}, Holds s h →
    s.bufferSize < 2 ^ 63 → s.delayTime * s.sampleRate = d →
    ((1 ≤ d ∧ d ≤ s.bufferSize ∧ D = d) ∨ (d = 0 ∧ D = s.bufferSize)) →
    ∃ s', CombC.process fuel s xs = some (s', combFrom s.feedbackCoeff D h xs) := by
  intro xs
  induction xs with
  | nil => intro s h _ _ _ _; exact ⟨s, rfl⟩
  | cons x xs ih =>
    intro s h hs hN hd hD
    obtain ⟨s', h'⟩ := ih (holds_advance hs hN x (h.getD (D - 1) 0)) hN hd hD
    refine ⟨s', ?_⟩
    simp only [CombC.process, tick_whole hs hN hd hD hf, Option.bind_some, h', Option.map_some, combFrom]
    rfl

theorem holds_fresh {N : ℕ} (hN : 0 < N) {s : Comb ℝ} (h1 : s.bufferSize = N) (h2 : s.buffer = List.replicate N 0)
    (h3 : s.writePos = 0) : Holds s [] := by
  refine ⟨by rw [h1, h2]; simp, by rw [h1, h3]; exact hN, ?_⟩
  intro k _ _
  rw [h2]
  simp only [List.getD_eq_getElem?_getD, List.getElem?_replicate, List.getElem?_nil, Option.getD_none]
  split_ifs <;> simp

/-- The gain a comb is supposed to have: `0.001^(delay/|decay|)` with the sign of the decay time, in the library's
approximation `ln 0.001 ≈ -6.907755`. -/
noncomputable def gain (delay decay : ℝ) : ℝ :=
  if decay = 0 then 0 else SignType.sign decay * Real.exp (-6.907755 * (delay / |decay|))

theorem updateFeedback_real (s : Comb ℝ) : (updateFeedback s).feedbackCoeff = gain s.delayTime s.decayTime := by
  have hi : Arith.isInf s.decayTime = false := by simp [Arith.isInf, real_arith]
  simp only [updateFeedback, hi, real_arith, gain]
  have e : s.delayTime / |s.decayTime| * -((6.907755 : ℚ) : ℝ) = -6.907755 * (s.delayTime / |s.decayTime|) := by
    push_cast; ring
  rw [e]
  push_cast
  rcases lt_trichotomy s.decayTime 0 with h | h | h
  · simp [h.ne, h]
  · simp [h]
  · simp [h.ne', h, h.not_gt]

/-- State after `init`, `setDelayTime`, `setDecayTime`. -/
theorem setup_real {sr md dt dc : ℝ} (hsr : 0 ≤ sr) (hmd : 0 ≤ md) (h1 : 0 ≤ dt) (h2 : dt ≤ md) (hp : md * sr ≤ 2 ^ 62) :
    ∃ s0, CombC.init sr md = some s0 ∧ ∃ s, s = CombC.setDecayTime dc (CombC.setDelayTime dt s0) ∧
      s.bufferSize = ⌈md * sr⌉.toNat + 4 ∧ Holds s [] ∧ s.delayTime = dt ∧ s.sampleRate = sr ∧ s.feedbackCoeff = gain dt dc := by
  have hc0 : (0:ℤ) ≤ ⌈md * sr⌉ := Int.ceil_nonneg (by positivity)
  have hc1 : ⌈md * sr⌉ ≤ (2:ℤ) ^ 62 := by rw [Int.ceil_le]; push_cast; norm_num at hp ⊢; exact hp
  have hz : Arith.toSize? (Arith.ceil (md * sr) : ℝ) = some ⌈md * sr⌉.toNat := by
    have : (Arith.ceil (md * sr) : ℝ) = ((⌈md * sr⌉.toNat : ℕ) : ℝ) := by
      simp only [real_arith]
      have : ((⌈md * sr⌉.toNat : ℕ) : ℤ) = ⌈md * sr⌉ := Int.toNat_of_nonneg hc0
      exact_mod_cast this.symm
    rw [this]
    exact toSize_nat (by omega)
  have hn : szAdd ⌈md * sr⌉.toNat 4 = ⌈md * sr⌉.toNat + 4 := Nat.mod_eq_of_lt (by omega)
  have hi : CombC.init sr md = some (updateFeedback
      { sampleRate := sr, maxDelayTime := md, bufferSize := szAdd ⌈md * sr⌉.toNat 4,
        buffer := List.replicate (szAdd ⌈md * sr⌉.toNat 4) (lit 0),
        writePos := 0, delayTime := lit 0.2, decayTime := lit 1, feedbackCoeff := lit 0 }) := by
    simp only [real_arith] at hz
    simp only [CombC.init, real_arith, hz]; rfl
  refine ⟨_, hi, _, rfl, hn, ?_, ?_, rfl, ?_⟩
  · refine holds_fresh (N := ⌈md * sr⌉.toNat + 4) (by omega) hn ?_ rfl
    show List.replicate (szAdd ⌈md * sr⌉.toNat 4) (((0:ℚ) : ℝ)) = _
    rw [hn]; push_cast; rfl
  · show clamp dt (lit 0) md = dt
    simp only [real_arith]
    rw [clamp_real (by push_cast; exact hmd)]
    push_cast
    rw [min_eq_right h2, max_eq_right h1]
  · rw [CombC.setDecayTime, updateFeedback_real]
    show gain (clamp dt (lit 0) md) dc = _
    congr 1
    simp only [real_arith]
    rw [clamp_real (by push_cast; exact hmd)]
    push_cast
    rw [min_eq_right h2, max_eq_right h1]

end CombC

/-- **C35** in ideal arithmetic. After `init(sr, maxDelay)`, `setDelayTime(dt)`, `setDecayTime(dc)` with a delay of exactly
`d ≥ 1` samples, every input block is processed without error, the first `d` outputs are silent, and from then on
`out[n] = in[n-d] + g·out[n-d]` with the documented gain. -/
theorem C35_comb_recurrence (sr md dt dc : ℝ) (d : ℕ) (hsr : 0 ≤ sr) (hmd : 0 ≤ md) (h1 : 0 ≤ dt) (h2 : dt ≤ md)
    (hp : md * sr ≤ 2 ^ 62) (hd1 : 1 ≤ d) (hd : dt * sr = d) (fuel : ℕ) (hf : 1 ≤ fuel) (xs : List ℝ) :
    ∃ s0 s' ys, CombC.init sr md = some s0 ∧
      CombC.process fuel (CombC.setDecayTime dc (CombC.setDelayTime dt s0)) xs = some (s', ys) ∧
      ys.length = xs.length ∧
      ∀ n < xs.length, ys.getD n 0 = if n < d then 0 else xs.getD (n - d) 0 + CombC.gain dt dc * ys.getD (n - d) 0 := by
  obtain ⟨s0, hs0, s, rfl, hb, hh, hdt, hs, hg⟩ := CombC.setup_real (dc := dc) hsr hmd h1 h2 hp
  have hdN : d ≤ ⌈md * sr⌉.toNat := by
    have : (d:ℝ) ≤ ⌈md * sr⌉ := le_trans (by rw [← hd]; exact mul_le_mul_of_nonneg_right h2 hsr) (Int.le_ceil _)
    have : (d:ℤ) ≤ ⌈md * sr⌉ := by exact_mod_cast this
    omega
  have hc1 : ⌈md * sr⌉ ≤ (2:ℤ) ^ 62 := by rw [Int.ceil_le]; push_cast; norm_num at hp ⊢; exact hp
  obtain ⟨s', h'⟩ := CombC.process_whole (d := d) (D := d) hf xs hh (by rw [hb]; omega) (by rw [hdt, hs, hd])
    (Or.inl ⟨hd1, by rw [hb]; omega, rfl⟩)
  refine ⟨s0, s', _, hs0, h', CombC.combFrom_length _ _ _ _, ?_⟩
  intro n hn
  rw [CombC.combFrom_get _ hd1 xs [] n hn, hg]
  simp

example : (0:ℝ) ≤ 48000 ∧ (0:ℝ) ≤ 1/5 ∧ (0:ℝ) ≤ 1/100 ∧ (1/100:ℝ) ≤ 1/5 ∧ (1/5:ℝ) * 48000 ≤ 2 ^ 62 ∧
    1 ≤ 480 ∧ (1/100:ℝ) * 48000 = (480:ℕ) := by norm_num

/-- **C35 negation** for `d = 0`: a delay time of zero does not give `out[n] = in[n] + …` nor a one-sample delay but the
longest delay the line can hold. -/
theorem C35_zero_delay_is_longest (sr md dc : ℝ) (hsr : 0 ≤ sr) (hmd : 0 ≤ md) (hp : md * sr ≤ 2 ^ 62)
    (fuel : ℕ) (hf : 1 ≤ fuel) (xs : List ℝ) :
    ∃ s0 s' ys, CombC.init sr md = some s0 ∧
      CombC.process fuel (CombC.setDecayTime dc (CombC.setDelayTime 0 s0)) xs = some (s', ys) ∧
      ∀ n < xs.length, ys.getD n 0 = if n < ⌈md * sr⌉.toNat + 4 then 0 else
        xs.getD (n - (⌈md * sr⌉.toNat + 4)) 0 + CombC.gain 0 dc * ys.getD (n - (⌈md * sr⌉.toNat + 4)) 0 := by
  obtain ⟨s0, hs0, s, rfl, hb, hh, hdt, hs, hg⟩ := CombC.setup_real (dc := dc) hsr hmd le_rfl hmd hp
  have hc1 : ⌈md * sr⌉ ≤ (2:ℤ) ^ 62 := by rw [Int.ceil_le]; push_cast; norm_num at hp ⊢; exact hp
  obtain ⟨s', h'⟩ := CombC.process_whole (d := 0) (D := ⌈md * sr⌉.toNat + 4) hf xs hh (by rw [hb]; omega)
    (by rw [hdt, hs]; simp) (Or.inr ⟨rfl, hb.symm⟩)
  refine ⟨s0, s', _, hs0, h', ?_⟩
  intro n hn
  rw [CombC.combFrom_get _ (by omega) xs [] n hn, hg]
  simp

/-- **C35**: the gain never exceeds one in absolute value and has the sign of the decay time. -/
theorem C35_gain_ideal (delay decay : ℝ) (h : 0 ≤ delay) : |CombC.gain delay decay| ≤ 1 ∧
    (0 < decay → 0 < CombC.gain delay decay) ∧ (decay < 0 → CombC.gain delay decay < 0) ∧
    (decay = 0 → CombC.gain delay decay = 0) := by
  have he : Real.exp (-6.907755 * (delay / |decay|)) ≤ 1 := by
    rw [Real.exp_le_one_iff]
    have : 0 ≤ delay / |decay| := by positivity
    linarith
  have hpos := Real.exp_pos (-6.907755 * (delay / |decay|))
  refine ⟨?_, ?_, ?_, ?_⟩
  · unfold CombC.gain
    rcases lt_trichotomy decay 0 with h | h | h
    · simpa [h.ne, h] using he
    · simp [h]
    · simpa [h.ne', h] using he
  · intro h; simp only [CombC.gain, if_neg h.ne', sign_pos h]; simpa using hpos
  · intro h; simp only [CombC.gain, if_neg h.ne, sign_neg h]; simpa using hpos
  · intro h; simp [CombC.gain, h]

/-- **C35**: an impulse echoes every `d` samples with amplitudes `1, g, g², …`. -/
theorem C35_echoes (sr md dt dc : ℝ) (d : ℕ) (hsr : 0 ≤ sr) (hmd : 0 ≤ md) (h1 : 0 ≤ dt) (h2 : dt ≤ md)
    (hp : md * sr ≤ 2 ^ 62) (hd1 : 1 ≤ d) (hd : dt * sr = d) (fuel : ℕ) (hf : 1 ≤ fuel) (m : ℕ) :
    ∃ s0 s' ys, CombC.init sr md = some s0 ∧
      CombC.process fuel (CombC.setDecayTime dc (CombC.setDelayTime dt s0)) (1 :: List.replicate m 0) = some (s', ys) ∧
      ∀ n ≤ m, ys.getD n 0 = if d ∣ n ∧ 0 < n then CombC.gain dt dc ^ (n / d - 1) else 0 := by
  obtain ⟨s0, s', ys, a, b, c, e⟩ := C35_comb_recurrence sr md dt dc d hsr hmd h1 h2 hp hd1 hd fuel hf (1 :: List.replicate m 0)
  refine ⟨s0, s', ys, a, b, ?_⟩
  intro n
  induction n using Nat.strong_induction_on with
  | _ n ih =>
    intro hn
    rw [e n (by simp; omega)]
    by_cases hlt : n < d
    · rw [if_pos hlt, if_neg]
      rintro ⟨h, h0⟩
      exact absurd (Nat.le_of_dvd h0 h) (by omega)
    · rw [if_neg hlt, ih (n - d) (by omega) (by omega)]
      have hx : (1 :: List.replicate m (0:ℝ)).getD (n - d) 0 = if n = d then 1 else 0 := by
        rcases Nat.eq_or_lt_of_le (not_lt.1 hlt) with h | h
        · subst h; simp
        · obtain ⟨k, hk⟩ : ∃ k, n - d = k + 1 := ⟨n - d - 1, by omega⟩
          rw [hk, List.getD_cons_succ, if_neg (by omega), List.getD_eq_getElem?_getD, List.getElem?_replicate]
          split_ifs <;> simp
      rw [hx]
      have hdv : d ∣ n - d ↔ d ∣ n := by
        constructor
        · intro h; have := Nat.dvd_add h (dvd_refl d); rwa [Nat.sub_add_cancel (not_lt.1 hlt)] at this
        · intro h; exact Nat.dvd_sub h (dvd_refl d)
      by_cases hnd : n = d
      · subst hnd
        have : n / n = 1 := Nat.div_self (by omega)
        simp [this]; omega
      · rw [if_neg hnd, zero_add]
        by_cases hdvd : d ∣ n
        · rw [if_pos ⟨hdv.2 hdvd, by omega⟩, if_pos ⟨hdvd, by omega⟩]
          obtain ⟨q, rfl⟩ := hdvd
          have hq : 2 ≤ q := by
            by_contra hq
            have : q = 0 ∨ q = 1 := by omega
            rcases this with rfl | rfl
            · simp at hlt; omega
            · simp at hnd
          have e1 : d * q / d = q := Nat.mul_div_cancel_left _ (by omega)
          have e2 : (d * q - d) / d = q - 1 := by
            rw [← Nat.mul_sub_one, Nat.mul_div_cancel_left _ (by omega)]
          rw [e1, e2, ← pow_succ']
          congr 1; omega
        · rw [if_neg (fun h => hdvd (hdv.1 h.1)), if_neg (fun h => hdvd h.1), mul_zero]

/-! ### The gain in single precision -/

namespace CombC
variable [Libm F32]

/-- Both times of a call are numbers. -/
def Call.numbers : Call → Prop
  | .setDelayTime dt => dt ≠ nan
  | .setDecayTime dc => dc ≠ nan
  | _ => True

/-- What is promised about the gain. -/
def GainOk (s : Comb F32) : Prop :=
  s.feedbackCoeff.In (-1) 1 ∧ ((lit 0 : F32) <. s.decayTime → 0 ≤ s.feedbackCoeff.val) ∧
    (s.decayTime <. lit 0 → s.feedbackCoeff.val ≤ 0)

theorem exponent_nonPos {x y : F32} (hx : x.isFin = true) (hx0 : 0 ≤ x.val) (hy : y.isFin = true) (hy0 : 0 < y.val) :
    (x / y * -lit 6.907755 : F32).NonPos := by
  have hl : (-lit 6.907755 : F32).In (-7) (-6) := by decide +kernel
  obtain ⟨zs, e⟩ := div_def hx hy hy0.ne'
  rcases ofRat_nonneg (f := binary32) (zs := zs) (div_nonneg hx0 hy0.le) with h | ⟨h, h'⟩
  · rw [e, h]
    have : (inf false * -lit 6.907755 : F32) = inf true := by decide +kernel
    rw [this]; exact Or.inl rfl
  · rw [e]
    obtain ⟨zs', e'⟩ := mul_def h hl.1
    rw [e']
    refine ofRat_nonPos ?_
    have := hl.2.2
    nlinarith

theorem gainOk_update [LibmSpec] {s : Comb F32} (hdc : s.decayTime ≠ nan) (hf : s.delayTime.isFin = true)
    (h0 : 0 ≤ s.delayTime.val) : GainOk (updateFeedback s) := by
  have d1 : (updateFeedback s).decayTime = s.decayTime := rfl
  have one : (lit 1 : F32).In 1 1 := lit_one
  unfold GainOk
  rw [d1]
  simp only [updateFeedback]
  rcases not_nan_cases hdc with h | h | h
  · rw [h]
    have i1 : Arith.isInf (inf true : F32) = true := by decide
    have i2 : ((inf true : F32) >. lit 0) = false := by decide +kernel
    simp only [i1, i2, if_true, Bool.false_eq_true, if_false]
    have := neg_in one
    exact ⟨this.mono le_rfl (by norm_num), by simp, fun _ => by rw [this.val_eq]; norm_num⟩
  · rw [h]
    have i1 : Arith.isInf (inf false : F32) = true := by decide
    have i2 : ((inf false : F32) >. lit 0) = true := by decide +kernel
    have i3 : ((inf false : F32) <. lit 0) = false := by decide +kernel
    simp only [i1, i2, i3, if_true]
    exact ⟨one.mono (by norm_num) le_rfl, fun _ => by rw [one.val_eq]; norm_num, by simp⟩
  · have i1 : Arith.isInf s.decayTime = false := by simp [Arith.isInf, toInt_fin h]
    simp only [i1, Bool.false_eq_true, if_false]
    rw [eq_fin h lit_zero.1, lt_fin h lit_zero.1, lt_fin lit_zero.1 h, lit_zero.val_eq]
    by_cases hz : s.decayTime.val = 0
    · simp only [hz, decide_true, if_true, lt_self_iff_false, decide_false, Bool.false_eq_true, false_implies, and_true]
      exact lit_zero.mono (by norm_num) (by norm_num)
    · simp only [hz, decide_false, Bool.false_eq_true, if_false, decide_eq_true_eq]
      obtain ⟨v, nz, hv, hv'⟩ := isFin_cases h
      have ha : (Arith.fabs s.decayTime).isFin = true ∧ (Arith.fabs s.decayTime).val = |s.decayTime.val| := by
        rw [hv']; exact ⟨rfl, rfl⟩
      have he := LibmSpec.exp_nonpos _ (exponent_nonPos hf h0 ha.1 (by rw [ha.2]; exact abs_pos.2 hz))
      split_ifs with hneg
      · have hn := neg_in he
        rw [neg_zero] at hn
        exact ⟨hn.mono le_rfl (by norm_num), fun h => by linarith, fun _ => hn.2.2⟩
      · exact ⟨he.mono (by norm_num) le_rfl, fun _ => he.2.1, fun h => absurd h hneg⟩

theorem call_gain [LibmSpec] {s : Comb F32} (h : Safe s) (hd : s.decayTime ≠ nan) (hg : GainOk s) {fuel : ℕ}
    (hf : 2 ^ 22 ≤ fuel) (c : Call) (hc : c.numbers) :
    ∃ s', call fuel s c = some s' ∧ Safe s' ∧ s'.decayTime ≠ nan ∧ GainOk s' := by
  have hok : c.ok := by cases c <;> first | exact hc | trivial
  obtain ⟨s', h1, h2⟩ := call_safe h hf c hok
  refine ⟨s', h1, h2, ?_⟩
  cases c with
  | setDelayTime dt =>
    cases h1
    have hcl := clamp_in (x := dt) (hi := s.maxDelayTime) hc (lit_zero) (in_val h.md) h.md0
    exact ⟨hd, gainOk_update hd hcl.1 hcl.2.1⟩
  | setDecayTime dc =>
    cases h1
    exact ⟨hc, gainOk_update (s := { s with decayTime := dc }) hc h.dt h.dt0⟩
  | tick x =>
    simp only [call, Option.map_eq_some_iff] at h1
    obtain ⟨o, h3, rfl⟩ := h1
    obtain ⟨_, _, r, n, _, _, rfl⟩ := tick_some h3 h.len
    exact ⟨hd, hg⟩
  | reset => cases h1; exact ⟨hd, hg⟩

end CombC

/-- **C35** in single precision: after `init` and any calls whose delay and decay times are numbers (infinite decay times
included), the feedback gain is at most one in absolute value and has the sign of the decay time. -/
theorem C35_gain_float [Libm F32] [LibmSpec] (sr md : F32) (hsr : sr.In 0 (2 ^ 22)) (hmd : md.isFin = true) (hmd0 : 0 ≤ md.val)
    (hp : md.val * sr.val ≤ 2 ^ 22) (fuel : ℕ) (hf : 2 ^ 22 ≤ fuel) (cs : List CombC.Call) (hcs : ∀ c ∈ cs, c.numbers) :
    ∃ s, ((CombC.init sr md).bind fun s => CombC.calls fuel s cs) = some s ∧ s.feedbackCoeff.In (-1) 1 ∧
      ((lit 0 : F32) <. s.decayTime → 0 ≤ s.feedbackCoeff.val) ∧ (s.decayTime <. lit 0 → s.feedbackCoeff.val ≤ 0) := by
  obtain ⟨s, h1, h2, -⟩ := CombC.init_safe hsr hmd hmd0 hp
  have h02 : (lit 0.2 : F32).In (1 / 8) (1 / 4) := by decide +kernel
  have key : ∀ (cs : List CombC.Call) (s : Comb F32), CombC.Safe s → s.decayTime ≠ nan → CombC.GainOk s →
      (∀ c ∈ cs, c.numbers) → ∃ s', CombC.calls fuel s cs = some s' ∧ CombC.GainOk s' := by
    intro cs
    induction cs with
    | nil => intro s _ _ h _; exact ⟨s, rfl, h⟩
    | cons c cs ih =>
      intro s hs hd hg hc
      obtain ⟨s1, e1, e2, e3, e4⟩ := CombC.call_gain hs hd hg hf c (hc c List.mem_cons_self)
      obtain ⟨s2, e5, e6⟩ := ih s1 e2 e3 e4 (fun c hc' => hc c (List.mem_cons_of_mem _ hc'))
      refine ⟨s2, ?_, e6⟩
      simp only [CombC.calls, List.foldlM_cons, e1]
      exact e5
  have hgi : s.decayTime ≠ nan ∧ CombC.GainOk s := by
    rw [CombC.init] at h1
    simp only [Option.map_eq_some_iff] at h1
    obtain ⟨n, -, rfl⟩ := h1
    have hn : (lit 1 : F32) ≠ nan := by decide +kernel
    exact ⟨hn, CombC.gainOk_update hn h02.1 (le_trans (by norm_num) h02.2.1)⟩
  obtain ⟨s', e1, e2⟩ := key cs s h2 hgi.1 hgi.2 hcs
  exact ⟨s', by rw [h1, Option.bind_some, e1], e2⟩

/-! ## C36 for the comb -/

namespace CombC

theorem getD_mix {a b : ℝ} {p q : List ℝ} (h : p.length = q.length) (i : ℕ) :
    (mix a b p q).getD i 0 = a * p.getD i 0 + b * q.getD i 0 := by
  simp only [mix, List.getD_eq_getElem?_getD, List.getElem?_zipWith]
  by_cases hi : i < p.length
  · rw [List.getElem?_eq_getElem hi, List.getElem?_eq_getElem (by omega)]; simp
  · rw [List.getElem?_eq_none (by omega), List.getElem?_eq_none (by omega)]; simp

theorem set_mix {a b : ℝ} {p q : List ℝ} (i : ℕ) (u v : ℝ) :
    mix a b (p.set i u) (q.set i v) = (mix a b p q).set i (a * u + b * v) := by
  induction p generalizing q i with
  | nil => simp [mix]
  | cons x p ih =>
    cases q with
    | nil => simp [mix]
    | cons y q =>
      cases i with
      | zero => simp [mix]
      | succ i => simpa [mix] using ih (q := q) i

theorem mix_length {a b : ℝ} {p q : List ℝ} (h : p.length = q.length) : (mix a b p q).length = p.length := by
  simp [mix, h]

end CombC

/-- **C36** for the comb (ideal arithmetic): three combs with the same settings and write position whose delay lines are
related by `a·p + b·q`, fed with `xs`, `ys` and `a·xs + b·ys`; if the first two run, so does the third, and its output is
`a·out₁ + b·out₂`. In particular a reset comb is a linear map. -/
theorem C36_comb_linear (a b : ℝ) (fuel : ℕ) : ∀ (xs ys : List ℝ) (s : Comb ℝ) (p q : List ℝ),
    xs.length = ys.length → p.length = s.bufferSize → q.length = s.bufferSize →
    ∀ s1 s2 o1 o2, CombC.process fuel { s with buffer := p } xs = some (s1, o1) →
      CombC.process fuel { s with buffer := q } ys = some (s2, o2) →
      ∃ s3, CombC.process fuel { s with buffer := mix a b p q } (mix a b xs ys) = some (s3, mix a b o1 o2) := by
  intro xs
  induction xs with
  | nil =>
    intro ys s p q hl hp hq s1 s2 o1 o2 h1 h2
    cases ys with
    | nil => cases h1; cases h2; exact ⟨_, rfl⟩
    | cons => simp at hl
  | cons x xs ih =>
    intro ys s p q hl hp hq s1 s2 o1 o2 h1 h2
    cases ys with
    | nil => simp at hl
    | cons y ys =>
      simp only [CombC.process, Option.bind_eq_some_iff, Option.map_eq_some_iff] at h1 h2
      obtain ⟨⟨t1, u1⟩, ht1, ⟨t1', r1⟩, hr1, e1⟩ := h1
      obtain ⟨⟨t2, u2⟩, ht2, ⟨t2', r2⟩, hr2, e2⟩ := h2
      obtain ⟨h0, hw, r, n, hr, hn, f1⟩ := CombC.tick_some ht1 hp
      obtain ⟨-, -, r', n', hr', hn', f2⟩ := CombC.tick_some ht2 hq
      have err : r' = r := by
        have : some r' = some r := hr'.symm.trans hr
        simpa using this
      subst err
      have enn : n' = n := by rw [hn] at hn'; simpa using hn'.symm
      subst enn
      have hpq : p.length = q.length := hp.trans hq.symm
      have ht3 := CombC.tick_eq (s := { s with buffer := mix a b p q }) (x := a * x + b * y) h0
        ((CombC.mix_length hpq).trans hp) hw hr hn
      cases f1; cases f2; cases e1; cases e2
      have hread : readAt { s with buffer := mix a b p q } n' (r' - Arith.ofNat n') =
          a * readAt { s with buffer := p } n' (r' - Arith.ofNat n') + b * readAt { s with buffer := q } n' (r' - Arith.ofNat n') := by
        have z : (lit 0 : ℝ) = 0 := by simp [real_arith]
        simp only [readAt, z, CombC.getD_mix hpq, hermite, real_arith]
        ring
      have hadv : advance { s with buffer := mix a b p q } (a * x + b * y)
            (readAt { s with buffer := mix a b p q } n' (r' - Arith.ofNat n')) =
          { (advance { s with buffer := p } x (readAt { s with buffer := p } n' (r' - Arith.ofNat n'))) with
            buffer := mix a b (p.set s.writePos (x + s.feedbackCoeff * readAt { s with buffer := p } n' (r' - Arith.ofNat n')))
              (q.set s.writePos (y + s.feedbackCoeff * readAt { s with buffer := q } n' (r' - Arith.ofNat n'))) } := by
        rw [CombC.set_mix]
        simp only [advance, hread]
        congr 2
        simp only [real_arith]
        ring
      obtain ⟨s3, h3⟩ := ih ys (advance { s with buffer := p } x (readAt { s with buffer := p } n' (r' - Arith.ofNat n')))
        _ _ (by simpa using hl) (by simpa [advance] using hp) (by simpa [advance] using hq) _ _ _ _ hr1 hr2
      refine ⟨s3, ?_⟩
      show CombC.process fuel _ ((a * x + b * y) :: mix a b xs ys) = _
      simp only [CombC.process, ht3, Option.bind_some]
      rw [hadv, h3, hread]
      rfl

/-- **C36**: a reset comb is a linear map (two runs that are defined determine the run on the mixed input). -/
theorem C36_comb_linear_reset (a b : ℝ) (fuel : ℕ) (s : Comb ℝ) (xs ys : List ℝ) (hl : xs.length = ys.length)
    (s1 s2 : Comb ℝ) (o1 o2 : List ℝ) (h1 : CombC.process fuel (CombC.reset s) xs = some (s1, o1))
    (h2 : CombC.process fuel (CombC.reset s) ys = some (s2, o2)) :
    ∃ s3, CombC.process fuel (CombC.reset s) (mix a b xs ys) = some (s3, mix a b o1 o2) := by
  obtain ⟨s3, h3⟩ := C36_comb_linear a b fuel xs ys (CombC.reset s) (List.replicate s.bufferSize (lit 0))
    (List.replicate s.bufferSize (lit 0)) hl (by simp [CombC.reset]) (by simp [CombC.reset]) s1 s2 o1 o2 h1 h2
  refine ⟨s3, ?_⟩
  rw [← h3]
  congr 1
  simp [CombC.reset, mix, real_arith]

/-- The hypothesis is met by every initialised comb with a whole delay. -/
example : ∃ (s s1 : Comb ℝ) (o1 : List ℝ), CombC.process 1 s [1, 2, 3] = some (s1, o1) ∧ o1.getD 2 0 = 1 := by
  obtain ⟨s0, s', ys, -, h, hl, he⟩ := C35_comb_recurrence 1 2 2 1 2 (by norm_num) (by norm_num) (by norm_num) (by norm_num)
    (by norm_num) (by norm_num) (by norm_num) 1 le_rfl [1, 2, 3]
  refine ⟨_, s', ys, h, ?_⟩
  rw [he 2 (by simp), if_neg (by norm_num), he 0 (by simp)]
  simp

/-- **C36** in single precision: a reset comb with a finite gain maps silence to silence. -/
theorem C36_comb_silent [Libm F32] (fuel : ℕ) (s : Comb F32) (hg : s.feedbackCoeff.isFin = true) (xs : List F32)
    (hx : ∀ x ∈ xs, x.Zero) (s' : Comb F32) (ys : List F32)
    (h : CombC.process fuel (CombC.reset s) xs = some (s', ys)) : ∀ y ∈ ys, y.Zero := by
  have wl : ∀ (f : ℕ) (N r r' : F32), wrapLoop N f r = some r' → (r' <. lit 0) = false := by
    intro f
    induction f with
    | zero =>
      intro N r r' h
      rw [wrapLoop] at h
      split_ifs at h with h1
      cases h; simpa using h1
    | succ f ih =>
      intro N r r' h
      rw [wrapLoop] at h
      split_ifs at h with h1
      · exact ih _ _ _ h
      · cases h; simpa using h1
  have key : ∀ (xs : List F32) (s s' : Comb F32) (ys : List F32), s.feedbackCoeff.isFin = true →
      s.buffer.length = s.bufferSize → (∀ y ∈ s.buffer, y.Zero) → (∀ x ∈ xs, x.Zero) →
      CombC.process fuel s xs = some (s', ys) → ∀ y ∈ ys, y.Zero := by
    intro xs
    induction xs with
    | nil => intro s s' ys _ _ _ _ h; cases h; simp
    | cons x xs ih =>
      intro s s' ys hg hl hz hx h
      simp only [CombC.process, Option.bind_eq_some_iff, Option.map_eq_some_iff] at h
      obtain ⟨⟨t, u⟩, ht, ⟨t', r⟩, hr, e⟩ := h
      obtain ⟨h0, hw, p, n, hp, hn, f⟩ := CombC.tick_some ht hl
      cases f; cases e
      have hp0 := wl _ _ _ _ hp
      have hgd : ∀ i, (s.buffer.getD i (lit 0)).Zero := by
        intro i
        rw [List.getD_eq_getElem?_getD]
        by_cases hi : i < s.buffer.length
        · rw [List.getElem?_eq_getElem hi]; exact hz _ (List.getElem_mem hi)
        · rw [List.getElem?_eq_none (by omega)]; exact zero_lit
      have hfin : p.isFin = true := by
        cases p with
        | fin => rfl
        | nan => cases hn
        | inf b => cases hn
      rw [lt_fin hfin lit_zero.1, lit_zero.val_eq] at hp0
      have hp1 : 0 ≤ p.val := by simpa using hp0
      have hfrac : (p - Arith.ofNat n : F32).isFin = true := by
        have hnn : n = ⌊p.val⌋.toNat := by
          simp only [Arith.toSize?, toInt_fin hfin, truncQ_nonneg hp1] at hn
          split_ifs at hn
          cases hn; rfl
        have hle : (n:ℚ) ≤ p.val := by
          rw [hnn]
          have h1 : ((⌊p.val⌋.toNat : ℕ) : ℤ) = ⌊p.val⌋ := Int.toNat_of_nonneg (Int.floor_nonneg.2 hp1)
          have h2 : ((⌊p.val⌋.toNat : ℕ) : ℚ) = ((⌊p.val⌋ : ℤ) : ℚ) := by exact_mod_cast h1
          rw [h2]; exact Int.floor_le _
        have hof : (Arith.ofNat n : F32).In 0 p.val := by
          refine ofRat_in rep_zero (rep_val p) ?_ ?_
          · push_cast; positivity
          · push_cast; exact hle
        exact (sub_in (in_val hfin) hof rep_zero (rep_val p) (by linarith [hof.2.2]) (by linarith [hof.2.1])).1
      have hread : (readAt s n (p - Arith.ofNat n)).Zero := by
        have l5 : (lit 0.5 : F32).isFin = true := by decide +kernel
        have l15 : (lit 1.5 : F32).isFin = true := by decide +kernel
        have l2 : (lit 2 : F32).isFin = true := by decide +kernel
        have l25 : (lit 2.5 : F32).isFin = true := by decide +kernel
        unfold readAt hermite
        have := hgd
        refine zero_add_zero (zero_mul' (zero_add_zero (zero_mul' (zero_add_zero (zero_mul' ?_ hfrac) ?_) hfrac) ?_) hfrac) (hgd _)
        · exact zero_add_zero (mul_zero' l5 (zero_sub_zero (hgd _) (hgd _))) (mul_zero' l15 (zero_sub_zero (hgd _) (hgd _)))
        · exact zero_sub_zero (zero_add_zero (zero_sub_zero (hgd _) (mul_zero' l25 (hgd _))) (mul_zero' l2 (hgd _))) (mul_zero' l5 (hgd _))
        · exact mul_zero' l5 (zero_sub_zero (hgd _) (hgd _))
      intro y hy
      rcases List.mem_cons.1 hy with rfl | hy
      · exact hread
      · refine ih (advance s x (readAt s n (p - Arith.ofNat n))) _ _ hg (by simpa [advance] using hl) ?_ (fun x hx' => hx x (List.mem_cons_of_mem _ hx')) hr y hy
        intro z hz'
        rcases List.mem_or_eq_of_mem_set hz' with h | rfl
        · exact hz z h
        · exact zero_add_zero (hx x List.mem_cons_self) (mul_zero' hg hread)
  refine key xs (CombC.reset s) s' ys hg (by simp [CombC.reset]) ?_ hx h
  intro y hy
  rw [List.eq_of_mem_replicate hy]
  exact zero_lit

end Verif
