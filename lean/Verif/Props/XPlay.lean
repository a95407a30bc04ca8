import Verif.Model.XPlay
import Verif.Props.Lines
import Verif.Props.Utility
import Verif.Props.BufRd

/-!
# C39: XPlay
-/

set_option linter.unusedSectionVars false

namespace Verif.XPlay
open FP Buffer

/-! ## Silence without material, in any arithmetic -/

section generic
variable {α : Type} [Arith α] [Libm α]

/-- There is nothing to play: no buffer, an invalid buffer, or an empty loop. -/
def Nothing (s : Player α) : Prop :=
  s.buffer = none ∨ (∃ b, s.buffer = some b ∧ b.isValid = false) ∨ (s.loopSize <=. lit 0) = true

/-- **C39**, silence. A player without material returns exact silence for as long as it is ticked and its state does not
change at all: neither play head nor envelope nor crossfade move. Any memory contents, any arithmetic. -/
theorem C39_silent (s : Player α) (m : Mem α) (h : Nothing s) (n : ℕ) :
    process s m n = some (s, List.replicate n Stereo.zero) := by
  have ht : tick s m = some (s, Stereo.zero) := by
    unfold tick
    rcases h with h | ⟨b, h, hb⟩ | h
    · rw [h]
    · rw [h]; simp [hb]
    · cases hb : s.buffer with
      | none => rfl
      | some b => simp [h]
  induction n with
  | zero => rfl
  | succ n ih => simp [process, ht, ih, List.replicate_succ]

/-- `init`, `setBuffer` never reach the loops of `updateLoopBounds`: the play head is put on the loop start. -/
theorem updateLoopBounds_reset (fuel : ℕ) (s : Player α) : updateLoopBounds fuel true s =
    some { bounds s with phasor := (bounds s).loopStart, inSecondHalf := false } := by
  simp [updateLoopBounds]

/-- **C39**: splitting the samples over several calls of `process` makes no difference. -/
theorem C39_process_split (s : Player α) (m : Mem α) (j n : ℕ) : process s m (j + n) =
    (process s m j).bind fun (s1, y) => (process s1 m n).map fun (s2, z) => (s2, y ++ z) := by
  induction j generalizing s with
  | zero => simp [process]
  | succ j ih =>
    rw [Nat.add_right_comm]
    simp only [process]
    cases ht : tick s m with
    | none => rfl
    | some r =>
      obtain ⟨s1, y⟩ := r
      simp only [Option.bind_some, ih]
      cases process s1 m j with
      | none => rfl
      | some r =>
        obtain ⟨s2, ys⟩ := r
        simp only [Option.bind_some, Option.map_some]
        cases process s2 m n with
        | none => rfl
        | some r => simp

/-- **C52** (false of the code), the defect: `init` after `setBuffer` leaves the player with a buffer to advance through but
with a reader that has none, whatever buffer and settings were given before. -/
theorem C52_init_drops_buffer (s s1 : Player α) (sr : α) (b : Option (Buffer α)) (s0 : Player α)
    (h0 : setBuffer b s0 = some s) (h : init sr s = some s1) : s1.buffer = b ∧ s1.reader.buffer = none := by
  unfold setBuffer at h0
  rw [updateLoopBounds_reset] at h0
  unfold init at h
  cases hl : LagLinear.init sr (-lit 1) s.fadeTime with
  | none => rw [hl] at h; simp at h
  | some l =>
    rw [hl] at h
    simp only [Option.bind_some, updateLoopBounds_reset, Option.some.injEq] at h h0
    subst h; subst h0
    exact ⟨rfl, rfl⟩

/-- **C52_partial**: in the order `init`, then `setBuffer`, the reader has the buffer the player advances through. Missing: the
opposite order (see `C52_init_drops_buffer`, `C52_mute`). -/
theorem C52_buffer_kept_partial (s s1 : Player α) (b : Option (Buffer α)) (h : setBuffer b s = some s1) :
    s1.buffer = b ∧ s1.reader.buffer = b := by
  unfold setBuffer at h
  rw [updateLoopBounds_reset] at h
  simp only [Option.some.injEq] at h
  subst h
  exact ⟨rfl, rfl⟩

/-- One tick of a player whose loop is not empty, in parts. -/
theorem tick_some {s s' : Player α} {m : Mem α} {y : Stereo α} (h : tick s m = some (s', y)) :
    (s' = s ∧ y = Stereo.zero ∧ Nothing s) ∨
    ∃ b lag ctrl x1 x2, s.buffer = some b ∧ b.isValid = true ∧ (s.loopSize <=. lit 0) = false ∧
      LagLinear.tick s.fadeLag (if s.phasor >=. s.loopStart + s.loopSize then lit 1 else -lit 1) = some (lag, ctrl) ∧
      BufRd.tickStereo s.reader m (heads s).1 = some x1 ∧ BufRd.tickStereo s.reader m (heads s).2 = some x2 ∧
      s' = advance { s with inSecondHalf := (s.phasor >=. s.loopStart + s.loopSize), fadeLag := lag,
                            env := (EnvelopeADSR.tick s.env).1 } (effectiveRate s b) ∧
      y = ⟨(XFade2.processStereo x1 x2 ctrl (lit 1)).left * (EnvelopeADSR.tick s.env).2,
           (XFade2.processStereo x1 x2 ctrl (lit 1)).right * (EnvelopeADSR.tick s.env).2⟩ := by
  unfold tick at h
  cases hb : s.buffer with
  | none =>
    rw [hb] at h
    simp only [Option.some.injEq, Prod.mk.injEq] at h
    exact .inl ⟨h.1.symm, h.2.symm, .inl hb⟩
  | some b =>
    rw [hb] at h
    by_cases hv : b.isValid = true
    · by_cases hs : (s.loopSize <=. lit 0) = true
      · simp only [hs, Bool.or_true, if_true, Option.some.injEq, Prod.mk.injEq] at h
        exact .inl ⟨h.1.symm, h.2.symm, .inr (.inr hs)⟩
      · simp only [Bool.not_eq_true] at hs
        simp only [hs, hv, Bool.not_true, Bool.or_false, Bool.false_eq_true, if_false] at h
        right
        cases hl : LagLinear.tick s.fadeLag (if s.phasor >=. s.loopStart + s.loopSize then lit 1 else -lit 1) with
        | none => rw [hl] at h; simp at h
        | some r =>
          obtain ⟨lag, ctrl⟩ := r
          rw [hl] at h
          simp only [Option.bind_some] at h
          cases h1 : BufRd.tickStereo s.reader m (heads s).1 with
          | none => rw [h1] at h; simp at h
          | some x1 =>
            cases h2 : BufRd.tickStereo s.reader m (heads s).2 with
            | none => rw [h1, h2] at h; simp at h
            | some x2 =>
              rw [h1, h2] at h
              simp only [Option.bind_some, Option.map_some, Option.some.injEq, Prod.mk.injEq] at h
              exact ⟨b, lag, ctrl, x1, x2, rfl, hv, hs, rfl, rfl, rfl, h.1.symm, h.2.symm⟩
    · simp only [hv, Bool.not_false, Bool.true_or, if_true, Option.some.injEq, Prod.mk.injEq] at h
      exact .inl ⟨h.1.symm, h.2.symm, .inr (.inl ⟨b, hb, by simpa using hv⟩)⟩

/-- What `advance` does not touch. -/
theorem advance_frame (s : Player α) (r : α) : ∃ p f, advance s r = { s with phasor := p, inSecondHalf := f } := by
  unfold advance
  simp only
  split_ifs <;> exact ⟨_, _, rfl⟩

/-- A tick touches only the play head, the half flag, the fader and the envelope. -/
theorem tick_frame {s s' : Player α} {m : Mem α} {y : Stereo α} (h : tick s m = some (s', y)) :
    ∃ p f l e, s' = { s with phasor := p, inSecondHalf := f, fadeLag := l, env := e } := by
  rcases tick_some h with ⟨rfl, -, -⟩ | ⟨b, lag, ctrl, x1, x2, -, -, -, -, -, -, hs, -⟩
  · exact ⟨s'.phasor, s'.inSecondHalf, s'.fadeLag, s'.env, rfl⟩
  · rw [(advance_frame _ (effectiveRate s b)).choose_spec.choose_spec] at hs
    exact ⟨_, _, lag, _, hs⟩

end generic

/-! ## The window, in exact arithmetic -/

/-- The play head is inside the window of two loops, or on the loop start when the loop is empty. -/
def InWindow (s : Player ℝ) : Prop :=
  s.loopSize = 0 ∧ s.phasor = s.loopStart ∨ s.loopStart ≤ s.phasor ∧ s.phasor < s.loopStart + 2 * s.loopSize

/-- The number of frames of the buffer in use. -/
noncomputable def frameCount (s : Player ℝ) : ℝ :=
  match s.buffer with
  | none => 0
  | some b => if b.isValid then b.numSamples else 0

/-- The derived members are those of the current loop points and buffer. -/
def Synced (s : Player ℝ) : Prop :=
  0 ≤ s.start ∧ s.start ≤ 1 ∧ 0 ≤ s.stop ∧ s.stop ≤ 1 ∧ s.frames = frameCount s ∧
  s.loopStart = min s.start s.stop * frameCount s ∧ s.loopEnd = max s.start s.stop * frameCount s ∧
  s.loopSize = |s.start - s.stop| * frameCount s ∧ (s.isReverse = true ↔ s.stop < s.start)

theorem frameCount_nonneg (s : Player ℝ) : 0 ≤ frameCount s := by
  unfold frameCount
  split
  · exact le_rfl
  · split_ifs
    · exact Nat.cast_nonneg _
    · exact le_rfl

theorem framesOf_real (s : Player ℝ) : framesOf s = frameCount s := by
  unfold framesOf frameCount
  cases s.buffer with
  | none => simp [real_arith]
  | some b => simp only [real_arith, Rat.cast_zero]

theorem bounds_real (s : Player ℝ) : (bounds s).frames = frameCount s ∧
    (bounds s).loopStart = min s.start s.stop * frameCount s ∧ (bounds s).loopEnd = max s.start s.stop * frameCount s ∧
    (bounds s).loopSize = |s.start - s.stop| * frameCount s ∧ ((bounds s).isReverse = true ↔ s.stop < s.start) := by
  have hf := frameCount_nonneg s
  have e1 : Arith.stdMin s.start s.stop = min s.start s.stop := by
    simp only [Arith.stdMin, real_arith]
    split_ifs with h
    · exact (min_eq_right h.le).symm
    · exact (min_eq_left (not_lt.1 h)).symm
  have e2 : Arith.stdMax s.start s.stop = max s.start s.stop := by
    simp only [Arith.stdMax, real_arith]
    split_ifs with h
    · exact (max_eq_right h.le).symm
    · exact (max_eq_left (not_lt.1 h)).symm
  refine ⟨framesOf_real s, ?_, ?_, ?_, ?_⟩
  · simp only [bounds, e1, framesOf_real, real_arith]
  · simp only [bounds, e2, framesOf_real, real_arith]
  · simp only [bounds, e1, e2, framesOf_real]
    simp only [real_arith, Arith.stdMax, Rat.cast_zero]
    have : max s.start s.stop * frameCount s - min s.start s.stop * frameCount s = |s.start - s.stop| * frameCount s := by
      rw [← sub_mul, max_sub_min_eq_abs']
    rw [this]
    have h0 : 0 ≤ |s.start - s.stop| * frameCount s := mul_nonneg (abs_nonneg _) hf
    split_ifs with h
    · rfl
    · exact le_antisymm h0 (not_lt.1 h)
  · simp only [bounds, real_arith]

theorem bounds_frame {α : Type} [Arith α] (s : Player α) : (bounds s).buffer = s.buffer ∧ (bounds s).start = s.start ∧
    (bounds s).stop = s.stop ∧ (bounds s).phasor = s.phasor ∧ (bounds s).rate = s.rate := ⟨rfl, rfl, rfl, rfl, rfl⟩

theorem whileLoop_end {cond : ℝ → Bool} {step : ℝ → ℝ} : ∀ {n : ℕ} {x y : ℝ}, whileLoop cond step n x = some y →
    cond y = false ∧ ∃ k, y = step^[k] x ∧ ∀ j < k, cond (step^[j] x) = true
  | 0, x, y, h => by
    simp only [whileLoop] at h
    split_ifs at h with hc
    cases h
    exact ⟨by simpa using hc, 0, rfl, fun j hj => absurd hj (by omega)⟩
  | n + 1, x, y, h => by
    simp only [whileLoop] at h
    split_ifs at h with hc
    · obtain ⟨h1, k, h2, h3⟩ := whileLoop_end h
      refine ⟨h1, k + 1, h2, fun j hj => ?_⟩
      cases j with
      | zero => exact hc
      | succ j => exact h3 j (by omega)
    · cases h
      exact ⟨by simpa using hc, 0, rfl, fun j hj => absurd hj (by omega)⟩

theorem whileLoop_returns {cond : ℝ → Bool} {step : ℝ → ℝ} : ∀ {k : ℕ} {x : ℝ}, cond (step^[k] x) = false →
    ∃ y, ∀ n, k ≤ n → whileLoop cond step n x = some y
  | 0, x, h => ⟨x, fun n _ => by cases n <;> simp_all [whileLoop]⟩
  | k + 1, x, h => by
    by_cases hc : cond x = true
    · obtain ⟨y, hy⟩ := whileLoop_returns (x := step x) (k := k) h
      refine ⟨y, fun n hn => ?_⟩
      obtain ⟨n, rfl⟩ : ∃ n', n = n' + 1 := ⟨n - 1, by omega⟩
      simp only [whileLoop, hc, if_true]
      exact hy n (by omega)
    · exact ⟨x, fun n _ => by cases n <;> simp_all [whileLoop]⟩

theorem iter_add (T : ℝ) (x : ℝ) (k : ℕ) : (fun p => p + T)^[k] x = x + k * T := by
  induction k with
  | zero => simp
  | succ k ih => rw [Function.iterate_succ_apply', ih]; push_cast; ring

theorem iter_sub (T : ℝ) (x : ℝ) (k : ℕ) : (fun p => p - T)^[k] x = x - k * T := by
  induction k with
  | zero => simp
  | succ k ih => rw [Function.iterate_succ_apply', ih]; push_cast; ring

/-- The loops of `updateLoopBounds` land in the window, a whole number of windows away from where the head was. -/
theorem intoWindow_real {s : Player ℝ} {fuel : ℕ} {p : ℝ} (h : intoWindow fuel s = some p) :
    (0 < s.loopSize → s.loopStart ≤ p ∧ p < s.loopStart + 2 * s.loopSize) ∧
    ∃ k : ℤ, p = s.phasor + k * (2 * s.loopSize) := by
  unfold intoWindow at h
  have e2 : ∀ x : ℝ, s.loopSize * (2:ℝ) = 2 * s.loopSize := fun _ => mul_comm _ _
  simp only [windowStart, windowEnd, real_arith, Rat.cast_ofNat] at h
  rw [mul_comm] at h
  cases h1 : whileLoop (fun p => decide (p < s.loopStart)) (fun p => p + 2 * s.loopSize) fuel s.phasor with
  | none => rw [h1] at h; simp at h
  | some q =>
    rw [h1] at h
    simp only [Option.bind_some] at h
    obtain ⟨a1, k, a2, a3⟩ := whileLoop_end h1
    obtain ⟨b1, j, b2, b3⟩ := whileLoop_end h
    rw [iter_add] at a2
    rw [iter_sub] at b2
    simp only [decide_eq_false_iff_not, not_lt, not_le] at a1 b1
    refine ⟨fun hp => ⟨?_, b1⟩, (k:ℤ) - j, by push_cast; rw [b2, a2]; ring⟩
    cases j with
    | zero => rw [b2]; simpa using a1
    | succ j =>
      have := b3 j (by omega)
      rw [iter_sub] at this
      simp only [decide_eq_true_eq] at this
      rw [b2]; push_cast; linarith

/-- **C54** (part), the calls that move the loop points terminate in exact arithmetic (in single precision they need not, see
`C54_setStartEnd_hangs`). -/
theorem C54_setStartEnd_returns_partial (s : Player ℝ) (a b : ℝ) (p : Bool) :
    ∃ N s', ∀ fuel, N ≤ fuel → setStartEnd fuel a b p s = some s' := by
  unfold setStartEnd
  simp only
  split_ifs with h
  · exact ⟨0, s, fun _ _ => rfl⟩
  · generalize ({ s with start := clamp a (lit 0) (lit 1), stop := clamp b (lit 0) (lit 1) } : Player ℝ) = t
    unfold updateLoopBounds
    simp only
    by_cases hc : (!p || (bounds t).loopSize <=. lit 0) = true
    · exact ⟨0, _, fun _ _ => by rw [if_pos hc]⟩
    · simp only [hc, Bool.false_eq_true, if_false]
      generalize bounds t = u at hc
      have hpos : 0 < u.loopSize := by
        simp only [Bool.or_eq_true, real_arith, not_or, Rat.cast_zero, not_le] at hc
        exact hc.2
      have hT : 0 < u.loopSize * 2 := by linarith
      obtain ⟨k, hk⟩ := exists_nat_gt ((u.loopStart - u.phasor) / (u.loopSize * 2))
      rw [div_lt_iff₀ hT] at hk
      obtain ⟨q, hq⟩ := whileLoop_returns (cond := fun p => decide (p < u.loopStart)) (step := fun p => p + u.loopSize * 2)
        (k := k) (x := u.phasor) (by rw [iter_add]; simp only [decide_eq_false_iff_not, not_lt]; linarith)
      obtain ⟨j, hj⟩ := exists_nat_gt ((q - u.loopStart) / (u.loopSize * 2))
      rw [div_lt_iff₀ hT] at hj
      obtain ⟨r, hr⟩ := whileLoop_returns (cond := fun p => decide (u.loopStart + u.loopSize * 2 ≤ p))
        (step := fun p => p - u.loopSize * 2)
        (k := j) (x := q) (by rw [iter_sub]; simp only [decide_eq_false_iff_not, not_le]; linarith)
      refine ⟨max k j, { u with phasor := r, inSecondHalf := (r >=. u.loopStart + u.loopSize) }, fun fuel hf => ?_⟩
      have : intoWindow fuel u = some r := by
        unfold intoWindow
        simp only [windowStart, windowEnd, real_arith, Rat.cast_ofNat]
        rw [hq fuel (le_trans (le_max_left _ _) hf)]
        exact hr fuel (le_trans (le_max_right _ _) hf)
      rw [this]; rfl

theorem update_ok {s s' : Player ℝ} {fuel : ℕ} {r : Bool} (hr : 0 ≤ s.start ∧ s.start ≤ 1 ∧ 0 ≤ s.stop ∧ s.stop ≤ 1)
    (h : updateLoopBounds fuel r s = some s') : InWindow s' ∧ Synced s' := by
  obtain ⟨b1, b2, b3, b4, b5⟩ := bounds_real s
  have hsz : 0 ≤ (bounds s).loopSize := by rw [b4]; exact mul_nonneg (abs_nonneg _) (frameCount_nonneg s)
  have sync : ∀ p f, Synced { bounds s with phasor := p, inSecondHalf := f } := fun p f =>
    ⟨hr.1, hr.2.1, hr.2.2.1, hr.2.2.2, b1, b2, b3, b4, b5⟩
  unfold updateLoopBounds at h
  simp only at h
  split_ifs at h with hc
  · cases h
    refine ⟨?_, sync _ _⟩
    rcases hsz.eq_or_lt with h0 | h0
    · exact .inl ⟨h0.symm, rfl⟩
    · refine .inr ⟨le_rfl, ?_⟩
      show (bounds s).loopStart < (bounds s).loopStart + 2 * (bounds s).loopSize
      linarith
  · cases hi : intoWindow fuel (bounds s) with
    | none => rw [hi] at h; cases h
    | some p =>
      rw [hi] at h
      simp only [Option.map_some, Option.some.injEq] at h
      subst h
      refine ⟨?_, sync _ _⟩
      simp only [Bool.or_eq_true, real_arith, not_or, Rat.cast_zero, not_le] at hc
      exact .inr ((intoWindow_real hi).1 hc.2)

/-- The rate limit: at every tick of the history the step of the play head is at most one window (two loops). -/
def RatesOk (fuel : ℕ) (m : Mem ℝ) : Player ℝ → List (Op ℝ) → Prop
  | _, [] => True
  | s, op :: ops =>
    (∀ b, op = .tick → s.buffer = some b → |effectiveRate s b| ≤ 2 * s.loopSize) ∧
    ∀ s1 y, step fuel m s op = some (s1, y) → RatesOk fuel m s1 ops

theorem advance_window {s : Player ℝ} {r : ℝ} (hw : s.loopStart ≤ s.phasor ∧ s.phasor < s.loopStart + 2 * s.loopSize)
    (hr : |r| ≤ 2 * s.loopSize) :
    (advance s r).loopStart ≤ (advance s r).phasor ∧
      (advance s r).phasor < (advance s r).loopStart + 2 * (advance s r).loopSize := by
  obtain ⟨r1, r2⟩ := abs_le.1 hr
  simp only [advance, windowStart, windowEnd, real_arith, Rat.cast_ofNat]
  split_ifs with h1 h2
  · constructor <;> simp only <;> linarith
  · constructor <;> simp only <;> linarith
  · constructor <;> simp only <;> linarith

theorem step_ok {fuel : ℕ} {m : Mem ℝ} {s s1 : Player ℝ} {op : Op ℝ} {y : List (Stereo ℝ)}
    (hs : InWindow s ∧ Synced s) (hr : ∀ b, op = .tick → s.buffer = some b → |effectiveRate s b| ≤ 2 * s.loopSize)
    (h : step fuel m s op = some (s1, y)) : InWindow s1 ∧ Synced s1 := by
  obtain ⟨hw, hy⟩ := hs
  have hpts : 0 ≤ s.start ∧ s.start ≤ 1 ∧ 0 ≤ s.stop ∧ s.stop ≤ 1 := ⟨hy.1, hy.2.1, hy.2.2.1, hy.2.2.2.1⟩
  cases op with
  | init sr =>
    simp only [step, init] at h
    cases hl : LagLinear.init sr (-lit 1) s.fadeTime with
    | none => rw [hl] at h; simp at h
    | some l =>
      rw [hl] at h
      simp only [Option.bind_some] at h
      rw [Option.map_eq_some_iff] at h
      obtain ⟨t, ht, e⟩ := h
      cases e
      exact update_ok (s := { s with sampleRate := sr, reader := BufRd.init none, fadeLag := l, env := _ }) hpts ht
  | setBuffer b =>
    simp only [step, setBuffer] at h
    rw [Option.map_eq_some_iff] at h
    obtain ⟨t, ht, e⟩ := h
    cases e
    exact update_ok (s := { s with buffer := b, reader := _ }) hpts ht
  | setStartEnd a b p =>
    simp only [step, setStartEnd] at h
    rw [Option.map_eq_some_iff] at h
    obtain ⟨t, ht, e⟩ := h
    cases e
    split_ifs at ht with hc
    · cases ht; exact ⟨hw, hy⟩
    · refine update_ok (s := { s with start := clamp a (lit 0) (lit 1), stop := clamp b (lit 0) (lit 1) }) ?_ ht
      have h01 : (lit 0 : ℝ) ≤ lit 1 := by simp [real_arith]
      have c1 := clamp_real_in h01 a
      have c2 := clamp_real_in h01 b
      simp only [real_arith, Rat.cast_zero, Rat.cast_one] at c1 c2 ⊢
      exact ⟨c1.1, c1.2, c2.1, c2.2⟩
  | setRate r => simp only [step, Option.some.injEq, Prod.mk.injEq] at h; obtain ⟨rfl, -⟩ := h; exact ⟨hw, hy⟩
  | setPlayMode r => simp only [step, Option.some.injEq, Prod.mk.injEq] at h; obtain ⟨rfl, -⟩ := h; exact ⟨hw, hy⟩
  | setGate r => simp only [step, Option.some.injEq, Prod.mk.injEq] at h; obtain ⟨rfl, -⟩ := h; exact ⟨hw, hy⟩
  | resetPhasor =>
    simp only [step, Option.some.injEq, Prod.mk.injEq] at h
    obtain ⟨rfl, -⟩ := h
    refine ⟨?_, hy⟩
    have hsz : 0 ≤ s.loopSize := by
      rw [hy.2.2.2.2.2.2.2.1]; exact mul_nonneg (abs_nonneg _) (frameCount_nonneg s)
    rcases hsz.eq_or_lt with h0 | h0
    · exact .inl ⟨h0.symm, rfl⟩
    · refine .inr ⟨le_rfl, ?_⟩
      show s.loopStart < s.loopStart + 2 * s.loopSize
      linarith
  | setFadeTime t =>
    simp only [step, setFadeTime] at h
    cases hl : LagLinear.setTime (Arith.stdMax (lit 0) t) s.fadeLag with
    | none => rw [hl] at h; simp at h
    | some l =>
      rw [hl] at h
      simp only [Option.map_some, Option.some.injEq, Prod.mk.injEq] at h
      obtain ⟨rfl, -⟩ := h
      exact ⟨hw, hy⟩
  | tick =>
    simp only [step] at h
    rw [Option.map_eq_some_iff] at h
    obtain ⟨⟨t, z⟩, ht, e⟩ := h
    cases e
    rcases tick_some ht with ⟨rfl, -, -⟩ | ⟨b, lag, ctrl, x1, x2, hb, hv, hsz, -, -, -, e, -⟩
    · exact ⟨hw, hy⟩
    · have hpos : 0 < s.loopSize := by simpa [real_arith] using hsz
      have hw' : s.loopStart ≤ s.phasor ∧ s.phasor < s.loopStart + 2 * s.loopSize := by
        rcases hw with ⟨h0, -⟩ | hw
        · exact absurd h0 hpos.ne'
        · exact hw
      obtain ⟨p, f, l, ev, e'⟩ := tick_frame ht
      constructor
      · rw [e]
        exact .inr (advance_window
          (s := { s with inSecondHalf := (s.phasor >=. s.loopStart + s.loopSize), fadeLag := lag,
                         env := (EnvelopeADSR.tick s.env).1 }) hw' (hr b rfl hb))
      · rw [e']; exact hy

/-- **C39**, the window (exact arithmetic). After every history of public calls on a new player – configuration calls in any
order with any arguments, any number of ticks – the derived loop members are those of the current loop points and buffer, and
the play head is inside the window of two loops, provided only that no tick moved it by more than a whole window. -/
theorem C39_window (fuel : ℕ) (m : Mem ℝ) (reader : BufRd.Reader ℝ) (lag : LagLinear.Ramp ℝ) (env : EnvelopeADSR.Env ℝ)
    (ops : List (Op ℝ)) (hr : RatesOk fuel m (new reader lag env) ops) (s : Player ℝ) (out : List (Stereo ℝ))
    (h : run fuel m (new reader lag env) ops = some (s, out)) : InWindow s ∧ Synced s := by
  have h0 : InWindow (new reader lag env) ∧ Synced (new reader lag env) := by
    refine ⟨.inl ⟨?_, ?_⟩, ?_⟩
    · simp [new, real_arith]
    · simp [new, real_arith]
    · simp [Synced, new, real_arith, frameCount]
  generalize new reader lag env = s0 at *
  induction ops generalizing s0 out with
  | nil =>
    simp only [run, Option.some.injEq, Prod.mk.injEq] at h
    obtain ⟨rfl, -⟩ := h
    exact h0
  | cons op ops ih =>
    simp only [run] at h
    cases hs : step fuel m s0 op with
    | none => rw [hs] at h; simp at h
    | some r =>
      obtain ⟨s1, y⟩ := r
      rw [hs] at h
      simp only [Option.bind_some] at h
      rw [Option.map_eq_some_iff] at h
      obtain ⟨⟨s2, ys⟩, h2, e⟩ := h
      cases e
      exact ih _ _ (hr.2 s1 y hs) h2 (step_ok h0 hr.1 hs)

/-- Rates above the limit do leave the window: a step of three loops from the loop start. -/
example : ∃ (s : Player ℝ) (r : ℝ), (s.loopStart ≤ s.phasor ∧ s.phasor < s.loopStart + 2 * s.loopSize) ∧ |r| = 5 * s.loopSize ∧
    ¬ (advance s r).phasor < (advance s r).loopStart + 2 * (advance s r).loopSize := by
  refine ⟨{ buffer := none, sampleRate := 1, start := 0, stop := 1, rate := 1, fadeTime := 0, gateValue := 0, playMode := .loop,
            frames := 1, loopStart := 0, loopEnd := 1, loopSize := 1, phasor := 0, isReverse := false, inSecondHalf := false,
            reader := ⟨none, true, 2⟩, fadeLag := ⟨0, 0, 0, 0, 0, 0⟩,
            env := EnvelopeADSR.init 1 }, 5, ?_, ?_, ?_⟩
  · norm_num
  · norm_num
  · simp [advance, windowStart, windowEnd, real_arith]; norm_num

/-! ## The read heads, in exact arithmetic -/

theorem pingpong_real (s : Player ℝ) (p : ℝ) (h0 : 0 ≤ p) (h1 : p ≤ 2 * s.loopSize) :
    0 ≤ pingpong s p ∧ pingpong s p ≤ s.loopSize ∧ pingpong s p = s.loopSize - |p - s.loopSize| := by
  simp only [pingpong, real_arith, Rat.cast_ofNat]
  split_ifs with h
  · rw [abs_of_nonpos (by linarith)]; exact ⟨h0, h, by ring⟩
  · push Not at h
    rw [abs_of_pos (by linarith)]
    exact ⟨by linarith, by linarith, by ring⟩

theorem phaseWithin_real {T : ℝ} (hT : 0 < T) (x : ℝ) : ∃ q : ℝ, 0 ≤ q ∧ q < T ∧ (∃ k : ℤ, q = x + k * T) ∧
    (if Arith.fmod x T <. lit 0 then Arith.fmod x T + T else Arith.fmod x T) = q := by
  obtain ⟨k, e, h1, h2, h3⟩ := Phasor.fmod_real x T hT
  simp only [real_arith, Rat.cast_zero]
  rw [e]
  split_ifs with h
  · exact ⟨_, by linarith, by linarith, ⟨1 - k, by push_cast; ring⟩, rfl⟩
  · exact ⟨_, not_lt.1 h, h2, ⟨-k, by push_cast; ring⟩, rfl⟩

/-- **C39**, bounce mode. Wherever the play head is – even outside the window – both read positions are between the loop
points; inside the window the first one is the triangle through the loop: forward in the first half, backward in the second. -/
theorem C39_bounce_positions (s : Player ℝ) (hm : s.playMode = .bounce) (hpos : 0 < s.loopSize) :
    (s.loopStart ≤ (heads s).1 ∧ (heads s).1 ≤ s.loopStart + s.loopSize) ∧
    (s.loopStart ≤ (heads s).2 ∧ (heads s).2 ≤ s.loopStart + s.loopSize) ∧
    (s.loopStart ≤ s.phasor → s.phasor ≤ s.loopStart + s.loopSize → (heads s).1 = s.phasor) ∧
    (s.loopStart + s.loopSize ≤ s.phasor → s.phasor < s.loopStart + 2 * s.loopSize →
      (heads s).1 = 2 * (s.loopStart + s.loopSize) - s.phasor) := by
  have hT : 0 < s.loopSize * 2 := by linarith
  obtain ⟨q, q0, q1, ⟨k, qk⟩, hq⟩ := phaseWithin_real hT (s.phasor - s.loopStart)
  have e : heads s = (s.loopStart + pingpong s q, s.loopStart + pingpong s (s.loopSize * 2 - q)) := by
    unfold heads
    rw [hm]
    rw [← hq]
    simp only [real_arith, Rat.cast_ofNat, Rat.cast_zero]
  obtain ⟨a1, a2, a3⟩ := pingpong_real s q q0 (by linarith)
  obtain ⟨b1, b2, b3⟩ := pingpong_real s (s.loopSize * 2 - q) (by linarith) (by linarith)
  have hk : s.loopStart ≤ s.phasor → s.phasor < s.loopStart + 2 * s.loopSize → q = s.phasor - s.loopStart := by
    intro h1 h2
    have : k = 0 := by
      have hk1 : (k:ℝ) < 1 := by nlinarith
      have hk2 : (-1:ℝ) < k := by nlinarith
      have : k < 1 := by exact_mod_cast hk1
      have : -1 < k := by exact_mod_cast hk2
      omega
    rw [qk, this]; simp
  rw [e]
  refine ⟨⟨by simp only; linarith, by simp only; linarith⟩, ⟨by simp only; linarith, by simp only; linarith⟩, ?_, ?_⟩
  · intro h1 h2
    have := hk h1 (by linarith)
    simp only
    rw [a3, this, abs_of_nonpos (by linarith)]; ring
  · intro h1 h2
    have := hk (by linarith) h2
    simp only
    rw [a3, this, abs_of_nonneg (by linarith)]; ring

/-- **C53** (false of the code): in bounce mode the second head does not travel in the opposite direction; it always reads the
same position as the first, for every state. -/
theorem C53_bounce_heads_equal (s : Player ℝ) (hm : s.playMode = .bounce) (hpos : 0 < s.loopSize) :
    (heads s).1 = (heads s).2 := by
  have hT : 0 < s.loopSize * 2 := by linarith
  obtain ⟨q, q0, q1, -, hq⟩ := phaseWithin_real hT (s.phasor - s.loopStart)
  have e : heads s = (s.loopStart + pingpong s q, s.loopStart + pingpong s (s.loopSize * 2 - q)) := by
    unfold heads
    rw [hm]
    rw [← hq]
    simp only [real_arith, Rat.cast_ofNat, Rat.cast_zero]
  rw [e]
  simp only
  rw [(pingpong_real s q q0 (by linarith)).2.2, (pingpong_real s (s.loopSize * 2 - q) (by linarith) (by linarith)).2.2]
  rw [show s.loopSize * 2 - q - s.loopSize = -(q - s.loopSize) by ring, abs_neg]

/-- **C39**, loop mode. For every play head both read positions are inside the buffer. For a head in the window the position the
crossfade is moving to – head 1 in the first half, head 2 in the second – is inside the loop. -/
theorem C39_loop_positions (s : Player ℝ) (hm : s.playMode = .loop) (hy : Synced s) (hpos : 0 < s.loopSize) :
    (0 ≤ (heads s).1 ∧ (heads s).1 < s.frames) ∧ (0 ≤ (heads s).2 ∧ (heads s).2 < s.frames) ∧
    (s.loopStart ≤ s.phasor → s.phasor < s.loopStart + s.loopSize → (heads s).1 = s.phasor) ∧
    (s.loopStart + s.loopSize ≤ s.phasor → s.phasor < s.loopStart + 2 * s.loopSize →
      (heads s).2 = s.phasor - s.loopSize ∧ s.loopStart ≤ (heads s).2 ∧ (heads s).2 < s.loopEnd) := by
  obtain ⟨y1, y2, y3, y4, y5, y6, y7, y8, -⟩ := hy
  have hF := frameCount_nonneg s
  have hFpos : 0 < frameCount s := by
    rcases hF.eq_or_lt with h | h
    · rw [y8, ← h, mul_zero] at hpos; exact absurd hpos (lt_irrefl _)
    · exact h
  have hend : s.loopEnd = s.loopStart + s.loopSize := by
    rw [y6, y7, y8, ← add_mul]
    congr 1
    rw [← max_sub_min_eq_abs']; ring
  have h0 : 0 ≤ s.loopStart := by rw [y6]; exact mul_nonneg (le_min y1 y3) hF
  have h1 : s.loopEnd ≤ s.frames := by
    rw [y7, y5]; exact mul_le_of_le_one_left hF (max_le y2 y4)
  have hf0 : (0:ℝ) < s.frames := by rw [y5]; exact hFpos
  have e : heads s = (Wrap.process s.phasor 0 s.frames, Wrap.process (s.phasor - s.loopSize) 0 s.frames) := by
    unfold heads; rw [hm]; simp only [real_arith, Rat.cast_zero]
  obtain ⟨a1, a2, -⟩ := Wrap.C28_wrap_range hf0 s.phasor
  obtain ⟨b1, b2, -⟩ := Wrap.C28_wrap_range hf0 (s.phasor - s.loopSize)
  rw [e]
  refine ⟨⟨a1, a2⟩, ⟨b1, b2⟩, fun g1 g2 => ?_, fun g1 g2 => ?_⟩
  · exact (Wrap.C28_wrap_idempotent hf0 s.phasor).1 ⟨by linarith, by linarith⟩
  · have := (Wrap.C28_wrap_idempotent hf0 (s.phasor - s.loopSize)).1 ⟨by linarith, by linarith⟩
    simp only [this]
    exact ⟨trivial, by linarith, by linarith⟩

/-- **C39, choosing the mode**: after `setPlayMode` the heads move in the mode asked for, whatever the mode before: in the second half of
the window the first head runs backward through the loop in bounce mode, and the second repeats the loop in loop mode. -/
theorem C39_mode_chosen (s : Player ℝ) (hy : Synced s) (hpos : 0 < s.loopSize) (h1 : s.loopStart + s.loopSize ≤ s.phasor)
    (h2 : s.phasor < s.loopStart + 2 * s.loopSize) :
    (heads (setPlayMode .bounce s)).1 = 2 * (s.loopStart + s.loopSize) - s.phasor ∧
    (heads (setPlayMode .loop s)).2 = s.phasor - s.loopSize :=
  ⟨(C39_bounce_positions (setPlayMode .bounce s) rfl hpos).2.2.2 h1 h2,
    ((C39_loop_positions (setPlayMode .loop s) rfl hy hpos).2.2.2 h1 h2).1⟩

/-- A loop over the middle half of a buffer of 1000 frames, three quarters through its window. -/
example (s : Player ℝ) (b : Buffer ℝ) (hb : s.buffer = some b) (hv : b.isValid = true) (hn : b.numSamples = 1000) :
    let s1 := { s with start := 0.25, stop := 0.75, frames := 1000, loopStart := 250, loopEnd := 750, loopSize := 500,
                       isReverse := false, phasor := 1000 }
    (heads (setPlayMode .bounce s1)).1 = 500 ∧ (heads (setPlayMode .loop s1)).2 = 500 := by
  intro s1
  have hf : frameCount s1 = 1000 := by
    simp [s1, frameCount, hb, hv, hn]
  have := C39_mode_chosen s1 ⟨by norm_num [s1], by norm_num [s1], by norm_num [s1], by norm_num [s1], hf.symm,
    by rw [hf]; norm_num [s1], by rw [hf]; norm_num [s1], by rw [hf]; norm_num [s1, abs_of_neg], by norm_num [s1]⟩
    (by norm_num [s1]) (by norm_num [s1]) (by norm_num [s1])
  refine ⟨this.1.trans ?_, this.2.trans ?_⟩ <;> norm_num [s1]

/-- **C52** (false of the code), its audible effect in exact arithmetic: a player initialised after it was given its buffer is
mute for ever, although its play head advances through the loop. -/
theorem C52_mute (s s1 : Player ℝ) (sr : ℝ) (b : Option (Buffer ℝ)) (s0 : Player ℝ) (m : Mem ℝ)
    (h0 : setBuffer b s0 = some s) (h : init sr s = some s1) (n : ℕ) (t : Player ℝ) (out : List (Stereo ℝ))
    (hp : process s1 m n = some (t, out)) : ∀ y ∈ out, y = ⟨0, 0⟩ := by
  have hr := (C52_init_drops_buffer s s1 sr b s0 h0 h).2
  clear h h0
  induction n generalizing s1 out t with
  | zero =>
    simp only [process, Option.some.injEq, Prod.mk.injEq] at hp
    obtain ⟨-, rfl⟩ := hp; simp
  | succ n ih =>
    simp only [process] at hp
    cases ht : tick s1 m with
    | none => rw [ht] at hp; simp at hp
    | some r =>
      obtain ⟨s2, y⟩ := r
      rw [ht] at hp
      simp only [Option.bind_some] at hp
      rw [Option.map_eq_some_iff] at hp
      obtain ⟨⟨s3, ys⟩, h3, e⟩ := hp
      cases e
      have hr2 : s2.reader.buffer = none := by
        obtain ⟨p, f, l, ev, e⟩ := tick_frame ht
        rw [e]; exact hr
      have hy : y = ⟨0, 0⟩ := by
        rcases tick_some ht with ⟨-, rfl, -⟩ | ⟨b, lag, ctrl, x1, x2, -, -, -, -, e1, e2, -, e⟩
        · simp [Stereo.zero, real_arith]
        · have z1 := (BufRd.C38_no_buffer_silent s1.reader m (heads s1).1 (.inl hr)).2
          have z2 := (BufRd.C38_no_buffer_silent s1.reader m (heads s1).2 (.inl hr)).2
          rw [e1, Option.some.injEq] at z1
          rw [e2, Option.some.injEq] at z2
          rw [e, z1, z2]
          simp [XFade2.processStereo, Stereo.zero, real_arith]
      intro z hz
      rcases List.mem_cons.1 hz with rfl | hz
      · exact hy
      · exact ih s2 s3 ys h3 hr2 z hz

/-! ### Non-trivial cases -/

/-- A mono buffer of eight frames. -/
noncomputable def demoBufR : Buffer ℝ := ⟨.at 0 0, 1, 0, 8⟩

theorem demoBufR_valid : demoBufR.isValid = true := by simp [demoBufR, Buffer.isValid]

/-- A history with ticks that meets the rate limit: loop over the middle half of eight frames (window 8), rate 3. -/
example (m : Mem ℝ) (reader : BufRd.Reader ℝ) (lag : LagLinear.Ramp ℝ) (env : EnvelopeADSR.Env ℝ) :
    RatesOk 0 m (new reader lag env)
      [.setBuffer (some demoBufR), .setStartEnd 0.25 0.75 false, .setRate 3, .tick] := by
  have hcl : ∀ x : ℝ, 0 ≤ x → x ≤ 1 → clamp x (lit 0) (lit 1) = x := by
    intro x h0 h1
    rw [clamp_real (by simp [real_arith])]
    simp only [real_arith, Rat.cast_zero, Rat.cast_one]
    rw [min_eq_right h1, max_eq_right h0]
  refine ⟨(fun b h => by cases h), fun s1 _ h1 => ⟨(fun b h => by cases h), fun s2 _ h2 => ⟨(fun b h => by cases h), fun s3 _ h3 =>
    ⟨fun b _ hb => ?_, fun _ _ _ => trivial⟩⟩⟩⟩
  simp only [step, setBuffer, updateLoopBounds_reset, Option.map_some, Option.some.injEq, Prod.mk.injEq] at h1
  obtain ⟨rfl, -⟩ := h1
  simp only [step, setStartEnd, hcl 0.25 (by norm_num) (by norm_num), hcl 0.75 (by norm_num) (by norm_num)] at h2
  rw [if_neg (by simp only [bounds, new, real_arith, Bool.and_eq_true]; norm_num)] at h2
  simp only [Bool.not_false, updateLoopBounds_reset, Option.map_some, Option.some.injEq, Prod.mk.injEq] at h2
  obtain ⟨rfl, -⟩ := h2
  simp only [step, setRate, Option.some.injEq, Prod.mk.injEq] at h3
  obtain ⟨rfl, -⟩ := h3
  have e : b = demoBufR := by simpa [bounds, new] using hb.symm
  subst e
  simp only [effectiveRate, bounds, framesOf, demoBufR_valid, Arith.stdMin, Arith.stdMax, real_arith]
  simp [demoBufR, real_arith]
  norm_num

end Verif.XPlay
