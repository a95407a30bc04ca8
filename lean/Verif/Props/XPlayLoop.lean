import Verif.Props.XPlay
import Verif.Props.Panning
import Verif.Props.Interpolation

/-!
# C64, C65: what XPlay plays (ideal arithmetic)
-/

namespace Verif.XPlay
open BufRd (curve periodic)

/-- Frames per output sample: the rate, corrected for the sample rate of the recording, backwards if the loop points are swapped. -/
noncomputable def speed (s : Player ℝ) (b : Buffer ℝ) : ℝ :=
  s.rate * (if 0 < b.sampleRate then b.sampleRate / s.sampleRate else 1) * (if s.stop < s.start then -1 else 1)

/-- The point of `[L, L + T)` that differs from `p` by a whole number of `T`. -/
noncomputable def fold (L T p : ℝ) : ℝ := L + T * Int.fract ((p - L) / T)

/-- Play head after `j` samples: it started at `p` and moved on a circle of two loop lengths. -/
noncomputable def headAt (s : Player ℝ) (b : Buffer ℝ) (j : ℕ) : ℝ := fold s.loopStart (2 * s.loopSize) (s.phasor + j * speed s b)

theorem fold_id {L T p : ℝ} (h1 : L ≤ p) (h2 : p < L + T) : fold L T p = p := by
  have hT : 0 < T := by linarith
  unfold fold
  rw [Int.fract_eq_self.2 ⟨div_nonneg (by linarith) hT.le, by rw [div_lt_one hT]; linarith⟩]
  field_simp; ring

theorem fold_add {L T p : ℝ} (hT : 0 < T) (k : ℤ) : fold L T (p + k * T) = fold L T p := by
  unfold fold
  rw [show (p + k * T - L) / T = (p - L) / T + k by field_simp; ring, Int.fract_add_intCast]

theorem effectiveRate_real {s : Player ℝ} (hy : Synced s) (b : Buffer ℝ) : effectiveRate s b = speed s b := by
  have h := hy.2.2.2.2.2.2.2.2
  unfold effectiveRate speed
  by_cases c : s.isReverse = true
  · have := h.1 c
    simp [c, this, real_arith]
  · have : ¬ s.stop < s.start := fun hc => c (h.2 hc)
    simp [c, this, real_arith]

theorem advance_fold {s : Player ℝ} {r : ℝ} (hw : s.loopStart ≤ s.phasor ∧ s.phasor < s.loopStart + 2 * s.loopSize)
    (hr : |r| ≤ 2 * s.loopSize) : (advance s r).phasor = fold s.loopStart (2 * s.loopSize) (s.phasor + r) := by
  have hT : 0 < 2 * s.loopSize := by linarith
  obtain ⟨r1, r2⟩ := abs_le.1 hr
  simp only [advance, windowStart, windowEnd, real_arith, Rat.cast_ofNat]
  split_ifs with h1 h2
  · have := fold_add (L := s.loopStart) (p := s.phasor + r) hT (-1)
    rw [← this, fold_id] <;> push_cast <;> linarith
  · have := fold_add (L := s.loopStart) (p := s.phasor + r) hT 1
    rw [← this, fold_id] <;> push_cast <;> linarith
  · rw [fold_id] <;> linarith

/-- What stays the same from sample to sample, and where the head goes. -/
theorem tick_moves {s s' : Player ℝ} {m : Mem ℝ} {y : Stereo ℝ} (h : tick s m = some (s', y)) {b : Buffer ℝ} (hb : s.buffer = some b)
    (hv : b.isValid = true) (hw : InWindow s) (hy : Synced s) (hpos : 0 < s.loopSize) (hr : |speed s b| ≤ 2 * s.loopSize) :
    InWindow s' ∧ Synced s' ∧ s'.buffer = some b ∧ s'.loopStart = s.loopStart ∧ s'.loopSize = s.loopSize ∧ speed s' b = speed s b ∧
      s'.playMode = s.playMode ∧ s'.reader = s.reader ∧ s'.frames = s.frames ∧ s'.env = (EnvelopeADSR.tick s.env).1 ∧
      (∃ c, LagLinear.tick s.fadeLag (if s.loopStart + s.loopSize ≤ s.phasor then 1 else -1) = some (s'.fadeLag, c) ∧
        ∃ x1 x2, BufRd.tickStereo s.reader m (heads s).1 = some x1 ∧ BufRd.tickStereo s.reader m (heads s).2 = some x2 ∧
        y = ⟨(EnvelopeADSR.tick s.env).2 * (Real.cos (panAngle c) * x1.left + Real.sin (panAngle c) * x2.left),
             (EnvelopeADSR.tick s.env).2 * (Real.cos (panAngle c) * x1.right + Real.sin (panAngle c) * x2.right)⟩) ∧
      s'.phasor = fold s.loopStart (2 * s.loopSize) (s.phasor + speed s b) := by
  have hw' : s.loopStart ≤ s.phasor ∧ s.phasor < s.loopStart + 2 * s.loopSize := by
    rcases hw with ⟨h0, -⟩ | hw
    · exact absurd h0 hpos.ne'
    · exact hw
  have hn : ¬ Nothing s := by
    rintro (h | ⟨b', h, h'⟩ | h)
    · rw [hb] at h; cases h
    · rw [hb] at h; cases h; rw [hv] at h'; cases h'
    · simp [real_arith] at h; linarith
  rcases tick_some h with ⟨-, -, hN⟩ | ⟨b', lag, c, x1, x2, hb', -, -, hl, e1, e2, hs, hy'⟩
  · exact absurd hN hn
  rw [hb] at hb'; cases hb'
  rw [effectiveRate_real hy] at hs
  have hl' : LagLinear.tick s.fadeLag (if s.loopStart + s.loopSize ≤ s.phasor then 1 else -1) = some (lag, c) := by
    rw [← hl]; simp [real_arith]
  obtain ⟨p, f, e⟩ := advance_frame { s with inSecondHalf := (s.phasor >=. s.loopStart + s.loopSize), fadeLag := lag,
                                             env := (EnvelopeADSR.tick s.env).1 } (speed s b)
  have hph := advance_fold (s := { s with inSecondHalf := (s.phasor >=. s.loopStart + s.loopSize), fadeLag := lag,
                                             env := (EnvelopeADSR.tick s.env).1 }) hw' hr
  have hwin := advance_window (s := { s with inSecondHalf := (s.phasor >=. s.loopStart + s.loopSize), fadeLag := lag,
                                             env := (EnvelopeADSR.tick s.env).1 }) hw' hr
  rw [← hs] at hph hwin
  rw [e] at hs
  subst hs
  refine ⟨.inr hwin, hy, hb, rfl, rfl, rfl, rfl, rfl, rfl, rfl, ⟨c, hl', x1, x2, e1, e2, ?_⟩, hph⟩
  rw [hy']
  simp only [XFade2.processStereo, XFade2.gains_real, real_arith, Rat.cast_one]
  congr 1 <;> ring

/-- **C64, pitch** (ideal arithmetic). While the parameters stay the same, the play head is after `n` samples exactly where a head moving
`rate · (buffer sample rate / output sample rate)` frames per sample is on a circle of two loop lengths; backwards if the loop points are
swapped. -/
theorem C64_pitch {s s' : Player ℝ} {m : Mem ℝ} {n : ℕ} {out : List (Stereo ℝ)} (h : process s m n = some (s', out)) {b : Buffer ℝ}
    (hb : s.buffer = some b) (hv : b.isValid = true) (hw : InWindow s) (hy : Synced s) (hpos : 0 < s.loopSize)
    (hr : |speed s b| ≤ 2 * s.loopSize) : s'.phasor = headAt s b n := by
  induction n generalizing s out with
  | zero =>
    simp only [process, Option.some.injEq, Prod.mk.injEq] at h
    obtain ⟨rfl, -⟩ := h
    rcases hw with ⟨h0, -⟩ | hw
    · exact absurd h0 hpos.ne'
    · rw [headAt, fold_id] <;> push_cast <;> linarith [hw.1, hw.2]
  | succ n ih =>
    simp only [process] at h
    rw [Option.bind_eq_some_iff] at h
    obtain ⟨⟨s1, y⟩, h1, h⟩ := h
    rw [Option.map_eq_some_iff] at h
    obtain ⟨⟨s2, ys⟩, h2, h⟩ := h
    cases h
    obtain ⟨a1, a2, a3, a4, a5, a6, -, -, -, -, -, a7⟩ := tick_moves h1 hb hv hw hy hpos hr
    rw [ih h2 a3 a1 a2 (by rw [a5]; exact hpos) (by rw [a6, a5]; exact hr)]
    unfold headAt
    rw [a4, a5, a6, a7]
    have hT : 0 < 2 * s.loopSize := by linarith
    obtain ⟨k, hk⟩ : ∃ k : ℤ, fold s.loopStart (2 * s.loopSize) (s.phasor + speed s b) = s.phasor + speed s b + k * (2 * s.loopSize) := by
      refine ⟨-⌊(s.phasor + speed s b - s.loopStart) / (2 * s.loopSize)⌋, ?_⟩
      unfold fold Int.fract
      push_cast
      field_simp; ring
    rw [hk, show s.phasor + speed s b + k * (2 * s.loopSize) + n * speed s b = s.phasor + ((n + 1 : ℕ) : ℝ) * speed s b + k * (2 * s.loopSize) by
      push_cast; ring, fold_add hT]

/-- The curve through a repeated recording repeats. -/
theorem curve_add (mode : ℕ) (x : ℕ → ℝ) {N : ℕ} (p : ℝ) (k : ℤ) : curve mode x N (p + k * N) = curve mode x N p := by
  have hf : ⌊p + k * N⌋ = ⌊p⌋ + k * N := by
    rw [show (p + k * N : ℝ) = p + ((k * N : ℤ) : ℝ) by push_cast; ring, Int.floor_add_intCast]
  have hp : ∀ c : ℤ, periodic x N (⌊p⌋ + k * N + c) = periodic x N (⌊p⌋ + c) := by
    intro c
    unfold periodic
    rw [show ⌊p⌋ + k * N + c = ⌊p⌋ + c + k * N by ring, Int.add_mul_emod_self_right]
  have hp0 : periodic x N (⌊p⌋ + k * N) = periodic x N ⌊p⌋ := by simpa using hp 0
  have hpm : periodic x N (⌊p⌋ + k * N - 1) = periodic x N (⌊p⌋ - 1) := hp (-1)
  unfold curve spline polygon
  rw [hf, hp0, hpm, hp 1, hp 2]
  have e : p + k * N - ((⌊p⌋ + k * N : ℤ) : ℝ) = p - ⌊p⌋ := by push_cast; ring
  rw [e]

/-- The frames of the buffer: `x` on the left, `z` on the right. -/
def Recording (m : Mem ℝ) (b : Buffer ℝ) (x z : ℕ → ℝ) : Prop := ∀ i < b.numSamples, b.getStereoSample m i = some ⟨x i, z i⟩

/-- The reading at a wrapped position is the reading at the position. -/
theorem read_wrapped {s : Player ℝ} {m : Mem ℝ} {b : Buffer ℝ} (hrd : s.reader.buffer = some b) (hl : s.reader.loop = true)
    (hv : b.isValid = true) (hN : b.numSamples < 2 ^ 62) {x z : ℕ → ℝ} (hx : Recording m b x z) (hf : s.frames = b.numSamples) (p : ℝ) :
    BufRd.tickStereo s.reader m (Wrap.process p 0 s.frames) =
      some ⟨curve s.reader.interpolation x b.numSamples p, curve s.reader.interpolation z b.numSamples p⟩ := by
  have h0 : 0 < b.numSamples := by
    simp only [Buffer.isValid, Bool.and_eq_true, decide_eq_true_eq] at hv; exact hv.1.2
  obtain ⟨-, -, k, hk⟩ := Wrap.C28_wrap_range (lo := 0) (hi := s.frames) (by rw [hf]; exact_mod_cast h0) p
  rw [sub_zero, hf] at hk
  rw [BufRd.C63_loop_stereo s.reader b hrd hv hl m hN x z hx, hf]
  generalize Wrap.process p 0 (b.numSamples : ℝ) = q at hk
  rw [hk, curve_add, curve_add]

theorem synced_frames {s : Player ℝ} (hy : Synced s) {b : Buffer ℝ} (hb : s.buffer = some b) (hv : b.isValid = true) :
    s.frames = b.numSamples := by
  rw [hy.2.2.2.2.1, frameCount, hb]; simp [hv]

theorem loop_heads {s : Player ℝ} (hm : s.playMode = .loop) :
    heads s = (Wrap.process s.phasor 0 s.frames, Wrap.process (s.phasor - s.loopSize) 0 s.frames) := by
  unfold heads; rw [hm]; simp only [real_arith, Rat.cast_zero]

theorem headAt_zero {s : Player ℝ} (b : Buffer ℝ) (hw : InWindow s) (hpos : 0 < s.loopSize) : headAt s b 0 = s.phasor := by
  rcases hw with ⟨h0, -⟩ | hw
  · exact absurd h0 hpos.ne'
  · rw [headAt, fold_id] <;> push_cast <;> linarith [hw.1, hw.2]

theorem headAt_succ {s s1 : Player ℝ} {b : Buffer ℝ} (hpos : 0 < s.loopSize) (a4 : s1.loopStart = s.loopStart)
    (a5 : s1.loopSize = s.loopSize) (a6 : speed s1 b = speed s b)
    (a7 : s1.phasor = fold s.loopStart (2 * s.loopSize) (s.phasor + speed s b)) (j : ℕ) : headAt s1 b j = headAt s b (j + 1) := by
  unfold headAt
  rw [a4, a5, a6, a7]
  have hT : 0 < 2 * s.loopSize := by linarith
  obtain ⟨k, hk⟩ : ∃ k : ℤ, fold s.loopStart (2 * s.loopSize) (s.phasor + speed s b) = s.phasor + speed s b + k * (2 * s.loopSize) := by
    refine ⟨-⌊(s.phasor + speed s b - s.loopStart) / (2 * s.loopSize)⌋, ?_⟩
    unfold fold Int.fract
    push_cast
    field_simp; ring
  rw [hk, show s.phasor + speed s b + k * (2 * s.loopSize) + j * speed s b = s.phasor + ((j + 1 : ℕ) : ℝ) * speed s b + k * (2 * s.loopSize) by
    push_cast; ring, fold_add hT]

/-- **C64, output** (ideal arithmetic, loop mode). Sample `j` is the envelope times an equal-power mix of the recording at the play head and
one loop length behind it. The fader is the `LagLinear` fed with `-1` while the head is in the first loop length of its circle and `1`
while it is in the second. -/
theorem C64_output {s s' : Player ℝ} {m : Mem ℝ} {n : ℕ} {out : List (Stereo ℝ)} (h : process s m n = some (s', out)) {b : Buffer ℝ}
    (hb : s.buffer = some b) (hv : b.isValid = true) (hw : InWindow s) (hy : Synced s) (hpos : 0 < s.loopSize)
    (hr : |speed s b| ≤ 2 * s.loopSize) (hm : s.playMode = .loop) (hrd : s.reader.buffer = some b) (hl : s.reader.loop = true)
    (hN : b.numSamples < 2 ^ 62) {x z : ℕ → ℝ} (hx : Recording m b x z) :
    ∃ fade, LagLinear.process s.fadeLag ((List.range n).map fun j => if s.loopStart + s.loopSize ≤ headAt s b j then 1 else -1) =
        some (s'.fadeLag, fade) ∧
      out = (List.range n).map fun j =>
        let mix := fun x => tickOut EnvelopeADSR.tick j s.env *
          (Real.cos (panAngle (fade.getD j 0)) * curve s.reader.interpolation x b.numSamples (headAt s b j) +
           Real.sin (panAngle (fade.getD j 0)) * curve s.reader.interpolation x b.numSamples (headAt s b j - s.loopSize))
        ⟨mix x, mix z⟩ := by
  induction n generalizing s out with
  | zero =>
    simp only [process, Option.some.injEq, Prod.mk.injEq] at h
    obtain ⟨rfl, rfl⟩ := h
    exact ⟨[], rfl, rfl⟩
  | succ n ih =>
    simp only [process] at h
    rw [Option.bind_eq_some_iff] at h
    obtain ⟨⟨s1, y⟩, h1, h⟩ := h
    rw [Option.map_eq_some_iff] at h
    obtain ⟨⟨s2, ys⟩, h2, h⟩ := h
    cases h
    obtain ⟨a1, a2, a3, a4, a5, a6, b1, b2, b3, b4, ⟨c, hc, x1, x2, e1, e2, hy1⟩, a7⟩ := tick_moves h1 hb hv hw hy hpos hr
    obtain ⟨fade, f1, f2⟩ := ih h2 a3 a1 a2 (by rw [a5]; exact hpos) (by rw [a6, a5]; exact hr) (by rw [b1]; exact hm)
      (by rw [b2]; exact hrd) (by rw [b2]; exact hl)
    simp only [headAt_succ hpos a4 a5 a6 a7, a4, a5, b2, b4] at f1 f2
    have hf := synced_frames hy hb hv
    rw [loop_heads hm] at e1 e2
    rw [read_wrapped hrd hl hv hN hx hf, Option.some.injEq] at e1 e2
    have h0 := headAt_zero b hw hpos
    refine ⟨c :: fade, ?_, ?_⟩
    · rw [List.range_succ_eq_map, List.map_cons, List.map_map, LagLinear.process, h0, hc, Option.bind_some]
      simp only [Function.comp_def]
      rw [f1]; rfl
    · rw [List.range_succ_eq_map, List.map_cons, List.map_map, f2, hy1, ← e1, ← e2]
      simp only [Function.comp_def, List.getD_cons_zero, List.getD_cons_succ, h0]
      rfl

/-- **C64**: when the fader rests at its start the output is the recording at the play head, times the envelope; at its other end it is the
recording one loop length behind, to within ten places. -/
theorem C64_between_fades (e A B : ℝ) : e * (Real.cos (panAngle (-1)) * A + Real.sin (panAngle (-1)) * B) = e * A ∧
    |e * (Real.cos (panAngle 1) * A + Real.sin (panAngle 1) * B) - e * B| ≤ |e| * (|A| + |B|) * 1e-10 := by
  constructor
  · rw [panAngle_neg_one]; simp
  · have h := (XFade2.C27_equal_power A B 1 1).2.2.2
    have h2 : XFade2.process A B 1 (1:ℝ) = Real.cos (panAngle 1) * A + Real.sin (panAngle 1) * B := by
      simp only [XFade2.process, XFade2.gains_real, real_arith]; ring
    rw [h2] at h
    rw [← mul_sub, abs_mul, mul_assoc]
    refine mul_le_mul_of_nonneg_left ?_ (abs_nonneg e)
    simpa using h

/-! ## C65: the seam -/

/-- Position of a head on the circular recording: `p` and `q` are the same place. -/
def SamePlace (s : Player ℝ) (p q : ℝ) : Prop := ∃ k : ℤ, p - q = k * s.frames

/-- **C65_partial** (ideal arithmetic, loop mode): as long as the play head does not pass the end of its circle of two loop lengths, in
particular where the crossfade starts, both read heads simply move on by the speed. Missing: the end of the circle, see `C65_jump`. -/
theorem C65_heads_move_partial {s s' : Player ℝ} {m : Mem ℝ} {y : Stereo ℝ} (h : tick s m = some (s', y)) {b : Buffer ℝ}
    (hb : s.buffer = some b) (hv : b.isValid = true) (hw : InWindow s) (hy : Synced s) (hpos : 0 < s.loopSize)
    (hr : |speed s b| ≤ 2 * s.loopSize) (hm : s.playMode = .loop) (h1 : s.loopStart ≤ s.phasor + speed s b)
    (h2 : s.phasor + speed s b < s.loopStart + 2 * s.loopSize) :
    SamePlace s (heads s').1 ((heads s).1 + speed s b) ∧ SamePlace s (heads s').2 ((heads s).2 + speed s b) := by
  obtain ⟨a1, a2, a3, a4, a5, a6, b1, b2, b3, b4, -, a7⟩ := tick_moves h hb hv hw hy hpos hr
  have hf := synced_frames hy hb hv
  have h0 : 0 < b.numSamples := by
    simp only [Buffer.isValid, Bool.and_eq_true, decide_eq_true_eq] at hv; exact hv.1.2
  have hF : (0:ℝ) < s.frames := by rw [hf]; exact_mod_cast h0
  rw [fold_id h1 h2] at a7
  rw [loop_heads hm, loop_heads (by rw [b1]; exact hm), a7, a5, b3]
  obtain ⟨-, -, k1, e1⟩ := Wrap.C28_wrap_range hF s.phasor
  obtain ⟨-, -, k2, e2⟩ := Wrap.C28_wrap_range hF (s.phasor - s.loopSize)
  obtain ⟨-, -, k3, e3⟩ := Wrap.C28_wrap_range hF (s.phasor + speed s b)
  obtain ⟨-, -, k4, e4⟩ := Wrap.C28_wrap_range hF (s.phasor + speed s b - s.loopSize)
  rw [sub_zero] at e1 e2 e3 e4
  exact ⟨⟨k1 - k3, by push_cast; linarith⟩, ⟨k2 - k4, by push_cast; linarith⟩⟩

/-- **C65 negation, the jump** (ideal arithmetic, loop mode, any direction): when the play head passes the end of its circle, the head that
is being faded out moves on only if two loop lengths are a whole number of recordings, i.e. if the loop is the whole recording or half of
it. For every other loop it jumps to material outside the loop at the moment it is at full level. -/
theorem C65_jump {s s' : Player ℝ} {m : Mem ℝ} {y : Stereo ℝ} (h : tick s m = some (s', y)) {b : Buffer ℝ}
    (hb : s.buffer = some b) (hv : b.isValid = true) (hw : InWindow s) (hy : Synced s) (hpos : 0 < s.loopSize)
    (hr : |speed s b| ≤ 2 * s.loopSize) (hm : s.playMode = .loop)
    (h1 : s.phasor + speed s b < s.loopStart ∨ s.loopStart + 2 * s.loopSize ≤ s.phasor + speed s b) :
    (SamePlace s (heads s').2 ((heads s).2 + speed s b) ↔ s.loopSize = s.frames ∨ s.loopSize = s.frames / 2) ∧
    (SamePlace s (heads s').1 ((heads s).1 + speed s b) ↔ s.loopSize = s.frames ∨ s.loopSize = s.frames / 2) := by
  obtain ⟨a1, a2, a3, a4, a5, a6, b1, b2, b3, b4, -, a7⟩ := tick_moves h hb hv hw hy hpos hr
  have hf := synced_frames hy hb hv
  have h0 : 0 < b.numSamples := by
    simp only [Buffer.isValid, Bool.and_eq_true, decide_eq_true_eq] at hv; exact hv.1.2
  have hF : (0:ℝ) < s.frames := by rw [hf]; exact_mod_cast h0
  have hLF : s.loopSize ≤ s.frames := by
    obtain ⟨y1, y2, y3, y4, y5, y6, y7, y8, -⟩ := hy
    rw [y8, y5]
    refine mul_le_of_le_one_left (frameCount_nonneg s) ?_
    rw [abs_le]; constructor <;> linarith
  have hw' : s.loopStart ≤ s.phasor ∧ s.phasor < s.loopStart + 2 * s.loopSize := by
    rcases hw with ⟨h0, -⟩ | hw
    · exact absurd h0 hpos.ne'
    · exact hw
  obtain ⟨r1, r2⟩ := abs_le.1 hr
  have hT : 0 < 2 * s.loopSize := by linarith
  obtain ⟨d, hd, hp⟩ : ∃ d : ℤ, (d = 1 ∨ d = -1) ∧ s'.phasor = s.phasor + speed s b + d * (2 * s.loopSize) := by
    rcases h1 with h1 | h1
    · refine ⟨1, .inl rfl, ?_⟩
      rw [a7, ← fold_add (L := s.loopStart) (p := s.phasor + speed s b) hT 1, fold_id] <;> push_cast <;> linarith
    · refine ⟨-1, .inr rfl, ?_⟩
      rw [a7, ← fold_add (L := s.loopStart) (p := s.phasor + speed s b) hT (-1), fold_id] <;> push_cast <;> linarith
  have key : (∃ k : ℤ, 2 * s.loopSize = k * s.frames) ↔ s.loopSize = s.frames ∨ s.loopSize = s.frames / 2 := by
    constructor
    · rintro ⟨k, hk⟩
      have k0 : 0 < k := by
        by_contra hc
        have : (k:ℝ) ≤ 0 := by exact_mod_cast not_lt.1 hc
        nlinarith
      have k2 : k ≤ 2 := by
        by_contra hc
        have : (3:ℝ) ≤ k := by exact_mod_cast (show (3:ℤ) ≤ k by omega)
        nlinarith
      have : k = 1 ∨ k = 2 := by omega
      rcases this with rfl | rfl
      · right; push_cast at hk; linarith
      · left; push_cast at hk; linarith
    · rintro (h | h)
      · exact ⟨2, by rw [h]; push_cast; ring⟩
      · exact ⟨1, by rw [h]; push_cast; ring⟩
  rw [loop_heads hm, loop_heads (by rw [b1]; exact hm), a5, b3]
  obtain ⟨-, -, k1, e1⟩ := Wrap.C28_wrap_range hF s.phasor
  obtain ⟨-, -, k2, e2⟩ := Wrap.C28_wrap_range hF (s.phasor - s.loopSize)
  obtain ⟨-, -, k3, e3⟩ := Wrap.C28_wrap_range hF s'.phasor
  obtain ⟨-, -, k4, e4⟩ := Wrap.C28_wrap_range hF (s'.phasor - s.loopSize)
  rw [sub_zero] at e1 e2 e3 e4
  rw [← key]
  constructor
  · constructor
    · rintro ⟨k, hk⟩
      simp only at hk
      rcases hd with rfl | rfl
      · exact ⟨k + k4 - k2, by push_cast at hp ⊢; linarith⟩
      · exact ⟨-(k + k4 - k2), by push_cast at hp ⊢; linarith⟩
    · rintro ⟨k, hk⟩
      refine ⟨d * k + k2 - k4, ?_⟩
      rcases hd with rfl | rfl <;> push_cast at hp ⊢ <;> linarith
  · constructor
    · rintro ⟨k, hk⟩
      simp only at hk
      rcases hd with rfl | rfl
      · exact ⟨k + k3 - k1, by push_cast at hp ⊢; linarith⟩
      · exact ⟨-(k + k3 - k1), by push_cast at hp ⊢; linarith⟩
    · rintro ⟨k, hk⟩
      refine ⟨d * k + k1 - k3, ?_⟩
      rcases hd with rfl | rfl <;> push_cast at hp ⊢ <;> linarith

/-- **C65 negation, the level** (ideal arithmetic): looping the whole recording, the default, both heads read the same place, so that the
equal-power crossfade is a swell: the output is the recording times `cos θ + sin θ`, which is `√2` (3 dB) half way through. -/
theorem C65_level {s s' : Player ℝ} {m : Mem ℝ} {n : ℕ} {out : List (Stereo ℝ)} (h : process s m n = some (s', out)) {b : Buffer ℝ}
    (hb : s.buffer = some b) (hv : b.isValid = true) (hw : InWindow s) (hy : Synced s) (hpos : 0 < s.loopSize)
    (hr : |speed s b| ≤ 2 * s.loopSize) (hm : s.playMode = .loop) (hrd : s.reader.buffer = some b) (hl : s.reader.loop = true)
    (hN : b.numSamples < 2 ^ 62) {x z : ℕ → ℝ} (hx : Recording m b x z) (hall : s.start = 0 ∧ s.stop = 1 ∨ s.start = 1 ∧ s.stop = 0) :
    ∃ fade, LagLinear.process s.fadeLag ((List.range n).map fun j => if s.loopStart + s.loopSize ≤ headAt s b j then 1 else -1) =
        some (s'.fadeLag, fade) ∧
      out = (List.range n).map fun j =>
        let g := tickOut EnvelopeADSR.tick j s.env * (Real.cos (panAngle (fade.getD j 0)) + Real.sin (panAngle (fade.getD j 0)))
        ⟨g * curve s.reader.interpolation x b.numSamples (headAt s b j), g * curve s.reader.interpolation z b.numSamples (headAt s b j)⟩ := by
  obtain ⟨fade, h1, h2⟩ := C64_output h hb hv hw hy hpos hr hm hrd hl hN hx
  refine ⟨fade, h1, ?_⟩
  have hf := synced_frames hy hb hv
  have hL : s.loopSize = b.numSamples := by
    obtain ⟨y1, y2, y3, y4, y5, y6, y7, y8, -⟩ := hy
    rw [y8, ← y5, hf]
    rcases hall with ⟨e1, e2⟩ | ⟨e1, e2⟩ <;> rw [e1, e2] <;> norm_num
  have hc : ∀ x p, curve s.reader.interpolation x b.numSamples (p - s.loopSize) = curve s.reader.interpolation x b.numSamples p := by
    intro x p
    have := curve_add s.reader.interpolation x (N := b.numSamples) p (-1)
    rw [← this, hL]; congr 1; push_cast; ring
  rw [h2]
  refine List.map_congr_left fun j _ => ?_
  simp only [hc]
  congr 1 <;> ring

/-- The factor of `C65_level` half way through the fade. -/
theorem C65_level_middle : 1.414 < Real.cos (panAngle 0) + Real.sin (panAngle 0) := by
  have e : panAngle 1 = 2 * panAngle 0 := by norm_num [panAngle]
  have h1 := panAngle_one
  have h2 := panAngle_sin_nonneg 1
  have h3 := Real.cos_sq_add_sin_sq (panAngle 1)
  have h4 := panAngle_sin_nonneg 0
  have h5 := panAngle_cos_pos 0
  have h6 := Real.cos_sq_add_sin_sq (panAngle 0)
  have h7 : Real.sin (panAngle 1) = 2 * Real.sin (panAngle 0) * Real.cos (panAngle 0) := by rw [e, Real.sin_two_mul]
  norm_num at h1 ⊢
  have h8 : 0.9999 < Real.sin (panAngle 1) := by
    by_contra hc
    push Not at hc
    have : Real.cos (panAngle 1) ^ 2 ≤ 0.0000000001 := by nlinarith
    nlinarith
  by_contra hc
  push Not at hc
  nlinarith

/-- A tick with a readable recording and a working fader is defined. -/
theorem tick_defined {s : Player ℝ} {m : Mem ℝ} {b : Buffer ℝ} (hb : s.buffer = some b) (hv : b.isValid = true) (hpos : 0 < s.loopSize)
    (hrd : s.reader.buffer = some b) (hl : s.reader.loop = true) (hN : b.numSamples < 2 ^ 62) {x z : ℕ → ℝ} (hx : Recording m b x z)
    {l : LagLinear.Ramp ℝ} {c : ℝ}
    (hlag : LagLinear.tick s.fadeLag (if s.loopStart + s.loopSize ≤ s.phasor then 1 else -1) = some (l, c)) :
    ∃ s' y, tick s m = some (s', y) := by
  have hlag' : LagLinear.tick s.fadeLag (if s.phasor >=. s.loopStart + s.loopSize then lit 1 else -lit 1) = some (l, c) := by
    rw [← hlag]; simp [real_arith]
  have hz : (s.loopSize <=. lit 0) = false := by simp [real_arith, hpos]
  unfold tick
  simp only [hb, hv, hz, Bool.not_true, Bool.or_false, Bool.false_eq_true, if_false, hlag', Option.bind_some,
    BufRd.C63_loop_stereo s.reader b hrd hv hl m hN x z hx, Option.map_some]
  exact ⟨_, _, rfl⟩

/-- **C65 negation, heard** (ideal arithmetic): a player whose loop `[a, a + L)` and everything after it is silent, but which was preceded
by sound, sounds once per two loops. Here the loop is the third quarter of a recording of `4 L` frames with 1 in the second quarter
(the quarter before the loop) and silence elsewhere, the speed is 1 and the fader has reached the second head. -/
theorem C65_heard {s : Player ℝ} {m : Mem ℝ} {b : Buffer ℝ} (hb : s.buffer = some b) (hv : b.isValid = true) (hy : Synced s) {L : ℕ}
    (hL : 2 ≤ L) (hn : b.numSamples = 4 * L) (hN : L < 2 ^ 59) (ha : s.start = 1 / 2) (hz : s.stop = 3 / 4) (hsp : speed s b = 1)
    (hm : s.playMode = .loop) (hrd : s.reader.buffer = some b) (hl : s.reader.loop = true) (hi : s.reader.interpolation = 2)
    {z : ℕ → ℝ} (hx : Recording m b (fun i => if L ≤ i ∧ i < 2 * L then 1 else 0) z) (hp : s.phasor = 4 * L - 1)
    (hf : s.fadeLag.currentValue = 1 ∧ s.fadeLag.targetValue = 1 ∧ s.fadeLag.samplesRemaining = 0)
    (ht : s.fadeLag.timeSeconds * s.fadeLag.sampleRate = 8 ∧ 0 < s.fadeLag.timeSeconds) :
    ∃ s2 y1 y2, process s m 2 = some (s2, [y1, y2]) ∧
      y1.left = 0 ∧ y2.left = tickOut EnvelopeADSR.tick 1 s.env * Real.sin (panAngle (3 / 4)) := by
  have hF : frameCount s = 4 * L := by rw [frameCount, hb]; simp [hv, hn]
  have hL0 : (2:ℝ) ≤ L := by exact_mod_cast hL
  have hls : s.loopStart = 2 * L := by rw [hy.2.2.2.2.2.1, hF, ha, hz]; norm_num; ring
  have hsz : s.loopSize = L := by
    rw [hy.2.2.2.2.2.2.2.1, hF, ha, hz, show (1 / 2 - 3 / 4 : ℝ) = -(1 / 4) by norm_num, abs_neg, abs_of_pos (by norm_num)]; ring
  have hw : InWindow s := .inr (by rw [hp, hls, hsz]; constructor <;> linarith)
  obtain ⟨c1, c2, c3⟩ := hf
  have t1 : LagLinear.tick s.fadeLag 1 = some (s.fadeLag, 1) := by
    simp [LagLinear.tick, LagLinear.advance, c2, c3, real_arith, Arith.ne]
    cases hq : s.fadeLag; simp_all
  have t2 : ∃ l, LagLinear.tick s.fadeLag (-1) = some (l, 3 / 4) := by
    have hlen : ∀ t : LagLinear.Ramp ℝ, t.timeSeconds * t.sampleRate = 8 → LagLinear.rampLength t = some 8 := by
      intro t e
      have r8 : roundR (8:ℝ) = 8 := by norm_num [roundR, Int.floor_eq_iff]
      have t8 : truncR (((8:ℤ) : ℝ)) = 8 := by simp [truncR]
      simp only [LagLinear.rampLength, real_arith, e, Arith.toI32?, r8, t8]
      norm_num
    have hne : Arith.ne (-1:ℝ) s.fadeLag.targetValue = true := by rw [c2]; simp [Arith.ne, real_arith]; norm_num
    have hti : ¬ s.fadeLag.timeSeconds ≤ 0 := not_le.2 ht.2
    simp only [LagLinear.tick, hne, if_true, hlen { s.fadeLag with targetValue := -1 } ht.1]
    simp [real_arith, hti, LagLinear.recalcIncrement, LagLinear.advance, c1]
    norm_num
  obtain ⟨l, t2⟩ := t2
  have hpos : 0 < s.loopSize := by rw [hsz]; linarith
  have hsp2 : |speed s b| ≤ 2 * s.loopSize := by rw [hsp, hsz, abs_one]; linarith
  obtain ⟨s1, y1, h1⟩ := tick_defined hb hv hpos hrd hl (by omega) hx
    (show LagLinear.tick s.fadeLag _ = some (s.fadeLag, 1) by rw [if_pos (by rw [hls, hsz, hp]; linarith)]; exact t1)
  obtain ⟨-, -, a3, a4, a5, -, -, a8, -, -, ⟨c, a10, -⟩, a11⟩ := tick_moves h1 hb hv hw hy hpos hsp2
  have hph1 : s1.phasor = 2 * L := by
    rw [a11, hp, hsp, hls, hsz]
    have := fold_add (L := (2 * L : ℝ)) (T := 2 * L) (p := 2 * L) (by linarith) 1
    rw [show (4 * L - 1 + 1 : ℝ) = 2 * L + (1:ℤ) * (2 * L) by push_cast; ring, this, fold_id] <;> linarith
  have hlag1 : s1.fadeLag = s.fadeLag := by
    rw [if_pos (by rw [hls, hsz, hp]; linarith), t1] at a10
    simp only [Option.some.injEq, Prod.mk.injEq] at a10
    exact a10.1.symm
  obtain ⟨s2, y2, h2⟩ := tick_defined (s := s1) a3 hv (by rw [a5]; exact hpos) (by rw [a8]; exact hrd) (by rw [a8]; exact hl) (by omega) hx
    (show LagLinear.tick s1.fadeLag _ = some (l, 3 / 4) by
      rw [if_neg (by rw [a4, a5, hls, hsz, hph1]; linarith), hlag1]; exact t2)
  have hpr : process s m 2 = some (s2, [y1, y2]) := by simp [process, h1, h2]
  refine ⟨s2, y1, y2, hpr, ?_⟩
  obtain ⟨fade, f1, f2⟩ := C64_output hpr hb hv hw hy hpos hsp2 hm hrd hl (by omega) hx
  have p0 : headAt s b 0 = 4 * L - 1 := by rw [headAt_zero b hw (by rw [hsz]; linarith), hp]
  have p1 : headAt s b 1 = 2 * L := by
    unfold headAt
    rw [hp, hsp, hls, hsz]
    have := fold_add (L := (2 * L : ℝ)) (T := 2 * L) (p := 2 * L) (by linarith) 1
    rw [show (4 * L - 1 + ((1:ℕ) : ℝ) * 1 : ℝ) = 2 * L + (1:ℤ) * (2 * L) by push_cast; ring, this, fold_id] <;> linarith
  have hr : (List.range 2) = [0, 1] := rfl
  simp only [hr, List.map_cons, List.map_nil, p0, p1, hls, hsz] at f1 f2
  rw [if_pos (by linarith), if_neg (by linarith)] at f1
  have hfade : fade = [1, 3 / 4] := by
    simp only [LagLinear.process, t1, t2, Option.bind_some, Option.map_some, Option.some.injEq, Prod.mk.injEq] at f1
    exact f1.2.symm
  subst hfade
  have hc : ∀ (x : ℕ → ℝ) (k : ℕ), k < 4 * L → curve s.reader.interpolation x b.numSamples (k:ℝ) = x k := by
    intro x k hk
    have hfl : ⌊(k:ℝ)⌋ = k := by simp
    have hmod : ((k:ℤ) % ((4 * L : ℕ) : ℤ)).toNat = k := by
      rw [← Int.natCast_mod, Nat.mod_eq_of_lt hk]; simp
    simp only [curve, hi, polygon, hfl, hn, periodic, hmod]
    norm_num
  have e1 : (4 * L - 1 : ℝ) = ((4 * L - 1 : ℕ) : ℝ) := by push_cast [show 1 ≤ 4 * L by omega]; ring
  have e2 : (4 * L - 1 - L : ℝ) = ((3 * L - 1 : ℕ) : ℝ) := by push_cast [show 1 ≤ 3 * L by omega]; ring
  have e3 : (2 * L : ℝ) = ((2 * L : ℕ) : ℝ) := by push_cast; ring
  have e4 : (2 * L - L : ℝ) = ((L : ℕ) : ℝ) := by ring
  simp only [List.cons.injEq, and_true] at f2
  obtain ⟨g1, g2⟩ := f2
  rw [g1, g2]
  simp only
  rw [e4, e2, e1, e3, hc _ _ (by omega), hc _ _ (by omega), hc _ _ (by omega), hc _ _ (by omega)]
  constructor
  · rw [if_neg (by omega), if_neg (by omega)]; simp
  · rw [if_neg (by omega), if_pos (by omega)]; simp

/-- Concrete case: eight frames 0 0 1 1 0 0 0 0, the loop on frames 4 and 5, fade time 8 samples. -/
noncomputable def witness : Player ℝ :=
  { buffer := some ⟨.at 0 0, 1, 48000, 8⟩, sampleRate := 48000, start := 1 / 2, stop := 3 / 4, rate := 1, fadeTime := 1 / 6000,
    gateValue := 1, playMode := .loop, frames := 8, loopStart := 4, loopEnd := 6, loopSize := 2, phasor := 7, isReverse := false,
    inSecondHalf := true, reader := ⟨some ⟨.at 0 0, 1, 48000, 8⟩, true, 2⟩, fadeLag := ⟨48000, 1 / 6000, 1, 1, 0, 0⟩,
    env := EnvelopeADSR.init 48000 }

example : ∃ s2 y1 y2, process witness (fun _ => [0, 0, 1, 1, 0, 0, 0, 0]) 2 = some (s2, [y1, y2]) ∧
      y1.left = 0 ∧ y2.left = tickOut EnvelopeADSR.tick 1 witness.env * Real.sin (panAngle (3 / 4)) := by
  refine C65_heard (b := ⟨.at 0 0, 1, 48000, 8⟩) rfl rfl ?_ (L := 2) le_rfl rfl (by norm_num) rfl rfl ?_ rfl rfl rfl rfl
    (z := fun i => if 2 ≤ i ∧ i < 4 then 1 else 0) ?_ (by norm_num [witness]) ⟨rfl, rfl, rfl⟩ (by norm_num [witness])
  · have hf : frameCount witness = 8 := by simp [frameCount, witness, Buffer.isValid]
    unfold Synced
    rw [hf]
    norm_num [witness]
  · norm_num [speed, witness]
  · intro i hi
    match i, hi with
    | 0, _ => simp [Buffer.getStereoSample, Mem.load, Stereo.ofMono]
    | 1, _ => simp [Buffer.getStereoSample, Mem.load, Stereo.ofMono]
    | 2, _ => simp [Buffer.getStereoSample, Mem.load, Stereo.ofMono]
    | 3, _ => simp [Buffer.getStereoSample, Mem.load, Stereo.ofMono]
    | 4, _ => simp [Buffer.getStereoSample, Mem.load, Stereo.ofMono]
    | 5, _ => simp [Buffer.getStereoSample, Mem.load, Stereo.ofMono]
    | 6, _ => simp [Buffer.getStereoSample, Mem.load, Stereo.ofMono]
    | 7, _ => simp [Buffer.getStereoSample, Mem.load, Stereo.ofMono]

end Verif.XPlay
