import Verif.Props.BufRd
import Verif.Float.Lerp
import Verif.Lemmas.RealArith

/-!
# C38: interpolation in BufRd
-/

set_option linter.unusedSectionVars false

namespace Verif.BufRd
open FP Buffer

/-- **C38**, linear interpolation in single precision: for a buffer of at most 2²⁴ frames and a phase `0 ≤ phase < numSamples`
(or up to the last index in clamp mode) the result lies between frame `⌊phase⌋` and the next frame – the first frame after
the last one in loop mode, the last frame itself in clamp mode. -/
theorem C38_linear_between (s : Reader F32) (b : Buffer F32) (hb : s.buffer = some b) (m : Mem F32) (o k : ℕ)
    (h : b.Backed m o k) (hm : Moderate b m) (hv : b.isValid = true) (hn : b.numSamples ≤ 2 ^ 24) (hi : s.interpolation = 2)
    (phase : F32) (hp : phase.isFin = true) (h0 : 0 ≤ phase.val)
    (h1 : if s.loop then phase.val < b.numSamples else phase.val ≤ b.numSamples - 1) :
    ∃ x0 x1 y, b.getSample m ⌊phase.val⌋.toNat = some x0 ∧
      b.getSample m (if s.loop then (⌊phase.val⌋.toNat + 1) % b.numSamples else min (⌊phase.val⌋.toNat + 1) (b.numSamples - 1)) = some x1 ∧
      tick s m phase = some y ∧ y.In (min x0.val x1.val) (max x0.val x1.val) := by
  have hn0 := valid_pos hv
  have hN := CombC.ofNat_in hn
  have hnq : (b.numSamples : ℚ) ≤ 2 ^ 24 := by exact_mod_cast hn
  have hlt : phase.val < b.numSamples := by
    split_ifs at h1
    · exact h1
    · linarith
  have hfl : (0:ℤ) ≤ ⌊phase.val⌋ := Int.floor_nonneg.2 h0
  have hfn : ⌊phase.val⌋ < b.numSamples := by rw [Int.floor_lt]; exact_mod_cast hlt
  have ha : (adjust s b.numSamples phase).In phase.val phase.val := by
    unfold adjust
    split_ifs with hl
    · have hfm : (Arith.fmod phase (Arith.ofNat b.numSamples)).In phase.val phase.val := by
        obtain ⟨v, nz, hv, rfl⟩ := isFin_cases hp
        obtain ⟨w, mz, hw, e⟩ := isFin_cases hN.1
        have hw' : w = b.numSamples := by have := hN.val_eq; rw [e] at this; exact this
        subst hw'
        rw [e]
        show (if (b.numSamples:ℚ) = 0 then nan else ofRat (v - b.numSamples * truncQ (v / b.numSamples)) _ : F32).In _ _
        have hpos : (0:ℚ) < b.numSamples := by exact_mod_cast hn0
        rw [if_neg hpos.ne']
        have htr : truncQ (v / b.numSamples) = 0 := by
          have h2 : 0 ≤ v / b.numSamples := div_nonneg h0 hpos.le
          rw [truncQ_nonneg h2, Int.floor_eq_zero_iff]
          exact ⟨h2, by rw [div_lt_one hpos]; exact hlt⟩
        rw [htr]
        simp only [Int.cast_zero, mul_zero, sub_zero]
        exact ofRat_rep (rep_val (.fin v nz hv))
      simp only
      rw [lt_fin hfm.1 lit_zero.1, lit_zero.val_eq, hfm.val_eq, if_neg (by simpa using h0)]
      exact hfm
    · rw [if_neg hl] at h1
      have hlast : ((Arith.ofNat b.numSamples : F32) - lit 1).In (b.numSamples - 1 : ℕ) (b.numSamples - 1 : ℕ) := by
        have e : ((b.numSamples - 1 : ℕ) : ℚ) = b.numSamples - 1 := by push_cast [hn0]; ring
        exact sub_in hN lit_one (CombC.repNat (by omega)) (CombC.repNat (by omega)) (by rw [e]) (by rw [e])
      have e : ((b.numSamples - 1 : ℕ) : ℚ) = b.numSamples - 1 := by push_cast [hn0]; ring
      simp only
      rw [clamp_id hp lit_zero.1 hlast.1 (by rw [lit_zero.val_eq]; exact h0) (by rw [hlast.val_eq, e]; exact h1)]
      exact in_val hp
  set a := adjust s b.numSamples phase with had
  have hts : Arith.toSize? a = some ⌊phase.val⌋.toNat := by
    have := toSize_fin ha.1 (by rw [ha.val_eq]; exact h0) (by rw [ha.val_eq]; exact lt_trans hlt (lt_of_le_of_lt hnq (by norm_num)))
    rw [this, ha.val_eq]
  have hfr := frac_in ha.1 (by rw [ha.val_eq]; exact h0) (by rw [ha.val_eq]; linarith)
  rw [ha.val_eq] at hfr
  have hsz : szAdd ⌊phase.val⌋.toNat 1 = ⌊phase.val⌋.toNat + 1 := Nat.mod_eq_of_lt (by omega)
  have hsz2 : szSub b.numSamples 1 = b.numSamples - 1 := by
    unfold szSub
    have e : b.numSamples + (2 ^ 64 - 1 % 2 ^ 64) = (b.numSamples - 1) + 2 ^ 64 := by omega
    rw [e, Nat.add_mod_right]
    exact Nat.mod_eq_of_lt (by omega)
  have hwi : wrapIndex s (szAdd ⌊phase.val⌋.toNat 1) b.numSamples =
      if s.loop then (⌊phase.val⌋.toNat + 1) % b.numSamples else min (⌊phase.val⌋.toNat + 1) (b.numSamples - 1) := by
    rw [hsz, wrapIndex, hsz2]
    split_ifs with hl h3
    · rfl
    · omega
    · omega
  have g : ∀ j, ∃ x, b.getSample m j = some x := fun j => (C10_accessors_safe h j).1
  obtain ⟨x0, e0⟩ := g ⌊phase.val⌋.toNat
  obtain ⟨x1, e1⟩ := g (wrapIndex s (szAdd ⌊phase.val⌋.toNat 1) b.numSamples)
  refine ⟨x0, x1, lerp x0 x1 (a - Arith.ofNat ⌊phase.val⌋.toNat), e0, by rw [← hwi]; exact e1, ?_, ?_⟩
  · simp only [tick, hb, hv, Bool.not_true, Bool.false_eq_true, if_false, ← had, hts, Option.bind_some, hi, if_true, e0, e1,
      Option.map_some]
  · have hbig : (2:ℚ) ^ 100 ≤ 2 ^ 126 := by norm_num
    exact lerp_in ((hm _ _ e0).mono (by linarith) hbig) ((hm _ _ e1).mono (by linarith) hbig)
      (hfr.1.mono (Int.fract_nonneg _) hfr.2)

example : (lit 2.75 : F32).isFin = true ∧ 0 ≤ (lit 2.75 : F32).val ∧ (lit 2.75 : F32).val < demoBuf.numSamples := by decide +kernel

/-! ## Ideal arithmetic -/

theorem adjust_loop_real {s : Reader ℝ} (hl : s.loop = true) {n : ℕ} (hn : 0 < n) (phase : ℝ) :
    adjust s n phase = phase - n * (⌊phase / n⌋ : ℤ) := by
  have hnr : (0:ℝ) < n := by exact_mod_cast hn
  simp only [adjust, hl, if_true, real_arith]
  have hd : phase / n * n = phase := by field_simp
  push_cast
  unfold truncR
  by_cases h : 0 ≤ phase / n
  · rw [if_pos h]
    have := Int.floor_le (phase / n)
    rw [if_neg]
    nlinarith
  · rw [if_neg h]
    have hc := Int.ceil_lt_add_one (phase / n)
    have hc2 := Int.le_ceil (phase / n)
    have hf := Int.floor_le (phase / n)
    have hf2 := Int.lt_floor_add_one (phase / n)
    by_cases he : (⌈phase / n⌉ : ℝ) = phase / n
    · have : ⌊phase / n⌋ = ⌈phase / n⌉ := by
        rw [← he]; simp
      rw [if_neg (by nlinarith), this]
    · have hlt : phase / n < ⌈phase / n⌉ := lt_of_le_of_ne hc2 (Ne.symm he)
      have : ⌈phase / n⌉ = ⌊phase / n⌋ + 1 := by
        rw [Int.ceil_eq_iff]
        push_cast
        constructor
        · have : (⌊phase / n⌋ : ℝ) ≠ phase / n := by
            intro h'
            apply he
            rw [← h']; simp
          have := lt_of_le_of_ne hf this
          linarith
        · exact hf2.le
      rw [if_pos (by nlinarith), this]
      push_cast; ring

/-- **C38**, linear interpolation in ideal arithmetic, loop mode, every phase of either sign: the result is
`x + fract(phase)·(x' - x)` where `x` and `x'` are the frames `⌊phase⌋` and `⌊phase⌋ + 1` modulo the buffer length. -/
theorem C38_linear_loop (s : Reader ℝ) (b : Buffer ℝ) (hb : s.buffer = some b) (m : Mem ℝ) (o k : ℕ) (h : b.Backed m o k)
    (hv : b.isValid = true) (hl : s.loop = true) (hi : s.interpolation = 2) (phase : ℝ) :
    ∃ x0 x1, b.getSample m (⌊phase⌋ % b.numSamples).toNat = some x0 ∧
      b.getSample m ((⌊phase⌋ + 1) % b.numSamples).toNat = some x1 ∧
      tick s m phase = some (x0 + Int.fract phase * (x1 - x0)) := by
  have hn0 : 0 < b.numSamples := by
    simp only [isValid, Bool.and_eq_true, decide_eq_true_eq] at hv; exact hv.1.2
  have hnr : (0:ℝ) < b.numSamples := by exact_mod_cast hn0
  have hn2 := h.small.2
  set n := b.numSamples with hnd
  have ha := adjust_loop_real hl hn0 phase
  set q := ⌊phase / n⌋ with hq
  have hd : phase / n * n = phase := by field_simp
  have f1 := Int.floor_le (phase / n)
  have f2 := Int.lt_floor_add_one (phase / n)
  rw [← hq] at f1 f2
  have a0 : 0 ≤ phase - n * (q:ℝ) := by nlinarith
  have a1 : phase - n * (q:ℝ) < n := by nlinarith
  have hfl : ⌊phase - n * (q:ℝ)⌋ = ⌊phase⌋ - n * q := by
    have : phase - n * (q:ℝ) = phase - ((n * q : ℤ) : ℝ) := by push_cast; ring
    rw [this, Int.floor_sub_intCast]
  have g0 : 0 ≤ ⌊phase⌋ - n * q := by rw [← hfl]; exact Int.floor_nonneg.2 a0
  have g1 : ⌊phase⌋ - n * q < n := by rw [← hfl, Int.floor_lt]; exact_mod_cast a1
  have hmod : ⌊phase⌋ % n = ⌊phase⌋ - n * q := by
    have : ⌊phase⌋ = (⌊phase⌋ - n * q) + n * q := by ring
    conv_lhs => rw [this]
    rw [Int.add_mul_emod_self_left, Int.emod_eq_of_lt g0 g1]
  set i := (⌊phase⌋ % n).toNat with hid
  have hin : i < n := by omega
  have hiz : (i:ℤ) = ⌊phase⌋ - n * q := by omega
  have hts : Arith.toSize? (phase - n * (q:ℝ)) = some i := by
    have ht : truncR (phase - n * (q:ℝ)) = i := by
      unfold truncR; rw [if_pos a0, hfl, hiz]
    simp only [Arith.toSize?, rToInt, ht]
    rw [if_pos ⟨by positivity, by omega⟩]; simp
  have hfr : phase - n * (q:ℝ) - (i:ℝ) = Int.fract phase := by
    have : (i:ℝ) = ((⌊phase⌋ - n * q : ℤ) : ℝ) := by exact_mod_cast hiz
    rw [this, Int.fract]; push_cast; ring
  have hsz : szAdd i 1 = i + 1 := Nat.mod_eq_of_lt (by omega)
  have hi1 : (i + 1) % n = ((⌊phase⌋ + 1) % n).toNat := by
    have : ((⌊phase⌋ + 1) % n) = (((i + 1) % n : ℕ) : ℤ) := by
      rw [Int.natCast_mod]; push_cast
      rw [hiz]
      have : ⌊phase⌋ + 1 = (⌊phase⌋ - n * q + 1) + n * q := by ring
      conv_lhs => rw [this]
      rw [Int.add_mul_emod_self_left]
    rw [this, Int.toNat_natCast]
  obtain ⟨x0, e0⟩ := (C10_accessors_safe h i).1
  obtain ⟨x1, e1⟩ := (C10_accessors_safe h ((i + 1) % n)).1
  refine ⟨x0, x1, e0, by rw [← hi1]; exact e1, ?_⟩
  simp only [tick, hb, hv, Bool.not_true, Bool.false_eq_true, if_false, ← hnd, ha, hts, Option.bind_some, hi, if_true, wrapIndex,
    hl, hsz, e0, e1, Option.map_some, lerp, real_arith, hfr]

/-- **C38**: consequently the value lies between the two frames. -/
theorem C38_linear_hull_ideal (s : Reader ℝ) (b : Buffer ℝ) (hb : s.buffer = some b) (m : Mem ℝ) (o k : ℕ) (h : b.Backed m o k)
    (hv : b.isValid = true) (hl : s.loop = true) (hi : s.interpolation = 2) (phase : ℝ) :
    ∃ x0 x1 y, b.getSample m (⌊phase⌋ % b.numSamples).toNat = some x0 ∧
      b.getSample m ((⌊phase⌋ + 1) % b.numSamples).toNat = some x1 ∧
      tick s m phase = some y ∧ min x0 x1 ≤ y ∧ y ≤ max x0 x1 := by
  obtain ⟨x0, x1, h0, h1, h2⟩ := C38_linear_loop s b hb m o k h hv hl hi phase
  have t0 := Int.fract_nonneg phase
  have t1 := Int.fract_lt_one phase
  refine ⟨x0, x1, _, h0, h1, h2, ?_, ?_⟩
  · rcases le_total x0 x1 with h | h
    · rw [min_eq_left h]; nlinarith
    · rw [min_eq_right h]; nlinarith
  · rcases le_total x0 x1 with h | h
    · rw [max_eq_right h]; nlinarith
    · rw [max_eq_left h]; nlinarith

/-- **C38**, periodicity in ideal arithmetic, for every interpolation mode, channel count, phase and number of periods. -/
theorem C38_periodic (s : Reader ℝ) (b : Buffer ℝ) (hb : s.buffer = some b) (m : Mem ℝ) (hv : b.isValid = true)
    (hl : s.loop = true) (phase : ℝ) (j : ℤ) :
    tick s m (phase + j * b.numSamples) = tick s m phase ∧ tickStereo s m (phase + j * b.numSamples) = tickStereo s m phase := by
  have hn0 : 0 < b.numSamples := by
    simp only [isValid, Bool.and_eq_true, decide_eq_true_eq] at hv; exact hv.1.2
  have hnr : (b.numSamples:ℝ) ≠ 0 := by exact_mod_cast hn0.ne'
  have ha : adjust s b.numSamples (phase + j * b.numSamples) = adjust s b.numSamples phase := by
    rw [adjust_loop_real hl hn0, adjust_loop_real hl hn0]
    have : (phase + j * b.numSamples) / b.numSamples = phase / b.numSamples + j := by field_simp
    rw [this, Int.floor_add_intCast]
    push_cast; ring
  simp only [tick, tickStereo, hb, ha, and_self]

/-- A stereo buffer of three frames for which the hypotheses hold. -/
example : ∃ (b : Buffer ℝ) (m : Mem ℝ), b.Backed m 0 0 ∧ b.isValid = true ∧ b.numSamples = 3 ∧ b.channels = 2 :=
  ⟨⟨.at 0 0, 2, 48000, 3⟩, fun _ => [1, 2, 3, 4, 5, 6],
    ⟨rfl, Or.inr rfl, by show 0 + 3 * 2 ≤ 6; norm_num, by show 6 < 2 ^ 62; norm_num⟩, by simp [isValid], rfl, rfl⟩

end Verif.BufRd
