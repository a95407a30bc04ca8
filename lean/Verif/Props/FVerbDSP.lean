import Verif.Lemmas.DelayLines
import Verif.Float.IntConv
import Verif.Float.Convex

/-!
# C48: the reverb's delay lines
-/

namespace Verif.FVerbDSP
open FP

set_option linter.unusedSectionVars false

theorem rep32_nat {n : ℕ} (h : n < 2 ^ 24) : binary32.Rep (n : ℚ) false := by
  refine ⟨⟨n, 0, by simpa [binary32] using h, by decide, by simp⟩, ?_, by simp⟩
  rw [abs_of_nonneg (by positivity)]
  calc (n : ℚ) < 2 ^ 24 := by exact_mod_cast h
    _ < _ := two_pow_lt_max (by norm_num)

/-- The clamped sample rate `fConst0`. -/
theorem c0_in {sr : ℤ} (h1 : -2 ^ 31 ≤ sr) (h2 : sr < 2 ^ 31) :
    (Arith.stdMin (lit 1.92e+05) (Arith.stdMax (lit 1) (Arith.ofInt sr)) : F32).In 1 192000 := by
  have hr : (Arith.ofInt sr : F32).In (-2 ^ 31) (2 ^ 31) :=
    ofRat_in (Rep.neg (rep_two_pow (by norm_num))) (rep_two_pow (by norm_num)) (by exact_mod_cast h1) (by exact_mod_cast h2.le)
  have hk : (lit 1.92e+05 : F32).In 192000 192000 := by
    have := lit_rep (f := binary32) (rep32_nat (n := 192000) (by norm_num))
    norm_num at this ⊢; exact this
  have hm : (Arith.stdMax (lit 1) (Arith.ofInt sr) : F32).isFin = true ∧ 1 ≤ (Arith.stdMax (lit 1) (Arith.ofInt sr) : F32).val := by
    have h1 := lit_one (f := binary32)
    unfold Arith.stdMax
    split_ifs with h
    · rw [lt_fin h1.1 hr.1, decide_eq_true_eq, h1.val_eq] at h
      exact ⟨hr.1, h.le⟩
    · exact ⟨h1.1, h1.val_eq.ge⟩
  unfold Arith.stdMin
  split_ifs with h
  · rw [lt_fin hm.1 hk.1, decide_eq_true_eq, hk.val_eq] at h
    exact ⟨hm.1, hm.2, h.le⟩
  · exact hk.mono (by norm_num) le_rfl

/-- A delay constant. The hypotheses on `q` are closed facts. -/
theorem delayConst_in {c0 : F32} (hc : c0.In 1 192000) (q : ℚ) (M : ℕ) (off : ℤ) (hoff : off = 0 ∨ off = -1)
    (hq : (lit q : F32).isFin = true ∧ 0 ≤ (lit q : F32).val ∧ (lit q : F32).val * 192000 ≤ M ∧ M < 2 ^ 24) :
    ∃ n, delayConst c0 q off = some n ∧ 0 ≤ n ∧ n ≤ M := by
  obtain ⟨hf, h0, h1, hM⟩ := hq
  have hx : (lit q * c0 : F32).In 0 M :=
    mul_in hf hc.1 rep_zero (rep32_nat hM) (mul_nonneg h0 (by linarith [hc.2.1])) (le_trans (mul_le_mul_of_nonneg_left hc.2.2 h0) h1)
  have ht : truncQ (lit q * c0 : F32).val = ⌊(lit q * c0 : F32).val⌋ := truncQ_nonneg hx.2.1
  have hn0 : 0 ≤ ⌊(lit q * c0 : F32).val⌋ := Int.floor_nonneg.2 hx.2.1
  have hn1 : ⌊(lit q * c0 : F32).val⌋ ≤ M := by
    have := (Int.floor_le (lit q * c0 : F32).val).trans hx.2.2
    exact_mod_cast this
  have hM' : (M : ℤ) < 2 ^ 24 := by exact_mod_cast hM
  unfold delayConst
  rw [toI32_fin hx.1 (by rw [ht]; omega) (by rw [ht]; omega), ht, Option.bind_some,
    i32_some (by rcases hoff with rfl | rfl <;> omega) (by rcases hoff with rfl | rfl <;> omega)]
  refine ⟨_, rfl, clampDelay_nonneg _, ?_⟩
  unfold clampDelay
  rcases hoff with rfl | rfl <;> omega

/-- `int(0.01f * fConst0)` is defined. -/
theorem n12_in {c0 : F32} (hc : c0.In 1 192000) :
    ∃ n, Arith.toI32? (lit 0.01 * c0) = some n ∧ 0 ≤ n ∧ n ≤ 1920 ∧ n = ⌊(lit 0.01 * c0 : F32).val⌋ := by
  have hq : (lit 0.01 : F32).isFin = true ∧ 0 ≤ (lit 0.01 : F32).val ∧ (lit 0.01 : F32).val * 192000 ≤ 1920 := by decide +kernel
  have hx : (lit 0.01 * c0 : F32).In 0 1920 := by
    have := mul_in hq.1 hc.1 rep_zero (rep32_nat (n := 1920) (by norm_num)) (mul_nonneg hq.2.1 (by linarith [hc.2.1]))
      (le_trans (mul_le_mul_of_nonneg_left hc.2.2 hq.2.1) (by exact_mod_cast hq.2.2))
    exact_mod_cast this
  have ht := truncQ_nonneg hx.2.1
  have hn0 : 0 ≤ ⌊(lit 0.01 * c0 : F32).val⌋ := Int.floor_nonneg.2 hx.2.1
  have hn1 : ⌊(lit 0.01 * c0 : F32).val⌋ ≤ 1920 := by
    have := (Int.floor_le (lit 0.01 * c0 : F32).val).trans hx.2.2
    exact_mod_cast this
  exact ⟨_, by rw [toI32_fin hx.1 (by rw [ht]; omega) (by rw [ht]; omega), ht], hn0, hn1, rfl⟩

theorem constants_fit {sr : ℤ} (h1 : -2 ^ 31 ≤ sr) (h2 : sr < 2 ^ 31) :
    ∃ k : Consts F32, instanceConstants sr = some k ∧ Fits k ∧
      k.c0 = Arith.stdMin (lit 1.92e+05) (Arith.stdMax (lit 1) (Arith.ofInt sr)) ∧
      k.c1 = lit 44.1 / k.c0 ∧ k.c2 = lit 1 - k.c1 ∧ k.c3 = lit 6.2831855 / k.c0 ∧ k.c4 = lit 0.441 / k.c0 ∧
      k.c5 = lit 0.0441 / k.c0 ∧ k.c11 = lit 1 / k.c0 := by
  have hc := c0_in h1 h2
  unfold instanceConstants
  generalize (Arith.stdMin (lit 1.92e+05) (Arith.stdMax (lit 1) (Arith.ofInt sr)) : F32) = c0 at hc
  obtain ⟨n12, e12, -⟩ := n12_in hc
  obtain ⟨i6, e6, a6, b6⟩ := delayConst_in hc 0.0046282047 889 (-1) (by simp) (by decide +kernel)
  obtain ⟨i7, e7, a7, b7⟩ := delayConst_in hc 0.0037031686 712 (-1) (by simp) (by decide +kernel)
  obtain ⟨i8, e8, a8, b8⟩ := delayConst_in hc 0.013116831 2519 (-1) (by simp) (by decide +kernel)
  obtain ⟨i9, e9, a9, b9⟩ := delayConst_in hc 0.009028259 1734 (-1) (by simp) (by decide +kernel)
  obtain ⟨i10, e10, a10, b10⟩ := delayConst_in hc 0.10628003 20406 0 (by simp) (by decide +kernel)
  obtain ⟨i13, e13, a13, b13⟩ := delayConst_in hc 0.14169551 27206 0 (by simp) (by decide +kernel)
  obtain ⟨i14, e14, a14, b14⟩ := delayConst_in hc 0.08924431 17135 (-1) (by simp) (by decide +kernel)
  obtain ⟨i15, e15, a15, b15⟩ := delayConst_in hc 0.0049144854 944 (-1) (by simp) (by decide +kernel)
  obtain ⟨i16, e16, a16, b16⟩ := delayConst_in hc 0.00348745 670 (-1) (by simp) (by decide +kernel)
  obtain ⟨i17, e17, a17, b17⟩ := delayConst_in hc 0.012352743 2372 (-1) (by simp) (by decide +kernel)
  obtain ⟨i18, e18, a18, b18⟩ := delayConst_in hc 0.009586708 1841 (-1) (by simp) (by decide +kernel)
  obtain ⟨i19, e19, a19, b19⟩ := delayConst_in hc 0.1249958 24000 0 (by simp) (by decide +kernel)
  obtain ⟨i20, e20, a20, b20⟩ := delayConst_in hc 0.14962535 28729 0 (by simp) (by decide +kernel)
  obtain ⟨i21, e21, a21, b21⟩ := delayConst_in hc 0.06048184 11613 (-1) (by simp) (by decide +kernel)
  obtain ⟨i22, e22, a22, b22⟩ := delayConst_in hc 0.03581869 6878 0 (by simp) (by decide +kernel)
  obtain ⟨i23, e23, a23, b23⟩ := delayConst_in hc 0.006283391 1207 0 (by simp) (by decide +kernel)
  obtain ⟨i24, e24, a24, b24⟩ := delayConst_in hc 0.06686603 12839 0 (by simp) (by decide +kernel)
  obtain ⟨i25, e25, a25, b25⟩ := delayConst_in hc 0.06427875 12342 0 (by simp) (by decide +kernel)
  obtain ⟨i26, e26, a26, b26⟩ := delayConst_in hc 0.06706764 12877 0 (by simp) (by decide +kernel)
  obtain ⟨i27, e27, a27, b27⟩ := delayConst_in hc 0.09992944 19187 0 (by simp) (by decide +kernel)
  obtain ⟨i28, e28, a28, b28⟩ := delayConst_in hc 0.008937872 1717 0 (by simp) (by decide +kernel)
  obtain ⟨i29, e29, a29, b29⟩ := delayConst_in hc 0.0040657236 781 0 (by simp) (by decide +kernel)
  obtain ⟨i30, e30, a30, b30⟩ := delayConst_in hc 0.011256342 2162 0 (by simp) (by decide +kernel)
  obtain ⟨i31, e31, a31, b31⟩ := delayConst_in hc 0.070931755 13619 0 (by simp) (by decide +kernel)
  obtain ⟨i32, e32, a32, b32⟩ := delayConst_in hc 0.041262053 7923 0 (by simp) (by decide +kernel)
  obtain ⟨i33, e33, a33, b33⟩ := delayConst_in hc 0.08981553 17245 0 (by simp) (by decide +kernel)
  obtain ⟨i34, e34, a34, b34⟩ := delayConst_in hc 0.121870905 23400 0 (by simp) (by decide +kernel)
  obtain ⟨i35, e35, a35, b35⟩ := delayConst_in hc 0.01186116 2278 0 (by simp) (by decide +kernel)
  simp only [e6, e7, e8, e9, e10, e12, e13, e14, e15, e16, e17, e18, e19, e20, e21, e22, e23, e24, e25, e26, e27, e28, e29, e30, e31, e32,
    e33, e34, e35, Option.bind_some]
  refine ⟨_, rfl, ?_, rfl, rfl, rfl, rfl, rfl, rfl, rfl⟩
  clear e6 e7 e8 e9 e10 e12 e13 e14 e15 e16 e17 e18 e19 e20 e21 e22 e23 e24 e25 e26 e27 e28 e29 e30 e31 e32 e33 e34 e35
  constructor <;> dsimp only <;> constructor <;> push_cast at * <;> omega

variable [Libm F32]

/-- **C48**: for every `int` sample rate the constants are defined and every constant delay is smaller than the line it is used with. -/
theorem C48_delays_fit (sr : ℤ) (h1 : -2 ^ 31 ≤ sr) (h2 : sr < 2 ^ 31) : ∃ k : Consts F32, instanceConstants sr = some k ∧ Fits k := by
  obtain ⟨k, h, hf, -⟩ := constants_fit h1 h2
  exact ⟨k, h, hf⟩

/-- **C48**: for every `int` sample rate, all parameter values (NaN and infinities included), all inputs, any number of blocks of any
length, and resets in between, the reverb computes bit for bit what it would compute with ideal delays that remember every sample ever
written: each of the 34 reads per frame returns the sample written that many steps earlier (silence before the first), and the predelay
and the modulated delays, whatever their values, never reach beyond their lines. No array access is out of bounds: if the run with ideal
delays is defined, so is the run with arrays. -/
theorem C48_lines (sr : ℤ) (h1 : -2 ^ 31 ≤ sr) (h2 : sr < 2 ^ 31) (k : Consts F32) (hk : instanceConstants sr = some k)
    (events : List (Event F32)) :
    (run arrays k (clear arrays) events).map Prod.snd = (run ideal k (clear ideal) events).map Prod.snd := by
  obtain ⟨k', e, K, -⟩ := constants_fit h1 h2
  rw [hk] at e
  cases e
  have h := run_rel K events clear_rel
  revert h
  cases run arrays k (clear arrays) events <;> cases run ideal k (clear ideal) events <;> intro h
  · rfl
  · exact h.elim
  · exact h.elim
  · exact congrArg some h.2

/-- **C48, the lengths themselves** (bit-exact): the delays of the input diffusers, of the two branches of the tank and of the output taps,
in samples, at the usual sample rates. -/
theorem C48_lengths :
    let delays : Consts F32 → List ℤ := fun k => [k.i6, k.i7, k.i8, k.i9, k.i10, k.i13, k.i14, k.i15, k.i16, k.i17, k.i18, k.i19, k.i20, k.i21, k.i22, k.i23, k.i24, k.i25, k.i26, k.i27, k.i28, k.i29, k.i30, k.i31, k.i32, k.i33, k.i34, k.i35]
    (instanceConstants 44100).map delays = some [203, 162, 577, 397, 4687, 6248, 3934, 215, 152, 543, 421, 5513, 6598, 2666, 1579, 277, 2948, 2834, 2957, 4406, 394, 179, 496, 3128, 1819, 3960, 5374, 523] ∧
    (instanceConstants 48000).map delays = some [221, 176, 628, 432, 5102, 6801, 4282, 234, 166, 591, 459, 6000, 7182, 2902, 1719, 301, 3209, 3085, 3219, 4796, 429, 195, 540, 3404, 1980, 4311, 5849, 569] ∧
    (instanceConstants 96000).map delays = some [443, 354, 1258, 865, 10203, 13602, 8566, 470, 333, 1184, 919, 12000, 14364, 5805, 3438, 603, 6419, 6170, 6438, 9593, 858, 390, 1080, 6809, 3961, 8622, 11699, 1138] := by
  decide +kernel

/-- The sample rates of the documentation are `int`s. -/
example : ∃ k : Consts F32, instanceConstants 48000 = some k := by
  obtain ⟨k, h, -⟩ := C48_delays_fit 48000 (by norm_num) (by norm_num)
  exact ⟨k, h⟩

end Verif.FVerbDSP
