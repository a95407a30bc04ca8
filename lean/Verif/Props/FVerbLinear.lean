import Verif.Lemmas.FVerbLinear
import Mathlib.Tactic.FieldSimp
import Mathlib.Tactic.Positivity

/-!
# C59: the reverb is linear in its input
-/

namespace Verif.FVerbDSP

/-! ### Specification -/

/-- A history with two signals side by side. -/
inductive Event2 where
  | block (p : Params ℝ) (frames : List (Stereo ℝ × Stereo ℝ))
  | clear

/-- The history with one signal, made from the two. -/
def Event2.pick (f : Stereo ℝ × Stereo ℝ → Stereo ℝ) : Event2 → Event ℝ
  | .block p xs => .block p (xs.map f)
  | .clear => .clear

/-- `a` times the first signal plus `b` times the second. -/
def blend (a b : ℝ) (x : Stereo ℝ × Stereo ℝ) : Stereo ℝ :=
  ⟨a * x.1.left + b * x.2.left, a * x.1.right + b * x.2.right⟩

/-- The output of a fresh reverb on a history; `none` is undefined behaviour. -/
noncomputable def output (k : Consts ℝ) (es : List (Event ℝ)) : Option (List (Stereo ℝ)) :=
  (run arrays k (clear arrays) es).map Prod.snd

/-- The parameters that reach an integer conversion are in the ranges of the setters. -/
structure InRangeR (p : Params ℝ) : Prop where
  predelay : 0 ≤ p.predelay ∧ p.predelay ≤ 300
  modFrequency : 0 ≤ p.modFrequency ∧ p.modFrequency ≤ 4
  modDepth : 0 ≤ p.modDepth ∧ p.modDepth ≤ 10

/-- Every block uses such parameters, and fewer than `2^31` frames are processed without a reset (`n` were processed before). -/
def FineR : ℕ → List (Event ℝ) → Prop
  | _, [] => True
  | n, .block p xs :: es => InRangeR p ∧ n + xs.length < 2 ^ 31 ∧ FineR (n + xs.length) es
  | _, .clear :: es => FineR 0 es

/-! ### Constants in ideal arithmetic -/

theorem toI32_real {x : ℝ} (h1 : -2 ^ 24 ≤ x) (h2 : x ≤ 2 ^ 24) :
    Arith.toI32? x = some (truncR x) ∧ -2 ^ 24 ≤ truncR x ∧ truncR x ≤ 2 ^ 24 := by
  have hb : -2 ^ 24 ≤ truncR x ∧ truncR x ≤ 2 ^ 24 := by
    unfold truncR
    split_ifs with h0
    · refine ⟨le_trans (by norm_num) (Int.floor_nonneg.2 h0), ?_⟩
      have := (Int.floor_le x).trans h2
      exact_mod_cast this
    · push Not at h0
      refine ⟨?_, le_trans (Int.ceil_le.2 (by exact_mod_cast h0.le) : ⌈x⌉ ≤ 0) (by norm_num)⟩
      have := h1.trans (Int.le_ceil x)
      exact_mod_cast this
  refine ⟨?_, hb⟩
  simp only [Arith.toI32?, real_arith]
  rw [if_pos (by constructor <;> omega)]

theorem delayConst_real {c0 : ℝ} (h1 : 1 ≤ c0) (h2 : c0 ≤ 192000) (q : ℚ) (M : ℕ) (off : ℤ) (hoff : off = 0 ∨ off = -1)
    (hq : 0 ≤ q ∧ q * 192000 ≤ M ∧ M < 2 ^ 24) : ∃ n, delayConst c0 q off = some n ∧ 0 ≤ n ∧ n ≤ M := by
  obtain ⟨h0, hM, hM2⟩ := hq
  have q0 : (0:ℝ) ≤ q := by exact_mod_cast h0
  have q1 : (q:ℝ) * 192000 ≤ M := by exact_mod_cast hM
  have hMr : (M:ℝ) ≤ 2 ^ 24 := by exact_mod_cast hM2.le
  have a : 0 ≤ (q:ℝ) * c0 := by positivity
  have b : (q:ℝ) * c0 ≤ M := le_trans (mul_le_mul_of_nonneg_left h2 q0) q1
  have ht : truncR ((q:ℝ) * c0) = ⌊(q:ℝ) * c0⌋ := if_pos a
  have n0 : 0 ≤ ⌊(q:ℝ) * c0⌋ := Int.floor_nonneg.2 a
  have n1 : ⌊(q:ℝ) * c0⌋ ≤ M := by
    have := (Int.floor_le ((q:ℝ) * c0)).trans b
    exact_mod_cast this
  have hM' : (M : ℤ) < 2 ^ 24 := by exact_mod_cast hM2
  unfold delayConst
  simp only [real_arith]
  rw [(toI32_real (by linarith) (b.trans hMr)).1, ht, Option.bind_some,
    i32_some (by rcases hoff with rfl | rfl <;> omega) (by rcases hoff with rfl | rfl <;> omega)]
  refine ⟨_, rfl, clampDelay_nonneg _, ?_⟩
  unfold clampDelay
  rcases hoff with rfl | rfl <;> omega

theorem constants_real (sr : ℤ) :
    ∃ k : Consts ℝ, instanceConstants sr = some k ∧ Fits k ∧ k.c0 = min 192000 (max 1 (sr : ℝ)) ∧
      k.c1 = 44.1 / k.c0 ∧ k.c2 = 1 - k.c1 ∧ k.c5 = 0.0441 / k.c0 ∧ k.c11 = 1 / k.c0 := by
  unfold instanceConstants
  have hc : (Arith.stdMin (lit 1.92e+05) (Arith.stdMax (lit 1) (Arith.ofInt sr)) : ℝ) = min 192000 (max 1 (sr : ℝ)) := by
    simp only [Arith.stdMin, Arith.stdMax, real_arith]
    push_cast
    rw [min_def, max_def]
    split_ifs <;> linarith
  rw [hc]
  have h1 : (1:ℝ) ≤ min 192000 (max 1 (sr : ℝ)) := le_min (by norm_num) (le_max_left _ _)
  have h2 : min 192000 (max 1 (sr : ℝ)) ≤ 192000 := min_le_left _ _
  generalize min 192000 (max 1 (sr : ℝ)) = c0 at h1 h2
  have e12 : Arith.toI32? (lit 0.01 * c0 : ℝ) = some (truncR (0.01 * c0)) := by
    have := (toI32_real (x := 0.01 * c0) (by linarith) (by linarith)).1
    rw [← this]; simp only [real_arith]; push_cast; norm_num
  obtain ⟨i6, e6, a6, b6⟩ := delayConst_real h1 h2 0.0046282047 889 (-1) (by simp) (by norm_num)
  obtain ⟨i7, e7, a7, b7⟩ := delayConst_real h1 h2 0.0037031686 712 (-1) (by simp) (by norm_num)
  obtain ⟨i8, e8, a8, b8⟩ := delayConst_real h1 h2 0.013116831 2519 (-1) (by simp) (by norm_num)
  obtain ⟨i9, e9, a9, b9⟩ := delayConst_real h1 h2 0.009028259 1734 (-1) (by simp) (by norm_num)
  obtain ⟨i10, e10, a10, b10⟩ := delayConst_real h1 h2 0.10628003 20406 0 (by simp) (by norm_num)
  obtain ⟨i13, e13, a13, b13⟩ := delayConst_real h1 h2 0.14169551 27206 0 (by simp) (by norm_num)
  obtain ⟨i14, e14, a14, b14⟩ := delayConst_real h1 h2 0.08924431 17135 (-1) (by simp) (by norm_num)
  obtain ⟨i15, e15, a15, b15⟩ := delayConst_real h1 h2 0.0049144854 944 (-1) (by simp) (by norm_num)
  obtain ⟨i16, e16, a16, b16⟩ := delayConst_real h1 h2 0.00348745 670 (-1) (by simp) (by norm_num)
  obtain ⟨i17, e17, a17, b17⟩ := delayConst_real h1 h2 0.012352743 2372 (-1) (by simp) (by norm_num)
  obtain ⟨i18, e18, a18, b18⟩ := delayConst_real h1 h2 0.009586708 1841 (-1) (by simp) (by norm_num)
  obtain ⟨i19, e19, a19, b19⟩ := delayConst_real h1 h2 0.1249958 24000 0 (by simp) (by norm_num)
  obtain ⟨i20, e20, a20, b20⟩ := delayConst_real h1 h2 0.14962535 28729 0 (by simp) (by norm_num)
  obtain ⟨i21, e21, a21, b21⟩ := delayConst_real h1 h2 0.06048184 11613 (-1) (by simp) (by norm_num)
  obtain ⟨i22, e22, a22, b22⟩ := delayConst_real h1 h2 0.03581869 6878 0 (by simp) (by norm_num)
  obtain ⟨i23, e23, a23, b23⟩ := delayConst_real h1 h2 0.006283391 1207 0 (by simp) (by norm_num)
  obtain ⟨i24, e24, a24, b24⟩ := delayConst_real h1 h2 0.06686603 12839 0 (by simp) (by norm_num)
  obtain ⟨i25, e25, a25, b25⟩ := delayConst_real h1 h2 0.06427875 12342 0 (by simp) (by norm_num)
  obtain ⟨i26, e26, a26, b26⟩ := delayConst_real h1 h2 0.06706764 12877 0 (by simp) (by norm_num)
  obtain ⟨i27, e27, a27, b27⟩ := delayConst_real h1 h2 0.09992944 19187 0 (by simp) (by norm_num)
  obtain ⟨i28, e28, a28, b28⟩ := delayConst_real h1 h2 0.008937872 1717 0 (by simp) (by norm_num)
  obtain ⟨i29, e29, a29, b29⟩ := delayConst_real h1 h2 0.0040657236 781 0 (by simp) (by norm_num)
  obtain ⟨i30, e30, a30, b30⟩ := delayConst_real h1 h2 0.011256342 2162 0 (by simp) (by norm_num)
  obtain ⟨i31, e31, a31, b31⟩ := delayConst_real h1 h2 0.070931755 13619 0 (by simp) (by norm_num)
  obtain ⟨i32, e32, a32, b32⟩ := delayConst_real h1 h2 0.041262053 7923 0 (by simp) (by norm_num)
  obtain ⟨i33, e33, a33, b33⟩ := delayConst_real h1 h2 0.08981553 17245 0 (by simp) (by norm_num)
  obtain ⟨i34, e34, a34, b34⟩ := delayConst_real h1 h2 0.121870905 23400 0 (by simp) (by norm_num)
  obtain ⟨i35, e35, a35, b35⟩ := delayConst_real h1 h2 0.01186116 2278 0 (by simp) (by norm_num)
  simp only [e6, e7, e8, e9, e10, e12, e13, e14, e15, e16, e17, e18, e19, e20, e21, e22, e23, e24, e25, e26, e27, e28, e29, e30, e31, e32,
    e33, e34, e35, Option.bind_some]
  refine ⟨_, rfl, ?_, rfl, ?_, ?_, ?_, ?_⟩
  · clear e6 e7 e8 e9 e10 e12 e13 e14 e15 e16 e17 e18 e19 e20 e21 e22 e23 e24 e25 e26 e27 e28 e29 e30 e31 e32 e33 e34 e35
    constructor <;> dsimp only <;> constructor <;> push_cast at * <;> omega
  all_goals simp only [real_arith]; push_cast; norm_num

/-! ### Definedness in ideal arithmetic -/

/-- The control values that reach a conversion. -/
structure SafeR (c : Ctrl ℝ) : Prop where
  rec28 : 0 ≤ c.rec28 ∧ c.rec28 ≤ 8
  rec35 : 0 ≤ c.rec35 ∧ c.rec35 ≤ 1
  rec36 : 0 ≤ c.rec36 ∧ c.rec36 ≤ 8
  rec37 : 0 ≤ c.rec37 ∧ c.rec37 ≤ 8

theorem smooth_real {c0 s x : ℝ} (h : 45 ≤ c0) (h0 : 0 ≤ s) (h1 : s ≤ 300 / c0) (hx : 0 ≤ x ∧ x ≤ 8) :
    0 ≤ s + (1 - 44.1 / c0) * x ∧ s + (1 - 44.1 / c0) * x ≤ 8 := by
  have hc : 0 < c0 := by linarith
  have w0 : 0 ≤ 1 - 44.1 / c0 := by rw [sub_nonneg, div_le_one hc]; linarith
  refine ⟨add_nonneg h0 (mul_nonneg w0 hx.1), ?_⟩
  have h2 : (1 - 44.1 / c0) * x ≤ (1 - 44.1 / c0) * 8 := mul_le_mul_of_nonneg_left hx.2 w0
  have h3 : 300 / c0 ≤ 44.1 / c0 * 8 := by rw [div_mul_eq_mul_div]; exact div_le_div_of_nonneg_right (by norm_num) hc.le
  linarith

theorem ctrl_real {k : Consts ℝ} (k0 : 45 ≤ k.c0) (k0' : k.c0 ≤ 192000) (k1 : k.c1 = 44.1 / k.c0) (k2 : k.c2 = 1 - k.c1)
    (k5 : k.c5 = 0.0441 / k.c0) (k11 : k.c11 = 1 / k.c0) {p : Params ℝ} (P : InRangeR p) {c : Ctrl ℝ} (C : SafeR c) :
    ∃ c' pre, ctrlStep k (slow k p) c = some (c', pre) ∧ SafeR c' := by
  have hc : 0 < k.c0 := by linarith
  have s28 := smooth_real (s := k.c5 * p.predelay) k0 (by rw [k5]; have := P.predelay.1; positivity)
    (by rw [k5, div_mul_eq_mul_div]; exact div_le_div_of_nonneg_right (by linarith [P.predelay.2]) hc.le) C.rec28
  have s36 := smooth_real (s := k.c1 * p.modFrequency) k0 (by rw [k1]; have := P.modFrequency.1; positivity)
    (by rw [k1, div_mul_eq_mul_div]; exact div_le_div_of_nonneg_right (by linarith [P.modFrequency.2]) hc.le) C.rec36
  have s37 := smooth_real (s := k.c5 * p.modDepth) k0 (by rw [k5]; have := P.modDepth.1; positivity)
    (by rw [k5, div_mul_eq_mul_div]; exact div_le_div_of_nonneg_right (by linarith [P.modDepth.2]) hc.le) C.rec37
  rw [← k1, ← k2] at s28 s36 s37
  unfold ctrlStep slow
  simp only [real_arith]
  generalize k.c5 * p.predelay + k.c2 * c.rec28 = r28 at *
  generalize k.c1 * p.modFrequency + k.c2 * c.rec36 = r36 at *
  generalize k.c5 * p.modDepth + k.c2 * c.rec37 = r37 at *
  have big : ∀ {x : ℝ}, -16 ≤ x → x ≤ 16 → -2 ^ 24 ≤ k.c0 * x ∧ k.c0 * x ≤ 2 ^ 24 := by
    intro x h1 h2
    constructor <;> nlinarith
  rw [(toI32_real (big (by linarith [s28.1]) (by linarith [s28.2])).1 (big (by linarith [s28.1]) (by linarith [s28.2])).2).1,
    Option.bind_some]
  have hinc : 0 ≤ k.c11 * r36 ∧ k.c11 * r36 ≤ 1 / 4 := by
    rw [k11, div_mul_eq_mul_div, one_mul]
    refine ⟨div_nonneg s36.1 hc.le, ?_⟩
    rw [div_le_iff₀ hc]; linarith [s36.2]
  have h35 := C.rec35
  have frac : ∀ {x : ℝ}, 0 ≤ x → x ≤ 5 / 4 → Arith.toI32? x = some ⌊x⌋ ∧ 0 ≤ x - ⌊x⌋ ∧ x - ⌊x⌋ ≤ 1 ∧ (0:ℝ) ≤ ⌊x⌋ ∧ (⌊x⌋:ℝ) ≤ 5 / 4 := by
    intro x h0 h1
    have ht : truncR x = ⌊x⌋ := if_pos h0
    have := (toI32_real (x := x) (by linarith) (by linarith)).1
    rw [ht] at this
    have f0 : (0:ℝ) ≤ ⌊x⌋ := by exact_mod_cast Int.floor_nonneg.2 h0
    exact ⟨this, by linarith [Int.floor_le x], by linarith [Int.lt_floor_add_one x], f0, (Int.floor_le x).trans h1⟩
  obtain ⟨f1, f2, f3, -⟩ := frac (x := c.rec35 + k.c11 * r36) (by linarith) (by linarith)
  rw [f1, Option.bind_some]
  generalize c.rec35 + k.c11 * r36 - (⌊c.rec35 + k.c11 * r36⌋ : ℝ) = r35 at *
  have h25 : ((0.25 : ℚ) : ℝ) = 1 / 4 := by norm_num
  simp only [h25]
  obtain ⟨g1, -, -, g2, g3⟩ := frac (x := r35 + 1 / 4) (by linarith) (by linarith)
  rw [g1, Option.bind_some]
  have h65 : ((65536 : ℚ) : ℝ) = 65536 := by norm_num
  simp only [h65]
  rw [(toI32_real (x := 65536 * (r35 + (1 / 4 - (⌊r35 + 1 / 4⌋ : ℝ)))) (by linarith) (by linarith)).1, Option.bind_some]
  have tb : ∀ (n : ℤ) (q : ℚ), 0 ≤ q → q ≤ 1 → -16 ≤ r37 * table n + (q:ℝ) ∧ r37 * table n + (q:ℝ) ≤ 16 := by
    intro n q h0 h1
    have q0 : (0:ℝ) ≤ q := by exact_mod_cast h0
    have q1 : (q:ℝ) ≤ 1 := by exact_mod_cast h1
    have a := Real.neg_one_le_sin ((((9.58738e-05 : ℚ) : ℝ)) * (n : ℝ))
    have b := Real.sin_le_one ((((9.58738e-05 : ℚ) : ℝ)) * (n : ℝ))
    have e : (table n : ℝ) = Real.sin (((9.58738e-05 : ℚ) : ℝ) * (n : ℝ)) := rfl
    rw [e]
    constructor <;> nlinarith [s37.1, s37.2]
  have q1 := fun n => tb n 0.030509727 (by norm_num) (by norm_num)
  have q2 := fun n => tb n 0.025603978 (by norm_num) (by norm_num)
  have t1 := fun n => toI32_real (big (q1 n).1 (q1 n).2).1 (big (q1 n).1 (q1 n).2).2
  have t2 := fun n => toI32_real (big (q2 n).1 (q2 n).2).1 (big (q2 n).1 (q2 n).2).2
  rw [(t1 _).1, Option.bind_some, i32_some (by have := (t1 (clampIndex (truncR (65536 * (r35 + (1 / 4 - (⌊r35 + 1 / 4⌋ : ℝ))))))).2; omega)
    (by have := (t1 (clampIndex (truncR (65536 * (r35 + (1 / 4 - (⌊r35 + 1 / 4⌋ : ℝ))))))).2; omega), Option.bind_some]
  rw [(toI32_real (x := 65536 * r35) (by linarith) (by linarith)).1, Option.bind_some]
  rw [(t2 _).1, Option.bind_some, i32_some (by have := (t2 (clampIndex (truncR (65536 * r35)))).2; omega)
    (by have := (t2 (clampIndex (truncR (65536 * r35)))).2; omega), Option.bind_some]
  exact ⟨_, _, rfl, s28, ⟨f2, f3⟩, s36, s37⟩

theorem step_total {k : Consts ℝ} {sl : Slow ℝ} {s : State (ℤ → ℝ) ℝ} {c : Ctrl ℝ} {pre : ℤ}
    (h : ctrlStep k sl s.ctrl = some (c, pre)) (h1 : 0 ≤ s.iota) (h2 : s.iota + 1 < 2 ^ 31) (x : Stereo ℝ) :
    ∃ s' y, step ideal k sl s x = some (s', y) ∧ s'.ctrl = c ∧ s'.iota = s.iota + 1 := by
  unfold step
  rw [h]
  simp only [Option.bind_some, inputStep, tankStep, tap, allpass, ideal, Option.map_some, i32_some (show -2 ^ 31 ≤ s.iota + 1 by omega) h2]
  exact ⟨_, _, rfl, rfl, rfl⟩

theorem run_real {k : Consts ℝ} (k0 : 45 ≤ k.c0) (k0' : k.c0 ≤ 192000) (k1 : k.c1 = 44.1 / k.c0) (k2 : k.c2 = 1 - k.c1)
    (k5 : k.c5 = 0.0441 / k.c0) (k11 : k.c11 = 1 / k.c0) (es : List (Event ℝ)) :
    ∀ (n : ℕ) {s : State (ℤ → ℝ) ℝ}, SafeR s.ctrl → s.iota = n → FineR n es → (run ideal k s es).isSome := by
  have loop : ∀ {p : Params ℝ} (_ : InRangeR p) (xs : List (Stereo ℝ)) {s : State (ℤ → ℝ) ℝ}, SafeR s.ctrl → 0 ≤ s.iota →
      s.iota + xs.length < 2 ^ 31 →
      ∃ s' ys, loop ideal k (slow k p) s xs = some (s', ys) ∧ SafeR s'.ctrl ∧ s'.iota = s.iota + xs.length := by
    intro p P xs
    induction xs with
    | nil => intro s S _ _; exact ⟨s, [], rfl, S, by simp⟩
    | cons x xs ih =>
      intro s S h0 h1
      simp only [List.length_cons, Nat.cast_add, Nat.cast_one] at h1
      obtain ⟨c, pre, hc, C⟩ := ctrl_real k0 k0' k1 k2 k5 k11 P S
      obtain ⟨s1, y, e1, ec, ei⟩ := step_total hc h0 (by omega) x
      obtain ⟨s2, ys, e2, S2, ei2⟩ := ih (s := s1) (by rw [ec]; exact C) (by omega) (by omega)
      refine ⟨s2, y :: ys, by simp only [FVerbDSP.loop, e1, e2, Option.bind_some, Option.map_some], S2, ?_⟩
      rw [ei2, ei]
      simp only [List.length_cons]
      push_cast
      ring
  induction es with
  | nil => intro n s _ _ _; rfl
  | cons e es ih =>
    intro n s S hn F
    cases e with
    | clear =>
      refine ih 0 ?_ rfl F
      constructor <;> simp [FVerbDSP.clear, real_arith]
    | block p xs =>
      obtain ⟨P, hl, F'⟩ := F
      obtain ⟨s1, ys, e1, S1, i1⟩ := loop P xs S (by omega) (by omega)
      have h := ih (n + xs.length) S1 (by rw [i1, hn]; push_cast; rfl) F'
      simp only [run, compute, e1, Option.bind_some, Option.isSome_map]
      exact h

/-! ### Linearity -/

variable {a b : ℝ}

/-- Outputs of three histories. -/
def LcO (a b : ℝ) (x y z : List (Stereo ℝ)) : Prop := x.length = y.length ∧ z = List.zipWith (fun u v => blend a b (u, v)) x y

theorem loop_lc {k : Consts ℝ} {sl : Slow ℝ} (xs : List (Stereo ℝ × Stereo ℝ)) :
    ∀ {s1 s2 s3 : State (ℤ → ℝ) ℝ}, LcS a b s1 s2 s3 →
      Opt3 (fun u v w => LcS a b u.1 v.1 w.1 ∧ LcO a b u.2 v.2 w.2) (loop ideal k sl s1 (xs.map Prod.fst))
        (loop ideal k sl s2 (xs.map Prod.snd)) (loop ideal k sl s3 (xs.map (blend a b))) := by
  induction xs with
  | nil => intro s1 s2 s3 S; exact ⟨S, rfl, rfl⟩
  | cons x xs ih =>
    intro s1 s2 s3 S
    simp only [List.map_cons, loop]
    refine (step_lc S (show LcF a b x.1 x.2 (blend a b x) from ⟨rfl, rfl⟩)).bind ?_
    rintro ⟨t1, y1⟩ ⟨t2, y2⟩ ⟨t3, y3⟩ ⟨T, Y⟩
    refine (ih T).map ?_
    rintro ⟨u1, z1⟩ ⟨u2, z2⟩ ⟨u3, z3⟩ ⟨U, hz, Z⟩
    refine ⟨U, by simp only [List.length_cons]; exact congrArg (· + 1) hz, ?_⟩
    rw [List.zipWith_cons_cons]
    show y3 :: z3 = _
    rw [show z3 = _ from Z]
    congr 1
    cases y3
    have h1 := Y.1
    have h2 := Y.2
    unfold Lc at h1 h2
    dsimp only at h1 h2
    rw [h1, h2]
    rfl

theorem run_lc {k : Consts ℝ} (es : List Event2) :
    ∀ {s1 s2 s3 : State (ℤ → ℝ) ℝ}, LcS a b s1 s2 s3 →
      Opt3 (fun u v w => LcO a b u.2 v.2 w.2) (run ideal k s1 (es.map (Event2.pick Prod.fst)))
        (run ideal k s2 (es.map (Event2.pick Prod.snd))) (run ideal k s3 (es.map (Event2.pick (blend a b)))) := by
  induction es with
  | nil => intro s1 s2 s3 S; exact ⟨rfl, rfl⟩
  | cons e es ih =>
    intro s1 s2 s3 S
    cases e with
    | clear => exact ih clear_lc
    | block p xs =>
      simp only [List.map_cons, Event2.pick, run]
      refine (loop_lc xs S).bind ?_
      rintro ⟨t1, y1⟩ ⟨t2, y2⟩ ⟨t3, y3⟩ ⟨T, hy, Y⟩
      refine (ih T).map ?_
      rintro ⟨u1, z1⟩ ⟨u2, z2⟩ ⟨u3, z3⟩ ⟨hz, Z⟩
      refine ⟨by simp only [List.length_append]; exact congrArg₂ (· + ·) hy hz, ?_⟩
      show y3 ++ z3 = _
      rw [show y3 = _ from Y, show z3 = _ from Z]
      exact (List.zipWith_append hy).symm

theorem output_ideal (sr : ℤ) (k : Consts ℝ) (hk : instanceConstants sr = some k) (es : List (Event ℝ)) :
    output k es = (run ideal k (clear ideal) es).map Prod.snd := by
  obtain ⟨k', e, K, -⟩ := constants_real sr
  rw [hk] at e
  cases e
  have h := run_rel K es clear_rel
  unfold output
  revert h
  cases run arrays k (clear arrays) es <;> cases run ideal k (clear ideal) es <;> intro h
  · rfl
  · exact h.elim
  · exact h.elim
  · exact congrArg some h.2

/-! ### Theorems -/

/-- **C59** (ideal arithmetic): the reverb is linear. At every sample rate, for every history of blocks with any parameter changes between
them and resets, the output for `a` times one input plus `b` times another is `a` times the output for the first plus `b` times the output
for the second, frame by frame; and it is defined exactly when the others are. The modulation and the crossfades of the delays do not
depend on the audio. -/
theorem C59_linear (sr : ℤ) (k : Consts ℝ) (hk : instanceConstants sr = some k) (a b : ℝ) (es : List Event2) :
    output k (es.map (Event2.pick (blend a b))) =
      (output k (es.map (Event2.pick Prod.fst))).bind fun ys =>
        (output k (es.map (Event2.pick Prod.snd))).map fun zs => List.zipWith (fun y z => blend a b (y, z)) ys zs := by
  simp only [output_ideal sr k hk]
  have h := run_lc (a := a) (b := b) (k := k) es clear_lc
  revert h
  cases run ideal k (clear ideal) (es.map (Event2.pick Prod.fst)) <;> cases run ideal k (clear ideal) (es.map (Event2.pick Prod.snd)) <;>
    cases run ideal k (clear ideal) (es.map (Event2.pick (blend a b))) <;> intro h
  all_goals first | rfl | exact h.elim | exact congrArg some h.2

/-- **C59** (ideal arithmetic): the hypotheses of `C59_linear` are met and its outputs exist: for sample rates from 45 Hz and parameters in
the ranges of the setters every history with fewer than `2^31` frames between resets has an output. -/
theorem C59_linear_defined (sr : ℤ) (h : 45 ≤ sr) : ∃ k : Consts ℝ, instanceConstants sr = some k ∧
    ∀ es, FineR 0 es → (output k es).isSome := by
  obtain ⟨k, hk, -, k0, k1, k2, k5, k11⟩ := constants_real sr
  refine ⟨k, hk, fun es F => ?_⟩
  rw [output_ideal sr k hk, Option.isSome_map]
  have hs : (45:ℝ) ≤ sr := by exact_mod_cast h
  refine run_real ?_ ?_ k1 k2 k5 k11 es 0 ?_ rfl F
  · rw [k0]; exact le_min (by norm_num) (hs.trans (le_max_right _ _))
  · rw [k0]; exact min_le_left _ _
  · constructor <;> simp [FVerbDSP.clear, real_arith]

example : FineR 0 ([Event2.block resetUI [(⟨1, 0⟩, ⟨0, 1⟩)], .clear].map (Event2.pick (blend 2 (-3)))) := by
  refine ⟨⟨?_, ?_, ?_⟩, by norm_num, trivial⟩ <;> simp only [resetUI, real_arith] <;> norm_num

end Verif.FVerbDSP
