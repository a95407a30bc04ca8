import Verif.Float.Step64
import Verif.Props.LadderBounds
import Verif.Props.LadderSilence
import Mathlib.Tactic.Positivity
import Mathlib.Tactic.IntervalCases

/-!
# C97: the Krajeski ladder is bounded in the arithmetic it is computed in

C51 bounds it in ideal arithmetic.  Here the coefficients, the four stages and the conversion of the result are the double- and
single-precision operations of the program, with every rounding.
-/

namespace Verif
open FP

/-- An invariant kept by all calls of a list holds of every sample returned. -/
theorem LadderApi.play_all {σ α : Type} (A : LadderApi σ α) (I : σ → Prop) (Ok : LadderCall α → Prop) (Out : α → Prop)
    (hc : ∀ c s, Ok (.setCutoff c) → I s → I (A.setCutoff c s)) (hr : ∀ r s, Ok (.setResonance r) → I s → I (A.setResonance r s))
    (h0 : ∀ s, I s → I (A.reset s)) (ht : ∀ s x, Ok (.tick x) → I s → I (A.tick s x).1 ∧ Out (A.tick s x).2)
    (l : List (LadderCall α)) (hl : ∀ a ∈ l, Ok a) (s : σ) (hs : I s) : ∀ y ∈ A.play s l, Out y := by
  induction l generalizing s with
  | nil => intro y hy; simp [LadderApi.play] at hy
  | cons a l ih =>
    have hl' : ∀ a ∈ l, Ok a := fun b h => hl b (List.mem_cons_of_mem _ h)
    have ha := hl a List.mem_cons_self
    cases a with
    | setCutoff c => exact ih hl' _ (hc c s ha hs)
    | setResonance r => exact ih hl' _ (hr r s ha hs)
    | reset => exact ih hl' _ (h0 s hs)
    | tick x =>
      obtain ⟨h1, h2⟩ := ht s x ha hs
      intro y hy
      rcases List.mem_cons.1 hy with rfl | hy
      · exact h2
      · exact ih hl' _ h1 y hy

/-- Calls with finite inputs, cutoffs between 0 and `k` times the sample rate, and resonances that are not NaN. -/
def Fair (sr : F32) (k : ℚ) : LadderCall F32 → Prop
  | .setCutoff c => c.In 0 (k * sr.val)
  | .setResonance r => r ≠ nan
  | .reset => True
  | .tick x => x.isFin = true

instance (sr : F32) (k : ℚ) : DecidablePred (Fair sr k) := fun a => by cases a <;> unfold Fair <;> infer_instance

namespace Krajeski

/-! ### One stage -/

/-- The coefficient: zero or large enough for the absolute rounding errors not to matter, and at most 1.2. -/
structure Gain (g : F64) : Prop where
  fin : g.isFin = true
  lo : g.val = 0 ∨ 1 / 2 ^ 180 ≤ g.val
  hi : g.val ≤ 1.2

theorem Gain.nonneg {g : F64} (h : Gain g) : 0 ≤ g.val := by
  rcases h.lo with h | h
  · exact h.ge
  · exact le_trans (by positivity) h

/-- The triangle inequality for a perturbed number. -/
theorem abs_near {x y e M : ℚ} (h : |x - y| ≤ e) (hy : |y| ≤ M) : |x| ≤ M + e := by
  rw [abs_le] at *
  constructor <;> linarith [h.1, h.2, hy.1, hy.2]

/-- The weighted mean of the present and the previous input of a stage. -/
theorem mean_le {si di : F64} {M : ℚ} (h1 : si.In (-M) M) (h2 : di.In (-M) M) (hM : M ≤ 8) :
    (lit 0.3 / lit 1.3 * si + lit 1 / lit 1.3 * di : F64).isFin = true ∧
    |(lit 0.3 / lit 1.3 * si + lit 1 / lit 1.3 * di : F64).val| ≤ M + 1 / 2 ^ 46 := by
  have hA : (lit 0.3 / lit 1.3 : F64).In (1/8) (1/4) := by decide +kernel
  have hB : (lit 1 / lit 1.3 : F64).In (1/2) 1 := by decide +kernel
  have hAB : (lit 0.3 / lit 1.3 : F64).val + (lit 1 / lit 1.3 : F64).val ≤ 1 := by decide +kernel
  generalize hAe : (lit 0.3 / lit 1.3 : F64) = A at *
  generalize hBe : (lit 1 / lit 1.3 : F64) = B at *
  clear hAe hBe
  have a1 := abs_le.2 h1.2
  have a2 := abs_le.2 h2.2
  have hM0 : 0 ≤ M := (abs_nonneg _).trans a1
  have p1 : |A.val * si.val| ≤ A.val * M := by
    rw [abs_mul, abs_of_nonneg (by linarith [hA.2.1])]
    exact mul_le_mul_of_nonneg_left a1 (by linarith [hA.2.1])
  have p2 : |B.val * di.val| ≤ B.val * M := by
    rw [abs_mul, abs_of_nonneg (by linarith [hB.2.1])]
    exact mul_le_mul_of_nonneg_left a2 (by linarith [hB.2.1])
  have q1 : A.val * M ≤ 2 := by nlinarith [hA.2.2, hA.2.1]
  have q2 : B.val * M ≤ 8 := by nlinarith [hB.2.2, hB.2.1]
  have q3 : A.val * M + B.val * M ≤ M := by nlinarith
  obtain ⟨f1, e1⟩ := mul64 hA.1 h1.1 (p1.trans (q1.trans (by norm_num)))
  obtain ⟨f2, e2⟩ := mul64 hB.1 h2.1 (p2.trans (q2.trans (by norm_num)))
  have u := abs_near e1 p1
  have v := abs_near e2 p2
  have w : |(A * si).val + (B * di).val| ≤ M + 1 / 2 ^ 48 := (abs_add_le _ _).trans (by linarith)
  obtain ⟨f3, e3⟩ := add64 f1 f2 (w.trans (by linarith))
  refine ⟨f3, (abs_near e3 w).trans (by linarith)⟩

/-- One stage with all roundings: if a step of the ideal stage, with a little to spare, stays within `M'`, so does the computed one. -/
theorem stage_level {g si di sn : F64} {M M' : ℚ} (hg : Gain g) (h1 : si.In (-M) M) (h2 : di.In (-M) M) (h3 : sn.In (-M') M')
    (hM : M ≤ 8) (hM' : M' ≤ 8) (R : binary64.Rep M' false)
    (habs : |1 - g.val| * M' + g.val * (M + 1 / 2 ^ 45) ≤ M') : (stage g si di sn).In (-M') M' := by
  obtain ⟨f0, e0⟩ := mean_le h1 h2 hM
  have g0 := hg.nonneg
  have gh := hg.hi
  have hM0 : 0 ≤ M := by linarith [h1.2.1, h1.2.2]
  have a3 := abs_le.2 h3.2
  have key : (g * (lit 0.3 / lit 1.3 * si + lit 1 / lit 1.3 * di - sn) + sn : F64).In (-M') M' := by
    generalize (lit 0.3 / lit 1.3 * si + lit 1 / lit 1.3 * di : F64) = m at *
    have d0 : |m.val - sn.val| ≤ M + M' + 1 / 2 ^ 46 := (abs_sub _ _).trans (by linarith)
    obtain ⟨f4, e4⟩ := sub64 f0 h3.1 (d0.trans (by linarith))
    have d1 : |(m - sn).val - (m.val - sn.val)| ≤ 17 / 2 ^ 53 := e4.trans (by linarith)
    have d2 : |(m - sn).val| ≤ 17 := (abs_near d1 d0).trans (by linarith)
    have d3 : |g.val * (m - sn).val| ≤ g.val * 17 := by
      rw [abs_mul, abs_of_nonneg g0]; exact mul_le_mul_of_nonneg_left d2 g0
    have f5 := mul64 hg.fin f4 (d3.trans (by norm_num at *; linarith))
    have d4 : |(g * (m - sn)).val - g.val * (m - sn).val| ≤ g.val * (18 / 2 ^ 53) := by
      rcases hg.lo with h | h
      · have hz : (g * (m - sn)).In 0 0 := mul_in hg.fin f4 rep_zero rep_zero (by rw [h]; simp) (by rw [h]; simp)
        rw [hz.val_eq, h]; simp
      · exact f5.2.trans (by linarith)
    have d5 : |g.val * ((m - sn).val - (m.val - sn.val))| ≤ g.val * (17 / 2 ^ 53) := by
      rw [abs_mul, abs_of_nonneg g0]; exact mul_le_mul_of_nonneg_left d1 g0
    have d6 : |g.val * m.val| ≤ g.val * (M + 1 / 2 ^ 46) := by
      rw [abs_mul, abs_of_nonneg g0]; exact mul_le_mul_of_nonneg_left e0 g0
    have d7 : |(1 - g.val) * sn.val| ≤ |1 - g.val| * M' := by
      rw [abs_mul]; exact mul_le_mul_of_nonneg_left a3 (abs_nonneg _)
    have d8 : |(g * (m - sn)).val + sn.val| ≤ M' := by
      have e : (g * (m - sn)).val + sn.val = (1 - g.val) * sn.val + g.val * m.val + g.val * ((m - sn).val - (m.val - sn.val))
          + ((g * (m - sn)).val - g.val * (m - sn).val) := by ring
      rw [e]
      refine (abs_add_le _ _).trans ?_
      refine (add_le_add ((abs_add_le _ _).trans (add_le_add (abs_add_le _ _) le_rfl)) le_rfl).trans ?_
      linarith
    rw [abs_le] at d8
    exact add_in ⟨f5.1, le_rfl, le_rfl⟩ ⟨h3.1, le_rfl, le_rfl⟩ (Rep.neg R) R d8.1 d8.2
  have l : (lit (-1e30) : F64).isFin = true ∧ (lit (-1e30) : F64).val ≤ -8 := by decide +kernel
  have u : (lit 1e30 : F64).isFin = true ∧ 8 ≤ (lit 1e30 : F64).val := by decide +kernel
  rw [stage, fclamp_id key.1 l.1 u.1 (by linarith [key.2.1, l.2]) (by linarith [key.2.2, u.2])]
  exact key

/-! ### The coefficient -/

/-- The frequency polynomial of `setCutoff`. -/
def poly (w : ℚ) : ℚ := 0.9892 * w - 0.4342 * w ^ 2 + 0.1381 * w ^ 3 - 0.0202 * w ^ 4

/-- One term of the polynomial. -/
theorem term_near {c p : F64} {q P : ℚ} (hc : c.isFin = true) (hq : |c.val - q| ≤ 1 / 2 ^ 53) (q0 : 0 ≤ q) (q1 : q ≤ 1)
    (hp : p.isFin = true) (P0 : 0 ≤ P) (P1 : P ≤ 100) (he : |p.val - P| ≤ P / 2 ^ 40 + 1 / 2 ^ 250) :
    (c * p).isFin = true ∧ |(c * p).val - q * P| ≤ P / 2 ^ 39 + 1 / 2 ^ 248 := by
  have hc1 : |c.val| ≤ 1 + 1 / 2 ^ 53 := abs_near hq (by rw [abs_of_nonneg q0]; exact q1)
  have hp1 : |p.val| ≤ P + (P / 2 ^ 40 + 1 / 2 ^ 250) := abs_near he (by rw [abs_of_nonneg P0])
  have hcp : |c.val * p.val| ≤ (1 + 1 / 2 ^ 53) * (P + (P / 2 ^ 40 + 1 / 2 ^ 250)) := by
    rw [abs_mul]; exact mul_le_mul hc1 hp1 (abs_nonneg _) (by norm_num)
  obtain ⟨f, e⟩ := mul64 hc hp (hcp.trans (by linarith))
  refine ⟨f, ?_⟩
  have a : |c.val * (p.val - P)| ≤ (1 + 1 / 2 ^ 53) * (P / 2 ^ 40 + 1 / 2 ^ 250) := by
    rw [abs_mul]; exact mul_le_mul hc1 he (abs_nonneg _) (by norm_num)
  have b : |(c.val - q) * P| ≤ 1 / 2 ^ 53 * P := by
    rw [abs_mul, abs_of_nonneg P0]; exact mul_le_mul_of_nonneg_right hq P0
  have eq : (c * p).val - q * P = ((c * p).val - c.val * p.val) + c.val * (p.val - P) + (c.val - q) * P := by ring
  rw [eq]
  refine (abs_add_le _ _).trans ((add_le_add (abs_add_le _ _) le_rfl).trans ?_)
  linarith

/-- Four terms added and subtracted in turn. -/
theorem sum_near {a b c d : F64} {A B C D w : ℚ} (fa : a.isFin = true) (fb : b.isFin = true) (fc : c.isFin = true) (fd : d.isFin = true)
    (w0 : 1 / 2 ^ 170 ≤ w) (w1 : w ≤ 3.15) (ha : |a.val - A| ≤ w / 2 ^ 33) (hb : |b.val - B| ≤ w / 2 ^ 33) (hc : |c.val - C| ≤ w / 2 ^ 33)
    (hd : |d.val - D| ≤ w / 2 ^ 33) (hA : |A| ≤ 2 * w) (hB : |B| ≤ 2 * w) (hC : |C| ≤ 2 * w) (hD : |D| ≤ 2 * w) :
    (a - b + c - d).isFin = true ∧ |(a - b + c - d).val - (A - B + C - D)| ≤ w / 2 ^ 30 := by
  have wp : 0 < w := lt_of_lt_of_le (by positivity) w0
  have ka := abs_near ha hA
  have kb := abs_near hb hB
  have kc := abs_near hc hC
  have kd := abs_near hd hD
  have s1 : |a.val - b.val| ≤ 5 * w := (abs_sub _ _).trans (by linarith)
  obtain ⟨f1, e1⟩ := sub64 fa fb (s1.trans (by norm_num at w1 ⊢; linarith))
  have k1 := abs_near e1 s1
  have s2 : |(a - b).val + c.val| ≤ 8 * w := (abs_add_le _ _).trans (by linarith)
  obtain ⟨f2, e2⟩ := add64 f1 fc (s2.trans (by norm_num at w1 ⊢; linarith))
  have k2 := abs_near e2 s2
  have s3 : |(a - b + c).val - d.val| ≤ 11 * w := (abs_sub _ _).trans (by linarith)
  obtain ⟨f3, e3⟩ := sub64 f2 fd (s3.trans (by norm_num at w1 ⊢; linarith))
  refine ⟨f3, ?_⟩
  have eq : (a - b + c - d).val - (A - B + C - D) = ((a - b + c - d).val - ((a - b + c).val - d.val))
      + ((a - b + c).val - ((a - b).val + c.val)) + ((a - b).val - (a.val - b.val)) + (a.val - A) + -(b.val - B) + (c.val - C)
      + -(d.val - D) := by ring
  rw [eq]
  have t : ∀ x1 x2 x3 x4 x5 x6 x7 : ℚ, |x1 + x2 + x3 + x4 + -x5 + x6 + -x7| ≤ |x1| + |x2| + |x3| + |x4| + |x5| + |x6| + |x7| := by
    intro x1 x2 x3 x4 x5 x6 x7
    refine (abs_add_le _ _).trans (add_le_add ?_ (abs_neg _).le)
    refine (abs_add_le _ _).trans (add_le_add ?_ le_rfl)
    refine (abs_add_le _ _).trans (add_le_add ?_ (abs_neg _).le)
    refine (abs_add_le _ _).trans (add_le_add ?_ le_rfl)
    refine (abs_add_le _ _).trans (add_le_add ?_ le_rfl)
    exact abs_add_le _ _
  refine (t _ _ _ _ _ _ _).trans ?_
  linarith

/-- The frequency polynomial as computed. -/
theorem poly_near [Libm F64] [Libm64Spec] [Pow64Acc] {w : F64} (hw : w.In 0 3.15) (h0 : w.val = 0 ∨ 1 / 2 ^ 170 ≤ w.val) :
    (lit 0.9892 * w - lit 0.4342 * Libm.pow w (lit 2) + lit 0.1381 * Libm.pow w (lit 3) - lit 0.0202 * Libm.pow w (lit 4) : F64).isFin = true ∧
    |(lit 0.9892 * w - lit 0.4342 * Libm.pow w (lit 2) + lit 0.1381 * Libm.pow w (lit 3) - lit 0.0202 * Libm.pow w (lit 4) : F64).val
      - poly w.val| ≤ w.val / 2 ^ 30 := by
  have c1 : (lit 0.9892 : F64).isFin = true ∧ |(lit 0.9892 : F64).val - 0.9892| ≤ 1 / 2 ^ 53 := by decide +kernel
  have c2 : (lit 0.4342 : F64).isFin = true ∧ |(lit 0.4342 : F64).val - 0.4342| ≤ 1 / 2 ^ 53 := by decide +kernel
  have c3 : (lit 0.1381 : F64).isFin = true ∧ |(lit 0.1381 : F64).val - 0.1381| ≤ 1 / 2 ^ 53 := by decide +kernel
  have c4 : (lit 0.0202 : F64).isFin = true ∧ |(lit 0.0202 : F64).val - 0.0202| ≤ 1 / 2 ^ 53 := by decide +kernel
  rcases h0 with h0 | h0
  · have hz : w.In 0 0 := ⟨hw.1, h0.ge, h0.le⟩
    have z := zero_sub_zero (zero_add_zero (zero_sub_zero (mul_zero' c1.1 hz) (mul_zero' c2.1 (Pow64Acc.pow_zero w 2 hz (by simp))))
      (mul_zero' c3.1 (Pow64Acc.pow_zero w 3 hz (by simp)))) (mul_zero' c4.1 (Pow64Acc.pow_zero w 4 hz (by simp)))
    refine ⟨z.1, le_of_eq ?_⟩
    have e := z.val
    simp only [Nat.cast_ofNat] at e
    rw [e, h0]
    simp [poly]
  · have h8 : w.In 0 8 := hw.mono le_rfl (by norm_num)
    have w0 := hw.2.1
    have w1 := hw.2.2
    have p2 := Pow64Acc.pow_acc w 2 h8 (by simp)
    have p3 := Pow64Acc.pow_acc w 3 h8 (by simp)
    have p4 := Pow64Acc.pow_acc w 4 h8 (by simp)
    have f2 := (Libm64Spec.pow_moderate w 2 h8 (by simp)).1
    have f3 := (Libm64Spec.pow_moderate w 3 h8 (by simp)).1
    have f4 := (Libm64Spec.pow_moderate w 4 h8 (by simp)).1
    simp only [Nat.cast_ofNat] at p2 p3 p4 f2 f3 f4
    have b2 : w.val ^ 2 ≤ 3.15 * w.val := by nlinarith
    have b3 : w.val ^ 3 ≤ 3.15 * 3.15 * w.val := by nlinarith [pow_succ w.val 2]
    have b4 : w.val ^ 4 ≤ 3.15 * 3.15 * 3.15 * w.val := by nlinarith [pow_succ w.val 3]
    have n2 : 0 ≤ w.val ^ 2 := by positivity
    have n3 : 0 ≤ w.val ^ 3 := by positivity
    have n4 : 0 ≤ w.val ^ 4 := by positivity
    obtain ⟨g1, e1⟩ := term_near c1.1 c1.2 (by norm_num) (by norm_num) hw.1 w0 (by norm_num at w1 ⊢; linarith)
      (by rw [sub_self, abs_zero]; linarith : |w.val - w.val| ≤ w.val / 2 ^ 40 + 1 / 2 ^ 250)
    obtain ⟨g2, e2⟩ := term_near c2.1 c2.2 (by norm_num) (by norm_num) f2 n2 (by norm_num at w1 b2 ⊢; linarith) p2
    obtain ⟨g3, e3⟩ := term_near c3.1 c3.2 (by norm_num) (by norm_num) f3 n3 (by norm_num at w1 b3 ⊢; linarith) p3
    obtain ⟨g4, e4⟩ := term_near c4.1 c4.2 (by norm_num) (by norm_num) f4 n4 (by norm_num at w1 b4 ⊢; linarith) p4
    have A : ∀ q P : ℚ, 0 ≤ q → 0 ≤ P → q * P ≤ 2 * w.val → |q * P| ≤ 2 * w.val := fun q P h1 h2 h3 => by
      rw [abs_of_nonneg (mul_nonneg h1 h2)]; exact h3
    refine sum_near g1 g2 g3 g4 h0 w1 (e1.trans ?_) (e2.trans ?_) (e3.trans ?_) (e4.trans ?_) (A _ _ ?_ w0 ?_) (A _ _ ?_ n2 ?_)
      (A _ _ ?_ n3 ?_) (A _ _ ?_ n4 ?_) <;> norm_num at * <;> linarith

theorem poly_range {w : ℚ} (h0 : 0 ≤ w) (h1 : w ≤ 3.15) : 0.3 * w ≤ poly w ∧ poly w ≤ 1.16 ∧ (w ≤ 1.89 → poly w ≤ 0.999) := by
  unfold poly
  refine ⟨?_, ?_, fun h2 => ?_⟩
  · have : 0 ≤ w * (0.6892 - 0.4342 * w + 0.1381 * w ^ 2 - 0.0202 * w ^ 3) := by
      refine mul_nonneg h0 ?_
      nlinarith [mul_nonneg h0 (sub_nonneg.2 h1), sq_nonneg (w - 2), mul_nonneg (mul_nonneg h0 h0) (sub_nonneg.2 h1),
        sq_nonneg (w - 3.15), mul_nonneg (sq_nonneg (w - 2)) (sub_nonneg.2 h1), mul_nonneg (sq_nonneg (w - 2.5)) (sub_nonneg.2 h1)]
    nlinarith
  · nlinarith [sq_nonneg (w - 2.87), sq_nonneg (w ^ 2 - 3.42 * w + 1.5), mul_nonneg h0 (sub_nonneg.2 h1), sq_nonneg (w * (w - 2.87)),
      sq_nonneg (w ^ 2 - 2.87 * w)]
  · nlinarith [sq_nonneg (w - 1.89), mul_nonneg h0 (sub_nonneg.2 h2), mul_nonneg (mul_nonneg h0 h0) (sub_nonneg.2 h2),
    mul_nonneg (mul_nonneg h0 (sub_nonneg.2 h2)) (sub_nonneg.2 h2)]

/-- A positive single-precision number is at least the smallest subnormal. -/
theorem pos_ge {c : F32} (h : 0 < c.val) : 1 / 2 ^ 149 ≤ c.val := by
  obtain ⟨⟨m, e, hm, he, hv⟩, -, -⟩ := rep_val c
  rw [hv] at h ⊢
  have hp : (0:ℚ) < 2 ^ e := by positivity
  have hm1 : 1 ≤ m := by
    by_contra hneg
    have : (m:ℚ) ≤ 0 := by exact_mod_cast (by omega : m ≤ 0)
    nlinarith
  have hm2 : (1:ℚ) ≤ m := by exact_mod_cast hm1
  have h2 : (2:ℚ) ^ (-149:ℤ) ≤ 2 ^ e := zpow_le_zpow_right₀ (by norm_num) he
  have e3 : (1:ℚ) / 2 ^ 149 = 2 ^ (-149:ℤ) := by norm_num
  rw [e3]
  nlinarith

/-- The angle computed by `setCutoff`. -/
theorem angle_in {sr c : F32} {k K : ℚ} (hs : sr.In 100 (2 ^ 20)) (hc : c.In 0 (k * sr.val)) (hk : k ≤ 1 / 2)
    (h : 6.2832 * k + 1 / 2 ^ 40 ≤ K) :
    (lit 2 * Conv.conv (PI : F32) * Conv.conv c / Conv.conv sr : F64).In 0 K ∧
    ((lit 2 * Conv.conv (PI : F32) * Conv.conv c / Conv.conv sr : F64).val = 0 ∨
      1 / 2 ^ 170 ≤ (lit 2 * Conv.conv (PI : F32) * Conv.conv c / Conv.conv sr : F64).val) := by
  have hp : (lit 2 * Conv.conv (PI : F32) : F64).In 6.28 6.2832 := by decide +kernel
  have h1 := conv_up hs.1
  have h2 := conv_up hc.1
  generalize (lit 2 * Conv.conv (PI : F32) : F64) = p at *
  have s0 : 0 < sr.val := by linarith [hs.2.1]
  have c0 := hc.2.1
  have c1 := hc.2.2
  have c2 : c.val ≤ 2 ^ 19 := by have := hs.2.2; nlinarith
  have p0 := hp.2.1
  have p1 := hp.2.2
  norm_num at p0 p1 h
  have pc : p.val * c.val ≤ 6.2832 * c.val := by norm_num; exact mul_le_mul_of_nonneg_right p1 c0
  have pc0 : 0 ≤ p.val * c.val := mul_nonneg (by linarith) c0
  norm_num at pc
  have b1 : |p.val * (Conv.conv c : F64).val| ≤ 2 ^ 200 := by
    rw [h2.val_eq, abs_of_nonneg pc0]; norm_num at *; linarith
  obtain ⟨f1, e1⟩ := mul64 hp.1 h2.1 b1
  have hx0 : (p * Conv.conv c : F64).In 0 (2 ^ 200) := by
    rw [abs_le] at b1
    exact mul_in hp.1 h2.1 rep_zero (rep64_two_pow (by norm_num)) (by rw [h2.val_eq]; exact pc0) b1.2
  rw [h2.val_eq, abs_of_nonneg pc0] at e1
  have x1 := (abs_le.1 e1).2
  generalize hX : (p * Conv.conv c : F64) = X at *
  have y1 : X.val / sr.val ≤ 6.2832 * k + 1 / 2 ^ 45 := by
    rw [div_le_iff₀ s0]
    have : c.val * (1 + 1 / 2 ^ 53) ≤ k * sr.val * (1 + 1 / 2 ^ 53) := mul_le_mul_of_nonneg_right c1 (by norm_num)
    have hks : k * sr.val ≤ 1 / 2 * sr.val := mul_le_mul_of_nonneg_right hk s0.le
    have hs1 := hs.2.1
    norm_num at *
    linarith
  have y0 : 0 ≤ X.val / sr.val := div_nonneg hx0.2.1 s0.le
  have hne : (Conv.conv sr : F64).val ≠ 0 := by rw [h1.val_eq]; exact s0.ne'
  have b2 : |X.val / (Conv.conv sr : F64).val| ≤ 2 ^ 200 := by
    rw [h1.val_eq, abs_of_nonneg y0]; norm_num at *; linarith
  obtain ⟨f2, e2⟩ := div64 f1 h1.1 hne b2
  have hw0 : (X / Conv.conv sr : F64).In 0 (2 ^ 200) := by
    rw [abs_le] at b2
    exact div_in f1 h1.1 hne rep_zero (rep64_two_pow (by norm_num)) (by rw [h1.val_eq]; exact y0) b2.2
  rw [h1.val_eq, abs_of_nonneg y0] at e2
  have x2 := (abs_le.1 e2).2
  refine ⟨⟨f2, hw0.2.1, ?_⟩, ?_⟩
  · norm_num at *; linarith
  · rcases c0.eq_or_lt with hz | hz
    · left
      have hx : X.In 0 0 := by
        rw [← hX]
        exact mul_in hp.1 h2.1 rep_zero rep_zero (by rw [h2.val_eq, ← hz]; simp) (by rw [h2.val_eq, ← hz]; simp)
      have hw : (X / Conv.conv sr : F64).In 0 0 :=
        div_in hx.1 h1.1 hne rep_zero rep_zero (by rw [hx.val_eq]; simp) (by rw [hx.val_eq]; simp)
      exact hw.val_eq
    · right
      have hz' := pos_ge hz
      have hx : X.In (1 / 2 ^ 149) (2 ^ 200) := by
        rw [← hX]
        refine mul_in hp.1 h2.1 (by decide +kernel) (rep64_two_pow (by norm_num)) ?_ (abs_le.1 b1).2
        rw [h2.val_eq]; nlinarith
      have hw : (X / Conv.conv sr : F64).In (1 / 2 ^ 170) (2 ^ 200) := by
        refine div_in hx.1 h1.1 hne (by decide +kernel) (rep64_two_pow (by norm_num)) ?_ (abs_le.1 b2).2
        rw [h1.val_eq, le_div_iff₀ s0]
        have := hs.2.2
        have := hx.2.1
        norm_num at *; linarith
      exact hw.2.1

/-- The coefficient computed by `setCutoff`. -/
theorem gain_of [Libm F64] [Libm64Spec] [Pow64Acc] {w : F64} (hw : w.In 0 3.15) (h0 : w.val = 0 ∨ 1 / 2 ^ 170 ≤ w.val) :
    Gain (lit 0.9892 * w - lit 0.4342 * Libm.pow w (lit 2) + lit 0.1381 * Libm.pow w (lit 3) - lit 0.0202 * Libm.pow w (lit 4)) ∧
    (w.val ≤ 1.89 → (lit 0.9892 * w - lit 0.4342 * Libm.pow w (lit 2) + lit 0.1381 * Libm.pow w (lit 3)
      - lit 0.0202 * Libm.pow w (lit 4) : F64).val ≤ 1) ∧
    (lit 0.9892 * w - lit 0.4342 * Libm.pow w (lit 2) + lit 0.1381 * Libm.pow w (lit 3)
      - lit 0.0202 * Libm.pow w (lit 4) : F64).val ≤ 7 / 6 := by
  obtain ⟨f, e⟩ := poly_near hw h0
  obtain ⟨r1, r2, r3⟩ := poly_range hw.2.1 hw.2.2
  generalize (lit 0.9892 * w - lit 0.4342 * Libm.pow w (lit 2) + lit 0.1381 * Libm.pow w (lit 3) - lit 0.0202 * Libm.pow w (lit 4) : F64) = g at *
  rw [abs_le] at e
  have w0 := hw.2.1
  have w1 := hw.2.2
  rcases h0 with h0 | h0
  · have p0 : poly w.val = 0 := by rw [h0]; simp [poly]
    rw [p0, h0] at e
    have hg : g.val = 0 := by norm_num at e; linarith [e.1, e.2]
    exact ⟨⟨f, Or.inl hg, by rw [hg]; norm_num⟩, fun _ => by rw [hg]; norm_num, by rw [hg]; norm_num⟩
  · refine ⟨⟨f, Or.inr ?_, ?_⟩, fun h => ?_, ?_⟩
    · norm_num at *; linarith [e.1]
    · norm_num at *; linarith [e.2]
    · have := r3 h
      norm_num at *; linarith [e.2]
    · norm_num at *; linarith [e.2]

/-! ### The whole ladder -/

/-- Levels the four stages stay within, for coefficients up to `G`. -/
structure Levels (G : ℚ) (M : ℕ → ℚ) : Prop where
  zero : M 0 = 1
  le : ∀ i, i ≤ 4 → 0 ≤ M i ∧ M i ≤ 8
  rep : ∀ i, i ≤ 4 → binary64.Rep (M i) false
  step : ∀ i, i < 4 → ∀ g, 0 ≤ g → g ≤ G → |1 - g| * M (i + 1) + g * (M i + 1 / 2 ^ 45) ≤ M (i + 1)

/-- The invariant. -/
structure FBdd (sr : F32) (G : ℚ) (M : ℕ → ℚ) (s : Ladder F32 F64) : Prop where
  rate : s.sampleRate = sr
  g : Gain s.g
  g1 : s.g.val ≤ G
  wc : s.wc.In 0 8
  gRes : s.gRes.Mag 17
  gComp : s.gComp.In 1 1
  drive : s.drive.In 1 1
  s1 : s.s1.In (-M 1) (M 1)
  s2 : s.s2.In (-M 2) (M 2)
  s3 : s.s3.In (-M 3) (M 3)
  s4 : s.s4.In (-M 4) (M 4)
  d0 : s.d0.In (-M 0) (M 0)
  d1 : s.d1.In (-M 1) (M 1)
  d2 : s.d2.In (-M 2) (M 2)
  d3 : s.d3.In (-M 3) (M 3)

theorem level_mag {M : ℚ} {x : F64} (h : x.In (-M) M) (hM : M ≤ 8) : x.Mag 3 := h.mono (by norm_num; linarith) (by norm_num; linarith)

theorem tick_fbdd [Libm F64] [Libm64Spec] {sr : F32} {G : ℚ} {M : ℕ → ℚ} (L : Levels G M) (s : Ladder F32 F64) (x : F32)
    (hx : x.isFin = true) (h : FBdd sr G M s) :
    FBdd sr G M (tick s x).1 ∧ ∃ y : F64, y.In (-M 4) (M 4) ∧ (tick s x).2 = Conv.conv y := by
  have hxm := conv_up_mag hx
  have hs4 := level_mag h.s4 (L.le 4 (by omega)).2
  have one : ∀ z : F64, z.In 1 1 → z.Mag 0 := fun z hz => hz.mono (by norm_num) (by norm_num)
  have a1 := (one _ h.gComp).mul hxm
  have a2 := (hs4.up 128).sub (a1.up 128)
  have l4 : (lit 4 : F64).Mag 2 := by decide +kernel
  have a3 := (l4.mul h.gRes).mul a2
  have a4 := (hxm.up 148).sub (a3.up 148)
  have a5 := (one _ h.drive).mul a4
  have t0 : (Libm.tanh (s.drive * (Conv.conv x - lit 4 * s.gRes * (s.s4 - s.gComp * Conv.conv x)))).In (-M 0) (M 0) := by
    rw [L.zero]
    refine Libm64Spec.tanh_range _ (fun e => ?_)
    rw [e] at a5
    exact absurd a5.1 (by simp)
  have st : ∀ i, i < 4 → ∀ si di sn : F64, si.In (-M i) (M i) → di.In (-M i) (M i) → sn.In (-M (i + 1)) (M (i + 1)) →
      (stage s.g si di sn).In (-M (i + 1)) (M (i + 1)) := fun i hi si di sn h1 h2 h3 =>
    stage_level h.g h1 h2 h3 (L.le i (by omega)).2 (L.le (i + 1) (by omega)).2 (L.rep (i + 1) (by omega))
      (L.step i hi _ h.g.nonneg h.g1)
  have t1 := st 0 (by omega) _ _ _ t0 h.d0 h.s1
  have t2 := st 1 (by omega) _ _ _ t1 h.d1 h.s2
  have t3 := st 2 (by omega) _ _ _ t2 h.d2 h.s3
  have t4 := st 3 (by omega) _ _ _ t3 h.d3 h.s4
  exact ⟨⟨h.rate, h.g, h.g1, h.wc, h.gRes, h.gComp, h.drive, t1, t2, t3, t4, t0, t1, t2, t3⟩, _, t4, rfl⟩

theorem setCutoff_fbdd [Libm F64] [Libm64Spec] [Pow64Acc] {sr : F32} {G k K : ℚ} {M : ℕ → ℚ} (hs : sr.In 100 (2 ^ 20)) (hk : k ≤ 1 / 2)
    (h : 6.2832 * k + 1 / 2 ^ 40 ≤ K) (hG : K ≤ 1.89 ∧ 1 ≤ G ∨ K ≤ 3.15 ∧ 7 / 6 ≤ G) (c : F32) (s : Ladder F32 F64)
    (hc : c.In 0 (k * sr.val)) (hb : FBdd sr G M s) : FBdd sr G M (setCutoff c s) := by
  obtain ⟨h1, h2⟩ := angle_in hs hc hk h
  rw [← hb.rate] at h1 h2
  have h3 : (lit 2 * Conv.conv (PI : F32) * Conv.conv c / Conv.conv s.sampleRate : F64).In 0 3.15 :=
    h1.mono le_rfl (by rcases hG with h | h <;> norm_num at * <;> linarith)
  obtain ⟨g1, g2, g3⟩ := gain_of h3 h2
  refine ⟨hb.rate, g1, ?_, h3.mono le_rfl (by norm_num), hb.gRes, hb.gComp, hb.drive, hb.s1, hb.s2, hb.s3, hb.s4, hb.d0, hb.d1,
    hb.d2, hb.d3⟩
  rcases hG with h | h
  · exact (g2 (h1.2.2.trans h.1)).trans h.2
  · exact g3.trans h.2

theorem gRes_mag [Libm F64] [Libm64Spec] {r : F32} {wc : F64} (hr : r ≠ nan) (h8 : wc.In 0 8) :
    (Conv.conv (clamp01 r) * (lit 1.0029 + lit 0.0526 * wc - lit 0.926 * Libm.pow wc (lit (2:ℕ))
      + lit 0.0218 * Libm.pow wc (lit (3:ℕ))) : F64).Mag 17 := by
  have hc := clamp01_range hr
  have hc' := conv_up hc.1
  have hc2 : (Conv.conv (clamp01 r) : F64).Mag 0 :=
    ⟨hc'.1, by rw [hc'.val_eq]; norm_num; linarith [hc.2.1], by rw [hc'.val_eq]; norm_num; linarith [hc.2.2]⟩
  have hwm : wc.Mag 13 := h8.mono (by norm_num) (by norm_num)
  have pw : ∀ n : ℕ, n = 2 ∨ n = 3 ∨ n = 4 → (Libm.pow wc (lit n)).Mag 13 := fun n hn =>
    (Libm64Spec.pow_moderate wc n h8 hn).mono (by norm_num) le_rfl
  have l : ∀ q : ℚ, (lit q : F64).Mag 1 → ∀ x : F64, x.Mag 13 → (lit q * x).Mag 14 := fun q hq x hx => hq.mul hx
  have l1 : (lit 1.0029 : F64).Mag 14 := by decide +kernel
  have a := l1.add (l 0.0526 (by decide +kernel) _ hwm)
  have b := a.sub ((l 0.926 (by decide +kernel) _ (pw 2 (by simp))).up 15)
  have d := b.add ((l 0.0218 (by decide +kernel) _ (pw 3 (by simp))).up 16)
  exact hc2.mul d

theorem setResonance_fbdd [Libm F64] [Libm64Spec] {sr : F32} {G : ℚ} {M : ℕ → ℚ} (r : F32) (s : Ladder F32 F64) (hr : r ≠ nan)
    (hb : FBdd sr G M s) : FBdd sr G M (setResonance r s) :=
  ⟨hb.rate, hb.g, hb.g1, hb.wc, gRes_mag hr hb.wc, hb.gComp, hb.drive, hb.s1, hb.s2, hb.s3, hb.s4, hb.d0, hb.d1, hb.d2, hb.d3⟩

theorem reset_fbdd {sr : F32} {G : ℚ} {M : ℕ → ℚ} (L : Levels G M) (s : Ladder F32 F64) (hb : FBdd sr G M s) : FBdd sr G M (reset s) := by
  have z : ∀ i, i ≤ 4 → (lit 0 : F64).In (-M i) (M i) := fun i hi =>
    lit_zero.mono (by linarith [(L.le i hi).1]) (L.le i hi).1
  exact ⟨hb.rate, hb.g, hb.g1, hb.wc, hb.gRes, hb.gComp, hb.drive, z 1 (by omega), z 2 (by omega), z 3 (by omega), z 4 (by omega),
    z 0 (by omega), z 1 (by omega), z 2 (by omega), z 3 (by omega)⟩

theorem init_fbdd [Libm F64] [Libm64Spec] [Pow64Acc] {sr : F32} {G k K : ℚ} {M : ℕ → ℚ} (L : Levels G M) (hs : sr.In 100 (2 ^ 20))
    (hk : k ≤ 1 / 2) (h : 6.2832 * k + 1 / 2 ^ 40 ≤ K) (hG : K ≤ 1.89 ∧ 1 ≤ G ∨ K ≤ 3.15 ∧ 7 / 6 ≤ G) (h1000 : 1000 ≤ k * sr.val)
    (s0 : Ladder F32 F64) : FBdd sr G M (init sr s0) := by
  have z : ∀ i, i ≤ 4 → (lit 0 : F64).In (-M i) (M i) := fun i hi =>
    lit_zero.mono (by linarith [(L.le i hi).1]) (L.le i hi).1
  have c1 : (lit 1000 : F32).In 1000 1000 := by decide +kernel
  have h01 : (lit 0.1 : F32) ≠ nan := by decide +kernel
  have hG0 : 0 ≤ G := by rcases hG with h | h <;> linarith
  refine setResonance_fbdd _ _ h01 (setCutoff_fbdd hs hk h hG _ _ (c1.mono (by norm_num) h1000) ?_)
  exact ⟨rfl, ⟨lit_zero.1, Or.inl lit_zero.val_eq, by rw [lit_zero.val_eq]; norm_num⟩, by rw [lit_zero.val_eq]; exact hG0,
    lit_zero.mono le_rfl (by norm_num), lit_zero.mono (by norm_num) (by norm_num), lit_one, lit_one, z 1 (by omega), z 2 (by omega),
    z 3 (by omega), z 4 (by omega), z 0 (by omega), z 1 (by omega), z 2 (by omega), z 3 (by omega)⟩

theorem play_fbdd [Libm F64] [Libm64Spec] [Pow64Acc] {sr : F32} {G k K : ℚ} {M : ℕ → ℚ} (L : Levels G M) (hs : sr.In 100 (2 ^ 20))
    (hk : k ≤ 1 / 2) (h : 6.2832 * k + 1 / 2 ^ 40 ≤ K) (hG : K ≤ 1.89 ∧ 1 ≤ G ∨ K ≤ 3.15 ∧ 7 / 6 ≤ G) (h1000 : 1000 ≤ k * sr.val)
    (s0 : Ladder F32 F64) (l : List (LadderCall F32)) (hl : ∀ a ∈ l, Fair sr k a) :
    ∀ y ∈ api.play (init sr s0) l, ∃ z : F64, z.In (-M 4) (M 4) ∧ y = Conv.conv z :=
  LadderApi.play_all api (FBdd sr G M) (Fair sr k) (fun y => ∃ z : F64, z.In (-M 4) (M 4) ∧ y = Conv.conv z)
    (fun c s hc hb => setCutoff_fbdd hs hk h hG c s hc hb) (fun r s hr hb => setResonance_fbdd r s hr hb)
    (fun s hb => reset_fbdd L s hb) (fun s x hx hb => tick_fbdd L s x hx hb) l hl _ (init_fbdd L hs hk h hG h1000 s0)

/-- Levels for coefficients up to 1: hardly more than 1. -/
def calm (i : ℕ) : ℚ := 1 + i / 2 ^ 40

theorem calm_levels : Levels 1 calm := by
  refine ⟨by simp [calm], fun i hi => ?_, fun i hi => ?_, fun i hi g g0 g1 => ?_⟩
  · have : (i:ℚ) ≤ 4 := by exact_mod_cast hi
    have : (0:ℚ) ≤ i := by positivity
    unfold calm
    constructor
    · positivity
    · linarith
  · interval_cases i <;> decide +kernel
  · rw [abs_of_nonneg (by linarith)]
    have e : calm (i + 1) = calm i + 1 / 2 ^ 40 := by unfold calm; push_cast; ring
    rw [e]
    have : (1:ℚ) / 2 ^ 45 ≤ 1 / 2 ^ 40 := by norm_num
    nlinarith

/-- Levels for coefficients up to 7/6: each stage may be 45/32 of the one before. -/
def wild (i : ℕ) : ℚ := (45 / 32) ^ i

theorem wild_levels : Levels (7 / 6) wild := by
  refine ⟨by simp [wild], fun i hi => ?_, fun i hi => ?_, fun i hi g g0 g1 => ?_⟩
  · interval_cases i <;> norm_num [wild]
  · interval_cases i <;> decide +kernel
  · have h1 : (1:ℚ) ≤ wild i := by unfold wild; exact one_le_pow₀ (by norm_num)
    have e : wild (i + 1) = 45 / 32 * wild i := by unfold wild; rw [pow_succ]; ring
    rw [e]
    rcases le_total g 1 with h | h
    · rw [abs_of_nonneg (by linarith)]; norm_num; nlinarith
    · rw [abs_of_nonpos (by linarith)]; norm_num; nlinarith

/-- A double hardly beyond 1 becomes a float of at most 1. -/
theorem conv_calm {z : F64} (h : z.In (-calm 4) (calm 4)) : (Conv.conv z : F32).In (-1) 1 := by
  obtain ⟨v, nz, hv, rfl⟩ := isFin_cases h.1
  have R : binary32.Rep 2 false := by decide +kernel
  have c2 : calm 4 ≤ 2 := by norm_num [calm]
  have l2 : -2 ≤ v := le_trans (by linarith) h.2.1
  have u2 : v ≤ 2 := le_trans h.2.2 c2
  have hin := ofRat_in (f := binary32) (zs := nz) (Rep.neg R) R l2 u2
  have hval := ofRat_val (f := binary32) (zs := nz) (Rep.neg R) R l2 u2
  have r1 : binary32.rnd (calm 4) = 1 := by decide +kernel
  have r2 : binary32.rnd (-calm 4) = -1 := by decide +kernel
  have m1 := binary32.rnd_mono (K := ℚ) h.2.2
  have m2 := binary32.rnd_mono (K := ℚ) h.2.1
  rw [r1] at m1
  rw [r2] at m2
  exact ⟨hin.1, by rw [show (Conv.conv (FP.fin v nz hv : F64) : F32).val = _ from hval]; exact m2,
    by rw [show (Conv.conv (FP.fin v nz hv : F64) : F32).val = _ from hval]; exact m1⟩

/-- **C97, dark settings**: in the program's own arithmetic, with the cutoff kept between 0 and 0.3 of the sample rate, no output sample of
the Krajeski ladder exceeds 1 - whatever finite samples are fed in, whatever the resonances, cutoff changes and resets, for however long. -/
theorem C97_dark [Libm F64] [Libm64Spec] [Pow64Acc] (sr : F32) (hs : sr.In 3334 (2 ^ 20)) (s0 : Ladder F32 F64)
    (l : List (LadderCall F32)) (hl : ∀ a ∈ l, Fair sr 0.3 a) : ∀ y ∈ api.play (init sr s0) l, y.In (-1) 1 := by
  intro y hy
  obtain ⟨z, hz, rfl⟩ := play_fbdd (K := 1.89) calm_levels (hs.mono (by norm_num) le_rfl) (by norm_num) (by norm_num)
    (Or.inl ⟨le_rfl, le_rfl⟩) (by have := hs.2.1; norm_num; linarith) s0 l hl y hy
  exact conv_calm hz

/-- **C97, all settings**: with cutoffs up to the Nyquist frequency none exceeds 3.92. -/
theorem C97_bright [Libm F64] [Libm64Spec] [Pow64Acc] (sr : F32) (hs : sr.In 2000 (2 ^ 20)) (s0 : Ladder F32 F64)
    (l : List (LadderCall F32)) (hl : ∀ a ∈ l, Fair sr (1 / 2) a) : ∀ y ∈ api.play (init sr s0) l, y.In (-3.92) 3.92 := by
  intro y hy
  obtain ⟨z, hz, rfl⟩ := play_fbdd (K := 3.15) wild_levels (hs.mono (by norm_num) le_rfl) (by norm_num) (by norm_num)
    (Or.inr ⟨le_rfl, le_rfl⟩) (by have := hs.2.1; norm_num; linarith) s0 l hl y hy
  obtain ⟨v, nz, hv, rfl⟩ := isFin_cases hz.1
  have R : binary32.Rep (wild 4) false := by decide +kernel
  have : (Conv.conv (FP.fin v nz hv : F64) : F32).In (-wild 4) (wild 4) := ofRat_in (Rep.neg R) R hz.2.1 hz.2.2
  exact this.mono (by norm_num [wild]) (by norm_num [wild])

/-- Non-trivial case: a huge sample, full resonance, a cutoff of 12 kHz and one of 0 Hz, at 48 kHz, with a correctly rounded libm. -/
example (s0 : Ladder F32 F64) (n : ℕ) : letI := idealLibm64
    ∀ y ∈ api.play (init (lit 48000) s0) ([.setCutoff (lit 12000), .setResonance (lit 1), .tick (lit 1e38), .tick (lit (-1e38)), .setCutoff (lit 0)]
      ++ List.replicate n (.tick (lit 0.7)) ++ [.reset, .tick (lit 1)]), y.In (-1) 1 := by
  let _ := idealLibm64
  have := idealLibm64_spec
  have := idealLibm64_pow
  refine C97_dark (lit 48000) (by decide +kernel) s0 _ (fun a ha => ?_)
  simp only [List.mem_append, List.mem_cons, List.not_mem_nil, or_false, List.mem_replicate] at ha
  rcases ha with ((rfl | rfl | rfl | rfl | rfl) | ⟨-, rfl⟩) | (rfl | rfl) <;> decide +kernel

/-- Non-trivial case: the Nyquist frequency itself. -/
example (s0 : Ladder F32 F64) : letI := idealLibm64
    ∀ y ∈ api.play (init (lit 44100) s0) [.setCutoff (lit 22050), .tick (lit 3), .tick (lit (-3)), .tick (lit 3)], y.In (-3.92) 3.92 := by
  let _ := idealLibm64
  have := idealLibm64_spec
  have := idealLibm64_pow
  refine C97_bright (lit 44100) (by decide +kernel) s0 _ (fun a ha => ?_)
  simp only [List.mem_cons, List.not_mem_nil, or_false] at ha
  rcases ha with rfl | rfl | rfl | rfl <;> decide +kernel

end Krajeski
end Verif
