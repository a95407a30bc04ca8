import Verif.Props.ImprovedFloat

/-!
# C98: the Runge-Kutta ladder is bounded in the arithmetic it is computed in

C51 bounds it in ideal arithmetic, where the saturator never exceeds 2.  With roundings it can exceed 2 by a few units in the last place,
so a saturated stage may still be pushed outwards; but the push is smaller than half a unit in the last place of the level 32, where the
addition absorbs it.
-/

namespace Verif
open FP
namespace RKSimulation

/-- A multiple of a single-precision number by a small dyadic fraction is a double-precision number. -/
theorem rep_scale {v : ℚ} (h : binary32.Rep v false) (n : ℕ) (k : ℕ) (hn : n < 2 ^ 29) (hk : k ≤ 900) : binary64.Rep (n * v / 2 ^ k) false := by
  obtain ⟨⟨m, e, hm, he, hv⟩, h2, -⟩ := h
  refine ⟨⟨n * m, e - k, ?_, ?_, ?_⟩, ?_, by simp⟩
  · have h24 : |m| < 2 ^ 24 := hm
    have hn' : (n:ℤ) < 2 ^ 29 := by exact_mod_cast hn
    rw [abs_mul, abs_of_nonneg (by positivity : (0:ℤ) ≤ n)]
    show (n:ℤ) * |m| < 2 ^ 53
    have := abs_nonneg m
    nlinarith
  · have : (-149:ℤ) ≤ e := he
    show (-1074:ℤ) ≤ e - k
    omega
  · rw [hv, zpow_sub₀ (by norm_num)]
    push_cast
    rw [zpow_natCast]
    ring
  · have hp : (1:ℚ) ≤ 2 ^ k := one_le_pow₀ (by norm_num)
    have hn' : (n:ℚ) ≤ 2 ^ 29 := by exact_mod_cast hn.le
    rw [abs_div, abs_mul, abs_of_nonneg (by positivity : (0:ℚ) ≤ n), abs_of_pos (by positivity : (0:ℚ) < 2 ^ k)]
    have h128 : |v| < 2 ^ (128:ℤ) := h2
    calc n * |v| / 2 ^ k ≤ n * |v| := div_le_self (by positivity) hp
      _ ≤ 2 ^ 29 * |v| := mul_le_mul_of_nonneg_right hn' (abs_nonneg _)
      _ < 2 ^ (157:ℤ) := by norm_num at *; linarith
      _ ≤ 2 ^ (1024:ℤ) := zpow_le_zpow_right₀ (by norm_num) (by norm_num)

/-! ### The saturator -/

/-- How far above 2 the computed saturator can reach. -/
abbrev over : ℚ := 9 / 2 ^ 53

/-- The cubic with roundings. -/
theorem cubic_near {v : F64} (hv : v.In (-1) 1) :
    (lit 3 * (v - lit 1 / lit 3 * v * v * v) : F64).In (-(2 + over)) (2 + over) := by
  have hA : (lit 1 / lit 3 : F64).isFin = true ∧ |(lit 1 / lit 3 : F64).val - 1 / 3| ≤ 1 / 3 / 2 ^ 53 := by decide +kernel
  have l3 : (lit 3 : F64).In 3 3 := by decide +kernel
  generalize (lit 1 / lit 3 : F64) = A at *
  have v1 := abs_le.2 hv.2
  have A1 : |A.val| ≤ 1 / 3 + 1 / 3 / 2 ^ 53 := Krajeski.abs_near hA.2 (by norm_num)
  have small : ∀ {a b : ℚ} {c : ℚ}, |a| ≤ c → |b| ≤ 1 → |a * b| ≤ c := fun {a b c} ha hb => by
    rw [abs_mul]
    calc |a| * |b| ≤ |a| * 1 := mul_le_mul_of_nonneg_left hb (abs_nonneg _)
      _ ≤ c := by rw [mul_one]; exact ha
  have q1 := small A1 v1
  obtain ⟨f1, e1⟩ := mul64 hA.1 hv.1 (q1.trans (by norm_num))
  have r1 : |(A * v).val - 1 / 3 * v.val| ≤ 0.67 / 2 ^ 53 := by
    have e : (A * v).val - 1 / 3 * v.val = ((A * v).val - A.val * v.val) + (A.val - 1 / 3) * v.val := by ring
    rw [e]
    refine (abs_add_le _ _).trans ?_
    have := small hA.2 v1
    norm_num at *
    linarith
  have a1 : |(A * v).val| ≤ 1 / 3 + 0.67 / 2 ^ 53 := Krajeski.abs_near r1 (small (by norm_num) v1)
  have q2 := small a1 v1
  obtain ⟨f2, e2⟩ := mul64 f1 hv.1 (q2.trans (by norm_num))
  have r2 : |(A * v * v).val - 1 / 3 * v.val * v.val| ≤ 1.01 / 2 ^ 53 := by
    have e : (A * v * v).val - 1 / 3 * v.val * v.val = ((A * v * v).val - (A * v).val * v.val) + ((A * v).val - 1 / 3 * v.val) * v.val := by ring
    rw [e]
    refine (abs_add_le _ _).trans ?_
    have := small r1 v1
    norm_num at *
    linarith
  have a2 : |(A * v * v).val| ≤ 1 / 3 + 1.01 / 2 ^ 53 := Krajeski.abs_near r2 (small (small (by norm_num) v1) v1)
  have q3 := small a2 v1
  obtain ⟨f3, e3⟩ := mul64 f2 hv.1 (q3.trans (by norm_num))
  have r3 : |(A * v * v * v).val - 1 / 3 * v.val * v.val * v.val| ≤ 1.35 / 2 ^ 53 := by
    have e : (A * v * v * v).val - 1 / 3 * v.val * v.val * v.val
        = ((A * v * v * v).val - (A * v * v).val * v.val) + ((A * v * v).val - 1 / 3 * v.val * v.val) * v.val := by ring
    rw [e]
    refine (abs_add_le _ _).trans ?_
    have := small r2 v1
    norm_num at *
    linarith
  generalize A * v * v * v = p at *
  have hf : |v.val - 1 / 3 * v.val * v.val * v.val| ≤ 2 / 3 := by
    obtain ⟨l, u⟩ := hv.2
    rw [abs_le]
    constructor
    · nlinarith [mul_nonneg (mul_self_nonneg (v.val + 1)) (by linarith : 0 ≤ 2 - v.val)]
    · nlinarith [mul_nonneg (mul_self_nonneg (v.val - 1)) (by linarith : 0 ≤ 2 + v.val)]
  have d0 : |(v.val - p.val) - (v.val - 1 / 3 * v.val * v.val * v.val)| ≤ 1.35 / 2 ^ 53 := by
    rw [show (v.val - p.val) - (v.val - 1 / 3 * v.val * v.val * v.val) = -(p.val - 1 / 3 * v.val * v.val * v.val) by ring, abs_neg]
    exact r3
  have d1 := Krajeski.abs_near d0 hf
  obtain ⟨f4, e4⟩ := sub64 hv.1 f3 (d1.trans (by norm_num))
  have d2 : |(v - p).val| ≤ 2 / 3 + 2.03 / 2 ^ 53 := (Krajeski.abs_near e4 d1).trans (by norm_num at *; linarith)
  have d3 : |(lit 3 : F64).val * (v - p).val| ≤ 2 + 6.09 / 2 ^ 53 := by
    rw [l3.val_eq, abs_mul]; norm_num at *; linarith
  obtain ⟨f5, e5⟩ := mul64 l3.1 f4 (d3.trans (by norm_num))
  have d4 := Krajeski.abs_near e5 d3
  refine ⟨f5, abs_le.1 (d4.trans ?_)⟩
  norm_num [over] at *
  linarith

/-- The argument of the saturator after scaling. -/
theorem scaled {y : F64} (hy : y.Mag 300) : (y * (lit 1 / lit 3) : F64).isFin = true ∧
    (3.01 ≤ y.val → 1 < (y * (lit 1 / lit 3) : F64).val) ∧ (y.val ≤ -3.01 → (y * (lit 1 / lit 3) : F64).val < -1) := by
  have hA : (lit 1 / lit 3 : F64).In 0.33333 0.33334 := by decide +kernel
  generalize (lit 1 / lit 3 : F64) = A at *
  have hm : (y * A : F64).Mag 300 := by
    have : A.Mag 0 := hA.mono (by norm_num) (by norm_num)
    exact hy.mul this
  have R300 : binary64.Rep (2 ^ 300) false := rep64_two_pow (by norm_num)
  have A1 := hA.2.1
  have A2 := hA.2.2
  norm_num at A1 A2
  have y1 := hy.2.1
  have y2 := hy.2.2
  have p300 : (0:ℚ) < 2 ^ 300 := by positivity
  have R : binary64.Rep (1 + 1 / 512) false := by decide +kernel
  refine ⟨hm.1, fun h => ?_, fun h => ?_⟩
  · have lo : 1 + 1 / 512 ≤ y.val * A.val := by clear y1 y2 p300 R300; norm_num at h ⊢; nlinarith
    have hp : y.val * A.val ≤ 2 ^ 300 := by
      generalize (2:ℚ) ^ 300 = B at *
      norm_num at h
      nlinarith
    exact lt_of_lt_of_le (by norm_num) (mul_in hy.1 hA.1 R R300 lo hp).2.1
  · have lo : y.val * A.val ≤ -(1 + 1 / 512) := by clear y1 y2 p300 R300; norm_num at h ⊢; nlinarith
    have hp : -2 ^ 300 ≤ y.val * A.val := by
      generalize (2:ℚ) ^ 300 = B at *
      norm_num at h
      nlinarith
    exact lt_of_le_of_lt (mul_in hy.1 hA.1 (Rep.neg R300) (Rep.neg R) hp lo).2.2 (by norm_num)

/-- The saturator: at most a few last places above 2, and exactly 2 on inputs beyond 3.01. -/
theorem clip_in {s : Ladder F32 F64} (h1 : s.saturation = lit 3) (h2 : s.saturationInv = lit 1 / lit 3) {y : F64} (hy : y.Mag 300) :
    (clip s y).In (-(2 + over)) (2 + over) ∧ (3.01 ≤ y.val → (clip s y).val = 2) ∧ (y.val ≤ -3.01 → (clip s y).val = -2) := by
  obtain ⟨hm, hi, lo⟩ := scaled hy
  unfold clip
  rw [h1, h2]
  generalize (y * (lit 1 / lit 3) : F64) = t at *
  have n1 : (-lit 1 : F64).In (-1) (-1) := by decide +kernel
  have c1 : (t >. lit 1) = decide ((lit 1 : F64).val < t.val) := lt_fin lit_one.1 hm
  have c2 : (t <. -lit 1) = decide (t.val < (-lit 1 : F64).val) := lt_fin hm n1.1
  rw [lit_one.val_eq] at c1
  rw [n1.val_eq] at c2
  have p2 : (lit 3 * (lit 1 - lit 1 / lit 3 * lit 1 * lit 1 * lit 1) : F64).In 2 2 := by decide +kernel
  have m2 : (lit 3 * (-lit 1 - lit 1 / lit 3 * -lit 1 * -lit 1 * -lit 1) : F64).In (-2) (-2) := by decide +kernel
  have o : (0:ℚ) ≤ over := by norm_num [over]
  simp only [c1, c2, decide_eq_true_eq]
  by_cases g1 : 1 < t.val
  · rw [if_pos g1]
    exact ⟨p2.mono (by linarith) (by linarith), fun _ => p2.val_eq, fun h => by have := lo h; linarith⟩
  · rw [if_neg g1]
    by_cases g2 : t.val < -1
    · rw [if_pos g2]
      exact ⟨m2.mono (by linarith) (by linarith), fun h => by have := hi h; linarith, fun _ => m2.val_eq⟩
    · rw [if_neg g2]
      push Not at g1 g2
      exact ⟨cubic_near ⟨hm, g2, g1⟩, fun h => absurd (hi h) (not_lt.2 g1), fun h => absurd (lo h) (not_lt.2 g2)⟩

/-! ### The slopes -/

/-- What is known of a slope taken at the point `y`: bounded, and hardly outwards if the point is saturated. -/
structure Slope (sr : ℚ) (y d : F64) : Prop where
  size : d.In (-(12.625 * sr)) (12.625 * sr)
  up : 3.01 ≤ y.val → d.val ≤ 15 * sr / 2 ^ 52
  down : y.val ≤ -3.01 → -(15 * sr / 2 ^ 52) ≤ d.val

theorem slope_of {sr : F32} {w a c y : F64} (hs : 0 < sr.val) (hw : w.In 0 (3.15 * sr.val)) (ha : a.In (-(2 + over)) (2 + over))
    (hc : c.In (-(2 + over)) (2 + over)) (h1 : 3.01 ≤ y.val → c.val = 2) (h2 : y.val ≤ -3.01 → c.val = -2) :
    Slope sr.val y (w * (a - c)) := by
  have R4 : binary64.Rep (1025 / 256) false := by decide +kernel
  have hac : (a - c).In (-(1025 / 256)) (1025 / 256) := sub_in ha hc (Rep.neg R4) R4 (by norm_num [over]) (by norm_num [over])
  have RD : binary64.Rep (12.625 * sr.val) false := by
    have := rep_scale (rep_val sr) 101 3 (by norm_num) (by norm_num)
    have e : 12.625 * sr.val = ((101:ℕ) : ℚ) * sr.val / 2 ^ 3 := by push_cast; ring
    rw [e]; exact this
  have RU : binary64.Rep (15 * sr.val / 2 ^ 52) false := by
    have := rep_scale (rep_val sr) 15 52 (by norm_num) (by norm_num)
    push_cast at this
    exact this
  have w0 := hw.2.1
  have w1 := hw.2.2
  have l : -(12.625 * sr.val) ≤ w.val * (a - c).val := by have := hac.2.1; norm_num at *; nlinarith
  have u : w.val * (a - c).val ≤ 12.625 * sr.val := by have := hac.2.2; norm_num at *; nlinarith
  have RO : binary64.Rep over false := by decide +kernel
  refine ⟨mul_in hw.1 hac.1 (Rep.neg RD) RD l u, fun h => ?_, fun h => ?_⟩
  · have hac' : (a - c).In (-(1025 / 256)) over :=
      sub_in ha (in_val hc.1) (Rep.neg R4) RO (by rw [h1 h]; norm_num [over]) (by rw [h1 h]; norm_num [over])
    refine (mul_in hw.1 hac.1 (Rep.neg RD) RU l ?_).2.2
    have h3 := mul_le_mul_of_nonneg_left hac'.2.2 w0
    refine h3.trans ?_
    norm_num [over] at *; linarith
  · have hac' : (a - c).In (-over) (1025 / 256) :=
      sub_in ha (in_val hc.1) (Rep.neg RO) R4 (by rw [h2 h]; norm_num [over]) (by rw [h2 h]; norm_num [over])
    refine (mul_in hw.1 hac.1 (Rep.neg RU) RD ?_ u).2.1
    have h3 := mul_le_mul_of_nonneg_left hac'.2.1 w0
    refine le_trans ?_ h3
    norm_num [over] at *; linarith

/-- The step size. -/
structure Step (sr : ℚ) (h : F64) : Prop where
  fin : h.isFin = true
  nonneg : 0 ≤ h.val
  le : h.val * sr ≤ 1 + 1 / 2 ^ 50

/-- A point reached along a slope. -/
theorem point_near {sr : ℚ} {x h d : F64} (hh : h.isFin = true) (h0 : 0 ≤ h.val) (h1 : h.val * sr ≤ 1 + 1 / 2 ^ 40)
    (hx : x.In (-32) 32) (hd : d.In (-(12.625 * sr)) (12.625 * sr)) : (x + h * d).In (x.val - 12.65) (x.val + 12.65) ∧ (x + h * d).In (-64) 64 := by
  have b : |h.val * d.val| ≤ 12.63 := by
    have := abs_le.2 hd.2
    rw [abs_mul, abs_of_nonneg h0]
    calc h.val * |d.val| ≤ h.val * (12.625 * sr) := mul_le_mul_of_nonneg_left this h0
      _ = 12.625 * (h.val * sr) := by ring
      _ ≤ 12.63 := by norm_num at *; linarith
  obtain ⟨f1, e1⟩ := mul64 hh hd.1 (b.trans (by norm_num))
  have b1 := Krajeski.abs_near e1 b
  have hx1 := abs_le.2 hx.2
  have b2 : |x.val + (h * d).val| ≤ 45 := (abs_add_le _ _).trans (by norm_num at *; linarith)
  obtain ⟨f2, e2⟩ := add64 hx.1 f1 (b2.trans (by norm_num))
  have e3 := abs_le.1 (e2.trans (show _ ≤ (1:ℚ) / 2 ^ 40 by linarith))
  have b3 := abs_le.1 b1
  have x1 := hx.2.1
  have x2 := hx.2.2
  have b4 := abs_le.1 b
  refine ⟨⟨f2, ?_, ?_⟩, ⟨f2, ?_, ?_⟩⟩ <;> norm_num at * <;> linarith

/-- One coordinate of a computed Runge-Kutta step. -/
theorem coord_fbdd {sr : F32} (hs : sr.In 1 (2 ^ 24)) {x h d1 d2 d3 d4 y2 y3 y4 : F64} (hh : Step sr.val h) (hx : x.In (-32) 32)
    (h1 : Slope sr.val x d1) (h2 : Slope sr.val y2 d2) (h3 : Slope sr.val y3 d3) (h4 : Slope sr.val y4 d4)
    (n2 : y2.In (x.val - 12.65) (x.val + 12.65)) (n3 : y3.In (x.val - 12.65) (x.val + 12.65)) (n4 : y4.In (x.val - 12.65) (x.val + 12.65)) :
    (x + lit 1 / lit 6 * h * (d1 + lit 2 * d2 + lit 2 * d3 + d4)).In (-32) 32 := by
  have A : (lit 1 / lit 6 : F64).In 0 (1 / 6) := by decide +kernel
  generalize (lit 1 / lit 6 : F64) = A6 at *
  have l2 : (lit 2 : F64).In 2 2 := by decide +kernel
  generalize (lit 2 : F64) = L at *
  have s1 := hs.2.1
  have s2 := hs.2.2
  have s0 : 0 < sr.val := by linarith
  -- the weighted sum, between representable bounds
  have sum : ∀ (n k : ℕ) (m j : ℕ), 6 * n < 2 ^ 29 → k ≤ 900 → 6 * m < 2 ^ 29 → j ≤ 900 →
      (∀ d : F64, d = d1 ∨ d = d2 ∨ d = d3 ∨ d = d4 → d.In (-(n * sr.val / 2 ^ k)) (m * sr.val / 2 ^ j)) →
      (d1 + L * d2 + L * d3 + d4).In (-(6 * n * sr.val / 2 ^ k)) (6 * m * sr.val / 2 ^ j) := by
    intro n k m j hn hk hm hj hd
    have R : ∀ i : ℕ, i ≤ 6 → binary64.Rep (-(i * n * sr.val / 2 ^ k)) false ∧ binary64.Rep (i * m * sr.val / 2 ^ j) false := by
      intro i hi
      have a := rep_scale (rep_val sr) (i * n) k (by nlinarith) hk
      have b := rep_scale (rep_val sr) (i * m) j (by nlinarith) hj
      push_cast at a b
      exact ⟨Rep.neg a, b⟩
    have g1 := hd d1 (by simp)
    have g2 := hd d2 (by simp)
    have g3 := hd d3 (by simp)
    have g4 := hd d4 (by simp)
    have two : ∀ d : F64, d.In (-(n * sr.val / 2 ^ k)) (m * sr.val / 2 ^ j) → (L * d).In (-(((2:ℕ):ℚ) * n * sr.val / 2 ^ k)) (((2:ℕ):ℚ) * m * sr.val / 2 ^ j) := by
      intro d hd
      refine mul_in l2.1 hd.1 (R 2 (by norm_num)).1 (R 2 (by norm_num)).2 ?_ ?_ <;> rw [l2.val_eq]
      · have e : -(((2:ℕ):ℚ) * n * sr.val / 2 ^ k) = 2 * (-(n * sr.val / 2 ^ k)) := by push_cast; ring
        rw [e]; linarith [hd.2.1]
      · have e : (((2:ℕ):ℚ) * m * sr.val / 2 ^ j) = 2 * (m * sr.val / 2 ^ j) := by push_cast; ring
        rw [e]; linarith [hd.2.2]
    have t1 := add_in g1 (two _ g2) (R 3 (by norm_num)).1 (R 3 (by norm_num)).2 (by push_cast; apply le_of_eq; ring) (by push_cast; apply le_of_eq; ring)
    have t2 := add_in t1 (two _ g3) (R 5 (by norm_num)).1 (R 5 (by norm_num)).2 (by push_cast; apply le_of_eq; ring) (by push_cast; apply le_of_eq; ring)
    have t3 := add_in t2 g4 (R 6 (by norm_num)).1 (R 6 (by norm_num)).2 (by push_cast; apply le_of_eq; ring) (by push_cast; apply le_of_eq; ring)
    exact_mod_cast t3
  have e8 : 12.625 * sr.val = ((101:ℕ):ℚ) * sr.val / 2 ^ 3 := by push_cast; ring
  have e52 : 15 * sr.val / 2 ^ 52 = ((15:ℕ):ℚ) * sr.val / 2 ^ 52 := by push_cast; ring
  have all : (d1 + L * d2 + L * d3 + d4).In (-(75.75 * sr.val)) (75.75 * sr.val) := by
    have := sum 101 3 101 3 (by norm_num) (by norm_num) (by norm_num) (by norm_num) (by
      rintro d (rfl | rfl | rfl | rfl)
      · rw [← e8]; exact h1.size
      · rw [← e8]; exact h2.size
      · rw [← e8]; exact h3.size
      · rw [← e8]; exact h4.size)
    have e : (6 * ((101:ℕ):ℚ) * sr.val / 2 ^ 3) = 75.75 * sr.val := by push_cast; ring
    rw [e] at this; exact this
  -- the factor
  have a0 : 0 ≤ A6.val * h.val := mul_nonneg A.2.1 hh.nonneg
  have h2' : h.val ≤ 2 := by have := hh.le; have := hh.nonneg; norm_num at *; nlinarith
  have a1 : A6.val * h.val ≤ 1 / 6 * h.val := mul_le_mul_of_nonneg_right A.2.2 hh.nonneg
  obtain ⟨f1, e1⟩ := mul64 A.1 hh.fin (by rw [abs_of_nonneg a0]; norm_num at *; linarith)
  have R1 : binary64.Rep (2 ^ 10) false := rep64_two_pow (by norm_num)
  have k0 : 0 ≤ (A6 * h).val := (mul_in A.1 hh.fin rep_zero R1 a0 (by norm_num at *; linarith)).2.1
  have k1 : (A6 * h).val * sr.val ≤ 1 / 6 + 1 / 2 ^ 50 := by
    rw [abs_of_nonneg a0] at e1
    have e2 := (abs_le.1 e1).2
    have e3 : (A6 * h).val ≤ (1 / 6 + 1 / 6 / 2 ^ 53) * h.val + 1 / 2 ^ 250 := by linarith
    have e4 := mul_le_mul_of_nonneg_right e3 s0.le
    have e5 := hh.le
    refine e4.trans ?_
    have e6 : ((1 / 6 + 1 / 6 / 2 ^ 53) * h.val + 1 / 2 ^ 250) * sr.val = (1 / 6 + 1 / 6 / 2 ^ 53) * (h.val * sr.val) + 1 / 2 ^ 250 * sr.val := by ring
    rw [e6]
    norm_num at *
    linarith
  generalize A6 * h = B at *
  have x1 := hx.2.1
  have x2 := hx.2.2
  have R32 : binary64.Rep 32 false := by decide +kernel
  have R13 : binary64.Rep (12.65625) false := by decide +kernel
  have Rs : binary64.Rep (1 / 2 ^ 48) false := by decide +kernel
  have S1 := all.2.1
  have S2 := all.2.2
  have pl : -12.65625 ≤ B.val * (d1 + L * d2 + L * d3 + d4).val := by
    have := mul_le_mul_of_nonneg_left S1 k0
    norm_num at *; linarith
  have pu : B.val * (d1 + L * d2 + L * d3 + d4).val ≤ 12.65625 := by
    have := mul_le_mul_of_nonneg_left S2 k0
    norm_num at *; linarith
  have P := mul_in f1 all.1 (Rep.neg R13) R13 pl pu
  have P1 := P.2.1
  have P2 := P.2.2
  norm_num at P1 P2
  have R64 : binary64.Rep 64 false := by decide +kernel
  have far : (x + B * (d1 + L * d2 + L * d3 + d4)).In (-64) 64 := add_in hx P (Rep.neg R64) R64 (by norm_num) (by norm_num)
  obtain ⟨zs, es⟩ := add_def hx.1 P.1
  have ev : (x + B * (d1 + L * d2 + L * d3 + d4)).val = binary64.rnd (x.val + (B * (d1 + L * d2 + L * d3 + d4)).val) := by
    rw [es]; exact ofRat_val (Rep.neg R64) R64 (by linarith) (by linarith)
  have up : (B * (d1 + L * d2 + L * d3 + d4)).val ≤ 1 / 2 ^ 48 ∨ x.val ≤ 15.75 := by
    rcases le_or_gt x.val 15.75 with hb | hb
    · exact Or.inr hb
    · left
      have y2' := n2.2.1
      have y3' := n3.2.1
      have y4' := n4.2.1
      norm_num at hb y2' y3' y4'
      have S := sum 101 3 15 52 (by norm_num) (by norm_num) (by norm_num) (by norm_num) (by
        rintro d (rfl | rfl | rfl | rfl)
        · rw [← e8, ← e52]; exact ⟨h1.size.1, h1.size.2.1, h1.up (by norm_num; linarith)⟩
        · rw [← e8, ← e52]; exact ⟨h2.size.1, h2.size.2.1, h2.up (by norm_num; linarith)⟩
        · rw [← e8, ← e52]; exact ⟨h3.size.1, h3.size.2.1, h3.up (by norm_num; linarith)⟩
        · rw [← e8, ← e52]; exact ⟨h4.size.1, h4.size.2.1, h4.up (by norm_num; linarith)⟩)
      have S3 := S.2.2
      push_cast at S3
      have := mul_le_mul_of_nonneg_left S3 k0
      exact (mul_in f1 all.1 (Rep.neg R13) Rs pl (by norm_num at *; linarith)).2.2
  have down : -(1 / 2 ^ 48) ≤ (B * (d1 + L * d2 + L * d3 + d4)).val ∨ -15.75 ≤ x.val := by
    rcases le_or_gt (-15.75) x.val with hb | hb
    · exact Or.inr hb
    · left
      have y2' := n2.2.2
      have y3' := n3.2.2
      have y4' := n4.2.2
      norm_num at hb y2' y3' y4'
      have S := sum 15 52 101 3 (by norm_num) (by norm_num) (by norm_num) (by norm_num) (by
        rintro d (rfl | rfl | rfl | rfl)
        · rw [← e8, ← e52]; exact ⟨h1.size.1, h1.down (by norm_num; linarith), h1.size.2.2⟩
        · rw [← e8, ← e52]; exact ⟨h2.size.1, h2.down (by norm_num; linarith), h2.size.2.2⟩
        · rw [← e8, ← e52]; exact ⟨h3.size.1, h3.down (by norm_num; linarith), h3.size.2.2⟩
        · rw [← e8, ← e52]; exact ⟨h4.size.1, h4.down (by norm_num; linarith), h4.size.2.2⟩)
      have S3 := S.2.1
      push_cast at S3
      have := mul_le_mul_of_nonneg_left S3 k0
      exact (mul_in f1 all.1 (Rep.neg Rs) R13 (by norm_num at *; linarith) pu).2.1
  have edge : binary64.rnd (32 + 1 / 2 ^ 48 : ℚ) = 32 := by decide +kernel
  have edge' : binary64.rnd (-32 - 1 / 2 ^ 48 : ℚ) = -32 := by decide +kernel
  refine ⟨far.1, ?_, ?_⟩ <;> rw [ev]
  · rw [← edge']
    refine binary64.rnd_mono ?_
    rcases down with h | h <;> norm_num at * <;> linarith
  · rw [← edge]
    refine binary64.rnd_mono ?_
    rcases up with h | h <;> norm_num at * <;> linarith

/-! ### The whole ladder -/

/-- The invariant. -/
structure FBdd (sr : F32) (s : Ladder F32 F64) : Prop where
  rate : s.sampleRate = sr
  sat : s.saturation = lit 3
  satInv : s.saturationInv = lit 1 / lit 3
  w : s.cutoffCoeff.In 0 (3.15 * sr.val)
  h : Step sr.val s.stepSize
  res : s.resonance.In 0 1
  drive : s.drive.Mag 128
  makeup : s.makeupGain.In 0 5
  x0 : s.state.x0.In (-32) 32
  x1 : s.state.x1.In (-32) 32
  x2 : s.state.x2.In (-32) 32
  x3 : s.state.x3.In (-32) 32

/-- The slopes at a point. -/
theorem derivatives_slope {sr : F32} (hs : sr.In 1 (2 ^ 24)) {s : Ladder F32 F64} (b : FBdd sr s) {i : F64} (hi : i.Mag 128) {v : Vec F64}
    (v0 : v.x0.In (-64) 64) (v1 : v.x1.In (-64) 64) (v2 : v.x2.In (-64) 64) (v3 : v.x3.In (-64) 64) :
    Slope sr.val v.x0 (derivatives s i v).x0 ∧ Slope sr.val v.x1 (derivatives s i v).x1 ∧ Slope sr.val v.x2 (derivatives s i v).x2 ∧
    Slope sr.val v.x3 (derivatives s i v).x3 := by
  have s0 : 0 < sr.val := by linarith [hs.2.1]
  have up : ∀ z : F64, z.In (-64) 64 → z.Mag 300 := fun z hz =>
    (show z.Mag 6 from hz.mono (by norm_num) (by norm_num)).up 300
  have hres := conv_up b.res.1
  have hres' : (Conv.conv s.resonance : F64).Mag 0 :=
    ⟨hres.1, by rw [hres.val_eq]; norm_num; linarith [b.res.2.1], by rw [hres.val_eq]; norm_num; exact b.res.2.2⟩
  have l10 : (lit 10 : F64).Mag 4 := by decide +kernel
  have m3 : v.x3.Mag 6 := v3.mono (by norm_num) (by norm_num)
  have arg := ((hi.mul b.drive).sub (((hres'.mul l10).mul m3).up 256)).up 300
  have ca := clip_in b.sat b.satInv arg
  have c0 := clip_in b.sat b.satInv (up _ v0)
  have c1 := clip_in b.sat b.satInv (up _ v1)
  have c2 := clip_in b.sat b.satInv (up _ v2)
  have c3 := clip_in b.sat b.satInv (up _ v3)
  exact ⟨slope_of s0 b.w ca.1 c0.1 c0.2.1 c0.2.2, slope_of s0 b.w c0.1 c1.1 c1.2.1 c1.2.2, slope_of s0 b.w c1.1 c2.1 c2.2.1 c2.2.2,
    slope_of s0 b.w c2.1 c3.1 c3.2.1 c3.2.2⟩

theorem half_step {sr : F32} (hs : sr.In 1 (2 ^ 24)) {h : F64} (hh : Step sr.val h) :
    (lit 0.5 * h).isFin = true ∧ 0 ≤ (lit 0.5 * h).val ∧ (lit 0.5 * h).val * sr.val ≤ 1 + 1 / 2 ^ 40 := by
  have l5 : (lit 0.5 : F64).In (1 / 2) (1 / 2) := by decide +kernel
  have h0 := hh.nonneg
  have h1 : h.val ≤ 2 := by have := hh.le; have := hs.2.1; norm_num at *; nlinarith
  have a := mul_in l5.1 hh.fin rep_zero (rep_val h) (by rw [l5.val_eq]; linarith) (by rw [l5.val_eq]; linarith)
  refine ⟨a.1, a.2.1, ?_⟩
  have s0 : 0 ≤ sr.val := by linarith [hs.2.1]
  refine (mul_le_mul_of_nonneg_right a.2.2 s0).trans (hh.le.trans (by norm_num))

theorem solver_fbdd {sr : F32} (hs : sr.In 1 (2 ^ 24)) {i : F64} (hi : i.Mag 128) (s : Ladder F32 F64) (b : FBdd sr s) :
    FBdd sr (solver i s) := by
  obtain ⟨g0, g1, g2⟩ := half_step hs b.h
  have up : ∀ z : F64, z.In (-32) 32 → z.In (-64) 64 := fun z hz => hz.mono (by norm_num) (by norm_num)
  have le40 : s.stepSize.val * sr.val ≤ 1 + 1 / 2 ^ 40 := b.h.le.trans (by norm_num)
  obtain ⟨p0, p1, p2, p3⟩ := derivatives_slope hs b hi (v := s.state) (up _ b.x0) (up _ b.x1) (up _ b.x2) (up _ b.x3)
  generalize hd1 : derivatives s i s.state = d1 at *
  have a0 := point_near g0 g1 g2 b.x0 p0.size
  have a1 := point_near g0 g1 g2 b.x1 p1.size
  have a2 := point_near g0 g1 g2 b.x2 p2.size
  have a3 := point_near g0 g1 g2 b.x3 p3.size
  obtain ⟨q0, q1, q2, q3⟩ := derivatives_slope hs b hi (v := s.state.step (lit 0.5 * s.stepSize) d1) a0.2 a1.2 a2.2 a3.2
  generalize hd2 : derivatives s i (s.state.step (lit 0.5 * s.stepSize) d1) = d2 at *
  have b0 := point_near g0 g1 g2 b.x0 q0.size
  have b1 := point_near g0 g1 g2 b.x1 q1.size
  have b2 := point_near g0 g1 g2 b.x2 q2.size
  have b3 := point_near g0 g1 g2 b.x3 q3.size
  obtain ⟨r0, r1, r2, r3⟩ := derivatives_slope hs b hi (v := s.state.step (lit 0.5 * s.stepSize) d2) b0.2 b1.2 b2.2 b3.2
  generalize hd3 : derivatives s i (s.state.step (lit 0.5 * s.stepSize) d2) = d3 at *
  have c0 := point_near b.h.fin b.h.nonneg le40 b.x0 r0.size
  have c1 := point_near b.h.fin b.h.nonneg le40 b.x1 r1.size
  have c2 := point_near b.h.fin b.h.nonneg le40 b.x2 r2.size
  have c3 := point_near b.h.fin b.h.nonneg le40 b.x3 r3.size
  obtain ⟨t0, t1, t2, t3⟩ := derivatives_slope hs b hi (v := s.state.step s.stepSize d3) c0.2 c1.2 c2.2 c3.2
  have e : solver i s = { s with state :=
      ⟨s.state.x0 + lit 1 / lit 6 * s.stepSize * (d1.x0 + lit 2 * d2.x0 + lit 2 * d3.x0 + (derivatives s i (s.state.step s.stepSize d3)).x0),
       s.state.x1 + lit 1 / lit 6 * s.stepSize * (d1.x1 + lit 2 * d2.x1 + lit 2 * d3.x1 + (derivatives s i (s.state.step s.stepSize d3)).x1),
       s.state.x2 + lit 1 / lit 6 * s.stepSize * (d1.x2 + lit 2 * d2.x2 + lit 2 * d3.x2 + (derivatives s i (s.state.step s.stepSize d3)).x2),
       s.state.x3 + lit 1 / lit 6 * s.stepSize * (d1.x3 + lit 2 * d2.x3 + lit 2 * d3.x3 + (derivatives s i (s.state.step s.stepSize d3)).x3)⟩ } := by
    unfold solver
    simp only [hd1, hd2, hd3]
  rw [e]
  exact ⟨b.rate, b.sat, b.satInv, b.w, b.h, b.res, b.drive, b.makeup,
    coord_fbdd hs b.h b.x0 p0 q0 r0 t0 a0.1 b0.1 c0.1, coord_fbdd hs b.h b.x1 p1 q1 r1 t1 a1.1 b1.1 c1.1,
    coord_fbdd hs b.h b.x2 p2 q2 r2 t2 a2.1 b2.1 c2.1, coord_fbdd hs b.h b.x3 p3 q3 r3 t3 a3.1 b3.1 c3.1⟩

theorem tick_fbdd {sr : F32} (hs : sr.In 1 (2 ^ 24)) (s : Ladder F32 F64) (x : F32) (hx : x.isFin = true) (b : FBdd sr s) :
    FBdd sr (tick s x).1 ∧ (tick s x).2.In (-160) 160 := by
  have ht : FBdd sr (tick s x).1 := by
    show FBdd sr ((solver (Conv.conv x))^[s.oversampleFactor.toNat] s)
    generalize s.oversampleFactor.toNat = n
    induction n generalizing s with
    | zero => exact b
    | succ n ih => rw [Function.iterate_succ_apply]; exact ih _ (solver_fbdd hs (conv_up_mag hx) s b)
  refine ⟨ht, ?_⟩
  have R : binary64.Rep 160 false ∧ binary32.Rep 160 false := by decide +kernel
  have m0 := ht.makeup.2.1
  have m1 := ht.makeup.2.2
  have y1 := ht.x3.2.1
  have y2 := ht.x3.2.2
  have hy : ((tick s x).1.state.x3 * (tick s x).1.makeupGain).In (-160) 160 :=
    mul_in ht.x3.1 ht.makeup.1 (Rep.neg R.1) R.1 (by nlinarith) (by nlinarith)
  show (Conv.conv ((tick s x).1.state.x3 * (tick s x).1.makeupGain) : F32).In _ _
  obtain ⟨v, nz, hv, e⟩ := isFin_cases hy.1
  rw [e] at hy ⊢
  exact ofRat_in (Rep.neg R.2) R.2 hy.2.1 hy.2.2

/-- Calls with finite inputs and drives, cutoffs between 0 and half the sample rate, resonances that are not NaN, oversampling factors that
fit an `int`. -/
def Usable (sr : F32) : Op F32 → Prop
  | .init _ => False
  | .setCutoff c => c.In 0 (sr.val / 2)
  | .setResonance r => r ≠ nan
  | .setDrive d => d.isFin = true
  | .setOversampleFactor n => n < 2 ^ 31
  | .reset => True
  | .tick x => x.isFin = true

theorem coeff_in {sr c : F32} (hs : sr.In 1 (2 ^ 24)) (hc : c.In 0 (sr.val / 2)) :
    (lit 2 * Conv.conv (PI : F32) * Conv.conv c : F64).In 0 (3.15 * sr.val) := by
  have hp : (lit 2 * Conv.conv (PI : F32) : F64).In 6.28 6.2832 := by decide +kernel
  have hcu := conv_up hc.1
  generalize (lit 2 * Conv.conv (PI : F32) : F64) = P at *
  have c0 := hc.2.1
  have c1 := hc.2.2
  have p1 := hp.2.1
  have p2 := hp.2.2
  norm_num at p1 p2
  have s1 := hs.2.1
  have s2 := hs.2.2
  have q0 : 0 ≤ P.val * (Conv.conv c : F64).val := by rw [hcu.val_eq]; exact mul_nonneg (by linarith) c0
  have q1 : P.val * (Conv.conv c : F64).val ≤ 3.1416 * sr.val := by
    rw [hcu.val_eq]
    have : P.val * c.val ≤ 6.2832 * (sr.val / 2) := mul_le_mul (by norm_num; linarith) c1 c0 (by norm_num)
    norm_num at *; linarith
  obtain ⟨f, e⟩ := mul64 hp.1 hcu.1 (by rw [abs_of_nonneg q0]; norm_num at *; linarith)
  rw [abs_of_nonneg q0] at e
  have R26 : binary64.Rep (2 ^ 26) false := rep64_two_pow (by norm_num)
  refine ⟨f, (mul_in hp.1 hcu.1 rep_zero R26 q0 (by norm_num at *; linarith)).2.1, ?_⟩
  have := (abs_le.1 e).2
  norm_num at *; linarith

theorem step_of {sr : F32} (hs : sr.In 1 (2 ^ 24)) {n : ℤ} (h1 : 1 ≤ n) (h2 : n < 2 ^ 31) : Step sr.val (stepSizeOf n sr : F64) := by
  have R31 : binary32.Rep (2 ^ 31) false := rep_two_pow (by norm_num)
  have R55 : binary32.Rep (2 ^ 55) false := rep_two_pow (by norm_num)
  have hn : (Arith.ofInt n : F32).In 1 (2 ^ 31) := by
    refine ofRat_in rep_one R31 ?_ ?_
    · exact_mod_cast h1
    · have : (n:ℚ) ≤ 2 ^ 31 := by exact_mod_cast h2.le
      exact this
  have s1 := hs.2.1
  have s2 := hs.2.2
  have s0 : 0 < sr.val := by linarith
  have hp : (Arith.ofInt n * sr : F32).In sr.val (2 ^ 55) := by
    refine mul_in hn.1 hs.1 (rep_val _) R55 (by nlinarith [hn.2.1]) ?_
    have n1 := hn.2.2
    have : (Arith.ofInt n : F32).val * sr.val ≤ 2 ^ 31 * 2 ^ 24 := mul_le_mul n1 s2 s0.le (by norm_num)
    norm_num at *; linarith
  have hu := conv_up hp.1
  have p0 : 0 < (Conv.conv (Arith.ofInt n * sr : F32) : F64).val := by rw [hu.val_eq]; linarith [hp.2.1]
  have q0 : 0 ≤ (lit 1 : F64).val / (Conv.conv (Arith.ofInt n * sr : F32) : F64).val := by rw [lit_one.val_eq]; positivity
  have q1 : (lit 1 : F64).val / (Conv.conv (Arith.ofInt n * sr : F32) : F64).val ≤ 1 / sr.val := by
    rw [lit_one.val_eq, hu.val_eq]
    exact one_div_le_one_div_of_le s0 hp.2.1
  have q2 : 1 / sr.val ≤ 1 := by rw [div_le_one s0]; exact s1
  obtain ⟨f, e⟩ := div64 (x := (lit 1 : F64)) lit_one.1 hu.1 p0.ne' (by rw [abs_of_nonneg q0]; norm_num at *; linarith)
  rw [abs_of_nonneg q0] at e
  refine ⟨f, (div_in (x := (lit 1 : F64)) lit_one.1 hu.1 p0.ne' rep_zero rep_one q0 (q1.trans q2)).2.1, ?_⟩
  have e1 := (abs_le.1 e).2
  have e2 : (stepSizeOf n sr : F64).val ≤ (1 / sr.val) * (1 + 1 / 2 ^ 53) + 1 / 2 ^ 250 := by
    show (lit 1 / Conv.conv (Arith.ofInt n * sr : F32) : F64).val ≤ _
    linarith
  have e3 := mul_le_mul_of_nonneg_right e2 s0.le
  have e4 : ((1 / sr.val) * (1 + 1 / 2 ^ 53) + 1 / 2 ^ 250) * sr.val = (1 + 1 / 2 ^ 53) + 1 / 2 ^ 250 * sr.val := by
    field_simp
  rw [e4] at e3
  refine e3.trans ?_
  norm_num at *; linarith

theorem init_fbdd {sr : F32} (hs : sr.In 2000 (2 ^ 24)) (s : Ladder F32 F64) : FBdd sr (init sr s) := by
  have hs' := hs.mono (a' := 1) (by norm_num) le_rfl
  have c1 : (lit 1000 : F32).In 1000 1000 := by decide +kernel
  have h01 : (lit 0.1 : F32) ≠ nan := by decide +kernel
  have z : (lit 0 : F64).In (-32) 32 := lit_zero.mono (by norm_num) (by norm_num)
  exact ⟨rfl, rfl, rfl, coeff_in hs' (c1.mono (by norm_num) (by have := hs.2.1; linarith)), step_of hs' le_rfl (by norm_num), clamp01_range h01,
    (lit_one (f := binary64)).mono (by norm_num) (by norm_num), (C47_makeup _ _ c1.1).mono (by norm_num) le_rfl, z, z, z, z⟩

/-- **C98, Runge-Kutta**: in the program's own arithmetic no output sample of the Runge-Kutta ladder exceeds 160 - whatever finite samples are
fed in, whatever the resonances, drives, oversampling factors, cutoffs up to half the sample rate and resets, in whatever order and for
however long. -/
theorem C98_rk [Libm F64] (sr : F32) (hs : sr.In 2000 (2 ^ 24)) (s0 : Ladder F32 F64) (l : List (Op F32)) (hl : ∀ a ∈ l, Usable sr a) :
    ∀ y ∈ play (init sr s0) l, y.In (-160) 160 := by
  have hs' := hs.mono (a' := 1) (by norm_num) le_rfl
  have key : ∀ (l : List (Op F32)) (s : Ladder F32 F64), (∀ a ∈ l, Usable sr a) → FBdd sr s → ∀ y ∈ play s l, y.In (-160) 160 := by
    intro l
    induction l with
    | nil => intro s _ _ y hy; simp [play] at hy
    | cons a l ih =>
      intro s hl b
      have hl' : ∀ a ∈ l, Usable sr a := fun c hc => hl c (List.mem_cons_of_mem _ hc)
      have ha := hl a List.mem_cons_self
      cases a with
      | init sr' => exact absurd ha (by simp [Usable])
      | setCutoff c =>
        refine ih _ hl' ⟨b.rate, b.sat, b.satInv, coeff_in hs' ha, b.h, b.res, b.drive, ?_, b.x0, b.x1, b.x2, b.x3⟩
        have hc : c.isFin = true := ha.1
        exact (C47_makeup _ _ hc).mono (by norm_num) le_rfl
      | setResonance r =>
        exact ih _ hl' ⟨b.rate, b.sat, b.satInv, b.w, b.h, clamp01_range ha, b.drive, b.makeup, b.x0, b.x1, b.x2, b.x3⟩
      | setDrive d =>
        refine ih _ hl' ⟨b.rate, b.sat, b.satInv, b.w, b.h, b.res, ?_, b.makeup, b.x0, b.x1, b.x2, b.x3⟩
        show (if d <. lit 0 then Conv.conv (lit 0 : F32) else Conv.conv d : F64).Mag 128
        split
        · exact conv_up_mag lit_zero.1
        · exact conv_up_mag ha
      | setOversampleFactor n =>
        refine ih _ hl' ⟨b.rate, b.sat, b.satInv, b.w, ?_, b.res, b.drive, b.makeup, b.x0, b.x1, b.x2, b.x3⟩
        show Step sr.val (stepSizeOf (if n < 1 then 1 else n) s.sampleRate)
        rw [b.rate]
        have hn : n < 2 ^ 31 := ha
        exact step_of hs' (by split_ifs <;> omega) (by split_ifs <;> omega)
      | reset =>
        have z : (lit 0 : F64).In (-32) 32 := lit_zero.mono (by norm_num) (by norm_num)
        exact ih _ hl' ⟨b.rate, b.sat, b.satInv, b.w, b.h, b.res, b.drive, b.makeup, z, z, z, z⟩
      | tick x =>
        obtain ⟨h1, h2⟩ := tick_fbdd hs' s x ha b
        intro y hy
        rcases List.mem_cons.1 hy with rfl | hy
        · exact h2
        · exact ih _ hl' h1 y hy
  exact key l _ hl (init_fbdd hs s0)

/-- Non-trivial case: a huge drive and input, full resonance, cutoff at half the sample rate, 2000000000-fold oversampling. -/
example [Libm F64] (s0 : Ladder F32 F64) (n : ℕ) :
    ∀ y ∈ play (init (lit 48000) s0) ([.setCutoff (lit 24000), .setResonance (lit 1), .setDrive (lit 1e38), .tick (lit (-1e38))]
      ++ List.replicate n (.tick (lit 1)) ++ [.setOversampleFactor 2000000000, .tick (lit 0.5), .setOversampleFactor (-3), .reset, .tick (lit 1)]),
      y.In (-160) 160 := by
  refine C98_rk (lit 48000) (by decide +kernel) s0 _ (fun a ha => ?_)
  simp only [List.mem_append, List.mem_cons, List.not_mem_nil, or_false, List.mem_replicate] at ha
  rcases ha with ((rfl | rfl | rfl | rfl) | ⟨-, rfl⟩) | (rfl | rfl | rfl | rfl | rfl) <;> simp only [Usable] <;> decide +kernel

end RKSimulation
end Verif
