import Verif.Float.Near
import Verif.Props.CombFloat
import Verif.Props.CombMoving

/-!
# C105 in single precision: a comb whose delay moves, with every rounding

The argument of `Verif.Props.CombMoving` with the roundings: what is read from the line is at most 5/4 of the largest value on it and a little
more, the gain is at most 0.795 when the decay time is at most thirty times the delay, so nothing louder than 256 is ever written.
-/

namespace Verif
open FP

namespace CombC

/-! ### Specification -/

/-- What can be done to a comb while it runs. -/
inductive RideF where
  | delay (dt : F32)
  | decay (dc : F32)
  | reset
  | tick (x : F32)

/-- A history of calls, with the outputs of the ticks. -/
def rideF [Libm F32] (fuel : ℕ) : Comb F32 → List RideF → Option (Comb F32 × List F32)
  | s, [] => some (s, [])
  | s, .delay dt :: es => rideF fuel (CombC.setDelayTime dt s) es
  | s, .decay dc :: es => rideF fuel (CombC.setDecayTime dc s) es
  | s, .reset :: es => rideF fuel (CombC.reset s) es
  | s, .tick x :: es => (CombC.tick fuel s x).bind fun (s, y) => (rideF fuel s es).map fun (s, ys) => (s, y :: ys)

/-- The decay time is zero or neither absurdly short nor beyond `T`. -/
def decayOk (T : ℚ) (dc : F32) : Prop := dc.isFin = true ∧ (dc.val = 0 ∨ 1 / 2 ^ 90 ≤ |dc.val|) ∧ |dc.val| ≤ T

/-- The delay is never set below `τ`, the decay time is never set beyond `T`, and the input stays within ±1. -/
def RideF.within (τ T : ℚ) : RideF → Prop
  | .delay dt => dt.isFin = true ∧ τ ≤ dt.val
  | .decay dc => decayOk T dc
  | .reset => True
  | .tick x => x.In (-1) 1

/-! ### One read -/

theorem near_add_le {x y : F32} {r s d e A : ℝ} (k : ℕ) (hx : Near x r d) (hy : Near y s e) (k2 : k ≤ 127) (hA : |r + s| ≤ A)
    (hb : A + (d + e) < 2 ^ k) : Near (x + y) (r + s) (d + e + 2 ^ k / 2 ^ 25) := by
  have := near_add (k : ℤ) hx hy (by omega) (by omega) (by rw [zpow_natCast]; linarith)
  rwa [zpow_natCast] at this

theorem near_sub_le {x y : F32} {r s d e A : ℝ} (k : ℕ) (hx : Near x r d) (hy : Near y s e) (k2 : k ≤ 127) (hA : |r - s| ≤ A)
    (hb : A + (d + e) < 2 ^ k) : Near (x - y) (r - s) (d + e + 2 ^ k / 2 ^ 25) := by
  have := near_sub (k : ℤ) hx hy (by omega) (by omega) (by rw [zpow_natCast]; linarith)
  rwa [zpow_natCast] at this

theorem near_mul_le {x y : F32} {r s d e A B : ℝ} (k : ℕ) (hx : Near x r d) (hy : Near y s e) (k2 : k ≤ 127) (hA : |r| ≤ A) (hB : |s| ≤ B)
    (hb : A * B + (A * e + B * d + d * e) < 2 ^ k) : Near (x * y) (r * s) (A * e + B * d + d * e + 2 ^ k / 2 ^ 25) := by
  have d0 : 0 ≤ d := (abs_nonneg _).trans hx.2
  have e0 : 0 ≤ e := (abs_nonneg _).trans hy.2
  have A0 : 0 ≤ A := (abs_nonneg _).trans hA
  have h1 := mul_le_mul_of_nonneg_right hA e0
  have h2 := mul_le_mul_of_nonneg_right hB d0
  have h3 := mul_le_mul hA hB (abs_nonneg _) A0
  rw [← abs_mul] at h3
  have := near_mul (k : ℤ) hx hy (by omega) (by omega) (by rw [zpow_natCast]; linarith)
  rw [zpow_natCast] at this
  exact this.mono (by linarith)

theorem near_in {x : F32} {v : ℚ} (h : x.In v v) : Near x (v : ℝ) 0 := by
  have := near_val h.1
  rwa [h.val_eq] at this

theorem bnd {x A : ℝ} (h1 : -A ≤ x) (h2 : x ≤ A) : |x| ≤ A := abs_le.2 ⟨h1, h2⟩

/-- The first coefficient of the interpolation. -/
theorem hermite_c1 {a c : F32} {A C : ℝ} (ha : Near a A 0) (hc : Near c C 0) (a1 : |A| ≤ 256) (c1 : |C| ≤ 256) :
    Near (lit 0.5 * (c - a)) (1 / 2 * (C - A)) (1 / 2 ^ 14) := by
  obtain ⟨a1, a2⟩ := abs_le.1 a1
  obtain ⟨c1, c2⟩ := abs_le.1 c1
  have k : Near (lit 0.5 : F32) ((0.5 : ℚ) : ℝ) 0 := near_in (by decide +kernel)
  have h1 := near_sub_le 10 hc ha (by norm_num) (bnd (A := 512) (by linarith) (by linarith)) (by norm_num)
  have h2 := near_mul_le 9 k h1 (by norm_num) (A := 1 / 2) (B := 512) (by norm_num [abs_of_pos]) (bnd (by linarith) (by linarith)) (by norm_num)
  exact (h2.mono (by norm_num)).eq (by push_cast; ring)

/-- The second coefficient of the interpolation. -/
theorem hermite_c2 {a b c d : F32} {A B C D : ℝ} (ha : Near a A 0) (hb : Near b B 0) (hc : Near c C 0) (hd : Near d D 0) (a1 : |A| ≤ 256)
    (b1 : |B| ≤ 256) (c1 : |C| ≤ 256) (d1 : |D| ≤ 256) :
    Near (a - lit 2.5 * b + lit 2 * c - lit 0.5 * d) (A - 5 / 2 * B + 2 * C - 1 / 2 * D) (1 / 2 ^ 11) := by
  have a1' := abs_le.1 a1
  have b1' := abs_le.1 b1
  have c1' := abs_le.1 c1
  have d1' := abs_le.1 d1
  have k1 : Near (lit 0.5 : F32) ((0.5 : ℚ) : ℝ) 0 := near_in (by decide +kernel)
  have k2 : Near (lit 2.5 : F32) ((2.5 : ℚ) : ℝ) 0 := near_in (by decide +kernel)
  have k3 : Near (lit 2 : F32) ((2 : ℚ) : ℝ) 0 := near_in (by decide +kernel)
  have p1 := (near_mul_le 10 k2 hb (by norm_num) (A := 5 / 2) (B := 256) (by norm_num [abs_of_pos]) b1 (by norm_num)).mono
    (show _ ≤ 1 / 2 ^ 15 by norm_num)
  have p2 := (near_mul_le 10 k3 hc (by norm_num) (A := 2) (B := 256) (by norm_num [abs_of_pos]) c1 (by norm_num)).mono
    (show _ ≤ 1 / 2 ^ 15 by norm_num)
  have p3 := (near_mul_le 9 k1 hd (by norm_num) (A := 1 / 2) (B := 256) (by norm_num [abs_of_pos]) d1 (by norm_num)).mono
    (show _ ≤ 1 / 2 ^ 15 by norm_num)
  have q1 := (near_sub_le 10 ha p1 (by norm_num) (A := 896) (bnd (by push_cast; linarith [a1'.1, b1'.2]) (by push_cast; linarith [a1'.2, b1'.1]))
    (by norm_num)).mono (show _ ≤ 1 / 2 ^ 14 by norm_num)
  have q2 := (near_add_le 11 q1 p2 (by norm_num) (A := 1408) (bnd (by push_cast; linarith [a1'.1, b1'.2, c1'.1])
    (by push_cast; linarith [a1'.2, b1'.1, c1'.2])) (by norm_num)).mono (show _ ≤ 1 / 2 ^ 12 by norm_num)
  have q3 := near_sub_le 11 q2 p3 (by norm_num) (A := 1536) (bnd (by push_cast; linarith [a1'.1, b1'.2, c1'.1, d1'.2])
    (by push_cast; linarith [a1'.2, b1'.1, c1'.2, d1'.1])) (by norm_num)
  exact (q3.mono (by norm_num)).eq (by push_cast; ring)

/-- The third coefficient of the interpolation. -/
theorem hermite_c3 {a b c d : F32} {A B C D : ℝ} (ha : Near a A 0) (hb : Near b B 0) (hc : Near c C 0) (hd : Near d D 0) (a1 : |A| ≤ 256)
    (b1 : |B| ≤ 256) (c1 : |C| ≤ 256) (d1 : |D| ≤ 256) :
    Near (lit 0.5 * (d - a) + lit 1.5 * (b - c)) (1 / 2 * (D - A) + 3 / 2 * (B - C)) (1 / 2 ^ 12) := by
  have h1 := hermite_c1 ha hd a1 d1
  obtain ⟨a1, a2⟩ := abs_le.1 a1
  obtain ⟨b1, b2⟩ := abs_le.1 b1
  obtain ⟨c1, c2⟩ := abs_le.1 c1
  obtain ⟨d1, d2⟩ := abs_le.1 d1
  have k : Near (lit 1.5 : F32) ((1.5 : ℚ) : ℝ) 0 := near_in (by decide +kernel)
  have h2 := near_sub_le 10 hb hc (by norm_num) (bnd (A := 512) (by linarith) (by linarith)) (by norm_num)
  have h3 := (near_mul_le 10 k h2 (by norm_num) (A := 3 / 2) (B := 512) (by norm_num [abs_of_pos]) (bnd (by linarith) (by linarith))
    (by norm_num)).mono (show _ ≤ 1 / 2 ^ 13 - 1 / 2 ^ 15 by norm_num)
  have h4 := near_add_le 11 h1 h3 (by norm_num) (A := 1024) (bnd (by push_cast; linarith) (by push_cast; linarith)) (by norm_num)
  exact (h4.mono (by norm_num)).eq (by push_cast; ring)

/-- Reading a line that holds nothing louder than 256. -/
theorem hermite_near {a b c d t : F32} (ha : a.In (-256) 256) (hb : b.In (-256) 256) (hc : c.In (-256) 256) (hd : d.In (-256) 256)
    (ht : t.In 0 1) : Near (hermite a b c d t) (segment (a.val : ℝ) b.val c.val d.val t.val) (1 / 2 ^ 8) := by
  have cell : ∀ {x : F32}, x.In (-256) 256 → Near x (x.val : ℝ) 0 ∧ |(x.val : ℝ)| ≤ 256 := by
    intro x hx
    refine ⟨near_val hx.1, bnd ?_ ?_⟩
    · exact_mod_cast hx.2.1
    · exact_mod_cast hx.2.2
  obtain ⟨na, a1⟩ := cell ha
  obtain ⟨nb, b1⟩ := cell hb
  obtain ⟨nc, c1⟩ := cell hc
  obtain ⟨nd, d1⟩ := cell hd
  have nt := near_val ht.1
  have t0 : (0:ℝ) ≤ t.val := by exact_mod_cast ht.2.1
  have t1 : (t.val : ℝ) ≤ 1 := by exact_mod_cast ht.2.2
  have e1 := hermite_c1 na nc a1 c1
  have e2 := hermite_c2 na nb nc nd a1 b1 c1 d1
  have e3 := hermite_c3 na nb nc nd a1 b1 c1 d1
  have hs : segment (a.val : ℝ) b.val c.val d.val t.val =
      (((1 / 2 * ((d.val : ℝ) - a.val) + 3 / 2 * (b.val - c.val)) * t.val + (a.val - 5 / 2 * b.val + 2 * c.val - 1 / 2 * d.val)) * t.val +
        1 / 2 * (c.val - a.val)) * t.val + b.val := by
    rw [segment]; ring
  rw [hs]
  unfold hermite
  generalize (a.val : ℝ) = A at *
  generalize (b.val : ℝ) = B at *
  generalize (c.val : ℝ) = C at *
  generalize (d.val : ℝ) = D at *
  have m3 : |1 / 2 * (D - A) + 3 / 2 * (B - C)| ≤ 1024 := by
    rw [abs_le] at *; constructor <;> linarith [a1.1, a1.2, b1.1, b1.2, c1.1, c1.2, d1.1, d1.2]
  have m2 : |A - 5 / 2 * B + 2 * C - 1 / 2 * D| ≤ 1536 := by
    rw [abs_le] at *; constructor <;> linarith [a1.1, a1.2, b1.1, b1.2, c1.1, c1.2, d1.1, d1.2]
  have m1 : |1 / 2 * (C - A)| ≤ 256 := by
    rw [abs_le] at *; constructor <;> linarith [a1.1, a1.2, c1.1, c1.2]
  generalize 1 / 2 * (D - A) + 3 / 2 * (B - C) = P at *
  generalize A - 5 / 2 * B + 2 * C - 1 / 2 * D = Q at *
  generalize 1 / 2 * (C - A) = R at *
  generalize (t.val : ℝ) = τ at *
  have tt : |τ| ≤ 1 := bnd (by linarith) t1
  have mul1 : ∀ {x M : ℝ}, |x| ≤ M → |x * τ| ≤ M := by
    intro x M hx
    rw [abs_mul]
    exact (mul_le_of_le_one_right (abs_nonneg x) tt).trans hx
  have s1 := (near_mul_le 11 e3 nt (by norm_num) m3 tt (by norm_num)).mono (show _ ≤ 1 / 2 ^ 11 by norm_num)
  have n1 := mul1 m3
  have n2 : |P * τ + Q| ≤ 2560 := (abs_add_le _ _).trans (by linarith)
  have s2 := (near_add_le 12 s1 e2 (by norm_num) n2 (by norm_num)).mono (show _ ≤ 1 / 2 ^ 10 + 1 / 2 ^ 13 by norm_num)
  have s3 := (near_mul_le 12 s2 nt (by norm_num) n2 tt (by norm_num)).mono (show _ ≤ 1 / 2 ^ 10 + 2 / 2 ^ 13 by norm_num)
  have n3 : |(P * τ + Q) * τ + R| ≤ 2816 := (abs_add_le _ _).trans (by linarith [mul1 n2])
  have s4 := (near_add_le 12 s3 e1 (by norm_num) n3 (by norm_num)).mono (show _ ≤ 1 / 2 ^ 10 + 4 / 2 ^ 13 by norm_num)
  have s5 := (near_mul_le 12 s4 nt (by norm_num) n3 tt (by norm_num)).mono (show _ ≤ 1 / 2 ^ 10 + 5 / 2 ^ 13 by norm_num)
  have n4 : |((P * τ + Q) * τ + R) * τ + B| ≤ 3072 := (abs_add_le _ _).trans (by linarith [mul1 n3])
  have s6 := near_add_le 12 s5 nb (by norm_num) n4 (by norm_num)
  exact s6.mono (by norm_num)

theorem read_le {a b c d t : F32} (ha : a.In (-256) 256) (hb : b.In (-256) 256) (hc : c.In (-256) 256) (hd : d.In (-256) 256)
    (ht : t.In 0 1) : (hermite a b c d t).In (-320.25) 320.25 := by
  have h := hermite_near ha hb hc hd ht
  have cell : ∀ {x : F32}, x.In (-256) 256 → |(x.val : ℝ)| ≤ 256 := by
    intro x hx
    refine bnd ?_ ?_
    · exact_mod_cast hx.2.1
    · exact_mod_cast hx.2.2
  have t0 : (0:ℝ) ≤ t.val := by exact_mod_cast ht.2.1
  have t1 : (t.val : ℝ) ≤ 1 := by exact_mod_cast ht.2.2
  have hs := segment_abs (cell ha) (cell hb) (cell hc) (cell hd) t0 t1
  have := h.abs_val_le
  have h2 : |((hermite a b c d t).val : ℝ)| ≤ ((320.25 : ℚ) : ℝ) := by
    refine this.trans ?_
    push_cast
    norm_num at hs ⊢
    linarith
  obtain ⟨l, u⟩ := abs_le.1 h2
  exact ⟨h.1, by exact_mod_cast l, by exact_mod_cast u⟩

/-- What is written to the line. -/
theorem write_le {x g y : F32} (hx : x.In (-1) 1) (hg : g.In (-0.795) 0.795) (hy : y.In (-320.25) 320.25) : (x + g * y).In (-256) 256 := by
  have hp : |g.val * y.val| ≤ 0.795 * 320.25 := by
    rw [abs_mul]
    exact mul_le_mul (abs_le.2 hg.2) (abs_le.2 hy.2) (abs_nonneg _) (by norm_num)
  obtain ⟨l, u⟩ := abs_le.1 hp
  have r : binary32.Rep 255 false ∧ binary32.Rep (-255) false ∧ binary32.Rep 256 false ∧ binary32.Rep (-256) false := by decide +kernel
  have h1 := mul_in hg.1 hy.1 r.2.1 r.1 (by linarith) (by linarith)
  exact add_in hx h1 r.2.2.2 r.2.2.1 (by norm_num) (by norm_num)

/-! ### The gain -/

/-- A decay of at most thirty delays means a gain of at most 0.795. -/
theorem gain_small [Libm F32] [LibmSpec] {s : Comb F32} {τ T : ℚ} (hτ : T ≤ 30 * τ) (hd : s.delayTime.In τ (2 ^ 20))
    (hc : decayOk T s.decayTime) : (updateFeedback s).feedbackCoeff.In (-0.795) 0.795 := by
  obtain ⟨hf, hz, hT⟩ := hc
  have i1 : Arith.isInf s.decayTime = false := by simp [Arith.isInf, toInt_fin hf]
  simp only [updateFeedback, i1, Bool.false_eq_true, if_false]
  rw [eq_fin hf lit_zero.1, lt_fin hf lit_zero.1, lit_zero.val_eq]
  by_cases h0 : s.decayTime.val = 0
  · simp only [h0, decide_true, if_true]
    exact lit_zero.mono (by norm_num) (by norm_num)
  · simp only [h0, decide_false, Bool.false_eq_true, if_false, decide_eq_true_eq]
    have hlo := hz.resolve_left h0
    obtain ⟨v, nz, hv, hv'⟩ := isFin_cases hf
    have ha : (Arith.fabs s.decayTime).isFin = true ∧ (Arith.fabs s.decayTime).val = |s.decayTime.val| := by
      rw [hv']; exact ⟨rfl, rfl⟩
    have hp : 0 < |s.decayTime.val| := abs_pos.2 h0
    generalize Arith.fabs s.decayTime = A at ha ⊢
    have r1 : binary32.Rep (34952 / 2 ^ 20) false ∧ binary32.Rep (-(3767 / 2 ^ 14)) false ∧ (-lit 6.907755 : F32).In (-6.908) (-6.9077) := by
      decide +kernel
    have hq : (s.delayTime / A).In (34952 / 2 ^ 20) (2 ^ 110) := by
      refine div_in hd.1 ha.1 (by rw [ha.2]; exact hp.ne') r1.1 (rep_two_pow (by norm_num)) ?_ ?_
      · rw [ha.2, le_div_iff₀ hp]
        have := hd.2.1
        linarith
      · rw [ha.2, div_le_iff₀ hp]
        have := hd.2.2
        have h3 : (2:ℚ) ^ 110 * (1 / 2 ^ 90) ≤ 2 ^ 110 * |s.decayTime.val| := mul_le_mul_of_nonneg_left hlo (by positivity)
        have h4 : (2:ℚ) ^ 110 * (1 / 2 ^ 90) = 2 ^ 20 := by norm_num
        linarith
    have hm : (s.delayTime / A * -lit 6.907755).In (-2 ^ 113) (-(3767 / 2 ^ 14)) := by
      refine mul_in hq.1 r1.2.2.1 (Rep.neg (rep_two_pow (by norm_num))) r1.2.1 ?_ ?_
      · have h1 := hq.2.1
        have h2 := hq.2.2
        have h3 := r1.2.2.2.1
        have h4 : (s.delayTime / A).val * 6.908 ≤ 2 ^ 110 * 8 := mul_le_mul h2 (by norm_num) (by norm_num) (by positivity)
        have h5 : (0:ℚ) ≤ (s.delayTime / A).val := le_trans (by norm_num) h1
        have h6 := mul_le_mul_of_nonneg_left h3 h5
        have h7 : (2:ℚ) ^ 113 = 2 ^ 110 * 8 := by norm_num
        rw [h7]
        linarith
      · have h1 := hq.2.1
        have h3 := r1.2.2.2.2
        have h5 : (0:ℚ) ≤ (s.delayTime / A).val := le_trans (by norm_num) h1
        have h6 := mul_le_mul_of_nonneg_left h3 h5
        have h7 := mul_le_mul_of_nonneg_right h1 (show (0:ℚ) ≤ 6.9077 by norm_num)
        norm_num at h6 h7 ⊢
        linarith
    generalize s.delayTime / A * -lit 6.907755 = z at hm ⊢
    have z0 : z.val ≤ 0 := hm.2.2.trans (by norm_num)
    have e1 := LibmSpec.exp_nonpos z (Or.inr ⟨hm.1, z0⟩)
    have e2 := LibmSpec.exp_acc z hm.1 z0
    have e3 : Real.exp (z.val : ℝ) ≤ 0.79499 := by
      have h1 : (z.val : ℝ) ≤ -(3767 / 2 ^ 14) := by
        have : ((z.val : ℚ) : ℝ) ≤ ((-(3767 / 2 ^ 14) : ℚ) : ℝ) := by exact_mod_cast hm.2.2
        push_cast at this
        exact this
      refine (Real.exp_le_exp.2 h1).trans ?_
      rw [Real.exp_neg, show (3767 / 2 ^ 14 : ℝ) = 3767 / 16384 by norm_num]
      have h2 := Real.sum_le_exp_of_nonneg (x := 3767 / 2 ^ 14) (by norm_num) 4
      norm_num [Finset.sum_range_succ, Nat.factorial] at h2
      refine (inv_anti₀ (by norm_num) h2).trans ?_
      norm_num
    have e4 : (Libm.exp z : F32).In 0 0.795 := by
      refine ⟨e1.1, e1.2.1, ?_⟩
      have h1 := (abs_le.1 (e2.trans (show (2:ℝ) ^ (-23:ℤ) ≤ 0.00001 by norm_num))).2
      have h3 : ((Libm.exp z : F32).val : ℝ) ≤ ((0.795 : ℚ) : ℝ) := by
        have h4 : (((0.795 : ℚ) : ℝ)) = 0.79499 + 0.00001 := by norm_num
        rw [h4]
        linarith
      exact_mod_cast h3
    split_ifs
    · have := neg_in e4
      exact this.mono le_rfl (by norm_num)
    · exact e4.mono (by norm_num) le_rfl

/-! ### The invariant -/

/-- The invariant of a bounded ride. -/
structure CalmF (md τ T : ℚ) (s : Comb F32) : Prop where
  safe : Safe s
  top : s.maxDelayTime.val = md
  delay : τ ≤ s.delayTime.val ∧ s.delayTime.val ≤ md
  decay : decayOk T s.decayTime
  gain : s.feedbackCoeff.In (-0.795) 0.795
  cell : ∀ v ∈ s.buffer, v.In (-256) 256

/-- The effect of `setDelayTime`. -/
theorem setDelay_in [Libm F32] {md τ : ℚ} {dt : F32} {s : Comb F32} (t0 : 0 ≤ τ) (t1 : τ ≤ md) (h : Safe s) (top : s.maxDelayTime.val = md)
    (hd : dt.isFin = true) (hd' : τ ≤ dt.val) : Safe (CombC.setDelayTime dt s) ∧ (clamp dt (lit 0) s.maxDelayTime).In τ md := by
  constructor
  · have hcl := clamp_in (x := dt) (hi := s.maxDelayTime) (by rintro rfl; exact absurd hd (by simp [isFin])) (lit_zero) (in_val h.md) h.md0
    exact ⟨h.len, h.lo, h.hi, h.pos, h.sr, h.md, h.md0, h.prod, hcl.1, hcl.2.1, le_trans (mul_le_mul_of_nonneg_right hcl.2.2 h.sr.2.1) h.prod⟩
  · unfold clamp
    rw [lt_fin hd lit_zero.1, lt_fin h.md hd, lit_zero.val_eq, top]
    rw [if_neg (by simpa using t0.trans hd')]
    by_cases c : md < dt.val
    · rw [if_pos (by simpa using c)]
      exact ⟨h.md, by rw [top]; exact t1, by rw [top]⟩
    · rw [if_neg (by simpa using c)]
      exact ⟨hd, hd', not_lt.1 c⟩

theorem calmF_delay [Libm F32] [LibmSpec] {md τ T : ℚ} {dt : F32} {s : Comb F32} (hτ : T ≤ 30 * τ) (t0 : 0 ≤ τ) (t1 : τ ≤ md) (m1 : md ≤ 2 ^ 20)
    (h : CalmF md τ T s) (hd : dt.isFin = true) (hd' : τ ≤ dt.val) : CalmF md τ T (CombC.setDelayTime dt s) := by
  obtain ⟨hs, e⟩ := setDelay_in t0 t1 h.safe h.top hd hd'
  exact ⟨hs, h.top, e.2, h.decay, gain_small hτ (e.mono le_rfl m1) h.decay, h.cell⟩

theorem calmF_decay [Libm F32] [LibmSpec] {md τ T : ℚ} {dc : F32} {s : Comb F32} (hτ : T ≤ 30 * τ) (m1 : md ≤ 2 ^ 20)
    (h : CalmF md τ T s) (hd : decayOk T dc) : CalmF md τ T (CombC.setDecayTime dc s) :=
  ⟨⟨h.safe.len, h.safe.lo, h.safe.hi, h.safe.pos, h.safe.sr, h.safe.md, h.safe.md0, h.safe.prod, h.safe.dt, h.safe.dt0, h.safe.dtp⟩,
    h.top, h.delay, hd, gain_small (s := { s with decayTime := dc }) hτ ⟨h.safe.dt, h.delay.1, h.delay.2.trans m1⟩ hd, h.cell⟩

theorem calmF_reset {md τ T : ℚ} {s : Comb F32} (h : CalmF md τ T s) : CalmF md τ T (CombC.reset s) := by
  refine ⟨⟨by simp [CombC.reset], h.safe.lo, h.safe.hi, ?_, h.safe.sr, h.safe.md, h.safe.md0, h.safe.prod, h.safe.dt, h.safe.dt0, h.safe.dtp⟩,
    h.top, h.delay, h.decay, h.gain, ?_⟩
  · show 0 < s.bufferSize
    have := h.safe.lo; omega
  · intro v hv
    have : v = (lit 0 : F32) := List.eq_of_mem_replicate hv
    rw [this]
    exact lit_zero.mono (by norm_num) (by norm_num)

/-- The fractional part of the position lies between 0 and 1. -/
theorem frac_in {s : Comb F32} (h : Safe s) {fuel : ℕ} (hf : 2 ^ 22 ≤ fuel) {r : F32} {n : ℕ}
    (hr : wrapLoop (Arith.ofNat s.bufferSize) fuel (Arith.ofNat s.writePos - s.delayTime * s.sampleRate) = some r)
    (hn : Arith.toSize? r = some n) : (r - Arith.ofNat n : F32).In 0 1 := by
  have hw : s.writePos ≤ 2 ^ 24 := by have := h.pos; have := h.hi; omega
  have hd : (s.delayTime * s.sampleRate).In 0 (2 ^ 22 : ℚ) :=
    mul_in h.dt h.sr.1 rep_zero (rep_two_pow (by norm_num)) (mul_nonneg h.dt0 h.sr.2.1) h.dtp
  have hNr : (s.bufferSize : ℚ) ≤ 2 ^ 22 + 4 := by exact_mod_cast h.hi
  have hpr : (s.writePos : ℚ) ≤ s.bufferSize := by exact_mod_cast h.pos.le
  have hs : (Arith.ofNat s.writePos - s.delayTime * s.sampleRate : F32).In (-(2 ^ 22 : ℕ)) s.bufferSize := by
    refine sub_in (ofNat_in hw) hd (Rep.neg (repNat (by norm_num))) (repNat (by have := h.hi; omega)) ?_ ?_
    · have : (0:ℚ) ≤ s.writePos := by positivity
      push_cast; linarith
    · linarith
  obtain ⟨r', hr', hb⟩ := wrapLoop_ok h.lo h.hi fuel (2 ^ 22) _ hf le_rfl hs
  rw [hr] at hr'
  obtain rfl := Option.some.inj hr'
  rw [toSize_fin hb.1 hb.2.1 (lt_of_le_of_lt hb.2.2 (lt_of_le_of_lt hNr (by norm_num)))] at hn
  obtain rfl := Option.some.inj hn
  have f0 := Int.floor_nonneg.2 hb.2.1
  have f1 : ⌊r.val⌋ ≤ s.bufferSize := by
    have : ⌊r.val⌋ ≤ ⌊((s.bufferSize : ℕ) : ℚ)⌋ := Int.floor_mono hb.2.2
    simpa using this
  have f2 : (((⌊r.val⌋.toNat : ℕ)) : ℚ) = ⌊r.val⌋ := by exact_mod_cast congrArg (Int.cast (R := ℚ)) (Int.toNat_of_nonneg f0)
  refine sub_in (in_val hb.1) (ofNat_in (n := ⌊r.val⌋.toNat) (by have := h.hi; omega)) rep_zero rep_one ?_ ?_
  · rw [f2]; linarith [Int.floor_le r.val]
  · rw [f2]; linarith [Int.lt_floor_add_one r.val]

theorem calmF_tick [Libm F32] {md τ T : ℚ} {x : F32} {s : Comb F32} (h : CalmF md τ T s) (hx : x.In (-1) 1) {fuel : ℕ} (hf : 2 ^ 22 ≤ fuel) :
    ∃ s' y, CombC.tick fuel s x = some (s', y) ∧ CalmF md τ T s' ∧ y.In (-320.25) 320.25 := by
  obtain ⟨s', y, ht, hs⟩ := tick_safe h.safe hf x
  obtain ⟨h0, hp, r, n, hr, hn, ho⟩ := tick_some ht h.safe.len
  refine ⟨s', y, ht, ?_⟩
  have cell : ∀ i, (s.buffer.getD (i % s.bufferSize) (lit 0)).In (-256) 256 := by
    intro i
    have : i % s.bufferSize < s.buffer.length := by rw [h.safe.len]; exact Nat.mod_lt _ (by omega)
    rw [List.getD_eq_getElem?_getD, List.getElem?_eq_getElem this, Option.getD_some]
    exact h.cell _ (List.getElem_mem _)
  have fr := frac_in h.safe hf hr hn
  have yb : (readAt s n (r - Arith.ofNat n)).In (-320.25) 320.25 := read_le (cell _) (cell _) (cell _) (cell _) fr
  obtain ⟨rfl, rfl⟩ := Prod.mk.inj ho
  refine ⟨⟨hs, h.top, h.delay, h.decay, h.gain, ?_⟩, yb⟩
  intro v hv
  rcases List.mem_or_eq_of_mem_set hv with hv | rfl
  · exact h.cell v hv
  · exact write_le hx h.gain yb

theorem calmF_ride [Libm F32] [LibmSpec] {md τ T : ℚ} (hτ : T ≤ 30 * τ) (t0 : 0 ≤ τ) (t1 : τ ≤ md) (m1 : md ≤ 2 ^ 20) {fuel : ℕ}
    (hf : 2 ^ 22 ≤ fuel) : ∀ (es : List RideF) {s : Comb F32}, CalmF md τ T s → (∀ e ∈ es, e.within τ T) →
    ∃ s' ys, rideF fuel s es = some (s', ys) ∧ ∀ y ∈ ys, y.In (-320.25) 320.25
  | [], s, _, _ => ⟨s, [], rfl, by simp⟩
  | .delay dt :: es, s, h, hes => by
    have hd : dt.isFin = true ∧ τ ≤ dt.val := hes (.delay dt) (by simp)
    exact calmF_ride hτ t0 t1 m1 hf es (calmF_delay hτ t0 t1 m1 h hd.1 hd.2) fun e he => hes e (by simp [he])
  | .decay dc :: es, s, h, hes =>
    calmF_ride hτ t0 t1 m1 hf es (calmF_decay hτ m1 h (hes (.decay dc) (by simp))) fun e he => hes e (by simp [he])
  | .reset :: es, s, h, hes => calmF_ride hτ t0 t1 m1 hf es (calmF_reset h) fun e he => hes e (by simp [he])
  | .tick x :: es, s, h, hes => by
    obtain ⟨s1, y, a, b, c⟩ := calmF_tick h (hes (.tick x) (by simp)) hf
    obtain ⟨s', ys, d, e⟩ := calmF_ride hτ t0 t1 m1 hf es b fun e he => hes e (by simp [he])
    refine ⟨s', y :: ys, by simp only [rideF, a, Option.bind_some, d, Option.map_some], ?_⟩
    intro v hv
    rcases List.mem_cons.1 hv with rfl | hv
    · exact c
    · exact e v hv

/-! ### Theorem -/

/-- **C105, partial** (single precision, every rounding and the accuracy of `expf` included): a comb whose decay time is at most thirty times
its delay stays bounded however both are moved about while it runs. If no delay is set below `τ` and no decay time beyond `T ≤ 30 τ`, inputs
within ±1 give finite outputs within ±320.25, after any number of calls in any order; every access stays inside the line. The exact bound of
`C105_bounded_partial` for `T = 30 τ` would be 177. Sample rates and line lengths as in `C34_comb_safe_partial`. For decay times beyond about 31
times the delay the claim is false, see `C105_explodes`. -/
theorem C105_bounded_float_partial [Libm F32] [LibmSpec] (sr md dt dc : F32) (τ T : ℚ) (hsr : sr.In 0 (2 ^ 22)) (hmd : md.In τ (2 ^ 20))
    (hp : md.val * sr.val ≤ 2 ^ 22) (t0 : 0 ≤ τ) (short : T ≤ 30 * τ) (hdt : dt.isFin = true) (hdt' : τ ≤ dt.val) (hdc : decayOk T dc)
    (fuel : ℕ) (hf : 2 ^ 22 ≤ fuel) (es : List RideF) (hes : ∀ e ∈ es, e.within τ T) :
    ∃ s0 s' ys, CombC.init sr md = some s0 ∧ rideF fuel s0 (.delay dt :: .decay dc :: es) = some (s', ys) ∧
      ∀ y ∈ ys, y.In (-320.25) 320.25 := by
  have md0 : 0 ≤ md.val := t0.trans hmd.2.1
  obtain ⟨s0, h1, h2, h3, h4⟩ := init_safe hsr hmd.1 md0 hp
  have hb : s0.buffer = List.replicate s0.bufferSize (lit 0) := by
    have hz := h1
    simp only [CombC.init, Option.map_eq_some_iff] at hz
    obtain ⟨n, -, hn⟩ := hz
    rw [← hn]; rfl
  obtain ⟨hs, e⟩ := setDelay_in (md := md.val) t0 hmd.2.1 h2 (by rw [h4]) hdt hdt'
  have C : CalmF md.val τ T (CombC.setDecayTime dc (CombC.setDelayTime dt s0)) := by
    refine ⟨⟨hs.len, hs.lo, hs.hi, hs.pos, hs.sr, hs.md, hs.md0, hs.prod, hs.dt, hs.dt0, hs.dtp⟩, congrArg FP.val h4, e.2, hdc,
      gain_small (s := { CombC.setDelayTime dt s0 with decayTime := dc }) short (e.mono le_rfl hmd.2.2) hdc, ?_⟩
    intro v hv
    have hv : v ∈ s0.buffer := hv
    rw [hb] at hv
    rw [List.eq_of_mem_replicate hv]
    exact lit_zero.mono (by norm_num) (by norm_num)
  obtain ⟨s', ys, a, b⟩ := calmF_ride short t0 hmd.2.1 hmd.2.2 hf es C hes
  exact ⟨s0, s', ys, h1, a, b⟩

/-- A delay swept between 10 and 20 ms at 48 kHz with a decay of 0.3 s, upside down for a while, then cleared. -/
example : ∀ e ∈ [RideF.tick (ofRat 1), .delay (ofRat (1 / 50)), .tick (ofRat (-1)), .decay (ofRat (-1 / 4)), .tick (ofRat (1 / 2)), .reset],
    e.within (1 / 100) (3 / 10) := by
  have a : (1 / 100 : ℚ) ≤ (ofRat (1 / 50) : F32).val ∧ (ofRat (1 / 50) : F32).isFin = true ∧ (ofRat 1 : F32).In (-1) 1 ∧
      (ofRat (-1) : F32).In (-1) 1 ∧ (ofRat (1 / 2) : F32).In (-1) 1 ∧ (ofRat (-1 / 4) : F32).isFin = true ∧
      1 / 2 ^ 90 ≤ |(ofRat (-1 / 4) : F32).val| ∧ |(ofRat (-1 / 4) : F32).val| ≤ 3 / 10 := by decide +kernel
  simp only [List.mem_cons, List.not_mem_nil, or_false]
  rintro e (rfl | rfl | rfl | rfl | rfl | rfl)
  exacts [a.2.2.1, ⟨a.2.1, a.1⟩, a.2.2.2.1, ⟨a.2.2.2.2.2.1, Or.inr a.2.2.2.2.2.2.1, a.2.2.2.2.2.2.2⟩, a.2.2.2.2.1, trivial]

example : (ofRat 48000 : F32).In 0 (2 ^ 22) ∧ (ofRat (1/5) : F32).In (1 / 100) (2 ^ 20) ∧
    (ofRat (1/5) : F32).val * (ofRat 48000 : F32).val ≤ 2 ^ 22 ∧ (3 / 10 : ℚ) ≤ 30 * (1 / 100) ∧ (1 / 100 : ℚ) ≤ (ofRat (1 / 64) : F32).val := by
  decide +kernel

end CombC
end Verif
