import Verif.Float.Near
import Verif.Props.CombFloat
import Verif.Props.CombStable
import Verif.Props.CombMovingFloat

/-!
# C99 in single precision

The energy argument of `Verif.Props.CombStable` with every rounding, including that of the read position.
-/

namespace Verif
open FP

/-! ### Roundings relative to the size of the numbers -/

/-- A rounding in real numbers. -/
theorem near_rounded {q : ℚ} {zs : Bool} {r A η : ℝ} (hr : |r| ≤ A) (hη : |(q : ℝ) - r| ≤ η) (hA : A + η ≤ 2 ^ 100) :
    Near (ofRat q zs) r (η + (A + η) / 2 ^ 24 + 1 / 2 ^ 149) := by
  have hb : |(q : ℝ)| ≤ A + η := by
    have := abs_add_le ((q : ℝ) - r) r
    rw [sub_add_cancel] at this
    linarith
  have hb' : |q| ≤ 2 ^ 100 := by
    rw [← Rat.cast_le (K := ℝ)]; push_cast; exact hb.trans hA
  have R : binary32.Rep (2 ^ 100) false := rep_two_pow (by norm_num)
  obtain ⟨l, u⟩ := abs_le.1 hb'
  have hin := ofRat_in (f := binary32) (zs := zs) (Rep.neg R) R l u
  have hv := ofRat_val (f := binary32) (zs := zs) (Rep.neg R) R l u
  refine ⟨hin.1, ?_⟩
  have h2 := binary32.rnd_rel_err (K := ℚ) q
  simp only [Rat.cast_id] at h2
  rw [← hv] at h2
  have e1 : (2:ℚ) ^ (-(binary32.prec : ℤ)) = 1 / 2 ^ 24 := by norm_num [binary32]
  have e2 : (2:ℚ) ^ (binary32.emin - 1) ≤ 1 / 2 ^ 149 := by
    have e : (1:ℚ) / 2 ^ 149 = 2 ^ (-149 : ℤ) := by norm_num
    rw [e]; exact zpow_le_zpow_right₀ (by norm_num) (by decide)
  rw [e1, abs_sub_comm] at h2
  have h3 : |(ofRat q zs : F32).val - q| ≤ |q| * (1 / 2 ^ 24) + 1 / 2 ^ 149 := h2.trans (by linarith)
  rw [← Rat.cast_le (K := ℝ)] at h3
  push_cast at h3
  have := abs_add_le (((ofRat q zs : F32).val : ℝ) - q) (q - r)
  rw [sub_add_sub_cancel] at this
  linarith

variable {x y : F32} {r s d e A B : ℝ}

theorem near_add_rel (hx : Near x r d) (hy : Near y s e) (hA : |r + s| ≤ A) (h : A + (d + e) ≤ 2 ^ 100) :
    Near (x + y) (r + s) (d + e + (A + (d + e)) / 2 ^ 24 + 1 / 2 ^ 149) := by
  obtain ⟨zs, k⟩ := add_def hx.1 hy.1
  rw [k]
  refine near_rounded hA ?_ h
  push_cast
  have := abs_add_le ((x.val : ℝ) - r) ((y.val : ℝ) - s)
  rw [show (x.val : ℝ) + y.val - (r + s) = ((x.val : ℝ) - r) + ((y.val : ℝ) - s) by ring]
  linarith [hx.2, hy.2]

theorem near_sub_rel (hx : Near x r d) (hy : Near y s e) (hA : |r - s| ≤ A) (h : A + (d + e) ≤ 2 ^ 100) :
    Near (x - y) (r - s) (d + e + (A + (d + e)) / 2 ^ 24 + 1 / 2 ^ 149) := by
  obtain ⟨zs, k⟩ := sub_def hx.1 hy.1
  rw [k]
  refine near_rounded hA ?_ h
  push_cast
  have := abs_sub ((x.val : ℝ) - r) ((y.val : ℝ) - s)
  rw [show (x.val : ℝ) - y.val - (r - s) = ((x.val : ℝ) - r) - ((y.val : ℝ) - s) by ring]
  linarith [hx.2, hy.2]

/-- A product with an exact factor of at most `B`. -/
theorem near_mul_rel (hx : Near x r d) (hy : y.isFin = true) (hr : |r| ≤ A) (hB : |(y.val : ℝ)| ≤ B) (h : B * A + B * d ≤ 2 ^ 100) :
    Near (y * x) (y.val * r) (B * d + (B * A + B * d) / 2 ^ 24 + 1 / 2 ^ 149) ∧
    Near (x * y) (r * y.val) (B * d + (B * A + B * d) / 2 ^ 24 + 1 / 2 ^ 149) := by
  have B0 : 0 ≤ B := (abs_nonneg _).trans hB
  have k1 : |(y.val : ℝ) * r| ≤ B * A := by rw [abs_mul]; exact mul_le_mul hB hr (abs_nonneg _) B0
  have k2 : |(y.val : ℝ) * x.val - y.val * r| ≤ B * d := by
    rw [← mul_sub, abs_mul]; exact mul_le_mul hB hx.2 (abs_nonneg _) B0
  constructor
  · obtain ⟨zs, k⟩ := mul_def hy hx.1
    rw [k]
    refine near_rounded k1 ?_ h
    push_cast; exact k2
  · obtain ⟨zs, k⟩ := mul_def hx.1 hy
    rw [k]
    refine near_rounded (by rw [mul_comm]; exact k1) ?_ h
    push_cast; rw [mul_comm, mul_comm r]; exact k2

namespace CombC

/-! ### One read -/

/-- Reading the line: the rounding error is a fraction of what is read. -/
theorem hermite_rel {a b c d t : F32} {m : ℝ} (fa : a.isFin = true) (fb : b.isFin = true) (fc : c.isFin = true) (fd : d.isFin = true)
    (ha : |(a.val : ℝ)| + |(b.val : ℝ)| + |(c.val : ℝ)| + |(d.val : ℝ)| ≤ m) (hm : m ≤ 2 ^ 80) (ht : t.In 0 1) :
    Near (hermite a b c d t) (segment (a.val : ℝ) b.val c.val d.val t.val) (m / 2 ^ 18 + 1 / 2 ^ 140) := by
  have t0 : (0:ℝ) ≤ t.val := by exact_mod_cast ht.2.1
  have t1 : (t.val : ℝ) ≤ 1 := by exact_mod_cast ht.2.2
  have tt : |(t.val : ℝ)| ≤ 1 := abs_le.2 ⟨by linarith, t1⟩
  have hs : segment (a.val : ℝ) b.val c.val d.val t.val =
      (((1 / 2 * ((d.val : ℝ) - a.val) + 3 / 2 * (b.val - c.val)) * t.val + (a.val - 5 / 2 * b.val + 2 * c.val - 1 / 2 * d.val)) * t.val +
        1 / 2 * (c.val - a.val)) * t.val + b.val := by
    rw [segment]; ring
  rw [hs]
  have l1 : (lit 0.5 : F32).In (1 / 2) (1 / 2) := by decide +kernel
  have l2 : (lit 2.5 : F32).In (5 / 2) (5 / 2) := by decide +kernel
  have l3 : (lit 2 : F32).In 2 2 := by decide +kernel
  have l4 : (lit 1.5 : F32).In (3 / 2) (3 / 2) := by decide +kernel
  have v1 : ((lit 0.5 : F32).val : ℝ) = 1 / 2 := by rw [l1.val_eq]; norm_num
  have v2 : ((lit 2.5 : F32).val : ℝ) = 5 / 2 := by rw [l2.val_eq]; norm_num
  have v3 : ((lit 2 : F32).val : ℝ) = 2 := by rw [l3.val_eq]; norm_num
  have v4 : ((lit 1.5 : F32).val : ℝ) = 3 / 2 := by rw [l4.val_eq]; norm_num
  have na := near_val fa
  have nb := near_val fb
  have nc := near_val fc
  have nd := near_val fd
  unfold hermite
  generalize (a.val : ℝ) = u at *
  generalize (b.val : ℝ) = v at *
  generalize (c.val : ℝ) = w at *
  generalize (d.val : ℝ) = z at *
  have u0 := abs_nonneg u
  have w0 := abs_nonneg v
  have y0 := abs_nonneg w
  have z0 := abs_nonneg z
  have m0 : 0 ≤ m := by linarith
  have u1 := abs_le.1 (le_refl |u|)
  have w1 := abs_le.1 (le_refl |v|)
  have y1 := abs_le.1 (le_refl |w|)
  have z1 := abs_le.1 (le_refl |z|)
  have M := hm
  norm_num at M
  -- the first coefficient
  have c1 : Near (lit 0.5 * (c - a)) (1 / 2 * (w - u)) (m / 2 ^ 23 + 1 / 2 ^ 148) := by
    have h1 := near_sub_rel nc na (A := m) (abs_le.2 ⟨by linarith, by linarith⟩) (by norm_num; linarith)
    have h2 := (near_mul_rel h1 l1.1 (A := m) (B := 1 / 2) (abs_le.2 ⟨by linarith, by linarith⟩) (by rw [v1]; norm_num [abs_of_pos])
      (by norm_num; linarith)).1
    rw [v1] at h2
    exact h2.mono (by norm_num; linarith)
  have c1' : Near (lit 0.5 * (d - a)) (1 / 2 * (z - u)) (m / 2 ^ 23 + 1 / 2 ^ 148) := by
    have h1 := near_sub_rel nd na (A := m) (abs_le.2 ⟨by linarith, by linarith⟩) (by norm_num; linarith)
    have h2 := (near_mul_rel h1 l1.1 (A := m) (B := 1 / 2) (abs_le.2 ⟨by linarith, by linarith⟩) (by rw [v1]; norm_num [abs_of_pos])
      (by norm_num; linarith)).1
    rw [v1] at h2
    exact h2.mono (by norm_num; linarith)
  -- the third
  have c3 : Near (lit 0.5 * (d - a) + lit 1.5 * (b - c)) (1 / 2 * (z - u) + 3 / 2 * (v - w)) (m / 2 ^ 21 + 1 / 2 ^ 146) := by
    have h1 := near_sub_rel nb nc (A := m) (abs_le.2 ⟨by linarith, by linarith⟩) (by norm_num; linarith)
    have h2 := (near_mul_rel h1 l4.1 (A := m) (B := 3 / 2) (abs_le.2 ⟨by linarith, by linarith⟩) (by rw [v4]; norm_num [abs_of_pos])
      (by norm_num; linarith)).1
    rw [v4] at h2
    have h3 := h2.mono (show _ ≤ m / 2 ^ 22 + 1 / 2 ^ 147 by norm_num; linarith)
    exact (near_add_rel c1' h3 (A := 3 / 2 * m) (abs_le.2 ⟨by linarith, by linarith⟩) (by norm_num; linarith)).mono (by norm_num; linarith)
  -- the second
  have c2 : Near (a - lit 2.5 * b + lit 2 * c - lit 0.5 * d) (u - 5 / 2 * v + 2 * w - 1 / 2 * z) (12.8 * m / 2 ^ 24 + 1 / 2 ^ 145) := by
    have p1 := (near_mul_rel nb l2.1 (A := m) (B := 5 / 2) (abs_le.2 ⟨by linarith, by linarith⟩) (by rw [v2]; norm_num [abs_of_pos])
      (by norm_num; linarith)).1
    have p2 := (near_mul_rel nc l3.1 (A := m) (B := 2) (abs_le.2 ⟨by linarith, by linarith⟩) (by rw [v3]; norm_num [abs_of_pos])
      (by norm_num; linarith)).1
    have p3 := (near_mul_rel nd l1.1 (A := m) (B := 1 / 2) (abs_le.2 ⟨by linarith, by linarith⟩) (by rw [v1]; norm_num [abs_of_pos])
      (by norm_num; linarith)).1
    rw [v2] at p1
    rw [v3] at p2
    rw [v1] at p3
    have q1 := (near_sub_rel na (p1.mono (show _ ≤ 2.5 * m / 2 ^ 24 + 1 / 2 ^ 149 by norm_num)) (A := 5 / 2 * m) (abs_le.2 ⟨by linarith, by linarith⟩)
      (by norm_num; linarith)).mono (show _ ≤ 5.1 * m / 2 ^ 24 + 1 / 2 ^ 147 by norm_num; linarith)
    have q2 := (near_add_rel q1 (p2.mono (show _ ≤ 2 * m / 2 ^ 24 + 1 / 2 ^ 149 by norm_num)) (A := 5 / 2 * m) (abs_le.2 ⟨by linarith, by linarith⟩)
      (by norm_num; linarith)).mono (show _ ≤ 9.7 * m / 2 ^ 24 + 1 / 2 ^ 146 by norm_num; linarith)
    exact (near_sub_rel q2 (p3.mono (show _ ≤ 0.5 * m / 2 ^ 24 + 1 / 2 ^ 149 by norm_num)) (A := 5 / 2 * m) (abs_le.2 ⟨by linarith, by linarith⟩)
      (by norm_num; linarith)).mono (by norm_num; linarith)
  have m3 : |1 / 2 * (z - u) + 3 / 2 * (v - w)| ≤ 3 / 2 * m := abs_le.2 ⟨by linarith, by linarith⟩
  have m2 : |u - 5 / 2 * v + 2 * w - 1 / 2 * z| ≤ 5 / 2 * m := abs_le.2 ⟨by linarith, by linarith⟩
  have m1 : |1 / 2 * (w - u)| ≤ 1 / 2 * m := abs_le.2 ⟨by linarith, by linarith⟩
  have mv : |v| ≤ m := by linarith
  generalize 1 / 2 * (z - u) + 3 / 2 * (v - w) = P at *
  generalize u - 5 / 2 * v + 2 * w - 1 / 2 * z = Q at *
  generalize 1 / 2 * (w - u) = R at *
  have mul1 : ∀ {x M : ℝ}, |x| ≤ M → |x * (t.val : ℝ)| ≤ M := by
    intro x M hx
    rw [abs_mul]
    exact (mul_le_of_le_one_right (abs_nonneg x) tt).trans hx
  have s1 := (near_mul_rel c3 ht.1 m3 tt (by norm_num; linarith)).2.mono (show _ ≤ 9.6 * m / 2 ^ 24 + 1 / 2 ^ 145 by norm_num; linarith)
  have n2 : |P * (t.val : ℝ) + Q| ≤ 4 * m := (abs_add_le _ _).trans (by linarith [mul1 m3])
  have s2 := (near_add_rel s1 c2 n2 (by norm_num; linarith)).mono (show _ ≤ 26.5 * m / 2 ^ 24 + 1 / 2 ^ 143 by norm_num; linarith)
  have s3 := (near_mul_rel s2 ht.1 n2 tt (by norm_num; linarith)).2.mono (show _ ≤ 30.6 * m / 2 ^ 24 + 1 / 2 ^ 142 by norm_num; linarith)
  have n3 : |(P * (t.val : ℝ) + Q) * t.val + R| ≤ 9 / 2 * m := (abs_add_le _ _).trans (by linarith [mul1 n2])
  have s4 := (near_add_rel s3 c1 n3 (by norm_num; linarith)).mono (show _ ≤ 37.2 * m / 2 ^ 24 + 1 / 2 ^ 141 - 3 / 2 ^ 148 by norm_num; linarith)
  have s5 := (near_mul_rel s4 ht.1 n3 tt (by norm_num; linarith)).2.mono (show _ ≤ 41.8 * m / 2 ^ 24 + 1 / 2 ^ 141 by norm_num; linarith)
  have n4 : |((P * (t.val : ℝ) + Q) * t.val + R) * t.val + v| ≤ 11 / 2 * m := (abs_add_le _ _).trans (by linarith [mul1 n3])
  exact (near_add_rel s5 nb n4 (by norm_num; linarith)).mono (by norm_num; linarith)

/-- The four points around the position. -/
def loud (u : ℤ → ℝ) (c : ℕ) (n : ℤ) : ℝ := |u (n - c - 1)| + |u (n - c)| + |u (n - c + 1)| + |u (n - c + 2)|

theorem segment_lip {a b c d t s m : ℝ} (hm : |a| + |b| + |c| + |d| ≤ m) (t0 : 0 ≤ t) (t1 : t ≤ 1) (s0 : 0 ≤ s) (s1 : s ≤ 1) :
    |segment a b c d t - segment a b c d s| ≤ 3 / 2 * |t - s| * m := by
  set q := t ^ 2 + t * s + s ^ 2 with hq
  have e : segment a b c d t - segment a b c d s = (t - s) * (-(1 - 2 * (t + s) + q) / 2 * a + (-5 * (t + s) + 3 * q) / 2 * b +
      (1 + 4 * (t + s) - 3 * q) / 2 * c + (-(t + s) + q) / 2 * d) := by simp only [segment, hq]; ring
  have q1 : 3 / 4 * (t + s) ^ 2 ≤ q := by rw [hq]; nlinarith [sq_nonneg (t - s)]
  have q2 : q ≤ 3 / 2 * (t + s) := by rw [hq]; nlinarith
  have q3 : 3 * (t + s) - 3 ≤ q := by nlinarith [sq_nonneg (t + s - 2)]
  have q0 : 0 ≤ q := by positivity
  have q4 : 0 ≤ 3 * q - 5 * (t + s) + 3 := by nlinarith [sq_nonneg (t + s - 10 / 9)]
  have q5 : 0 ≤ 3 * q - 4 * (t + s) + 2 := by nlinarith [sq_nonneg (t + s - 8 / 9)]
  have w0 : |-(1 - 2 * (t + s) + q) / 2| ≤ 3 / 2 := abs_le.2 ⟨by linarith, by linarith⟩
  have w1 : |(-5 * (t + s) + 3 * q) / 2| ≤ 3 / 2 := abs_le.2 ⟨by linarith, by linarith⟩
  have w2 : |(1 + 4 * (t + s) - 3 * q) / 2| ≤ 3 / 2 := abs_le.2 ⟨by linarith, by linarith⟩
  have w3 : |(-(t + s) + q) / 2| ≤ 3 / 2 := abs_le.2 ⟨by linarith, by linarith⟩
  generalize -(1 - 2 * (t + s) + q) / 2 = z0 at *
  generalize (-5 * (t + s) + 3 * q) / 2 = z1 at *
  generalize (1 + 4 * (t + s) - 3 * q) / 2 = z2 at *
  generalize (-(t + s) + q) / 2 = z3 at *
  rw [e, abs_mul, mul_comm (3 / 2), mul_assoc]
  refine mul_le_mul_of_nonneg_left ?_ (abs_nonneg _)
  have k : ∀ {z v : ℝ}, |z| ≤ 3 / 2 → |z * v| ≤ 3 / 2 * |v| := by
    intro z v hz; rw [abs_mul]; exact mul_le_mul_of_nonneg_right hz (abs_nonneg v)
  have h1 := abs_add_le (z0 * a + z1 * b + z2 * c) (z3 * d)
  have h2 := abs_add_le (z0 * a + z1 * b) (z2 * c)
  have h3 := abs_add_le (z0 * a) (z1 * b)
  linarith [k (v := a) w0, k (v := b) w1, k (v := c) w2, k (v := d) w3]

variable [Libm F32]

/-- Reading at a whole position gives the sample to the last bit. -/
theorem hermite_whole {a b c d z : F32} (ha : Amp 77 a) (hb : Amp 77 b) (hc : Amp 77 c) (hd : Amp 77 d) (hz : z.In 0 0) :
    (hermite a b c d z).In b.val b.val := by
  have k1 : Amp 0 (lit 0.5 : F32) := by unfold Amp; decide +kernel
  have k2 : Amp 2 (lit 2.5 : F32) := by unfold Amp; decide +kernel
  have k3 : Amp 1 (lit 2 : F32) := by unfold Amp; decide +kernel
  have k4 : Amp 1 (lit 1.5 : F32) := by unfold Amp; decide +kernel
  have c1 : Amp 78 (lit 0.5 * (c - a)) := (k1.mul (hc.sub ha (by norm_num)) (by norm_num)).up (by norm_num)
  have c2 : Amp 82 (a - lit 2.5 * b + lit 2 * c - lit 0.5 * d) := by
    refine Amp.sub (k := 81) ?_ ((k1.mul hd (by norm_num)).up (by norm_num)) (by norm_num)
    refine Amp.add (k := 80) ?_ ((k3.mul hc (by norm_num)).up (by norm_num)) (by norm_num)
    exact Amp.sub (k := 79) (ha.up (by norm_num)) ((k2.mul hb (by norm_num)).up (by norm_num)) (by norm_num)
  have c3 : Amp 82 (lit 0.5 * (d - a) + lit 1.5 * (b - c)) := by
    refine Amp.add (k := 81) ((k1.mul (hd.sub ha (by norm_num)) (by norm_num)).up (by norm_num))
      ((k4.mul (hb.sub hc (by norm_num)) (by norm_num)).up (by norm_num)) (by norm_num)
  exact zero_add_in (mul_zero_in (zero_add_in (mul_zero_in (zero_add_in (mul_zero_in c3.1 hz) c2.1).1 hz) c1.1).1 hz) hb.1

/-- The line of a comb with delay `D` between `c - 1` and `c` samples holds the last samples of `V`. -/
structure Keeps (c : ℕ) (D : ℚ) (g : F32) (N : ℕ) (s : Comb F32) (V : List ℝ) : Prop where
  delays : Delays c s
  delay : (s.delayTime * s.sampleRate).val = D
  gain : s.feedbackCoeff = g
  size : s.bufferSize = N
  cell : ∀ k : ℕ, 1 ≤ k → k ≤ N → (ago s k).isFin = true ∧ ((ago s k).val : ℝ) = signal V (V.length - k)

omit [Libm F32] in
/-- Every cell of the line is one of the samples. -/
theorem cell_ago {s : Comb F32} {N i : ℕ} (hN : s.bufferSize = N) (hw : s.writePos < N) (hi : i < N) :
    ∃ k, 1 ≤ k ∧ k ≤ N ∧ s.buffer.getD i (lit 0) = ago s k := by
  unfold ago
  rw [hN]
  by_cases h : i < s.writePos
  · refine ⟨s.writePos - i, by omega, by omega, ?_⟩
    congr 1
    rw [show s.writePos + N - (s.writePos - i) = i + N by omega, Nat.add_mod_right, Nat.mod_eq_of_lt hi]
  · refine ⟨s.writePos + N - i, by omega, by omega, ?_⟩
    congr 1
    rw [show s.writePos + N - (s.writePos + N - i) = i by omega, Nat.mod_eq_of_lt hi]

/-- One read, with the rounding of the position. -/
theorem read_rel {c N : ℕ} {D : ℚ} {g : F32} {s : Comb F32} {V : List ℝ} (h : Keeps c D g N s V) (hcN : c + 1 ≤ N) (hD : 2 ≤ D)
    (hV : ∀ i, |signal V i| ≤ 2 ^ 77) {fuel : ℕ} (hf : 1 ≤ fuel) (x : F32) :
    ∃ y, CombC.tick fuel s x = some (advance s x y, y) ∧ Delays c (advance s x y) ∧
      Near y (segment (signal V (V.length - c - 1)) (signal V (V.length - c)) (signal V (V.length - c + 1)) (signal V (V.length - c + 2)) (c - D))
        ((3 * N + 69) / 2 ^ 24 * loud (signal V) c V.length + 1 / 2 ^ 140) := by
  have hd := h.delays
  have hsz := h.size
  have hlo' := hd.lo
  have hhi' := hd.hi
  rw [h.delay] at hlo' hhi'
  obtain ⟨r, n, e, h1, h2, h3, h4, h5, h6, h7, h8, t, t0, t1, h9, h10⟩ := readPos_near hd.safe hd.one hd.fits hd.lo hd.hi hf
  rw [h.delay] at h7 h10
  rw [hsz] at h3 h5 h10
  have hw := hd.safe.pos
  have hhi := hd.safe.hi
  have hlo := hd.safe.lo
  rw [hsz] at hw hhi hlo
  have hc1 := hd.one
  have hN0 : 0 < N := by omega
  refine ⟨_, tick_eq (by omega) hd.safe.len hd.safe.pos h1 h2, ?_, ?_⟩
  · have hs := hd.safe
    exact ⟨⟨by simpa [advance] using hs.len, hs.lo, hs.hi, Nat.mod_lt _ (by omega), hs.sr, hs.md, hs.md0, hs.prod, hs.dt, hs.dt0, hs.dtp⟩,
      hd.one, hd.fits, hd.lo, hd.hi⟩
  have hs1 : szAdd n s.bufferSize = n + N := by rw [hsz]; exact Nat.mod_eq_of_lt (by omega)
  have hs2 : szSub (n + N) 1 = n + N - 1 := BufferAllocator.szSub_eq (by omega) (by omega)
  have hs3 : szAdd n 1 = n + 1 := Nat.mod_eq_of_lt (by omega)
  have hs4 : szAdd n 2 = n + 2 := Nat.mod_eq_of_lt (by omega)
  have hc2 : 2 ≤ c := by
    have : (2:ℚ) ≤ c := hD.trans hhi'
    exact_mod_cast this
  -- the cells
  have amp : ∀ i, Amp 77 (s.buffer.getD (i % N) (lit 0)) := by
    intro i
    obtain ⟨k, k1, k2, k3⟩ := cell_ago hsz hw (Nat.mod_lt i hN0)
    rw [k3]
    obtain ⟨p1, p2⟩ := h.cell k k1 k2
    have := hV (V.length - k)
    rw [← p2] at this
    have := abs_le.1 this
    refine ⟨p1, ?_, ?_⟩
    · have := this.1; exact_mod_cast this
    · have := this.2; exact_mod_cast this
  have at0 : ∀ j k : ℕ, 1 ≤ k → k ≤ N → k + j = c + 1 - e → s.buffer.getD ((n + N - 1 + j) % N) (lit 0) = ago s k := by
    intro j k k1 k2 k3
    unfold ago
    rw [hsz]
    have hi : (n + N - 1 + j) % N = (s.writePos + N - k) % N := by
      rw [show n + N - 1 + j = n + (N - 1 + j) by omega, Nat.add_mod, h5, ← Nat.add_mod,
        show s.writePos + N - c + e + (N - 1 + j) = s.writePos + N - k + N by omega, Nat.add_mod_right]
    rw [hi]
  have y1 : s.buffer.getD (n % N) (lit 0) = ago s (c - e) := by
    have := at0 1 (c - e) (by omega) (by omega) (by omega)
    rwa [show n + N - 1 + 1 = n + N by omega, Nat.add_mod_right] at this
  -- the fraction
  have hnq : (Arith.ofNat n : F32).val = n := (ofNat_in (by omega)).val_eq
  have he1 : (e:ℚ) ≤ 1 := by exact_mod_cast h4
  have he0 : (0:ℚ) ≤ e := Nat.cast_nonneg e
  obtain ⟨z, hz⟩ : ∃ z, z = (r - Arith.ofNat n : F32) := ⟨_, rfl⟩
  have fr : z.In 0 1 := by
    rw [hz]
    refine sub_in (in_val h6) (ofNat_in (by omega)) rep_zero rep_one (by linarith) (by linarith)
  have ferr : |z.val - (t - e)| ≤ 2 / 2 ^ 24 := by
    obtain ⟨zs, k⟩ := sub_def h6 (ofNat_in (n := n) (by omega)).1
    have hb : |r.val - (n:ℚ)| ≤ 1 := abs_le.2 ⟨by linarith, by linarith⟩
    have := round_err (zs := zs) (hb.trans (by norm_num))
    rw [hz, k, hnq]
    have e3 : r.val - (n:ℚ) = t - e := by rw [h9]; ring
    rw [e3] at this hb ⊢
    refine this.trans ?_
    have : (1:ℚ) / 2 ^ 149 ≤ 1 / 2 ^ 24 := by norm_num
    linarith
  have pos : |z.val + e - (c - D)| ≤ (2 * N + 3) / 2 ^ 24 := by
    rw [show z.val + e - (c - D) = (z.val - (t - e)) + (t - (c - D)) by ring]
    refine (abs_add_le _ _).trans ?_
    linarith
  have posR : |(z.val : ℝ) + e - (c - D)| ≤ (2 * N + 3) / 2 ^ 24 := by
    rw [← Rat.cast_le (K := ℝ)] at pos
    push_cast at pos
    exact pos
  have dR0 : (0:ℝ) ≤ c - D := by have : ((D:ℚ):ℝ) ≤ c := by exact_mod_cast hhi'
                                 linarith
  have dR1 : (c:ℝ) - D ≤ 1 := by have : (c:ℝ) - 1 ≤ D := by exact_mod_cast hlo'
                                 linarith
  have z0 : (0:ℝ) ≤ z.val := by exact_mod_cast fr.2.1
  have z1 : (z.val:ℝ) ≤ 1 := by exact_mod_cast fr.2.2
  have lip : ∀ {τ : ℝ}, 0 ≤ τ → τ ≤ 1 → |τ - (c - D)| ≤ (2 * N + 3) / 2 ^ 24 →
      |segment (signal V (V.length - c - 1)) (signal V (V.length - c)) (signal V (V.length - c + 1)) (signal V (V.length - c + 2)) τ -
        segment (signal V (V.length - c - 1)) (signal V (V.length - c)) (signal V (V.length - c + 1)) (signal V (V.length - c + 2)) (c - D)| ≤
        (3 * N + 5) / 2 ^ 24 * loud (signal V) c V.length := by
    intro τ a1 a2 a3
    refine (segment_lip (m := loud (signal V) c V.length) le_rfl a1 a2 dR0 dR1).trans ?_
    refine mul_le_mul_of_nonneg_right ?_ (by unfold loud; positivity)
    linarith
  have L0 : 0 ≤ loud (signal V) c V.length := by unfold loud; positivity
  rw [← hz]
  by_cases hzz : z.val = 0
  · have zin : z.In 0 0 := ⟨fr.1, hzz.ge, hzz.le⟩
    have hy : (readAt s n z).In (ago s (c - e)).val (ago s (c - e)).val := by
      unfold readAt
      rw [hs1, hs2, hs3, hs4, hsz, ← y1]
      exact hermite_whole (amp _) (amp _) (amp _) (amp _) zin
    refine ⟨hy.1, ?_⟩
    rw [hy.val_eq, (h.cell (c - e) (by omega) (by omega)).2]
    have p := lip (τ := e) (by exact_mod_cast he0) (by exact_mod_cast he1) (by
      rw [hzz] at posR; simpa using posR)
    have es : segment (signal V (V.length - c - 1)) (signal V (V.length - c)) (signal V (V.length - c + 1)) (signal V (V.length - c + 2)) (e:ℝ) =
        signal V (V.length - (c - e : ℕ)) := by
      rcases (by omega : e = 0 ∨ e = 1) with rfl | rfl
      · simp [segment]
      · rw [show ((V.length:ℤ) - (c - 1 : ℕ)) = V.length - c + 1 by omega]; simp [segment]; ring
    rw [es] at p
    refine p.trans ?_
    have : (3 * (N:ℝ) + 5) / 2 ^ 24 * loud (signal V) c V.length ≤ (3 * N + 69) / 2 ^ 24 * loud (signal V) c V.length :=
      mul_le_mul_of_nonneg_right (by gcongr; norm_num) L0
    have : (0:ℝ) ≤ 1 / 2 ^ 140 := by positivity
    linarith
  · have e0 : e = 0 := by
      by_contra hne
      have e1 : e = 1 := by omega
      have : z.In 0 0 := by
        rw [hz]
        refine sub_in (in_val h6) (ofNat_in (by omega)) rep_zero rep_zero (by linarith) ?_
        rw [h9, e1]; push_cast; linarith
      exact hzz this.val_eq
    have c3 : 3 ≤ c := by
      by_contra hc3
      have c2 : c = 2 := by omega
      have hDc : D = c := by
        rw [c2] at hhi' ⊢; push_cast at hhi' ⊢; linarith
      obtain ⟨-, hr⟩ := h7 hDc
      have : z.In 0 0 := by
        rw [hz]
        exact sub_in (in_val h6) (ofNat_in (by omega)) rep_zero rep_zero (by linarith) (by linarith)
      exact hzz this.val_eq
    subst e0
    have y0 := at0 0 (c + 1) (by omega) (by omega) (by omega)
    have y2 := at0 2 (c - 1) (by omega) (by omega) (by omega)
    have y3 := at0 3 (c - 2) (by omega) (by omega) (by omega)
    rw [show n + N - 1 + 2 = n + 1 + N by omega, Nat.add_mod_right] at y2
    rw [show n + N - 1 + 3 = n + 2 + N by omega, Nat.add_mod_right] at y3
    rw [add_zero] at y0
    rw [Nat.sub_zero] at y1
    unfold readAt
    rw [hs1, hs2, hs3, hs4, hsz, y0, y1, y2, y3]
    obtain ⟨f0, v0⟩ := h.cell (c + 1) (by omega) (by omega)
    obtain ⟨f1, v1⟩ := h.cell c (by omega) (by omega)
    obtain ⟨f2, v2⟩ := h.cell (c - 1) (by omega) (by omega)
    obtain ⟨f3, v3⟩ := h.cell (c - 2) (by omega) (by omega)
    rw [show (V.length:ℤ) - (c + 1 : ℕ) = V.length - c - 1 by omega] at v0
    rw [show (V.length:ℤ) - (c - 1 : ℕ) = V.length - c + 1 by omega] at v2
    rw [show (V.length:ℤ) - (c - 2 : ℕ) = V.length - c + 2 by omega] at v3
    have L1 : loud (signal V) c V.length ≤ 2 ^ 80 := by
      unfold loud
      linarith [hV (V.length - c - 1), hV (V.length - c), hV (V.length - c + 1), hV (V.length - c + 2)]
    have hh := hermite_rel f0 f1 f2 f3 (m := loud (signal V) c V.length) (by rw [v0, v1, v2, v3]; exact le_rfl) L1 fr
    rw [v0, v1, v2, v3] at hh
    refine ⟨hh.1, ?_⟩
    have p := lip z0 z1 (by simpa using posR)
    have := abs_add_le (((hermite (ago s (c + 1)) (ago s c) (ago s (c - 1)) (ago s (c - 2)) z).val : ℝ) -
      segment (signal V (V.length - c - 1)) (signal V (V.length - c)) (signal V (V.length - c + 1)) (signal V (V.length - c + 2)) z.val) _ |>.trans
      (add_le_add hh.2 p)
    rw [sub_add_sub_cancel] at this
    refine this.trans (le_of_eq ?_)
    ring

omit [Libm F32] in
/-- What is written, with its two roundings. -/
theorem write_rel {x g y : F32} {S m ε : ℝ} (hx : x.isFin = true) (hx1 : |(x.val : ℝ)| ≤ 2 ^ 77) (hg : g.isFin = true) (hg1 : |(g.val : ℝ)| ≤ 1)
    (ε0 : 0 ≤ ε) (ε1 : ε ≤ 1) (hy : Near y S (ε * m + 1 / 2 ^ 140)) (hS : |S| ≤ 5 / 4 * m) (m1 : m ≤ 2 ^ 79) :
    (x + g * y).isFin = true ∧
    |((x + g * y).val : ℝ)| ≤ (1 + 1 / 2 ^ 22) * (|(x.val : ℝ)| + 1 / 2 ^ 100) + |(g.val : ℝ)| * |S| + (ε * (1 + 1 / 2 ^ 22) + 5 / 2 ^ 24) * m := by
  have S0 := abs_nonneg S
  have m0 : 0 ≤ m := by linarith
  have E0 : 0 ≤ ε * m := mul_nonneg ε0 m0
  have E1 : ε * m ≤ m := mul_le_of_le_one_left m0 ε1
  have G0 := abs_nonneg (g.val : ℝ)
  have P0 : 0 ≤ |(g.val : ℝ)| * |S| := mul_nonneg G0 S0
  have P1 : |(g.val : ℝ)| * |S| ≤ |S| := mul_le_of_le_one_left S0 hg1
  have d0 : 0 ≤ ε * m + 1 / 2 ^ 140 := by positivity
  have Q0 : 0 ≤ |(g.val : ℝ)| * (ε * m + 1 / 2 ^ 140) := mul_nonneg G0 d0
  have Q1 : |(g.val : ℝ)| * (ε * m + 1 / 2 ^ 140) ≤ ε * m + 1 / 2 ^ 140 := mul_le_of_le_one_left d0 hg1
  have X0 := abs_nonneg (x.val : ℝ)
  rw [show (ε * (1 + 1 / 2 ^ 22) + 5 / 2 ^ 24) * m = (ε * m) * (1 + 1 / 2 ^ 22) + 5 / 2 ^ 24 * m by ring]
  have h1 := (near_mul_rel hy hg (A := |S|) le_rfl le_rfl (by norm_num at m1 Q1 ⊢; linarith)).1
  have hgS : |(g.val : ℝ) * S| = |(g.val : ℝ)| * |S| := abs_mul _ _
  generalize |(g.val : ℝ)| * (ε * m + 1 / 2 ^ 140) = Q at *
  generalize |(g.val : ℝ)| * |S| = P at *
  generalize ε * m = E at *
  have hA : |(x.val : ℝ) + g.val * S| ≤ |(x.val : ℝ)| + P := by rw [← hgS]; exact abs_add_le _ _
  have h2 := near_add_rel (near_val hx) h1 hA (by norm_num at m1 Q1 hx1 ⊢; linarith)
  refine ⟨h2.1, ?_⟩
  have h3 := h2.abs_val_le
  norm_num at Q1 h3 ⊢
  linarith

end CombC

/-! ### The energy argument with errors -/

open CombC

theorem jensen3 {a b w X S L v : ℝ} (ha : 0 < a) (hb : 0 ≤ b) (hw : 0 ≤ w) (h1 : a + b + w = 1) (hv0 : 0 ≤ v) (hv : v ≤ X + b * S + w * L) :
    v ^ 2 ≤ X ^ 2 / a + b * S ^ 2 + w * L ^ 2 := by
  obtain ⟨x, rfl⟩ : ∃ x, X = a * x := ⟨X / a, by field_simp⟩
  have e : (a * x) ^ 2 / a = a * x ^ 2 := by field_simp
  rw [e]
  have h2 : v ^ 2 ≤ (a * x + b * S + w * L) ^ 2 := pow_le_pow_left₀ hv0 hv 2
  refine h2.trans ?_
  obtain rfl : a = 1 - b - w := by linarith
  have k1 : 0 ≤ (1 - b - w) * b * (x - S) ^ 2 := by positivity
  have k2 : 0 ≤ (1 - b - w) * w * (x - L) ^ 2 := by positivity
  have k3 : 0 ≤ b * w * (S - L) ^ 2 := by positivity
  nlinarith

theorem loud_sum {u : ℤ → ℝ} (u0 : ∀ k < 0, u k = 0) {c : ℕ} (hc : 2 ≤ c) (T : ℕ) :
    ∑ n ∈ Finset.range T, (loud u c n / 4) ^ 2 ≤ ∑ n ∈ Finset.range T, u n ^ 2 := by
  have sh := fun e => sum_shift (f := fun k => u k ^ 2) (fun k hk => by simp [u0 k hk]) (fun k => sq_nonneg _) T e
  have h1 := sh (c + 1)
  have h2 := sh c
  have h3 := sh (c - 1)
  have h4 := sh (c - 2)
  have key : ∀ n ∈ Finset.range T, (loud u c n / 4) ^ 2 ≤ (1 / 4) * u ((n:ℤ) - (c + 1 : ℕ)) ^ 2 + (1 / 4) * u ((n:ℤ) - c) ^ 2 +
      (1 / 4) * u ((n:ℤ) - (c - 1 : ℕ)) ^ 2 + (1 / 4) * u ((n:ℤ) - (c - 2 : ℕ)) ^ 2 := by
    intro n _
    rw [show (n:ℤ) - (c + 1 : ℕ) = n - c - 1 by omega, show (n:ℤ) - (c - 1 : ℕ) = n - c + 1 by omega,
      show (n:ℤ) - (c - 2 : ℕ) = n - c + 2 by omega]
    unfold loud
    rw [← sq_abs (u (n - c - 1)), ← sq_abs (u (n - c)), ← sq_abs (u (n - c + 1)), ← sq_abs (u (n - c + 2))]
    generalize |u (n - c - 1)| = p
    generalize |u (n - c)| = q
    generalize |u (n - c + 1)| = r
    generalize |u (n - c + 2)| = s
    nlinarith [sq_nonneg (p - q), sq_nonneg (p - r), sq_nonneg (p - s), sq_nonneg (q - r), sq_nonneg (q - s), sq_nonneg (r - s)]
  refine (Finset.sum_le_sum key).trans ?_
  simp only [Finset.sum_add_distrib, ← Finset.mul_sum]
  linarith

/-- The loop with an error proportional to what is read. -/
theorem loop_energy_rel {u : ℤ → ℝ} (u0 : ∀ k < 0, u k = 0) {D g κ : ℝ} (hD : 2 ≤ D) (g0 : 0 ≤ g) (κ0 : 0 ≤ κ) (h1 : g + κ < 1) {c : ℕ}
    (hc : 2 ≤ c) {X : ℕ → ℝ} {T : ℕ} (hv : ∀ n : ℕ, n < T → |u n| ≤ X n + g * |spline u (n - D)| + κ * (loud u c n / 4)) :
    ∑ n ∈ Finset.range T, u n ^ 2 ≤ (∑ n ∈ Finset.range T, X n ^ 2) / (1 - g - κ) ^ 2 := by
  have a0 : 0 < 1 - g - κ := by linarith
  have key : ∀ n ∈ Finset.range T, u n ^ 2 ≤ X n ^ 2 / (1 - g - κ) + g * spline u (n - D) ^ 2 + κ * (loud u c n / 4) ^ 2 := by
    intro n hn
    have := jensen3 a0 g0 κ0 (by ring) (abs_nonneg _) (hv n (Finset.mem_range.1 hn))
    rwa [sq_abs, sq_abs] at this
  have := Finset.sum_le_sum key
  have ed : ∑ n ∈ Finset.range T, X n ^ 2 / (1 - g - κ) = (∑ n ∈ Finset.range T, X n ^ 2) / (1 - g - κ) := by
    simp only [div_eq_mul_inv, Finset.sum_mul]
  rw [Finset.sum_add_distrib, Finset.sum_add_distrib, ed, ← Finset.mul_sum, ← Finset.mul_sum] at this
  have k1 := mul_le_mul_of_nonneg_left (spline_passive u0 hD T) g0
  have k2 := mul_le_mul_of_nonneg_left (loud_sum u0 hc T) κ0
  rw [le_div_iff₀ (by positivity)]
  have h2 : (∑ n ∈ Finset.range T, u n ^ 2) * (1 - g - κ) ≤ (∑ n ∈ Finset.range T, X n ^ 2) / (1 - g - κ) := by linarith
  rw [le_div_iff₀ a0] at h2
  nlinarith

/-- What comes out of the line, with its errors. -/
theorem out_energy_rel {u : ℤ → ℝ} (u0 : ∀ k < 0, u k = 0) {D κ τ : ℝ} (hD : 2 ≤ D) (κ0 : 0 < κ) {c : ℕ} (hc : 2 ≤ c) {y : ℕ → ℝ} {T : ℕ}
    (hy : ∀ n : ℕ, n < T → |y n| ≤ |spline u (n - D)| + κ * (loud u c n / 4) + κ * τ) :
    ∑ n ∈ Finset.range T, y n ^ 2 ≤ (1 + 2 * κ) * ((1 + κ) * ∑ n ∈ Finset.range T, u n ^ 2 + κ * (T * τ ^ 2)) := by
  have key : ∀ n ∈ Finset.range T, y n ^ 2 ≤ (1 + 2 * κ) * (spline u (n - D) ^ 2 + κ * (loud u c n / 4) ^ 2 + κ * τ ^ 2) := by
    intro n hn
    have h := hy n (Finset.mem_range.1 hn)
    rw [← sq_abs (y n), ← sq_abs (spline u (n - D))]
    generalize |spline u (n - D)| = S at *
    generalize loud u c n / 4 = L at *
    refine (pow_le_pow_left₀ (abs_nonneg _) h 2).trans ?_
    nlinarith [mul_nonneg κ0.le (sq_nonneg (S - L)), mul_nonneg κ0.le (sq_nonneg (S - τ)), mul_nonneg (mul_nonneg κ0.le κ0.le) (sq_nonneg (L - τ))]
  have := Finset.sum_le_sum key
  rw [← Finset.mul_sum, Finset.sum_add_distrib, Finset.sum_add_distrib, ← Finset.mul_sum, Finset.sum_const, Finset.card_range, nsmul_eq_mul] at this
  refine this.trans (mul_le_mul_of_nonneg_left ?_ (by linarith))
  have k1 := spline_passive u0 hD T
  have k2 := mul_le_mul_of_nonneg_left (loud_sum u0 hc T) κ0.le
  linarith

namespace CombC

theorem loud_prefix {V W : List ℝ} (h : V <+: W) (c : ℕ) (n : ℤ) : loud (signal V) c n ≤ loud (signal W) c n := by
  have k : ∀ i, |signal V i| ≤ |signal W i| := by
    intro i
    by_cases hi : i < V.length
    · rw [signal_prefix h hi]
    · have : signal V i = 0 := by
        unfold signal
        rw [if_neg (by omega), List.getD_eq_getElem?_getD, List.getElem?_eq_none (by omega)]; rfl
      rw [this, abs_zero]; exact abs_nonneg _
  unfold loud
  linarith [k (n - c - 1), k (n - c), k (n - c + 1), k (n - c + 2)]

theorem spline_prefix {V W : List ℝ} (h : V <+: W) {D : ℝ} (hD : 2 ≤ D) {n : ℕ} (hn : n ≤ V.length) :
    spline (signal V) (n - D) = spline (signal W) (n - D) :=
  spline_congr (N := n) (fun j hj => signal_prefix h (by omega)) (by push_cast; linarith)

/-- What is written at time `n`, in terms of what was written before. -/
def Written (g κ D : ℝ) (c : ℕ) (X : ℕ → ℝ) (V : List ℝ) (n : ℕ) : Prop :=
  |signal V n| ≤ X n + g * |spline (signal V) (n - D)| + κ * (loud (signal V) c n / 4)

theorem Written.longer {g κ D : ℝ} {c : ℕ} {X : ℕ → ℝ} {V W : List ℝ} {n : ℕ} (h : Written g κ D c X V n) (hVW : V <+: W) (hD : 2 ≤ D)
    (κ0 : 0 ≤ κ) (hn : n < V.length) : Written g κ D c X W n := by
  unfold Written at *
  rw [← signal_prefix hVW (by omega), ← spline_prefix hVW hD hn.le]
  have := mul_le_mul_of_nonneg_left (loud_prefix hVW c n) κ0
  linarith

variable [Libm F32]

/-- One tick. -/
theorem keeps_tick {c N : ℕ} {D : ℚ} {g : F32} {s : Comb F32} {V : List ℝ} (h : Keeps c D g N s V) (hcN : c + 1 ≤ N) (hD : 2 ≤ D)
    (hV : ∀ i, |signal V i| ≤ 2 ^ 77) (hg : g.isFin = true) (hg1 : |(g.val : ℝ)| ≤ 1) {fuel : ℕ} (hf : 1 ≤ fuel) {x : F32}
    (hx : x.isFin = true) (hx1 : |(x.val : ℝ)| ≤ 2 ^ 77) :
    ∃ y v, CombC.tick fuel s x = some (advance s x y, y) ∧ y.isFin = true ∧ Keeps c D g N (advance s x y) (V ++ [v]) ∧
      |(y.val : ℝ)| ≤ |spline (signal V) (V.length - D)| + (N + 32) / 2 ^ 20 * (loud (signal V) c V.length / 4) + 1 / 2 ^ 140 ∧
      |v| ≤ (1 + 1 / 2 ^ 22) * (|(x.val : ℝ)| + 1 / 2 ^ 100) + |(g.val : ℝ)| * |spline (signal V) (V.length - D)| +
        (N + 32) / 2 ^ 20 * (loud (signal V) c V.length / 4) := by
  obtain ⟨y, h1, h2, h3⟩ := read_rel h hcN hD hV hf x
  have hlo := h.delays.lo
  have hhi := h.delays.hi
  rw [h.delay] at hlo hhi
  have loR : (c:ℝ) - 1 ≤ D := by exact_mod_cast hlo
  have hiR : (D:ℝ) ≤ c := by exact_mod_cast hhi
  have hsp := (spline_piece (signal V) (V.length - c) (t := V.length - D) (by push_cast; linarith) (by push_cast; linarith)).1
  rw [show (V.length:ℝ) - D - (((V.length:ℤ) - c : ℤ) : ℝ) = c - D by push_cast; ring] at hsp
  rw [← hsp] at h3
  have L0 : 0 ≤ loud (signal V) c V.length := by unfold loud; positivity
  have L1 : loud (signal V) c V.length ≤ 2 ^ 79 := by
    unfold loud
    linarith [hV (V.length - c - 1), hV (V.length - c), hV (V.length - c + 1), hV (V.length - c + 2)]
  have hS : |spline (signal V) (V.length - D)| ≤ 5 / 4 * loud (signal V) c V.length := by
    rw [hsp]
    have n0 := abs_nonneg (signal V (V.length - c - 1))
    have n1 := abs_nonneg (signal V (V.length - c))
    have n2 := abs_nonneg (signal V (V.length - c + 1))
    have n3 := abs_nonneg (signal V (V.length - c + 2))
    refine segment_abs ?_ ?_ ?_ ?_ (by linarith) (by linarith) <;> (unfold loud; linarith)
  have hN : (N:ℝ) ≤ 4194308 := by
    have := h.delays.safe.hi
    rw [h.size] at this
    exact_mod_cast (by omega : N ≤ 4194308)
  have hN0 : (0:ℝ) ≤ N := Nat.cast_nonneg N
  have ε1 : (3 * (N:ℝ) + 69) / 2 ^ 24 ≤ 1 := by rw [div_le_one (by positivity)]; norm_num; linarith
  have ε0 : 0 ≤ (3 * (N:ℝ) + 69) / 2 ^ 24 := by positivity
  obtain ⟨w1, w2⟩ := write_rel hx hx1 hg hg1 ε0 ε1 h3 hS L1
  have hκ : ((3 * (N:ℝ) + 69) / 2 ^ 24 * (1 + 1 / 2 ^ 22) + 5 / 2 ^ 24) * loud (signal V) c V.length ≤
      (N + 32) / 2 ^ 20 * (loud (signal V) c V.length / 4) := by
    rw [show ((N:ℝ) + 32) / 2 ^ 20 * (loud (signal V) c V.length / 4) = (N + 32) / 2 ^ 22 * loud (signal V) c V.length by ring]
    refine mul_le_mul_of_nonneg_right ?_ L0
    norm_num; linarith
  have hκ' : (3 * (N:ℝ) + 69) / 2 ^ 24 * loud (signal V) c V.length ≤ (N + 32) / 2 ^ 20 * (loud (signal V) c V.length / 4) := by
    refine le_trans (mul_le_mul_of_nonneg_right ?_ L0) hκ
    have : 0 ≤ (3 * (N:ℝ) + 69) / 2 ^ 24 * (1 / 2 ^ 22) := by positivity
    have : (0:ℝ) ≤ 5 / 2 ^ 24 := by positivity
    linarith
  refine ⟨y, ((x + g * y).val : ℝ), h1, h3.1, ⟨h2, h.delay, h.gain, h.size, ?_⟩, ?_, ?_⟩
  · have hs := h.delays.safe
    obtain ⟨b1, b2⟩ := ago_advance hs.len hs.pos (by have := hs.hi; omega) x y
    intro k k1 k2
    rw [signal_snoc]
    rcases Nat.eq_or_lt_of_le k1 with rfl | k3
    · rw [b1, h.gain]
      refine ⟨w1, ?_⟩
      rw [if_pos]; simp
    · obtain ⟨j, rfl⟩ : ∃ j, k = j + 1 := ⟨k - 1, by omega⟩
      have hsz := h.size
      rw [b2 j (by omega) (by omega), if_neg (by simp; omega), show (((V ++ [((x + g * y).val : ℝ)]).length : ℤ) - (j + 1 : ℕ)) = V.length - j by simp]
      exact h.cell j (by omega) (by omega)
  · have := h3.abs_val_le
    linarith
  · linarith

theorem process_rel {c N : ℕ} {D : ℚ} {g : F32} (hcN : c + 1 ≤ N) (hc : 2 ≤ c) (hD : 2 ≤ D) (hg : g.isFin = true) {κ : ℝ}
    (hκ : κ = (N + 32) / 2 ^ 20) (h1 : |(g.val : ℝ)| + κ < 1) {X : ℕ → ℝ}
    (hX : ∀ T, ∑ n ∈ Finset.range T, X n ^ 2 ≤ 2 ^ 150 * (1 - |(g.val : ℝ)| - κ) ^ 2) {fuel : ℕ} (hf : 1 ≤ fuel) :
    ∀ (xs : List F32) (s : Comb F32) (V : List ℝ), Keeps c D g N s V → (∀ x ∈ xs, x.isFin = true) →
    (∀ n < V.length, Written |(g.val : ℝ)| κ D c X V n) →
    (∀ i < xs.length, (1 + 1 / 2 ^ 22) * (|((xs.getD i (lit 0)).val : ℝ)| + 1 / 2 ^ 100) ≤ X (V.length + i)) →
    ∃ s' ys W, CombC.process fuel s xs = some (s', ys) ∧ ys.length = xs.length ∧ V <+: W ∧ W.length = V.length + xs.length ∧
      (∀ n < W.length, Written |(g.val : ℝ)| κ D c X W n) ∧ (∀ y ∈ ys, y.isFin = true) ∧
      ∀ i < xs.length, |((ys.getD i (lit 0)).val : ℝ)| ≤ |spline (signal W) ((V.length + i : ℕ) - D)| +
        κ * (loud (signal W) c (V.length + i : ℕ) / 4) + 1 / 2 ^ 140 := by
  have DR : (2:ℝ) ≤ D := by exact_mod_cast hD
  have κ0 : 0 ≤ κ := by rw [hκ]; positivity
  have g0 := abs_nonneg (g.val : ℝ)
  have a0 : 0 < 1 - |(g.val : ℝ)| - κ := by linarith
  have a1 : (1 - |(g.val : ℝ)| - κ) ^ 2 ≤ 1 := pow_le_one₀ a0.le (by linarith)
  intro xs
  induction xs with
  | nil =>
    intro s V _ _ hw _
    exact ⟨s, [], V, rfl, rfl, List.prefix_rfl, by simp, hw, by simp, by simp⟩
  | cons x xs ih =>
    intro s V h hx hw hxs
    have en := loop_energy_rel (u := signal V) (fun k hk => by simp [signal, hk]) DR g0 κ0 h1 hc (T := V.length) hw
    have en2 : ∑ n ∈ Finset.range V.length, signal V n ^ 2 ≤ 2 ^ 150 := by
      refine en.trans ?_
      rw [div_le_iff₀ (by positivity)]
      exact hX _
    have small : ∀ {z : ℝ}, z ^ 2 ≤ 2 ^ 150 → |z| ≤ 2 ^ 77 := by
      intro z hz
      have : |z| ≤ 2 ^ 75 := abs_le_of_sq_le_sq (by rw [← pow_mul]; exact hz) (by positivity)
      exact this.trans (by norm_num)
    have hV : ∀ i, |signal V i| ≤ 2 ^ 77 := by
      intro i
      by_cases hi : 0 ≤ i ∧ i < V.length
      · obtain ⟨n, rfl⟩ := Int.eq_ofNat_of_zero_le hi.1
        refine small (le_trans ?_ en2)
        exact Finset.single_le_sum (f := fun n : ℕ => signal V n ^ 2) (fun _ _ => sq_nonneg _) (Finset.mem_range.2 (by have := hi.2; omega))
      · have : signal V i = 0 := by
          unfold signal
          split_ifs with h0
          · rfl
          · rw [List.getD_eq_getElem?_getD, List.getElem?_eq_none (by omega)]; rfl
        rw [this, abs_zero]; positivity
    have hx0 := hxs 0 (by simp)
    rw [List.getD_cons_zero, add_zero] at hx0
    have hxs1 : |(x.val : ℝ)| ≤ 2 ^ 77 := by
      have X2 : X V.length ^ 2 ≤ 2 ^ 150 := by
        have k1 := Finset.single_le_sum (f := fun n : ℕ => X n ^ 2) (fun _ _ => sq_nonneg _) (Finset.mem_range.2 (Nat.lt_succ_self V.length))
        have k2 := hX (V.length + 1)
        have k3 : (2:ℝ) ^ 150 * (1 - |(g.val : ℝ)| - κ) ^ 2 ≤ 2 ^ 150 := mul_le_of_le_one_right (by positivity) a1
        exact k1.trans (k2.trans k3)
      have := (le_abs_self _).trans (small X2)
      have x0 := abs_nonneg (x.val : ℝ)
      have : (0:ℝ) ≤ 1 / 2 ^ 100 := by positivity
      nlinarith
    obtain ⟨y, v, t1, t2, t3, t4, t5⟩ := keeps_tick h hcN hD hV hg (by linarith) hf (hx x (by simp)) hxs1
    rw [← hκ] at t4 t5
    have pre : V <+: V ++ [v] := List.prefix_append _ _
    have hlen : (V ++ [v]).length = V.length + 1 := by simp
    have hw' : ∀ n < (V ++ [v]).length, Written |(g.val : ℝ)| κ D c X (V ++ [v]) n := by
      intro n hn
      rcases Nat.lt_or_ge n V.length with h2 | h2
      · exact (hw n h2).longer pre DR κ0 h2
      · obtain rfl : n = V.length := by omega
        unfold Written
        rw [signal_snoc, if_pos rfl, ← spline_prefix pre DR le_rfl]
        have := mul_le_mul_of_nonneg_left (loud_prefix pre c V.length) κ0
        linarith
    obtain ⟨s', ys, W, c1, c2, c3, c4, c5, c6, c7⟩ := ih _ _ t3 (fun z hz => hx z (by simp [hz])) hw' (by
      intro i hi
      have := hxs (i + 1) (by simpa using hi)
      rw [List.getD_cons_succ] at this
      rw [hlen, show V.length + 1 + i = V.length + (i + 1) by ring]
      exact this)
    have hVW : V <+: W := pre.trans c3
    refine ⟨s', y :: ys, W, by rw [CombC.process, t1]; simp [c1], by simp [c2], hVW, by rw [c4, hlen, List.length_cons]; ring, c5, ?_, ?_⟩
    · intro z hz
      rcases List.mem_cons.1 hz with rfl | hz
      · exact t2
      · exact c6 z hz
    · intro i hi
      cases i with
      | zero =>
        rw [List.getD_cons_zero, add_zero, ← spline_prefix hVW DR le_rfl]
        have := mul_le_mul_of_nonneg_left (loud_prefix hVW c V.length) κ0
        linarith
      | succ i =>
        have := c7 i (by simpa using hi)
        rw [List.getD_cons_succ]
        rw [hlen, show V.length + 1 + i = V.length + (i + 1) by ring] at this
        exact this

/-! ### Theorem -/

/-- **C99, partial** (single precision, every rounding, that of the read position included): with a fixed delay of two samples or more the
comb is stable as long as its gain leaves room for the roundings. A line of `L` samples costs `κ = (L + 36) / 2^20`; if `|g| + κ < 1` the
energy of the output up to any moment is at most `((1 + 2 κ) / (1 - |g| - κ))²` times the energy of the input up to that moment, each
sample enlarged by `2^-100`. No sample is infinite or NaN as long as that energy is not astronomical. For the default line of a fifth of a
second at 48 kHz `κ` is below one hundredth. Gains closer to one than `κ` are not covered. -/
theorem C99_energy_float_partial (sr md dt dc : F32) (hsr : sr.In 0 (2 ^ 22)) (hmd : md.isFin = true) (hmd0 : 0 ≤ md.val)
    (hp : md.val * sr.val ≤ 2 ^ 22) (hdt : dt.In 0 md.val) (hD : 2 ≤ (dt * sr).val) (κ γ : ℝ) (hκ : κ = (⌈(md * sr).val⌉ + 36) / 2 ^ 20)
    (h1 : γ + κ < 1) (fuel : ℕ) (hf : 1 ≤ fuel) (xs : List F32) (hx : ∀ x ∈ xs, x.isFin = true)
    (hE : (xs.map fun x => (|(x.val : ℝ)| + 1 / 2 ^ 100) ^ 2).sum ≤ 2 ^ 149 * (1 - γ - κ) ^ 2) :
    ∃ s0, CombC.init sr md = some s0 ∧ ((CombC.setDecayTime dc (CombC.setDelayTime dt s0)).feedbackCoeff.isFin = true →
      |((CombC.setDecayTime dc (CombC.setDelayTime dt s0)).feedbackCoeff.val : ℝ)| = γ →
      ∃ s' ys, CombC.process fuel (CombC.setDecayTime dc (CombC.setDelayTime dt s0)) xs = some (s', ys) ∧ ys.length = xs.length ∧
        (∀ y ∈ ys, y.isFin = true) ∧
        (ys.map fun y => (y.val : ℝ) ^ 2).sum ≤ ((1 + 2 * κ) / (1 - γ - κ)) ^ 2 * (xs.map fun x => (|(x.val : ℝ)| + 1 / 2 ^ 100) ^ 2).sum) := by
  obtain ⟨s0, a1, s, a2, a3, a4, a5, a6, a7, a8⟩ := setup_float hsr hmd hmd0 hp hdt dc
  refine ⟨s0, a1, fun hg hγ => ?_⟩
  rw [← a2] at hg hγ ⊢
  have hm : (md * sr).In 0 (2 ^ 22 : ℚ) := mul_in hmd hsr.1 rep_zero (rep_two_pow (by norm_num)) (mul_nonneg hmd0 hsr.2.1) hp
  have hle : (dt * sr).val ≤ (md * sr).val := by
    have v1 := (mul_val hdt.1 hsr.1 rep_zero (rep_two_pow (k := 22) (by norm_num)) (mul_nonneg hdt.2.1 hsr.2.1)
      (le_trans (mul_le_mul_of_nonneg_right hdt.2.2 hsr.2.1) hp)).2
    have v2 := (mul_val hmd hsr.1 rep_zero (rep_two_pow (k := 22) (by norm_num)) (mul_nonneg hmd0 hsr.2.1) hp).2
    rw [v1, v2]
    exact binary32.rnd_mono (mul_le_mul_of_nonneg_right hdt.2.2 hsr.2.1)
  set D := (dt * sr).val with hDd
  have hc0 : (2:ℤ) ≤ ⌈D⌉ := by
    have : (2:ℚ) ≤ ⌈D⌉ := hD.trans (Int.le_ceil D)
    exact_mod_cast this
  have hcm : ⌈D⌉ ≤ ⌈(md * sr).val⌉ := Int.ceil_mono hle
  obtain ⟨c, hc⟩ : ∃ c : ℕ, ⌈D⌉ = c := ⟨⌈D⌉.toNat, by omega⟩
  have hcD : D ≤ c := by have := Int.le_ceil D; rw [hc] at this; exact_mod_cast this
  have hDc : (c:ℚ) - 1 ≤ D := by
    have := Int.ceil_lt_add_one D
    rw [hc] at this
    push_cast at this
    linarith
  have hcN : c + 1 ≤ s.bufferSize := by rw [a4]; omega
  have hκ' : κ = (s.bufferSize + 32) / 2 ^ 20 := by
    have : (s.bufferSize : ℤ) = ⌈(md * sr).val⌉ + 4 := by rw [a4]; push_cast; omega
    have : (s.bufferSize : ℝ) = ⌈(md * sr).val⌉ + 4 := by exact_mod_cast this
    rw [hκ, this]; ring
  have K : Keeps c D s.feedbackCoeff s.bufferSize s [] := by
    refine ⟨⟨a3, by omega, by omega, by rw [a7, a8]; exact hDc, by rw [a7, a8]; exact hcD⟩, by rw [a7, a8], rfl, rfl, ?_⟩
    intro k k1 k2
    have hz : ago s k = lit 0 := by
      unfold ago
      rw [a5, List.getD_eq_getElem?_getD, List.getElem?_replicate]
      split_ifs <;> rfl
    rw [hz, lit_zero.val_eq]
    exact ⟨lit_zero.1, by simp [signal]⟩
  have κ1 : 36 / 2 ^ 20 ≤ κ := by
    rw [hκ']
    have : (4:ℝ) ≤ s.bufferSize := by exact_mod_cast a3.lo
    gcongr; linarith
  have κ0 : 0 < κ := lt_of_lt_of_le (by norm_num) κ1
  have g0 : 0 ≤ γ := by rw [← hγ]; exact abs_nonneg _
  have A0 : 0 < 1 - γ - κ := by linarith
  -- the input
  set X : ℕ → ℝ := fun n => if n < xs.length then (1 + 1 / 2 ^ 22) * (|((xs.getD n (lit 0)).val : ℝ)| + 1 / 2 ^ 100) else 0 with hXd
  have sumE : ∀ (f : F32 → ℝ) (l : List F32), (l.map fun x => f x ^ 2).sum = ∑ n ∈ Finset.range l.length, f (l.getD n (lit 0)) ^ 2 := by
    intro f l
    induction l with
    | nil => simp
    | cons a l ih => rw [List.map_cons, List.sum_cons, List.length_cons, Finset.sum_range_succ', ih]; simp [add_comm]
  have hE' := sumE (fun x => |(x.val : ℝ)| + 1 / 2 ^ 100) xs
  rw [hE'] at hE ⊢
  set E := ∑ n ∈ Finset.range xs.length, (|((xs.getD n (lit 0)).val : ℝ)| + 1 / 2 ^ 100) ^ 2 with hEd
  have E0 : 0 ≤ E := Finset.sum_nonneg fun _ _ => sq_nonneg _
  have XE : ∑ n ∈ Finset.range xs.length, X n ^ 2 = (1 + 1 / 2 ^ 22) ^ 2 * E := by
    rw [hEd, Finset.mul_sum]
    refine Finset.sum_congr rfl fun n hn => ?_
    simp only [hXd]
    rw [if_pos (Finset.mem_range.1 hn), mul_pow]
  have XT : ∀ T, ∑ n ∈ Finset.range T, X n ^ 2 ≤ (1 + 1 / 2 ^ 22) ^ 2 * E := by
    intro T
    rw [← XE]
    rcases Nat.le_total T xs.length with h | h
    · exact Finset.sum_le_sum_of_subset_of_nonneg (Finset.range_mono h) fun _ _ _ => sq_nonneg _
    · refine le_of_eq (Finset.sum_subset (Finset.range_mono h) fun n _ hn => ?_).symm
      simp only [hXd]
      rw [if_neg (by simpa using hn)]; simp
  obtain ⟨s', ys, W, b1, b2, -, b4, b5, b6, b7⟩ := process_rel hcN (by omega) hD hg hκ' (by rw [hγ]; exact h1) (X := X) (by
    intro T
    rw [hγ]
    refine (XT T).trans ?_
    have : (1 + 1 / 2 ^ 22 : ℝ) ^ 2 * E ≤ 2 * E := mul_le_mul_of_nonneg_right (by norm_num) E0
    have e : (2:ℝ) ^ 150 * (1 - γ - κ) ^ 2 = 2 * (2 ^ 149 * (1 - γ - κ) ^ 2) := by ring
    rw [e]; linarith) hf xs s [] K hx (by simp) (by
    intro i hi
    simp only [hXd, List.length_nil, zero_add]
    rw [if_pos hi])
  refine ⟨s', ys, b1, b2, b6, ?_⟩
  rw [List.length_nil, zero_add] at b4
  have DR : (2:ℝ) ≤ D := by exact_mod_cast hD
  have hu : ∀ k < 0, signal W k = 0 := fun k hk => by simp [signal, hk]
  have hc2 : 2 ≤ c := by omega
  rw [hγ] at b5
  have en := loop_energy_rel hu DR g0 κ0.le h1 hc2 (T := xs.length) (fun n hn => b5 n (by omega))
  have out := out_energy_rel hu DR κ0 hc2 (y := fun n => ((ys.getD n (lit 0)).val : ℝ)) (τ := 1 / 2 ^ 125) (T := xs.length) (fun n hn => by
    have := b7 n hn
    rw [List.length_nil, zero_add] at this
    have e : (1:ℝ) / 2 ^ 140 ≤ κ * (1 / 2 ^ 125) := by
      refine le_trans ?_ (mul_le_mul_of_nonneg_right κ1 (by positivity))
      norm_num
    linarith)
  rw [sumE (fun y => (y.val : ℝ)) ys, b2]
  refine out.trans ?_
  rw [XE] at en
  have hT : (xs.length : ℝ) * (1 / 2 ^ 125) ^ 2 ≤ E / 2 ^ 50 := by
    have : ∑ n ∈ Finset.range xs.length, (1 / 2 ^ 100 : ℝ) ^ 2 ≤ E :=
      Finset.sum_le_sum fun n _ => pow_le_pow_left₀ (by positivity) (by linarith [abs_nonneg ((xs.getD n (lit 0)).val : ℝ)]) 2
    rw [Finset.sum_const, Finset.card_range, nsmul_eq_mul] at this
    rw [le_div_iff₀ (by positivity)]
    refine le_trans (le_of_eq ?_) this
    ring
  have A1 : (1 - γ - κ) ^ 2 ≤ 1 := pow_le_one₀ A0.le (by linarith)
  set F := E / (1 - γ - κ) ^ 2 with hF
  have F0 : 0 ≤ F := by positivity
  have EF : E ≤ F := by rw [hF, le_div_iff₀ (by positivity)]; exact mul_le_of_le_one_right E0 A1
  have en' : ∑ n ∈ Finset.range xs.length, signal W n ^ 2 ≤ (1 + 1 / 2 ^ 22) ^ 2 * F := by
    refine en.trans (le_of_eq ?_); rw [hF]; ring
  have goal : ((1 + 2 * κ) / (1 - γ - κ)) ^ 2 * E = (1 + 2 * κ) * ((1 + 2 * κ) * F) := by
    rw [hF, div_pow]
    generalize (1 - γ - κ) ^ 2 = a
    ring
  rw [goal]
  refine mul_le_mul_of_nonneg_left ?_ (by linarith)
  have p1 := mul_le_mul_of_nonneg_left en' (show 0 ≤ 1 + κ by linarith)
  have κ2 : κ ≤ 1 := by linarith
  have p2 : κ * ((xs.length : ℝ) * (1 / 2 ^ 125) ^ 2) ≤ F / 2 ^ 50 := by
    have : 0 ≤ (xs.length : ℝ) * (1 / 2 ^ 125) ^ 2 := by positivity
    refine (mul_le_of_le_one_left this κ2).trans (hT.trans ?_)
    gcongr
  have p3 : (1 + κ) * ((1 + 1 / 2 ^ 22) ^ 2 * F) + F / 2 ^ 50 ≤ (1 + 2 * κ) * F := by
    have : ((1 + κ) * (1 + 1 / 2 ^ 22) ^ 2 + 1 / 2 ^ 50) * F ≤ (1 + 2 * κ) * F := by
      refine mul_le_mul_of_nonneg_right ?_ F0
      norm_num at κ1 ⊢; linarith
    refine le_trans (le_of_eq ?_) this
    ring
  linarith

/-- Concrete case: the line of a fifth of a second at 48 kHz, a delay of 1/64 s, a decay of 0.3 s; the gain is at most 0.795, the roundings
cost less than a hundredth, and one sample of full scale is far below the limit. -/
example [LibmSpec] : (ofRat 48000 : F32).In 0 (2 ^ 22) ∧ (ofRat (1 / 5) : F32).val * (ofRat 48000 : F32).val ≤ 2 ^ 22 ∧
    (ofRat (1 / 64) : F32).In 0 (ofRat (1 / 5) : F32).val ∧ 2 ≤ ((ofRat (1 / 64) : F32) * ofRat 48000).val ∧
    ((⌈((ofRat (1 / 5) : F32) * ofRat 48000).val⌉ : ℚ) + 36) / 2 ^ 20 ≤ 1 / 100 ∧
    ∀ s : Comb F32, s.delayTime = ofRat (1 / 64) → s.decayTime = ofRat (3 / 10) → (updateFeedback s).feedbackCoeff.In (-0.795) 0.795 := by
  refine ⟨by decide +kernel, by decide +kernel, by decide +kernel, by decide +kernel, by decide +kernel, fun s h1 h2 => ?_⟩
  refine gain_small (τ := 1 / 64) (T := 31 / 100) (by norm_num) (by rw [h1]; decide +kernel) ?_
  rw [h2]
  have a : (ofRat (3 / 10) : F32).isFin = true ∧ 1 / 2 ^ 90 ≤ |(ofRat (3 / 10) : F32).val| ∧ |(ofRat (3 / 10) : F32).val| ≤ 31 / 100 := by
    decide +kernel
  exact ⟨a.1, Or.inr a.2.1, a.2.2⟩

end CombC
end Verif
