import Verif.Float.Convex
import Verif.Model.Types

/-!
# Linear interpolation `a + t*(b-a)` does not overshoot in IEEE arithmetic for `0 ≤ t ≤ 1 - 2^-prec`
-/

namespace Verif

/-- A grid number below a number that was rounded up is below the exact number. -/
theorem Fmt.grid_lt_rnd (f : Fmt) {q g : ℚ} (hg : f.Grid g) (h : g < f.rnd q) : g ≤ q := by
  by_contra hc
  have hn := f.rnd_nearest q hg
  simp only [Rat.cast_id] at hn
  have h1 : q < g := not_le.1 hc
  rw [abs_of_neg (by linarith), abs_of_neg (by linarith)] at hn
  linarith

/-- A difference of grid numbers below `2^(emin+prec)` is exact. -/
theorem Fmt.grid_sub_small (f : Fmt) {a b : ℚ} (ha : f.Grid a) (hb : f.Grid b)
    (h : |b - a| < 2 ^ (f.emin + f.prec)) : f.Grid (b - a) := by
  obtain ⟨m, hm⟩ := ha.mult_emin
  obtain ⟨n, hn⟩ := hb.mult_emin
  have e : b - a = ((n - m : ℤ) : ℚ) * 2 ^ f.emin := by rw [hm, hn]; push_cast; ring
  rw [e]
  refine f.grid_of_mult le_rfl ?_
  rw [e, abs_mul, abs_of_pos (by positivity : (0:ℚ) < 2 ^ f.emin), zpow_add₀ (by norm_num), mul_comm ((2:ℚ) ^ f.emin)] at h
  have h2 := lt_of_mul_lt_mul_right h (by positivity)
  rw [zpow_natCast] at h2
  have h3 : |n - m| < 2 ^ f.prec := by exact_mod_cast h2
  exact h3.le

theorem Fmt.lerp_rnd (f : Fmt) {a b t : ℚ} (ha : f.Grid a) (hb : f.Grid b) (h0 : 0 ≤ t)
    (h1 : t ≤ 1 - 2 ^ (-(f.prec : ℤ))) (hab : a ≤ b) :
    0 ≤ f.rnd (t * f.rnd (b - a)) ∧ f.rnd (t * f.rnd (b - a)) ≤ b - a := by
  have hp2 : (0:ℚ) < 2 ^ (-(f.prec : ℤ)) := by positivity
  have hr0 : 0 ≤ f.rnd (b - a) := f.le_rnd_of_le (K := ℚ) f.grid_zero (by simpa using hab)
  have ht1 : t ≤ 1 := by linarith
  constructor
  · exact f.le_rnd_of_le (K := ℚ) f.grid_zero (by simpa using mul_nonneg h0 hr0)
  · have hle : f.rnd (t * f.rnd (b - a)) ≤ f.rnd (b - a) :=
      f.rnd_le_of_le (K := ℚ) (f.grid_rnd _) (by simpa using mul_le_of_le_one_left hr0 ht1)
    rcases le_or_gt (f.rnd (b - a)) (b - a) with h | h
    · exact hle.trans h
    · have hbig : (2:ℚ) ^ (f.emin + f.prec) ≤ f.rnd (b - a) := by
        by_contra hc
        have hs : |b - a| < 2 ^ (f.emin + f.prec) := by
          rw [abs_of_nonneg (by linarith)]; linarith
        have := f.rnd_grid (K := ℚ) (f.grid_sub_small ha hb hs)
        simp only [Rat.cast_id] at this
        linarith
      exact f.grid_lt_rnd (f.grid_rnd _) (f.rnd_mul_lt (f.grid_rnd _) hbig h1)

namespace FP

/-- `lerp` stays between its end points in single precision. -/
theorem lerp_in {a b t : F32} (ha : a.In (-2 ^ 126) (2 ^ 126)) (hb : b.In (-2 ^ 126) (2 ^ 126))
    (ht : t.In 0 (1 - 2 ^ (-24 : ℤ))) : (lerp a b t).In (min a.val b.val) (max a.val b.val) := by
  have hp : (-(binary32.prec : ℤ)) = -24 := rfl
  have hd := sub_val (l := -2 ^ 127) (u := 2 ^ 127) hb.1 ha.1 (Rep.neg (rep_two_pow (by norm_num))) (rep_two_pow (by norm_num))
    (by have := hb.2.1; have := ha.2.2; linarith) (by have := hb.2.2; have := ha.2.1; linarith)
  have hdb : |(b - a).val| ≤ 2 ^ 127 := by
    rw [abs_le]
    have := sub_in (l := -2 ^ 127) (u := 2 ^ 127) hb ha (Rep.neg (rep_two_pow (by norm_num))) (rep_two_pow (by norm_num))
      (by linarith) (by linarith)
    exact this.2
  have htm : |t.val * (b - a).val| ≤ 2 ^ 127 := by
    rw [abs_mul, abs_of_nonneg ht.2.1]
    have h24 : (0:ℚ) < 2 ^ (-24:ℤ) := by positivity
    have : t.val ≤ 1 := by have := ht.2.2; linarith
    nlinarith [abs_nonneg (b - a).val]
  rw [abs_le] at htm
  have hm := mul_val ht.1 hd.1 (Rep.neg (rep_two_pow (k := 127) (by norm_num))) (rep_two_pow (by norm_num)) htm.1 htm.2
  rw [hd.2] at hm
  show (a + t * (b - a)).In _ _
  rcases le_total a.val b.val with h | h
  · have := binary32.lerp_rnd (grid_val a) (grid_val b) ht.2.1 (by rw [hp]; exact ht.2.2) h
    rw [← hm.2] at this
    rw [min_eq_left h, max_eq_right h]
    exact add_in (in_val ha.1) (in_val hm.1) (rep_val a) (rep_val b) (by linarith) (by linarith)
  · have := binary32.lerp_rnd (grid_val b) (grid_val a) ht.2.1 (by rw [hp]; exact ht.2.2) h
    have e : binary32.rnd (t.val * binary32.rnd (b.val - a.val)) = -binary32.rnd (t.val * binary32.rnd (a.val - b.val)) := by
      rw [← Fmt.rnd_neg, show b.val - a.val = -(a.val - b.val) by ring, Fmt.rnd_neg]; congr 1; ring
    rw [e] at hm
    rw [min_eq_right h, max_eq_left h]
    exact add_in (in_val ha.1) (in_val hm.1) (rep_val b) (rep_val a) (by linarith [hm.2]) (by linarith [hm.2])

/-- The fractional part of a non-negative number, computed as `x - float(size_t(x))`, is exact and at most `1 - 2^-24`. -/
theorem frac_in {x : F32} (hx : x.isFin = true) (h0 : 0 ≤ x.val) (h1 : x.val ≤ 2 ^ 24) :
    (x - Arith.ofNat ⌊x.val⌋.toNat : F32).In (Int.fract x.val) (Int.fract x.val) ∧ Int.fract x.val ≤ 1 - 2 ^ (-24 : ℤ) := by
  have hfl : (0:ℤ) ≤ ⌊x.val⌋ := Int.floor_nonneg.2 h0
  have hcast : ((⌊x.val⌋.toNat : ℕ) : ℚ) = (⌊x.val⌋ : ℤ) := by
    have : ((⌊x.val⌋.toNat : ℕ) : ℤ) = ⌊x.val⌋ := Int.toNat_of_nonneg hfl
    exact_mod_cast this
  have hfu : ⌊x.val⌋ ≤ 2 ^ 24 := by
    have h2 : (⌊x.val⌋ : ℚ) ≤ 2 ^ 24 := (Int.floor_le _).trans h1
    exact_mod_cast h2
  have hle : |⌊x.val⌋| ≤ 2 ^ binary32.prec := by
    have e2 : (2:ℤ) ^ binary32.prec = 2 ^ 24 := by decide
    rw [e2, abs_of_nonneg hfl]; exact hfu
  have hrep : binary32.Rep ((⌊x.val⌋ : ℤ) : ℚ) false := by
    refine ⟨binary32.grid_int hle, ?_, by simp⟩
    rw [abs_of_nonneg (by exact_mod_cast hfl)]
    exact lt_of_le_of_lt ((Int.floor_le _).trans h1) (two_pow_lt_max (by norm_num))
  have hn : (Arith.ofNat ⌊x.val⌋.toNat : F32).In (⌊x.val⌋ : ℤ) (⌊x.val⌋ : ℤ) := by
    have : (Arith.ofNat ⌊x.val⌋.toNat : F32) = ofRat (((⌊x.val⌋.toNat : ℕ) : ℤ) : ℚ) := rfl
    rw [this]; push_cast; rw [hcast]; exact ofRat_rep hrep
  -- x is a multiple of 2^-24 or below 1/2
  have key : binary32.Grid (Int.fract x.val) ∧ Int.fract x.val ≤ 1 - 2 ^ (-24 : ℤ) := by
    have hlt := Int.fract_lt_one x.val
    have h0' := Int.fract_nonneg x.val
    rcases lt_or_ge x.val (1 / 2) with hs | hs
    · have hf0 : ⌊x.val⌋ = 0 := by rw [Int.floor_eq_zero_iff]; exact ⟨h0, by linarith⟩
      have e : Int.fract x.val = x.val := by rw [Int.fract, hf0]; simp
      rw [e]
      exact ⟨grid_val x, by norm_num; linarith⟩
    · obtain ⟨n, hn⟩ := (grid_val x).mult (k := -24) (by
        have : (-24 : ℤ) + binary32.prec - 1 = -1 := by decide
        rw [this, abs_of_nonneg h0]; norm_num; linarith)
      have e : Int.fract x.val = ((n - ⌊x.val⌋ * 2 ^ 24 : ℤ) : ℚ) * 2 ^ (-24 : ℤ) := by
        rw [Int.fract]
        push_cast
        rw [sub_mul, ← hn]
        congr 1
        norm_num
        ring
      rw [e] at hlt h0'
      have hlt' : ((n - ⌊x.val⌋ * 2 ^ 24 : ℤ) : ℚ) < 2 ^ 24 := by
        norm_num at hlt ⊢; linarith
      have h0'' : (0:ℚ) ≤ ((n - ⌊x.val⌋ * 2 ^ 24 : ℤ) : ℚ) := by
        norm_num at h0' ⊢; linarith
      have i1 : n - ⌊x.val⌋ * 2 ^ 24 < 2 ^ 24 := by exact_mod_cast hlt'
      have i0 : 0 ≤ n - ⌊x.val⌋ * 2 ^ 24 := by exact_mod_cast h0''
      constructor
      · rw [e]
        refine binary32.grid_of_mult (by decide) ?_
        have e2 : (2:ℤ) ^ binary32.prec = 2 ^ 24 := by decide
        rw [e2, abs_of_nonneg i0]; exact i1.le
      · rw [e]
        have : ((n - ⌊x.val⌋ * 2 ^ 24 : ℤ) : ℚ) ≤ 2 ^ 24 - 1 := by
          have : n - ⌊x.val⌋ * 2 ^ 24 ≤ 2 ^ 24 - 1 := by omega
          exact_mod_cast this
        norm_num at this ⊢; linarith
  have hR : binary32.Rep (Int.fract x.val) false := by
    refine ⟨key.1, ?_, by simp⟩
    rw [abs_of_nonneg (Int.fract_nonneg _)]
    exact lt_of_lt_of_le (Int.fract_lt_one _) (le_trans (by norm_num) (two_pow_lt_max (k := 0) (by norm_num)).le)
  exact ⟨sub_in (in_val hx) hn hR hR (by rw [Int.fract]) (by rw [Int.fract]), key.2⟩

end FP
end Verif
