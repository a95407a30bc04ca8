import Verif.Props.SuperSawBound
import Verif.Float.Near

/-!
# Properties C24 and C43 in single precision: how loud the saws get
-/

set_option linter.unusedSectionVars false

namespace Verif
open FP

/-- A finite float of magnitude at most `M`. -/
def Upto (x : F32) (M : ℝ) : Prop := x.isFin = true ∧ |(x.val : ℝ)| ≤ M

theorem Upto.mono {x : F32} {M N : ℝ} (h : Upto x M) (hN : M ≤ N) : Upto x N := ⟨h.1, h.2.trans hN⟩

theorem upto_of_rat {q : ℚ} {zs : Bool} {M : ℝ} (h : |(q:ℝ)| ≤ M) (hM : M ≤ 2 ^ (126:ℤ)) :
    Upto (ofRat q zs : F32) (M * (1 + 1 / 2 ^ 24) + 2 ^ (-150:ℤ)) := by
  have h2' : |q| ≤ (2:ℚ) ^ (127:ℤ) := by
    have : ((|q| : ℚ) : ℝ) ≤ ((2 ^ (127:ℤ) : ℚ) : ℝ) := by
      rw [Rat.cast_zpow, Rat.cast_abs]
      refine (h.trans hM).trans ?_
      rw [Rat.cast_ofNat]
      exact zpow_le_zpow_right₀ (by norm_num) (by norm_num)
    exact_mod_cast this
  obtain ⟨l, u⟩ := abs_le.1 h2'
  have R := rep_zpow (k := 127) (by omega) (by omega)
  have hin := ofRat_in (f := binary32) (zs := zs) (Rep.neg R) R l u
  have hv := ofRat_val (f := binary32) (zs := zs) (Rep.neg R) R l u
  have he := binary32.rnd_rel_err (K := ℚ) (x := q)
  refine ⟨hin.1, ?_⟩
  rw [hv]
  have he' : |(q : ℝ) - ((binary32.rnd q : ℚ) : ℝ)| ≤ |(q : ℝ)| * (1 / 2 ^ 24) + 2 ^ (-150:ℤ) := by
    have h2 : ((|q - binary32.rnd q| : ℚ) : ℝ) ≤ ((|q| * 2 ^ (-24:ℤ) + 2 ^ (-150:ℤ) : ℚ) : ℝ) := by exact_mod_cast he
    rw [Rat.cast_add, Rat.cast_zpow] at h2
    rw [Rat.cast_mul, Rat.cast_abs, Rat.cast_abs, Rat.cast_zpow, Rat.cast_sub] at h2
    have h3 : (((2:ℚ) : ℝ)) ^ (-24:ℤ) = 1 / 2 ^ 24 := by push_cast; norm_num
    rw [h3] at h2
    have h4 : (((2:ℚ) : ℝ)) ^ (-150:ℤ) = 2 ^ (-150:ℤ) := by rw [Rat.cast_ofNat]
    rw [h4] at h2
    exact h2
  have h5 := abs_sub_abs_le_abs_sub ((binary32.rnd q : ℚ) : ℝ) (q : ℝ)
  rw [abs_sub_comm] at h5
  have h6 := mul_le_mul_of_nonneg_right h (show (0:ℝ) ≤ 1 / 2 ^ 24 by norm_num)
  generalize (2:ℝ) ^ (-150:ℤ) = A at *
  linarith

theorem Upto.big {M : ℝ} (hM : 2 ^ (-100:ℤ) ≤ M) : M * (1 + 1 / 2 ^ 24) + 2 ^ (-150:ℤ) ≤ M * (1 + 1 / 2 ^ 23) := by
  have h1 : (2:ℝ) ^ (-150:ℤ) ≤ 2 ^ (-100:ℤ) * (1 / 2 ^ 24) := by norm_num
  have h2 := mul_le_mul_of_nonneg_right hM (show (0:ℝ) ≤ 1 / 2 ^ 24 by norm_num)
  have h3 : M * (1 + 1 / 2 ^ 23) = M * (1 + 1 / 2 ^ 24) + M * (1 / 2 ^ 24) := by ring
  rw [h3]
  generalize (2:ℝ) ^ (-150:ℤ) = A at *
  generalize (2:ℝ) ^ (-100:ℤ) = B at *
  linarith

theorem Upto.add {x y : F32} {M N : ℝ} (hx : Upto x M) (hy : Upto y N) (h1 : 2 ^ (-100:ℤ) ≤ M + N) (h2 : M + N ≤ 2 ^ (126:ℤ)) :
    Upto (x + y) ((M + N) * (1 + 1 / 2 ^ 23)) := by
  obtain ⟨zs, h⟩ := add_def hx.1 hy.1
  rw [h]
  refine (upto_of_rat ?_ h2).mono (Upto.big h1)
  push_cast
  exact (abs_add_le _ _).trans (add_le_add hx.2 hy.2)

theorem Upto.sub {x y : F32} {M : ℝ} (hx : x.isFin = true) (hy : y.isFin = true) (h : |(x.val : ℝ) - y.val| ≤ M)
    (h1 : 2 ^ (-100:ℤ) ≤ M) (h2 : M ≤ 2 ^ (126:ℤ)) : Upto (x - y) (M * (1 + 1 / 2 ^ 23)) := by
  obtain ⟨zs, e⟩ := sub_def hx hy
  rw [e]
  refine (upto_of_rat ?_ h2).mono (Upto.big h1)
  push_cast
  exact h

theorem Upto.mul {x y : F32} {M N : ℝ} (hx : Upto x M) (hy : Upto y N) (h1 : 2 ^ (-100:ℤ) ≤ M * N) (h2 : M * N ≤ 2 ^ (126:ℤ)) :
    Upto (x * y) (M * N * (1 + 1 / 2 ^ 23)) := by
  obtain ⟨zs, h⟩ := mul_def hx.1 hy.1
  rw [h]
  refine (upto_of_rat ?_ h2).mono (Upto.big h1)
  push_cast
  rw [abs_mul]
  exact mul_le_mul hx.2 hy.2 (abs_nonneg _) ((abs_nonneg _).trans hx.2)

namespace SawDPW

/-- The parabola as the code computes it. -/
def fparabola (p : F32) : F32 := (p * lit 2 - lit 1) * (p * lit 2 - lit 1)

theorem fparabola_near {p : F32} (hp : p.In 0 1) : Near (fparabola p) (parabola p.val) (1 / 2 ^ 21) := by
  have h2 : (lit 2 : F32).In 2 2 := lit_rep (by decide +kernel)
  have h1 := lit_one (f := binary32)
  have p0 : (0:ℝ) ≤ p.val := by exact_mod_cast hp.2.1
  have p1 : (p.val : ℝ) ≤ 1 := by exact_mod_cast hp.2.2
  have n2 := near_val h2.1
  rw [h2.val_eq] at n2
  have n1 := near_val h1.1
  rw [h1.val_eq] at n1
  have a := near_mul 2 (near_val hp.1) n2 (by norm_num) (by norm_num) (by
    push_cast
    rw [abs_of_nonneg (by positivity)]
    norm_num; linarith)
  have a' := a.mono (e' := 1 / 2 ^ 23) (by norm_num)
  have hb : |(p.val : ℝ) * 2 - 1| ≤ 1 := by rw [abs_le]; constructor <;> linarith
  have b := near_sub 1 a' n1 (by norm_num) (by norm_num) (by
    push_cast
    refine lt_of_le_of_lt (add_le_add_left hb _) ?_
    norm_num)
  push_cast at b
  have b' := b.mono (e' := 3 / 2 ^ 24) (by norm_num)
  have c := near_mul 1 b' b' (by norm_num) (by norm_num) (by
    rw [abs_mul]
    rw [abs_mul_abs_self]
    have : ((p.val : ℝ) * 2 - 1) * ((p.val : ℝ) * 2 - 1) ≤ 1 := by nlinarith
    norm_num; linarith)
  refine c.mono ?_
  have : |(p.val : ℝ) * 2 - 1| * (3 / 2 ^ 24) ≤ 1 * (3 / 2 ^ 24) := by gcongr
  norm_num at *
  linarith

/-- One step of the phase, wrapping included, moves the parabola by at most four times the increment and the rounding. -/
theorem fstep {p i : F32} (hp : p.In 0 1) (hi : i.In 0 1) :
    let r : F32 := if (p + i) >=. lit 1 then (p + i) - lit 1 else p + i
    r.In 0 1 ∧ |parabola r.val - parabola p.val| ≤ 4 * ((i.val : ℝ) + 1 / 2 ^ 22) := by
  intro r
  have hr : r.In 0 1 := LFTri.phase_step hp hi
  refine ⟨hr, ?_⟩
  have h1 := lit_one (f := binary32)
  have p0 : (0:ℝ) ≤ p.val := by exact_mod_cast hp.2.1
  have p1 : (p.val : ℝ) ≤ 1 := by exact_mod_cast hp.2.2
  have i0 : (0:ℝ) ≤ i.val := by exact_mod_cast hi.2.1
  have i1 : (i.val : ℝ) ≤ 1 := by exact_mod_cast hi.2.2
  have r0 : (0:ℝ) ≤ r.val := by exact_mod_cast hr.2.1
  have r1 : (r.val : ℝ) ≤ 1 := by exact_mod_cast hr.2.2
  have a := near_add 2 (near_val hp.1) (near_val hi.1) (by norm_num) (by norm_num) (by
    rw [abs_of_nonneg (by linarith)]; norm_num; linarith)
  have a' := a.mono (e' := 1 / 2 ^ 23) (by norm_num)
  have ha := abs_le.1 a'.2
  by_cases h : ((p + i) >=. lit 1) = true
  · have e : r = (p + i) - lit 1 := if_pos h
    have n1 := near_val h1.1
    rw [h1.val_eq] at n1
    have b := near_sub 2 a' n1 (by norm_num) (by norm_num) (by
      have : |(p.val : ℝ) + i.val - (1:ℚ)| ≤ 1 := by push_cast; rw [abs_le]; constructor <;> linarith
      norm_num at *; linarith)
    rw [← e] at b
    have hb := abs_le.1 (b.mono (e' := 1 / 2 ^ 22) (by norm_num)).2
    push_cast at hb
    unfold parabola
    rw [abs_le]
    constructor <;> nlinarith
  · have e : r = p + i := if_neg h
    have hd : |(r.val : ℝ) - p.val| ≤ i.val + 1 / 2 ^ 22 := by
      rw [e, abs_le]
      constructor <;> linarith [ha.1, ha.2]
    have : parabola r.val - parabola p.val = 4 * ((r.val - p.val) * (r.val + p.val - 1)) := by unfold parabola; ring
    rw [this, abs_mul, abs_mul, show |(4:ℝ)| = 4 by norm_num]
    have h3 : |(r.val : ℝ) + p.val - 1| ≤ 1 := by rw [abs_le]; constructor <;> linarith
    have := mul_le_mul hd h3 (abs_nonneg _) (by positivity)
    linarith

/-- What a tick leaves behind: the parabola the next tick computes is close to the stored one. -/
theorem ftick_left (s : Osc F32) (f : F32) (hsr : s.sampleRate.isFin = true) (hs0 : 0 < s.sampleRate.val) (hf : f.In 0 s.sampleRate.val)
    (hp : s.phase.In 0 1) :
    let t := (tick (setFrequency f s)).1
    t.phase.In 0 1 ∧ t.prevParabolic = fparabola s.phase ∧
      |((fparabola t.phase).val : ℝ) - t.prevParabolic.val| ≤ 4 * (f.val / s.sampleRate.val) + 9 / 2 ^ 22 := by
  intro t
  have hinc : (f / s.sampleRate).In 0 1 := LFTri.inc_in hsr hs0 hf
  have hs0r : (0:ℝ) < s.sampleRate.val := by exact_mod_cast hs0
  have hierr : ((f / s.sampleRate : F32).val : ℝ) ≤ f.val / s.sampleRate.val + 1 / 2 ^ 24 := by
    have h0 : 0 ≤ f.val / s.sampleRate.val := div_nonneg hf.2.1 hs0.le
    have h2 : f.val / s.sampleRate.val ≤ 1 := by rw [div_le_one hs0]; exact hf.2.2
    obtain ⟨zs, e⟩ := div_def hf.1 hsr hs0.ne'
    have : Near (ofRat (f.val / s.sampleRate.val) zs : F32) (f.val / s.sampleRate.val) (0 + 2 ^ (1:ℤ) / 2 ^ 25) := by
      refine near_of (by norm_num) (by norm_num) (by push_cast; simp) ?_
      have h2' : (f.val : ℝ) / s.sampleRate.val ≤ 1 := by exact_mod_cast h2
      have h0' : (0:ℝ) ≤ (f.val : ℝ) / s.sampleRate.val := by exact_mod_cast h0
      rw [abs_of_nonneg h0']
      norm_num; linarith
    rw [← e] at this
    have := (abs_le.1 this.2).2
    norm_num at *
    linarith
  obtain ⟨a, b⟩ := fstep hp hinc
  have n1 := (fparabola_near a).2
  have n2 := (fparabola_near hp).2
  refine ⟨a, rfl, ?_⟩
  have hprev : t.prevParabolic = fparabola s.phase := rfl
  have hph : t.phase = if (s.phase + f / s.sampleRate) >=. lit 1 then (s.phase + f / s.sampleRate) - lit 1 else s.phase + f / s.sampleRate := rfl
  rw [hprev, hph]
  generalize (if (s.phase + f / s.sampleRate) >=. lit 1 then (s.phase + f / s.sampleRate) - lit 1 else s.phase + f / s.sampleRate : F32) = r at *
  rw [abs_le] at *
  constructor <;> norm_num at * <;> linarith

/-- The sample of a tick at frequency `g`, if the two parabolas differ by at most `D`. -/
theorem ftick_out (s : Osc F32) (g : F32) (hsr : s.sampleRate.In 1 (2 ^ 80)) (hsc : s.scaleFactor = s.sampleRate * lit 0.5)
    (hg : g.isFin = true) (g1 : 2 ^ (-20:ℤ) ≤ (g.val : ℝ)) (g2 : g.val ≤ s.sampleRate.val) (hp : s.phase.In 0 1) (hprev : s.prevParabolic.In 0 1) {D : ℝ}
    (d1 : 2 ^ (-21:ℤ) ≤ D) (d2 : D ≤ 2 ^ 3) (hD : |((fparabola s.phase).val : ℝ) - s.prevParabolic.val| ≤ D) :
    Upto (tick (setFrequency g s)).2 (D * (s.sampleRate.val / 2 / g.val) * (1 + 1 / 2 ^ 20)) := by
  have hh : (lit 0.5 : F32).In 0.5 0.5 := lit_rep (by decide +kernel)
  have s1 : (1:ℝ) ≤ s.sampleRate.val := by exact_mod_cast hsr.2.1
  have s2 : (s.sampleRate.val : ℝ) ≤ 2 ^ (80:ℤ) := by
    have : (s.sampleRate.val : ℝ) ≤ ((2 ^ 80 : ℚ) : ℝ) := by exact_mod_cast hsr.2.2
    refine this.trans (le_of_eq ?_); push_cast; norm_num
  have gp : (0:ℝ) < g.val := lt_of_lt_of_le (by positivity) g1
  have hq : (0:ℝ) < s.sampleRate.val / 2 / g.val := by positivity
  have g2r : (g.val : ℝ) ≤ s.sampleRate.val := by exact_mod_cast g2
  have q1 : (1:ℝ) / 2 ≤ s.sampleRate.val / 2 / g.val := by
    rw [le_div_iff₀ gp]; linarith
  have q2 : (s.sampleRate.val : ℝ) / 2 / g.val ≤ 2 ^ (100:ℤ) := by
    rw [div_le_iff₀ gp]
    calc (s.sampleRate.val : ℝ) / 2 ≤ 2 ^ (80:ℤ) := by linarith
      _ = 2 ^ (100:ℤ) * 2 ^ (-20:ℤ) := by norm_num
      _ ≤ _ := by gcongr
  have m1 : (2:ℝ) ^ (-125:ℤ) ≤ 1 / 2 := by norm_num
  have m2 : (2:ℝ) ^ (100:ℤ) ≤ 2 ^ (126:ℤ) := zpow_le_zpow_right₀ (by norm_num) (by norm_num)
  have hscale : Rel (s.scaleFactor / g) (s.sampleRate.val / 2 / g.val) (3 / 2 ^ 24) := by
    have hsv : s.sampleRate.val ≠ 0 := by
      have : (0:ℝ) < s.sampleRate.val := by linarith
      exact_mod_cast this.ne'
    have hgv : g.val ≠ 0 := by exact_mod_cast gp.ne'
    have r1 := rel_val hh.1 (by rw [hh.val_eq]; norm_num)
    rw [hh.val_eq] at r1
    have e05 : (s.sampleRate.val : ℝ) * ((0.5 : ℚ) : ℝ) = s.sampleRate.val / 2 := by push_cast; ring
    have t := rel_mul (rel_val hsr.1 hsv) r1 le_rfl (by norm_num)
      (by
        rw [e05, abs_of_pos (by positivity)]
        have : (2:ℝ) ^ (-125:ℤ) ≤ 1 / 2 := by norm_num
        linarith)
      (by
        rw [e05, abs_of_pos (by positivity)]
        have : (2:ℝ) ^ (80:ℤ) ≤ 2 ^ (126:ℤ) := zpow_le_zpow_right₀ (by norm_num) (by norm_num)
        linarith)
    rw [e05, ← hsc] at t
    have t' := t.mono (e' := 1 / 2 ^ 24) (by norm_num)
    exact (rel_div t' (rel_val hg hgv) (by norm_num) le_rfl (by norm_num) (by norm_num)
      (by rw [abs_of_pos hq]; exact m1.trans q1) (by rw [abs_of_pos hq]; exact q2.trans m2)).mono (by norm_num)
  have hfp := fparabola_near hp
  have hdiff := Upto.sub hfp.1 hprev.1 hD
    (by
      have : (2:ℝ) ^ (-100:ℤ) ≤ 2 ^ (-21:ℤ) := zpow_le_zpow_right₀ (by norm_num) (by norm_num)
      exact this.trans d1)
    (by
      have : (2:ℝ) ^ 3 ≤ 2 ^ (126:ℤ) := by norm_num
      exact d2.trans this)
  have hsu : Upto (s.scaleFactor / g) (s.sampleRate.val / 2 / g.val * (1 + 3 / 2 ^ 24)) := by
    refine ⟨hscale.1, ?_⟩
    have := abs_sub_abs_le_abs_sub (((s.scaleFactor / g : F32).val : ℚ) : ℝ) ((s.sampleRate.val : ℝ) / 2 / g.val)
    have h3 := hscale.2.2
    rw [abs_of_pos hq] at this h3
    linarith
  have hDp : 0 < D := lt_of_lt_of_le (by positivity) d1
  have hmul := Upto.mul hdiff hsu
    (by
      have h3 : (2:ℝ) ^ (-100:ℤ) ≤ 2 ^ (-21:ℤ) * (1 / 2) := by norm_num
      refine h3.trans (mul_le_mul ?_ ?_ (by norm_num) (by positivity))
      · refine d1.trans ?_
        nlinarith
      · refine q1.trans ?_
        nlinarith)
    (by
      have h3 : (2:ℝ) ^ 3 * (1 + 1 / 2 ^ 23) * (2 ^ (100:ℤ) * (1 + 3 / 2 ^ 24)) ≤ 2 ^ (126:ℤ) := by norm_num
      refine le_trans ?_ h3
      gcongr)
  refine Upto.mono (show Upto (tick (setFrequency g s)).2 _ from hmul) ?_
  have e : D * (1 + 1 / 2 ^ 23) * (s.sampleRate.val / 2 / g.val * (1 + 3 / 2 ^ 24)) * (1 + 1 / 2 ^ 23) =
    D * (s.sampleRate.val / 2 / g.val) * ((1 + 1 / 2 ^ 23) * (1 + 3 / 2 ^ 24) * (1 + 1 / 2 ^ 23)) := by ring
  rw [e]
  have : (0:ℝ) < D * (s.sampleRate.val / 2 / g.val) := by positivity
  refine mul_le_mul_of_nonneg_left ?_ this.le
  norm_num

theorem fparabola_in {p : F32} (hp : p.In 0 1) : (fparabola p).In 0 1 := by
  have h2 : (lit 2 : F32).In 2 2 := lit_rep (by decide +kernel)
  have r2 : binary32.Rep 2 false := by decide +kernel
  have hm : (p * lit 2).In 0 2 := mul_in hp.1 h2.1 rep_zero r2 (by rw [h2.val_eq]; linarith [hp.2.1]) (by rw [h2.val_eq]; linarith [hp.2.2])
  have hs : (p * lit 2 - lit 1).In (-1) 1 := sub_in hm lit_one (Rep.neg rep_one) rep_one (by norm_num) (by norm_num)
  exact mul_in hs.1 hs.1 rep_zero rep_one (mul_self_nonneg _) (by nlinarith [hs.2.1, hs.2.2])

/-- **C24**, partial (bit-exact single precision): a sample played at frequency `g` after one played at `f` has magnitude at most
`2 f/g`, plus a rounding error of at most `sr/g` units of `2^-19` (0.005 at 20 Hz and 48 kHz), for every phase and every history before
it. The documented bound is 1. -/
theorem C24_moving_frequency_float_partial (s : Osc F32) (f g : F32) (hsr : s.sampleRate.In 1 (2 ^ 80)) (hsc : s.scaleFactor = s.sampleRate * lit 0.5)
    (hp : s.phase.In 0 1) (hf : f.In 0 s.sampleRate.val) (hg : g.isFin = true) (g1 : 2 ^ (-20:ℤ) ≤ (g.val : ℝ)) (g2 : g.val ≤ s.sampleRate.val) :
    let y := (tick (setFrequency g (tick (setFrequency f s)).1)).2
    y.isFin = true ∧ |(y.val : ℝ)| ≤ (2 * f.val + s.sampleRate.val / 2 ^ 19) / g.val * 1.000001 := by
  intro y
  have hs0 : 0 < s.sampleRate.val := by linarith [hsr.2.1]
  have hs0r : (0:ℝ) < s.sampleRate.val := by exact_mod_cast hs0
  have gp : (0:ℝ) < g.val := lt_of_lt_of_le (by positivity) g1
  obtain ⟨a, b, c⟩ := ftick_left s f hsr.1 hs0 hf hp
  have hfs : (f.val : ℝ) / s.sampleRate.val ≤ 1 := by
    rw [div_le_one hs0r]; exact_mod_cast hf.2.2
  have hf0 : (0:ℝ) ≤ (f.val : ℝ) / s.sampleRate.val := div_nonneg (by exact_mod_cast hf.2.1) hs0r.le
  have h := ftick_out (tick (setFrequency f s)).1 g hsr hsc hg g1 g2 a (by rw [b]; exact fparabola_in hp)
    (by
      have : (2:ℝ) ^ (-21:ℤ) ≤ 9 / 2 ^ 22 := by norm_num
      linarith) (by norm_num; linarith) c
  refine ⟨h.1, h.2.trans ?_⟩
  show (4 * ((f.val : ℝ) / s.sampleRate.val) + 9 / 2 ^ 22) * (s.sampleRate.val / 2 / g.val) * (1 + 1 / 2 ^ 20) ≤ _
  have e : (4 * ((f.val : ℝ) / s.sampleRate.val) + 9 / 2 ^ 22) * (s.sampleRate.val / 2 / g.val) =
      (2 * f.val + 9 / 2 ^ 23 * s.sampleRate.val) / g.val := by field_simp; ring
  rw [e]
  have hf0' : (0:ℝ) ≤ f.val := by exact_mod_cast hf.2.1
  refine mul_le_mul (div_le_div_of_nonneg_right ?_ gp.le) (by norm_num) (by norm_num) (by positivity)
  have : 9 / 2 ^ 23 * (s.sampleRate.val : ℝ) ≤ s.sampleRate.val / 2 ^ 19 := by
    rw [div_mul_eq_mul_div, div_le_div_iff₀ (by norm_num) (by norm_num)]
    norm_num; linarith
  linarith

/-- **C24**, partial (bit-exact single precision): at a constant frequency every sample but the first has magnitude at most 2 plus the
rounding error, for any number of samples. -/
theorem C24_bounded_by_two_float_partial (s : Osc F32) (f : F32) (hsr : s.sampleRate.In 1 (2 ^ 80)) (hsc : s.scaleFactor = s.sampleRate * lit 0.5)
    (hp : s.phase.In 0 1) (hf : f.isFin = true) (f1 : 2 ^ (-20:ℤ) ≤ (f.val : ℝ)) (f2 : f.val ≤ s.sampleRate.val) (n : ℕ) :
    let y := tickOut tick (n + 1) (setFrequency f s)
    y.isFin = true ∧ |(y.val : ℝ)| ≤ (2 + s.sampleRate.val / f.val / 2 ^ 19) * 1.000001 := by
  intro y
  have fp : (0:ℝ) < f.val := lt_of_lt_of_le (by positivity) f1
  have hs0 : 0 < s.sampleRate.val := by linarith [hsr.2.1]
  have hfi : f.In 0 s.sampleRate.val := ⟨hf, by exact_mod_cast fp.le, f2⟩
  -- the state after `n` samples is again a freshly tuned oscillator
  have key := tickState_inv (tick := tick) (I := fun t : Osc F32 => t = setFrequency f t ∧ t.sampleRate = s.sampleRate ∧ t.scaleFactor = s.scaleFactor ∧
    t.phase.In 0 1) (fun t ht => by
      obtain ⟨h1, h2, h3, h4⟩ := ht
      have hl := ftick_left t f (by rw [h2]; exact hsr.1) (by rw [h2]; exact hs0) (by rw [h2]; exact hfi) h4
      rw [← h1] at hl
      refine ⟨?_, h2, h3, hl.1⟩
      have e1 : (tick t).1.frequency = f := by rw [h1]; rfl
      have e2 : (tick t).1.phaseIncrement = f / (tick t).1.sampleRate := by rw [h1]; rfl
      show (tick t).1 = { (tick t).1 with frequency := f, phaseIncrement := f / (tick t).1.sampleRate }
      rw [← e2, ← e1]) (s := setFrequency f s) ⟨rfl, rfl, rfl, hp⟩
  obtain ⟨k1, k2, k3, k4⟩ := key n
  have h := C24_moving_frequency_float_partial (tickState tick n (setFrequency f s)) f f (by rw [k2]; exact hsr) (by rw [k2, k3]; exact hsc) k4
    (by rw [k2]; exact hfi) hf f1 (by rw [k2]; exact f2)
  have e : (tick (setFrequency f (tick (setFrequency f (tickState tick n (setFrequency f s)))).1)).2 = y := by
    rw [← k1, ← tickState_succ, ← (key (n + 1)).1]
    rfl
  dsimp only at h
  rw [e, k2] at h
  refine ⟨h.1, h.2.trans (le_of_eq ?_)⟩
  congr 1
  field_simp

/-- Concrete case: any number of samples at 20 Hz and 48 kHz. -/
example (n : ℕ) : |((tickOut tick (n + 1) (setFrequency (lit 20) (init (lit 48000) (lit 0.3) : Osc F32))).val : ℝ)| ≤ 2.005 := by
  have v : (lit 20 : F32).val = 20 ∧ (lit 48000 : F32).val = 48000 := by decide +kernel
  have h := (C24_bounded_by_two_float_partial (init (lit 48000) (lit 0.3)) (lit 20) (by show (lit 48000 : F32).In 1 (2 ^ 80); decide +kernel) rfl
    (by decide +kernel) (by decide +kernel) (by rw [v.1]; norm_num) (by show (lit 20 : F32).val ≤ (lit 48000 : F32).val; rw [v.1, v.2]; norm_num) n).2
  refine h.trans ?_
  show (2 + ((lit 48000 : F32).val : ℝ) / (lit 20 : F32).val / 2 ^ 19) * 1.000001 ≤ _
  rw [v.1, v.2]
  norm_num

end SawDPW

end Verif
