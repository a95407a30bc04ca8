import Verif.Props.Lag
import Verif.Props.JackPlayback

/-!
# C80: where a single-precision Lag comes to rest

The header says that "the lag time is defined as the time required for the filter to reach within 0.01% (60 dB) of the target value"
(include/subcollider/ugens/Lag.h lines 28-29; 60 dB is 0.1 %, which is what the coefficient is computed for).  In real arithmetic it does (C66).  In single precision the update
`coeff * y + (1 - coeff) * x` stops moving as soon as the step `(1 - coeff) * (x - y)` is less than half a unit in the last place, and
the longer the lag time the larger the distance at which that happens.  For lag times of seconds it is more than the 60 dB.
-/

namespace Verif.Lag
open FP Arith JackPlayback

/-- `(1 - z u) (1 - j u)` with `u = 2^-24` rounds to `1 - (z + j) u` while `z j < 2^23`. -/
theorem rnd_product {z j : ℤ} (hz : 0 ≤ z) (hj : 0 ≤ j) (h1 : z + j ≤ 2 ^ 23) (h2 : z * j < 2 ^ 23) :
    binary32.rnd ((((2 ^ 24 - z : ℤ) : ℚ) * 2 ^ (-24:ℤ)) * (((2 ^ 24 - j : ℤ) : ℚ) * 2 ^ (-24:ℤ)) : ℚ) = ((2 ^ 24 - z - j : ℤ) : ℚ) * 2 ^ (-24:ℤ) := by
  obtain ⟨t, ht⟩ : ∃ t : ℚ, t = ((2 ^ 24 - z - j : ℤ) : ℚ) * 2 ^ (-24:ℤ) := ⟨_, rfl⟩
  obtain ⟨v, hv⟩ : ∃ v : ℚ, v = (((2 ^ 24 - z : ℤ) : ℚ) * 2 ^ (-24:ℤ)) * (((2 ^ 24 - j : ℤ) : ℚ) * 2 ^ (-24:ℤ)) := ⟨_, rfl⟩
  have hz' : (0:ℚ) ≤ z := by exact_mod_cast hz
  have hj' : (0:ℚ) ≤ j := by exact_mod_cast hj
  have h1' : (z:ℚ) + j ≤ 8388608 := by have : ((z + j : ℤ) : ℚ) ≤ ((2 ^ 23 : ℤ) : ℚ) := by exact_mod_cast h1
                                       push_cast at this; exact this
  have h2' : (z:ℚ) * j < 8388608 := by have : ((z * j : ℤ) : ℚ) < ((2 ^ 23 : ℤ) : ℚ) := by exact_mod_cast h2
                                       push_cast at this; exact this
  have hzj : (0:ℚ) ≤ z * j := mul_nonneg hz' hj'
  have htv : t = 1 - (z + j) / 16777216 := by rw [ht]; push_cast; norm_num; ring
  have hvv : v = t + z * j / 281474976710656 := by rw [hv, htv]; push_cast; norm_num; ring
  rw [← hv, ← ht]
  have ht2 : 1 / 2 ≤ t := by rw [htv]; linarith
  have hv1 : v ≤ 1 := by
    rw [hvv, htv]
    have : (z:ℚ) * j ≤ 8388608 * (z + j) := by nlinarith
    linarith
  have hv2 : t ≤ v := by rw [hvv]; linarith [div_nonneg hzj (by norm_num : (0:ℚ) ≤ 281474976710656)]
  have hg : binary32.Rep t false := rep_frac (2 ^ 24 - z - j) (-24) (by norm_num) (by rw [abs_le]; omega) ht
  have hlow : t ≤ binary32.rnd v := binary32.le_rnd_of_le (K := ℚ) hg.1 (by simpa using hv2)
  have hE := rnd_err_unit (x := v) (by rw [abs_of_nonneg (by linarith)]; exact hv1)
  rw [abs_le] at hE
  obtain ⟨k, hk⟩ := (binary32.grid_rnd v).mult (k := -24) (by
    rw [abs_of_nonneg (by linarith)]
    refine le_trans (le_of_eq ?_) (ht2.trans hlow)
    norm_num [binary32])
  have e25 : (2:ℚ) ^ (-25:ℤ) = 1 / 33554432 := by norm_num
  have e24 : (2:ℚ) ^ (-24:ℤ) = 1 / 16777216 := by norm_num
  rw [e25] at hE
  have hup : binary32.rnd v < t + 1 / 16777216 := by rw [hvv] at hE ⊢; linarith [hE.1]
  have h3 : k ≤ 2 ^ 24 - z - j := by
    have : (k:ℚ) < ((2 ^ 24 - z - j + 1 : ℤ) : ℚ) := by
      rw [hk, htv, e24] at hup
      push_cast
      linarith
    have : k < 2 ^ 24 - z - j + 1 := by exact_mod_cast this
    omega
  have h4 : 2 ^ 24 - z - j ≤ k := by
    have : ((2 ^ 24 - z - j : ℤ) : ℚ) ≤ k := by
      rw [hk, htv, e24] at hlow
      push_cast
      linarith
    exact_mod_cast this
  rw [hk, ht, le_antisymm h3 h4]

/-- The integer form of "the step is below half a unit in the last place". -/
theorem units {c : F32} {j : ℕ} (hc : c.In (1 / 2) 1) (hj : j * (1 - c.val) < 1 / 2) (hs : j / 2 ^ 24 + (1 - c.val) ≤ 1 / 2) :
    ∃ z : ℤ, 0 ≤ z ∧ On (-24) c (2 ^ 24 - z) ∧ On (-24) (lit 1 - c) z ∧ z + j ≤ 2 ^ 23 ∧ z * j < 2 ^ 23 := by
  obtain ⟨z, z0, -, h1, h2⟩ := one_sub_exact hc
  have hz : 1 - c.val = z / 16777216 := by rw [h1.2]; push_cast; norm_num; ring
  rw [hz] at hj hs
  norm_num at hs
  refine ⟨z, z0, h1, h2, ?_, ?_⟩
  · have : ((z + j : ℤ) : ℚ) ≤ ((2 ^ 23 : ℤ) : ℚ) := by push_cast; linarith
    exact_mod_cast this
  · have : ((z * j : ℤ) : ℚ) < ((2 ^ 23 : ℤ) : ℚ) := by push_cast; linarith
    exact_mod_cast this

/-- One sample towards the target 1 from at most `1 - j u`: still at most `1 - j u`; and from exactly there, no movement. -/
theorem step_below {s : Filt F32} {j : ℕ} (hc : s.coeff.In (1 / 2) 1) (hj : j * (1 - s.coeff.val) < 1 / 2)
    (hs : j / 2 ^ 24 + (1 - s.coeff.val) ≤ 1 / 2) (hp : s.prevOutput.In 0 (1 - j / 2 ^ 24)) :
    (tick s (lit 1)).2.In 0 (1 - j / 2 ^ 24) ∧ (s.prevOutput.val = 1 - j / 2 ^ 24 → (tick s (lit 1)).2.val = 1 - j / 2 ^ 24) := by
  obtain ⟨z, z0, h1, h2, h3, h4⟩ := units hc hj hs
  obtain ⟨d, hd⟩ : ∃ d : F32, d = lit 1 - s.coeff := ⟨_, rfl⟩
  rw [← hd] at h2
  have hz' : (0:ℚ) ≤ z := by exact_mod_cast z0
  have hout : (tick s (lit 1)).2 = s.coeff * s.prevOutput + d * lit 1 := by rw [hd]; rfl
  have hY : (1:ℚ) - j / 2 ^ 24 = ((2 ^ 24 - j : ℤ) : ℚ) * 2 ^ (-24:ℤ) := by push_cast; norm_num; ring
  have hYr : binary32.Rep (1 - j / 2 ^ 24) false := rep_frac (2 ^ 24 - j) (-24) (by norm_num) (by rw [abs_le]; omega) hY
  have hc0 : 0 ≤ s.coeff.val := le_trans (by norm_num) hc.2.1
  have hY1 : (1:ℚ) - j / 2 ^ 24 ≤ 1 := by linarith [div_nonneg (Nat.cast_nonneg j : (0:ℚ) ≤ j) (by positivity : (0:ℚ) ≤ 2 ^ 24)]
  have p0 : 0 ≤ s.coeff.val * s.prevOutput.val := mul_nonneg hc0 hp.2.1
  have p1 : s.coeff.val * s.prevOutput.val ≤ 1 := mul_le_one₀ hc.2.2 hp.2.1 (hp.2.2.trans hY1)
  have hA := mul_val hc.1 hp.1 rep_zero rep_one p0 p1
  have hAI := mul_in hc.1 hp.1 rep_zero rep_one p0 p1
  have hr := rnd_product z0 (Int.natCast_nonneg j) h3 h4
  rw [← h1.2, ← hY] at hr
  have hAle : (s.coeff * s.prevOutput).val ≤ ((2 ^ 24 - z - j : ℤ) : ℚ) * 2 ^ (-24:ℤ) := by
    rw [hA.2, ← hr]
    exact binary32.rnd_mono (K := ℚ) (mul_le_mul_of_nonneg_left hp.2.2 hc0)
  have hB : (d * lit 1).In d.val d.val :=
    mul_in h2.1 lit_one.1 (rep_val d) (rep_val d) (by rw [lit_one.val_eq, mul_one]) (by rw [lit_one.val_eq, mul_one])
  have hd0 : 0 ≤ d.val := by rw [h2.2]; positivity
  have hsum : ((2 ^ 24 - z - j : ℤ) : ℚ) * 2 ^ (-24:ℤ) + d.val = 1 - j / 2 ^ 24 := by rw [h2.2]; push_cast; norm_num; ring
  have s0 : 0 ≤ (s.coeff * s.prevOutput).val + (d * lit 1).val := by rw [hB.val_eq]; linarith [hAI.2.1]
  have s1 : (s.coeff * s.prevOutput).val + (d * lit 1).val ≤ 1 - j / 2 ^ 24 := by
    rw [hB.val_eq, ← hsum]; exact add_le_add hAle le_rfl
  rw [hout]
  refine ⟨add_in (in_val hA.1) (in_val hB.1) rep_zero hYr s0 s1, fun he => ?_⟩
  have hAe : (s.coeff * s.prevOutput).val = ((2 ^ 24 - z - j : ℤ) : ℚ) * 2 ^ (-24:ℤ) := by rw [hA.2, ← hr, he]
  have e : (s.coeff * s.prevOutput).val + (d * lit 1).val = 1 - j / 2 ^ 24 := by rw [hB.val_eq, hAe, hsum]
  exact (add_in (in_val hA.1) (in_val hB.1) hYr hYr e.ge e.le).val_eq

/-- **C80, it stops short.** A smoother with coefficient `c ≥ 1/2`, started between 0 and `1 - j 2^-24` and sent to 1, never gets above
`1 - j 2^-24`, if `j (1 - c) < 1/2`: not after any number of samples. -/
theorem C80_stops_short (s : Filt F32) (j : ℕ) (hc : s.coeff.In (1 / 2) 1) (hj : j * (1 - s.coeff.val) < 1 / 2)
    (hs : j / 2 ^ 24 + (1 - s.coeff.val) ≤ 1 / 2) (hp : s.prevOutput.In 0 (1 - j / 2 ^ 24)) (n : ℕ) :
    (heard tick s (fun _ => lit 1) n).In 0 (1 - j / 2 ^ 24) := by
  have key : ∀ n, (feed tick s (fun _ => (lit 1 : F32)) n).coeff = s.coeff ∧
      (feed tick s (fun _ => (lit 1 : F32)) n).prevOutput.In 0 (1 - j / 2 ^ 24) := by
    intro n
    induction n with
    | zero => exact ⟨rfl, hp⟩
    | succ n ih =>
      obtain ⟨e, hI⟩ := ih
      exact ⟨e, (step_below (by rw [e]; exact hc) (by rw [e]; exact hj) (by rw [e]; exact hs) hI).1⟩
  obtain ⟨e, hI⟩ := key n
  exact (step_below (by rw [e]; exact hc) (by rw [e]; exact hj) (by rw [e]; exact hs) hI).1

/-- **C80, it stands still away from its target.** Every one of these positions is a resting place: a smoother that is there stays there. -/
theorem C80_rests (s : Filt F32) (j : ℕ) (hc : s.coeff.In (1 / 2) 1) (hj : j * (1 - s.coeff.val) < 1 / 2)
    (hs : j / 2 ^ 24 + (1 - s.coeff.val) ≤ 1 / 2) (hp : s.prevOutput.In (1 - j / 2 ^ 24) (1 - j / 2 ^ 24)) (n : ℕ) :
    (heard tick s (fun _ => lit 1) n).In (1 - j / 2 ^ 24) (1 - j / 2 ^ 24) := by
  have hY0 : (0:ℚ) ≤ 1 - j / 2 ^ 24 := by linarith [hc.2.2]
  have key : ∀ n, (feed tick s (fun _ => (lit 1 : F32)) n).coeff = s.coeff ∧
      (feed tick s (fun _ => (lit 1 : F32)) n).prevOutput.In (1 - j / 2 ^ 24) (1 - j / 2 ^ 24) := by
    intro n
    induction n with
    | zero => exact ⟨rfl, hp⟩
    | succ n ih =>
      obtain ⟨e, hI⟩ := ih
      have h := step_below (by rw [e]; exact hc) (by rw [e]; exact hj) (by rw [e]; exact hs) (hI.mono hY0 le_rfl)
      exact ⟨e, h.1.1, (h.2 hI.val_eq).ge, (h.2 hI.val_eq).le⟩
  obtain ⟨e, hI⟩ := key n
  have h := step_below (by rw [e]; exact hc) (by rw [e]; exact hj) (by rw [e]; exact hs) (hI.mono hY0 le_rfl)
  exact ⟨h.1.1, (h.2 hI.val_eq).ge, (h.2 hI.val_eq).le⟩

section
variable [Libm F32] [LibmSpec]

/-- The coefficient of a ten-second lag at 48 kHz. -/
theorem coeff_ten : (init (lit 48000 : F32) (lit 10)).coeff.In (1 - 1454 / 100000000) 1 := by
  have hq : (-lit 6.907755 / (lit 10 * lit 48000) : F32).In (-(1441 / 100000000)) 0 :=
    ⟨by decide +kernel, by decide +kernel, by decide +kernel⟩
  have hne : ¬ ((lit 10 : F32) <=. lit 0) = true := by decide +kernel
  have hco : (init (lit 48000 : F32) (lit 10)).coeff = Libm.exp (-lit 6.907755 / (lit 10 * lit 48000) : F32) := by
    rw [init, setLagTime, if_neg hne]
  obtain ⟨q, hqv⟩ : ∃ q : F32, q = -lit 6.907755 / (lit 10 * lit 48000) := ⟨_, rfl⟩
  rw [hco, ← hqv]
  rw [← hqv] at hq
  have hin := LibmSpec.exp_nonpos q (Or.inr ⟨hq.1, hq.2.2⟩)
  have hacc := LibmSpec.exp_acc q hq.1 hq.2.2
  have e23 : (2:ℝ) ^ (-23:ℤ) = 1 / 8388608 := by norm_num
  rw [abs_le, e23] at hacc
  have b1 : (1:ℝ) + q.val ≤ Real.exp q.val := by linarith [Real.add_one_le_exp (q.val:ℝ)]
  have g1 : (-(1441 / 100000000) : ℝ) ≤ q.val := by have := (Rat.cast_le (K := ℝ)).mpr hq.2.1; push_cast at this; exact this
  refine ⟨hin.1, ?_, hin.2.2⟩
  rw [← Rat.cast_le (K := ℝ)]
  push_cast
  linarith [hacc.1]

omit [LibmSpec] in
theorem init_rest : (init (lit 48000 : F32) (lit 10)).prevOutput = lit 0 := by
  rw [init, setLagTime]
  split <;> rfl

/-- **C80, refuted for long lags.** A ten-second lag at 48 kHz, initialised as documented and sent from 0 to 1, never comes within 0.002 of
its target, however long one waits; the documented claim is 0.001 after the lag time. -/
theorem C80_ten_seconds_never_arrives (n : ℕ) :
    (heard tick (init (lit 48000 : F32) (lit 10)) (fun _ => lit 1) n).In 0 (1 - 2 / 1000) := by
  have hc := coeff_ten
  have h := C80_stops_short (init (lit 48000 : F32) (lit 10)) 33555 (hc.mono (by norm_num) le_rfl)
    (by push_cast; linarith [hc.2.1]) (by push_cast; linarith [hc.2.1])
    (by rw [init_rest]; exact ⟨lit_zero.1, lit_zero.val_eq.ge, by rw [lit_zero.val_eq]; norm_num⟩) n
  exact h.mono le_rfl (by norm_num)

end

/-! ## How close it does come -/

/-- One sample in single precision against one in exact arithmetic, for signals of magnitude at most one. -/
theorem step_error {c y x : F32} (hc : c.In 0 1) (hy : y.In (-1) 1) (hx : x.In (-1) 1) :
    (c * y + (lit 1 - c) * x).In (-1) 1 ∧
      |(c * y + (lit 1 - c) * x).val - (c.val * y.val + (1 - c.val) * x.val)| ≤ 2 ^ (-22:ℤ) := by
  have hI := (convex_in (k := 0) (by norm_num) hc (by simpa using hy) (by simpa using hx)).1
  simp only [pow_zero] at hI
  refine ⟨hI, ?_⟩
  obtain ⟨d, hd⟩ : ∃ d : F32, d = lit 1 - c := ⟨_, rfl⟩
  rw [← hd] at hI ⊢
  have h1 : (lit 1 : F32).In 1 1 := lit_one
  have hdI : d.In 0 1 := by rw [hd]; exact (one_sub_weight hc).1
  have hdv : d.val = binary32.rnd (1 - c.val) := by
    have := (sub_val (x := lit 1) (y := c) h1.1 hc.1 rep_zero rep_one
      (by rw [h1.val_eq]; linarith [hc.2.2]) (by rw [h1.val_eq]; linarith [hc.2.1])).2
    rw [hd, this, h1.val_eq]
  have hE1 := rnd_err_unit (x := 1 - c.val) (by rw [abs_le]; constructor <;> linarith [hc.2.1, hc.2.2])
  rw [← hdv] at hE1
  have hm : ∀ {a b : F32}, a.In 0 1 → b.In (-1) 1 → (a * b).In (-1) 1 ∧ |a.val * b.val - (a * b).val| ≤ 2 ^ (-25:ℤ) := by
    intro a b ha hb
    have p0 : -1 ≤ a.val * b.val := by nlinarith [ha.2.1, ha.2.2, hb.2.1, hb.2.2]
    have p1 : a.val * b.val ≤ 1 := by nlinarith [ha.2.1, ha.2.2, hb.2.1, hb.2.2]
    have hV := mul_val ha.1 hb.1 (Rep.neg rep_one) rep_one p0 p1
    refine ⟨mul_in ha.1 hb.1 (Rep.neg rep_one) rep_one p0 p1, ?_⟩
    rw [hV.2]
    exact rnd_err_unit (abs_le.mpr ⟨p0, p1⟩)
  obtain ⟨A, hA⟩ := hm hc hy
  obtain ⟨B, hB⟩ := hm hdI hx
  have r2 : binary32.Rep 2 false := rep_frac 1 1 (by norm_num) (by norm_num) (by norm_num)
  have q0 : -2 ≤ (c * y).val + (d * x).val := by linarith [A.2.1, B.2.1]
  have q1 : (c * y).val + (d * x).val ≤ 2 := by linarith [A.2.2, B.2.2]
  have hV := add_val A.1 B.1 (Rep.neg r2) r2 q0 q1
  have hE := binary32.rnd_err_of_lt (K := ℚ) (x := (c * y).val + (d * x).val) (k := 1) ?_ (by decide)
  · simp only [Rat.cast_id] at hE
    rw [← hV.2] at hE
    have e1 : (2:ℚ) ^ ((1:ℤ) - binary32.prec - 1) = 1 / 16777216 := by norm_num [binary32]
    have e2 : (2:ℚ) ^ (-25:ℤ) = 1 / 33554432 := by norm_num
    have e3 : (2:ℚ) ^ (-22:ℤ) = 1 / 4194304 := by norm_num
    rw [e1] at hE
    rw [e2] at hE1 hA hB
    rw [e3]
    rw [abs_le] at hE hE1 hA hB ⊢
    have t1 : |(1 - c.val - d.val) * x.val| ≤ 1 / 33554432 := by
      rw [abs_mul]
      have : |x.val| ≤ 1 := abs_le.mpr ⟨hx.2.1, hx.2.2⟩
      have : |1 - c.val - d.val| ≤ 1 / 33554432 := abs_le.mpr hE1
      nlinarith [abs_nonneg x.val, abs_nonneg (1 - c.val - d.val)]
    rw [abs_le] at t1
    constructor <;> nlinarith [hE.1, hE.2, hA.1, hA.2, hB.1, hB.2, t1.1, t1.2]
  · -- the exact sum is within 3·2^-25 of a convex combination
    rw [abs_lt]
    have e2 : (2:ℚ) ^ (-25:ℤ) = 1 / 33554432 := by norm_num
    have e4 : (2:ℚ) ^ (1:ℤ) = 2 := by norm_num
    rw [e2] at hE1 hA hB
    rw [e4]
    rw [abs_le] at hE1 hA hB
    have u1 : d.val * x.val ≤ d.val := by nlinarith [hdI.2.1, hx.2.2]
    have u2 : -d.val ≤ d.val * x.val := by nlinarith [hdI.2.1, hx.2.1]
    have v1 : c.val * y.val ≤ c.val := by nlinarith [hc.2.1, hy.2.2]
    have v2 : -c.val ≤ c.val * y.val := by nlinarith [hc.2.1, hy.2.1]
    constructor <;> linarith [hA.1, hA.2, hB.1, hB.2, hE1.1, hE1.2]

/-- **C80, the bound that does hold (partial).** For a target and a start of magnitude at most one, the distance to the target shrinks as it
should, up to a floor of `2^-22 / (1 - c)`: after `n` samples it is at most `c^n` times the initial distance plus that floor.  Missing against
the documented claim: the floor, which `C80_ten_seconds_never_arrives` shows cannot be dropped. -/
theorem C80_approach_partial (s : Filt F32) (x : F32) (hc : s.coeff.In 0 1) (hc1 : s.coeff.val < 1) (hx : x.In (-1) 1)
    (hp : s.prevOutput.In (-1) 1) (n : ℕ) :
    |(heard tick s (fun _ => x) n).val - x.val| ≤
      s.coeff.val ^ (n + 1) * |s.prevOutput.val - x.val| + 2 ^ (-22:ℤ) / (1 - s.coeff.val) := by
  have hpos : 0 < 1 - s.coeff.val := by linarith
  have step : ∀ {y : F32} {b : ℚ}, y.In (-1) 1 → |y.val - x.val| ≤ b + 2 ^ (-22:ℤ) / (1 - s.coeff.val) →
      |(s.coeff * y + (lit 1 - s.coeff) * x).val - x.val| ≤ s.coeff.val * b + 2 ^ (-22:ℤ) / (1 - s.coeff.val) := by
    intro y b hy hb
    obtain ⟨-, hE⟩ := step_error hc hy hx
    have e : (s.coeff * y + (lit 1 - s.coeff) * x).val - x.val =
        ((s.coeff * y + (lit 1 - s.coeff) * x).val - (s.coeff.val * y.val + (1 - s.coeff.val) * x.val)) +
          s.coeff.val * (y.val - x.val) := by ring
    rw [e]
    refine (abs_add_le _ _).trans ?_
    rw [abs_mul, abs_of_nonneg hc.2.1]
    have h1 : s.coeff.val * |y.val - x.val| ≤ s.coeff.val * (b + 2 ^ (-22:ℤ) / (1 - s.coeff.val)) :=
      mul_le_mul_of_nonneg_left hb hc.2.1
    have h2 : 2 ^ (-22:ℤ) + s.coeff.val * (2 ^ (-22:ℤ) / (1 - s.coeff.val)) = 2 ^ (-22:ℤ) / (1 - s.coeff.val) := by
      field_simp; ring
    obtain ⟨w, hw⟩ : ∃ w : ℚ, w = 2 ^ (-22:ℤ) := ⟨_, rfl⟩
    rw [← hw] at hE h1 h2 ⊢
    linarith
  have key : ∀ n, (feed tick s (fun _ => x) n).coeff = s.coeff ∧ (feed tick s (fun _ => x) n).prevOutput.In (-1) 1 ∧
      |(feed tick s (fun _ => x) n).prevOutput.val - x.val| ≤
        s.coeff.val ^ n * |s.prevOutput.val - x.val| + 2 ^ (-22:ℤ) / (1 - s.coeff.val) := by
    intro n
    induction n with
    | zero =>
      refine ⟨rfl, hp, ?_⟩
      have : (0:ℚ) ≤ 2 ^ (-22:ℤ) / (1 - s.coeff.val) := div_nonneg (by positivity) hpos.le
      simp only [feed, pow_zero, one_mul]
      linarith
    | succ n ih =>
      obtain ⟨e, hI, hb⟩ := ih
      have e2 : (feed tick s (fun _ => x) (n + 1)).prevOutput =
          s.coeff * (feed tick s (fun _ => x) n).prevOutput + (lit 1 - s.coeff) * x := by rw [← e]; rfl
      refine ⟨e, ?_, ?_⟩
      · rw [e2]; exact (step_error hc hI hx).1
      · rw [e2, pow_succ', mul_assoc]; exact step hI hb
  have hk := (key (n + 1)).2.2
  exact hk

/-- **C19 in single precision, with its slack.** Inputs in `[a, b] ⊆ [-1, 1]` and a start there keep the output in
`[a - 2^-22 / (1 - c), b + 2^-22 / (1 - c)]` for ever (`C19_float_leaves_hull` shows that some slack is needed). -/
theorem C80_hull_float (s : Filt F32) (x : ℕ → F32) (a b : ℚ) (ha : -1 ≤ a) (hb : b ≤ 1) (hc : s.coeff.In 0 1) (hc1 : s.coeff.val < 1)
    (hx : ∀ n, (x n).In a b) (hp : s.prevOutput.In a b) (n : ℕ) :
    (heard tick s x n).In (a - 2 ^ (-22:ℤ) / (1 - s.coeff.val)) (b + 2 ^ (-22:ℤ) / (1 - s.coeff.val)) := by
  have hpos : 0 < 1 - s.coeff.val := by linarith
  have hf : (0:ℚ) ≤ 2 ^ (-22:ℤ) / (1 - s.coeff.val) := div_nonneg (by positivity) hpos.le
  have key : ∀ n, (feed tick s x n).coeff = s.coeff ∧ (feed tick s x n).prevOutput.In (-1) 1 ∧
      (feed tick s x n).prevOutput.In (a - 2 ^ (-22:ℤ) / (1 - s.coeff.val)) (b + 2 ^ (-22:ℤ) / (1 - s.coeff.val)) := by
    intro n
    induction n with
    | zero => exact ⟨rfl, hp.mono ha hb, hp.mono (by linarith) (by linarith)⟩
    | succ n ih =>
      obtain ⟨e, hI, hh⟩ := ih
      obtain ⟨hI', hE⟩ := step_error hc hI ((hx n).mono ha hb)
      have e2 : (feed tick s x (n + 1)).prevOutput = s.coeff * (feed tick s x n).prevOutput + (lit 1 - s.coeff) * x n := by
        rw [← e]; rfl
      rw [e2]
      refine ⟨e, hI', hI'.1, ?_, ?_⟩
      all_goals
        rw [abs_le] at hE
        have h2 : 2 ^ (-22:ℤ) + s.coeff.val * (2 ^ (-22:ℤ) / (1 - s.coeff.val)) = 2 ^ (-22:ℤ) / (1 - s.coeff.val) := by
          field_simp; ring
        obtain ⟨w, hw⟩ : ∃ w : ℚ, w = 2 ^ (-22:ℤ) := ⟨_, rfl⟩
        rw [← hw] at hE h2 hh ⊢
      · have h1 := mul_le_mul_of_nonneg_left hh.2.1 hc.2.1
        have h3 := mul_le_mul_of_nonneg_left (hx n).2.1 hpos.le
        nlinarith [hE.1]
      · have h1 := mul_le_mul_of_nonneg_left hh.2.2 hc.2.1
        have h3 := mul_le_mul_of_nonneg_left (hx n).2.2 hpos.le
        nlinarith [hE.2]
  exact (key (n + 1)).2.2

/-- Instances: a coefficient of `1 - 2^-12` (a lag of about 0.6 s at 48 kHz) rests at `1 - 2047/2^24`; from 0 it gets to within 0.002 of
the target 1 in 40960 samples; and inputs between 0 and 1/2 keep it below 0.501. -/
example : (heard tick ({ coeff := lit (4095 / 4096), prevOutput := lit (16775169 / 16777216), lagTime := lit 1, sampleRate := lit 48000 } : Filt F32)
    (fun _ => lit 1) 1000000).In (1 - 2047 / 2 ^ 24) (1 - 2047 / 2 ^ 24) := by
  refine C80_rests _ 2047 ⟨by decide +kernel, by decide +kernel, by decide +kernel⟩ ?_ ?_ ⟨by decide +kernel, ?_, ?_⟩ _ <;>
    decide +kernel

/-- That smoother, at rest at zero. -/
def demo : Filt F32 := { coeff := lit (4095 / 4096), prevOutput := lit 0, lagTime := lit 1, sampleRate := lit 48000 }

theorem demo_coeff : demo.coeff.In (4095 / 4096) (4095 / 4096) := ⟨by decide +kernel, by decide +kernel, by decide +kernel⟩

example : |(heard tick demo (fun _ => lit 1) 40959).val - 1| ≤ 2 / 1000 := by
  have hc := demo_coeff
  have h := C80_approach_partial demo (lit 1) (hc.mono (by norm_num) (by norm_num)) (by rw [hc.val_eq]; norm_num)
    (lit_one.mono (by norm_num) le_rfl) (lit_zero.mono (by norm_num) (by norm_num)) 40959
  rw [hc.val_eq, lit_one.val_eq, show demo.prevOutput.val = 0 from lit_zero.val_eq] at h
  have e : (4095 / 4096 : ℚ) ^ (40959 + 1) ≤ 1 / 1000 := by
    have h1 : (4095 / 4096 : ℚ) ^ 4096 ≤ 1 / 2 := by
      have : (1 + 1 / 4095 : ℚ) ^ 4096 ≥ 2 := by
        have := one_add_mul_le_pow (a := (1 / 4095 : ℚ)) (by norm_num) 4096
        refine le_trans ?_ this
        norm_num
      have e2 : (4095 / 4096 : ℚ) = (1 + 1 / 4095)⁻¹ := by norm_num
      rw [e2, inv_pow]
      rw [inv_le_comm₀ (by positivity) (by norm_num)]
      simpa using this
    calc (4095 / 4096 : ℚ) ^ (40959 + 1) = ((4095 / 4096 : ℚ) ^ 4096) ^ 10 := by rw [← pow_mul]
      _ ≤ (1 / 2) ^ 10 := by gcongr
      _ ≤ _ := by norm_num
  have e2 : (2:ℚ) ^ (-22:ℤ) = 1 / 4194304 := by norm_num
  rw [e2] at h
  have e3 : |(0:ℚ) - 1| = 1 := by norm_num
  rw [e3, mul_one] at h
  refine h.trans ((add_le_add e le_rfl).trans ?_)
  norm_num

example (x : ℕ → F32) (hx : ∀ n, (x n).In 0 (1 / 2)) (n : ℕ) : (heard tick demo x n).In (-(1 / 1000)) (501 / 1000) := by
  have hc := demo_coeff
  have h := C80_hull_float demo x 0 (1 / 2) (by norm_num) (by norm_num) (hc.mono (by norm_num) (by norm_num)) (by rw [hc.val_eq]; norm_num)
    hx (lit_zero.mono le_rfl (by norm_num)) n
  rw [hc.val_eq] at h
  exact h.mono (by norm_num) (by norm_num)

end Verif.Lag
