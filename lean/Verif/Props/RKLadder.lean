import Verif.Props.LadderSilence
import Verif.Lemmas.RealArith

/-!
# C47: the Runge-Kutta ladder's saturator, make-up gain and oversampling
-/

set_option linter.unusedSectionVars false

namespace Verif.RKSimulation
open FP

/-! ## Saturator in ideal arithmetic -/

/-- The cubic soft clipper `3·(u - u³/3)` with `u = x/3` limited to [-1, 1], as one writes it on paper. -/
noncomputable def softClip (x : ℝ) : ℝ :=
  let u := max (-1) (min 1 (x / 3))
  3 * (u - u ^ 3 / 3)

/-- After `init` the saturator is the textbook cubic soft clipper – whatever setters were called. -/
theorem clip_ideal (s : Ladder ℝ ℝ) (h1 : s.saturation = 3) (h2 : s.saturationInv = 1 / 3) (x : ℝ) : clip s x = softClip x := by
  unfold clip softClip
  simp only [h1, h2, real_arith]
  push_cast
  have e : x * (1 / 3) = x / 3 := by ring
  rw [e]
  have key : ∀ y : ℝ, (if (1:ℝ) < y then (1:ℝ) else if y < -1 then -1 else y) = max (-1) (min 1 y) := by
    intro y
    split_ifs with a b
    · rw [min_eq_left a.le, max_eq_right (by norm_num)]
    · rw [min_eq_right (by linarith), max_eq_left b.le]
    · rw [min_eq_right (by linarith), max_eq_right (by linarith)]
  rw [key]
  ring

theorem softClip_odd (x : ℝ) : softClip (-x) = -softClip x := by
  unfold softClip
  have : max (-1) (min 1 (-x / 3)) = -max (-1) (min 1 (x / 3)) := by
    rw [neg_div]
    rcases le_total (x / 3) 1 with h | h <;> rcases le_total (-1) (x / 3) with h' | h'
    · rw [min_eq_right h, max_eq_right h', min_eq_right (by linarith), max_eq_right (by linarith)]
    · rw [min_eq_right h, max_eq_left h', min_eq_left (by linarith), max_eq_right (by linarith)]; norm_num
    · rw [min_eq_left h, min_eq_right (by linarith : -(x / 3) ≤ 1), max_eq_left (by linarith : -(x / 3) ≤ -1),
        max_eq_right (by norm_num : (-1:ℝ) ≤ 1)]
    · linarith
  simp only [this]
  ring

theorem softClip_mono {x y : ℝ} (h : x ≤ y) : softClip x ≤ softClip y := by
  unfold softClip
  have hu : max (-1) (min 1 (x / 3)) ≤ max (-1) (min 1 (y / 3)) :=
    max_le_max le_rfl (min_le_min le_rfl (by linarith))
  have b1 : -1 ≤ max (-1) (min 1 (x / 3)) := le_max_left _ _
  have b2 : max (-1) (min 1 (y / 3)) ≤ 1 := max_le (by norm_num) (min_le_left _ _)
  set u := max (-1) (min 1 (x / 3))
  set v := max (-1) (min 1 (y / 3))
  have : 0 ≤ (v - u) * (1 - (v ^ 2 + u * v + u ^ 2) / 3) := by
    refine mul_nonneg (by linarith) ?_
    nlinarith
  nlinarith

theorem softClip_abs (x : ℝ) : |softClip x| ≤ 2 := by
  unfold softClip
  have b1 : -1 ≤ max (-1) (min 1 (x / 3)) := le_max_left _ _
  have b2 : max (-1) (min 1 (x / 3)) ≤ 1 := max_le (by norm_num) (min_le_left _ _)
  set u := max (-1) (min 1 (x / 3))
  rw [abs_le]
  constructor <;> nlinarith [sq_nonneg (u - 1), sq_nonneg (u + 1)]

/-! ## API histories -/

/-- Calls a user can make. -/
inductive Op (α : Type)
  | init (sr : α)
  | setCutoff (c : α)
  | setResonance (r : α)
  | setDrive (d : α)
  | setOversampleFactor (n : ℤ)
  | reset
  | tick (x : α)

section
variable {α β : Type} [Arith α] [Arith β] [Libm β] [Conv α β] [Conv β α]

/-- Effect of one call. -/
def exec (s : Ladder α β) : Op α → Ladder α β
  | .init sr => init sr s
  | .setCutoff c => setCutoff c s
  | .setResonance r => setResonance r s
  | .setDrive d => setDrive d s
  | .setOversampleFactor n => setOversampleFactor n s
  | .reset => reset s
  | .tick x => (tick s x).1

/-- State after a history that starts with `init`. -/
def after (sr : α) (s0 : Ladder α β) (ops : List (Op α)) : Ladder α β := ops.foldl exec (init sr s0)

theorem solver_iter (i : β) (n : ℕ) (s : Ladder α β) :
    ((solver i)^[n] s).saturation = s.saturation ∧ ((solver i)^[n] s).saturationInv = s.saturationInv ∧
    ((solver i)^[n] s).oversampleFactor = s.oversampleFactor := by
  induction n generalizing s with
  | zero => exact ⟨rfl, rfl, rfl⟩
  | succ n ih => rw [Function.iterate_succ_apply]; obtain ⟨a, b, c⟩ := ih (solver i s); exact ⟨a, b, c⟩

theorem after_consts (sr : α) (s0 : Ladder α β) (ops : List (Op α)) :
    (after sr s0 ops).saturation = lit 3 ∧ (after sr s0 ops).saturationInv = lit 1 / lit 3 ∧ 1 ≤ (after sr s0 ops).oversampleFactor := by
  unfold after
  have key : ∀ (ops : List (Op α)) (s : Ladder α β), s.saturation = lit 3 ∧ s.saturationInv = lit 1 / lit 3 ∧ 1 ≤ s.oversampleFactor →
      (ops.foldl exec s).saturation = lit 3 ∧ (ops.foldl exec s).saturationInv = lit 1 / lit 3 ∧ 1 ≤ (ops.foldl exec s).oversampleFactor := by
    intro ops
    induction ops with
    | nil => intro s h; exact h
    | cons op ops ih =>
      intro s h
      refine ih _ ?_
      cases op with
      | init sr => exact ⟨rfl, rfl, le_refl _⟩
      | setCutoff c => exact h
      | setResonance r => exact h
      | setDrive d => exact h
      | setOversampleFactor n =>
        refine ⟨h.1, h.2.1, ?_⟩
        show 1 ≤ (if n < 1 then 1 else n)
        split_ifs <;> omega
      | reset => exact h
      | tick x =>
        obtain ⟨a, b, c⟩ := solver_iter (Conv.conv x : β) s.oversampleFactor.toNat s
        exact ⟨a.trans h.1, b.trans h.2.1, by show 1 ≤ ((solver (Conv.conv x))^[s.oversampleFactor.toNat] s).oversampleFactor; rw [c]; exact h.2.2⟩
  exact key ops _ ⟨rfl, rfl, le_refl _⟩

/-- **C47**: however the object is used, at least one solver step is made per sample. -/
theorem C47_oversample (sr : α) (s0 : Ladder α β) (ops : List (Op α)) : 1 ≤ (after sr s0 ops).oversampleFactor :=
  (after_consts sr s0 ops).2.2
end

/-- **C47** (ideal arithmetic): after every history of calls the saturator is odd, monotone and bounded by 2, and saturates exactly from
±3 on. -/
theorem C47_clip (sr : ℝ) (s0 : Ladder ℝ ℝ) (ops : List (Op ℝ)) :
    let f := clip (after sr s0 ops)
    (∀ x, f (-x) = -f x) ∧ Monotone f ∧ (∀ x, |f x| ≤ 2) ∧ ∀ x, 3 ≤ x → f x = 2 := by
  obtain ⟨h1, h2, -⟩ := after_consts sr s0 ops
  have e : ∀ x, clip (after sr s0 ops) x = softClip x :=
    clip_ideal _ (by rw [h1]; simp [real_arith]) (by rw [h2]; simp [real_arith])
  refine ⟨fun x => by rw [e, e, softClip_odd], fun x y h => by rw [e, e]; exact softClip_mono h, fun x => by rw [e]; exact softClip_abs x,
    fun x hx => ?_⟩
  rw [e]
  unfold softClip
  rw [min_eq_left (by linarith), max_eq_right (by norm_num)]
  norm_num

/-- **C47** (ideal arithmetic): because the saturator is bounded, one solver step moves no state variable by more than four times the
cutoff coefficient times the step size – for every input and state, so a single sample can never blow the filter up. -/
theorem C47_slew (sr : ℝ) (s0 : Ladder ℝ ℝ) (ops : List (Op ℝ)) (input : ℝ) :
    let s := after sr s0 ops
    let B := 4 * |s.cutoffCoeff| * |s.stepSize|
    |(solver input s).state.x0 - s.state.x0| ≤ B ∧ |(solver input s).state.x1 - s.state.x1| ≤ B ∧
    |(solver input s).state.x2 - s.state.x2| ≤ B ∧ |(solver input s).state.x3 - s.state.x3| ≤ B := by
  have hc := (C47_clip sr s0 ops).2.2.1
  generalize after sr s0 ops = s at hc
  have hd : ∀ x : Vec ℝ, |(derivatives s input x).x0| ≤ 4 * |s.cutoffCoeff| ∧ |(derivatives s input x).x1| ≤ 4 * |s.cutoffCoeff| ∧
      |(derivatives s input x).x2| ≤ 4 * |s.cutoffCoeff| ∧ |(derivatives s input x).x3| ≤ 4 * |s.cutoffCoeff| := by
    intro x
    have k : ∀ a b : ℝ, |s.cutoffCoeff * (clip s a - clip s b)| ≤ 4 * |s.cutoffCoeff| := by
      intro a b
      rw [abs_mul, mul_comm]
      refine mul_le_mul_of_nonneg_right ?_ (abs_nonneg _)
      have := abs_le.1 (hc a)
      have := abs_le.1 (hc b)
      rw [abs_le]; constructor <;> linarith
    exact ⟨k _ _, k _ _, k _ _, k _ _⟩
  have comb : ∀ y a b c d : ℝ, |a| ≤ 4 * |s.cutoffCoeff| → |b| ≤ 4 * |s.cutoffCoeff| → |c| ≤ 4 * |s.cutoffCoeff| → |d| ≤ 4 * |s.cutoffCoeff| →
      |(y + (lit 1 / lit 6 * s.stepSize * (a + lit 2 * b + lit 2 * c + d))) - y| ≤ 4 * |s.cutoffCoeff| * |s.stepSize| := by
    intro y a b c d ha hb hc hd
    simp only [real_arith]
    push_cast
    have e : y + 1 / 6 * s.stepSize * (a + 2 * b + 2 * c + d) - y = s.stepSize * ((a + 2 * b + 2 * c + d) / 6) := by ring
    rw [e, abs_mul, mul_comm]
    refine mul_le_mul_of_nonneg_right ?_ (abs_nonneg _)
    rw [abs_le] at *
    constructor <;> linarith [ha.1, ha.2, hb.1, hb.2, hc.1, hc.2, hd.1, hd.2]
  refine ⟨?_, ?_, ?_, ?_⟩ <;> refine comb _ _ _ _ _ ?_ ?_ ?_ ?_
  · exact (hd _).1
  · exact (hd _).1
  · exact (hd _).1
  · exact (hd _).1
  · exact (hd _).2.1
  · exact (hd _).2.1
  · exact (hd _).2.1
  · exact (hd _).2.1
  · exact (hd _).2.2.1
  · exact (hd _).2.2.1
  · exact (hd _).2.2.1
  · exact (hd _).2.2.1
  · exact (hd _).2.2.2
  · exact (hd _).2.2.2
  · exact (hd _).2.2.2
  · exact (hd _).2.2.2

/-! ## Saturator in double precision -/

/-- The part of `clip` before the cubic: any non-NaN number is limited to [-1, 1]. -/
theorem limit_in {y : F64} (h : y ≠ nan) : (if y >. lit 1 then lit 1 else if y <. -lit 1 then -lit 1 else y : F64).In (-1) 1 := by
  have m1 : (-lit 1 : F64).In (-1) (-1) := by decide +kernel
  cases y with
  | nan => exact absurd rfl h
  | inf b => cases b <;> decide +kernel
  | fin v nz hv =>
    have f : (fin v nz hv : F64).isFin = true := rfl
    rw [show ((fin v nz hv : F64) >. lit 1) = decide ((lit 1 : F64).val < (fin v nz hv : F64).val) from lt_fin lit_one.1 f,
      show ((fin v nz hv : F64) <. -lit 1) = decide ((fin v nz hv : F64).val < (-lit 1 : F64).val) from lt_fin f m1.1,
      lit_one.val_eq, m1.val_eq]
    simp only [decide_eq_true_eq]
    split_ifs with a b
    · exact lit_one.mono (by norm_num) le_rfl
    · exact m1.mono le_rfl (by norm_num)
    · exact ⟨rfl, by linarith, by linarith⟩

theorem rnd_err1 {q : ℚ} (h : |q| ≤ 1) : |binary64.rnd q - q| ≤ 1 / 2 ^ 53 := by
  have := rnd_near (q := q) (e := 1 / 2 ^ 53) (k := 1) (lt_of_le_of_lt h (by norm_num)) (by decide) (by norm_num)
  rwa [abs_sub_comm]

theorem mul_err {x y : F64} (hx : x.In (-1) 1) (hy : y.In (-1) 1) :
    (x * y).In (-1) 1 ∧ |(x * y).val - x.val * y.val| ≤ 1 / 2 ^ 53 := by
  have hb : |x.val * y.val| ≤ 1 := by
    rw [abs_mul]
    exact mul_le_one₀ (abs_le.2 ⟨hx.2.1, hx.2.2⟩) (abs_nonneg _) (abs_le.2 ⟨hy.2.1, hy.2.2⟩)
  have hb' := abs_le.1 hb
  refine ⟨mul_in hx.1 hy.1 (Rep.neg rep_one) rep_one hb'.1 hb'.2, ?_⟩
  rw [(mul_val hx.1 hy.1 (Rep.neg rep_one) rep_one hb'.1 hb'.2).2]
  exact rnd_err1 hb

/-- **C47** (double precision): after every history of calls, the saturator maps every number – infinities included – to a finite number
of magnitude at most 2 + 2⁻⁴⁸. -/
theorem C47_clip_double [Libm F64] (sr : F32) (s0 : Ladder F32 F64) (ops : List (Op F32)) (x : F64) (hx : x ≠ nan) :
    (clip (after sr s0 ops) x).In (-(2 + 1 / 2 ^ 48)) (2 + 1 / 2 ^ 48) := by
  obtain ⟨h1, h2, -⟩ := after_consts sr s0 ops
  unfold clip
  simp only [h1, h2]
  have hinv : (lit 1 / lit 3 : F64).In (1 / 3 - 1 / 2 ^ 54) (1 / 3) := by decide +kernel
  have hy : x * (lit 1 / lit 3 : F64) ≠ nan := by
    cases x with
    | nan => exact absurd rfl hx
    | inf b => cases b <;> decide +kernel
    | fin v nz hv =>
      obtain ⟨zs, e⟩ := mul_def (x := (fin v nz hv : F64)) rfl hinv.1
      rw [e]
      rcases ofRat_cases (f := binary64) ((fin v nz hv : F64).val * (lit 1 / lit 3 : F64).val) zs with ⟨a, -⟩ | a
      · intro h; rw [h] at a; cases a
      · rw [a]; intro h; cases h
  have hv := limit_in hy
  set v : F64 := (if x * (lit 1 / lit 3) >. lit 1 then lit 1 else if x * (lit 1 / lit 3) <. -lit 1 then -lit 1 else x * (lit 1 / lit 3) : F64)
  have hi1 : (lit 1 / lit 3 : F64).In (-1) 1 := hinv.mono (by norm_num) (by norm_num)
  obtain ⟨ha, ea⟩ := mul_err hi1 hv
  obtain ⟨hb, eb⟩ := mul_err ha hv
  obtain ⟨hc, ec⟩ := mul_err hb hv
  set a : F64 := lit 1 / lit 3 * v
  set b : F64 := a * v
  set c : F64 := b * v
  have i1 := hinv.2.1
  have i2 := hinv.2.2
  set k := (lit 1 / lit 3 : F64).val
  have v1 := hv.2.1
  have v2 := hv.2.2
  -- the rounded cube is close to v³/3
  have hcube : |c.val - v.val ^ 3 / 3| ≤ 4 / 2 ^ 53 := by
    have e1 : c.val - v.val ^ 3 / 3 =
        (c.val - b.val * v.val) + (b.val - a.val * v.val) * v.val + (a.val - k * v.val) * v.val ^ 2 + (k - 1 / 3) * v.val ^ 3 := by ring
    have hva : |v.val| ≤ 1 := abs_le.2 ⟨v1, v2⟩
    have t : ∀ (e w E : ℚ), |e| ≤ E → |w| ≤ 1 → |e * w| ≤ E := by
      intro e w E he hw
      rw [abs_mul]
      calc |e| * |w| ≤ |e| * 1 := mul_le_mul_of_nonneg_left hw (abs_nonneg _)
        _ ≤ E := by linarith
    have p2 : |v.val ^ 2| ≤ 1 := by rw [abs_pow]; exact pow_le_one₀ (abs_nonneg _) hva
    have p3 : |v.val ^ 3| ≤ 1 := by rw [abs_pow]; exact pow_le_one₀ (abs_nonneg _) hva
    have q1 := abs_le.1 (t _ _ _ eb hva)
    have q2 := abs_le.1 (t _ _ _ ea p2)
    have hk : |k - 1 / 3| ≤ 1 / 2 ^ 53 := by
      rw [abs_le]; constructor <;> norm_num at * <;> linarith
    have q3 := abs_le.1 (t _ _ _ hk p3)
    have q0 := abs_le.1 ec
    rw [e1, abs_le]
    constructor <;> linarith
  have hf : |v.val - v.val ^ 3 / 3| ≤ 2 / 3 := by
    rw [abs_le]
    constructor <;> nlinarith [sq_nonneg (v.val - 1), sq_nonneg (v.val + 1)]
  have hcube' := abs_le.1 hcube
  have hf' := abs_le.1 hf
  have hdiff : |v.val - c.val| ≤ 2 / 3 + 4 / 2 ^ 53 := by
    rw [abs_le]; constructor <;> linarith
  have hd1 : |v.val - c.val| ≤ 1 := hdiff.trans (by norm_num)
  have hd1' := abs_le.1 hd1
  have hsub := sub_in (in_val hv.1) (in_val hc.1) (Rep.neg rep_one) rep_one hd1'.1 hd1'.2
  have hsv := (sub_val hv.1 hc.1 (Rep.neg rep_one) rep_one hd1'.1 hd1'.2).2
  have herr := abs_le.1 (rnd_err1 hd1)
  have hdiff' := abs_le.1 hdiff
  have l3 : (lit 3 : F64).In 3 3 := by decide +kernel
  have hr : binary64.Rep (2 + 1 / 2 ^ 48) false := by decide +kernel
  refine mul_in l3.1 hsub.1 (Rep.neg hr) hr ?_ ?_ <;> rw [l3.val_eq, hsv] <;> norm_num at * <;> linarith

/-- A history with an infinite input and an out-of-range oversampling factor. -/
example : ∃ ops : List (Op F32), (inf false : F64) ≠ nan ∧ ops = [.setOversampleFactor 0, .setDrive (lit 3), .tick (inf true)] :=
  ⟨_, by decide, rfl⟩

/-! ## Make-up gain -/

/-- **C47**: for every finite cutoff (negative or above Nyquist too) and *any* sample rate, the make-up gain of the Improved and the
Runge-Kutta ladder lies between 0.828 and 5; the cap at 8 in the source is never reached. -/
theorem C47_makeup (c sr : F32) (hc : c.isFin = true) : (Improved.makeup c sr : F64).In (53 / 64) 5 := by
  have fin : ∀ n : F64, n.In 0 1 →
      (if lit 1 / (lit 0.2 + n) >. lit 8 then lit 8 else lit 1 / (lit 0.2 + n) : F64).In (53 / 64) 5 := by
    intro n hn
    have c02 : (lit 0.2 : F64).isFin = true ∧ (lit 0.2 : F64).val ≤ 0.201 ∧ 0.2 ≤ (lit 0.2 : F64).val := by decide +kernel
    have hr : binary64.Rep (lit 0.2 : F64).val false := by decide +kernel
    have hsum : (lit 0.2 + n : F64).In (lit 0.2 : F64).val (1 + 13 / 64) :=
      add_in (in_val c02.1) hn hr (by decide +kernel) (by linarith) (by have := c02.2.1; norm_num at *; linarith)
    have h0 : 0 < (lit 0.2 + n : F64).val := by have := hsum.2.1; have := c02.2.2; norm_num at *; linarith
    have hq : (lit 1 / (lit 0.2 + n) : F64).In (53 / 64) 5 := by
      refine div_in lit_one.1 hsum.1 h0.ne' (by decide +kernel) (by decide +kernel) ?_ ?_ <;> rw [lit_one.val_eq]
      · rw [le_div_iff₀ h0]; have := hsum.2.2; norm_num at *; linarith
      · rw [div_le_iff₀ h0]; have := hsum.2.1; have := c02.2.2; norm_num at *; linarith
    have l8 : (lit 8 : F64).In 8 8 := by decide +kernel
    rw [show ((lit 1 / (lit 0.2 + n) : F64) >. lit 8) = decide ((lit 8 : F64).val < (lit 1 / (lit 0.2 + n) : F64).val) from
      lt_fin l8.1 hq.1, l8.val_eq, if_neg (by simp; linarith [hq.2.2])]
    exact hq
  unfold Improved.makeup
  simp only
  refine fin _ ?_
  refine clamp_in ?_ lit_zero lit_one (by norm_num)
  split_ifs with h
  · have h2 := conv_up hc
    set ny : F64 := Conv.conv sr * lit 0.5
    intro e
    cases hny : ny with
    | nan => rw [hny] at h; exact absurd h (by decide +kernel)
    | inf b =>
      rw [hny] at e
      obtain ⟨v, nz, hv, e'⟩ := isFin_cases h2.1
      rw [e'] at e
      have hz : ∀ zs, (ofRat 0 zs : F64) ≠ nan := by intro zs; cases zs <;> decide +kernel
      exact hz _ e
    | fin v nz hv =>
      have hf : ny.isFin = true := by rw [hny]; rfl
      have hne : ny.val ≠ 0 := by
        rw [lt_fin lit_zero.1 hf, lit_zero.val_eq] at h
        simp at h
        exact h.ne'
      obtain ⟨zs, e2⟩ := div_def h2.1 hf hne
      rw [e2] at e
      rcases ofRat_cases (f := binary64) ((Conv.conv c : F64).val / ny.val) zs with ⟨a, -⟩ | a
      · rw [e] at a; cases a
      · rw [e] at a; cases a
  · intro e; exact absurd e (by decide +kernel)

/-- A cutoff above Nyquist satisfies the hypothesis. -/
example : (lit 96000 : F32).isFin = true := by decide +kernel

end Verif.RKSimulation
