import Verif.Lemmas.FVerbEnergy
import Verif.Props.FVerbLinear
import Verif.Props.FVerbBlocks

/-!
# C103: how much energy the reverb can build up
-/

namespace Verif.FVerbDSP
open Energy

/-! ### Specification -/

/-- Parameters in the ranges of the setters, without modulation, with the decay at most 99 % and the tail density below 100 %. -/
structure Steady (p : Params ℝ) : Prop where
  damping : 0 ≤ p.damping
  tailDensity : 0 ≤ p.tailDensity ∧ p.tailDensity < 100
  diffusion2 : 0 ≤ p.diffusion2 ∧ p.diffusion2 ≤ 100
  diffusion1 : 0 ≤ p.diffusion1 ∧ p.diffusion1 ≤ 100
  highPass : 0 ≤ p.highPass
  lowPass : 0 ≤ p.lowPass
  inputAmount : 0 ≤ p.inputAmount ∧ p.inputAmount ≤ 100
  predelay : 0 ≤ p.predelay ∧ p.predelay ≤ 300
  decay : 0 ≤ p.decay ∧ p.decay ≤ 99
  modFrequency : 0 ≤ p.modFrequency ∧ p.modFrequency ≤ 4
  modDepth : p.modDepth = 0

/-- The loudness of the first `n` samples of a signal: the square root of its energy. -/
noncomputable def loudness (n : ℕ) (f : ℕ → ℝ) : ℝ := Real.sqrt (∑ t ∈ Finset.range n, f t ^ 2)

/-- Which input frame leaves the predelay at frame `t`: the predelay (in milliseconds) approaches its value like every smoothed parameter,
by `44.1 / rate` of the distance per frame. Negative frames are the silence before the start. -/
noncomputable def arriving (rate predelay : ℝ) (t : ℕ) : ℤ := t - ⌊rate * (predelay / 1000 * (1 - (1 - 44.1 / rate) ^ (t + 1)))⌋

/-- A channel of a list of frames as a signal. -/
noncomputable def channel (ch : Stereo ℝ → ℝ) (xs : List (Stereo ℝ)) (t : ℤ) : ℝ :=
  if t < 0 then 0 else (xs[t.toNat]?.map ch).getD 0

/-! ### Controls -/

/-- What the bounds below need of the parameters, whatever the modulation. -/
structure Settings (p : Params ℝ) : Prop where
  damping : 0 ≤ p.damping
  tailDensity : 0 ≤ p.tailDensity ∧ p.tailDensity < 100
  diffusion2 : 0 ≤ p.diffusion2 ∧ p.diffusion2 ≤ 100
  diffusion1 : 0 ≤ p.diffusion1 ∧ p.diffusion1 ≤ 100
  highPass : 0 ≤ p.highPass
  lowPass : 0 ≤ p.lowPass
  inputAmount : 0 ≤ p.inputAmount ∧ p.inputAmount ≤ 100
  predelay : 0 ≤ p.predelay ∧ p.predelay ≤ 300
  decay : 0 ≤ p.decay ∧ p.decay ≤ 100
  modFrequency : 0 ≤ p.modFrequency ∧ p.modFrequency ≤ 4
  modDepth : 0 ≤ p.modDepth ∧ p.modDepth ≤ 10

theorem Steady.settings {p : Params ℝ} (P : Steady p) : Settings p :=
  ⟨P.damping, P.tailDensity, P.diffusion2, P.diffusion1, P.highPass, P.lowPass, P.inputAmount, P.predelay, ⟨P.decay.1, by linarith [P.decay.2]⟩,
    P.modFrequency, by rw [P.modDepth]; norm_num⟩

/-- A smoothed parameter on its way from 0 to `S`. -/
structure Rises (c1 S : ℝ) (x : ℕ → ℝ) : Prop where
  zero : x 0 = c1 * S
  next : ∀ t, x (t + 1) = c1 * S + (1 - c1) * x t

theorem Rises.bounds {c1 S : ℝ} {x : ℕ → ℝ} (R : Rises c1 S x) (c0 : 0 ≤ c1) (h1 : c1 ≤ 1) (S0 : 0 ≤ S) (t : ℕ) : c1 * S ≤ x t ∧ x t ≤ S := by
  induction t with
  | zero => rw [R.zero]; exact ⟨le_rfl, mul_le_of_le_one_left S0 h1⟩
  | succ t ih =>
    rw [R.next]
    have a : 0 ≤ x t := (mul_nonneg c0 S0).trans ih.1
    exact ⟨le_add_of_nonneg_right (mul_nonneg (by linarith) a), by nlinarith⟩

theorem Rises.range {c1 S : ℝ} {x : ℕ → ℝ} (R : Rises c1 S x) (c0 : 0 ≤ c1) (h1 : c1 ≤ 1) (S0 : 0 ≤ S) (t : ℕ) : 0 ≤ x t ∧ x t ≤ S :=
  ⟨(mul_nonneg c0 S0).trans (R.bounds c0 h1 S0 t).1, (R.bounds c0 h1 S0 t).2⟩

theorem Rises.mono {c1 S : ℝ} {x : ℕ → ℝ} (R : Rises c1 S x) (c0 : 0 ≤ c1) (h1 : c1 ≤ 1) (S0 : 0 ≤ S) : Monotone x :=
  monotone_nat_of_le_succ fun t => by
    rw [R.next]
    have := mul_le_mul_of_nonneg_left (R.bounds c0 h1 S0 t).2 c0
    linarith

theorem Rises.drift {c1 S : ℝ} {x : ℕ → ℝ} (R : Rises c1 S x) (c0 : 0 ≤ c1) (h1 : c1 < 1 / 2) (S0 : 0 ≤ S) (S1 : S ≤ 1) : Drift c1 x where
  c0 := c0
  c1 := h1
  p0 t := (R.range c0 (by linarith) S0 t).1
  p1 t := (R.range c0 (by linarith) S0 t).2.trans S1
  up t := R.mono c0 (by linarith) S0 (Nat.le_succ t)
  twice t := by
    rw [R.next]
    have := R.range c0 (by linarith) S0 t
    have := (R.bounds c0 (by linarith) S0 t).1
    nlinarith
  slow t := by
    rw [R.next]
    have := R.range c0 (by linarith) S0 t
    nlinarith
  room t := by
    rw [R.next]
    nlinarith

theorem Rises.value {c1 S : ℝ} {x : ℕ → ℝ} (R : Rises c1 S x) (t : ℕ) : x t = S * (1 - (1 - c1) ^ (t + 1)) := by
  induction t with
  | zero => rw [R.zero]; ring
  | succ t ih => rw [R.next, ih]; ring

theorem fadeStep_real (c12 : ℝ) (T : ℤ) (f : Fade ℝ) :
    ∃ t, t = (if f.slope ≠ 0 then (if 0 < f.mix ∧ f.mix < 1 then f.slope else 0) else if f.mix = 0 ∧ T ≠ f.dA then c12
      else if f.mix = 1 ∧ T ≠ f.dB then -c12 else 0) ∧
    fadeStep c12 T f = ⟨t, max 0 (min 1 (f.mix + t)), if 1 ≤ f.mix ∧ f.dB ≠ T then T else f.dA, if f.mix ≤ 0 ∧ f.dA ≠ T then T else f.dB⟩ := by
  refine ⟨_, rfl, ?_⟩
  have h0 : ((0 : ℚ) : ℝ) = 0 := by norm_num
  have h1 : ((1 : ℚ) : ℝ) = 1 := by norm_num
  have mx : ∀ x : ℝ, (if x < 1 then x else 1) = min 1 x := fun x => by rw [min_def]; split_ifs <;> linarith
  have mn : ∀ x : ℝ, (if 0 < x then x else 0) = max 0 x := fun x => by rw [max_def]; split_ifs <;> linarith
  simp only [fadeStep, Arith.ne, Arith.stdMax, Arith.stdMin, real_arith, h0, h1, decide_eq_true_eq, Bool.and_eq_true, bne_iff_ne, mx, mn,
    Bool.not_eq_true', decide_eq_false_iff_not, ne_eq]

/-- A crossfade to a fixed delay. -/
theorem fade_in {F : ℕ} (hF : 0 < F) {T : ℤ} (hT : F ≤ T) (hT2 : T ≤ 65536) {c12 : ℝ} (hc : c12 = 1 / F) {f : ℕ → Fade ℝ}
    (h0 : f 0 = fadeStep c12 T ⟨0, 0, 0, 0⟩) (hn : ∀ t, f (t + 1) = fadeStep c12 T (f t)) : FadedIn F T f := by
  have Fr : (0:ℝ) < F := by exact_mod_cast hF
  have cp : 0 < c12 := by rw [hc]; positivity
  have T0 : T ≠ 0 := by omega
  have c1 : c12 ≤ 1 := by rw [hc, div_le_one Fr]; exact_mod_cast hF
  have inv : ∀ t, (f t).dA = 0 ∧ (f t).dB = T ∧ (f t).mix = min 1 ((t + 1) * c12) ∧ ((f t).mix < 1 → (f t).slope = c12) := by
    intro t
    induction t with
    | zero =>
      obtain ⟨s, hs, e⟩ := fadeStep_real c12 T ⟨0, 0, 0, 0⟩
      rw [if_neg (by simp), if_pos ⟨rfl, T0⟩] at hs
      rw [h0, e, hs]
      dsimp only
      refine ⟨if_neg (by norm_num), if_pos ⟨le_rfl, T0.symm⟩, ?_, fun _ => rfl⟩
      rw [zero_add, max_eq_right (le_min zero_le_one cp.le)]
      push_cast
      rw [zero_add, one_mul]
    | succ t ih =>
      obtain ⟨iA, iB, im, is⟩ := ih
      have mp : 0 < (f t).mix := by rw [im]; exact lt_min one_pos (by positivity)
      obtain ⟨s, hs, e⟩ := fadeStep_real c12 T (f t)
      rw [hn, e]
      dsimp only
      refine ⟨?_, ?_, ?_⟩
      · rw [if_neg (by rw [iB]; simp), iA]
      · rw [if_neg (by intro h; linarith [h.1]), iB]
      · rcases lt_or_ge (f t).mix 1 with hlt | hge
        · have e1 := is hlt
          have m1 : (f t).mix = (t + 1) * c12 := by
            rw [im] at hlt ⊢
            exact min_eq_right (by by_contra hcon; push Not at hcon; rw [min_eq_left hcon.le] at hlt; exact lt_irrefl _ hlt)
          rw [if_pos (by rw [e1]; exact cp.ne'), if_pos ⟨mp, hlt⟩, e1] at hs
          refine ⟨?_, fun _ => hs⟩
          rw [hs, max_eq_right (le_min zero_le_one (by linarith)), m1]
          push_cast
          congr 1
          ring
        · have m1 : (f t).mix = 1 := le_antisymm (by rw [im]; exact min_le_left _ _) hge
          have s0 : s = 0 := by
            rw [hs]
            split_ifs with a b b c
            · linarith [b.2]
            · rfl
            · linarith [b.1]
            · exact absurd iB.symm c.2
            · rfl
          rw [s0, m1]
          norm_num
          rw [im] at m1
          have := min_eq_left_iff.1 m1
          nlinarith
  have T1 : clampDelay T = T := by unfold clampDelay; omega
  refine ⟨hT, fun t => by rw [(inv t).1]; rfl, fun t => by rw [(inv t).2.1, T1], fun t => ?_, fun t ht => ?_⟩
  · rw [(inv t).2.2.1]
    exact ⟨le_min zero_le_one (by positivity), min_le_left _ _⟩
  · rw [(inv t).2.2.1]
    refine min_eq_left ?_
    rw [hc, mul_one_div, le_div_iff₀ Fr, one_mul]
    exact_mod_cast ht

theorem delayConst_val {c0 : ℝ} (h1 : 1 ≤ c0) (h2 : c0 ≤ 192000) {q : ℚ} (q0 : 0 ≤ q) (q1 : q ≤ 1) {off n : ℤ}
    (e : delayConst c0 q off = some n) : n = clampDelay (⌊(q:ℝ) * c0⌋ + off) := by
  have r0 : (0:ℝ) ≤ q := by exact_mod_cast q0
  have r1 : (q:ℝ) ≤ 1 := by exact_mod_cast q1
  have a : 0 ≤ (q:ℝ) * c0 := by positivity
  have b : (q:ℝ) * c0 ≤ 192000 := by nlinarith
  unfold delayConst at e
  simp only [real_arith] at e
  rw [(toI32_real (by linarith) (by linarith)).1, Option.bind_some, show truncR ((q:ℝ) * c0) = ⌊(q:ℝ) * c0⌋ from if_pos a,
    Option.map_eq_some_iff] at e
  obtain ⟨m, hm, rfl⟩ := e
  rw [(i32_eq_some hm).1]

/-- The constants that matter for the crossfade and the feedback. -/
theorem constants_tank {sr : ℤ} (hsr : 8000 ≤ sr) {k : Consts ℝ} (hk : instanceConstants sr = some k) :
    Fits k ∧ (8000 ≤ k.c0 ∧ k.c0 ≤ 192000) ∧ k.c0 = min 192000 (sr : ℝ) ∧ k.c1 = 44.1 / k.c0 ∧ k.c2 = 1 - k.c1 ∧ 0 ≤ k.c3 ∧ k.c4 = 0.441 / k.c0 ∧
      k.c5 = 0.0441 / k.c0 ∧ k.c11 = 1 / k.c0 ∧ k.c12 = 1 / (⌊0.01 * k.c0⌋ : ℝ) ∧ ⌊0.01 * k.c0⌋ ≤ k.i10 ∧ ⌊0.01 * k.c0⌋ ≤ k.i19 := by
  obtain ⟨k', e, K, k0, k1, k2, k5, k11⟩ := constants_real sr
  rw [hk] at e
  cases e
  have hs : (8000:ℝ) ≤ sr := by exact_mod_cast hsr
  have k0' : k.c0 = min 192000 (sr : ℝ) := by rw [k0, max_eq_right (by linarith)]
  have l0 : 8000 ≤ k.c0 := by rw [k0']; exact le_min (by norm_num) hs
  have l1 : k.c0 ≤ 192000 := by rw [k0']; exact min_le_left _ _
  refine ⟨K, ⟨l0, l1⟩, k0', k1, k2, ?_⟩
  clear k0 k0' K
  unfold instanceConstants at hk
  dsimp only at hk
  iterate 4 obtain ⟨_, -, hk⟩ := Option.bind_eq_some_iff.1 hk
  obtain ⟨i10, e10, hk⟩ := Option.bind_eq_some_iff.1 hk
  obtain ⟨n12, e12, hk⟩ := Option.bind_eq_some_iff.1 hk
  iterate 6 obtain ⟨_, -, hk⟩ := Option.bind_eq_some_iff.1 hk
  obtain ⟨i19, e19, hk⟩ := Option.bind_eq_some_iff.1 hk
  iterate 16 obtain ⟨_, -, hk⟩ := Option.bind_eq_some_iff.1 hk
  obtain rfl := Option.some.inj hk
  dsimp only at *
  generalize (Arith.stdMin (lit 1.92e+05) (Arith.stdMax (lit 1) (Arith.ofInt sr)) : ℝ) = c0 at *
  have n : n12 = ⌊0.01 * c0⌋ := by
    have h01 : (lit 0.01 * c0 : ℝ) = 0.01 * c0 := by simp only [real_arith]; norm_num
    rw [h01, (toI32_real (x := 0.01 * c0) (by linarith) (by linarith)).1, show truncR (0.01 * c0) = ⌊0.01 * c0⌋ from if_pos (by linarith)] at e12
    exact (Option.some.inj e12).symm
  have m10 := delayConst_val (by linarith) l1 (by norm_num) (by norm_num) e10
  have m19 := delayConst_val (by linarith) l1 (by norm_num) (by norm_num) e19
  have f10 : ⌊0.01 * c0⌋ ≤ ⌊((0.10628003 : ℚ) : ℝ) * c0⌋ := Int.floor_le_floor (by push_cast; norm_num; linarith)
  have f19 : ⌊0.01 * c0⌋ ≤ ⌊((0.1249958 : ℚ) : ℝ) * c0⌋ := Int.floor_le_floor (by push_cast; norm_num; linarith)
  have fb : ⌊0.01 * c0⌋ ≤ 1920 := Int.floor_le_iff.2 (by push_cast; linarith) 
  refine ⟨?_, ?_, k5, k11, ?_, ?_, ?_⟩
  · simp only [real_arith]; push_cast; positivity
  · simp only [real_arith]; push_cast; norm_num
  · rw [n]; simp only [real_arith]; push_cast; norm_num
  · rw [m10]; unfold clampDelay; omega
  · rw [m19]; unfold clampDelay; omega

/-- What one step of the controls does. -/
theorem ctrl_eqs {k : Consts ℝ} {s : Slow ℝ} {c c' : Ctrl ℝ} {pre : ℤ} (e : ctrlStep k s c = some (c', pre)) :
    (c'.rec8 = s.s0 + k.c2 * c.rec8 ∧ c'.rec12 = s.s1 + k.c2 * c.rec12 ∧ c'.rec15 = s.s2 + k.c2 * c.rec15 ∧
      c'.rec20 = s.s3 + k.c2 * c.rec20 ∧ c'.rec24 = s.s4 + k.c2 * c.rec24 ∧ c'.rec25 = s.s5 + k.c2 * c.rec25 ∧
      c'.rec27 = s.s6 + k.c2 * c.rec27 ∧ c'.rec28 = s.s7 + k.c2 * c.rec28 ∧ c'.rec29 = s.s8 + k.c2 * c.rec29 ∧
      c'.rec37 = s.s10 + k.c2 * c.rec37) ∧
    (∃ n, Arith.toI32? (k.c0 * c'.rec28) = some n ∧ pre = clampDelay n) ∧
    (∃ j n, Arith.toI32? (k.c0 * (c'.rec37 * table j + lit 0.030509727)) = some n ∧ c'.fadeR = fadeStep k.c12 (n - 1) c.fadeR) ∧
    (∃ j n, Arith.toI32? (k.c0 * (c'.rec37 * table j + lit 0.025603978)) = some n ∧ c'.fadeL = fadeStep k.c12 (n - 1) c.fadeL) := by
  simp only [ctrlStep, Option.bind_eq_some_iff, Option.some.injEq, Prod.mk.injEq] at e
  obtain ⟨n, hn, _, -, _, -, _, -, n10, h10, t10, ht10, _, -, n21, h21, t21, ht21, rfl, rfl⟩ := e
  refine ⟨⟨rfl, rfl, rfl, rfl, rfl, rfl, rfl, rfl, rfl, rfl⟩, ⟨n, hn, rfl⟩, ⟨_, n10, h10, ?_⟩, ⟨_, n21, h21, ?_⟩⟩
  · rw [(i32_eq_some ht10).1]; rfl
  · rw [(i32_eq_some ht21).1]; rfl

/-- The controls before step `t`. -/
noncomputable def ctrls (k : Consts ℝ) (s : Slow ℝ) : ℕ → Ctrl ℝ
  | 0 => (clear (ideal (α := ℝ))).ctrl
  | t + 1 => ((ctrlStep k s (ctrls k s t)).map Prod.fst).getD (ctrls k s t)

/-- The predelay of step `t`. -/
noncomputable def pres (k : Consts ℝ) (s : Slow ℝ) (t : ℕ) : ℤ := ((ctrlStep k s (ctrls k s t)).map Prod.snd).getD 0

theorem ctrls_step {k : Consts ℝ} (k0 : 45 ≤ k.c0) (k0' : k.c0 ≤ 192000) (k1 : k.c1 = 44.1 / k.c0) (k2 : k.c2 = 1 - k.c1)
    (k5 : k.c5 = 0.0441 / k.c0) (k11 : k.c11 = 1 / k.c0) {p : Params ℝ} (P : InRangeR p) (t : ℕ) :
    ctrlStep k (slow k p) (ctrls k (slow k p) t) = some (ctrls k (slow k p) (t + 1), pres k (slow k p) t) := by
  have safe : ∀ t, SafeR (ctrls k (slow k p) t) := by
    intro t
    induction t with
    | zero => constructor <;> simp [ctrls, FVerbDSP.clear, real_arith]
    | succ t ih =>
      obtain ⟨c, pre, e, C⟩ := ctrl_real k0 k0' k1 k2 k5 k11 P ih
      simp only [ctrls, e, Option.map_some, Option.getD_some]
      exact C
  obtain ⟨c, pre, e, C⟩ := ctrl_real k0 k0' k1 k2 k5 k11 P (safe t)
  simp only [ctrls, pres, e, Option.map_some, Option.getD_some]

theorem toI32_floor {x : ℝ} (h0 : 0 ≤ x) (h1 : x ≤ 2 ^ 24) {n : ℤ} (e : Arith.toI32? x = some n) : n = ⌊x⌋ := by
  rw [(toI32_real (by linarith) h1).1, show truncR x = ⌊x⌋ from if_pos h0] at e
  exact (Option.some.inj e).symm

/-- The controls of a run with fixed parameters. -/
theorem ctrls_tame {sr : ℤ} (hsr : 8000 ≤ sr) {k : Consts ℝ} (hk : instanceConstants sr = some k) {p : Params ℝ} (P : Settings p) :
    (∀ t, ctrlStep k (slow k p) (ctrls k (slow k p) t) = some (ctrls k (slow k p) (t + 1), pres k (slow k p) t)) ∧
    CalmR k.c1 (p.decay / 100) (p.tailDensity / 100) (fun t => ctrls k (slow k p) (t + 1)) ∧
    (∀ t, 0 ≤ (ctrls k (slow k p) (t + 1)).rec27 ∧ (ctrls k (slow k p) (t + 1)).rec27 ≤ 1) ∧
    (∀ t : ℕ, t - pres k (slow k p) t = arriving k.c0 p.predelay t) ∧
    ∀ t, 0 ≤ (ctrls k (slow k p) (t + 1)).rec37 ∧ (ctrls k (slow k p) (t + 1)).rec37 ≤ p.modDepth / 1000 := by
  obtain ⟨-, ⟨l0, l1⟩, -, k1, k2, k3, k4, k5, k11, k12, -⟩ := constants_tank hsr hk
  have hc : 0 < k.c0 := by linarith
  have st : ∀ t, ctrlStep k (slow k p) (ctrls k (slow k p) t) = some (ctrls k (slow k p) (t + 1), pres k (slow k p) t) :=
    ctrls_step (by linarith) l1 k1 k2 k5 k11 ⟨P.predelay, P.modFrequency, P.modDepth⟩
  have q0 : 0 ≤ k.c1 := by rw [k1]; positivity
  have q1 : k.c1 ≤ 1 / 100 := by rw [k1, div_le_iff₀ hc]; linarith
  have rise : ∀ (pr : Ctrl ℝ → ℝ) (v S : ℝ), v = k.c1 * S → pr (ctrls k (slow k p) 0) = 0 →
      (∀ t, pr (ctrls k (slow k p) (t + 1)) = v + k.c2 * pr (ctrls k (slow k p) t)) → Rises k.c1 S fun t => pr (ctrls k (slow k p) (t + 1)) := by
    intro pr v S hv h0 hn
    exact ⟨by rw [hn, h0, hv, mul_zero, add_zero], fun t => by rw [hn, hv, k2]⟩
  have z : (lit 0 : ℝ) = 0 := by simp only [real_arith]; norm_num
  have ex : ∀ {v : ℝ}, 0 ≤ v → 0 ≤ Real.exp (-(k.c3 * v)) ∧ Real.exp (-(k.c3 * v)) ≤ 1 := fun {v} hv =>
    ⟨(Real.exp_pos _).le, Real.exp_le_one_iff.2 (by have := mul_nonneg k3 hv; linarith)⟩
  have pc : ∀ v : ℝ, k.c4 * v = k.c1 * (v / 100) := fun v => by rw [k4, k1]; ring
  have ml : ∀ v : ℝ, k.c5 * v = k.c1 * (v / 1000) := fun v => by rw [k5, k1]; ring
  have E := fun t => ctrl_eqs (st t)
  have r8 := rise (·.rec8) _ (Real.exp (-(k.c3 * p.damping))) rfl z fun t => (E t).1.1
  have r12 := rise (·.rec12) _ _ (pc _) z fun t => (E t).1.2.1
  have r15 := rise (·.rec15) _ _ (pc _) z fun t => (E t).1.2.2.1
  have r20 := rise (·.rec20) _ _ (pc _) z fun t => (E t).1.2.2.2.1
  have r24 := rise (·.rec24) _ (Real.exp (-(k.c3 * p.highPass))) rfl z fun t => (E t).1.2.2.2.2.1
  have r25 := rise (·.rec25) _ (Real.exp (-(k.c3 * p.lowPass))) rfl z fun t => (E t).1.2.2.2.2.2.1
  have r27 := rise (·.rec27) _ _ (pc _) z fun t => (E t).1.2.2.2.2.2.2.1
  have r28 := rise (·.rec28) _ _ (ml _) z fun t => (E t).1.2.2.2.2.2.2.2.1
  have r29 := rise (·.rec29) _ _ (pc _) z fun t => (E t).1.2.2.2.2.2.2.2.2.1
  have r37 := rise (·.rec37) _ _ (ml _) z fun t => (E t).1.2.2.2.2.2.2.2.2.2
  have pos : ∀ {v : ℝ}, 0 ≤ v → 0 ≤ v / 100 := fun hv => by positivity
  refine ⟨st, ⟨?_, ?_, ?_, ?_, ?_, ?_, ?_, ?_, ?_, ?_, ?_⟩, ?_, ?_, ?_⟩
  · exact r8.drift q0 (by linarith) (ex P.damping).1 (ex P.damping).2
  · exact r24.drift q0 (by linarith) (ex P.highPass).1 (ex P.highPass).2
  · exact r25.drift q0 (by linarith) (ex P.lowPass).1 (ex P.lowPass).2
  · exact r12.range q0 (by linarith) (pos P.tailDensity.1)
  · exact r12.mono q0 (by linarith) (pos P.tailDensity.1)
  · exact fun t => ⟨(r15.range q0 (by linarith) (pos P.diffusion2.1) t).1,
      (r15.range q0 (by linarith) (pos P.diffusion2.1) t).2.trans (by linarith [P.diffusion2.2])⟩
  · exact r15.mono q0 (by linarith) (pos P.diffusion2.1)
  · exact fun t => ⟨(r20.range q0 (by linarith) (pos P.diffusion1.1) t).1,
      (r20.range q0 (by linarith) (pos P.diffusion1.1) t).2.trans (by linarith [P.diffusion1.2])⟩
  · exact r20.mono q0 (by linarith) (pos P.diffusion1.1)
  · exact r29.range q0 (by linarith) (pos P.decay.1)
  · exact r29.mono q0 (by linarith) (pos P.decay.1)
  · exact fun t => ⟨(r27.range q0 (by linarith) (pos P.inputAmount.1) t).1,
      (r27.range q0 (by linarith) (pos P.inputAmount.1) t).2.trans (by linarith [P.inputAmount.2])⟩
  · intro t
    obtain ⟨n, hn, e⟩ := (E t).2.1
    have S0 : 0 ≤ p.predelay / 1000 := by have := P.predelay.1; positivity
    have a := r28.range q0 (by linarith) S0 t
    have a1 : (ctrls k (slow k p) (t + 1)).rec28 ≤ 0.3 := a.2.trans (by linarith [P.predelay.2])
    have b0 : 0 ≤ k.c0 * (ctrls k (slow k p) (t + 1)).rec28 := mul_nonneg hc.le a.1
    have b1 : k.c0 * (ctrls k (slow k p) (t + 1)).rec28 ≤ 60000 := by nlinarith
    have f0 : 0 ≤ ⌊k.c0 * (ctrls k (slow k p) (t + 1)).rec28⌋ := Int.floor_nonneg.2 b0
    have f1 : ⌊k.c0 * (ctrls k (slow k p) (t + 1)).rec28⌋ ≤ 60000 := Int.floor_le_iff.2 (by push_cast; linarith)
    rw [e, toI32_floor b0 (by linarith) hn]
    unfold arriving
    rw [← k1, ← r28.value t]
    unfold clampDelay
    omega
  · exact r37.range q0 (by linarith) (by have := P.modDepth.1; positivity)

/-- The crossfades of a run with steady parameters. -/
theorem ctrls_calm {sr : ℤ} (hsr : 8000 ≤ sr) {k : Consts ℝ} (hk : instanceConstants sr = some k) {p : Params ℝ} (P : Steady p) :
    (∃ T, FadedIn (⌊0.01 * k.c0⌋).toNat T fun t => (ctrls k (slow k p) (t + 1)).fadeR) ∧
    (∃ T, FadedIn (⌊0.01 * k.c0⌋).toNat T fun t => (ctrls k (slow k p) (t + 1)).fadeL) := by
  obtain ⟨-, ⟨l0, l1⟩, -, k1, k2, k3, k4, k5, k11, k12, -⟩ := constants_tank hsr hk
  obtain ⟨st, -, -, -, h37⟩ := ctrls_tame hsr hk P.settings
  have z : (lit 0 : ℝ) = 0 := by simp only [real_arith]; norm_num
  have E := fun t => ctrl_eqs (st t)
  have z37 : ∀ t, (ctrls k (slow k p) (t + 1)).rec37 = 0 := fun t => by
    have := h37 t
    rw [P.modDepth, zero_div] at this
    exact le_antisymm this.2 this.1
  have F0 : 80 ≤ ⌊0.01 * k.c0⌋ := Int.le_floor.2 (by push_cast; linarith)
  have F1 : ⌊0.01 * k.c0⌋ ≤ 1920 := Int.floor_le_iff.2 (by push_cast; linarith)
  have Fc : ((⌊0.01 * k.c0⌋.toNat : ℕ) : ℤ) = ⌊0.01 * k.c0⌋ := Int.toNat_of_nonneg (by omega)
  have k12' : k.c12 = 1 / ((⌊0.01 * k.c0⌋.toNat : ℕ) : ℝ) := by
    rw [k12]
    congr 1
    exact_mod_cast congrArg (Int.cast (R := ℝ)) Fc.symm
  constructor
  · refine ⟨⌊k.c0 * 0.030509727⌋ - 1, fade_in (c12 := k.c12) (by omega) ?_ ?_ k12' ?_ ?_⟩
    · rw [Fc]
      have : ⌊0.01 * k.c0⌋ + 1 ≤ ⌊k.c0 * 0.030509727⌋ := Int.le_floor.2 (by push_cast; have := Int.floor_le (0.01 * k.c0); linarith)
      omega
    · have : ⌊k.c0 * 0.030509727⌋ ≤ 65537 := Int.floor_le_iff.2 (by push_cast; linarith)
      omega
    all_goals
      have key : ∀ t, (ctrls k (slow k p) (t + 1)).fadeR = fadeStep k.c12 (⌊k.c0 * 0.030509727⌋ - 1) (ctrls k (slow k p) t).fadeR := by
        intro t
        obtain ⟨j, n, hn, e⟩ := (E t).2.2.1
        have h : k.c0 * ((ctrls k (slow k p) (t + 1)).rec37 * table j + lit 0.030509727) = k.c0 * 0.030509727 := by
          rw [z37, zero_mul, zero_add]; simp only [real_arith]; norm_num
        rw [h] at hn
        rw [e, toI32_floor (by linarith) (by linarith) hn]
    · exact (key 0).trans (by simp only [ctrls, clear, z])
    · exact fun t => key (t + 1)
  · refine ⟨⌊k.c0 * 0.025603978⌋ - 1, fade_in (c12 := k.c12) (by omega) ?_ ?_ k12' ?_ ?_⟩
    · rw [Fc]
      have : ⌊0.01 * k.c0⌋ + 1 ≤ ⌊k.c0 * 0.025603978⌋ := Int.le_floor.2 (by push_cast; have := Int.floor_le (0.01 * k.c0); linarith)
      omega
    · have : ⌊k.c0 * 0.025603978⌋ ≤ 65537 := Int.floor_le_iff.2 (by push_cast; linarith)
      omega
    all_goals
      have key : ∀ t, (ctrls k (slow k p) (t + 1)).fadeL = fadeStep k.c12 (⌊k.c0 * 0.025603978⌋ - 1) (ctrls k (slow k p) t).fadeL := by
        intro t
        obtain ⟨j, n, hn, e⟩ := (E t).2.2.2
        have h : k.c0 * ((ctrls k (slow k p) (t + 1)).rec37 * table j + lit 0.025603978) = k.c0 * 0.025603978 := by
          rw [z37, zero_mul, zero_add]; simp only [real_arith]; norm_num
        rw [h] at hn
        rw [e, toI32_floor (by linarith) (by linarith) hn]
    · exact (key 0).trans (by simp only [ctrls, clear, z])
    · exact fun t => key (t + 1)

/-! ### A run as a sequence of states -/

theorem loop_seq {L : Type} (I : LineImpl L ℝ) (k : Consts ℝ) (sl : Slow ℝ) (xs : List (Stereo ℝ)) :
    ∀ {s s' : State L ℝ} {ys : List (Stereo ℝ)}, loop I k sl s xs = some (s', ys) →
      ∃ S : ℕ → State L ℝ, S 0 = s ∧ ys.length = xs.length ∧
        ∀ t (ht : t < xs.length), ∃ y, ys[t]? = some y ∧ step I k sl (S t) xs[t] = some (S (t + 1), y) := by
  induction xs with
  | nil => intro s s' ys h; cases h; exact ⟨fun _ => s, rfl, rfl, fun t ht => absurd ht (by simp)⟩
  | cons x xs ih =>
    intro s s' ys h
    simp only [loop, Option.bind_eq_some_iff, Option.map_eq_some_iff, Prod.exists] at h
    obtain ⟨s1, y1, h1, s2, zs, h2, e⟩ := h
    cases e
    obtain ⟨S, S0, hl, hS⟩ := ih h2
    refine ⟨fun t => Nat.casesOn t s S, rfl, by simp [hl], fun t ht => ?_⟩
    cases t with
    | zero => exact ⟨y1, rfl, by simp only [List.getElem_cons_zero, S0]; exact h1⟩
    | succ t =>
      obtain ⟨y, hy, e⟩ := hS t (by simpa using ht)
      exact ⟨y, by simpa using hy, by simpa using e⟩

/-- One step, as equations for both channels and both outputs. -/
theorem step_halves {k : Consts ℝ} {sl : Slow ℝ} {s s' : State (ℤ → ℝ) ℝ} {x y : Stereo ℝ} (e : step ideal k sl s x = some (s', y)) :
    ∃ pre, ctrlStep k sl s.ctrl = some (s'.ctrl, pre) ∧ s'.iota = s.iota + 1 ∧
      HalfStep s.iota pre k.i6 k.i7 k.i8 k.i9 k.i13 k.i14 s'.ctrl s'.ctrl.fadeR x.right (s.l.outA (s.iota - k.i10)) s.r s'.r ∧
      HalfStep s.iota pre k.i15 k.i16 k.i17 k.i18 k.i20 k.i21 s'.ctrl s'.ctrl.fadeL x.left (s'.r.outA (s.iota - k.i19)) s.l s'.l ∧
      y.left = 0.6 * (s'.r.outC (s.iota - k.i28) + s'.r.outC (s.iota - k.i27) + s'.r.outA (s.iota - k.i26) -
        (s'.r.outB (s.iota - k.i25) + s'.l.outC (s.iota - k.i24) + s'.l.outB (s.iota - k.i23) + s'.l.outA (s.iota - k.i22))) ∧
      y.right = 0.6 * (s'.l.outC (s.iota - k.i35) + s'.l.outC (s.iota - k.i34) + s'.l.outA (s.iota - k.i33) -
        (s'.l.outB (s.iota - k.i32) + s'.r.outC (s.iota - k.i31) + s'.r.outB (s.iota - k.i30) + s'.r.outA (s.iota - k.i29))) := by
  simp only [step, Option.bind_eq_some_iff, Option.map_eq_some_iff, Prod.exists] at e
  obtain ⟨c, pre, hc, r, r14, hr, fbR, hfR, r', hr', l, r44, hl, fbL, hfL, l', hl', o0, h0, o1, h1, n, hn, e⟩ := e
  obtain ⟨rfl, -, -⟩ := i32_eq_some hn
  cases e
  cases hfR
  cases hfL
  have l1 : (lit 1 : ℝ) = 1 := by simp only [real_arith]; norm_num
  have l6 : (lit 0.6 : ℝ) = 0.6 := by simp only [real_arith]; norm_num
  simp only [tap, ideal, Option.bind_some, Option.map_some, Option.some.injEq] at h0 h1
  subst h0 h1
  refine ⟨pre, hc, rfl, ?_, ?_, ?_, ?_⟩
  · refine halfStep_of (fun v => ?_) (fun v => ?_) (fun v => ?_) hr hr' <;> (simp only [l1, real_arith]; ring)
  · refine halfStep_of (fun v => ?_) (fun v => ?_) (fun v => ?_) hl hl' <;> (simp only [l1, real_arith]; try ring)
  · simp only [l6, real_arith]
  · simp only [l6, real_arith]

theorem run_blocks {L : Type} (I : LineImpl L ℝ) (k : Consts ℝ) (p : Params ℝ) (bs : List (List (Stereo ℝ))) :
    ∀ s : State L ℝ, run I k s (bs.map (Event.block p)) = loop I k (slow k p) s bs.flatten := by
  induction bs with
  | nil => intro s; rfl
  | cons b bs ih =>
    intro s
    simp only [List.map_cons, run, compute, List.flatten_cons, FVerb.loop_append, ih]

theorem N_loudness (n : ℕ) (f : ℤ → ℝ) : N n f = loudness n fun t => f t := rfl

theorem gam_bounds {c1 : ℝ} (h0 : 0 ≤ c1) (h1 : c1 ≤ 0.00552) : 1 ≤ gam c1 ∧ gam c1 ≤ 1.006 := by
  have hd : 0 < 1 / 2 - c1 := by linarith
  have e0 : 0 ≤ c1 / (1 / 2 - c1) := div_nonneg h0 hd.le
  have e1 : c1 / (1 / 2 - c1) ≤ 0.0112 := by rw [div_le_iff₀ hd]; linarith
  refine ⟨Real.le_sqrt_of_sq_le (by linarith), Real.sqrt_le_iff.2 ⟨by norm_num, by norm_num at e1 ⊢; linarith⟩⟩

/-- The numbers put together. -/
theorem collect {γ r B Y H In : ℝ} (g1 : 1 ≤ γ) (g2 : γ ≤ 1.006) (r0 : 0 ≤ r) (r1 : 1.006 * r < 1) (B0 : 0 ≤ B) (H0 : 0 ≤ H) (hI : H ≤ In)
    (h : Y ≤ B / (1 - r * γ) * (γ * (1 + γ)) * H) : 0.6 * ((2 + 2 * γ) * Y) ≤ 5 * B / (1 - 1.006 * r) * In := by
  have d0 : 0 < 1 - 1.006 * r := by linarith
  have hr : r * γ ≤ 1.006 * r := by rw [mul_comm]; exact mul_le_mul_of_nonneg_right g2 r0
  have a : B / (1 - r * γ) ≤ B / (1 - 1.006 * r) := div_le_div_of_nonneg_left B0 d0 (by linarith)
  have b : 0 ≤ B / (1 - 1.006 * r) := div_nonneg B0 d0.le
  have c : 0 ≤ γ * (1 + γ) := mul_nonneg (by linarith) (by linarith)
  have t1 := h.trans (mul_le_mul (mul_le_mul_of_nonneg_right a c) hI H0 (mul_nonneg b c))
  have t3 : 0.6 * (2 + 2 * γ) * (γ * (1 + γ)) ≤ 5 := by nlinarith
  have t5 := mul_le_mul_of_nonneg_right t3 (mul_nonneg b (H0.trans hI))
  have t6 := mul_le_mul_of_nonneg_left t1 (show 0 ≤ 0.6 * (2 + 2 * γ) by linarith)
  calc _ = 0.6 * (2 + 2 * γ) * Y := by ring
    _ ≤ _ := t6
    _ = 0.6 * (2 + 2 * γ) * (γ * (1 + γ)) * (B / (1 - 1.006 * r) * In) := by ring
    _ ≤ _ := t5
    _ = _ := by ring

/-- A bound for the first allpass of the tank under given controls, whatever else the half does: gain `G`, and `H` more while the first
crossfade lasts. -/
def AllpassBound (c : ℕ → Ctrl ℝ) (f : ℕ → Fade ℝ) (G H : ℝ) (F : ℕ) : Prop :=
  ∀ {M : ℕ} {d1 d2 d3 d4 d dT : ℤ} {pre : ℕ → ℤ} {inp fb : ℕ → ℝ} {h : ℕ → Half (ℤ → ℝ) ℝ},
    HalfRun M d1 d2 d3 d4 d dT pre c f inp fb h → ∀ {n : ℕ}, n ≤ M →
      N n (sig fun i => (h i).dampLine) ≤ G * N n (driven c fb h) + H * N (min n F) (driven c fb h)

/-- A run as two halves that feed each other, with what enters and what leaves. -/
theorem run_signals {sr : ℤ} (hsr : 8000 ≤ sr) {k : Consts ℝ} (hk : instanceConstants sr = some k) {p : Params ℝ} (P : Settings p)
    {xs ys : List (Stereo ℝ)} {s' : State (ℤ → ℝ) ℝ} (h : loop ideal k (slow k p) (clear ideal) xs = some (s', ys)) :
    ys.length = xs.length ∧ ∃ r l : ℕ → Half (ℤ → ℝ) ℝ,
      HalfRun xs.length k.i6 k.i7 k.i8 k.i9 k.i13 k.i14 (pres k (slow k p)) (fun t => ctrls k (slow k p) (t + 1))
        (fun t => (ctrls k (slow k p) (t + 1)).fadeR) (fun t => channel Stereo.right xs t) (fun t => sig (fun i => (l i).outA) (t - k.i10)) r ∧
      HalfRun xs.length k.i15 k.i16 k.i17 k.i18 k.i20 k.i21 (pres k (slow k p)) (fun t => ctrls k (slow k p) (t + 1))
        (fun t => (ctrls k (slow k p) (t + 1)).fadeL) (fun t => channel Stereo.left xs t) (fun t => sig (fun i => (r i).outA) (t - k.i19)) l ∧
      (∀ t : ℕ, t < xs.length → channel Stereo.left ys t = 0.6 * (sig (fun i => (r i).outC) (t - k.i28) + sig (fun i => (r i).outC) (t - k.i27) + sig (fun i => (r i).outA) (t - k.i26) -
        (sig (fun i => (r i).outB) (t - k.i25) + sig (fun i => (l i).outC) (t - k.i24) + sig (fun i => (l i).outB) (t - k.i23) +
          sig (fun i => (l i).outA) (t - k.i22)))) ∧
      (∀ t : ℕ, t < xs.length → channel Stereo.right ys t = 0.6 * (sig (fun i => (l i).outC) (t - k.i35) + sig (fun i => (l i).outC) (t - k.i34) + sig (fun i => (l i).outA) (t - k.i33) -
        (sig (fun i => (l i).outB) (t - k.i32) + sig (fun i => (r i).outC) (t - k.i31) + sig (fun i => (r i).outB) (t - k.i30) +
          sig (fun i => (r i).outA) (t - k.i29)))) ∧
      (∀ t : ℕ, t < xs.length → |heardIn (pres k (slow k p)) r t| ≤ |channel Stereo.right xs (arriving k.c0 p.predelay t)|) ∧
      (∀ t : ℕ, t < xs.length → |heardIn (pres k (slow k p)) l t| ≤ |channel Stereo.left xs (arriving k.c0 p.predelay t)|) := by
  obtain ⟨K, ⟨l0, l1⟩, -, k1, -, -, -, -, -, -, f10, f19⟩ := constants_tank hsr hk
  obtain ⟨st, C, b27, hpre, -⟩ := ctrls_tame hsr hk P
  obtain ⟨S, S0, hlen, hS⟩ := loop_seq ideal k (slow k p) xs h
  -- times and controls
  have tc : ∀ t ≤ xs.length, (S t).iota = t ∧ (S t).ctrl = ctrls k (slow k p) t := by
    intro t
    induction t with
    | zero => intro _; rw [S0]; exact ⟨rfl, rfl⟩
    | succ t ih =>
      intro ht
      obtain ⟨y, -, e⟩ := hS t ht
      obtain ⟨pre, ec, ei, -⟩ := step_halves e
      obtain ⟨i1, i2⟩ := ih (by omega)
      rw [i2, st t] at ec
      refine ⟨by rw [ei, i1]; push_cast; rfl, ?_⟩
      exact (congrArg Prod.fst (Option.some.inj ec)).symm
  have halves : ∀ t (ht : t < xs.length), ∃ y, ys[t]? = some y ∧
      HalfStep t (pres k (slow k p) t) k.i6 k.i7 k.i8 k.i9 k.i13 k.i14 (ctrls k (slow k p) (t + 1)) (ctrls k (slow k p) (t + 1)).fadeR xs[t].right
        ((S t).l.outA (t - k.i10)) (S t).r (S (t + 1)).r ∧
      HalfStep t (pres k (slow k p) t) k.i15 k.i16 k.i17 k.i18 k.i20 k.i21 (ctrls k (slow k p) (t + 1)) (ctrls k (slow k p) (t + 1)).fadeL xs[t].left
        ((S (t + 1)).r.outA (t - k.i19)) (S t).l (S (t + 1)).l ∧
      y.left = 0.6 * ((S (t + 1)).r.outC (t - k.i28) + (S (t + 1)).r.outC (t - k.i27) + (S (t + 1)).r.outA (t - k.i26) -
        ((S (t + 1)).r.outB (t - k.i25) + (S (t + 1)).l.outC (t - k.i24) + (S (t + 1)).l.outB (t - k.i23) + (S (t + 1)).l.outA (t - k.i22))) ∧
      y.right = 0.6 * ((S (t + 1)).l.outC (t - k.i35) + (S (t + 1)).l.outC (t - k.i34) + (S (t + 1)).l.outA (t - k.i33) -
        ((S (t + 1)).l.outB (t - k.i32) + (S (t + 1)).r.outC (t - k.i31) + (S (t + 1)).r.outB (t - k.i30) + (S (t + 1)).r.outA (t - k.i29))) := by
    intro t ht
    obtain ⟨y, hy, e⟩ := hS t ht
    obtain ⟨pre, ec, ei, hr, hl, o0, o1⟩ := step_halves e
    obtain ⟨i1, i2⟩ := tc t (by omega)
    have i3 := (tc (t + 1) (by omega)).2
    rw [i2, st t] at ec
    have ep := congrArg Prod.snd (Option.some.inj ec)
    dsimp only at ep
    rw [← ep, i1, i3] at hr hl
    rw [i1] at o0 o1
    exact ⟨y, hy, hr, hl, o0, o1⟩
  have z : (lit 0 : ℝ) = 0 := by simp only [real_arith]; norm_num
  -- the lines that are read across
  have WrA : Written xs.length fun i => (S i).r.outA := ⟨fun j => by rw [S0]; exact z, fun t ht => by
    obtain ⟨y, -, hr, -⟩ := halves t ht; exact ⟨_, hr.outA⟩⟩
  have WlA : Written xs.length fun i => (S i).l.outA := ⟨fun j => by rw [S0]; exact z, fun t ht => by
    obtain ⟨y, -, -, hl, -⟩ := halves t ht; exact ⟨_, hl.outA⟩⟩
  have WrB : Written xs.length fun i => (S i).r.outB := ⟨fun j => by rw [S0]; exact z, fun t ht => by
    obtain ⟨y, -, hr, -⟩ := halves t ht; exact ⟨_, hr.outB⟩⟩
  have WlB : Written xs.length fun i => (S i).l.outB := ⟨fun j => by rw [S0]; exact z, fun t ht => by
    obtain ⟨y, -, -, hl, -⟩ := halves t ht; exact ⟨_, hl.outB⟩⟩
  have WrC : Written xs.length fun i => (S i).r.outC := ⟨fun j => by rw [S0]; exact z, fun t ht => by
    obtain ⟨y, -, hr, -⟩ := halves t ht; exact ⟨_, hr.outC⟩⟩
  have WlC : Written xs.length fun i => (S i).l.outC := ⟨fun j => by rw [S0]; exact z, fun t ht => by
    obtain ⟨y, -, -, hl, -⟩ := halves t ht; exact ⟨_, hl.outC⟩⟩
  have pre0 : ∀ t, 0 ≤ pres k (slow k p) t := fun t => by
    obtain ⟨m, -, e⟩ := (ctrl_eqs (st t)).2.1
    rw [e]; exact clampDelay_nonneg _
  have Rr : HalfRun xs.length k.i6 k.i7 k.i8 k.i9 k.i13 k.i14 (pres k (slow k p)) (fun t => ctrls k (slow k p) (t + 1))
      (fun t => (ctrls k (slow k p) (t + 1)).fadeR) (fun t => channel Stereo.right xs t) (fun t => sig (fun i => (S i).l.outA) (t - k.i10))
      (fun t => (S t).r) := by
    refine ⟨fun t ht => ?_, ⟨K.i6.1, K.i7.1, K.i8.1, K.i9.1, K.i13.1, K.i14.1⟩, pre0, ?_, ?_⟩
    · obtain ⟨y, -, hr, -⟩ := halves t ht
      rw [WlA.read (t := t) (by omega) (by have := K.i10.1; omega)] at hr
      simp only [channel, Int.toNat_natCast, List.getElem?_eq_getElem ht, Option.map_some, Option.getD_some]
      rw [if_neg (by omega)]
      exact hr
    · intro j; rw [S0]; simp only [clear, ideal, z, and_self]
    · rw [S0]; simp only [clear, z, and_self]
  have Rl : HalfRun xs.length k.i15 k.i16 k.i17 k.i18 k.i20 k.i21 (pres k (slow k p)) (fun t => ctrls k (slow k p) (t + 1))
      (fun t => (ctrls k (slow k p) (t + 1)).fadeL) (fun t => channel Stereo.left xs t) (fun t => sig (fun i => (S i).r.outA) (t - k.i19))
      (fun t => (S t).l) := by
    refine ⟨fun t ht => ?_, ⟨K.i15.1, K.i16.1, K.i17.1, K.i18.1, K.i20.1, K.i21.1⟩, pre0, ?_, ?_⟩
    · obtain ⟨y, -, -, hl, -⟩ := halves t ht
      rw [WrA.read (t := t + 1) (by omega) (by have := K.i19.1; push_cast; omega)] at hl
      simp only [channel, Int.toNat_natCast, List.getElem?_eq_getElem ht, Option.map_some, Option.getD_some]
      rw [if_neg (by omega)]
      exact hl
    · intro j; rw [S0]; simp only [clear, ideal, z, and_self]
    · rw [S0]; simp only [clear, z, and_self]
  -- what enters
  have entering : ∀ {h : ℕ → Half (ℤ → ℝ) ℝ} {x : ℤ → ℝ}, Written xs.length (fun i => (h i).preLine) →
      (∀ t : ℕ, t < xs.length → (h (t + 1)).preLine t = x t * (ctrls k (slow k p) (t + 1)).rec27) →
      ∀ t : ℕ, t < xs.length → |heardIn (pres k (slow k p)) h t| ≤ |x (arriving k.c0 p.predelay t)| := by
    intro h x W hx t ht
    simp only [heardIn, Int.toNat_natCast, ← hpre t]
    rcases lt_or_ge ((t : ℤ) - pres k (slow k p) t) 0 with hneg | hpos
    · rw [sig_neg _ _ hneg, abs_zero]; exact abs_nonneg _
    · obtain ⟨j, hj⟩ := Int.eq_ofNat_of_zero_le hpos
      have := pre0 t
      rw [hj]
      change |sig _ (j : ℤ)| ≤ |x (j : ℤ)|
      rw [sig_nat, hx j (by omega), abs_mul]
      refine mul_le_of_le_one_right (abs_nonneg _) ?_
      rw [abs_of_nonneg (b27 j).1]
      exact (b27 j).2
  have er := entering (h := fun t => (S t).r) (x := channel Stereo.right xs) ⟨fun j => (Rr.lines j).1, fun t ht => ⟨_, (Rr.step t ht).preLine⟩⟩
    (fun t ht => by rw [(Rr.step t ht).preLine, Function.update_self])
  have el := entering (h := fun t => (S t).l) (x := channel Stereo.left xs) ⟨fun j => (Rl.lines j).1, fun t ht => ⟨_, (Rl.step t ht).preLine⟩⟩
    (fun t ht => by rw [(Rl.step t ht).preLine, Function.update_self])
  have out : ∀ t (ht : t < xs.length) (ch : Stereo ℝ → ℝ) (y : Stereo ℝ), ys[t]? = some y → channel ch ys t = ch y := by
    intro t ht ch y hy
    simp only [channel, Int.toNat_natCast, hy, Option.map_some, Option.getD_some]
    rw [if_neg (by omega)]
  refine ⟨hlen, fun t => (S t).r, fun t => (S t).l, Rr, Rl, fun t ht => ?_, fun t ht => ?_, er, el⟩
  · obtain ⟨y, hy, -, -, o0, -⟩ := halves t ht
    rw [out t ht _ y hy, o0]
    have := K.i28.1
    have := K.i27.1
    have := K.i26.1
    have := K.i25.1
    have := K.i24.1
    have := K.i23.1
    have := K.i22.1
    rw [WrC.read (t := t + 1) (by omega) (by push_cast; omega),
      WrC.read (t := t + 1) (by omega) (by push_cast; omega),
      WrA.read (t := t + 1) (by omega) (by push_cast; omega),
      WrB.read (t := t + 1) (by omega) (by push_cast; omega),
      WlC.read (t := t + 1) (by omega) (by push_cast; omega),
      WlB.read (t := t + 1) (by omega) (by push_cast; omega),
      WlA.read (t := t + 1) (by omega) (by push_cast; omega)]
  · obtain ⟨y, hy, -, -, -, o1⟩ := halves t ht
    rw [out t ht _ y hy, o1]
    have := K.i35.1
    have := K.i34.1
    have := K.i33.1
    have := K.i32.1
    have := K.i31.1
    have := K.i30.1
    have := K.i29.1
    rw [WlC.read (t := t + 1) (by omega) (by push_cast; omega),
      WlC.read (t := t + 1) (by omega) (by push_cast; omega),
      WlA.read (t := t + 1) (by omega) (by push_cast; omega),
      WlB.read (t := t + 1) (by omega) (by push_cast; omega),
      WrC.read (t := t + 1) (by omega) (by push_cast; omega),
      WrB.read (t := t + 1) (by omega) (by push_cast; omega),
      WrA.read (t := t + 1) (by omega) (by push_cast; omega)]

/-- Everything about a run, with the signals that circulate. -/
theorem run_bounds {sr : ℤ} (hsr : 8000 ≤ sr) {k : Consts ℝ} (hk : instanceConstants sr = some k) {p : Params ℝ} (P : Settings p) {G H : ℝ} (hG : 0 ≤ G)
    (hH : 0 ≤ H) (κ1 : 1.006 * ((p.decay / 100) ^ 2 * G) < 1) {xs ys : List (Stereo ℝ)} {s' : State (ℤ → ℝ) ℝ} (h : loop ideal k (slow k p) (clear ideal) xs = some (s', ys))
    (tr : AllpassBound (fun t => ctrls k (slow k p) (t + 1)) (fun t => (ctrls k (slow k p) (t + 1)).fadeR) G H ⌊0.01 * k.c0⌋.toNat)
    (tl : AllpassBound (fun t => ctrls k (slow k p) (t + 1)) (fun t => (ctrls k (slow k p) (t + 1)).fadeL) G H ⌊0.01 * k.c0⌋.toNat) :
    ys.length = xs.length ∧ ∀ n ≤ xs.length,
      (N n (channel Stereo.left ys) ≤ 5 * (G + H) / (1 - 1.006 * ((p.decay / 100) ^ 2 * G)) *
        (N n (fun t => channel Stereo.left xs (arriving k.c0 p.predelay t.toNat)) +
          N n (fun t => channel Stereo.right xs (arriving k.c0 p.predelay t.toNat)))) ∧
      (N n (channel Stereo.right ys) ≤ 5 * (G + H) / (1 - 1.006 * ((p.decay / 100) ^ 2 * G)) *
        (N n (fun t => channel Stereo.left xs (arriving k.c0 p.predelay t.toNat)) +
          N n (fun t => channel Stereo.right xs (arriving k.c0 p.predelay t.toNat)))) := by
  obtain ⟨K, ⟨l0, l1⟩, -, k1, -, -, -, -, -, -, f10, f19⟩ := constants_tank hsr hk
  obtain ⟨-, C, -⟩ := ctrls_tame hsr hk P
  obtain ⟨hlen, r, l, Rr, Rl, outL, outR, hr, hl⟩ := run_signals hsr hk P h
  refine ⟨hlen, fun n hn => ?_⟩
  have hc : 0 < k.c0 := by linarith
  have er : N n (heardIn (pres k (slow k p)) r) ≤ N n (fun t => channel Stereo.right xs (arriving k.c0 p.predelay t.toNat)) :=
    N_mono fun t ht => by simp only [Int.toNat_natCast]; exact hr t (by omega)
  have el : N n (heardIn (pres k (slow k p)) l) ≤ N n (fun t => channel Stereo.left xs (arriving k.c0 p.predelay t.toNat)) :=
    N_mono fun t ht => by simp only [Int.toNat_natCast]; exact hl t (by omega)
  -- the tank
  have q0 : 0 ≤ k.c1 := by rw [k1]; positivity
  have q1 : k.c1 ≤ 0.00552 := by rw [k1, div_le_iff₀ hc]; linarith
  obtain ⟨g1, g2⟩ := gam_bounds q0 q1
  have r0 : 0 ≤ p.decay / 100 := by have := P.decay.1; positivity
  have r1 : p.decay / 100 ≤ 1 := by linarith [P.decay.2]
  have ρG : 0 ≤ (p.decay / 100) ^ 2 * G := mul_nonneg (sq_nonneg _) hG
  have κ : (p.decay / 100) ^ 2 * G * gam k.c1 ≤ 1.006 * ((p.decay / 100) ^ 2 * G) := by
    rw [mul_comm]; exact mul_le_mul_of_nonneg_right g2 ρG
  have F0 : 80 ≤ ⌊0.01 * k.c0⌋ := Int.le_floor.2 (by push_cast; linarith)
  have tank := tanks_N Rr Rl C r0 hG hH (by linarith) (by omega) (by omega) hn (tr Rr hn) (tl Rl hn)
  obtain ⟨rB, rA⟩ := damped_N Rr C r0 hn
  obtain ⟨lB, lA⟩ := damped_N Rl C r0 hn
  have rC : N n (sig fun i => (r i).outC) = N n (sig fun i => (r i).dampLine) := N_congr fun t ht => by
    rw [sig_nat, sig_nat, (Rr.step t (by omega)).outC, Function.update_self]
  have lC : N n (sig fun i => (l i).outC) = N n (sig fun i => (l i).dampLine) := N_congr fun t ht => by
    rw [sig_nat, sig_nat, (Rl.step t (by omega)).outC, Function.update_self]
  rw [rC.symm, lC.symm] at tank
  rw [rC.symm] at rA rB
  rw [lC.symm] at lA lB
  have y0r := N_nonneg n (sig fun i => (r i).outC)
  have y0l := N_nonneg n (sig fun i => (l i).outC)
  have total := collect g1 g2 ρG κ1 (add_nonneg hG hH) (add_nonneg (N_nonneg n _) (N_nonneg n _)) ((add_comm _ _).trans_le (add_le_add el er)) tank
  have small : ∀ {y : ℝ}, 0 ≤ y → p.decay / 100 * (gam k.c1 * y) ≤ gam k.c1 * y := fun {y} hy =>
    mul_le_of_le_one_left (mul_nonneg (by linarith) hy) (by linarith)
  have sr' := small y0r
  have sl' := small y0l
  constructor
  · refine le_trans ?_ total
    refine le_trans (le_of_eq (N_congr fun t ht => ?_)) ((taps_N (sig_neg fun i => (r i).outC) (sig_neg fun i => (r i).outC)
      (sig_neg fun i => (r i).outA) (sig_neg fun i => (r i).outB) (sig_neg fun i => (l i).outC) (sig_neg fun i => (l i).outB)
      (sig_neg fun i => (l i).outA) K.i28.1 K.i27.1 K.i26.1 K.i25.1 K.i24.1 K.i23.1 K.i22.1 n).trans
      (mul_le_mul_of_nonneg_left ?_ (by norm_num)))
    · exact outL t (by omega)
    · nlinarith
  · refine le_trans ?_ total
    refine le_trans (le_of_eq (N_congr fun t ht => ?_)) ((taps_N (sig_neg fun i => (l i).outC) (sig_neg fun i => (l i).outC)
      (sig_neg fun i => (l i).outA) (sig_neg fun i => (l i).outB) (sig_neg fun i => (r i).outC) (sig_neg fun i => (r i).outB)
      (sig_neg fun i => (r i).outA) K.i35.1 K.i34.1 K.i33.1 K.i32.1 K.i31.1 K.i30.1 K.i29.1 n).trans
      (mul_le_mul_of_nonneg_left ?_ (by norm_num)))
    · exact outR t (by omega)
    · nlinarith

/-- From the bound of a run to the output of the code. -/
theorem output_bounds {sr : ℤ} (hsr : 8000 ≤ sr) {k : Consts ℝ} (hk : instanceConstants sr = some k) {p : Params ℝ} (P : Settings p) {G H : ℝ}
    (hG : 0 ≤ G) (hH : 0 ≤ H) (κ1 : 1.006 * ((p.decay / 100) ^ 2 * G) < 1)
    (tr : AllpassBound (fun t => ctrls k (slow k p) (t + 1)) (fun t => (ctrls k (slow k p) (t + 1)).fadeR) G H ⌊0.01 * k.c0⌋.toNat)
    (tl : AllpassBound (fun t => ctrls k (slow k p) (t + 1)) (fun t => (ctrls k (slow k p) (t + 1)).fadeL) G H ⌊0.01 * k.c0⌋.toNat)
    (blocks : List (List (Stereo ℝ))) (hlen : blocks.flatten.length < 2 ^ 31) :
    ∃ ys, output k (blocks.map (Event.block p)) = some ys ∧ ys.length = blocks.flatten.length ∧ ∀ n ≤ ys.length,
      ∀ ch, ch = Stereo.left ∨ ch = Stereo.right →
      loudness n (fun t => channel ch ys t) ≤ 5 * (G + H) / (1 - 1.006 * ((p.decay / 100) ^ 2 * G)) *
        (loudness n (fun t => channel Stereo.left blocks.flatten (arriving (min 192000 sr) p.predelay t)) +
          loudness n (fun t => channel Stereo.right blocks.flatten (arriving (min 192000 sr) p.predelay t))) := by
  obtain ⟨-, ⟨l0, l1⟩, k0, k1, k2, -, -, k5, k11, -⟩ := constants_tank hsr hk
  have some : (run ideal k (clear ideal) ([blocks.flatten].map (Event.block p))).isSome := by
    refine run_real (by linarith) l1 k1 k2 k5 k11 _ 0 ?_ rfl ⟨⟨P.predelay, P.modFrequency, P.modDepth⟩, by omega, trivial⟩
    constructor <;> simp [FVerbDSP.clear, real_arith]
  rw [run_blocks, List.flatten_singleton] at some
  obtain ⟨⟨s', ys⟩, h⟩ := Option.isSome_iff_exists.1 some
  obtain ⟨hl, hb⟩ := run_bounds hsr hk P hG hH κ1 h tr tl
  refine ⟨ys, by rw [output_ideal sr k hk, run_blocks, h]; rfl, hl, fun n hn ch hch => ?_⟩
  obtain ⟨b1, b2⟩ := hb n (by omega)
  simp only [N_loudness, Int.toNat_natCast, k0] at b1 b2
  rcases hch with rfl | rfl
  · exact b1
  · exact b2

/-- From energy to peaks. -/
theorem peak_of_loudness {ys : List (Stereo ℝ)} {B : ℕ → ℝ}
    (h : ∀ n ≤ ys.length, ∀ ch, ch = Stereo.left ∨ ch = Stereo.right → loudness n (fun t => channel ch ys t) ≤ B n) (t : ℕ) (y : Stereo ℝ)
    (hy : ys[t]? = some y) : max |y.left| |y.right| ≤ B (t + 1) := by
  obtain ⟨ht, -⟩ := List.getElem?_eq_some_iff.1 hy
  have one : ∀ ch : Stereo ℝ → ℝ, |ch y| ≤ loudness (t + 1) fun t => channel ch ys t := fun ch => by
    refine Real.le_sqrt_of_sq_le ?_
    rw [sq_abs]
    have : channel ch ys (t : ℤ) = ch y := by
      simp only [channel, Int.toNat_natCast, hy, Option.map_some, Option.getD_some]
      rw [if_neg (by omega)]
    rw [← this]
    exact Finset.single_le_sum (f := fun t : ℕ => channel ch ys t ^ 2) (fun _ _ => sq_nonneg _) (Finset.mem_range.2 (Nat.lt_succ_self t))
  exact max_le ((one _).trans (h (t + 1) (by omega) _ (.inl rfl))) ((one _).trans (h (t + 1) (by omega) _ (.inr rfl)))

/-! ### Theorems -/

/-- **C103, partial** (ideal arithmetic): the reverb does not build up energy. At every sample rate from 8 kHz, for all parameters in the
ranges of the setters without modulation, with the decay at most 99 % and the tail density below 100 %, and for every input in blocks of any
lengths (fewer than `2^31` frames): up to every frame the loudness of either output channel is at most
`5 (1 + 1 / (1 - density)) / (1 - 1.006 decay²)` times the loudness of the two input channels together, as they leave the predelay. The
bound does not depend on how long the reverb has been running. Missing: modulation, decays between 99 % and 100 %, parameter changes while
running, and rounding. -/
theorem C103_energy_partial (sr : ℤ) (hsr : 8000 ≤ sr) (k : Consts ℝ) (hk : instanceConstants sr = some k) (p : Params ℝ) (P : Steady p)
    (blocks : List (List (Stereo ℝ))) (hlen : blocks.flatten.length < 2 ^ 31) :
    ∃ ys, output k (blocks.map (Event.block p)) = some ys ∧ ys.length = blocks.flatten.length ∧ ∀ n ≤ ys.length,
      ∀ ch, ch = Stereo.left ∨ ch = Stereo.right →
      loudness n (fun t => channel ch ys t) ≤ 5 * (1 + 1 / (1 - p.tailDensity / 100)) / (1 - 1.006 * (p.decay / 100) ^ 2) *
        (loudness n (fun t => channel Stereo.left blocks.flatten (arriving (min 192000 sr) p.predelay t)) +
          loudness n (fun t => channel Stereo.right blocks.flatten (arriving (min 192000 sr) p.predelay t))) := by
  obtain ⟨-, C, -⟩ := ctrls_tame hsr hk P.settings
  obtain ⟨⟨T, Fr⟩, ⟨T', Fl⟩⟩ := ctrls_calm hsr hk P
  have td : p.tailDensity / 100 < 1 := by linarith [P.tailDensity.2]
  have td' : 0 < 1 - p.tailDensity / 100 := by linarith
  have r1 : p.decay / 100 ≤ 0.99 := by linarith [P.decay.2]
  have r0 : 0 ≤ p.decay / 100 := by have := P.decay.1; positivity
  have h := output_bounds hsr hk P.settings (G := 1) (H := 1 / (1 - p.tailDensity / 100)) zero_le_one (by positivity) (by nlinarith)
    (fun R _ hn => by have := tank_N R C td Fr hn; rw [one_mul, one_div, inv_mul_eq_div]; exact this)
    (fun R _ hn => by have := tank_N R C td Fl hn; rw [one_mul, one_div, inv_mul_eq_div]; exact this) blocks hlen
  simpa only [mul_one] using h

/-- **C103, partial** (ideal arithmetic): the same without predelay, where the input is what arrives. -/
theorem C103_without_predelay_partial (sr : ℤ) (hsr : 8000 ≤ sr) (k : Consts ℝ) (hk : instanceConstants sr = some k) (p : Params ℝ)
    (P : Steady p) (h0 : p.predelay = 0) (blocks : List (List (Stereo ℝ))) (hlen : blocks.flatten.length < 2 ^ 31) :
    ∃ ys, output k (blocks.map (Event.block p)) = some ys ∧ ys.length = blocks.flatten.length ∧ ∀ n ≤ ys.length,
      ∀ ch, ch = Stereo.left ∨ ch = Stereo.right →
      loudness n (fun t => channel ch ys t) ≤ 5 * (1 + 1 / (1 - p.tailDensity / 100)) / (1 - 1.006 * (p.decay / 100) ^ 2) *
        (loudness n (fun t => channel Stereo.left blocks.flatten t) + loudness n (fun t => channel Stereo.right blocks.flatten t)) := by
  have e : ∀ t, arriving (min 192000 sr) p.predelay t = t := fun t => by rw [h0]; simp [arriving]
  have h := C103_energy_partial sr hsr k hk p P blocks hlen
  simp only [e] at h
  exact h

/-- **C103, partial** (ideal arithmetic): no output sample is larger than the same multiple of the loudness of everything that has left the
predelay so far. In particular a finite burst, however the echoes pile up, never produces more than a fixed multiple of its own loudness,
for as long as the reverb runs. -/
theorem C103_peak_partial (sr : ℤ) (hsr : 8000 ≤ sr) (k : Consts ℝ) (hk : instanceConstants sr = some k) (p : Params ℝ) (P : Steady p)
    (blocks : List (List (Stereo ℝ))) (hlen : blocks.flatten.length < 2 ^ 31) :
    ∃ ys, output k (blocks.map (Event.block p)) = some ys ∧ ∀ (t : ℕ) (y : Stereo ℝ), ys[t]? = some y →
      max |y.left| |y.right| ≤ 5 * (1 + 1 / (1 - p.tailDensity / 100)) / (1 - 1.006 * (p.decay / 100) ^ 2) *
        (loudness (t + 1) (fun t => channel Stereo.left blocks.flatten (arriving (min 192000 sr) p.predelay t)) +
          loudness (t + 1) (fun t => channel Stereo.right blocks.flatten (arriving (min 192000 sr) p.predelay t))) := by
  obtain ⟨ys, e, -, h⟩ := C103_energy_partial sr hsr k hk p P blocks hlen
  exact ⟨ys, e, fun t y hy => peak_of_loudness h t y hy⟩

/-- A new reverb with the modulation turned off. -/
example : Steady { (resetUI : Params ℝ) with modDepth := 0 } := by
  constructor <;> simp only [resetUI, real_arith] <;> norm_num

example : ∃ k : Consts ℝ, instanceConstants 48000 = some k := by
  obtain ⟨k, hk, -⟩ := constants_real 48000
  exact ⟨k, hk⟩

/-- With a predelay of 100 ms at 48 kHz nothing has arrived after the first frame: the predelay moves by more than one frame per frame. -/
example : arriving 48000 100 0 = -4 := by
  unfold arriving
  norm_num

end Verif.FVerbDSP
