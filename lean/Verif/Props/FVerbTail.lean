import Verif.Props.FVerbModEnergy
import Verif.Lemmas.FVerbTail
import Mathlib.Analysis.Complex.ExponentialBounds

/-!
# C104: how fast the reverb dies away
-/

namespace Verif.FVerbDSP
open Energy

/-! ### Specification -/

/-- No part of the reverb rings for ever by itself: the input diffusers stay below 100 % and no filter has its corner at 0 Hz. -/
structure Absorbing (p : Params ℝ) : Prop where
  diffusion1 : p.diffusion1 < 100
  diffusion2 : p.diffusion2 < 100
  damping : 0 < p.damping
  highPass : 0 < p.highPass
  lowPass : 0 < p.lowPass

/-! ### The delays in seconds -/

theorem delayConst_le {c0 : ℝ} (h1 : 8000 ≤ c0) (h2 : c0 ≤ 192000) {q : ℚ} (q0 : 1 / 8000 ≤ q) (q1 : q ≤ 1) {off n : ℤ} (o0 : -1 ≤ off)
    (e : delayConst c0 q off = some n) {τ : ℝ} (hτ : (q : ℝ) ≤ τ) : (n : ℝ) ≤ τ * c0 + off := by
  have q0' : (0 : ℚ) ≤ q := le_trans (by norm_num) q0
  have r0 : (1 / 8000 : ℝ) ≤ q := by
    have : ((1 / 8000 : ℚ) : ℝ) ≤ q := by exact_mod_cast q0
    push_cast at this
    exact this
  rw [delayConst_val (by linarith) h2 q0' q1 e]
  have f1 : 1 ≤ ⌊(q : ℝ) * c0⌋ := Int.le_floor.2 (by push_cast; nlinarith)
  have c : clampDelay (⌊(q : ℝ) * c0⌋ + off) ≤ ⌊(q : ℝ) * c0⌋ + off := by unfold clampDelay; omega
  have c' : (clampDelay (⌊(q : ℝ) * c0⌋ + off) : ℝ) ≤ (⌊(q : ℝ) * c0⌋ : ℝ) + off := by exact_mod_cast c
  have := Int.floor_le ((q : ℝ) * c0)
  nlinarith

/-- How long the delays are. -/
structure Short (k : Consts ℝ) : Prop where
  diffuse : ∀ i, i = k.i6 ∨ i = k.i7 ∨ i = k.i8 ∨ i = k.i9 ∨ i = k.i15 ∨ i = k.i16 ∨ i = k.i17 ∨ i = k.i18 → ((i + 1 : ℤ) : ℝ) ≤ 0.0132 * k.c0
  tail : ∀ i, i = k.i14 ∨ i = k.i21 → ((i + 1 : ℤ) : ℝ) ≤ 0.0893 * k.c0
  damp : ∀ i, i = k.i13 ∨ i = k.i20 → (i : ℝ) ≤ 0.1497 * k.c0
  cross : ∀ i, i = k.i10 ∨ i = k.i19 → (i : ℝ) ≤ 0.1252 * k.c0
  left : ∀ i, i = k.i22 ∨ i = k.i23 ∨ i = k.i24 ∨ i = k.i25 ∨ i = k.i26 ∨ i = k.i27 ∨ i = k.i28 → (i : ℝ) ≤ 0.1219 * k.c0
  right : ∀ i, i = k.i29 ∨ i = k.i30 ∨ i = k.i31 ∨ i = k.i32 ∨ i = k.i33 ∨ i = k.i34 ∨ i = k.i35 → (i : ℝ) ≤ 0.1219 * k.c0
  c3 : k.c3 = 6.2831855 / k.c0

theorem constants_short {sr : ℤ} (hsr : 8000 ≤ sr) {k : Consts ℝ} (hk : instanceConstants sr = some k) : Short k := by
  obtain ⟨-, ⟨l0, l1⟩, -⟩ := constants_tank hsr hk
  unfold instanceConstants at hk
  dsimp only at hk
  obtain ⟨i6, e6, hk⟩ := Option.bind_eq_some_iff.1 hk
  obtain ⟨i7, e7, hk⟩ := Option.bind_eq_some_iff.1 hk
  obtain ⟨i8, e8, hk⟩ := Option.bind_eq_some_iff.1 hk
  obtain ⟨i9, e9, hk⟩ := Option.bind_eq_some_iff.1 hk
  obtain ⟨i10, e10, hk⟩ := Option.bind_eq_some_iff.1 hk
  obtain ⟨n12, -, hk⟩ := Option.bind_eq_some_iff.1 hk
  obtain ⟨i13, e13, hk⟩ := Option.bind_eq_some_iff.1 hk
  obtain ⟨i14, e14, hk⟩ := Option.bind_eq_some_iff.1 hk
  obtain ⟨i15, e15, hk⟩ := Option.bind_eq_some_iff.1 hk
  obtain ⟨i16, e16, hk⟩ := Option.bind_eq_some_iff.1 hk
  obtain ⟨i17, e17, hk⟩ := Option.bind_eq_some_iff.1 hk
  obtain ⟨i18, e18, hk⟩ := Option.bind_eq_some_iff.1 hk
  obtain ⟨i19, e19, hk⟩ := Option.bind_eq_some_iff.1 hk
  obtain ⟨i20, e20, hk⟩ := Option.bind_eq_some_iff.1 hk
  obtain ⟨i21, e21, hk⟩ := Option.bind_eq_some_iff.1 hk
  obtain ⟨i22, e22, hk⟩ := Option.bind_eq_some_iff.1 hk
  obtain ⟨i23, e23, hk⟩ := Option.bind_eq_some_iff.1 hk
  obtain ⟨i24, e24, hk⟩ := Option.bind_eq_some_iff.1 hk
  obtain ⟨i25, e25, hk⟩ := Option.bind_eq_some_iff.1 hk
  obtain ⟨i26, e26, hk⟩ := Option.bind_eq_some_iff.1 hk
  obtain ⟨i27, e27, hk⟩ := Option.bind_eq_some_iff.1 hk
  obtain ⟨i28, e28, hk⟩ := Option.bind_eq_some_iff.1 hk
  obtain ⟨i29, e29, hk⟩ := Option.bind_eq_some_iff.1 hk
  obtain ⟨i30, e30, hk⟩ := Option.bind_eq_some_iff.1 hk
  obtain ⟨i31, e31, hk⟩ := Option.bind_eq_some_iff.1 hk
  obtain ⟨i32, e32, hk⟩ := Option.bind_eq_some_iff.1 hk
  obtain ⟨i33, e33, hk⟩ := Option.bind_eq_some_iff.1 hk
  obtain ⟨i34, e34, hk⟩ := Option.bind_eq_some_iff.1 hk
  obtain ⟨i35, e35, hk⟩ := Option.bind_eq_some_iff.1 hk
  obtain rfl := Option.some.inj hk
  dsimp only at *
  generalize (Arith.stdMin (lit 1.92e+05) (Arith.stdMax (lit 1) (Arith.ofInt sr)) : ℝ) = c0 at *
  have B : ∀ {q : ℚ} {off n : ℤ}, delayConst c0 q off = some n → 1 / 8000 ≤ q → q ≤ 1 → -1 ≤ off → ∀ {τ : ℚ}, q ≤ τ → (n : ℝ) ≤ (τ : ℝ) * c0 + off :=
    fun {_ _ _} e q0 q1 o {_} hτ => delayConst_le l0 l1 q0 q1 o e (by exact_mod_cast hτ)
  constructor
  · rintro i (rfl | rfl | rfl | rfl | rfl | rfl | rfl | rfl)
    all_goals push_cast
    · have := B e6 (by norm_num) (by norm_num) (by norm_num) (τ := 0.0132) (by norm_num); push_cast at this; linarith
    · have := B e7 (by norm_num) (by norm_num) (by norm_num) (τ := 0.0132) (by norm_num); push_cast at this; linarith
    · have := B e8 (by norm_num) (by norm_num) (by norm_num) (τ := 0.0132) (by norm_num); push_cast at this; linarith
    · have := B e9 (by norm_num) (by norm_num) (by norm_num) (τ := 0.0132) (by norm_num); push_cast at this; linarith
    · have := B e15 (by norm_num) (by norm_num) (by norm_num) (τ := 0.0132) (by norm_num); push_cast at this; linarith
    · have := B e16 (by norm_num) (by norm_num) (by norm_num) (τ := 0.0132) (by norm_num); push_cast at this; linarith
    · have := B e17 (by norm_num) (by norm_num) (by norm_num) (τ := 0.0132) (by norm_num); push_cast at this; linarith
    · have := B e18 (by norm_num) (by norm_num) (by norm_num) (τ := 0.0132) (by norm_num); push_cast at this; linarith
  · rintro i (rfl | rfl)
    all_goals push_cast
    · have := B e14 (by norm_num) (by norm_num) (by norm_num) (τ := 0.0893) (by norm_num); push_cast at this; linarith
    · have := B e21 (by norm_num) (by norm_num) (by norm_num) (τ := 0.0893) (by norm_num); push_cast at this; linarith
  · rintro i (rfl | rfl)
    · have := B e13 (by norm_num) (by norm_num) (by norm_num) (τ := 0.1497) (by norm_num); push_cast at this; linarith
    · have := B e20 (by norm_num) (by norm_num) (by norm_num) (τ := 0.1497) (by norm_num); push_cast at this; linarith
  · rintro i (rfl | rfl)
    all_goals push_cast
    · have := B e10 (by norm_num) (by norm_num) (by norm_num) (τ := 0.125) (by norm_num); push_cast at this; linarith
    · have := B e19 (by norm_num) (by norm_num) (by norm_num) (τ := 0.125) (by norm_num); push_cast at this; linarith
  · rintro i (rfl | rfl | rfl | rfl | rfl | rfl | rfl)
    · have := B e22 (by norm_num) (by norm_num) (by norm_num) (τ := 0.1219) (by norm_num); push_cast at this; linarith
    · have := B e23 (by norm_num) (by norm_num) (by norm_num) (τ := 0.1219) (by norm_num); push_cast at this; linarith
    · have := B e24 (by norm_num) (by norm_num) (by norm_num) (τ := 0.1219) (by norm_num); push_cast at this; linarith
    · have := B e25 (by norm_num) (by norm_num) (by norm_num) (τ := 0.1219) (by norm_num); push_cast at this; linarith
    · have := B e26 (by norm_num) (by norm_num) (by norm_num) (τ := 0.1219) (by norm_num); push_cast at this; linarith
    · have := B e27 (by norm_num) (by norm_num) (by norm_num) (τ := 0.1219) (by norm_num); push_cast at this; linarith
    · have := B e28 (by norm_num) (by norm_num) (by norm_num) (τ := 0.1219) (by norm_num); push_cast at this; linarith
  · rintro i (rfl | rfl | rfl | rfl | rfl | rfl | rfl)
    · have := B e29 (by norm_num) (by norm_num) (by norm_num) (τ := 0.1219) (by norm_num); push_cast at this; linarith
    · have := B e30 (by norm_num) (by norm_num) (by norm_num) (τ := 0.1219) (by norm_num); push_cast at this; linarith
    · have := B e31 (by norm_num) (by norm_num) (by norm_num) (τ := 0.1219) (by norm_num); push_cast at this; linarith
    · have := B e32 (by norm_num) (by norm_num) (by norm_num) (τ := 0.1219) (by norm_num); push_cast at this; linarith
    · have := B e33 (by norm_num) (by norm_num) (by norm_num) (τ := 0.1219) (by norm_num); push_cast at this; linarith
    · have := B e34 (by norm_num) (by norm_num) (by norm_num) (τ := 0.1219) (by norm_num); push_cast at this; linarith
    · have := B e35 (by norm_num) (by norm_num) (by norm_num) (τ := 0.1219) (by norm_num); push_cast at this; linarith
  · simp only [real_arith]; push_cast; norm_num

/-! ### A run under growing weights -/

/-- Coefficients away from 1. -/
theorem ctrls_capped {sr : ℤ} (hsr : 8000 ≤ sr) {k : Consts ℝ} (hk : instanceConstants sr = some k) {p : Params ℝ} (P : Settings p) {A D : ℝ}
    (a1 : Real.exp (-(k.c3 * p.damping)) ≤ A) (a2 : Real.exp (-(k.c3 * p.highPass)) ≤ A) (a3 : Real.exp (-(k.c3 * p.lowPass)) ≤ A)
    (d1 : p.diffusion1 / 100 ≤ D) (d2 : p.diffusion2 / 100 ≤ D) : Capped A D fun t => ctrls k (slow k p) (t + 1) := by
  obtain ⟨-, ⟨l0, l1⟩, -, k1, k2, k3, k4, k5, k11, k12, -⟩ := constants_tank hsr hk
  obtain ⟨st, -⟩ := ctrls_tame hsr hk P
  have hc : 0 < k.c0 := by linarith
  have q0 : 0 ≤ k.c1 := by rw [k1]; positivity
  have q1 : k.c1 ≤ 1 := by rw [k1, div_le_iff₀ hc]; linarith
  have rise : ∀ (pr : Ctrl ℝ → ℝ) (v S : ℝ), v = k.c1 * S → pr (ctrls k (slow k p) 0) = 0 →
      (∀ t, pr (ctrls k (slow k p) (t + 1)) = v + k.c2 * pr (ctrls k (slow k p) t)) → 0 ≤ S → ∀ t, pr (ctrls k (slow k p) (t + 1)) ≤ S := by
    intro pr v S hv h0 hn hS t
    have R : Rises k.c1 S fun t => pr (ctrls k (slow k p) (t + 1)) := ⟨by rw [hn, h0, hv, mul_zero, add_zero], fun t => by rw [hn, hv, k2]⟩
    exact (R.range q0 q1 hS t).2
  have z : (lit 0 : ℝ) = 0 := by simp only [real_arith]; norm_num
  have pc : ∀ v : ℝ, k.c4 * v = k.c1 * (v / 100) := fun v => by rw [k4, k1]; ring
  have E := fun t => ctrl_eqs (st t)
  have pos : ∀ {v : ℝ}, 0 ≤ v → 0 ≤ v / 100 := fun hv => by positivity
  exact ⟨fun t => (rise (·.rec8) _ (Real.exp (-(k.c3 * p.damping))) rfl z (fun t => (E t).1.1) (Real.exp_pos _).le t).trans a1,
    fun t => (rise (·.rec24) _ (Real.exp (-(k.c3 * p.highPass))) rfl z (fun t => (E t).1.2.2.2.2.1) (Real.exp_pos _).le t).trans a2,
    fun t => (rise (·.rec25) _ (Real.exp (-(k.c3 * p.lowPass))) rfl z (fun t => (E t).1.2.2.2.2.2.1) (Real.exp_pos _).le t).trans a3,
    fun t => (rise (·.rec15) _ _ (pc _) z (fun t => (E t).1.2.2.1) (pos P.diffusion2.1) t).trans d2,
    fun t => (rise (·.rec20) _ _ (pc _) z (fun t => (E t).1.2.2.2.1) (pos P.diffusion1.1) t).trans d1⟩

/-- The gains under weights that grow by `exp α` per second. -/
structure Gains (k : Consts ℝ) (p : Params ℝ) (α A D : ℝ) : Prop where
  filter : Real.exp (α / k.c0) * A < 1
  diffuse : D * Real.exp (0.0132 * α) < 1
  tail : 1 / 2 * Real.exp (0.0893 * α) < 1
  dense : p.tailDensity / 100 * (Real.exp ((0.0307 + p.modDepth / 1000) * α) * Real.sqrt (1 + wobble k.c0 p.modDepth)) < 1

/-- The gain of the first allpass of the tank. -/
noncomputable def gainS (k : Consts ℝ) (p : Params ℝ) (α : ℝ) : ℝ :=
  swell (Real.exp ((0.0307 + p.modDepth / 1000) * α) ^ 2 * (1 + wobble k.c0 p.modDepth) - 1) (p.tailDensity / 100)

/-- What that allpass adds while its first crossfade lasts. -/
noncomputable def gainH (k : Consts ℝ) (p : Params ℝ) (α : ℝ) : ℝ :=
  (gainS k p α * (p.tailDensity / 100) + 1) * Real.exp ((0.0307 + p.modDepth / 1000) * α) / (1 - p.tailDensity / 100 * Real.exp (α / k.c0))

/-- The gain of the damping filter with its delay. -/
noncomputable def gainB (k : Consts ℝ) (α A : ℝ) : ℝ := gam k.c1 * lean (Real.exp (α / k.c0)) A * Real.exp (0.1497 * α)

/-- The gain of the second allpass of the tank. -/
noncomputable def gainA (k : Consts ℝ) (p : Params ℝ) (α A : ℝ) : ℝ := p.decay / 100 * swell (Real.exp (0.0893 * α) ^ 2 - 1) (1 / 2) * gainB k α A

/-- The gain of the filters and diffusers at the input. -/
noncomputable def gainI (k : Consts ℝ) (α A D : ℝ) : ℝ :=
  swell (Real.exp (0.0132 * α) ^ 2 - 1) D ^ 4 * (gam k.c1 * lean (Real.exp (α / k.c0)) A * (1 + Real.exp (α / k.c0) * (gam k.c1 * lean (Real.exp (α / k.c0)) A)))

/-- The gain of half a loop. -/
noncomputable def gainL (k : Consts ℝ) (p : Params ℝ) (α A : ℝ) : ℝ := gainS k p α * (p.decay / 100 * (Real.exp (0.1252 * α) * gainA k p α A))

/-- The gain of everything. -/
noncomputable def gain (k : Consts ℝ) (p : Params ℝ) (α A D : ℝ) : ℝ :=
  0.6 * (Real.exp (0.1219 * α) * (2 + gainB k α A + gainA k p α A)) * ((gainS k p α + gainH k p α) * gainI k α A D / (1 - gainL k p α A))

theorem lean_nonneg {lam A : ℝ} (h1 : 1 ≤ lam) (hA : lam * A < 1) : 0 ≤ lean lam A := by
  have : 0 ≤ (lam - 1) / (1 - lam * A) := div_nonneg (by linarith) (by linarith)
  unfold lean
  linarith

theorem seven {yr yl ra rb la lb a b : ℝ} (r0 : 0 ≤ yr) (l0 : 0 ≤ yl) (ha : 0 ≤ a) (h1 : ra ≤ a * yr) (h2 : rb ≤ b * yr)
    (h3 : la ≤ a * yl) (h4 : lb ≤ b * yl) : yr + yr + ra + (rb + yl + lb + la) ≤ (2 + b + a) * (yr + yl) := by
  have := mul_nonneg ha r0
  have e : (2 + b + a) * (yr + yl) = 2 * yr + 2 * yl + (b * yr + b * yl) + (a * yr + a * yl) := by ring
  rw [e]
  linarith

/-- A run under weights. -/
theorem run_weighted {sr : ℤ} (hsr : 8000 ≤ sr) {k : Consts ℝ} (hk : instanceConstants sr = some k) {p : Params ℝ} (P : Settings p) {α A D : ℝ}
    (α0 : 0 ≤ α) (B : Capped A D fun t => ctrls k (slow k p) (t + 1)) (shallow : wobble k.c0 p.modDepth < 1) (G : Gains k p α A D)
    (loopG : gainL k p α A < 1) {xs ys : List (Stereo ℝ)} {s' : State (ℤ → ℝ) ℝ} (h : loop ideal k (slow k p) (clear ideal) xs = some (s', ys)) :
    ys.length = xs.length ∧ ∀ n ≤ xs.length, 0 ≤ gain k p α A D ∧ ∀ ch, ch = Stereo.left ∨ ch = Stereo.right →
      Q (Real.exp (α / k.c0)) n (channel ch ys) ≤ gain k p α A D *
        (Q (Real.exp (α / k.c0)) n (fun t => channel Stereo.left xs (arriving k.c0 p.predelay t.toNat)) +
          Q (Real.exp (α / k.c0)) n (fun t => channel Stereo.right xs (arriving k.c0 p.predelay t.toNat))) := by
  obtain ⟨K, ⟨l0, l1⟩, -, k1, -, -, -, -, -, -, f10, f19⟩ := constants_tank hsr hk
  have Sh := constants_short hsr hk
  obtain ⟨-, C, -⟩ := ctrls_tame hsr hk P
  obtain ⟨⟨lo, topR, Br⟩, ⟨lo', topL, Bl⟩⟩ := ctrls_wobble hsr hk P
  obtain ⟨hlen, r, l, Rr, Rl, outL, outR, hr, hl⟩ := run_signals hsr hk P h
  refine ⟨hlen, fun n hn => ?_⟩
  have hc : 0 < k.c0 := by linarith
  have hη := wobble_eq hsr hk P.modDepth.1
  have D0 : 0 ≤ p.modDepth / 1000 := by have := P.modDepth.1; positivity
  have r0 : 0 ≤ p.decay / 100 := by have := P.decay.1; positivity
  have g0 : 0 ≤ p.tailDensity / 100 := by have := P.tailDensity.1; positivity
  obtain ⟨lam, hlam⟩ : ∃ lam, lam = Real.exp (α / k.c0) := ⟨_, rfl⟩
  have h1 : 1 ≤ lam := by rw [hlam]; exact Real.one_le_exp (by positivity)
  have pw : ∀ {i : ℤ} {τ : ℝ}, (i : ℝ) ≤ τ * k.c0 → lam ^ i ≤ Real.exp (τ * α) := by
    intro i τ hi
    rw [hlam, ← Real.rpow_intCast, ← Real.exp_mul]
    refine Real.exp_le_exp.2 ?_
    rw [div_mul_eq_mul_div, div_le_iff₀ hc]
    nlinarith
  have hF := G.filter
  have hT := G.tail
  have hd := G.dense
  rw [hη] at shallow hd
  rw [← hlam] at hF ⊢
  -- the stages
  have ir := input_Q Rr C B h1 hF ⟨pw (Sh.diffuse _ (by simp)), pw (Sh.diffuse _ (by simp)), pw (Sh.diffuse _ (by simp)), pw (Sh.diffuse _ (by simp))⟩
    G.diffuse hn
  have il := input_Q Rl C B h1 hF ⟨pw (Sh.diffuse _ (by simp)), pw (Sh.diffuse _ (by simp)), pw (Sh.diffuse _ (by simp)), pw (Sh.diffuse _ (by simp))⟩
    G.diffuse hn
  obtain ⟨rB, rA⟩ := damped_Q Rr C B r0 h1 hF (pw (Sh.damp _ (by simp))) (pw (Sh.tail _ (by simp))) hT hn
  obtain ⟨lB, lA⟩ := damped_Q Rl C B r0 h1 hF (pw (Sh.damp _ (by simp))) (pw (Sh.tail _ (by simp))) hT hn
  have mt : ∀ {lo W : ℕ}, (lo + W + 1 : ℝ) ≤ (0.030509727 + p.modDepth / 1000) * k.c0 + 1 →
      lam ^ (lo + W + 1) ≤ Real.exp ((0.0307 + p.modDepth / 1000) * α) := by
    intro lo W hi
    have := pw (i := ((lo + W + 1 : ℕ) : ℤ)) (τ := 0.0307 + p.modDepth / 1000) (by push_cast; linarith)
    rwa [zpow_natCast] at this
  have tR := tank_Q Rr C Br shallow h1 (mt topR) hd hn
  have tL := tank_Q Rl C Bl shallow h1 (mt (topL.trans (by linarith))) hd hn
  rw [← hη] at tR tL shallow hd
  have eS : swell (Real.exp ((0.0307 + p.modDepth / 1000) * α) ^ 2 * (1 + wobble k.c0 p.modDepth) - 1) (p.tailDensity / 100) = gainS k p α := rfl
  have eH : (gainS k p α * (p.tailDensity / 100) + 1) * Real.exp ((0.0307 + p.modDepth / 1000) * α) / (1 - p.tailDensity / 100 * lam) = gainH k p α := by
    rw [hlam]; rfl
  have eB : gam k.c1 * lean lam A * Real.exp (0.1497 * α) = gainB k α A := by rw [hlam]; rfl
  have eI : swell (Real.exp (0.0132 * α) ^ 2 - 1) D ^ 4 * (gam k.c1 * lean lam A * (1 + lam * (gam k.c1 * lean lam A))) = gainI k α A D := by
    rw [hlam]; rfl
  rw [eS, eH] at tR tL
  rw [eB] at rA rB lA lB
  rw [eI] at ir il
  rw [← mul_assoc, show p.decay / 100 * swell (Real.exp (0.0893 * α) ^ 2 - 1) (1 / 2) * gainB k α A = gainA k p α A from rfl] at rA lA
  -- signs
  have S0 : 0 ≤ gainS k p α := Real.sqrt_nonneg _
  have ln0 : 0 ≤ gam k.c1 * lean lam A := mul_nonneg (gam_nonneg _) (lean_nonneg h1 hF)
  have B0 : 0 ≤ gainB k α A := by rw [← eB]; exact mul_nonneg ln0 (Real.exp_pos _).le
  have A0 : 0 ≤ gainA k p α A := mul_nonneg (mul_nonneg r0 (Real.sqrt_nonneg _)) B0
  have H0 : 0 ≤ gainH k p α := by
    rw [← eH]
    refine div_nonneg (mul_nonneg (by positivity) (Real.exp_pos _).le) ?_
    have W0 : 0 ≤ wobble k.c0 p.modDepth := by rw [hη]; exact mul_nonneg Br.taps.c0 (Nat.cast_nonneg _)
    have s1 : 1 ≤ Real.sqrt (1 + wobble k.c0 p.modDepth) := Real.le_sqrt_of_sq_le (by linarith)
    have : lam ≤ Real.exp ((0.0307 + p.modDepth / 1000) * α) := (le_self_pow₀ h1 (by omega)).trans (mt topR)
    have := this.trans (le_mul_of_one_le_right (Real.exp_pos _).le s1)
    have := mul_le_mul_of_nonneg_left this g0
    linarith
  have F0 : 80 ≤ ⌊0.01 * k.c0⌋ := Int.le_floor.2 (by push_cast; linarith)
  have tank := tanks_Q (pre := pres k (slow k p)) C r0 h1 S0 H0 (pw (Sh.cross _ (by simp))) (pw (Sh.cross _ (by simp))) loopG (by omega) (by omega)
    ir il rA lA tR tL
  rw [show gainS k p α * (p.decay / 100 * (Real.exp (0.1252 * α) * gainA k p α A)) = gainL k p α A from rfl] at tank
  have er : Q lam n (heardIn (pres k (slow k p)) r) ≤ Q lam n (fun t => channel Stereo.right xs (arriving k.c0 p.predelay t.toNat)) :=
    Q_mono fun t ht => by simp only [Int.toNat_natCast]; exact hr t (by omega)
  have el : Q lam n (heardIn (pres k (slow k p)) l) ≤ Q lam n (fun t => channel Stereo.left xs (arriving k.c0 p.predelay t.toNat)) :=
    Q_mono fun t ht => by simp only [Int.toNat_natCast]; exact hl t (by omega)
  have rC : Q lam n (sig fun i => (r i).outC) = Q lam n (sig fun i => (r i).dampLine) := Q_congr fun t ht => by
    rw [sig_nat, sig_nat, (Rr.step t (by omega)).outC, Function.update_self]
  have lC : Q lam n (sig fun i => (l i).outC) = Q lam n (sig fun i => (l i).dampLine) := Q_congr fun t ht => by
    rw [sig_nat, sig_nat, (Rl.step t (by omega)).outC, Function.update_self]
  have I0 : 0 ≤ gainI k α A D := by
    rw [← eI]
    exact mul_nonneg (by positivity) (mul_nonneg ln0 (add_nonneg zero_le_one (mul_nonneg (by linarith) ln0)))
  have tank' := tank.trans (mul_le_mul_of_nonneg_left ((add_comm _ _).trans_le (add_le_add el er))
    (div_nonneg (mul_nonneg (add_nonneg S0 H0) I0) (by linarith)))
  have y0r := Q_nonneg lam n (sig fun i => (r i).dampLine)
  have y0l := Q_nonneg lam n (sig fun i => (l i).dampLine)
  have E0 := (Real.exp_pos (0.1219 * α)).le
  have fin : ∀ {X : ℝ}, X ≤ 0.6 * (Real.exp (0.1219 * α) * ((2 + gainB k α A + gainA k p α A) *
      (Q lam n (sig fun i => (r i).dampLine) + Q lam n (sig fun i => (l i).dampLine)))) → X ≤ gain k p α A D *
        (Q lam n (fun t => channel Stereo.left xs (arriving k.c0 p.predelay t.toNat)) +
          Q lam n (fun t => channel Stereo.right xs (arriving k.c0 p.predelay t.toNat))) := by
    intro X hX
    have := mul_le_mul_of_nonneg_left tank' (show 0 ≤ 0.6 * (Real.exp (0.1219 * α) * (2 + gainB k α A + gainA k p α A)) by positivity)
    refine hX.trans ((le_of_eq ?_).trans (this.trans (le_of_eq ?_)))
    · ring
    · unfold gain; ring
  refine ⟨mul_nonneg (mul_nonneg (by norm_num) (mul_nonneg E0 (by linarith))) (div_nonneg (mul_nonneg (add_nonneg S0 H0) I0) (by linarith)), ?_⟩
  rintro ch (rfl | rfl)
  · refine fin (le_trans (le_of_eq (Q_congr fun t ht => outL t (by omega))) ((taps_Q h1 (sig_neg fun i => (r i).outC) (sig_neg fun i => (r i).outC)
      (sig_neg fun i => (r i).outA) (sig_neg fun i => (r i).outB) (sig_neg fun i => (l i).outC) (sig_neg fun i => (l i).outB)
      (sig_neg fun i => (l i).outA) ⟨K.i28.1, pw (Sh.left _ (by simp))⟩ ⟨K.i27.1, pw (Sh.left _ (by simp))⟩ ⟨K.i26.1, pw (Sh.left _ (by simp))⟩
      ⟨K.i25.1, pw (Sh.left _ (by simp))⟩ ⟨K.i24.1, pw (Sh.left _ (by simp))⟩ ⟨K.i23.1, pw (Sh.left _ (by simp))⟩
      ⟨K.i22.1, pw (Sh.left _ (by simp))⟩ n).trans (mul_le_mul_of_nonneg_left (mul_le_mul_of_nonneg_left ?_ E0) (by norm_num))))
    rw [rC, lC]
    exact seven y0r y0l A0 rA rB lA lB
  · refine fin (le_trans (le_of_eq (Q_congr fun t ht => outR t (by omega))) ((taps_Q h1 (sig_neg fun i => (l i).outC) (sig_neg fun i => (l i).outC)
      (sig_neg fun i => (l i).outA) (sig_neg fun i => (l i).outB) (sig_neg fun i => (r i).outC) (sig_neg fun i => (r i).outB)
      (sig_neg fun i => (r i).outA) ⟨K.i35.1, pw (Sh.right _ (by simp))⟩ ⟨K.i34.1, pw (Sh.right _ (by simp))⟩ ⟨K.i33.1, pw (Sh.right _ (by simp))⟩
      ⟨K.i32.1, pw (Sh.right _ (by simp))⟩ ⟨K.i31.1, pw (Sh.right _ (by simp))⟩ ⟨K.i30.1, pw (Sh.right _ (by simp))⟩
      ⟨K.i29.1, pw (Sh.right _ (by simp))⟩ n).trans (mul_le_mul_of_nonneg_left (mul_le_mul_of_nonneg_left ?_ E0) (by norm_num))))
    rw [rC, lC, add_comm (Q lam n (sig fun i => (r i).dampLine))]
    exact seven y0l y0r A0 lA lB rA rB

/-- Silence from frame `m` on: the weights of what came before are at most that of frame `m`. -/
theorem Q_silent {lam : ℝ} (h1 : 1 ≤ lam) {f : ℤ → ℝ} {m n : ℕ} (h0 : ∀ t : ℕ, m ≤ t → f t = 0) : Q lam n f ≤ lam ^ m * loudness m fun t => f t := by
  have l0 : 0 < lam := by linarith
  have a : Q lam n f ≤ lam ^ m * N n f := by
    refine le_trans (N_mono fun t ht => ?_) (N_mul (a := fun _ => lam ^ m) (by positivity) fun t _ => (abs_of_pos (by positivity)).le)
    rcases Nat.lt_or_ge t m with h | h
    · rw [abs_mul, abs_mul, abs_of_pos (zpow_pos l0 _), abs_of_pos (pow_pos l0 m), zpow_natCast]
      exact mul_le_mul_of_nonneg_right (pow_le_pow_right₀ h1 h.le) (abs_nonneg _)
    · rw [h0 t h, mul_zero, mul_zero]
  refine a.trans (mul_le_mul_of_nonneg_left ?_ (by positivity))
  refine Real.sqrt_le_sqrt ?_
  rcases Nat.le_total n m with h | h
  · exact Finset.sum_le_sum_of_subset_of_nonneg (by intro i; simp only [Finset.mem_range]; omega) fun _ _ _ => sq_nonneg _
  · obtain ⟨j, rfl⟩ := Nat.exists_eq_add_of_le h
    unfold E
    rw [Finset.sum_range_add]
    refine le_of_eq (add_eq_left.2 (Finset.sum_eq_zero fun i _ => ?_))
    rw [h0 (m + i) (by omega)]
    norm_num

/-- From a run under weights to the output of the code. -/
theorem output_fades {sr : ℤ} (hsr : 8000 ≤ sr) {k : Consts ℝ} (hk : instanceConstants sr = some k) {p : Params ℝ} (P : Settings p) {α A D : ℝ}
    (α0 : 0 ≤ α) (B : Capped A D fun t => ctrls k (slow k p) (t + 1)) (shallow : wobble k.c0 p.modDepth < 1) (G : Gains k p α A D)
    (loopG : gainL k p α A < 1) (blocks : List (List (Stereo ℝ))) (hlen : blocks.flatten.length < 2 ^ 31) :
    ∃ ys, output k (blocks.map (Event.block p)) = some ys ∧ ys.length = blocks.flatten.length ∧
      ∀ m : ℕ, (∀ t : ℕ, m ≤ t → channel Stereo.left blocks.flatten (arriving k.c0 p.predelay t) = 0 ∧
        channel Stereo.right blocks.flatten (arriving k.c0 p.predelay t) = 0) →
      ∀ (t : ℕ) (y : Stereo ℝ), ys[t]? = some y → max |y.left| |y.right| ≤ gain k p α A D * Real.exp (-(α * ((t - m) / k.c0))) *
        (loudness m (fun t => channel Stereo.left blocks.flatten (arriving k.c0 p.predelay t)) +
          loudness m (fun t => channel Stereo.right blocks.flatten (arriving k.c0 p.predelay t))) := by
  obtain ⟨-, ⟨l0, l1⟩, k0, k1, k2, -, -, k5, k11, -⟩ := constants_tank hsr hk
  have some : (run ideal k (clear ideal) ([blocks.flatten].map (Event.block p))).isSome := by
    refine run_real (by linarith) l1 k1 k2 k5 k11 _ 0 ?_ rfl ⟨⟨P.predelay, P.modFrequency, P.modDepth⟩, by omega, trivial⟩
    constructor <;> simp [FVerbDSP.clear, real_arith]
  rw [run_blocks, List.flatten_singleton] at some
  obtain ⟨⟨s', ys⟩, h⟩ := Option.isSome_iff_exists.1 some
  obtain ⟨hl, hb⟩ := run_weighted hsr hk P α0 B shallow G loopG h
  refine ⟨ys, by rw [output_ideal sr k hk, run_blocks, h]; rfl, hl, fun m hm t y hy => ?_⟩
  obtain ⟨ht, -⟩ := List.getElem?_eq_some_iff.1 hy
  obtain ⟨gn, hb⟩ := hb (t + 1) (by omega)
  have hc : 0 < k.c0 := by linarith
  have h1 : 1 ≤ Real.exp (α / k.c0) := Real.one_le_exp (by positivity)
  have qL := Q_silent (n := t + 1) h1 (f := fun t => channel Stereo.left blocks.flatten (arriving k.c0 p.predelay t.toNat)) (m := m)
    fun t ht => (hm t ht).1
  have qR := Q_silent (n := t + 1) h1 (f := fun t => channel Stereo.right blocks.flatten (arriving k.c0 p.predelay t.toNat)) (m := m)
    fun t ht => (hm t ht).2
  simp only [Int.toNat_natCast] at qL qR
  have one : ∀ ch, ch = Stereo.left ∨ ch = Stereo.right → |ch y| ≤ gain k p α A D * Real.exp (-(α * ((t - m) / k.c0))) *
        (loudness m (fun t => channel Stereo.left blocks.flatten (arriving k.c0 p.predelay t)) +
          loudness m (fun t => channel Stereo.right blocks.flatten (arriving k.c0 p.predelay t))) := by
    intro ch hch
    have a := (hb ch hch).trans (mul_le_mul_of_nonneg_left (add_le_add qL qR) gn)
    have e : channel ch ys (t : ℤ) = ch y := by
      simp only [channel, Int.toNat_natCast, hy, Option.map_some, Option.getD_some]
      rw [if_neg (by omega)]
    have b : Real.exp (α / k.c0) ^ t * |ch y| ≤ Q (Real.exp (α / k.c0)) (t + 1) (channel ch ys) := by
      refine Real.le_sqrt_of_sq_le ?_
      have := Finset.single_le_sum (f := fun t : ℕ => (Real.exp (α / k.c0) ^ (t : ℤ) * channel ch ys t) ^ 2) (fun _ _ => sq_nonneg _)
        (Finset.mem_range.2 (Nat.lt_succ_self t))
      refine le_trans (le_of_eq ?_) this
      rw [e, zpow_natCast, mul_pow, mul_pow, sq_abs]
    have c := b.trans a
    have ex : ∀ i : ℕ, Real.exp (α / k.c0) ^ i = Real.exp (α * (i / k.c0)) := fun i => by
      rw [← Real.exp_nat_mul]; congr 1; ring
    have d : Real.exp (-(α * ((t - m) / k.c0))) = Real.exp (α * (m / k.c0)) / Real.exp (α * (t / k.c0)) := by
      rw [← Real.exp_sub]; congr 1; ring
    rw [ex, ex] at c
    rw [d]
    have := Real.exp_pos (α * (t / k.c0))
    rw [mul_div_assoc', div_mul_eq_mul_div, le_div_iff₀ this]
    refine le_trans (le_of_eq (mul_comm _ _)) (c.trans (le_of_eq (by ring)))
  exact max_le (one _ (.inl rfl)) (one _ (.inr rfl))

/-! ### A rate for every setting -/

theorem swell_cont {u : ℝ → ℝ} {a g : ℝ} (hu : ContinuousAt u a) (h : 1 - g * Real.sqrt (1 + u a) ≠ 0) : ContinuousAt (fun x => swell (u x) g) a := by
  unfold swell
  refine Real.continuous_sqrt.continuousAt.comp (f := fun x => 1 + u x / (1 - g * Real.sqrt (1 + u x)) ^ 2) ?_
  refine continuousAt_const.add (hu.div ((continuousAt_const.sub (continuousAt_const.mul ?_)).pow 2) (pow_ne_zero 2 h))
  exact Real.continuous_sqrt.continuousAt.comp (continuousAt_const.add hu)

theorem exp_cont (c : ℝ) : ContinuousAt (fun α : ℝ => Real.exp (c * α)) 0 := by fun_prop

/-- Weights that grow slowly enough do no harm. -/
theorem some_rate {sr : ℤ} (hsr : 8000 ≤ sr) {k : Consts ℝ} (hk : instanceConstants sr = some k) {p : Params ℝ} {A D : ℝ}
    (A1 : A < 1) (D1 : D < 1) (dense : p.tailDensity / 100 * Real.sqrt (1 + wobble k.c0 p.modDepth) < 1)
    (short : 1.006 * ((p.decay / 100) ^ 2 * swell (wobble k.c0 p.modDepth) (p.tailDensity / 100)) < 1) :
    ∃ α, 0 < α ∧ Gains k p α A D ∧ gainL k p α A < 1 := by
  obtain ⟨-, ⟨l0, l1⟩, -, k1, -⟩ := constants_tank hsr hk
  have hc : 0 < k.c0 := by linarith
  have cl : ContinuousAt (fun α : ℝ => Real.exp (α / k.c0)) 0 := by fun_prop
  have ev : ∀ {f : ℝ → ℝ}, ContinuousAt f 0 → f 0 < 1 → ∀ᶠ α in nhdsWithin 0 (Set.Ioi 0), f α < 1 := fun hf h =>
    (hf.eventually (gt_mem_nhds h)).filter_mono nhdsWithin_le_nhds
  have e1 := ev (f := fun α => Real.exp (α / k.c0) * A) (cl.mul continuousAt_const) (by simpa using A1)
  have e2 := ev (f := fun α => D * Real.exp (0.0132 * α)) (continuousAt_const.mul (exp_cont _)) (by simpa using D1)
  have e3 := ev (f := fun α => 1 / 2 * Real.exp (0.0893 * α)) (continuousAt_const.mul (exp_cont _)) (by norm_num)
  have e4 := ev (f := fun α => p.tailDensity / 100 * (Real.exp ((0.0307 + p.modDepth / 1000) * α) * Real.sqrt (1 + wobble k.c0 p.modDepth)))
    (continuousAt_const.mul ((exp_cont _).mul continuousAt_const)) (by simpa using dense)
  have q0 : 0 ≤ k.c1 := by rw [k1]; positivity
  have q1 : k.c1 ≤ 0.00552 := by rw [k1, div_le_iff₀ hc]; linarith
  obtain ⟨-, g2⟩ := gam_bounds q0 q1
  have s0 : swell 0 (1 / 2) = 1 := by simp [swell]
  have at0 : gainL k p 0 A < 1 := by
    have : gainL k p 0 A = (p.decay / 100) ^ 2 * swell (wobble k.c0 p.modDepth) (p.tailDensity / 100) * gam k.c1 := by
      simp only [gainL, gainS, gainA, gainB, lean, mul_zero, zero_div, Real.exp_zero, one_pow, one_mul, sub_self, add_sub_cancel_left, s0, add_zero]
      ring
    rw [this]
    have : 0 ≤ (p.decay / 100) ^ 2 * swell (wobble k.c0 p.modDepth) (p.tailDensity / 100) := mul_nonneg (sq_nonneg _) (Real.sqrt_nonneg _)
    have := mul_le_mul_of_nonneg_left g2 this
    linarith
  have cS : ContinuousAt (fun α => gainS k p α) 0 := by
    refine swell_cont ((((exp_cont _).pow 2).mul continuousAt_const).sub continuousAt_const) ?_
    simp only [mul_zero, Real.exp_zero, one_pow, one_mul, add_sub_cancel]
    exact (sub_pos.2 dense).ne'
  have cT : ContinuousAt (fun α : ℝ => swell (Real.exp (0.0893 * α) ^ 2 - 1) (1 / 2)) 0 := by
    refine swell_cont (((exp_cont _).pow 2).sub continuousAt_const) ?_
    norm_num
  have cB : ContinuousAt (fun α => gainB k α A) 0 := by
    refine (continuousAt_const.mul (continuousAt_const.add ((cl.sub continuousAt_const).div
      (continuousAt_const.sub (cl.mul continuousAt_const)) ?_))).mul (exp_cont _)
    have := sub_pos.2 A1
    simpa using this.ne'
  have cA : ContinuousAt (fun α => gainA k p α A) 0 := (continuousAt_const.mul cT).mul cB
  have e5 := ev (f := fun α => gainL k p α A) (cS.mul (continuousAt_const.mul ((exp_cont _).mul cA))) at0
  have e6 : ∀ᶠ α : ℝ in nhdsWithin 0 (Set.Ioi 0), 0 < α := eventually_mem_nhdsWithin
  obtain ⟨α, h1, h2, h3, h4, h5, h6⟩ := (e1.and (e2.and (e3.and (e4.and (e5.and e6))))).exists
  exact ⟨α, h6, ⟨h1, h2, h3, h4⟩, h5⟩

/-! ### Theorems -/

/-- **C104, partial** (ideal arithmetic): the reverb dies away exponentially. At every sample rate from 8 kHz and for all parameters in the
ranges of the setters under the conditions of `C103_modulated_partial`, with no diffuser at 100 % and no filter at 0 Hz, there are a rate
`α > 0` and a constant such that for every input in blocks of any lengths (fewer than `2^31` frames), from the frame on at which nothing but
silence leaves the predelay, no output sample is larger than the constant times `exp (-α s)` times the loudness of the input so far, `s`
being the seconds since that frame. The rate and the constant depend neither on the input nor on how long it lasts. Missing: deeper
modulation, longer decays, parameter changes while running, and rounding. -/
theorem C104_tail_partial (sr : ℤ) (hsr : 8000 ≤ sr) (k : Consts ℝ) (hk : instanceConstants sr = some k) (p : Params ℝ) (P : Modulated p)
    (Q : Absorbing p) (shallow : wobble (min 192000 sr) p.modDepth < 1)
    (dense : p.tailDensity / 100 * Real.sqrt (1 + wobble (min 192000 sr) p.modDepth) < 1)
    (short : 1.006 * ((p.decay / 100) ^ 2 * swell (wobble (min 192000 sr) p.modDepth) (p.tailDensity / 100)) < 1) :
    ∃ α C : ℝ, 0 < α ∧ ∀ blocks : List (List (Stereo ℝ)), blocks.flatten.length < 2 ^ 31 →
      ∃ ys, output k (blocks.map (Event.block p)) = some ys ∧ ys.length = blocks.flatten.length ∧
        ∀ m : ℕ, (∀ t : ℕ, m ≤ t → channel Stereo.left blocks.flatten (arriving (min 192000 sr) p.predelay t) = 0 ∧
          channel Stereo.right blocks.flatten (arriving (min 192000 sr) p.predelay t) = 0) →
        ∀ (t : ℕ) (y : Stereo ℝ), ys[t]? = some y → max |y.left| |y.right| ≤ C * Real.exp (-(α * ((t - m) / min 192000 (sr : ℝ)))) *
          (loudness m (fun t => channel Stereo.left blocks.flatten (arriving (min 192000 sr) p.predelay t)) +
            loudness m (fun t => channel Stereo.right blocks.flatten (arriving (min 192000 sr) p.predelay t))) := by
  have P' : Settings p := ⟨P.damping, P.tailDensity, P.diffusion2, P.diffusion1, P.highPass, P.lowPass, P.inputAmount, P.predelay, P.decay,
    P.modFrequency, P.modDepth⟩
  obtain ⟨-, ⟨l0, -⟩, k0, -⟩ := constants_tank hsr hk
  have c3 : 0 < k.c3 := by rw [(constants_short hsr hk).c3]; exact div_pos (by norm_num) (by linarith)
  have below : ∀ {v : ℝ}, 0 < v → Real.exp (-(k.c3 * v)) < 1 := fun hv => by
    rw [← Real.exp_zero, Real.exp_lt_exp]; have := mul_pos c3 hv; linarith
  rw [← k0] at shallow dense short ⊢
  obtain ⟨α, h0, G, L⟩ := some_rate hsr hk
    (A := max (Real.exp (-(k.c3 * p.damping))) (max (Real.exp (-(k.c3 * p.highPass))) (Real.exp (-(k.c3 * p.lowPass)))))
    (D := max (p.diffusion1 / 100) (p.diffusion2 / 100)) (max_lt (below Q.damping) (max_lt (below Q.highPass) (below Q.lowPass)))
    (max_lt (by linarith [Q.diffusion1]) (by linarith [Q.diffusion2])) dense short
  refine ⟨α, _, h0, fun blocks hlen => output_fades hsr hk P' h0.le (ctrls_capped hsr hk P' (le_max_left _ _)
    ((le_max_left _ _).trans (le_max_right _ _)) ((le_max_right _ _).trans (le_max_right _ _)) (le_max_left _ _) (le_max_right _ _)) shallow G L blocks hlen⟩

example : Absorbing (resetUI : Params ℝ) := by
  constructor <;> simp only [resetUI, real_arith] <;> norm_num

/-! ### A new reverb -/

theorem exp_small {x : ℝ} (h0 : 0 ≤ x) (h1 : x ≤ 1) : Real.exp x ≤ 1 + x + x ^ 2 / 2 + x ^ 3 * (2 / 9) := by
  have := Real.exp_bound' h0 h1 (n := 3) (by norm_num)
  simp only [Finset.sum_range_succ, Finset.sum_range_zero, Nat.factorial] at this
  norm_num at this
  linarith

theorem swell_le {η g e s S : ℝ} (h0 : 0 ≤ η) (h1 : η ≤ e) (s0 : 0 ≤ s) (hs : 1 + e ≤ s ^ 2) (g0 : 0 ≤ g) (gs : g * s < 1) (S0 : 0 ≤ S)
    (hS : 1 + e / (1 - g * s) ^ 2 ≤ S ^ 2) : swell η g ≤ S := by
  have r : Real.sqrt (1 + η) ≤ s := Real.sqrt_le_iff.2 ⟨s0, by linarith⟩
  have r' := mul_le_mul_of_nonneg_left r g0
  refine Real.sqrt_le_iff.2 ⟨S0, le_trans ?_ hS⟩
  have : η / (1 - g * Real.sqrt (1 + η)) ^ 2 ≤ e / (1 - g * s) ^ 2 :=
    div_le_div₀ (h0.trans h1) h1 (pow_pos (by linarith) 2) (pow_le_pow_left₀ (by linarith) (by linarith) 2)
  linarith

/-- The filters of a new reverb with the weights of a bound that halves every second. -/
theorem lean_default {c : ℝ} (h : 8000 ≤ c) : Real.exp (0.7 / c) ≤ 1.0001 ∧ Real.exp (0.7 / c) * Real.exp (-(6.2831855 / c * 100)) < 1 ∧
    lean (Real.exp (0.7 / c)) (Real.exp (-(6.2831855 / c * 100))) ≤ 1.0013 := by
  have hc : 0 < c := by linarith
  obtain ⟨x, hx⟩ : ∃ x : ℝ, x = 1 / c := ⟨_, rfl⟩
  have x0 : 0 < x := hx ▸ by positivity
  have x1 : x ≤ 1 / 8000 := hx ▸ one_div_le_one_div_of_le (by norm_num) h
  have e1 : 0.7 / c = 0.7 * x := by rw [hx]; ring
  have e2 : Real.exp (0.7 * x) * Real.exp (-(6.2831855 / c * 100)) = Real.exp (-(627.61855 * x)) := by
    rw [← Real.exp_add, hx]; congr 1; ring
  have u : Real.exp (0.7 * x) ≤ 1 + 0.7001 * x := by
    refine (exp_small (by positivity) (by linarith)).trans ?_
    have a : x ^ 2 ≤ x * (1 / 8000) := by rw [pow_two]; exact mul_le_mul_of_nonneg_left x1 x0.le
    have b : x ^ 3 ≤ x ^ 2 * (1 / 8000) := by rw [pow_succ]; exact mul_le_mul_of_nonneg_left x1 (by positivity)
    nlinarith
  have v : Real.exp (-(627.61855 * x)) ≤ 1 / (1 + 627.61855 * x) := by
    rw [Real.exp_neg, ← one_div]
    exact one_div_le_one_div_of_le (by positivity) (by linarith [Real.add_one_le_exp (627.61855 * x)])
  have w : 581 * x ≤ 1 - 1 / (1 + 627.61855 * x) := by
    have : 1 - 1 / (1 + 627.61855 * x) = 627.61855 * x / (1 + 627.61855 * x) := by
      rw [eq_div_iff (by positivity), sub_mul, div_mul_cancel₀ _ (by positivity)]; ring
    rw [this, le_div_iff₀ (by positivity)]
    have : x * x ≤ x * (1 / 8000) := mul_le_mul_of_nonneg_left x1 x0.le
    linarith
  rw [e1]
  refine ⟨by linarith, by rw [e2]; linarith, ?_⟩
  rw [lean, e2]
  have : (Real.exp (0.7 * x) - 1) / (1 - Real.exp (-(627.61855 * x))) ≤ 0.0013 := by
    rw [div_le_iff₀ (by linarith)]
    linarith
  linarith

theorem tailG_default : 0 ≤ swell (Real.exp (0.0893 * 0.7) ^ 2 - 1) (1 / 2) ∧ swell (Real.exp (0.0893 * 0.7) ^ 2 - 1) (1 / 2) ≤ 1.2685 := by
  have x : Real.exp (0.0893 * 0.7) ≤ 1.06452 := (exp_small (by norm_num) (by norm_num)).trans (by norm_num)
  have o : 1 ≤ Real.exp (0.0893 * 0.7) := Real.one_le_exp (by norm_num)
  have y := pow_le_pow_left₀ (by linarith) x 2
  refine ⟨Real.sqrt_nonneg _, swell_le (e := 1.06452 ^ 2 - 1) (s := 1.06452) ?_ (by linarith) (by norm_num) (by norm_num) (by norm_num)
    (by norm_num) (by norm_num) (by norm_num)⟩
  linarith [one_le_pow₀ o (n := 2)]

theorem diffuserG_default : 0 ≤ swell (Real.exp (0.0132 * 0.7) ^ 2 - 1) 0.75 ∧ swell (Real.exp (0.0132 * 0.7) ^ 2 - 1) 0.75 ≤ 1.1472 := by
  have x : Real.exp (0.0132 * 0.7) ≤ 1.009283 := (exp_small (by norm_num) (by norm_num)).trans (by norm_num)
  have o : 1 ≤ Real.exp (0.0132 * 0.7) := Real.one_le_exp (by norm_num)
  have y := pow_le_pow_left₀ (by linarith) x 2
  refine ⟨Real.sqrt_nonneg _, swell_le (e := 1.009283 ^ 2 - 1) (s := 1.009283) ?_ (by linarith) (by norm_num) (by norm_num) (by norm_num)
    (by norm_num) (by norm_num) (by norm_num)⟩
  linarith [one_le_pow₀ o (n := 2)]

theorem earlyG_default {η : ℝ} (w0 : 0 ≤ η) (w1 : η ≤ 9 / 79) :
    swell (Real.exp ((0.0307 + 0.5 / 1000) * 0.7) ^ 2 * (1 + η) - 1) (70 / 100) ≤ 1.932 ∧
      70 / 100 * (Real.exp ((0.0307 + 0.5 / 1000) * 0.7) * Real.sqrt (1 + η)) < 1 ∧ Real.exp ((0.0307 + 0.5 / 1000) * 0.7) ≤ 1.0221 := by
  have x : Real.exp ((0.0307 + 0.5 / 1000) * 0.7) ≤ 1.0221 := (exp_small (by norm_num) (by norm_num)).trans (by norm_num)
  have o : 1 ≤ Real.exp ((0.0307 + 0.5 / 1000) * 0.7) := Real.one_le_exp (by norm_num)
  generalize Real.exp ((0.0307 + 0.5 / 1000) * 0.7) = z at x o ⊢
  have y := pow_le_pow_left₀ (by linarith) x 2
  have o2 := one_le_pow₀ o (n := 2)
  have u := mul_le_mul y (show 1 + η ≤ 1 + 9 / 79 by linarith) (by linarith) (by norm_num)
  have v := mul_le_mul o2 (show (1:ℝ) ≤ 1 + η by linarith) zero_le_one (by linarith)
  refine ⟨?_, ?_, x⟩
  · exact swell_le (e := 0.16371) (s := 1.07876) (by linarith) (by norm_num at u ⊢; linarith) (by norm_num) (by norm_num) (by norm_num)
      (by norm_num) (by norm_num) (by norm_num)
  · have r : Real.sqrt (1 + η) ≤ 1.0556 := Real.sqrt_le_iff.2 ⟨by norm_num, by norm_num at w1 ⊢; linarith⟩
    have := mul_le_mul x r (Real.sqrt_nonneg _) (by norm_num)
    norm_num at this ⊢
    linarith

theorem gainB_default {k : Consts ℝ} {A : ℝ} (m0 : 0 ≤ gam k.c1 * lean (Real.exp (0.7 / k.c0)) A)
    (m1 : gam k.c1 * lean (Real.exp (0.7 / k.c0)) A ≤ 1.0074) : 0 ≤ gainB k 0.7 A ∧ gainB k 0.7 A ≤ 1.1188 := by
  have x : Real.exp (0.1497 * 0.7) ≤ 1.11055 := (exp_small (by norm_num) (by norm_num)).trans (by norm_num)
  exact ⟨mul_nonneg m0 (Real.exp_pos _).le, (mul_le_mul m1 x (Real.exp_pos _).le (by norm_num)).trans (by norm_num)⟩

theorem gainA_default {k : Consts ℝ} {p : Params ℝ} {A : ℝ} (e3 : p.decay = 50) (B0 : 0 ≤ gainB k 0.7 A) (B : gainB k 0.7 A ≤ 1.1188) :
    0 ≤ gainA k p 0.7 A ∧ gainA k p 0.7 A ≤ 0.7097 := by
  obtain ⟨T0, T⟩ := tailG_default
  rw [gainA, e3]
  generalize swell (Real.exp (0.0893 * 0.7) ^ 2 - 1) (1 / 2) = T' at T0 T ⊢
  have a := mul_nonneg T0 B0
  have b := mul_le_mul T B B0 (by norm_num)
  constructor
  · linarith
  · norm_num at b ⊢
    linarith

theorem gainL_default {k : Consts ℝ} {p : Params ℝ} {A : ℝ} (e3 : p.decay = 50) (S : gainS k p 0.7 ≤ 1.932) (A0 : 0 ≤ gainA k p 0.7 A)
    (hA : gainA k p 0.7 A ≤ 0.7097) : gainL k p 0.7 A ≤ 0.7485 := by
  have x : Real.exp (0.1252 * 0.7) ≤ 1.09165 := (exp_small (by norm_num) (by norm_num)).trans (by norm_num)
  have a := mul_le_mul x hA A0 (by norm_num)
  have b := mul_le_mul S a (mul_nonneg (Real.exp_pos _).le A0) (by norm_num)
  rw [gainL, e3]
  norm_num at b ⊢
  linarith

theorem gainH_default {k : Consts ℝ} {p : Params ℝ} (e1 : p.modDepth = 0.5) (e2 : p.tailDensity = 70) (S0 : 0 ≤ gainS k p 0.7)
    (S : gainS k p 0.7 ≤ 1.932) (x : Real.exp ((0.0307 + 0.5 / 1000) * 0.7) ≤ 1.0221) (l1 : Real.exp (0.7 / k.c0) ≤ 1.0001) :
    0 ≤ gainH k p 0.7 ∧ gainH k p 0.7 ≤ 8.02 := by
  rw [gainH, e1, e2]
  have := mul_le_mul (show gainS k p 0.7 * (70 / 100) + 1 ≤ 2.3524 by linarith) x (Real.exp_pos _).le (by norm_num)
  exact ⟨div_nonneg (mul_nonneg (by linarith) (Real.exp_pos _).le) (by linarith),
    (div_le_div₀ (by norm_num) this (show (0:ℝ) < 0.29993 by norm_num) (by linarith)).trans (by norm_num)⟩

theorem gainI_default {k : Consts ℝ} {A : ℝ} (l1 : Real.exp (0.7 / k.c0) ≤ 1.0001) (m0 : 0 ≤ gam k.c1 * lean (Real.exp (0.7 / k.c0)) A)
    (m1 : gam k.c1 * lean (Real.exp (0.7 / k.c0)) A ≤ 1.0074) : 0 ≤ gainI k 0.7 A 0.75 ∧ gainI k 0.7 A 0.75 ≤ 3.504 := by
  obtain ⟨U0, U⟩ := diffuserG_default
  have U4 := pow_le_pow_left₀ U0 U 4
  have a0 := mul_nonneg (Real.exp_pos (0.7 / k.c0)).le m0
  have a := mul_le_mul l1 m1 m0 (by norm_num)
  have b := mul_le_mul m1 (show 1 + Real.exp (0.7 / k.c0) * (gam k.c1 * lean (Real.exp (0.7 / k.c0)) A) ≤ 1 + 1.0001 * 1.0074 by linarith)
    (by linarith) (by norm_num)
  have c0 := mul_nonneg m0 (show 0 ≤ 1 + Real.exp (0.7 / k.c0) * (gam k.c1 * lean (Real.exp (0.7 / k.c0)) A) by linarith)
  exact ⟨mul_nonneg (pow_nonneg U0 4) c0, (mul_le_mul U4 b c0 (by norm_num)).trans (by norm_num)⟩

/-- The gains of a new reverb with these weights. -/
theorem gains_default {k : Consts ℝ} (k1 : gam k.c1 ≤ 1.006) (k1' : 1 ≤ gam k.c1) (w0 : 0 ≤ wobble k.c0 0.5) (w1 : wobble k.c0 0.5 ≤ 9 / 79)
    {p : Params ℝ} (e1 : p.modDepth = 0.5) (e2 : p.tailDensity = 70) (e3 : p.decay = 50) {A : ℝ} (l0 : 1 ≤ Real.exp (0.7 / k.c0))
    (l1 : Real.exp (0.7 / k.c0) ≤ 1.0001) (l2 : Real.exp (0.7 / k.c0) * A < 1) (l3 : lean (Real.exp (0.7 / k.c0)) A ≤ 1.0013) :
    Gains k p 0.7 A 0.75 ∧ gainL k p 0.7 A < 1 ∧ gain k p 0.7 A 0.75 ≤ 350 := by
  have l4 := lean_nonneg l0 l2
  have m0 : 0 ≤ gam k.c1 * lean (Real.exp (0.7 / k.c0)) A := mul_nonneg (by linarith) l4
  have m1 : gam k.c1 * lean (Real.exp (0.7 / k.c0)) A ≤ 1.0074 := (mul_le_mul k1 l3 l4 (by norm_num)).trans (by norm_num)
  obtain ⟨S', d, x⟩ := earlyG_default w0 w1
  have S0 : 0 ≤ gainS k p 0.7 := Real.sqrt_nonneg _
  have S : gainS k p 0.7 ≤ 1.932 := by rw [gainS, e1, e2]; exact S'
  have x1 : Real.exp (0.0132 * 0.7) ≤ 1.009283 := (exp_small (by norm_num) (by norm_num)).trans (by norm_num)
  have x2 : Real.exp (0.0893 * 0.7) ≤ 1.06452 := (exp_small (by norm_num) (by norm_num)).trans (by norm_num)
  have x6 : Real.exp (0.1219 * 0.7) ≤ 1.08913 := (exp_small (by norm_num) (by norm_num)).trans (by norm_num)
  have G : Gains k p 0.7 A 0.75 := ⟨l2, by linarith, by linarith, by rw [e1, e2]; exact d⟩
  obtain ⟨B0, B⟩ := gainB_default m0 m1
  obtain ⟨A0, A1⟩ := gainA_default e3 B0 B
  have L := gainL_default e3 S A0 A1
  obtain ⟨H0, H⟩ := gainH_default e1 e2 S0 S x l1
  obtain ⟨I0, I⟩ := gainI_default l1 m0 m1
  refine ⟨G, by linarith, ?_⟩
  rw [gain]
  generalize gainS k p 0.7 = S1 at *
  generalize gainH k p 0.7 = H1 at *
  generalize gainI k 0.7 A 0.75 = I1 at *
  generalize gainL k p 0.7 A = L1 at *
  have a := mul_le_mul (add_le_add S H) I I0 (by norm_num)
  have b := div_le_div₀ (by norm_num) a (show (0:ℝ) < 0.2515 by norm_num) (show 0.2515 ≤ 1 - L1 by linarith)
  have b0 := div_nonneg (mul_nonneg (add_nonneg S0 H0) I0) (show 0 ≤ 1 - L1 by linarith)
  have c := mul_le_mul x6 (show 2 + gainB k 0.7 A + gainA k p 0.7 A ≤ 3.8285 by linarith) (by linarith) (by norm_num)
  have d := mul_le_mul (mul_le_mul_of_nonneg_left c (show (0:ℝ) ≤ 0.6 by norm_num)) b b0 (by norm_num)
  exact d.trans (by norm_num)

/-- **C104** (ideal arithmetic): a new reverb falls silent by halves. At every sample rate from 8 kHz, for every input in blocks of any
lengths (fewer than `2^31` frames) that is silent from some frame on, no later output sample is larger than 350 times the loudness of the
input, halved for each second since that frame. -/
theorem C104_as_it_comes (sr : ℤ) (hsr : 8000 ≤ sr) (k : Consts ℝ) (hk : instanceConstants sr = some k)
    (blocks : List (List (Stereo ℝ))) (hlen : blocks.flatten.length < 2 ^ 31) :
    ∃ ys, output k (blocks.map (Event.block resetUI)) = some ys ∧ ys.length = blocks.flatten.length ∧
      ∀ m : ℕ, (∀ t : ℕ, m ≤ t → channel Stereo.left blocks.flatten t = 0 ∧ channel Stereo.right blocks.flatten t = 0) →
      ∀ (t : ℕ) (y : Stereo ℝ), m ≤ t → ys[t]? = some y → max |y.left| |y.right| ≤
        350 * (1 / 2 : ℝ) ^ (((t : ℝ) - m) / min 192000 (sr : ℝ)) *
          (loudness m (fun t => channel Stereo.left blocks.flatten t) + loudness m (fun t => channel Stereo.right blocks.flatten t)) := by
  have P : Settings (resetUI : Params ℝ) := by constructor <;> simp only [resetUI, real_arith] <;> norm_num
  have e1 : (resetUI : Params ℝ).modDepth = 0.5 := by simp only [resetUI, real_arith]; norm_num
  have e2 : (resetUI : Params ℝ).tailDensity = 70 := by simp only [resetUI, real_arith]; norm_num
  have e3 : (resetUI : Params ℝ).decay = 50 := by simp only [resetUI, real_arith]; norm_num
  have e4 : (resetUI : Params ℝ).predelay = 0 := by simp only [resetUI, real_arith]; norm_num
  have e5 : (resetUI : Params ℝ).damping = 5500 := by simp only [resetUI, real_arith]; norm_num
  have e6 : (resetUI : Params ℝ).highPass = 100 := by simp only [resetUI, real_arith]; norm_num
  have e7 : (resetUI : Params ℝ).lowPass = 10000 := by simp only [resetUI, real_arith]; norm_num
  have e8 : (resetUI : Params ℝ).diffusion1 = 75 := by simp only [resetUI, real_arith]; norm_num
  have e9 : (resetUI : Params ℝ).diffusion2 = 62.5 := by simp only [resetUI, real_arith]; norm_num
  obtain ⟨-, ⟨l0, -⟩, k0, k1, -⟩ := constants_tank hsr hk
  have hc : 0 < k.c0 := by linarith
  have k3 := (constants_short hsr hk).c3
  obtain ⟨w0, w1⟩ := wobble_default hsr
  rw [← k0] at w0 w1 ⊢
  obtain ⟨g1, g2⟩ := gam_bounds (c1 := k.c1) (by rw [k1]; positivity) (by rw [k1, div_le_iff₀ hc]; linarith)
  obtain ⟨q1, q2, q3⟩ := lean_default l0
  obtain ⟨G, L, K⟩ := gains_default g2 g1 w0 w1 (p := resetUI) e1 e2 e3 (Real.one_le_exp (by positivity)) q1 q2 q3
  have cap : ∀ {v : ℝ}, 100 ≤ v → Real.exp (-(k.c3 * v)) ≤ Real.exp (-(6.2831855 / k.c0 * 100)) := fun h => by
    rw [k3]; exact Real.exp_le_exp.2 (neg_le_neg (mul_le_mul_of_nonneg_left h (by positivity)))
  obtain ⟨ys, e, hl, h⟩ := output_fades hsr hk P (by norm_num) (ctrls_capped hsr hk P (cap (by rw [e5]; norm_num)) (cap (by rw [e6]))
    (cap (by rw [e7]; norm_num)) (by rw [e8]; norm_num) (by rw [e9]; norm_num)) (by rw [e1]; linarith) G L blocks hlen
  have a : ∀ t, arriving k.c0 0 t = t := fun t => by simp [arriving]
  rw [e4] at h
  simp only [a] at h
  refine ⟨ys, e, hl, fun m hm t y hmt hy => (h m hm t y hy).trans ?_⟩
  have x0 : 0 ≤ ((t : ℝ) - m) / k.c0 := div_nonneg (sub_nonneg.2 (by exact_mod_cast hmt)) hc.le
  refine mul_le_mul_of_nonneg_right ?_ (add_nonneg (Real.sqrt_nonneg _) (Real.sqrt_nonneg _))
  refine mul_le_mul K ?_ (Real.exp_pos _).le (by norm_num)
  rw [Real.rpow_def_of_pos (by norm_num), Real.exp_le_exp, one_div, Real.log_inv]
  have := mul_le_mul_of_nonneg_right (show Real.log 2 ≤ 0.7 by linarith [Real.log_two_lt_d9]) x0
  linarith

/-- A click and any length of silence. -/
example (n : ℕ) : ∀ t : ℕ, 1 ≤ t → channel Stereo.left (({ left := 1, right := 1 } : Stereo ℝ) :: List.replicate n ⟨0, 0⟩) t = 0 ∧
    channel Stereo.right (({ left := 1, right := 1 } : Stereo ℝ) :: List.replicate n ⟨0, 0⟩) t = 0 := by
  intro t ht
  obtain ⟨u, rfl⟩ : ∃ u, t = u + 1 := ⟨t - 1, by omega⟩
  by_cases h : u < n <;> simp [channel, h]

end Verif.FVerbDSP
