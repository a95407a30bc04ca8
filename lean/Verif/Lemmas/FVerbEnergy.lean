import Verif.Lemmas.FVerbLinear
import Verif.Lemmas.Energy
import Mathlib.Tactic.FieldSimp

/-!
# Energy in one half of the reverb

The lines, taken as signals on the whole time axis, and how much energy each stage passes on.
-/

namespace Verif.FVerbDSP
open Energy

/-! ### One step of one half, as equations -/

/-- What one step does to one channel, with ideal delays and exact arithmetic. -/
structure HalfStep (n pre d1 d2 d3 d4 d dT : ℤ) (c : Ctrl ℝ) (f : Fade ℝ) (inp fb : ℝ) (h h' : Half (ℤ → ℝ) ℝ) : Prop where
  preLine : h'.preLine = Function.update h.preLine n (inp * c.rec27)
  lp : h'.lp = h'.preLine (n - pre) + c.rec25 * h.lp
  hp : h'.hp = (1 - c.rec25) * h'.lp + c.rec24 * h.hp
  line1 : h'.line1 = Function.update h.line1 n ((c.rec24 + 1) / 2 * (h'.hp - h.hp) - c.rec20 * h.ap1)
  ap1 : h'.ap1 = h'.line1 (n - d1)
  line2 : h'.line2 = Function.update h.line2 n (c.rec20 * h'.line1 n + h.ap1 - c.rec20 * h.ap2)
  ap2 : h'.ap2 = h'.line2 (n - d2)
  line3 : h'.line3 = Function.update h.line3 n (c.rec20 * h'.line2 n + h.ap2 - c.rec15 * h.ap3)
  ap3 : h'.ap3 = h'.line3 (n - d3)
  line4 : h'.line4 = Function.update h.line4 n (c.rec15 * h'.line3 n + h.ap3 - c.rec15 * h.ap4)
  ap4 : h'.ap4 = h'.line4 (n - d4)
  modLine : h'.modLine = Function.update h.modLine n (c.rec15 * h'.line4 n + h.ap4 + c.rec29 * fb + c.rec12 * h.modOut)
  modOut : h'.modOut = h'.modLine (n - clampDelay f.dA) + f.mix * (h'.modLine (n - clampDelay f.dB) - h'.modLine (n - clampDelay f.dA))
  dampLine : h'.dampLine = Function.update h.dampLine n (h.modOut - c.rec12 * h'.modLine n)
  damp : h'.damp = h'.dampLine (n - d) + c.rec8 * h.damp
  tailLine : h'.tailLine =
    Function.update h.tailLine n (c.rec29 * h'.outB n + min (1 / 2) (max (1 / 4) (c.rec29 + 0.15)) * h.tail)
  tail : h'.tail = h'.tailLine (n - dT)
  outA : h'.outA = Function.update h.outA n (h.tail - min (1 / 2) (max (1 / 4) (c.rec29 + 0.15)) * h'.tailLine n)
  outB : h'.outB = Function.update h.outB n ((1 - c.rec8) * h'.damp)
  outC : h'.outC = Function.update h.outC n (h'.dampLine n)

theorem clamp14 (x : ℝ) : (Arith.stdMin (lit 0.5) (Arith.stdMax (lit 0.25) (x + lit 0.15)) : ℝ) = min (1 / 2) (max (1 / 4) (x + 0.15)) := by
  simp only [Arith.stdMin, Arith.stdMax, real_arith]
  push_cast
  rw [min_def, max_def]
  norm_num
  split_ifs <;> linarith

theorem halfStep_of {tN bN : ℕ} {n pre d1 d2 d3 d4 d dT : ℤ} {c : Ctrl ℝ} {f : Fade ℝ} {q1 q2 q3 : ℝ → ℝ} {inp fb x4 : ℝ}
    {h h1 h' : Half (ℤ → ℝ) ℝ} (hq1 : ∀ v, q1 v = (1 - c.rec25) * v) (hq2 : ∀ v, q2 v = c.rec29 * ((1 - c.rec8) * v))
    (hq3 : ∀ v, q3 v = (1 - c.rec8) * v) (e1 : inputStep ideal n pre d1 d2 d3 d4 c q1 inp h = some (h1, x4))
    (e2 : tankStep ideal tN bN n d dT c f q2 q3 fb x4 h h1 = some h') : HalfStep n pre d1 d2 d3 d4 d dT c f inp fb h h' := by
  simp only [inputStep, ideal, Option.bind_some, allpass, Option.map_some, Option.some.injEq, Prod.mk.injEq] at e1
  obtain ⟨rfl, rfl⟩ := e1
  simp only [tankStep, ideal, Option.bind_some, Option.map_some, Option.some.injEq] at e2
  subst e2
  have h5 : (lit 0.5 : ℝ) = 1 / 2 := by simp only [real_arith]; norm_num
  have h1 : (lit 1 : ℝ) = 1 := by simp only [real_arith]; norm_num
  constructor <;> (try simp only [clamp14]) <;> simp only [hq1, hq2, hq3, Function.update_self, h5, h1] <;> (try simp only [real_arith]) <;>
    (try (congr 1; ring))

/-! ### Lines as signals -/

/-- The signal written to a line. -/
def sig (L : ℕ → ℤ → ℝ) : ℤ → ℝ := fun j => if j < 0 then 0 else L (j.toNat + 1) j

theorem sig_neg (L : ℕ → ℤ → ℝ) (j : ℤ) (h : j < 0) : sig L j = 0 := if_pos h

theorem sig_nat (L : ℕ → ℤ → ℝ) (t : ℕ) : sig L t = L (t + 1) t := by
  unfold sig
  rw [if_neg (by omega), Int.toNat_natCast]

/-- A line that is written once per step. -/
structure Written (M : ℕ) (L : ℕ → ℤ → ℝ) : Prop where
  zero : ∀ j, L 0 j = 0
  step : ∀ t, t < M → ∃ v, L (t + 1) = Function.update (L t) t v

theorem Written.read {M : ℕ} {L : ℕ → ℤ → ℝ} (W : Written M L) {t : ℕ} (ht : t ≤ M) {j : ℤ} (hj : j < t) : L t j = sig L j := by
  induction t with
  | zero => rw [W.zero, sig_neg L j (by simpa using hj)]
  | succ t ih =>
    obtain ⟨v, hv⟩ := W.step t ht
    by_cases h : j = t
    · subst h; rw [sig_nat]
    · rw [hv, Function.update_of_ne h]
      exact ih (by omega) (by push_cast at hj; omega)

/-! ### The controls -/

/-- What the control values of a run are, with fixed parameters and no modulation. -/
structure CalmR (c1 ρ g : ℝ) (c : ℕ → Ctrl ℝ) : Prop where
  rec8 : Drift c1 fun t => (c t).rec8
  rec24 : Drift c1 fun t => (c t).rec24
  rec25 : Drift c1 fun t => (c t).rec25
  rec12 : ∀ t, 0 ≤ (c t).rec12 ∧ (c t).rec12 ≤ g
  rec12m : Monotone fun t => (c t).rec12
  rec15 : ∀ t, 0 ≤ (c t).rec15 ∧ (c t).rec15 ≤ 1
  rec15m : Monotone fun t => (c t).rec15
  rec20 : ∀ t, 0 ≤ (c t).rec20 ∧ (c t).rec20 ≤ 1
  rec20m : Monotone fun t => (c t).rec20
  rec29 : ∀ t, 0 ≤ (c t).rec29 ∧ (c t).rec29 ≤ ρ
  rec29m : Monotone fun t => (c t).rec29

/-- A crossfade from the shortest delay to `T` that is over after `F` steps. -/
structure FadedIn (F : ℕ) (T : ℤ) (f : ℕ → Fade ℝ) : Prop where
  far : F ≤ T
  dA : ∀ t, clampDelay (f t).dA = 0
  dB : ∀ t, clampDelay (f t).dB = T
  mix : ∀ t, 0 ≤ (f t).mix ∧ (f t).mix ≤ 1
  done : ∀ t, F ≤ t + 1 → (f t).mix = 1

/-- One channel over the first `M` steps. -/
structure HalfRun (M : ℕ) (d1 d2 d3 d4 d dT : ℤ) (pre : ℕ → ℤ) (c : ℕ → Ctrl ℝ) (f : ℕ → Fade ℝ) (inp fb : ℕ → ℝ)
    (h : ℕ → Half (ℤ → ℝ) ℝ) : Prop where
  step : ∀ t, t < M → HalfStep t (pre t) d1 d2 d3 d4 d dT (c t) (f t) (inp t) (fb t) (h t) (h (t + 1))
  delays : 0 ≤ d1 ∧ 0 ≤ d2 ∧ 0 ≤ d3 ∧ 0 ≤ d4 ∧ 0 ≤ d ∧ 0 ≤ dT
  pre0 : ∀ t, 0 ≤ pre t
  lines : ∀ j, (h 0).preLine j = 0 ∧ (h 0).line1 j = 0 ∧ (h 0).line2 j = 0 ∧ (h 0).line3 j = 0 ∧ (h 0).line4 j = 0 ∧
    (h 0).modLine j = 0 ∧ (h 0).dampLine j = 0 ∧ (h 0).tailLine j = 0 ∧ (h 0).outA j = 0 ∧ (h 0).outB j = 0 ∧ (h 0).outC j = 0
  vals : (h 0).lp = 0 ∧ (h 0).hp = 0 ∧ (h 0).ap1 = 0 ∧ (h 0).ap2 = 0 ∧ (h 0).ap3 = 0 ∧ (h 0).ap4 = 0 ∧ (h 0).modOut = 0 ∧
    (h 0).damp = 0 ∧ (h 0).tail = 0

section
variable {M : ℕ} {d1 d2 d3 d4 d dT : ℤ} {pre : ℕ → ℤ} {c : ℕ → Ctrl ℝ} {f : ℕ → Fade ℝ} {inp fb : ℕ → ℝ} {h : ℕ → Half (ℤ → ℝ) ℝ}

/-- A member that holds what was read last: before step `t` it is the line at `t - 1 - d`. -/
theorem held {L : ℕ → ℤ → ℝ} (W : Written M L) {x : ℕ → ℝ} {d : ℤ} (hd : 0 ≤ d) (h0 : x 0 = 0)
    (hx : ∀ t, t < M → x (t + 1) = L (t + 1) (t - d)) {t : ℕ} (ht : t ≤ M) : x t = sig L (t - (d + 1)) := by
  cases t with
  | zero => rw [h0, sig_neg _ _ (by push_cast; omega)]
  | succ t =>
    rw [hx t (by omega), W.read (by omega) (by push_cast; omega)]
    congr 1
    push_cast
    omega

theorem pow_bound {x : ℝ} (h : 0 ≤ x ∧ x ≤ 1) : x ^ 2 ≤ 1 := by nlinarith [h.1, h.2]

theorem pow_mono {x : ℕ → ℝ} (h0 : ∀ t, 0 ≤ x t) (hm : Monotone x) : Monotone fun t => x t ^ 2 :=
  fun a _ hab => pow_le_pow_left₀ (h0 a) (hm hab) 2

/-- One allpass of the input diffuser. -/
theorem diffuser_N {n : ℕ} (hn : n ≤ M) {L : ℕ → ℤ → ℝ} (W : Written M L) {d : ℤ} (hd : 0 ≤ d) {g : ℕ → ℝ} (hg : ∀ t, 0 ≤ g t ∧ g t ≤ 1)
    (hm : Monotone g) {u y : ℤ → ℝ} {ap : ℕ → ℝ} (h0 : ap 0 = 0) (hx : ∀ t, t < M → ap (t + 1) = L (t + 1) (t - d))
    (hL : ∀ t : ℕ, t < M → L (t + 1) t = u t - g t * ap t) (hy : ∀ t : ℕ, t < M → y t = g t * L (t + 1) t + ap t) : N n y ≤ N n u := by
  refine allpass_N (g := fun t => -g t) (v := sig L) (d := d + 1) ?_ ?_ (by omega) (sig_neg L) ?_ ?_
  · intro t; rw [neg_sq]; exact pow_bound (hg t)
  · simp only [neg_sq]; exact pow_mono (fun t => (hg t).1) hm
  · intro t ht
    rw [sig_nat, hL t (by omega), held W hd h0 hx (by omega)]
    ring
  · intro t ht
    rw [hy t (by omega), held W hd h0 hx (by omega), sig_nat]
    ring

/-- A smoothed lowpass, as a bound of the square roots. -/
theorem lowpass_N {c1 : ℝ} {p : ℕ → ℝ} (D : Drift c1 p) {s : ℕ → ℝ} {y : ℤ → ℝ} (h0 : s 0 = 0) {n : ℕ}
    (hs : ∀ t : ℕ, t < n → s (t + 1) = y t + p t * s t) :
    N n (fun t => (1 - p t.toNat) * s (t.toNat + 1)) ≤ Real.sqrt (1 + c1 / (1 / 2 - c1)) * N n y ∧
      N n (fun t => (1 - p t.toNat) * s t.toNat) ≤ Real.sqrt (1 + c1 / (1 / 2 - c1)) * N n y := by
  have hd : 0 < 1 / 2 - c1 := by linarith [D.c1]
  have e0 : 0 ≤ 1 + c1 / (1 / 2 - c1) := by have := div_nonneg D.c0 hd.le; linarith
  obtain ⟨S, hS⟩ : ∃ S : ℤ → ℝ, S = fun t => if t < 0 then 0 else s (t.toNat + 1) := ⟨_, rfl⟩
  have S0 : ∀ t, t < 0 → S t = 0 := fun t ht => by rw [hS]; exact if_pos ht
  have S1 : ∀ t : ℕ, S t = s (t + 1) := fun t => by rw [hS]; simp
  have S2 : ∀ t : ℕ, S (t - 1) = s t := by
    intro t
    cases t with
    | zero => rw [S0 _ (by simp), h0]
    | succ t => rw [show ((t + 1 : ℕ) : ℤ) - 1 = t by push_cast; ring, S1]
  have h1 := lowpass_E (s := S) (y := y) D (S0 _ (by norm_num)) n (fun t ht => by rw [S1, S2]; exact hs t ht)
  have h2 : N n (fun t => (1 - p t.toNat) * S t) ≤ Real.sqrt (1 + c1 / (1 / 2 - c1)) * N n y := by
    refine N_le_of_E (Real.sqrt_nonneg _) ?_
    rw [Real.sq_sqrt e0]
    exact h1
  have h3 : N n (fun t => (1 - p t.toNat) * s (t.toNat + 1)) = N n (fun t => (1 - p t.toNat) * S t) :=
    N_congr fun t _ => by rw [S1, Int.toNat_natCast]
  refine ⟨h3.le.trans h2, ?_⟩
  obtain ⟨Z, hZ⟩ : ∃ Z : ℤ → ℝ, Z = fun t => (1 - p t.toNat) * S t := ⟨_, rfl⟩
  have Z0 : ∀ t, t < 0 → Z t = 0 := fun t ht => by rw [hZ]; simp only [S0 t ht, mul_zero]
  rw [← hZ] at h2
  refine le_trans ?_ h2
  refine le_trans ?_ (N_shift n (d := 1) (by norm_num) Z0)
  refine N_mono fun t ht => ?_
  simp only [Int.toNat_natCast]
  rw [hZ]
  simp only [S2, abs_mul]
  refine mul_le_mul_of_nonneg_right ?_ (abs_nonneg _)
  rw [abs_of_nonneg (sub_nonneg.2 (D.p1 _)), abs_of_nonneg (sub_nonneg.2 (D.p1 _))]
  have := D.mono (show ((t : ℤ) - 1).toNat ≤ t by omega)
  linarith

/-- What the predelay hands on. -/
def heardIn (pre : ℕ → ℤ) (h : ℕ → Half (ℤ → ℝ) ℝ) : ℤ → ℝ := fun t => sig (fun i => (h i).preLine) (t - pre t.toNat)

/-- What the input diffusers hand on. -/
def diffused (c : ℕ → Ctrl ℝ) (h : ℕ → Half (ℤ → ℝ) ℝ) : ℤ → ℝ :=
  fun t => (c t.toNat).rec15 * (h (t.toNat + 1)).line4 t + (h t.toNat).ap4

/-- What enters the tank. -/
def driven (c : ℕ → Ctrl ℝ) (fb : ℕ → ℝ) (h : ℕ → Half (ℤ → ℝ) ℝ) : ℤ → ℝ :=
  fun t => diffused c h t + (c t.toNat).rec29 * fb t.toNat

/-- The gain allowed to a smoothed lowpass. -/
noncomputable def gam (c1 : ℝ) : ℝ := Real.sqrt (1 + c1 / (1 / 2 - c1))

theorem gam_nonneg (c1 : ℝ) : 0 ≤ gam c1 := Real.sqrt_nonneg _

/-- Predelay to diffusers. -/
theorem input_N {c1 ρ g : ℝ} (R : HalfRun M d1 d2 d3 d4 d dT pre c f inp fb h) (C : CalmR c1 ρ g c) {n : ℕ} (hn : n ≤ M) :
    N n (diffused c h) ≤ gam c1 * (1 + gam c1) * N n (heardIn pre h) := by
  obtain ⟨v1, v2, v3, v4, v5, v6, -⟩ := R.vals
  have W0 : Written M fun i => (h i).preLine := ⟨fun j => (R.lines j).1, fun t ht => ⟨_, (R.step t ht).preLine⟩⟩
  have W1 : Written M fun i => (h i).line1 := ⟨fun j => (R.lines j).2.1, fun t ht => ⟨_, (R.step t ht).line1⟩⟩
  have W2 : Written M fun i => (h i).line2 := ⟨fun j => (R.lines j).2.2.1, fun t ht => ⟨_, (R.step t ht).line2⟩⟩
  have W3 : Written M fun i => (h i).line3 := ⟨fun j => (R.lines j).2.2.2.1, fun t ht => ⟨_, (R.step t ht).line3⟩⟩
  have W4 : Written M fun i => (h i).line4 := ⟨fun j => (R.lines j).2.2.2.2.1, fun t ht => ⟨_, (R.step t ht).line4⟩⟩
  obtain ⟨hd1, hd2, hd3, hd4, -⟩ := R.delays
  -- lowpass
  have a1 := (lowpass_N (s := fun t => (h t).lp) (y := heardIn pre h) C.rec25 v1 (n := n) (fun t ht => by
    simp only [heardIn, Int.toNat_natCast]
    rw [(R.step t (by omega)).lp, W0.read (t := t + 1) (by omega) (by have := R.pre0 t; push_cast; omega)])).1
  -- highpass
  have a2 := (lowpass_N (s := fun t => (h t).hp) (y := fun t => (1 - (c t.toNat).rec25) * (h (t.toNat + 1)).lp) C.rec24 v2 (n := n)
    (fun t ht => by
      simp only [Int.toNat_natCast]
      rw [(R.step t (by omega)).hp])).2
  have a3 : N n (fun t => ((c t.toNat).rec24 + 1) / 2 * ((h (t.toNat + 1)).hp - (h t.toNat).hp)) ≤
      1 * N n (fun t => (h (t.toNat + 1)).hp - (h t.toNat).hp) :=
    N_mul (a := fun t => ((c t.toNat).rec24 + 1) / 2) zero_le_one fun t _ => by
      simp only [Int.toNat_natCast]
      have h0 := C.rec24.p0 t
      have h1 := C.rec24.p1 t
      rw [abs_of_nonneg (by linarith)]
      linarith
  have a4 : N n (fun t => (h (t.toNat + 1)).hp - (h t.toNat).hp) ≤
      N n (fun t => (1 - (c t.toNat).rec25) * (h (t.toNat + 1)).lp) + N n (fun t => -((1 - (c t.toNat).rec24) * (h t.toNat).hp)) := by
    refine le_trans (le_of_eq (N_congr fun t ht => ?_)) (N_add n _ _)
    simp only [Int.toNat_natCast]
    rw [(R.step t (by omega)).hp]
    ring
  have a5 : N n (fun t => -((1 - (c t.toNat).rec24) * (h t.toNat).hp)) = N n (fun t => (1 - (c t.toNat).rec24) * (h t.toNat).hp) :=
    le_antisymm (N_mono fun t _ => by rw [abs_neg]) (N_mono fun t _ => by rw [abs_neg])
  -- diffusers
  have b1 : N n (fun t => (c t.toNat).rec20 * (h (t.toNat + 1)).line1 t + (h t.toNat).ap1) ≤
      N n (fun t => ((c t.toNat).rec24 + 1) / 2 * ((h (t.toNat + 1)).hp - (h t.toNat).hp)) :=
    diffuser_N hn W1 hd1 C.rec20 C.rec20m (ap := fun t => (h t).ap1) v3 (fun t ht => (R.step t ht).ap1)
      (fun t ht => by simp only [Int.toNat_natCast]; rw [(R.step t ht).line1, Function.update_self])
      (fun t ht => by simp only [Int.toNat_natCast])
  have b2 : N n (fun t => (c t.toNat).rec20 * (h (t.toNat + 1)).line2 t + (h t.toNat).ap2) ≤
      N n (fun t => (c t.toNat).rec20 * (h (t.toNat + 1)).line1 t + (h t.toNat).ap1) :=
    diffuser_N hn W2 hd2 C.rec20 C.rec20m (ap := fun t => (h t).ap2) v4 (fun t ht => (R.step t ht).ap2)
      (fun t ht => by simp only [Int.toNat_natCast]; rw [(R.step t ht).line2, Function.update_self])
      (fun t ht => by simp only [Int.toNat_natCast])
  have b3 : N n (fun t => (c t.toNat).rec15 * (h (t.toNat + 1)).line3 t + (h t.toNat).ap3) ≤
      N n (fun t => (c t.toNat).rec20 * (h (t.toNat + 1)).line2 t + (h t.toNat).ap2) :=
    diffuser_N hn W3 hd3 C.rec15 C.rec15m (ap := fun t => (h t).ap3) v5 (fun t ht => (R.step t ht).ap3)
      (fun t ht => by simp only [Int.toNat_natCast]; rw [(R.step t ht).line3, Function.update_self])
      (fun t ht => by simp only [Int.toNat_natCast])
  have b4 : N n (diffused c h) ≤
      N n (fun t => (c t.toNat).rec15 * (h (t.toNat + 1)).line3 t + (h t.toNat).ap3) :=
    diffuser_N hn W4 hd4 C.rec15 C.rec15m (ap := fun t => (h t).ap4) v6 (fun t ht => (R.step t ht).ap4)
      (fun t ht => by simp only [Int.toNat_natCast]; rw [(R.step t ht).line4, Function.update_self])
      (fun t ht => by simp only [diffused, Int.toNat_natCast])
  change _ ≤ gam c1 * _ at a1 a2
  have g0 := gam_nonneg c1
  have := mul_le_mul_of_nonneg_left a1 g0
  calc N n (diffused c h) ≤ _ := b4.trans (b3.trans (b2.trans (b1.trans a3)))
    _ ≤ N n (fun t => (1 - (c t.toNat).rec25) * (h (t.toNat + 1)).lp) +
        gam c1 * N n (fun t => (1 - (c t.toNat).rec25) * (h (t.toNat + 1)).lp) := by rw [one_mul]; linarith
    _ ≤ gam c1 * (1 + gam c1) * N n (heardIn pre h) := by linarith

/-- The damped branch of the tank. -/
theorem damped_N {c1 ρ g : ℝ} (R : HalfRun M d1 d2 d3 d4 d dT pre c f inp fb h) (C : CalmR c1 ρ g c) (hρ : 0 ≤ ρ) {n : ℕ} (hn : n ≤ M) :
    N n (sig fun i => (h i).outB) ≤ gam c1 * N n (sig fun i => (h i).dampLine) ∧
      N n (sig fun i => (h i).outA) ≤ ρ * (gam c1 * N n (sig fun i => (h i).dampLine)) := by
  obtain ⟨-, -, -, -, -, -, -, v8, v9⟩ := R.vals
  have W1 : Written M fun i => (h i).dampLine := ⟨fun j => (R.lines j).2.2.2.2.2.2.1, fun t ht => ⟨_, (R.step t ht).dampLine⟩⟩
  have W2 : Written M fun i => (h i).tailLine := ⟨fun j => (R.lines j).2.2.2.2.2.2.2.1, fun t ht => ⟨_, (R.step t ht).tailLine⟩⟩
  obtain ⟨-, -, -, -, hd, hdT⟩ := R.delays
  have a1 := (lowpass_N (s := fun t => (h t).damp) (y := fun t => sig (fun i => (h i).dampLine) (t - d)) C.rec8 v8 (n := n) (fun t ht => by
    rw [(R.step t (by omega)).damp, W1.read (t := t + 1) (by omega) (by push_cast; omega)])).1
  change _ ≤ gam c1 * _ at a1
  have a2 : N n (sig fun i => (h i).outB) ≤ gam c1 * N n (sig fun i => (h i).dampLine) := by
    refine le_trans (le_of_eq (N_congr fun t ht => ?_)) (a1.trans (mul_le_mul_of_nonneg_left (N_shift n hd (sig_neg _)) (gam_nonneg c1)))
    rw [sig_nat, (R.step t (by omega)).outB, Function.update_self, Int.toNat_natCast]
  refine ⟨a2, ?_⟩
  have a3 : N n (sig fun i => (h i).outA) ≤ N n (fun t => (c t.toNat).rec29 * sig (fun i => (h i).outB) t) := by
    have k0 : ∀ t, 0 ≤ min (1 / 2) (max (1 / 4) ((c t).rec29 + 0.15)) ∧ min (1 / 2) (max (1 / 4) ((c t).rec29 + 0.15)) ≤ 1 :=
      fun t => ⟨le_min (by norm_num) (le_max_of_le_left (by norm_num)), (min_le_left _ _).trans (by norm_num)⟩
    have km : Monotone fun t => min (1 / 2) (max (1 / 4) ((c t).rec29 + 0.15)) :=
      fun a b hab => min_le_min le_rfl (max_le_max le_rfl (by have := C.rec29m hab; dsimp only at this; linarith))
    refine allpass_N (g := fun t => min (1 / 2) (max (1 / 4) ((c t).rec29 + 0.15))) (v := sig fun i => (h i).tailLine) (d := dT + 1)
      (fun t => pow_bound (k0 t)) (pow_mono (fun t => (k0 t).1) km) (by omega) (sig_neg _) ?_ ?_
    · intro t ht
      rw [← held (x := fun t => (h t).tail) W2 hdT v9 (fun t ht => (R.step t ht).tail) (t := t) (by omega)]
      rw [sig_nat, sig_nat, (R.step t (by omega)).tailLine, Function.update_self, Int.toNat_natCast]
    · intro t ht
      rw [← held (x := fun t => (h t).tail) W2 hdT v9 (fun t ht => (R.step t ht).tail) (t := t) (by omega)]
      rw [sig_nat, sig_nat, (R.step t (by omega)).outA, Function.update_self]
  refine a3.trans ((N_mul hρ fun t _ => ?_).trans (mul_le_mul_of_nonneg_left a2 hρ))
  rw [Int.toNat_natCast, abs_of_nonneg (C.rec29 t).1]
  exact (C.rec29 t).2

theorem mod_held (R : HalfRun M d1 d2 d3 d4 d dT pre c f inp fb h) {F : ℕ} {T : ℤ} (FI : FadedIn F T f) {t : ℕ} (ht : t ≤ M) :
    ∃ m : ℝ, 0 ≤ m ∧ m ≤ 1 ∧ (F ≤ t → m = 1) ∧ (h t).modOut =
      (1 - m) * sig (fun i => (h i).modLine) (t - 1) + m * sig (fun i => (h i).modLine) (t - (T + 1)) := by
  have W : Written M fun i => (h i).modLine := ⟨fun j => (R.lines j).2.2.2.2.2.1, fun t ht => ⟨_, (R.step t ht).modLine⟩⟩
  have hT : 0 ≤ T := le_trans (by omega) FI.far
  cases t with
  | zero =>
    refine ⟨1, zero_le_one, le_rfl, fun _ => rfl, ?_⟩
    rw [R.vals.2.2.2.2.2.2.1, sig_neg _ (((0 : ℕ) : ℤ) - (T + 1)) (by push_cast; omega)]
    ring
  | succ t =>
    refine ⟨(f t).mix, (FI.mix t).1, (FI.mix t).2, fun hF => FI.done t hF, ?_⟩
    rw [(R.step t (by omega)).modOut, FI.dA, FI.dB, W.read (t := t + 1) (by omega) (by push_cast; omega),
      W.read (t := t + 1) (by omega) (by push_cast; omega), show ((t + 1 : ℕ) : ℤ) - 1 = t - 0 by push_cast; ring,
      show ((t + 1 : ℕ) : ℤ) - (T + 1) = t - T by push_cast; ring]
    ring

theorem mod_line (R : HalfRun M d1 d2 d3 d4 d dT pre c f inp fb h) {t : ℕ} (ht : t < M) :
    sig (fun i => (h i).modLine) t = driven c fb h t + (c t).rec12 * (h t).modOut ∧
      sig (fun i => (h i).dampLine) t = (h t).modOut - (c t).rec12 * sig (fun i => (h i).modLine) t := by
  rw [sig_nat, sig_nat]
  constructor
  · rw [(R.step t ht).modLine, Function.update_self]
    simp only [driven, diffused, Int.toNat_natCast]
  · rw [(R.step t ht).dampLine, Function.update_self]

/-- While the crossfade lasts. -/
theorem early_N {c1 ρ g : ℝ} (R : HalfRun M d1 d2 d3 d4 d dT pre c f inp fb h) (C : CalmR c1 ρ g c) (hg : g < 1) {F : ℕ} {T : ℤ}
    (FI : FadedIn F T f) {n : ℕ} (hn : n ≤ M) (hF : n ≤ F) :
    N n (sig fun i => (h i).modLine) ≤ N n (driven c fb h) / (1 - g) := by
  have g0 : 0 ≤ g := (C.rec12 0).1.trans (C.rec12 0).2
  have h1 : N n (fun t => (h t.toNat).modOut) ≤ N n (sig fun i => (h i).modLine) := by
    refine le_trans (N_mono fun t ht => ?_) (N_shift n (d := 1) (by norm_num) (sig_neg _))
    obtain ⟨m, m0, m1, -, e⟩ := mod_held R FI (t := t) (by omega)
    simp only [Int.toNat_natCast]
    rw [e, sig_neg _ (t - (T + 1)) (by have := FI.far; omega), mul_zero, add_zero, abs_mul, abs_of_nonneg (sub_nonneg.2 m1)]
    exact mul_le_of_le_one_left (abs_nonneg _) (by linarith)
  have h2 : N n (sig fun i => (h i).modLine) ≤ N n (driven c fb h) + N n (fun t => (c t.toNat).rec12 * (h t.toNat).modOut) := by
    refine le_trans (le_of_eq (N_congr fun t ht => ?_)) (N_add n _ _)
    simp only [Int.toNat_natCast]
    exact (mod_line R (by omega)).1
  have h3 : N n (fun t => (c t.toNat).rec12 * (h t.toNat).modOut) ≤ g * N n (fun t => (h t.toNat).modOut) :=
    N_mul (a := fun t => (c t.toNat).rec12) g0 fun t _ => by
      simp only [Int.toNat_natCast]
      rw [abs_of_nonneg (C.rec12 t).1]
      exact (C.rec12 t).2
  rw [le_div_iff₀ (by linarith)]
  have := mul_le_mul_of_nonneg_left h1 g0
  linarith

/-- The first allpass of the tank, with the crossfade of its delay. -/
theorem tank_N {c1 ρ g : ℝ} (R : HalfRun M d1 d2 d3 d4 d dT pre c f inp fb h) (C : CalmR c1 ρ g c) (hg : g < 1) {F : ℕ} {T : ℤ}
    (FI : FadedIn F T f) {n : ℕ} (hn : n ≤ M) :
    N n (sig fun i => (h i).dampLine) ≤ N n (driven c fb h) + N (min n F) (driven c fb h) / (1 - g) := by
  have hT : 0 ≤ T := le_trans (by omega) FI.far
  obtain ⟨V, hV⟩ : ∃ V, V = sig fun i => (h i).modLine := ⟨_, rfl⟩
  have V0 : ∀ t, t < 0 → V t = 0 := by rw [hV]; exact sig_neg _
  have a0 : ∀ t, 0 ≤ 1 - (c t).rec12 ^ 2 ∧ 1 - (c t).rec12 ^ 2 ≤ 1 := fun t =>
    ⟨by nlinarith [(C.rec12 t).1, (C.rec12 t).2], by nlinarith [(C.rec12 t).1]⟩
  have am : Antitone fun t => 1 - (c t).rec12 ^ 2 := fun a b hab => by
    have := pow_mono (fun t => (C.rec12 t).1) C.rec12m hab
    dsimp only at this ⊢
    linarith
  have extra : ∑ t ∈ Finset.range n, (1 - (c t).rec12 ^ 2) * (h t).modOut ^ 2 ≤
      ∑ t ∈ Finset.range n, (1 - (c t).rec12 ^ 2) * V t ^ 2 + E (min n F) V := by
    have s1 := shift_sum n (T + 1).toNat (fun t => (a0 t).1) am V0
    have s2 := E_shift (min n F) 1 V0
    have s3 : ∑ t ∈ Finset.range n, (1 - (c t).rec12 ^ 2) * (h t).modOut ^ 2 ≤
        ∑ t ∈ Finset.range n, (1 - (c t).rec12 ^ 2) * V (t - (T + 1).toNat) ^ 2 +
          ∑ t ∈ Finset.range n, if t < F then V (t - 1) ^ 2 else 0 := by
      rw [← Finset.sum_add_distrib]
      refine Finset.sum_le_sum fun t ht => ?_
      have ht := Finset.mem_range.1 ht
      obtain ⟨m, m0, m1, mF, e⟩ := mod_held R FI (t := t) (by omega)
      rw [← hV] at e
      rw [e, Int.toNat_of_nonneg (show 0 ≤ T + 1 by omega)]
      have a := a0 t
      generalize V (t - (T + 1)) = x at *
      generalize V (t - 1) = y at *
      generalize 1 - (c t).rec12 ^ 2 = w at *
      have conv : ((1 - m) * y + m * x) ^ 2 ≤ (1 - m) * y ^ 2 + m * x ^ 2 := by nlinarith [mul_nonneg (mul_nonneg m0 (sub_nonneg.2 m1)) (sq_nonneg (x - y))]
      have h1 := mul_le_mul_of_nonneg_left conv a.1
      have h2 : w * (m * x ^ 2) ≤ w * x ^ 2 := mul_le_mul_of_nonneg_left (mul_le_of_le_one_left (sq_nonneg x) m1) a.1
      split_ifs with hF
      · have h3 : w * ((1 - m) * y ^ 2) ≤ y ^ 2 := by
          rw [← mul_assoc]
          exact mul_le_of_le_one_left (sq_nonneg y) (mul_le_one₀ a.2 (sub_nonneg.2 m1) (by linarith))
        linarith
      · rw [mF (by omega)] at h1 h2 ⊢
        linarith
    have s4 : (∑ t ∈ Finset.range n, if t < F then V (t - 1) ^ 2 else 0) = E (min n F) (fun t => V (t - (1 : ℕ))) := by
      unfold E
      rw [← Finset.sum_filter]
      refine Finset.sum_congr ?_ fun t _ => by rw [Nat.cast_one]
      ext t
      simp only [Finset.mem_filter, Finset.mem_range, lt_min_iff]
    rw [s4] at s3
    linarith
  have h1 := allpass_E (n := n) (g := fun t => (c t).rec12) (u := driven c fb h) (v := V) (w := fun t => (h t.toNat).modOut)
    (y := sig fun i => (h i).dampLine) (X := E (min n F) V)
    (fun t ht => by rw [hV]; simp only [Int.toNat_natCast]; exact (mod_line R (by omega)).1)
    (fun t ht => by rw [hV]; simp only [Int.toNat_natCast]; exact (mod_line R (by omega)).2)
    (by simpa only [Int.toNat_natCast] using extra)
  have h2 := early_N R C hg FI (n := min n F) (by omega) (by omega)
  rw [← hV] at h2
  have h3 : N n (sig fun i => (h i).dampLine) ≤ N n (driven c fb h) + N (min n F) V := by
    refine Real.sqrt_le_iff.2 ⟨add_nonneg (N_nonneg _ _) (N_nonneg _ _), h1.trans ?_⟩
    rw [← N_sq, ← N_sq]
    nlinarith [N_nonneg n (driven c fb h), N_nonneg (min n F) V, mul_nonneg (N_nonneg n (driven c fb h)) (N_nonneg (min n F) V)]
  linarith

end

/-! ### Both halves -/

section
variable {M : ℕ} {a1 a2 a3 a4 a5 a6 b1 b2 b3 b4 b5 b6 : ℤ} {pre : ℕ → ℤ} {c : ℕ → Ctrl ℝ} {fr fl : ℕ → Fade ℝ} {xr xl : ℕ → ℝ}
  {r l : ℕ → Half (ℤ → ℝ) ℝ}

/-- What enters one half of the tank: while the crossfade lasts only what comes from the diffusers, and later also what the other half
feeds back. -/
theorem driven_N {c1 ρ g : ℝ} (C : CalmR c1 ρ g c) (hρ : 0 ≤ ρ) {A : ℕ → ℤ → ℝ} {D : ℤ} (hD : 0 ≤ D) {F : ℕ} (hF : F ≤ D)
    (h : ℕ → Half (ℤ → ℝ) ℝ) (n : ℕ) :
    N n (driven c (fun t => sig A (t - D)) h) ≤ N n (diffused c h) + ρ * N n (sig A) ∧
      N (min n F) (driven c (fun t => sig A (t - D)) h) ≤ N n (diffused c h) := by
  constructor
  · refine (N_add n _ _).trans (add_le_add_right ?_ _)
    refine (N_mul (a := fun t => (c t.toNat).rec29) hρ fun t _ => ?_).trans (mul_le_mul_of_nonneg_left ?_ hρ)
    · simp only [Int.toNat_natCast]
      rw [abs_of_nonneg (C.rec29 t).1]
      exact (C.rec29 t).2
    · refine le_trans (le_of_eq (N_congr fun t _ => ?_)) (N_shift n hD (sig_neg A))
      rw [Int.toNat_natCast]
  · refine le_trans (le_of_eq (N_congr fun t ht => ?_)) (N_le_of_le (min_le_left n F) _)
    simp only [driven, Int.toNat_natCast]
    rw [sig_neg A _ (by omega), mul_zero, add_zero]

/-- How much energy circulates in both halves together, if the first allpass of either half has the gain `G`, and `H` more while its
crossfade lasts. -/
theorem tanks_N {c1 ρ g G H : ℝ} {D D' : ℤ}
    (Rr : HalfRun M a1 a2 a3 a4 a5 a6 pre c fr xr (fun t => sig (fun i => (l i).outA) (t - D)) r)
    (Rl : HalfRun M b1 b2 b3 b4 b5 b6 pre c fl xl (fun t => sig (fun i => (r i).outA) (t - D')) l)
    (C : CalmR c1 ρ g c) (hρ : 0 ≤ ρ) (hG : 0 ≤ G) (hH : 0 ≤ H) (hκ : ρ ^ 2 * G * gam c1 < 1) {F : ℕ} (hD : F ≤ D) (hD' : F ≤ D') {n : ℕ}
    (hn : n ≤ M)
    (y1 : N n (sig fun i => (r i).dampLine) ≤ G * N n (driven c (fun t => sig (fun i => (l i).outA) (t - D)) r) +
      H * N (min n F) (driven c (fun t => sig (fun i => (l i).outA) (t - D)) r))
    (y2 : N n (sig fun i => (l i).dampLine) ≤ G * N n (driven c (fun t => sig (fun i => (r i).outA) (t - D')) l) +
      H * N (min n F) (driven c (fun t => sig (fun i => (r i).outA) (t - D')) l)) :
    N n (sig fun i => (r i).dampLine) + N n (sig fun i => (l i).dampLine) ≤
      (G + H) / (1 - ρ ^ 2 * G * gam c1) * (gam c1 * (1 + gam c1)) * (N n (heardIn pre r) + N n (heardIn pre l)) := by
  obtain ⟨u1, u2⟩ := driven_N C hρ (A := fun i => (l i).outA) (D := D) (le_trans (by omega) hD) hD r n
  obtain ⟨w1, w2⟩ := driven_N C hρ (A := fun i => (r i).outA) (D := D') (le_trans (by omega) hD') hD' l n
  have p1 := (damped_N Rr C hρ hn).2
  have p2 := (damped_N Rl C hρ hn).2
  have i1 := input_N Rr C hn
  have i2 := input_N Rl C hn
  have q1 := mul_le_mul_of_nonneg_left u2 hH
  have q2 := mul_le_mul_of_nonneg_left w2 hH
  have t1 := mul_le_mul_of_nonneg_left u1 hG
  have t2 := mul_le_mul_of_nonneg_left w1 hG
  have m1 := mul_le_mul_of_nonneg_left p1 (mul_nonneg hG hρ)
  have m2 := mul_le_mul_of_nonneg_left p2 (mul_nonneg hG hρ)
  have hk : 0 < 1 - ρ ^ 2 * G * gam c1 := by linarith
  have key : (N n (sig fun i => (r i).dampLine) + N n (sig fun i => (l i).dampLine)) * (1 - ρ ^ 2 * G * gam c1) ≤
      (G + H) * (N n (diffused c r) + N n (diffused c l)) := by
    have e : (G + H) * (N n (diffused c r) + N n (diffused c l)) =
        G * N n (diffused c r) + G * N n (diffused c l) + (H * N n (diffused c r) + H * N n (diffused c l)) := by ring
    rw [e]
    linarith
  have key2 := key.trans (mul_le_mul_of_nonneg_left (add_le_add i1 i2) (add_nonneg hG hH))
  have e : (G + H) / (1 - ρ ^ 2 * G * gam c1) * (gam c1 * (1 + gam c1)) * (N n (heardIn pre r) + N n (heardIn pre l)) =
      (G + H) * (gam c1 * (1 + gam c1) * N n (heardIn pre r) + gam c1 * (1 + gam c1) * N n (heardIn pre l)) /
        (1 - ρ ^ 2 * G * gam c1) := by ring
  rw [e, le_div_iff₀ hk]
  exact key2

/-- Seven taps. -/
theorem taps_N {A B C D E F G : ℤ → ℝ} (hA : ∀ t, t < 0 → A t = 0) (hB : ∀ t, t < 0 → B t = 0) (hC : ∀ t, t < 0 → C t = 0)
    (hD : ∀ t, t < 0 → D t = 0) (hE : ∀ t, t < 0 → E t = 0) (hF : ∀ t, t < 0 → F t = 0) (hG : ∀ t, t < 0 → G t = 0)
    {a b c d e f g : ℤ} (ha : 0 ≤ a) (hb : 0 ≤ b) (hc : 0 ≤ c) (hd : 0 ≤ d) (he : 0 ≤ e) (hf : 0 ≤ f) (hg : 0 ≤ g) (n : ℕ) :
    N n (fun t => 0.6 * (A (t - a) + B (t - b) + C (t - c) - (D (t - d) + E (t - e) + F (t - f) + G (t - g)))) ≤
      0.6 * (N n A + N n B + N n C + (N n D + N n E + N n F + N n G)) := by
  have neg : ∀ f : ℤ → ℝ, N n (fun t => -f t) = N n f := fun f =>
    le_antisymm (N_mono fun t _ => by rw [abs_neg]) (N_mono fun t _ => by rw [abs_neg])
  refine (N_mul (a := fun _ => 0.6) (c := 0.6) (by norm_num) fun t _ => by rw [abs_of_pos (by norm_num)]).trans
    (mul_le_mul_of_nonneg_left ?_ (by norm_num))
  simp only [sub_eq_add_neg (A (_ - a) + _ + _)]
  refine (N_add n _ _).trans ?_
  rw [neg]
  refine add_le_add ((N_add n _ _).trans (add_le_add ((N_add n _ _).trans (add_le_add ?_ ?_)) ?_))
    ((N_add n _ _).trans (add_le_add ((N_add n _ _).trans (add_le_add ((N_add n _ _).trans (add_le_add ?_ ?_)) ?_)) ?_))
  · exact N_shift n ha hA
  · exact N_shift n hb hB
  · exact N_shift n hc hC
  · exact N_shift n hd hD
  · exact N_shift n he hE
  · exact N_shift n hf hF
  · exact N_shift n hg hG

end

end Verif.FVerbDSP
