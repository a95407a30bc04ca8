import Verif.Props.RKLadder
import Verif.Props.LadderSetters
import Verif.Lemmas.RealArith
import Verif.Lemmas.SinValue
import Mathlib.Tactic.Positivity

/-!
# C51: the saturating ladders never blow up
-/

namespace Verif

open Arith FP

/-! ## Specification: calls on a ladder and what comes out -/

/-- Calls a user can make on a ladder after `init`. -/
inductive LadderCall (α : Type)
  | setCutoff (c : α)
  | setResonance (r : α)
  | reset
  | tick (x : α)

/-- The functions of a ladder. -/
structure LadderApi (σ α : Type) where
  setCutoff : α → σ → σ
  setResonance : α → σ → σ
  reset : σ → σ
  tick : σ → α → σ × α

/-- The samples returned by the `tick`s of a list of calls. -/
def LadderApi.play {σ α : Type} (A : LadderApi σ α) : σ → List (LadderCall α) → List α
  | _, [] => []
  | s, .setCutoff c :: l => A.play (A.setCutoff c s) l
  | s, .setResonance r :: l => A.play (A.setResonance r s) l
  | s, .reset :: l => A.play (A.reset s) l
  | s, .tick x :: l => (A.tick s x).2 :: A.play (A.tick s x).1 l

/-- Every cutoff set in the list satisfies `P`. -/
def CutoffsIn {α : Type} (P : α → Prop) (l : List (LadderCall α)) : Prop := ∀ c, LadderCall.setCutoff c ∈ l → P c

/-- Every input sample in the list satisfies `P`. -/
def InputsIn {α : Type} (P : α → Prop) (l : List (LadderCall α)) : Prop := ∀ x, LadderCall.tick x ∈ l → P x

theorem LadderApi.play_inv {σ α : Type} (A : LadderApi σ α) (I : σ → Prop) (P X Out : α → Prop)
    (hc : ∀ c s, P c → I s → I (A.setCutoff c s)) (hr : ∀ r s, I s → I (A.setResonance r s)) (h0 : ∀ s, I s → I (A.reset s))
    (ht : ∀ s x, X x → I s → I (A.tick s x).1 ∧ Out (A.tick s x).2) (l : List (LadderCall α)) (hl : CutoffsIn P l) (hX : InputsIn X l)
    (s : σ) (hs : I s) : ∀ y ∈ A.play s l, Out y := by
  induction l generalizing s with
  | nil => intro y hy; simp [LadderApi.play] at hy
  | cons a l ih =>
    have hl' : CutoffsIn P l := fun c h => hl c (List.mem_cons_of_mem _ h)
    have hX' : InputsIn X l := fun c h => hX c (List.mem_cons_of_mem _ h)
    cases a with
    | setCutoff c => exact ih hl' hX' _ (hc c s (hl c List.mem_cons_self) hs)
    | setResonance r => exact ih hl' hX' _ (hr r s hs)
    | reset => exact ih hl' hX' _ (h0 s hs)
    | tick x =>
      obtain ⟨h1, h2⟩ := ht s x (hX x List.mem_cons_self) hs
      intro y hy
      rcases List.mem_cons.1 hy with rfl | hy
      · exact h2
      · exact ih hl' hX' _ h1 y hy

/-! ## Krajeski -/

namespace Krajeski

/-- The Krajeski ladder. -/
def api {α β : Type} [Arith α] [Arith β] [Libm β] [Conv α β] [Conv β α] : LadderApi (Ladder α β) α :=
  ⟨setCutoff, setResonance, reset, tick⟩

/-- The frequency polynomial of `setCutoff`. -/
theorem g_le {w : ℝ} (h0 : 0 ≤ w) (h1 : w ≤ 3.15) :
    0 ≤ 0.9892 * w - 0.4342 * w ^ 2 + 0.1381 * w ^ 3 - 0.0202 * w ^ 4 ∧
    0.9892 * w - 0.4342 * w ^ 2 + 0.1381 * w ^ 3 - 0.0202 * w ^ 4 ≤ 7 / 6 := by
  constructor
  · have : 0 ≤ w * (0.9892 - 0.4342 * w + 0.1381 * w ^ 2 - 0.0202 * w ^ 3) := by
      refine mul_nonneg h0 ?_
      nlinarith [mul_nonneg h0 (sub_nonneg.2 h1), sq_nonneg (w - 2), mul_nonneg (mul_nonneg h0 h0) (sub_nonneg.2 h1)]
    nlinarith
  · nlinarith [sq_nonneg (w - 2.87), sq_nonneg (w ^ 2 - 3.42 * w + 1.5), mul_nonneg h0 (sub_nonneg.2 h1), sq_nonneg (w * (w - 2.87)),
      sq_nonneg (w ^ 2 - 2.87 * w)]

theorem g_le_one {w : ℝ} (h0 : 0 ≤ w) (h1 : w ≤ 1.89) : 0.9892 * w - 0.4342 * w ^ 2 + 0.1381 * w ^ 3 - 0.0202 * w ^ 4 ≤ 1 := by
  nlinarith [sq_nonneg (w - 1.89), mul_nonneg h0 (sub_nonneg.2 h1), mul_nonneg (mul_nonneg h0 h0) (sub_nonneg.2 h1),
    mul_nonneg (mul_nonneg h0 (sub_nonneg.2 h1)) (sub_nonneg.2 h1)]

theorem fclamp_real {x lo hi : ℝ} (h1 : lo ≤ x) (h2 : x ≤ hi) : fclamp x lo hi = x := by
  simp only [fclamp, cFmin, cFmax, real_arith]
  simp [not_lt.2 h1, not_lt.2 h2]

/-- `B` absorbs a one-pole step with a gain of up to `G`. -/
def Absorbs (G B : ℝ) : Prop := 1 ≤ B ∧ B ≤ 2 ∧ ∀ g, 0 ≤ g → g ≤ G → |1 - g| * B + g ≤ B

theorem absorbs_one : Absorbs 1 1 := by
  refine ⟨le_rfl, by norm_num, fun g h0 h1 => ?_⟩
  rw [abs_of_nonneg (by linarith)]; linarith

theorem absorbs_nyquist : Absorbs (7 / 6) 1.4 := by
  refine ⟨by norm_num, by norm_num, fun g h0 h1 => ?_⟩
  rcases le_total g 1 with h | h
  · rw [abs_of_nonneg (by linarith)]; linarith
  · rw [abs_of_nonpos (by linarith)]; linarith

theorem stage_le {G B g si di sn M : ℝ} (hB : Absorbs G B) (g0 : 0 ≤ g) (g1 : g ≤ G) (hM : M ≤ 1000) (h1 : |si| ≤ M) (h2 : |di| ≤ M)
    (h3 : |sn| ≤ M * B) : |stage g si di sn| ≤ M * B := by
  have hM0 : 0 ≤ M := (abs_nonneg _).trans h1
  have h := hB.2.2 g g0 g1
  have hw : |0.3 / 1.3 * si + 1 / 1.3 * di| ≤ M := by
    rw [abs_le] at *
    constructor <;> norm_num <;> linarith [h1.1, h1.2, h2.1, h2.2]
  have key : |g * (0.3 / 1.3 * si + 1 / 1.3 * di - sn) + sn| ≤ M * B := by
    have e : g * (0.3 / 1.3 * si + 1 / 1.3 * di - sn) + sn = (1 - g) * sn + g * (0.3 / 1.3 * si + 1 / 1.3 * di) := by ring
    rw [e]
    calc |(1 - g) * sn + g * (0.3 / 1.3 * si + 1 / 1.3 * di)| ≤ |(1 - g) * sn| + |g * (0.3 / 1.3 * si + 1 / 1.3 * di)| :=
          abs_add_le _ _
      _ ≤ |1 - g| * (M * B) + g * M := by
          rw [abs_mul, abs_mul, abs_of_nonneg g0]
          exact add_le_add (mul_le_mul_of_nonneg_left h3 (abs_nonneg _)) (mul_le_mul_of_nonneg_left hw g0)
      _ = M * (|1 - g| * B + g) := by ring
      _ ≤ M * B := mul_le_mul_of_nonneg_left h hM0
  have hMB : M * B ≤ 2000 := by nlinarith [hB.1, hB.2.1]
  have k := abs_le.1 key
  unfold stage
  simp only [real_arith]
  push_cast
  rw [fclamp_real (by norm_num at *; linarith [k.1]) (by norm_num at *; linarith [k.2])]
  exact key

/-- The invariant: the coefficient is at most `G` and stage `i` is at most `B ^ i`. -/
structure Bdd (sr G B : ℝ) (s : Ladder ℝ ℝ) : Prop where
  rate : s.sampleRate = sr
  g0 : 0 ≤ s.g
  g1 : s.g ≤ G
  s1 : |s.s1| ≤ B
  s2 : |s.s2| ≤ B ^ 2
  s3 : |s.s3| ≤ B ^ 3
  s4 : |s.s4| ≤ B ^ 4
  d0 : |s.d0| ≤ 1
  d1 : |s.d1| ≤ B
  d2 : |s.d2| ≤ B ^ 2
  d3 : |s.d3| ≤ B ^ 3

theorem tick_bdd {sr G B : ℝ} (hB : Absorbs G B) (s : Ladder ℝ ℝ) (x : ℝ) (h : Bdd sr G B s) :
    Bdd sr G B (tick s x).1 ∧ |(tick s x).2| ≤ B ^ 4 := by
  have b1 := hB.1
  have b2 := hB.2.1
  have p2 : B ^ 2 ≤ 4 := by nlinarith
  have p3 : B ^ 3 ≤ 8 := by nlinarith [sq_nonneg B]
  obtain ⟨x0, hx0⟩ : ∃ v, v = Libm.tanh (s.drive * (x - lit 4 * s.gRes * (s.s4 - s.gComp * x))) := ⟨_, rfl⟩
  have t0 : |x0| ≤ 1 := by
    rw [hx0]
    simp only [real_arith]
    exact abs_le.2 ⟨(Real.neg_one_lt_tanh _).le, (Real.tanh_lt_one _).le⟩
  have t1 := stage_le hB h.g0 h.g1 (by norm_num) t0 h.d0 (by rw [one_mul]; exact h.s1)
  rw [one_mul] at t1
  have t2 := stage_le hB h.g0 h.g1 (by linarith) t1 h.d1 (by have := h.s2; rwa [pow_two] at this)
  rw [← pow_two] at t2
  have t3 := stage_le hB h.g0 h.g1 (by linarith) t2 h.d2 (by rw [show B ^ 2 * B = B ^ 3 by ring]; exact h.s3)
  rw [show B ^ 2 * B = B ^ 3 by ring] at t3
  have t4 := stage_le hB h.g0 h.g1 (by linarith) t3 h.d3 (by rw [show B ^ 3 * B = B ^ 4 by ring]; exact h.s4)
  rw [show B ^ 3 * B = B ^ 4 by ring] at t4
  subst hx0
  exact ⟨⟨h.rate, h.g0, h.g1, t1, t2, t3, t4, t0, t1, t2, t3⟩, t4⟩

theorem setCutoff_g (c : ℝ) (s : Ladder ℝ ℝ) :
    ∃ w : ℝ, w = 2 * 3.14159265358979323846 * c / s.sampleRate ∧
      (setCutoff c s).g = 0.9892 * w - 0.4342 * w ^ 2 + 0.1381 * w ^ 3 - 0.0202 * w ^ 4 := by
  refine ⟨_, rfl, ?_⟩
  simp only [setCutoff, PI, Conv.conv, id, real_arith]
  push_cast
  have e2 : ∀ w : ℝ, w ^ (2:ℝ) = w ^ 2 := fun w => by exact_mod_cast Real.rpow_natCast w 2
  have e3 : ∀ w : ℝ, w ^ (3:ℝ) = w ^ 3 := fun w => by exact_mod_cast Real.rpow_natCast w 3
  have e4 : ∀ w : ℝ, w ^ (4:ℝ) = w ^ 4 := fun w => by exact_mod_cast Real.rpow_natCast w 4
  rw [e2, e3, e4]

theorem play_bdd {sr G B : ℝ} (hB : Absorbs G B) (P : ℝ → Prop)
    (hP : ∀ c, P c → ∀ w : ℝ, w = 2 * 3.14159265358979323846 * c / sr →
      0 ≤ 0.9892 * w - 0.4342 * w ^ 2 + 0.1381 * w ^ 3 - 0.0202 * w ^ 4 ∧
      0.9892 * w - 0.4342 * w ^ 2 + 0.1381 * w ^ 3 - 0.0202 * w ^ 4 ≤ G)
    (h1000 : P 1000) (s0 : Ladder ℝ ℝ) (l : List (LadderCall ℝ)) (hl : CutoffsIn P l) :
    ∀ y ∈ api.play (init sr s0) l, |y| ≤ B ^ 4 := by
  have hB0 : 0 ≤ B := by linarith [hB.1]
  have hset : ∀ c s, P c → Bdd sr G B s → Bdd sr G B (setCutoff c s) := by
    intro c s hc h
    obtain ⟨w, hw, e⟩ := setCutoff_g c s
    rw [h.rate] at hw
    obtain ⟨a, b⟩ := hP c hc w hw
    exact ⟨h.rate, by rw [e]; exact a, by rw [e]; exact b, h.s1, h.s2, h.s3, h.s4, h.d0, h.d1, h.d2, h.d3⟩
  have z : ∀ b : ℝ, 0 ≤ b → |(lit 0 : ℝ)| ≤ b := by intro b hb; simp only [real_arith]; simpa using hb
  have hres : ∀ s, Bdd sr G B s → Bdd sr G B (reset s) := fun s h =>
    ⟨h.rate, h.g0, h.g1, z _ hB0, z _ (by positivity), z _ (by positivity), z _ (by positivity), z _ (by norm_num), z _ hB0,
      z _ (by positivity), z _ (by positivity)⟩
  refine LadderApi.play_inv api (Bdd sr G B) P (fun _ => True) (fun y => |y| ≤ B ^ 4) hset (fun r s h => ?_) hres (fun s x _ h => tick_bdd hB s x h) l hl
    (fun _ _ => trivial) _ ?_
  · exact ⟨h.rate, h.g0, h.g1, h.s1, h.s2, h.s3, h.s4, h.d0, h.d1, h.d2, h.d3⟩
  · have h0 : Bdd sr G B (setCutoff (lit 1000)
        { reset s0 with sampleRate := sr, drive := lit 1, gComp := lit 1, wc := lit 0, g := lit 0, gRes := lit 0 }) := by
      obtain ⟨w, hw, e⟩ := setCutoff_g (lit 1000)
        { reset s0 with sampleRate := sr, drive := lit 1, gComp := lit 1, wc := lit 0, g := lit 0, gRes := lit 0 }
      have e1 : (lit 1000 : ℝ) = 1000 := by simp only [real_arith]; norm_num
      rw [e1] at hw
      obtain ⟨a, b⟩ := hP 1000 h1000 w hw
      exact ⟨rfl, by rw [e]; exact a, by rw [e]; exact b, z _ hB0, z _ (by positivity), z _ (by positivity), z _ (by positivity),
        z _ (by norm_num), z _ hB0, z _ (by positivity), z _ (by positivity)⟩
    exact ⟨h0.rate, h0.g0, h0.g1, h0.s1, h0.s2, h0.s3, h0.s4, h0.d0, h0.d1, h0.d2, h0.d3⟩

/-- **C51, Krajeski** (ideal arithmetic): whatever is fed in, whatever the resonance, and however the cutoff moves between 0 and 0.3 of
the sample rate, no output sample exceeds 1; with cutoffs up to Nyquist none exceeds 3.85. -/
theorem C51_krajeski (sr : ℝ) (hsr : 0 < sr) (s0 : Ladder ℝ ℝ) (l : List (LadderCall ℝ)) :
    (1000 ≤ 0.3 * sr → CutoffsIn (fun c => 0 ≤ c ∧ c ≤ 0.3 * sr) l → ∀ y ∈ api.play (init sr s0) l, |y| ≤ 1) ∧
    (1000 ≤ sr / 2 → CutoffsIn (fun c => 0 ≤ c ∧ c ≤ sr / 2) l → ∀ y ∈ api.play (init sr s0) l, |y| ≤ 3.85) := by
  constructor
  · intro h1 hl y hy
    have := play_bdd absorbs_one (fun c => 0 ≤ c ∧ c ≤ 0.3 * sr) (fun c hc w hw => ?_) ⟨by norm_num, h1⟩ s0 l hl y hy
    · simpa using this
    · have w0 : 0 ≤ w := by rw [hw]; have := hc.1; positivity
      have w1 : w ≤ 1.89 := by rw [hw, div_le_iff₀ hsr]; norm_num at *; linarith [hc.2]
      exact ⟨(g_le w0 (by norm_num at *; linarith)).1, g_le_one w0 w1⟩
  · intro h1 hl y hy
    have := play_bdd absorbs_nyquist (fun c => 0 ≤ c ∧ c ≤ sr / 2) (fun c hc w hw => ?_) ⟨by norm_num, h1⟩ s0 l hl y hy
    · refine this.trans (by norm_num)
    · have w0 : 0 ≤ w := by rw [hw]; have := hc.1; positivity
      have w1 : w ≤ 3.15 := by rw [hw, div_le_iff₀ hsr]; norm_num at *; linarith [hc.2]
      exact g_le w0 w1

/-- Concrete case: at 48 kHz, full resonance, cutoff 14.4 kHz and an input of a million. -/
example : CutoffsIn (fun c : ℝ => 0 ≤ c ∧ c ≤ 0.3 * 48000) [.setResonance 1, .setCutoff 14400, .tick 1000000, .tick (-1000000)] := by
  intro c hc
  simp only [List.mem_cons, reduceCtorEq, false_or, LadderCall.setCutoff.injEq, List.not_mem_nil, or_false] at hc
  subst hc
  norm_num

end Krajeski

/-! ## Oberheim -/

namespace Oberheim

/-- The Oberheim ladder. -/
def api {α β : Type} [Arith α] [Arith β] [Libm β] [Conv α β] [Conv β α] : LadderApi (Ladder α β) α :=
  ⟨setCutoff, setResonance, reset, tick⟩

/-- The invariant of one pole: the constants of `init`, a gain `g / (1 + g)` with `g ≤ B`, and a bounded state. -/
structure PoleBdd (B M : ℝ) (f : OnePole ℝ) : Prop where
  gamma : f.gamma = 1
  feedback : f.feedback = 0
  epsilon : f.epsilon = 0
  a0 : f.a0 = 1
  alpha0 : 0 ≤ f.alpha
  alpha1 : f.alpha ≤ 1
  alphaB : f.alpha ≤ (1 - f.alpha) * B
  z : |f.z1| ≤ M * B

theorem pole_bdd {B M x : ℝ} {f : OnePole ℝ} (hB : 1 ≤ B) (h : PoleBdd B M f) (hx : |x| ≤ M) :
    PoleBdd B M (f.tick x).1 ∧ |(f.tick x).2| ≤ M * B := by
  have hM : 0 ≤ M := (abs_nonneg _).trans hx
  have e1 : (f.tick x).2 = (1 - f.alpha) * f.z1 + f.alpha * x := by
    simp only [OnePole.tick, OnePole.feedbackOutput, h.gamma, h.feedback, h.epsilon, h.a0, real_arith]; ring
  have e2 : (f.tick x).1 = { f with z1 := (1 - 2 * f.alpha) * f.z1 + 2 * f.alpha * x } := by
    simp only [OnePole.tick, OnePole.feedbackOutput, h.gamma, h.feedback, h.epsilon, h.a0, real_arith]
    congr 1; ring
  have a0 := h.alpha0
  have a1 := h.alpha1
  have aB := h.alphaB
  have hz := h.z
  have hMB : M ≤ M * B := by nlinarith
  rw [e2, e1]
  refine ⟨⟨h.gamma, h.feedback, h.epsilon, h.a0, a0, a1, aB, ?_⟩, ?_⟩
  · calc |(1 - 2 * f.alpha) * f.z1 + 2 * f.alpha * x| ≤ |(1 - 2 * f.alpha) * f.z1| + |2 * f.alpha * x| := abs_add_le _ _
      _ ≤ |1 - 2 * f.alpha| * (M * B) + 2 * f.alpha * M := by
          rw [abs_mul, abs_mul, abs_of_nonneg (by linarith : 0 ≤ 2 * f.alpha)]
          exact add_le_add (mul_le_mul_of_nonneg_left hz (abs_nonneg _)) (mul_le_mul_of_nonneg_left hx (by linarith))
      _ ≤ M * B := by
          rcases le_total (2 * f.alpha) 1 with h | h
          · rw [abs_of_nonneg (by linarith)]; nlinarith
          · rw [abs_of_nonpos (by linarith)]
            have := mul_le_mul_of_nonneg_left aB hM
            nlinarith
  · calc |(1 - f.alpha) * f.z1 + f.alpha * x| ≤ |(1 - f.alpha) * f.z1| + |f.alpha * x| := abs_add_le _ _
      _ ≤ (1 - f.alpha) * (M * B) + f.alpha * M := by
          rw [abs_mul, abs_mul, abs_of_nonneg a0, abs_of_nonneg (by linarith : 0 ≤ 1 - f.alpha)]
          exact add_le_add (mul_le_mul_of_nonneg_left hz (by linarith)) (mul_le_mul_of_nonneg_left hx a0)
      _ ≤ M * B := by nlinarith

/-- The invariant of the ladder. -/
structure Bdd (sr B : ℝ) (s : Ladder ℝ ℝ) : Prop where
  rate : s.sampleRate = sr
  K : 0 ≤ s.K
  c0 : s.c0 = 0
  c1 : s.c1 = 0
  c2 : s.c2 = 0
  c3 : s.c3 = 0
  c4 : s.c4 = 1
  f0 : PoleBdd B 1 s.f0
  f1 : PoleBdd B B s.f1
  f2 : PoleBdd B (B ^ 2) s.f2
  f3 : PoleBdd B (B ^ 3) s.f3

theorem tick_bdd {sr B : ℝ} (hB : 1 ≤ B) (s : Ladder ℝ ℝ) (x : ℝ) (h : Bdd sr B s) :
    Bdd sr B (tick s x).1 ∧ |(tick s x).2| ≤ B ^ 4 := by
  obtain ⟨u, hu⟩ : ∃ u, u = Libm.tanh (s.saturation * ((Conv.conv x * (lit 1 + s.K) - s.K * (s.f0.feedbackOutput + s.f1.feedbackOutput +
    s.f2.feedbackOutput + s.f3.feedbackOutput)) * s.alpha0)) := ⟨_, rfl⟩
  have t0 : |u| ≤ 1 := by
    rw [hu]
    simp only [real_arith]
    exact abs_le.2 ⟨(Real.neg_one_lt_tanh _).le, (Real.tanh_lt_one _).le⟩
  obtain ⟨i0, t1⟩ := pole_bdd hB h.f0 t0
  rw [one_mul] at t1
  obtain ⟨i1, t2⟩ := pole_bdd hB h.f1 t1
  rw [← pow_two] at t2
  obtain ⟨i2, t3⟩ := pole_bdd hB h.f2 t2
  rw [show B ^ 2 * B = B ^ 3 by ring] at t3
  obtain ⟨i3, t4⟩ := pole_bdd hB h.f3 t3
  rw [show B ^ 3 * B = B ^ 4 by ring] at t4
  have e2 : (tick s x).2 = ((s.f3.tick ((s.f2.tick ((s.f1.tick ((s.f0.tick u).2)).2)).2)).2) := by
    simp only [tick, h.c0, h.c1, h.c2, h.c3, h.c4, ← hu]
    simp only [Conv.conv, id, real_arith]
    ring
  have e1 : (tick s x).1 = { s with f0 := (s.f0.tick u).1, f1 := (s.f1.tick ((s.f0.tick u).2)).1,
                                    f2 := (s.f2.tick ((s.f1.tick ((s.f0.tick u).2)).2)).1,
                                    f3 := (s.f3.tick ((s.f2.tick ((s.f1.tick ((s.f0.tick u).2)).2)).2)).1 } := by
    simp only [tick, ← hu]
  rw [e1, e2]
  exact ⟨⟨h.rate, h.K, h.c0, h.c1, h.c2, h.c3, h.c4, i0, i1, i2, i3⟩, t4⟩

theorem setCutoff_bdd {sr B c : ℝ} (hsr : 0 < sr) (h0 : 0 ≤ c) (h1 : c ≤ 0.4999 * sr)
    (hg : Real.tan (3.14159265358979323846 * c / sr) ≤ B) (s : Ladder ℝ ℝ) (h : Bdd sr B s) : Bdd sr B (setCutoff c s) := by
  have hr := h.rate
  obtain ⟨⟨g0, ea⟩, a0, a1, -⟩ := C45_oberheim_divisor c s (by rw [hr]; exact hsr) h0 (by rw [hr]; exact h1) h.K
  rw [hr] at g0 ea
  have ePI : (PI : ℝ) = 3.14159265358979323846 := by simp only [PI, real_arith]; norm_num
  rw [ePI] at g0 ea
  set g := Real.tan (3.14159265358979323846 * c / sr)
  have aB : (setCutoff c s).f0.alpha ≤ (1 - (setCutoff c s).f0.alpha) * B := by
    rw [ea]
    have hp : 0 < 1 + g := by linarith
    have e : 1 - g / (1 + g) = 1 / (1 + g) := by field_simp; ring
    rw [e, div_mul_eq_mul_div, one_mul, div_le_div_iff_of_pos_right hp]
    exact hg
  have up : ∀ M (f f' : OnePole ℝ), PoleBdd B M f → f' = { f with alpha := f'.alpha, beta := f'.beta } →
      f'.alpha = (setCutoff c s).f0.alpha → PoleBdd B M f' := by
    intro M f f' hf e ea'
    have z : f'.z1 = f.z1 := by rw [e]
    exact ⟨by rw [e]; exact hf.gamma, by rw [e]; exact hf.feedback, by rw [e]; exact hf.epsilon, by rw [e]; exact hf.a0,
      by rw [ea']; exact a0, by rw [ea']; exact a1.le, by rw [ea']; exact aB, by rw [z]; exact hf.z⟩
  have z0 : (lit 0 : ℝ) = 0 := by simp only [real_arith]; norm_num
  have z1 : (lit 1 : ℝ) = 1 := by simp only [real_arith]; norm_num
  exact ⟨hr, h.K, z0, z0, z0, z0, z1, up _ _ _ h.f0 rfl rfl, up _ _ _ h.f1 rfl rfl, up _ _ _ h.f2 rfl rfl, up _ _ _ h.f3 rfl rfl⟩

theorem reset_pole {B M : ℝ} (hM : 0 ≤ M * B) {f : OnePole ℝ} (h : PoleBdd B M f) :
    PoleBdd B M { f with z1 := lit 0, feedback := lit 0 } := by
  have z0 : (lit 0 : ℝ) = 0 := by simp only [real_arith]; norm_num
  exact ⟨h.gamma, z0, h.epsilon, h.a0, h.alpha0, h.alpha1, h.alphaB, by
    show |(lit 0 : ℝ)| ≤ _
    rw [z0, abs_zero]; exact hM⟩

theorem K_nonneg (r : ℝ) : (0:ℝ) ≤ (lit 4 : ℝ) * (Conv.conv (clamp01 r) : ℝ) := by
  simp only [clamp01, Conv.conv, id, real_arith]; push_cast
  split_ifs <;> linarith

theorem setResonance_bdd {sr B : ℝ} (r : ℝ) (s : Ladder ℝ ℝ) (h : Bdd sr B s) : Bdd sr B (setResonance r s) :=
  ⟨h.rate, K_nonneg r, h.c0, h.c1, h.c2, h.c3, h.c4, h.f0, h.f1, h.f2, h.f3⟩

theorem init_bdd {sr B : ℝ} (hsr : 0 < sr) (hB : 1 ≤ B) (h1000 : 1000 ≤ 0.4999 * sr)
    (htan : Real.tan (3.14159265358979323846 * 1000 / sr) ≤ B) (s0 : Ladder ℝ ℝ) : Bdd sr B (init sr s0) := by
  have hB0 : 0 ≤ B := by linarith
  have z0 : (lit 0 : ℝ) = 0 := by simp only [real_arith]; norm_num
  have z1 : (lit 1 : ℝ) = 1 := by simp only [real_arith]; norm_num
  -- the state inside `init` before `setCutoff` has a pole gain of 1; `setCutoff` replaces it
  have e1000 : (lit 1000 : ℝ) = 1000 := by simp only [real_arith]; norm_num
  have hp : ∀ M, 0 ≤ M → PoleBdd B M { (OnePole.init : OnePole ℝ) with alpha := 0 } := by
    intro M hM
    refine ⟨z1, z0, z0, z1, le_rfl, zero_le_one, ?_, ?_⟩
    · show (0:ℝ) ≤ (1 - 0) * B
      linarith
    · show |(lit 0 : ℝ)| ≤ M * B
      rw [z0, abs_zero]; positivity
  have h1 : Bdd sr B (setCutoff 1000
      { s0 with sampleRate := sr, f0 := { (OnePole.init : OnePole ℝ) with alpha := 0 }, f1 := { (OnePole.init : OnePole ℝ) with alpha := 0 },
                f2 := { (OnePole.init : OnePole ℝ) with alpha := 0 }, f3 := { (OnePole.init : OnePole ℝ) with alpha := 0 },
                saturation := lit 1, K := lit 0, gamma := lit 0, alpha0 := lit 1,
                c0 := lit 0, c1 := lit 0, c2 := lit 0, c3 := lit 0, c4 := lit 1 }) :=
    setCutoff_bdd hsr (by norm_num) h1000 htan _
      ⟨rfl, z0.ge, z0, z0, z0, z0, z1, hp _ (by norm_num), hp _ hB0, hp _ (by positivity), hp _ (by positivity)⟩
  have h2 := h1.f0
  have h3 := h1.f1
  have h4 := h1.f2
  have h5 := h1.f3
  rw [← e1000] at h2 h3 h4 h5
  exact ⟨rfl, K_nonneg _, z0, z0, z0, z0, z1, h2, h3, h4, h5⟩

/-- **C51, Oberheim** (ideal arithmetic): whatever is fed in, whatever the resonance, and however the cutoff moves between 0 and `top`,
no output sample exceeds the fourth power of `max 1 (tan (π·top / sampleRate))`. -/
theorem C51_oberheim (sr top : ℝ) (hsr : 0 < sr) (h1000 : 1000 ≤ top) (htop : top ≤ 0.4999 * sr) (s0 : Ladder ℝ ℝ)
    (l : List (LadderCall ℝ)) (hl : CutoffsIn (fun c => 0 ≤ c ∧ c ≤ top) l) :
    ∀ y ∈ api.play (init sr s0) l, |y| ≤ max 1 (Real.tan (3.14159265358979323846 * top / sr)) ^ 4 := by
  set B := max 1 (Real.tan (3.14159265358979323846 * top / sr)) with hBd
  have hB : 1 ≤ B := le_max_left _ _
  have hB0 : 0 ≤ B := by linarith
  have htan : ∀ c, 0 ≤ c → c ≤ top → Real.tan (3.14159265358979323846 * c / sr) ≤ B := by
    intro c c0 c1
    refine le_trans ?_ (le_max_right _ _)
    have hpi := Real.pi_gt_d6
    have a0 : -(Real.pi / 2) < 3.14159265358979323846 * c / sr := by
      have : 0 ≤ 3.14159265358979323846 * c / sr := by positivity
      have := Real.pi_pos
      linarith
    have a1 : 3.14159265358979323846 * top / sr < Real.pi / 2 := by
      rw [div_lt_iff₀ hsr]; norm_num at *; nlinarith
    have a2 : 3.14159265358979323846 * c / sr ≤ 3.14159265358979323846 * top / sr := by
      rw [div_le_div_iff_of_pos_right hsr]; norm_num; linarith
    exact Real.strictMonoOn_tan.monotoneOn ⟨a0, a2.trans_lt a1⟩ ⟨a0.trans_le a2, a1⟩ a2
  have z0 : (lit 0 : ℝ) = 0 := by simp only [real_arith]; norm_num
  have z1 : (lit 1 : ℝ) = 1 := by simp only [real_arith]; norm_num
  refine LadderApi.play_inv api (Bdd sr B) (fun c => 0 ≤ c ∧ c ≤ top) (fun _ => True) (fun y => |y| ≤ B ^ 4)
    (fun c s hc h => setCutoff_bdd hsr hc.1 (hc.2.trans htop) (htan c hc.1 hc.2) s h) (fun r s h => ?_) (fun s h => ?_)
    (fun s x _ h => tick_bdd hB s x h) l hl (fun _ _ => trivial) _ ?_
  · exact setResonance_bdd r s h
  · exact ⟨h.rate, h.K, h.c0, h.c1, h.c2, h.c3, h.c4, reset_pole (by positivity) h.f0, reset_pole (by positivity) h.f1,
      reset_pole (by positivity) h.f2, reset_pole (by positivity) h.f3⟩
  · exact init_bdd hsr hB (h1000.trans htop) (htan _ (by norm_num) h1000) s0

theorem tan_quarter {sr c : ℝ} (hsr : 0 < sr) (h0 : 0 ≤ c) (h1 : c ≤ sr / 4) : Real.tan (3.14159265358979323846 * c / sr) ≤ 1 := by
  have hpi := Real.pi_gt_d20
  have a : 3.14159265358979323846 * c / sr ≤ 3.14159265358979323846 / 4 := by
    rw [div_le_iff₀ hsr]; norm_num at *; linarith
  have b : 0 ≤ 3.14159265358979323846 * c / sr := by positivity
  rw [← Real.tan_pi_div_four]
  refine Real.strictMonoOn_tan.monotoneOn ⟨?_, ?_⟩ ⟨?_, ?_⟩ ?_ <;> norm_num at * <;> linarith [Real.pi_pos]

/-- **C51, Oberheim**: with cutoffs up to a quarter of the sample rate the output never exceeds 1. -/
theorem C51_oberheim_unit (sr : ℝ) (hsr : 4000 ≤ sr) (s0 : Ladder ℝ ℝ) (l : List (LadderCall ℝ))
    (hl : CutoffsIn (fun c => 0 ≤ c ∧ c ≤ sr / 4) l) : ∀ y ∈ api.play (init sr s0) l, |y| ≤ 1 := by
  intro y hy
  have h := C51_oberheim sr (sr / 4) (by linarith) (by linarith) (by norm_num; linarith) s0 l hl y hy
  have hpi := Real.pi_gt_d20
  have e : 3.14159265358979323846 * (sr / 4) / sr = 3.14159265358979323846 / 4 := by field_simp
  have ht : Real.tan (3.14159265358979323846 * (sr / 4) / sr) ≤ 1 := by
    rw [e, ← Real.tan_pi_div_four]
    refine Real.strictMonoOn_tan.monotoneOn ⟨?_, ?_⟩ ⟨?_, ?_⟩ ?_ <;> norm_num at * <;> linarith [Real.pi_pos]
  rw [max_eq_left ht, one_pow] at h
  exact h

/-- Concrete case: at 48 kHz, full resonance and cutoff 12 kHz. -/
example : CutoffsIn (fun c : ℝ => 0 ≤ c ∧ c ≤ 48000 / 4) [.setResonance 1, .setCutoff 12000, .tick 1000000, .reset, .tick (-5)] := by
  intro c hc
  simp only [List.mem_cons, reduceCtorEq, false_or, LadderCall.setCutoff.injEq, List.not_mem_nil, or_false] at hc
  subst hc
  norm_num

end Oberheim

/-! ## Runge-Kutta -/

namespace RKSimulation

/-- Outputs of the `tick`s of a history (`exec` and `Op` are the calls of C47: all setters, `reset` and `tick`). -/
def play {α β : Type} [Arith α] [Arith β] [Libm β] [Conv α β] [Conv β α] : Ladder α β → List (Op α) → List α
  | _, [] => []
  | s, .tick x :: l => (tick s x).2 :: play (tick s x).1 l
  | s, op :: l => play (exec s op) l

/-- One coordinate of a Runge-Kutta step for `y' = w (a - f y)` with a saturating `f`: bounded whatever the drive `a` does. -/
theorem coord_bdd {f : ℝ → ℝ} (fb : ∀ y, |f y| ≤ 2) (fp : ∀ y, 3 ≤ y → f y = 2) (fm : ∀ y, y ≤ -3 → f y = -2) {w h W x : ℝ} (hw : 0 ≤ w)
    (hh : 0 ≤ h) (hW : w * h ≤ W) {d1 d2 d3 d4 : ℝ}
    (h1 : ∃ a, |a| ≤ 2 ∧ d1 = w * (a - f x)) (h2 : ∃ a, |a| ≤ 2 ∧ d2 = w * (a - f (x + 0.5 * h * d1)))
    (h3 : ∃ a, |a| ≤ 2 ∧ d3 = w * (a - f (x + 0.5 * h * d2))) (h4 : ∃ a, |a| ≤ 2 ∧ d4 = w * (a - f (x + h * d3)))
    (hx : |x| ≤ 3 + 8 * W) : |x + 1 / 6 * h * (d1 + 2 * d2 + 2 * d3 + d4)| ≤ 3 + 8 * W := by
  have hwh : 0 ≤ w * h := mul_nonneg hw hh
  -- every slope times the step is at most 4 W
  have sl : ∀ {d y : ℝ}, (∃ a, |a| ≤ 2 ∧ d = w * (a - f y)) → |h * d| ≤ 4 * W := by
    rintro d y ⟨a, ha, rfl⟩
    have e : h * (w * (a - f y)) = (w * h) * (a - f y) := by ring
    have hd : |a - f y| ≤ 4 := by
      have := abs_le.1 ha; have := abs_le.1 (fb y); rw [abs_le]; constructor <;> linarith
    rw [e, abs_mul, abs_of_nonneg hwh]
    calc w * h * |a - f y| ≤ w * h * 4 := mul_le_mul_of_nonneg_left hd hwh
      _ ≤ 4 * W := by linarith
  have s1 := abs_le.1 (sl h1)
  have s2 := abs_le.1 (sl h2)
  have s3 := abs_le.1 (sl h3)
  have s4 := abs_le.1 (sl h4)
  have up : ∀ {d y : ℝ}, (∃ a, |a| ≤ 2 ∧ d = w * (a - f y)) → 3 ≤ y → h * d ≤ 0 := by
    rintro d y ⟨a, ha, rfl⟩ hy
    rw [fp y hy]
    have : a - 2 ≤ 0 := by linarith [(abs_le.1 ha).2]
    nlinarith
  have dn : ∀ {d y : ℝ}, (∃ a, |a| ≤ 2 ∧ d = w * (a - f y)) → y ≤ -3 → 0 ≤ h * d := by
    rintro d y ⟨a, ha, rfl⟩ hy
    rw [fm y hy]
    have : 0 ≤ a - -2 := by linarith [(abs_le.1 ha).1]
    have e : h * (w * (a - -2)) = (w * h) * (a - -2) := by ring
    rw [e]; exact mul_nonneg hwh this
  have e : x + 1 / 6 * h * (d1 + 2 * d2 + 2 * d3 + d4) = x + (h * d1 + 2 * (h * d2) + 2 * (h * d3) + h * d4) / 6 := by ring
  have e2 : ∀ d : ℝ, 0.5 * h * d = h * d / 2 := fun d => by ring
  rw [e2] at h2 h3
  have hW0 : 0 ≤ W := hwh.trans hW
  have hx' := abs_le.1 hx
  rw [e, abs_le]
  by_cases c1 : 3 + 4 * W ≤ x
  · have u1 := up h1 (by linarith)
    have u2 := up h2 (by linarith)
    have u3 := up h3 (by linarith)
    have u4 := up h4 (by linarith)
    constructor <;> linarith
  · by_cases c2 : x ≤ -(3 + 4 * W)
    · have u1 := dn h1 (by linarith)
      have u2 := dn h2 (by linarith)
      have u3 := dn h3 (by linarith)
      have u4 := dn h4 (by linarith)
      constructor <;> linarith
    · push Not at c1 c2
      constructor <;> linarith

/-- The invariant. -/
structure Bdd (sr top : ℝ) (s : Ladder ℝ ℝ) : Prop where
  rate : s.sampleRate = sr
  sat : s.saturation = 3
  satInv : s.saturationInv = 1 / 3
  w0 : 0 ≤ s.cutoffCoeff
  w1 : s.cutoffCoeff ≤ 2 * 3.14159265358979323846 * top
  h0 : 0 ≤ s.stepSize
  h1 : s.stepSize ≤ 1 / sr
  m : |s.makeupGain| ≤ 5
  x0 : |s.state.x0| ≤ 3 + 8 * (2 * 3.14159265358979323846 * top / sr)
  x1 : |s.state.x1| ≤ 3 + 8 * (2 * 3.14159265358979323846 * top / sr)
  x2 : |s.state.x2| ≤ 3 + 8 * (2 * 3.14159265358979323846 * top / sr)
  x3 : |s.state.x3| ≤ 3 + 8 * (2 * 3.14159265358979323846 * top / sr)

theorem softClip_sat (y : ℝ) (h : 3 ≤ y) : softClip y = 2 := by
  unfold softClip
  rw [min_eq_left (by linarith), max_eq_right (by norm_num)]
  norm_num

theorem softClip_sat' (y : ℝ) (h : y ≤ -3) : softClip y = -2 := by
  have := softClip_sat (-y) (by linarith)
  rw [softClip_odd] at this
  linarith

theorem solver_bdd {sr top : ℝ} (i : ℝ) (s : Ladder ℝ ℝ) (h : Bdd sr top s) : Bdd sr top (solver i s) := by
  have hc : ∀ x, clip s x = softClip x := clip_ideal s h.sat h.satInv
  have hW : s.cutoffCoeff * s.stepSize ≤ 2 * 3.14159265358979323846 * top / sr := by
    calc s.cutoffCoeff * s.stepSize ≤ (2 * 3.14159265358979323846 * top) * (1 / sr) := by
          refine mul_le_mul h.w1 h.h1 h.h0 (h.w0.trans h.w1)
      _ = _ := by ring
  have c := fun {x d1 d2 d3 d4 : ℝ} => coord_bdd (f := softClip) (x := x) (d1 := d1) (d2 := d2) (d3 := d3) (d4 := d4)
    softClip_abs softClip_sat softClip_sat' h.w0 h.h0 hW
  have l1 : (lit 1 / lit 6 : ℝ) = 1 / 6 := by simp only [real_arith]; norm_num
  have l2 : (lit 2 : ℝ) = 2 := by simp only [real_arith]; norm_num
  have l5 : (lit 0.5 : ℝ) = 0.5 := by simp only [real_arith]; norm_num
  have hd0 : ∀ v : Vec ℝ, ∃ a, |a| ≤ 2 ∧ (derivatives s i v).x0 = s.cutoffCoeff * (a - softClip v.x0) := fun v =>
    ⟨_, softClip_abs _, by simp only [derivatives, hc]; rfl⟩
  have hd1 : ∀ v : Vec ℝ, ∃ a, |a| ≤ 2 ∧ (derivatives s i v).x1 = s.cutoffCoeff * (a - softClip v.x1) := fun v =>
    ⟨_, softClip_abs _, by simp only [derivatives, hc]; rfl⟩
  have hd2 : ∀ v : Vec ℝ, ∃ a, |a| ≤ 2 ∧ (derivatives s i v).x2 = s.cutoffCoeff * (a - softClip v.x2) := fun v =>
    ⟨_, softClip_abs _, by simp only [derivatives, hc]; rfl⟩
  have hd3 : ∀ v : Vec ℝ, ∃ a, |a| ≤ 2 ∧ (derivatives s i v).x3 = s.cutoffCoeff * (a - softClip v.x3) := fun v =>
    ⟨_, softClip_abs _, by simp only [derivatives, hc]; rfl⟩
  refine ⟨h.rate, h.sat, h.satInv, h.w0, h.w1, h.h0, h.h1, h.m, ?_, ?_, ?_, ?_⟩
  all_goals
    simp only [solver, l1, l2, l5]
    simp only [real_arith]
  · exact c (hd0 _) (hd0 _) (hd0 _) (hd0 _) h.x0
  · exact c (hd1 _) (hd1 _) (hd1 _) (hd1 _) h.x1
  · exact c (hd2 _) (hd2 _) (hd2 _) (hd2 _) h.x2
  · exact c (hd3 _) (hd3 _) (hd3 _) (hd3 _) h.x3

theorem makeup_ideal (c sr : ℝ) : |(Improved.makeup c sr : ℝ)| ≤ 5 := by
  have key : ∀ n : ℝ, 0 ≤ n → |(if 8 < 1 / (0.2 + n) then 8 else 1 / (0.2 + n) : ℝ)| ≤ 5 := by
    intro n hn
    have h0 : 0 < 0.2 + n := by linarith
    have h1 : 1 / (0.2 + n) ≤ 5 := by rw [div_le_iff₀ h0]; linarith
    rw [if_neg (by linarith), abs_of_pos (by positivity)]
    exact h1
  unfold Improved.makeup
  simp only [real_arith]
  push_cast
  refine key _ ?_
  generalize (if (0:ℝ) < (Conv.conv sr : ℝ) * 0.5 then (Conv.conv c : ℝ) / ((Conv.conv sr : ℝ) * 0.5) else 0) = q
  split_ifs <;> linarith

/-- **C51, Runge-Kutta ladder** (ideal arithmetic): whatever is fed in, whatever resonance, drive and oversampling factor are set at any
time, and however the cutoff moves between 0 and `top`, no output sample exceeds `5 (3 + 16 π top / sampleRate)` – 141 for cutoffs up
to Nyquist. -/
theorem C51_rk (sr top : ℝ) (hsr : 0 < sr) (h1000 : 1000 ≤ top) (s0 : Ladder ℝ ℝ) (l : List (Op ℝ))
    (hi : ∀ sr', Op.init sr' ∉ l) (hl : ∀ c, Op.setCutoff c ∈ l → 0 ≤ c ∧ c ≤ top) :
    ∀ y ∈ play (init sr s0) l, |y| ≤ 5 * (3 + 8 * (2 * 3.14159265358979323846 * top / sr)) := by
  have hW : 0 ≤ 3 + 8 * (2 * 3.14159265358979323846 * top / sr) := by
    have : 0 ≤ top := by linarith
    positivity
  have ePI : (lit 2 * Conv.conv (PI : ℝ) : ℝ) = 2 * 3.14159265358979323846 := by simp only [PI, Conv.conv, id, real_arith]; norm_num
  have z0 : |(lit 0 : ℝ)| ≤ 3 + 8 * (2 * 3.14159265358979323846 * top / sr) := by simp only [real_arith]; simpa using hW
  have hcut : ∀ c s, 0 ≤ c → c ≤ top → Bdd sr top s → Bdd sr top (setCutoff c s) := by
    intro c s c0 c1 h
    have e : (setCutoff c s).cutoffCoeff = 2 * 3.14159265358979323846 * c := by
      show (lit 2 * Conv.conv (PI : ℝ) : ℝ) * c = _
      rw [ePI]
    exact ⟨h.rate, h.sat, h.satInv, by rw [e]; positivity, by rw [e]; norm_num; linarith, h.h0, h.h1, makeup_ideal _ _, h.x0, h.x1, h.x2,
      h.x3⟩
  have hstep : ∀ n : ℤ, 1 ≤ n → 0 ≤ (stepSizeOf n sr : ℝ) ∧ (stepSizeOf n sr : ℝ) ≤ 1 / sr := by
    intro n hn
    have hn' : (1:ℝ) ≤ n := by exact_mod_cast hn
    simp only [stepSizeOf, Conv.conv, id, real_arith]
    push_cast
    refine ⟨by positivity, ?_⟩
    exact one_div_le_one_div_of_le hsr (by nlinarith)
  have key : ∀ (l : List (Op ℝ)) (s : Ladder ℝ ℝ), (∀ sr', Op.init sr' ∉ l) → (∀ c, Op.setCutoff c ∈ l → 0 ≤ c ∧ c ≤ top) →
      Bdd sr top s → ∀ y ∈ play s l, |y| ≤ 5 * (3 + 8 * (2 * 3.14159265358979323846 * top / sr)) := by
    intro l
    induction l with
    | nil => intro s _ _ _ y hy; simp [play] at hy
    | cons op l ih =>
      intro s hi hl h
      have hi' : ∀ sr', Op.init sr' ∉ l := fun a b => hi a (List.mem_cons_of_mem _ b)
      have hl' : ∀ c, Op.setCutoff c ∈ l → 0 ≤ c ∧ c ≤ top := fun a b => hl a (List.mem_cons_of_mem _ b)
      cases op with
      | init a => exact absurd List.mem_cons_self (hi a)
      | setCutoff c =>
        obtain ⟨c0, c1⟩ := hl c List.mem_cons_self
        exact ih _ hi' hl' (hcut c s c0 c1 h)
      | setResonance r =>
        exact ih _ hi' hl' ⟨h.rate, h.sat, h.satInv, h.w0, h.w1, h.h0, h.h1, h.m, h.x0, h.x1, h.x2, h.x3⟩
      | setDrive d =>
        exact ih _ hi' hl' ⟨h.rate, h.sat, h.satInv, h.w0, h.w1, h.h0, h.h1, h.m, h.x0, h.x1, h.x2, h.x3⟩
      | setOversampleFactor n =>
        have hn : (1:ℤ) ≤ if n < 1 then 1 else n := by split_ifs <;> omega
        obtain ⟨a, b⟩ := hstep _ hn
        refine ih _ hi' hl' ⟨h.rate, h.sat, h.satInv, h.w0, h.w1, ?_, ?_, h.m, h.x0, h.x1, h.x2, h.x3⟩
        · show 0 ≤ (stepSizeOf _ s.sampleRate : ℝ)
          rw [h.rate]; exact a
        · show (stepSizeOf _ s.sampleRate : ℝ) ≤ _
          rw [h.rate]; exact b
      | reset => exact ih _ hi' hl' ⟨h.rate, h.sat, h.satInv, h.w0, h.w1, h.h0, h.h1, h.m, z0, z0, z0, z0⟩
      | tick x =>
        have ht : Bdd sr top (tick s x).1 := by
          show Bdd sr top ((solver (Conv.conv x))^[s.oversampleFactor.toNat] s)
          generalize s.oversampleFactor.toNat = n
          clear hl hl' hi hi' ih
          induction n generalizing s with
          | zero => exact h
          | succ n ih => rw [Function.iterate_succ_apply]; exact ih _ (solver_bdd _ s h)
        intro y hy
        rcases List.mem_cons.1 hy with rfl | hy
        · show |(tick s x).1.state.x3 * (tick s x).1.makeupGain| ≤ _
          rw [abs_mul, mul_comm]
          exact mul_le_mul ht.m ht.x3 (abs_nonneg _) (by norm_num)
        · exact ih _ hi' hl' ht y hy
  refine key l _ hi hl ?_
  have h0 : Bdd sr top (setCutoff (lit 1000)
      { reset s0 with
        sampleRate := sr, saturation := lit 3, saturationInv := lit 1 / lit 3, cutoffCoeff := lit 0, drive := lit 1
        makeupGain := lit 1, oversampleFactor := 1, stepSize := stepSizeOf 1 sr }) := by
    have e1000 : (lit 1000 : ℝ) = 1000 := by simp only [real_arith]; norm_num
    rw [e1000]
    obtain ⟨a, b⟩ := hstep 1 le_rfl
    refine hcut 1000 _ (by norm_num) h1000 ⟨rfl, ?_, ?_, ?_, ?_, a, b, ?_, z0, z0, z0, z0⟩
    · show (lit 3 : ℝ) = 3
      simp only [real_arith]; norm_num
    · show (lit 1 / lit 3 : ℝ) = 1 / 3
      simp only [real_arith]; norm_num
    · show (0:ℝ) ≤ lit 0
      simp only [real_arith]; norm_num
    · show (lit 0 : ℝ) ≤ _
      simp only [real_arith]; norm_num; linarith
    · show |(lit 1 : ℝ)| ≤ 5
      simp only [real_arith]; norm_num
  exact ⟨h0.rate, h0.sat, h0.satInv, h0.w0, h0.w1, h0.h0, h0.h1, h0.m, h0.x0, h0.x1, h0.x2, h0.x3⟩

/-- Concrete case: at 48 kHz with cutoffs up to Nyquist the bound is below 141. -/
example : (5 * (3 + 8 * (2 * 3.14159265358979323846 * 24000 / 48000)) : ℝ) ≤ 141 ∧
    (∀ c : ℝ, Op.setCutoff c ∈ [Op.setDrive 10, .setCutoff 24000, .setOversampleFactor 3, .tick 1000] → 0 ≤ c ∧ c ≤ 24000) := by
  refine ⟨by norm_num, fun c hc => ?_⟩
  simp only [List.mem_cons, reduceCtorEq, false_or, Op.setCutoff.injEq, List.not_mem_nil, or_false] at hc
  subst hc
  norm_num

end RKSimulation

/-! ## Microtracker -/

namespace Microtracker

/-- The Microtracker ladder. -/
def api {α β : Type} [Arith α] [Arith β] [Libm β] [Conv α β] [Conv β α] : LadderApi (Ladder α β) α :=
  ⟨setCutoff, setResonance, reset, tick⟩

theorem fastTanh_real (x : ℝ) : fastTanh x = x * (27 + x ^ 2) / (27 + 9 * x ^ 2) := by
  simp only [fastTanh, real_arith]; push_cast; ring

/-- The saturation curve is increasing and never steeper than the identity. -/
theorem fastTanh_lip {x y : ℝ} (h : x ≤ y) : 0 ≤ fastTanh y - fastTanh x ∧ fastTanh y - fastTanh x ≤ y - x := by
  have hx : 0 < 27 + 9 * x ^ 2 := by positivity
  have hy : 0 < 27 + 9 * y ^ 2 := by positivity
  have d : 0 ≤ y - x := sub_nonneg.2 h
  rw [fastTanh_real, fastTanh_real]
  constructor
  · have e : y * (27 + y ^ 2) / (27 + 9 * y ^ 2) - x * (27 + x ^ 2) / (27 + 9 * x ^ 2) =
        9 * (y - x) * ((x * y - 9) ^ 2 + 3 * (x - y) ^ 2) / ((27 + 9 * y ^ 2) * (27 + 9 * x ^ 2)) := by
      field_simp; ring
    rw [e]; positivity
  · have e : (y - x) - (y * (27 + y ^ 2) / (27 + 9 * y ^ 2) - x * (27 + x ^ 2) / (27 + 9 * x ^ 2)) =
        8 * (y - x) * (27 * ((x + y) ^ 2 + x ^ 2 + y ^ 2) / 2 + 9 * (x * y) ^ 2) / ((27 + 9 * y ^ 2) * (27 + 9 * x ^ 2)) := by
      field_simp; ring
    have : 0 ≤ 8 * (y - x) * (27 * ((x + y) ^ 2 + x ^ 2 + y ^ 2) / 2 + 9 * (x * y) ^ 2) / ((27 + 9 * y ^ 2) * (27 + 9 * x ^ 2)) := by
      positivity
    linarith

theorem fastTanh_neg (x : ℝ) : fastTanh (-x) = -fastTanh x := by
  rw [fastTanh_real, fastTanh_real]; ring

theorem stage_le {B c a p : ℝ} (c0 : 0 ≤ c) (c1 : c ≤ 1) (ha : |a| ≤ B) (hp : |p| ≤ B) :
    |p + (fastTanh a - fastTanh p) * c| ≤ B := by
  have up : ∀ a p : ℝ, a ≤ B → p ≤ B → p + (fastTanh a - fastTanh p) * c ≤ B := by
    intro a p ha hp
    have h1 := (fastTanh_lip ha).1
    have h2 := (fastTanh_lip hp).2
    have h3 := (fastTanh_lip hp).1
    nlinarith
  have ha' := abs_le.1 ha
  have hp' := abs_le.1 hp
  rw [abs_le]
  refine ⟨?_, up a p ha'.2 hp'.2⟩
  have := up (-a) (-p) (by linarith) (by linarith)
  rw [fastTanh_neg, fastTanh_neg] at this
  linarith

/-- The invariant. -/
structure Bdd (sr ρ B : ℝ) (s : Ladder ℝ ℝ) : Prop where
  rate : s.sampleRate = sr
  r0 : 0 ≤ s.resonance
  r1 : s.resonance ≤ ρ
  c0 : 0 ≤ s.cutoffCoeff
  c1 : s.cutoffCoeff ≤ 1
  p0 : |s.p0| ≤ B
  p1 : |s.p1| ≤ B
  p2 : |s.p2| ≤ B
  p3 : |s.p3| ≤ B
  p32 : |s.p32| ≤ B
  p33 : |s.p33| ≤ B
  p34 : |s.p34| ≤ B

theorem tick_bdd {sr ρ B M : ℝ} (hM : M + 4 * ρ * (1.0000495 * B) ≤ B) (s : Ladder ℝ ℝ) (x : ℝ) (hx : |x| ≤ M) (h : Bdd sr ρ B s) :
    Bdd sr ρ B (tick s x).1 ∧ |(tick s x).2| ≤ 1.0000495 * B := by
  have hB : 0 ≤ B := (abs_nonneg _).trans h.p0
  have ho : |(tick s x).2| ≤ 1.0000495 * B := by
    have e : (tick s x).2 = s.p3 * 0.360891 + s.p32 * 0.417290 + s.p33 * 0.177896 + s.p34 * 0.0439725 := by
      simp only [tick, Conv.conv, id, real_arith]; push_cast; rfl
    rw [e]
    have a := abs_le.1 h.p3
    have b := abs_le.1 h.p32
    have c := abs_le.1 h.p33
    have d := abs_le.1 h.p34
    rw [abs_le]
    norm_num at *
    constructor <;> linarith
  have hi : |x - s.resonance * 4 * (tick s x).2| ≤ B := by
    refine (abs_sub _ _).trans (le_trans ?_ hM)
    rw [abs_mul, abs_of_nonneg (by linarith [h.r0] : 0 ≤ s.resonance * 4)]
    refine add_le_add hx ?_
    rw [mul_comm 4 ρ]
    exact mul_le_mul (by linarith [h.r1]) ho (abs_nonneg _) (by linarith [h.r0, h.r1])
  have e0 : (tick s x).1.p0 = s.p0 + (fastTanh (x - s.resonance * 4 * (tick s x).2) - fastTanh s.p0) * s.cutoffCoeff := by
    have e4 : (lit 4 : ℝ) = 4 := by simp only [real_arith]; norm_num
    rw [← e4]; rfl
  have q0 : |(tick s x).1.p0| ≤ B := by rw [e0]; exact stage_le h.c0 h.c1 hi h.p0
  have q1 : |(tick s x).1.p1| ≤ B := stage_le h.c0 h.c1 q0 h.p1
  have q2 : |(tick s x).1.p2| ≤ B := stage_le h.c0 h.c1 q1 h.p2
  have q3 : |(tick s x).1.p3| ≤ B := stage_le h.c0 h.c1 q2 h.p3
  exact ⟨⟨h.rate, h.r0, h.r1, h.c0, h.c1, q0, q1, q2, q3, h.p3, h.p32, h.p33⟩, ho⟩

/-- **C51, Microtracker, partial** (ideal arithmetic): with the resonance kept at or below `ρ < 0.2499`, inputs up to `M` give outputs up
to `1.0000495 M / (1 - 4.000198 ρ)`, for every non-negative cutoff. Missing: larger resonances, for which the loop gain exceeds 1 and
this argument does not apply; up to one half see `C51_microtracker_half_partial`. -/
theorem C51_microtracker_partial (sr ρ M : ℝ) (hsr : 0 < sr) (h0 : 0.1 ≤ ρ) (h1 : 4 * ρ * 1.0000495 < 1) (s0 : Ladder ℝ ℝ)
    (l : List (LadderCall ℝ)) (hl : CutoffsIn (fun c => 0 ≤ c) l) (hr : ∀ r, LadderCall.setResonance r ∈ l → r ≤ ρ)
    (hX : InputsIn (fun x => |x| ≤ M) l) (hM : 0 ≤ M) :
    ∀ y ∈ api.play (init sr s0) l, |y| ≤ 1.0000495 * (M / (1 - 4 * ρ * 1.0000495)) := by
  have hd : 0 < 1 - 4 * ρ * 1.0000495 := by linarith
  obtain ⟨B, hB⟩ : ∃ B, B = M / (1 - 4 * ρ * 1.0000495) := ⟨_, rfl⟩
  rw [← hB]
  have hB0 : 0 ≤ B := by rw [hB]; positivity
  have hMB : M + 4 * ρ * (1.0000495 * B) ≤ B := by
    have : B * (1 - 4 * ρ * 1.0000495) = M := by rw [hB]; field_simp
    linarith
  have z : |(lit 0 : ℝ)| ≤ B := by simp only [real_arith]; simpa using hB0
  have hc : ∀ c s, 0 ≤ c → Bdd sr ρ B s → Bdd sr ρ B (setCutoff c s) := by
    intro c s c0 h
    have e : (setCutoff c s).cutoffCoeff = if 1 < c * 2 * 3.14159265358979323846 / sr then 1 else c * 2 * 3.14159265358979323846 / sr := by
      rw [← h.rate]
      simp only [setCutoff, PI, Conv.conv, id, real_arith]; push_cast; rfl
    have hq : 0 ≤ c * 2 * 3.14159265358979323846 / sr := by positivity
    refine ⟨h.rate, h.r0, h.r1, ?_, ?_, h.p0, h.p1, h.p2, h.p3, h.p32, h.p33, h.p34⟩
    · rw [e]; split_ifs <;> linarith
    · rw [e]; split_ifs <;> linarith
  have hres : ∀ r s, r ≤ ρ → Bdd sr ρ B s → Bdd sr ρ B (setResonance r s) := by
    intro r s hr h
    have e : (setResonance r s).resonance = if r < 0 then 0 else if 1 < r then 1 else r := by
      simp only [setResonance, clamp01, real_arith]; push_cast; rfl
    refine ⟨h.rate, ?_, ?_, h.c0, h.c1, h.p0, h.p1, h.p2, h.p3, h.p32, h.p33, h.p34⟩
    · rw [e]; split_ifs <;> linarith
    · rw [e]; split_ifs <;> linarith
  have key : ∀ (l : List (LadderCall ℝ)) (s : Ladder ℝ ℝ), CutoffsIn (fun c => 0 ≤ c) l → (∀ r, LadderCall.setResonance r ∈ l → r ≤ ρ) →
      InputsIn (fun x => |x| ≤ M) l → Bdd sr ρ B s → ∀ y ∈ api.play s l, |y| ≤ 1.0000495 * B := by
    intro l
    induction l with
    | nil => intro s _ _ _ _ y hy; simp [LadderApi.play] at hy
    | cons a l ih =>
      intro s hl hr hX h
      have hl' : CutoffsIn (fun c => 0 ≤ c) l := fun c h => hl c (List.mem_cons_of_mem _ h)
      have hr' : ∀ r, LadderCall.setResonance r ∈ l → r ≤ ρ := fun c h => hr c (List.mem_cons_of_mem _ h)
      have hX' : InputsIn (fun x => |x| ≤ M) l := fun c h => hX c (List.mem_cons_of_mem _ h)
      cases a with
      | setCutoff c => exact ih _ hl' hr' hX' (hc c s (hl c List.mem_cons_self) h)
      | setResonance r => exact ih _ hl' hr' hX' (hres r s (hr r List.mem_cons_self) h)
      | reset => exact ih _ hl' hr' hX' ⟨h.rate, h.r0, h.r1, h.c0, h.c1, z, z, z, z, z, z, z⟩
      | tick x =>
        obtain ⟨a, b⟩ := tick_bdd hMB s x (hX x List.mem_cons_self) h
        intro y hy
        rcases List.mem_cons.1 hy with rfl | hy
        · exact b
        · exact ih _ hl' hr' hX' a y hy
  have e1000 : (lit 1000 : ℝ) = 1000 := by simp only [real_arith]; norm_num
  have e01 : (lit 0.1 : ℝ) = 0.1 := by simp only [real_arith]; norm_num
  refine key l _ hl hr hX ?_
  -- the previous resonance of a fresh object is arbitrary, so the two setters of `init` are looked at in turn
  have e : init sr s0 = setCutoff (1000 : ℝ) (setResonance (0.1 : ℝ) ({ s0 with
      sampleRate := sr, resonance := 0, p0 := lit 0, p1 := lit 0, p2 := lit 0, p3 := lit 0, p32 := lit 0, p33 := lit 0
      p34 := lit 0, cutoffCoeff := 0 } : Ladder ℝ ℝ)) := by
    rw [← e1000, ← e01]; rfl
  rw [e]
  refine hc _ _ (by norm_num) (hres _ _ h0 ⟨rfl, le_rfl, ?_, le_rfl, zero_le_one, z, z, z, z, z, z, z⟩)
  show (0:ℝ) ≤ ρ
  norm_num at h0; linarith

/-- Concrete case: resonance 0.2, inputs up to 1, a cutoff beyond Nyquist: the bound is below 5.01. -/
example : (1.0000495 * (1 / (1 - 4 * 0.2 * 1.0000495)) : ℝ) ≤ 5.01 ∧
    CutoffsIn (fun c : ℝ => 0 ≤ c) [.setResonance 0.2, .setCutoff 30000, .tick 1] := by
  refine ⟨by norm_num, fun c hc => ?_⟩
  simp only [List.mem_cons, reduceCtorEq, false_or, LadderCall.setCutoff.injEq, List.not_mem_nil, or_false] at hc
  subst hc
  norm_num

end Microtracker

/-! ## MusicDSP: the claim is false -/

namespace MusicDSP

/-- A square wave of amplitude 1 with a period of four samples. -/
def square : ℕ → List F32
  | 0 => []
  | n + 1 => lit 1 :: lit 1 :: lit (-1) :: lit (-1) :: square n

/-- The ladder at 44.1 kHz with cutoff 20 kHz and full resonance, when `sin` returned `v`. -/
def hot (v : F64) : Ladder F32 F64 :=
  let fc : F64 := lit 2 * Conv.conv (lit 20000 : F32) / Conv.conv (lit 44100 : F32)
  let p := fc * (lit 1.8 - lit 0.8 * fc)
  let k := lit 2 * v - lit 1
  let t1 := (lit 1 - p) * lit 1.386249
  let t2 := lit 12 + t1 * t1
  { sampleRate := lit 44100, cutoff := lit 20000, resonance := clamp01 (lit 1), s0 := lit 0, s1 := lit 0, s2 := lit 0, s3 := lit 0
    d0 := lit 0, d1 := lit 0, d2 := lit 0, d3 := lit 0, p := p, k := k, t1 := t1, t2 := t2
    resonanceCoeff := Conv.conv (clamp01 (lit 1 : F32)) * (t2 + lit 6 * t1) / (t2 - lit 6 * t1) }

set_option maxRecDepth 10000 in
theorem hot_nan (i : Fin 3) : (process (hot (lit ((8911321503425717 + i.val) / 2 ^ 53))) (square 7)).1.s3 = nan := by
  revert i; decide +kernel

theorem tick_nan (s : Ladder F32 F64) (x : F32) (h : s.s3 = nan) : (tick s x).1.s3 = nan ∧ (tick s x).2 = nan := by
  have m : ∀ a : F64, a * (nan : F64) = nan := fun a => by cases a <;> rfl
  have sb : ∀ a : F64, a - (nan : F64) = nan := fun a => by cases a <;> rfl
  have e : (tick s x).1.s3 = nan := by
    simp only [tick, h, m, sb]
    rfl
  refine ⟨e, ?_⟩
  show Conv.conv (tick s x).1.s3 = _
  rw [e]; rfl

theorem sin_cases [Libm F64] (hf : (Libm.sin (lit (6416542357267157 / 2 ^ 52) : F64)).isFin = true)
    (ha : |((Libm.sin (lit (6416542357267157 / 2 ^ 52) : F64)).val : ℝ) - Real.sin (6416542357267157 / 2 ^ 52)| < 1 / 2 ^ 53) :
    ∃ i : Fin 3, Libm.sin (lit (6416542357267157 / 2 ^ 52) : F64) = lit ((8911321503425717 + i.val) / 2 ^ 53) := by
  generalize Libm.sin (lit (6416542357267157 / 2 ^ 52) : F64) = y at hf ha
  have hv := sin_value
  rw [abs_le] at hv
  rw [abs_lt] at ha
  have l1 : ((8911321503425717 / 2 ^ 53 : ℚ) : ℝ) < (y.val : ℝ) := by push_cast; norm_num at *; linarith [ha.1, hv.1]
  have l2 : (y.val : ℝ) < ((8911321503425720 / 2 ^ 53 : ℚ) : ℝ) := by push_cast; norm_num at *; linarith [ha.2, hv.2]
  have q1 : (8911321503425717 / 2 ^ 53 : ℚ) < y.val := by exact_mod_cast l1
  have q2 : y.val < (8911321503425720 / 2 ^ 53 : ℚ) := by exact_mod_cast l2
  obtain ⟨n, hn⟩ := (grid_val y).mult (k := -53) (by
    rw [abs_of_nonneg (by norm_num at q1; linarith)]
    norm_num [binary64] at *
    linarith)
  have e : (2:ℚ) ^ (-53:ℤ) = 1 / 2 ^ 53 := by norm_num
  rw [e] at hn
  rw [hn] at q1 q2
  have n1 : (8911321503425717 : ℚ) < n := by norm_num at q1; linarith
  have n2 : (n : ℚ) < 8911321503425720 := by norm_num at q2; linarith
  have n1' : (8911321503425717 : ℤ) < n := by exact_mod_cast n1
  have n2' : n < (8911321503425720 : ℤ) := by exact_mod_cast n2
  have key : ∀ q : ℚ, y.val = q → (lit q : F64).isFin = true → (lit q : F64).val = q → q ≠ 0 → y = lit q := by
    intro q h1 h2 h3 h4
    obtain ⟨v, nz, h, rfl⟩ := isFin_cases hf
    obtain ⟨v', nz', h', e'⟩ := isFin_cases h2
    rw [e'] at h3 ⊢
    have hv : v = q := h1
    have hv' : v' = q := h3
    subst hv' hv
    have f1 : nz = false := by
      cases nz with
      | false => rfl
      | true => exact absurd (h.2.2 rfl) h4
    have f2 : nz' = false := by
      cases nz' with
      | false => rfl
      | true => exact absurd (h'.2.2 rfl) h4
    subst f1 f2
    rfl
  have hn' : n = 8911321503425718 ∨ n = 8911321503425719 := by omega
  rcases hn' with rfl | rfl
  · refine ⟨1, key _ ?_ (by decide +kernel) (by decide +kernel) (by norm_num)⟩
    rw [hn]; norm_num
  · refine ⟨2, key _ ?_ (by decide +kernel) (by decide +kernel) (by norm_num)⟩
    rw [hn]; norm_num

/-- **C51 is false of the MusicDSP ladder** (bit-exact): at 44.1 kHz, cutoff 20 kHz and full resonance, a full-scale square wave at a
quarter of the sample rate drives the cubic "sigmoid" `x - x³/6` out of the range where it saturates; after 28 samples the filter outputs
NaN and goes on doing so for every further input. All that is assumed of `sin` is that its error is below one unit in the last place. -/
theorem C51_musicdsp_blows_up [Libm F64]
    (hf : (Libm.sin (lit (6416542357267157 / 2 ^ 52) : F64)).isFin = true)
    (ha : |((Libm.sin (lit (6416542357267157 / 2 ^ 52) : F64)).val : ℝ) - Real.sin (6416542357267157 / 2 ^ 52)| < 1 / 2 ^ 53)
    (s0 : Ladder F32 F64) (more : List F32) :
    (∀ x ∈ square 7, |x.val| = 1) ∧
    ∀ y ∈ (process (setResonance (lit 1) (setCutoff (lit 20000) (init (lit 44100) s0))) (square 7 ++ more)).2.drop 28, y = nan := by
  have hs := sin_cases hf ha
  refine ⟨by decide +kernel, ?_⟩
  obtain ⟨i, hi⟩ := hs
  have harg : (lit 2 * Conv.conv (lit 20000 : F32) / Conv.conv (lit 44100 : F32)) * Conv.conv (PI : F32) * lit 0.5 =
      (lit (6416542357267157 / 2 ^ 52) : F64) := by decide +kernel
  have e : setResonance (lit 1) (setCutoff (lit 20000) (init (lit 44100) s0)) = hot (lit ((8911321503425717 + i.val) / 2 ^ 53)) := by
    rw [← hi, ← harg]; rfl
  rw [e, process, forEach_append]
  have hlen : (forEach tick (hot (lit ((8911321503425717 + i.val) / 2 ^ 53))) (square 7)).2.length = 28 := by rw [forEach_length]; rfl
  show ∀ y ∈ List.drop 28 ((forEach tick _ (square 7)).2 ++ _), y = nan
  rw [List.drop_append, hlen, List.drop_eq_nil_of_le hlen.le]
  simp only [Nat.sub_self, List.drop_zero, List.nil_append]
  have h0 := hot_nan i
  rw [process] at h0
  generalize (forEach tick (hot (lit ((8911321503425717 + i.val) / 2 ^ 53))) (square 7)).1 = s at h0
  induction more generalizing s with
  | nil => intro y hy; simp [forEach] at hy
  | cons x xs ih =>
    obtain ⟨a, b⟩ := tick_nan s x h0
    intro y hy
    rcases List.mem_cons.1 hy with rfl | hy
    · exact b
    · exact ih _ a y hy

/-- The assumption on `sin` is met by a function that returns the nearest double. -/
noncomputable example : ∃ L : Libm F64, (L.sin (lit (6416542357267157 / 2 ^ 52) : F64)).isFin = true ∧
    |((L.sin (lit (6416542357267157 / 2 ^ 52) : F64)).val : ℝ) - Real.sin (6416542357267157 / 2 ^ 52)| < 1 / 2 ^ 53 := by
  have e : (lit (8911321503425718 / 2 ^ 53) : F64).val = 8911321503425718 / 2 ^ 53 := by decide +kernel
  refine ⟨{ idealLibm64 with sin := fun _ => lit (8911321503425718 / 2 ^ 53) }, by decide +kernel, ?_⟩
  show |(((lit (8911321503425718 / 2 ^ 53) : F64).val : ℚ) : ℝ) - _| < _
  have hv := abs_le.1 sin_value
  rw [e, abs_lt]
  push_cast
  norm_num at *
  constructor <;> linarith [hv.1, hv.2]

end MusicDSP
end Verif
