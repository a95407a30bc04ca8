import Verif.Lemmas.Settle
import Verif.Lemmas.Tanh
import Verif.Props.LadderBounds

/-!
# C70, C71: where a ladder settles under a settling input, and whether it ever falls silent
-/

namespace Verif

open Arith Filter Topology

/-! ## Specification -/

/-- The state after a list of calls. -/
def LadderApi.after {σ α : Type} (A : LadderApi σ α) : σ → List (LadderCall α) → σ
  | s, [] => s
  | s, .setCutoff c :: l => A.after (A.setCutoff c s) l
  | s, .setResonance r :: l => A.after (A.setResonance r s) l
  | s, .reset :: l => A.after (A.reset s) l
  | s, .tick x :: l => A.after (A.tick s x).1 l

/-- An output that settles at `y` when the input settles at `c`: the input need not be constant, only converge. -/
def SettlesAt {σ : Type} (tick : σ → ℝ → σ × ℝ) (s : σ) (c y : ℝ) : Prop :=
  ∀ x : ℕ → ℝ, Tendsto x atTop (𝓝 c) → Tendsto (heard tick s x) atTop (𝓝 y)

theorem LadderApi.after_inv {σ α : Type} (A : LadderApi σ α) (I : σ → Prop) (hc : ∀ c s, I s → I (A.setCutoff c s))
    (hr : ∀ r s, I s → I (A.setResonance r s)) (h0 : ∀ s, I s → I (A.reset s)) (ht : ∀ s x, I s → I (A.tick s x).1)
    (l : List (LadderCall α)) (s : σ) (hs : I s) : I (A.after s l) := by
  induction l generalizing s with
  | nil => exact hs
  | cons a l ih =>
    cases a with
    | setCutoff c => exact ih _ (hc c s hs)
    | setResonance r => exact ih _ (hr r s hs)
    | reset => exact ih _ (h0 s hs)
    | tick x => exact ih _ (ht s x hs)

theorem clamp01_id {r : ℝ} (h0 : 0 ≤ r) (h1 : r ≤ 1) : clamp01 r = r := by
  simp only [clamp01, real_arith]; push_cast
  rw [if_neg (by linarith), if_neg (by linarith)]

/-! ## Microtracker -/

namespace Microtracker

theorem fastTanh_inj : Function.Injective (fastTanh : ℝ → ℝ) := by
  have key : ∀ x y : ℝ, x < y → fastTanh x ≠ fastTanh y := by
    intro x y h e
    rw [fastTanh_real, fastTanh_real] at e
    have hx : 0 < 27 + 9 * x ^ 2 := by positivity
    have hy : 0 < 27 + 9 * y ^ 2 := by positivity
    rw [div_eq_div_iff hx.ne' hy.ne'] at e
    have e2 : 9 * (y - x) * ((x * y - 9) ^ 2 + 3 * (x - y) ^ 2) = 0 := by linear_combination -e
    have d : 0 < y - x := by linarith
    have : 0 < 9 * (y - x) * ((x * y - 9) ^ 2 + 3 * (x - y) ^ 2) := by
      have : 0 < (x - y) ^ 2 := by nlinarith
      positivity
    linarith
  intro x y h
  by_contra hne
  rcases lt_or_gt_of_ne hne with h' | h'
  · exact key x y h' h
  · exact key y x h' h.symm

theorem feed_const (s : Ladder ℝ ℝ) (x : ℕ → ℝ) (n : ℕ) :
    (feed tick s x n).cutoffCoeff = s.cutoffCoeff ∧ (feed tick s x n).resonance = s.resonance ∧ (feed tick s x n).sampleRate = s.sampleRate := by
  induction n with
  | zero => exact ⟨rfl, rfl, rfl⟩
  | succ n ih => exact ih

/-- The loop settles from every state. -/
theorem settles {s : Ladder ℝ ℝ} {c : ℝ} (k0 : 0 < s.cutoffCoeff) (k1 : s.cutoffCoeff ≤ 1) (r0 : 0 ≤ s.resonance)
    (r1 : 4 * s.resonance * 1.0000495 < 1) : SettlesAt tick s c (1.0000495 * c / (1 + 4 * s.resonance * 1.0000495)) := by
  intro x hx
  obtain ⟨k, hk⟩ : ∃ k, k = s.cutoffCoeff := ⟨_, rfl⟩
  obtain ⟨r, hr⟩ : ∃ r, r = s.resonance := ⟨_, rfl⟩
  rw [← hk] at k0 k1
  rw [← hr] at r0 r1 ⊢
  have hden : (0:ℝ) < 1 + 4 * r * 1.0000495 := by positivity
  obtain ⟨y, hy⟩ : ∃ y, y = 1.0000495 * c / (1 + 4 * r * 1.0000495) := ⟨_, rfl⟩
  obtain ⟨q, hq⟩ : ∃ q, q = c / (1 + 4 * r * 1.0000495) := ⟨_, rfl⟩
  have yq : y = 1.0000495 * q := by rw [hy, hq]; ring
  have qc : q = c - r * 4 * y := by rw [hy, hq]; field_simp; ring
  rw [← hy]
  have hT : ∀ x y : ℝ, x ≤ y → 0 ≤ fastTanh y - fastTanh x ∧ fastTanh y - fastTanh x ≤ y - x := fun x y h => fastTanh_lip h
  have ho : ∀ n, heard tick s x n = (feed tick s x n).p3 * 0.360891 + (feed tick s x n).p32 * 0.417290 +
      (feed tick s x n).p33 * 0.177896 + (feed tick s x n).p34 * 0.0439725 := by
    intro n
    simp only [heard, tick, Conv.conv, id, real_arith]; push_cast; rfl
  have e4 : (lit 4 : ℝ) = 4 := by simp only [real_arith]; norm_num
  have e0 : ∀ n, (feed tick s x (n + 1)).p0 = (feed tick s x n).p0 + (fastTanh (x n - r * 4 * heard tick s x n) -
      fastTanh (feed tick s x n).p0) * k := by
    intro n
    rw [hk, hr, ← (feed_const s x n).1, ← (feed_const s x n).2.1, ← e4]; rfl
  have e1 : ∀ n, (feed tick s x (n + 1)).p1 = (feed tick s x n).p1 + (fastTanh (feed tick s x (n + 1)).p0 - fastTanh (feed tick s x n).p1) * k := by
    intro n; rw [hk, ← (feed_const s x n).1]; rfl
  have e2 : ∀ n, (feed tick s x (n + 1)).p2 = (feed tick s x n).p2 + (fastTanh (feed tick s x (n + 1)).p1 - fastTanh (feed tick s x n).p2) * k := by
    intro n; rw [hk, ← (feed_const s x n).1]; rfl
  have e3 : ∀ n, (feed tick s x (n + 1)).p3 = (feed tick s x n).p3 + (fastTanh (feed tick s x (n + 1)).p2 - fastTanh (feed tick s x n).p3) * k := by
    intro n; rw [hk, ← (feed_const s x n).1]; rfl
  -- one turn of the loop
  have turn : ∀ B, Near (heard tick s x) y B → Near (heard tick s x) y (4 * r * 1.0000495 * B) := by
    intro B hB
    have hin : Near (fun n => x n - r * 4 * heard tick s x n) q (4 * r * B) := by
      have h := (near_zero.2 hx).add (hB.mul (-(r * 4)))
      have h' := h.congr (y' := q) (B' := 4 * r * B) (by rw [qc]; ring) (by rw [abs_neg, abs_of_nonneg (by positivity)]; ring)
      exact cast (by congr 1; funext n; ring) h'
    have h0 := Near.monotone hT fastTanh_inj k0 k1 (fun n => (feed tick s x n).p0) _ e0 hin
    have h1 := Near.monotone hT fastTanh_inj k0 k1 (fun n => (feed tick s x n).p1) _ e1 h0.shift
    have h2 := Near.monotone hT fastTanh_inj k0 k1 (fun n => (feed tick s x n).p2) _ e2 h1.shift
    have h3 := Near.monotone hT fastTanh_inj k0 k1 (fun n => (feed tick s x n).p3) _ e3 h2.shift
    have h4 : Near (fun n => (feed tick s x n).p32) q (4 * r * B) := Near.unshift h3
    have h5 : Near (fun n => (feed tick s x n).p33) q (4 * r * B) := Near.unshift h4
    have h6 : Near (fun n => (feed tick s x n).p34) q (4 * r * B) := Near.unshift h5
    have h := (((h3.mul 0.360891).add (h4.mul 0.417290)).add (h5.mul 0.177896)).add (h6.mul 0.0439725)
    have h' := h.congr (y' := y) (B' := 4 * r * 1.0000495 * B) (by rw [yq]; norm_num; ring) (by norm_num; ring)
    exact cast (by congr 1; funext n; rw [ho]; ring) h'
  -- a first bound
  obtain ⟨M, hM0, hM⟩ : ∃ M : ℝ, 0 ≤ M ∧ ∀ n, |x n| ≤ M := by
    obtain ⟨M, hM⟩ := (Metric.isBounded_range_of_tendsto x hx).exists_norm_le
    exact ⟨M, (norm_nonneg _).trans (hM _ ⟨0, rfl⟩), fun n => hM _ ⟨n, rfl⟩⟩
  obtain ⟨B, hB⟩ : ∃ B, B = M / (1 - 4 * r * 1.0000495) + |s.p0| + |s.p1| + |s.p2| + |s.p3| + |s.p32| + |s.p33| + |s.p34| := ⟨_, rfl⟩
  have hgap : 0 < 1 - 4 * r * 1.0000495 := by linarith
  have hMB : M / (1 - 4 * r * 1.0000495) ≤ B := by
    rw [hB]
    linarith [abs_nonneg s.p0, abs_nonneg s.p1, abs_nonneg s.p2, abs_nonneg s.p3, abs_nonneg s.p32, abs_nonneg s.p33, abs_nonneg s.p34]
  have hMd : 0 ≤ M / (1 - 4 * r * 1.0000495) := by positivity
  have hloop : M + 4 * r * (1.0000495 * B) ≤ B := by
    have := (div_le_iff₀ hgap).1 hMB
    linarith
  have hb : ∀ n, Bdd s.sampleRate r B (feed tick s x n) := by
    intro n
    induction n with
    | zero =>
      have a := abs_nonneg s.p0
      have b := abs_nonneg s.p1
      have c := abs_nonneg s.p2
      have d := abs_nonneg s.p3
      have e := abs_nonneg s.p32
      have f := abs_nonneg s.p33
      have g := abs_nonneg s.p34
      refine ⟨rfl, by rw [← show r = (feed tick s x 0).resonance from hr]; exact r0, hr.ge, ?_, ?_, ?_, ?_, ?_, ?_, ?_, ?_, ?_⟩
      · rw [show (feed tick s x 0).cutoffCoeff = k from hk.symm]; exact k0.le
      · rw [show (feed tick s x 0).cutoffCoeff = k from hk.symm]; exact k1
      all_goals (simp only [feed]; rw [hB]; linarith)
    | succ n ih => exact (tick_bdd hloop _ _ (hM n) ih).1
  refine small_gain (κ := 4 * r * 1.0000495) (B₀ := 1.0000495 * B + |y|) (by positivity) r1 (Near.of_le fun n => ?_) turn
  exact (abs_sub _ _).trans (by linarith [(tick_bdd hloop _ _ (hM n) (hb n)).2, show |heard tick s x n| ≤ 1.0000495 * B from (tick_bdd hloop _ _ (hM n) (hb n)).2])

/-- **C70, Microtracker, partial** (ideal arithmetic): after any history, with any positive cutoff and a resonance below 0.2499, an input
that settles at `c` makes the output settle at `1.0000495 c / (1 + 4.000198 r)`. Missing: larger resonances. -/
theorem C70_microtracker_partial (sr cut r c : ℝ) (hsr : 0 < sr) (hcut : 0 < cut) (r0 : 0 ≤ r) (r1 : 4 * r * 1.0000495 < 1) (s0 : Ladder ℝ ℝ)
    (l : List (LadderCall ℝ)) :
    SettlesAt tick (setResonance r (setCutoff cut (api.after (init sr s0) l))) c (1.0000495 * c / (1 + 4 * r * 1.0000495)) := by
  have hs : (api.after (init sr s0) l : Ladder ℝ ℝ).sampleRate = sr :=
    LadderApi.after_inv api (fun s : Ladder ℝ ℝ => s.sampleRate = sr) (fun _ _ h => h) (fun _ _ h => h) (fun _ h => h) (fun _ _ h => h) l _ rfl
  obtain ⟨s, es⟩ : ∃ s : Ladder ℝ ℝ, s = api.after (init sr s0) l := ⟨_, rfl⟩
  rw [← es] at hs ⊢
  have er : (setResonance r (setCutoff cut s)).resonance = r := clamp01_id r0 (by norm_num at *; linarith)
  have ek : (setResonance r (setCutoff cut s)).cutoffCoeff = min 1 (cut * 2 * 3.14159265358979323846 / sr) := by
    simp only [setResonance, setCutoff, PI, Conv.conv, id, hs, real_arith]; push_cast
    split_ifs with h
    · rw [min_eq_left h.le]
    · rw [min_eq_right (not_lt.1 h)]
  have h := settles (s := setResonance r (setCutoff cut s)) (c := c) (by rw [ek]; exact lt_min one_pos (by positivity)) (by rw [ek]; exact min_le_left _ _)
    (by rw [er]; exact r0) (by rw [er]; exact r1)
  rwa [er] at h

/-- **C71, Microtracker, partial**: when the input dies away so does the output (same restriction). -/
theorem C71_microtracker_partial (sr cut r : ℝ) (hsr : 0 < sr) (hcut : 0 < cut) (r0 : 0 ≤ r) (r1 : 4 * r * 1.0000495 < 1) (s0 : Ladder ℝ ℝ)
    (l : List (LadderCall ℝ)) : SettlesAt tick (setResonance r (setCutoff cut (api.after (init sr s0) l))) 0 0 := by
  simpa using C70_microtracker_partial sr cut r 0 hsr hcut r0 r1 s0 l

/-- Concrete case: 48 kHz, cutoff 1 kHz, the default resonance 0.1. -/
example (s0 : Ladder ℝ ℝ) : SettlesAt tick (setResonance 0.1 (setCutoff 1000 (api.after (init 48000 s0) [.tick 5, .reset, .tick 1]))) 0.5
    (1.0000495 * 0.5 / (1 + 4 * 0.1 * 1.0000495)) :=
  C70_microtracker_partial 48000 1000 0.1 0.5 (by norm_num) (by norm_num) (by norm_num) (by norm_num) s0 _

end Microtracker

/-! ## Krajeski -/

namespace Krajeski

/-- Lines 75-88: the normalised frequency and the two coefficients, and the coefficient the feedback is multiplied by. -/
noncomputable def omega (sr cut : ℝ) : ℝ := 2 * 3.14159265358979323846 * cut / sr

/-- The feedback factor `4 gRes`. -/
noncomputable def loopGain (r w : ℝ) : ℝ := 4 * (r * (1.0029 + 0.0526 * w - 0.926 * w ^ 2 + 0.0218 * w ^ 3))

theorem fclamp_bdd (x : ℝ) : |fclamp x (lit (-1e30)) (lit 1e30)| ≤ 1e30 := by
  simp only [fclamp, cFmin, cFmax, real_arith]; push_cast
  simp only [decide_true, Bool.not_true, Bool.false_eq_true, if_false]
  rw [abs_le]
  split_ifs <;> constructor <;> linarith

/-- What every history leaves behind. -/
structure Inv (sr : ℝ) (s : Ladder ℝ ℝ) : Prop where
  rate : s.sampleRate = sr
  drive : s.drive = 1
  comp : s.gComp = 1
  d0 : s.d0 = s.s0
  d1 : s.d1 = s.s1
  d2 : s.d2 = s.s2
  d3 : s.d3 = s.s3
  s0 : |s.s0| ≤ 1e30
  s1 : |s.s1| ≤ 1e30
  s2 : |s.s2| ≤ 1e30
  s3 : |s.s3| ≤ 1e30
  s4 : |s.s4| ≤ 1e30

theorem abs_tanh_le (x : ℝ) : |Real.tanh x| ≤ 1 := abs_le.2 ⟨(Real.neg_one_lt_tanh _).le, (Real.tanh_lt_one _).le⟩

theorem tick_inv {sr : ℝ} (s : Ladder ℝ ℝ) (x : ℝ) (h : Inv sr s) : Inv sr (tick s x).1 :=
  ⟨h.rate, h.drive, h.comp, rfl, rfl, rfl, rfl, (abs_tanh_le _).trans (by norm_num), fclamp_bdd _, fclamp_bdd _, fclamp_bdd _, fclamp_bdd _⟩

theorem reset_inv {sr : ℝ} (s : Ladder ℝ ℝ) (h1 : s.sampleRate = sr) (h2 : s.drive = 1) (h3 : s.gComp = 1) : Inv sr (reset s) := by
  have z : |(lit 0 : ℝ)| ≤ 1e30 := by simp only [real_arith]; norm_num
  exact ⟨h1, h2, h3, rfl, rfl, rfl, rfl, z, z, z, z, z⟩

theorem after_inv (sr : ℝ) (s0 : Ladder ℝ ℝ) (l : List (LadderCall ℝ)) : Inv sr (api.after (init sr s0) l) := by
  have up : ∀ c s, Inv sr s → Inv sr (setCutoff c s) := fun c s h =>
    ⟨h.rate, h.drive, h.comp, h.d0, h.d1, h.d2, h.d3, h.s0, h.s1, h.s2, h.s3, h.s4⟩
  have up' : ∀ r s, Inv sr s → Inv sr (setResonance r s) := fun c s h =>
    ⟨h.rate, h.drive, h.comp, h.d0, h.d1, h.d2, h.d3, h.s0, h.s1, h.s2, h.s3, h.s4⟩
  refine LadderApi.after_inv api (Inv sr) up up' (fun s h => reset_inv s h.rate h.drive h.comp) (fun s x h => tick_inv s x h) l _ ?_
  have o : (lit 1 : ℝ) = 1 := by simp only [real_arith]; norm_num
  exact up' _ _ (up _ _ (reset_inv (sr := sr) { s0 with sampleRate := sr, drive := lit 1, gComp := lit 1, wc := lit 0, g := lit 0, gRes := lit 0 }
    rfl o o))

theorem stage_linear {g a b z : ℝ} (g0 : 0 ≤ g) (g1 : g ≤ 1) (ha : |a| ≤ 1e30) (hb : |b| ≤ 1e30) (hz : |z| ≤ 1e30) :
    stage g a b z = (1 - g) * z + g * (0.3 / 1.3 * a + 1 / 1.3 * b) := by
  unfold stage
  simp only [real_arith]
  push_cast
  have ha := abs_le.1 ha
  have hb := abs_le.1 hb
  have hz := abs_le.1 hz
  have w1 : 0.3 / 1.3 * a + 1 / 1.3 * b ≤ 1e30 := by norm_num at *; linarith
  have w2 : -1e30 ≤ 0.3 / 1.3 * a + 1 / 1.3 * b := by norm_num at *; linarith
  obtain ⟨w, hw⟩ : ∃ w, w = 0.3 / 1.3 * a + 1 / 1.3 * b := ⟨_, rfl⟩
  rw [← hw] at w1 w2
  rw [← hw]
  rw [fclamp_real]
  · ring
  · nlinarith [hz.1]
  · nlinarith [hz.2]

/-- The recursion of the four stages. -/
theorem feed_stage {sr : ℝ} {s : Ladder ℝ ℝ} (hs : Inv sr s) (g0 : 0 ≤ s.g) (g1 : s.g ≤ 1) (x : ℕ → ℝ) (n : ℕ) :
    (feed tick s x (n + 1)).s0 = Real.tanh (x n - 4 * s.gRes * ((feed tick s x n).s4 - x n)) ∧
    (feed tick s x (n + 1)).s1 = (1 - s.g) * (feed tick s x n).s1 + s.g * (0.3 / 1.3 * (feed tick s x (n + 1)).s0 + 1 / 1.3 * (feed tick s x n).s0) ∧
    (feed tick s x (n + 1)).s2 = (1 - s.g) * (feed tick s x n).s2 + s.g * (0.3 / 1.3 * (feed tick s x (n + 1)).s1 + 1 / 1.3 * (feed tick s x n).s1) ∧
    (feed tick s x (n + 1)).s3 = (1 - s.g) * (feed tick s x n).s3 + s.g * (0.3 / 1.3 * (feed tick s x (n + 1)).s2 + 1 / 1.3 * (feed tick s x n).s2) ∧
    (feed tick s x (n + 1)).s4 = (1 - s.g) * (feed tick s x n).s4 + s.g * (0.3 / 1.3 * (feed tick s x (n + 1)).s3 + 1 / 1.3 * (feed tick s x n).s3) ∧
    heard tick s x n = (feed tick s x (n + 1)).s4 := by
  have hinv : ∀ n, Inv sr (feed tick s x n) ∧ (feed tick s x n).g = s.g ∧ (feed tick s x n).gRes = s.gRes := by
    intro n
    induction n with
    | zero => exact ⟨hs, rfl, rfl⟩
    | succ n ih => exact ⟨tick_inv _ _ ih.1, ih.2⟩
  obtain ⟨h, eg, er⟩ := hinv n
  obtain ⟨h', -, -⟩ := hinv (n + 1)
  have e4 : (lit 4 : ℝ) = 4 := by simp only [real_arith]; norm_num
  refine ⟨?_, ?_, ?_, ?_, ?_, rfl⟩
  · have : (feed tick s x (n + 1)).s0 = Real.tanh ((feed tick s x n).drive * (x n - lit 4 * (feed tick s x n).gRes *
        ((feed tick s x n).s4 - (feed tick s x n).gComp * x n))) := rfl
    rw [this, h.drive, h.comp, er, e4, one_mul, one_mul]
  · have : (feed tick s x (n + 1)).s1 = stage (feed tick s x n).g (feed tick s x (n + 1)).s0 (feed tick s x n).d0 (feed tick s x n).s1 := rfl
    rw [this, h.d0, eg, stage_linear g0 g1 h'.s0 h.s0 h.s1]
  · have : (feed tick s x (n + 1)).s2 = stage (feed tick s x n).g (feed tick s x (n + 1)).s1 (feed tick s x n).d1 (feed tick s x n).s2 := rfl
    rw [this, h.d1, eg, stage_linear g0 g1 h'.s1 h.s1 h.s2]
  · have : (feed tick s x (n + 1)).s3 = stage (feed tick s x n).g (feed tick s x (n + 1)).s2 (feed tick s x n).d2 (feed tick s x n).s3 := rfl
    rw [this, h.d2, eg, stage_linear g0 g1 h'.s2 h.s2 h.s3]
  · have : (feed tick s x (n + 1)).s4 = stage (feed tick s x n).g (feed tick s x (n + 1)).s3 (feed tick s x n).d3 (feed tick s x n).s4 := rfl
    rw [this, h.d3, eg, stage_linear g0 g1 h'.s3 h.s3 h.s4]

/-- The settings after the two setters. -/
theorem set_coeffs (sr cut r : ℝ) (hsr : 0 < sr) (hcut : 0 < cut) (h1 : cut ≤ 0.3 * sr) (r0 : 0 ≤ r) (r1 : r ≤ 1) (s : Ladder ℝ ℝ) (hs : Inv sr s) :
    Inv sr (setResonance r (setCutoff cut s)) ∧ 0 < (setResonance r (setCutoff cut s)).g ∧ (setResonance r (setCutoff cut s)).g ≤ 1 ∧
    4 * (setResonance r (setCutoff cut s)).gRes = loopGain r (omega sr cut) := by
  obtain ⟨w, hw, e⟩ := setCutoff_g cut s
  rw [hs.rate] at hw
  have w0 : 0 < w := by rw [hw]; positivity
  have w1 : w ≤ 1.89 := by rw [hw, div_le_iff₀ hsr]; norm_num at *; linarith
  refine ⟨⟨hs.rate, hs.drive, hs.comp, hs.d0, hs.d1, hs.d2, hs.d3, hs.s0, hs.s1, hs.s2, hs.s3, hs.s4⟩, ?_, ?_, ?_⟩
  · rw [show (setResonance r (setCutoff cut s)).g = (setCutoff cut s).g from rfl, e]
    have : 0 < 0.9892 - 0.4342 * w + 0.1381 * w ^ 2 - 0.0202 * w ^ 3 := by
      nlinarith [sq_nonneg (w - 1.5), mul_nonneg w0.le (sub_nonneg.2 w1), mul_nonneg (sq_nonneg w) (sub_nonneg.2 w1)]
    have := mul_pos w0 this
    nlinarith
  · rw [show (setResonance r (setCutoff cut s)).g = (setCutoff cut s).g from rfl, e]
    exact g_le_one w0.le w1
  · have e2 : ∀ w : ℝ, w ^ (2:ℝ) = w ^ 2 := fun w => by exact_mod_cast Real.rpow_natCast w 2
    have e3 : ∀ w : ℝ, w ^ (3:ℝ) = w ^ 3 := fun w => by exact_mod_cast Real.rpow_natCast w 3
    have ew : (setCutoff cut s).wc = omega sr cut := by
      simp only [setCutoff, omega, PI, Conv.conv, id, hs.rate, real_arith]; push_cast; rfl
    have : (setResonance r (setCutoff cut s)).gRes = clamp01 r * (lit 1.0029 + lit 0.0526 * (setCutoff cut s).wc -
        lit 0.926 * Libm.pow (setCutoff cut s).wc (lit 2) + lit 0.0218 * Libm.pow (setCutoff cut s).wc (lit 3)) := rfl
    rw [this, ew, clamp01_id r0 r1, loopGain]
    simp only [real_arith]; push_cast
    rw [e2, e3]

theorem near_stage {g c B : ℝ} (g0 : 0 < g) (g1 : g ≤ 1) (z a : ℕ → ℝ)
    (hz : ∀ n, z (n + 1) = (1 - g) * z n + g * (0.3 / 1.3 * a (n + 1) + 1 / 1.3 * a n)) (ha : Near a c B) : Near z c B := by
  refine Near.lowpass g0 g1 z (fun n => 0.3 / 1.3 * a (n + 1) + 1 / 1.3 * a n) hz ?_
  exact ((ha.shift.mul (0.3 / 1.3)).add (ha.mul (1 / 1.3))).congr (by norm_num; ring) (by norm_num; ring)

/-- **C70, Krajeski, partial** (ideal arithmetic): after any history, with a cutoff up to 0.3 of the sample rate and a feedback factor
`κ = 4 gRes` below one, an input that settles at `c` makes the output settle at the solution of `y = tanh (c + κ (c - y))`. Missing:
larger feedback factors. -/
theorem C70_krajeski_partial (sr cut r c : ℝ) (hsr : 0 < sr) (hcut : 0 < cut) (h1 : cut ≤ 0.3 * sr) (r0 : 0 ≤ r) (r1 : r ≤ 1)
    (hk : |loopGain r (omega sr cut)| < 1) (s0 : Ladder ℝ ℝ) (l : List (LadderCall ℝ)) (y : ℝ)
    (hy : y = Real.tanh (c + loopGain r (omega sr cut) * (c - y))) :
    SettlesAt tick (setResonance r (setCutoff cut (api.after (init sr s0) l))) c y := by
  obtain ⟨s, es⟩ : ∃ s : Ladder ℝ ℝ, s = setResonance r (setCutoff cut (api.after (init sr s0) l)) := ⟨_, rfl⟩
  obtain ⟨hi, g0, g1, ek⟩ := set_coeffs sr cut r hsr hcut h1 r0 r1 _ (after_inv sr s0 l)
  rw [← es] at hi g0 g1 ek ⊢
  obtain ⟨κ, hκ⟩ : ∃ κ, κ = loopGain r (omega sr cut) := ⟨_, rfl⟩
  rw [← hκ] at hk hy ek
  intro x hx
  have hrec := feed_stage hi g0.le g1 x
  have chain : ∀ B, Near (fun n => (feed tick s x (n + 1)).s0) y B → Near (heard tick s x) y B := by
    intro B hB
    have h0 : Near (fun n => (feed tick s x n).s0) y B := hB.unshift
    have h1 := near_stage g0 g1 (fun n => (feed tick s x n).s1) (fun n => (feed tick s x n).s0) (fun n => (hrec n).2.1) h0
    have h2 := near_stage g0 g1 (fun n => (feed tick s x n).s2) (fun n => (feed tick s x n).s1) (fun n => (hrec n).2.2.1) h1
    have h3 := near_stage g0 g1 (fun n => (feed tick s x n).s3) (fun n => (feed tick s x n).s2) (fun n => (hrec n).2.2.2.1) h2
    have h4 := near_stage g0 g1 (fun n => (feed tick s x n).s4) (fun n => (feed tick s x n).s3) (fun n => (hrec n).2.2.2.2.1) h3
    exact h4.shift
  have turn : ∀ B, Near (heard tick s x) y B → Near (heard tick s x) y (|κ| * B) := by
    intro B hB
    have h4 : Near (fun n => (feed tick s x n).s4) y B := Near.unshift hB
    have hin := ((near_zero.2 hx).mul (1 + κ)).add (h4.mul (-κ))
    have hin' := hin.congr (y' := c + κ * (c - y)) (B' := |κ| * B) (by ring) (by rw [abs_neg]; ring)
    refine chain _ fun ε hε => ?_
    filter_upwards [hin' ε hε] with n hn
    rw [(hrec n).1, hy]
    refine (abs_tanh_sub_le _ _).trans (le_trans (le_of_eq ?_) hn)
    rw [ek]
    congr 1; ring
  refine small_gain (κ := |κ|) (B₀ := 2) (abs_nonneg _) hk (chain _ (Near.of_le fun n => ?_)) turn
  rw [(hrec n).1, hy]
  exact (abs_sub _ _).trans (by linarith [abs_tanh_le (x n - 4 * s.gRes * ((feed tick s x n).s4 - x n)), abs_tanh_le (c + κ * (c - y))])

/-- There is such a `y` for every `c`. -/
theorem C70_krajeski_exists (κ c : ℝ) : ∃ y, y = Real.tanh (c + κ * (c - y)) := by
  have hc : ContinuousOn (fun y => y - Real.tanh (c + κ * (c - y))) (Set.Icc (-1) 1) := by
    refine Continuous.continuousOn ?_
    exact continuous_id.sub (continuous_tanh.comp (by fun_prop))
  have h := intermediate_value_Icc (by norm_num : (-1:ℝ) ≤ 1) hc
  have h0 : (0:ℝ) ∈ Set.Icc (-1 - Real.tanh (c + κ * (c - -1))) (1 - Real.tanh (c + κ * (c - 1))) :=
    ⟨by linarith [Real.neg_one_lt_tanh (c + κ * (c - -1))], by linarith [Real.tanh_lt_one (c + κ * (c - 1))]⟩
  obtain ⟨y, -, hy⟩ := h h0
  exact ⟨y, by linarith [show y - Real.tanh (c + κ * (c - y)) = 0 from hy]⟩

/-- **C70, Krajeski**: without resonance the output settles at `tanh c`. -/
theorem C70_krajeski_flat (sr cut c : ℝ) (hsr : 0 < sr) (hcut : 0 < cut) (h1 : cut ≤ 0.3 * sr) (s0 : Ladder ℝ ℝ) (l : List (LadderCall ℝ)) :
    SettlesAt tick (setResonance 0 (setCutoff cut (api.after (init sr s0) l))) c (Real.tanh c) :=
  C70_krajeski_partial sr cut 0 c hsr hcut h1 le_rfl zero_le_one (by simp [loopGain]) s0 l _ (by simp [loopGain])

/-- **C71, Krajeski, partial**: when the input dies away so does the output (same restrictions). -/
theorem C71_krajeski_partial (sr cut r : ℝ) (hsr : 0 < sr) (hcut : 0 < cut) (h1 : cut ≤ 0.3 * sr) (r0 : 0 ≤ r) (r1 : r ≤ 1)
    (hk : |loopGain r (omega sr cut)| < 1) (s0 : Ladder ℝ ℝ) (l : List (LadderCall ℝ)) :
    SettlesAt tick (setResonance r (setCutoff cut (api.after (init sr s0) l))) 0 0 :=
  C70_krajeski_partial sr cut r 0 hsr hcut h1 r0 r1 hk s0 l 0 (by simp)

/-- Concrete case: 48 kHz, cutoff 1 kHz, the default resonance 0.1. -/
example (s0 : Ladder ℝ ℝ) : SettlesAt tick (setResonance 0.1 (setCutoff 1000 (api.after (init 48000 s0) [.tick 5, .reset, .tick 1]))) 0 0 :=
  C71_krajeski_partial 48000 1000 0.1 (by norm_num) (by norm_num) (by norm_num) (by norm_num) (by norm_num)
    (by rw [loopGain, omega]; norm_num [abs_lt]) s0 _

/-- **C71, Krajeski is false at high cutoffs**: between a quarter and 0.3 of the sample rate at full resonance the feedback polynomial of
line 87 is below -1.1, so the feedback is positive and more than fourfold. After enough samples of -1 the input may fall silent for good:
the output stays above 0.9 for ever. -/
theorem C71_krajeski_latches (sr cut : ℝ) (hsr : 0 < sr) (h0 : 0.25 * sr ≤ cut) (h1 : cut ≤ 0.3 * sr) (s0 : Ladder ℝ ℝ) :
    ∃ N, ∀ x : ℕ → ℝ, (∀ n, x n = if n < N then -1 else 0) → ∀ n, N ≤ n →
      0.9 ≤ heard tick (setResonance 1 (setCutoff cut (init sr s0))) x n := by
  obtain ⟨s, es⟩ : ∃ s : Ladder ℝ ℝ, s = setResonance 1 (setCutoff cut (init sr s0)) := ⟨_, rfl⟩
  have hcut : 0 < cut := by norm_num at *; linarith
  obtain ⟨hi, g0, g1, ek⟩ := set_coeffs sr cut 1 hsr hcut h1 zero_le_one le_rfl _ (after_inv sr s0 [])
  have hz : s.s0 = 0 ∧ s.s1 = 0 ∧ s.s2 = 0 ∧ s.s3 = 0 ∧ s.s4 = 0 := by
    have z : (lit 0 : ℝ) = 0 := by simp only [real_arith]; norm_num
    rw [es]; exact ⟨z, z, z, z, z⟩
  rw [show (api.after (init sr s0) [] : Ladder ℝ ℝ) = init sr s0 from rfl, ← es] at hi g0 g1 ek
  rw [← es]
  have hκ : 4 * s.gRes ≤ -4.4 := by
    rw [ek, loopGain]
    obtain ⟨w, hw⟩ : ∃ w, w = omega sr cut := ⟨_, rfl⟩
    have w0 : 1.5707 ≤ w := by rw [hw, omega, le_div_iff₀ hsr]; norm_num at *; linarith
    have w1 : w ≤ 1.89 := by rw [hw, omega, div_le_iff₀ hsr]; norm_num at *; linarith
    rw [← hw]
    nlinarith [mul_nonneg (sub_nonneg.2 w0) (sub_nonneg.2 w1), mul_nonneg (mul_nonneg (sub_nonneg.2 w0) (sub_nonneg.2 w1)) (by linarith : 0 ≤ w)]
  obtain ⟨κ, eκ⟩ : ∃ κ, κ = 4 * s.gRes := ⟨_, rfl⟩
  rw [← eκ] at hκ
  have mix : ∀ {m z a b : ℝ}, m ≤ z → m ≤ a → m ≤ b → m ≤ (1 - s.g) * z + s.g * (0.3 / 1.3 * a + 1 / 1.3 * b) := by
    intro m z a b hz ha hb
    have : m ≤ 0.3 / 1.3 * a + 1 / 1.3 * b := by norm_num at *; linarith
    nlinarith
  -- while -1 is fed
  have rec1 := feed_stage hi g0.le g1 (fun _ => -1)
  have pos : ∀ n, 0 ≤ (feed tick s (fun _ => -1) n).s0 ∧ 0 ≤ (feed tick s (fun _ => -1) n).s1 ∧ 0 ≤ (feed tick s (fun _ => -1) n).s2 ∧
      0 ≤ (feed tick s (fun _ => -1) n).s3 ∧ 0 ≤ (feed tick s (fun _ => -1) n).s4 := by
    intro n
    induction n with
    | zero => exact ⟨hz.1.ge, hz.2.1.ge, hz.2.2.1.ge, hz.2.2.2.1.ge, hz.2.2.2.2.ge⟩
    | succ n ih =>
      obtain ⟨a0, a1, a2, a3, a4⟩ := ih
      obtain ⟨r0, r1, r2, r3, r4, -⟩ := rec1 n
      have b0 : 0 ≤ (feed tick s (fun _ => -1) (n + 1)).s0 := by
        rw [r0, ← eκ]
        exact le_trans (by norm_num) (tanh_large (by norm_num at *; nlinarith))
      have b1 : 0 ≤ (feed tick s (fun _ => -1) (n + 1)).s1 := by rw [r1]; exact mix a1 b0 a0
      have b2 : 0 ≤ (feed tick s (fun _ => -1) (n + 1)).s2 := by rw [r2]; exact mix a2 b1 a1
      have b3 : 0 ≤ (feed tick s (fun _ => -1) (n + 1)).s3 := by rw [r3]; exact mix a3 b2 a2
      exact ⟨b0, b1, b2, b3, by rw [r4]; exact mix a4 b3 a3⟩
  have n0 : Near (fun n => (feed tick s (fun _ => -1) n).s0) 0.975 0.025 := Near.unshift (Near.of_le fun n => by
    rw [(rec1 n).1, ← eκ]
    have := tanh_large (x := -1 - κ * ((feed tick s (fun _ => -1) n).s4 - -1)) (by have := (pos n).2.2.2.2; norm_num at *; nlinarith)
    have h := (Real.tanh_lt_one (-1 - κ * ((feed tick s (fun _ => -1) n).s4 - -1))).le
    rw [abs_le]; norm_num at *
    constructor <;> linarith)
  have n1 := near_stage g0 g1 (fun n => (feed tick s (fun _ => -1) n).s1) _ (fun n => (rec1 n).2.1) n0
  have n2 := near_stage g0 g1 (fun n => (feed tick s (fun _ => -1) n).s2) _ (fun n => (rec1 n).2.2.1) n1
  have n3 := near_stage g0 g1 (fun n => (feed tick s (fun _ => -1) n).s3) _ (fun n => (rec1 n).2.2.2.1) n2
  have n4 := near_stage g0 g1 (fun n => (feed tick s (fun _ => -1) n).s4) _ (fun n => (rec1 n).2.2.2.2.1) n3
  have low : ∀ z : ℝ, |z - 0.975| ≤ 0.025 + 0.05 → 0.9 ≤ z := by
    intro z hz
    have := (abs_le.1 hz).1
    norm_num at *; linarith
  obtain ⟨N, hN⟩ := (((n0 0.05 (by norm_num)).and (n1 0.05 (by norm_num))).and ((n2 0.05 (by norm_num)).and
    ((n3 0.05 (by norm_num)).and (n4 0.05 (by norm_num))))).exists
  refine ⟨N, fun x hx => ?_⟩
  have same : ∀ n, n ≤ N → feed tick s x n = feed tick s (fun _ => -1) n := by
    intro n
    induction n with
    | zero => intro _; rfl
    | succ n ih => intro h; rw [feed, feed, ih (by omega), hx n, if_pos (by omega)]
  -- and afterwards
  have rec2 := feed_stage hi g0.le g1 x
  have stay : ∀ k, 0.9 ≤ (feed tick s x (N + k)).s0 ∧ 0.9 ≤ (feed tick s x (N + k)).s1 ∧ 0.9 ≤ (feed tick s x (N + k)).s2 ∧
      0.9 ≤ (feed tick s x (N + k)).s3 ∧ 0.9 ≤ (feed tick s x (N + k)).s4 := by
    intro k
    induction k with
    | zero =>
      rw [Nat.add_zero, same N le_rfl]
      exact ⟨low _ hN.1.1, low _ hN.1.2, low _ hN.2.1, low _ hN.2.2.1, low _ hN.2.2.2⟩
    | succ k ih =>
      obtain ⟨a0, a1, a2, a3, a4⟩ := ih
      obtain ⟨r0, r1, r2, r3, r4, -⟩ := rec2 (N + k)
      rw [hx, if_neg (by omega), ← eκ] at r0
      rw [← Nat.add_assoc]
      have b0 : 0.9 ≤ (feed tick s x (N + k + 1)).s0 := by
        rw [r0]
        exact le_trans (by norm_num) (tanh_large (by norm_num at *; nlinarith))
      have b1 : 0.9 ≤ (feed tick s x (N + k + 1)).s1 := by rw [r1]; exact mix a1 b0 a0
      have b2 : 0.9 ≤ (feed tick s x (N + k + 1)).s2 := by rw [r2]; exact mix a2 b1 a1
      have b3 : 0.9 ≤ (feed tick s x (N + k + 1)).s3 := by rw [r3]; exact mix a3 b2 a2
      exact ⟨b0, b1, b2, b3, by rw [r4]; exact mix a4 b3 a3⟩
  intro n hn
  rw [(rec2 n).2.2.2.2.2]
  have := (stay (n + 1 - N)).2.2.2.2
  rwa [show N + (n + 1 - N) = n + 1 by omega] at this

/-- Concrete case: 48 kHz and a cutoff of 12 kHz. -/
example (s0 : Ladder ℝ ℝ) := C71_krajeski_latches 48000 12000 (by norm_num) (by norm_num) (by norm_num) s0

end Krajeski

end Verif
