import Verif.Model.Filters
import Verif.Lemmas.LinearBlocks
import Verif.Float.Convex
import Mathlib.Analysis.SpecificLimits.Basic

/-!
# Properties C31, C32, C36: DC blocker and one-pole low pass, linearity of the linear filters
-/

set_option linter.unusedSectionVars false

namespace Verif
open FP

/-! ## C31: DCBlock -/

namespace DCBlock

/-- The coefficient the API installs: `exp(-2π·min(cutoff/sr, 1/4))` for a positive cutoff, zero otherwise; always in
`[0, 1)`. -/
theorem C31_coefficient (s : Filt ℝ) (cutoff : ℝ) (hsr : 0 < s.sampleRate) :
    let R := (setCutoff cutoff s).coeff
    0 ≤ R ∧ R < 1 ∧ (cutoff ≤ 0 → R = 0) ∧
      (0 < cutoff → R = Real.exp (-(2 * (3.14159265358979323846 * min (cutoff / s.sampleRate) (1 / 4))))) := by
  intro R
  rcases le_or_gt cutoff 0 with h | h
  · have hR : R = 0 := by
      show (setCutoff cutoff s).coeff = 0
      simp only [setCutoff, real_arith]
      rw [if_pos (by exact_mod_cast h)]
      simp
    exact ⟨hR.ge, by rw [hR]; norm_num, fun _ => hR, fun h' => absurd h (not_le.mpr h')⟩
  · have hR : R = Real.exp (-(2 * (3.14159265358979323846 * min (cutoff / s.sampleRate) (1 / 4)))) := by
      show (setCutoff cutoff s).coeff = _
      simp only [setCutoff, real_arith]
      rw [if_neg (by push_cast; exact not_le.mpr h)]
      simp only [PI, real_arith]
      congr 1
      push_cast
      rcases le_total (cutoff / s.sampleRate) (1 / 4) with h1 | h1
      · rw [if_neg (by push Not; norm_num; norm_num at h1; linarith), min_eq_left h1]; ring
      · rcases eq_or_lt_of_le h1 with h2 | h2
        · rw [if_neg (by push Not; norm_num; norm_num at h2; linarith), ← h2, min_self]; ring
        · rw [if_pos (by norm_num; norm_num at h2; linarith), min_eq_right h1]; norm_num
    have hpos : 0 < min (cutoff / s.sampleRate) (1 / 4) := lt_min (div_pos h hsr) (by norm_num)
    refine ⟨by rw [hR]; positivity, ?_, fun h' => absurd h (not_lt.mpr h'), fun _ => hR⟩
    rw [hR, Real.exp_lt_one_iff]
    have : 0 < 3.14159265358979323846 * min (cutoff / s.sampleRate) (1 / 4) := by positivity
    linarith

/-- **C31**: fed with a constant, from whatever state, the output is the first output times the powers of the coefficient;
from a reset state the first output is the constant itself. -/
theorem C31_constant_input (s : Filt ℝ) (c : ℝ) (n : ℕ) :
    (process s (List.replicate n c)).2 =
        (List.range n).map (fun i => (c - s.prevInputL + s.coeff * s.prevOutputL) * s.coeff ^ i) ∧
      (process (reset s) (List.replicate n c)).2 = (List.range n).map (fun i => c * s.coeff ^ i) := by
  have key : ∀ (n : ℕ) (s : Filt ℝ), (process s (List.replicate n c)).2 =
      (List.range n).map (fun i => (c - s.prevInputL + s.coeff * s.prevOutputL) * s.coeff ^ i) := by
    intro n
    induction n with
    | zero => intro s; simp [process, forEach]
    | succ n ih =>
      intro s
      have := ih (tick s c).1
      simp only [process] at this
      simp only [process, List.replicate_succ, forEach, List.range_succ_eq_map, List.map_cons, List.map_map, this]
      simp only [tick, real_arith, pow_zero, mul_one, sub_self, zero_add]
      congr 1
      apply List.map_congr_left
      intro i _
      simp only [Function.comp_apply, pow_succ]; ring
  refine ⟨key n s, ?_⟩
  have := key n (reset s)
  simpa [reset, real_arith] using this

/-- **C31**: any constant offset dies out, whatever was processed before and whatever cutoff is set. -/
theorem C31_removes_dc (sr cutoff c : ℝ) (hsr : 0 < sr) (before : List ℝ) :
    Filter.Tendsto (fun n => tickOut (fun s => tick s c) n (process (init sr cutoff) before).1) Filter.atTop (nhds 0) := by
  set s := (process (init sr cutoff) before).1 with hs
  have hco : ∀ (xs : List ℝ) (s : Filt ℝ), (process s xs).1.coeff = s.coeff := by
    intro xs
    induction xs with
    | nil => intro s; rfl
    | cons x xs ih => intro s; exact ih _
  have hc := C31_coefficient (⟨sr, lit 0, lit 0, lit 0, lit 0, lit 0, lit 0⟩ : Filt ℝ) cutoff hsr
  have hR : s.coeff = (init sr cutoff).coeff := hco _ _
  have h0 : 0 ≤ s.coeff := by rw [hR]; exact hc.1
  have h1 : s.coeff < 1 := by rw [hR]; exact hc.2.1
  have hout : ∀ n s, tickOut (fun s => tick s c) n s = (c - s.prevInputL + s.coeff * s.prevOutputL) * s.coeff ^ n := by
    intro n
    induction n with
    | zero => intro s; simp [tickOut, tickState, tick, real_arith]
    | succ n ih =>
      intro s
      have := ih (tick s c).1
      rw [show tickOut (fun s => tick s c) (n + 1) s = tickOut (fun s => tick s c) n (tick s c).1 from by
        simp [tickOut, tickState_succ'], this]
      simp only [tick, real_arith, pow_succ]; ring
  simp only [hout]
  rw [show (0:ℝ) = (c - s.prevInputL + s.coeff * s.prevOutputL) * 0 by ring]
  exact (tendsto_pow_atTop_nhds_zero_of_lt_one h0 h1).const_mul _

section
variable {α : Type} [Arith α] [Libm α]

/-- The filter seen by the right channel. -/
def rightView (s : Filt α) : Filt α := { s with prevInputL := s.prevInputR, prevOutputL := s.prevOutputR }

/-- **C31**: the stereo block is two independent mono blocks (any arithmetic). -/
theorem C31_stereo_two_monos (s : Filt α) (bs : List (α × α)) :
    (processStereo s bs).2.map Stereo.left = (process s (bs.map Prod.fst)).2 ∧
      (processStereo s bs).2.map Stereo.right = (process (rightView s) (bs.map Prod.snd)).2 := by
  have key : ∀ (bs : List (α × α)) (s l r : Filt α), l.coeff = s.coeff → l.prevInputL = s.prevInputL →
      l.prevOutputL = s.prevOutputL → r.coeff = s.coeff → r.prevInputL = s.prevInputR → r.prevOutputL = s.prevOutputR →
      (processStereo s bs).2.map Stereo.left = (process l (bs.map Prod.fst)).2 ∧
        (processStereo s bs).2.map Stereo.right = (process r (bs.map Prod.snd)).2 := by
    intro bs
    induction bs with
    | nil => intros; exact ⟨rfl, rfl⟩
    | cons b bs ih =>
      intro s l r h1 h2 h3 h4 h5 h6
      obtain ⟨i1, i2⟩ := ih (tickStereo s b.1 b.2).1 (tick l b.1).1 (tick r b.2).1 h1 rfl
        (by simp only [tick, tickStereo, h1, h2, h3]) h4 rfl (by simp only [tick, tickStereo, h4, h5, h6])
      simp only [processStereo, process] at i1 i2
      constructor
      · simp only [processStereo, process, forEach, List.map_cons, i1]
        simp only [tick, tickStereo, h1, h2, h3]
      · simp only [processStereo, process, forEach, List.map_cons, i2]
        simp only [tick, tickStereo, h4, h5, h6]
  exact key bs s s (rightView s) rfl rfl rfl rfl rfl rfl
end

example : (process (reset { (init (48000:ℝ) 10) with coeff := 1/2 }) [8, 8, 8]).2 = [8, 4, 2] := by
  have := (C31_constant_input { (init (48000:ℝ) 10) with coeff := 1/2 } 8 3).2
  rw [show List.replicate 3 (8:ℝ) = [8, 8, 8] from rfl] at this
  rw [this]; norm_num [List.range_succ]

end DCBlock

/-! ## C32: OnePoleLPF -/

namespace OnePoleLPF

/-- Calls a user can make on a running filter. -/
inductive Call (α : Type) where
  | setCutoff (hz : α)
  | tick (x : α)
  | tickMod (x hz : α)
  | reset

/-- Perform calls; collect what the ticks return. -/
def run {α : Type} [Arith α] [Libm α] : Filt α → List (Call α) → Filt α × List α
  | s, [] => (s, [])
  | s, .setCutoff hz :: cs => run (setCutoff hz s) cs
  | s, .tick x :: cs => let r := tick s x; let q := run r.1 cs; (q.1, r.2 :: q.2)
  | s, .tickMod x hz :: cs => let r := tickMod s x hz; let q := run r.1 cs; (q.1, r.2 :: q.2)
  | s, .reset :: cs => run (reset s) cs

/-- The samples fed to the filter. -/
def inputs {α : Type} : List (Call α) → List α
  | [] => []
  | .tick x :: cs => x :: inputs cs
  | .tickMod x _ :: cs => x :: inputs cs
  | _ :: cs => inputs cs

/-- The pole computed for any cutoff lies strictly between 0 and 1. -/
theorem pole_real {sr : ℝ} (hsr : 0 < sr) (hz : ℝ) :
    0 < Real.exp (-TWO_PI * clamp hz (lit 1) (sr * lit 0.5) / sr) ∧
      Real.exp (-TWO_PI * clamp hz (lit 1) (sr * lit 0.5) / sr) < 1 := by
  refine ⟨Real.exp_pos _, ?_⟩
  rw [Real.exp_lt_one_iff]
  have hc : 0 < clamp hz (lit 1) (sr * lit 0.5) := by
    simp only [clamp, real_arith]
    split_ifs with h1 h2
    · norm_num
    · norm_num; linarith
    · push_cast at h1; linarith
  have h2 : (0:ℝ) < TWO_PI := by simp only [TWO_PI, PI, real_arith]; norm_num
  have : 0 < TWO_PI * clamp hz (lit 1) (sr * lit 0.5) / sr := div_pos (mul_pos h2 hc) hsr
  rw [neg_mul, neg_div]; linarith

/-- **C32** (exact arithmetic): whatever cutoffs are set and however ticks are mixed, every output lies in every interval that
contains 0 (the initial and reset state) and all inputs. -/
theorem C32_hull (sr cutoff : ℝ) (hsr : 0 < sr) (cs : List (Call ℝ)) (a b : ℝ) (ha : a ≤ 0) (hb : 0 ≤ b)
    (hin : ∀ x ∈ inputs cs, a ≤ x ∧ x ≤ b) : ∀ y ∈ (run (init sr cutoff) cs).2, a ≤ y ∧ y ≤ b := by
  have mixIn : ∀ p x z : ℝ, 0 ≤ p → p ≤ 1 → (a ≤ x ∧ x ≤ b) → (a ≤ z ∧ z ≤ b) →
      a ≤ (1 - p) * x + p * z ∧ (1 - p) * x + p * z ≤ b := by
    intro p x z h0 h1 hx hz
    constructor <;> nlinarith
  have key : ∀ (cs : List (Call ℝ)) (s : Filt ℝ), s.sampleRate = sr → 0 ≤ s.pole → s.pole ≤ 1 → s.gain = 1 - s.pole →
      a ≤ s.z ∧ s.z ≤ b → (∀ x ∈ inputs cs, a ≤ x ∧ x ≤ b) → ∀ y ∈ (run s cs).2, a ≤ y ∧ y ≤ b := by
    intro cs
    induction cs with
    | nil => intro s _ _ _ _ _ _ y hy; simp [run] at hy
    | cons c cs ih =>
      intro s h1 h2 h3 h4 h5 hin
      cases c with
      | setCutoff hz =>
        obtain ⟨p0, p1⟩ := pole_real hsr hz
        refine ih (setCutoff hz s) h1 ?_ ?_ ?_ h5 hin
        · simp only [setCutoff, h1]; exact p0.le
        · simp only [setCutoff, h1]; exact p1.le
        · simp [setCutoff, real_arith]
      | tick x =>
        have hx := hin x (by simp [inputs])
        have hz : a ≤ (tick s x).2 ∧ (tick s x).2 ≤ b := by
          have := mixIn s.pole x s.z h2 h3 hx h5
          simp only [tick, real_arith, h4]; exact this
        intro y hy
        simp only [run, List.mem_cons] at hy
        rcases hy with rfl | hy
        · exact hz
        · exact ih (tick s x).1 h1 h2 h3 h4 hz (fun x hx => hin x (by simp [inputs, hx])) y hy
      | tickMod x hzc =>
        have hx := hin x (by simp [inputs])
        obtain ⟨p0, p1⟩ := pole_real hsr hzc
        have hz : a ≤ (tickMod s x hzc).2 ∧ (tickMod s x hzc).2 ≤ b := by
          have := mixIn _ x s.z p0.le p1.le hx h5
          simp only [tickMod, h1, rAdd, rSub, rMul, rExp, rLit 1] at this ⊢
          simpa using this
        intro y hy
        simp only [run, List.mem_cons] at hy
        rcases hy with rfl | hy
        · exact hz
        · exact ih (tickMod s x hzc).1 h1 h2 h3 h4 hz (fun x hx => hin x (by simp [inputs, hx])) y hy
      | reset =>
        exact ih (reset s) h1 h2 h3 h4 (by simp [reset, real_arith, ha, hb]) hin
  obtain ⟨p0, p1⟩ := pole_real hsr cutoff
  refine key cs (init sr cutoff) rfl p0.le p1.le ?_ ?_ hin
  · simp [init, setCutoff, real_arith]
  · simp [init, setCutoff, real_arith, ha, hb]

/-- **C32**: a constant input is approached geometrically, and is a fixed point. -/
theorem C32_constant_input (s : Filt ℝ) (hg : s.gain = 1 - s.pole) (c : ℝ) (n : ℕ) :
    tickOut (fun s => tick s c) n s - c = s.pole ^ (n + 1) * (s.z - c) := by
  have key : ∀ (n : ℕ) (s : Filt ℝ), s.gain = 1 - s.pole →
      tickOut (fun s => tick s c) n s - c = s.pole ^ (n + 1) * (s.z - c) := by
    intro n
    induction n with
    | zero => intro s h; simp [tickOut, tickState, tick, real_arith, h]; ring
    | succ n ih =>
      intro s h
      have := ih (tick s c).1 h
      rw [show tickOut (fun s => tick s c) (n + 1) s = tickOut (fun s => tick s c) n (tick s c).1 from by
        simp [tickOut, tickState_succ'], this]
      simp only [tick, real_arith, h, pow_succ]; ring
  exact key n s hg

/-- **C32**: through the API the approach is a strict contraction, so a constant input is reached in the limit. -/
theorem C32_converges (sr cutoff c : ℝ) (hsr : 0 < sr) (cs : List (Call ℝ)) :
    Filter.Tendsto (fun n => tickOut (fun s => tick s c) n (run (init sr cutoff) cs).1) Filter.atTop (nhds c) := by
  have key : ∀ (cs : List (Call ℝ)) (s : Filt ℝ), s.sampleRate = sr → 0 ≤ s.pole → s.pole < 1 → s.gain = 1 - s.pole →
      0 ≤ (run s cs).1.pole ∧ (run s cs).1.pole < 1 ∧ (run s cs).1.gain = 1 - (run s cs).1.pole := by
    intro cs
    induction cs with
    | nil => intro s _ h1 h2 h3; exact ⟨h1, h2, h3⟩
    | cons d cs ih =>
      intro s h0 h1 h2 h3
      cases d with
      | setCutoff hz =>
        obtain ⟨p0, p1⟩ := pole_real hsr hz
        refine ih (setCutoff hz s) h0 ?_ ?_ ?_
        · simp only [setCutoff, h0]; exact p0.le
        · simp only [setCutoff, h0]; exact p1
        · simp [setCutoff, real_arith]
      | tick x => exact ih (tick s x).1 h0 h1 h2 h3
      | tickMod x hz => exact ih (tickMod s x hz).1 h0 h1 h2 h3
      | reset => exact ih (reset s) h0 h1 h2 h3
  obtain ⟨p0, p1⟩ := pole_real hsr cutoff
  obtain ⟨h1, h2, h3⟩ := key cs (init sr cutoff) rfl p0.le p1 (by simp [init, setCutoff, real_arith])
  set s := (run (init sr cutoff) cs).1
  have hf : ∀ n, tickOut (fun s => tick s c) n s = c + s.pole * (s.z - c) * s.pole ^ n := by
    intro n
    have := C32_constant_input s h3 c n
    rw [pow_succ] at this; linarith
  simp only [hf]
  have := ((tendsto_pow_atTop_nhds_zero_of_lt_one h1 h2).const_mul (s.pole * (s.z - c))).const_add c
  simpa using this

/-- **C32**: `tick(in, cutoff)` is `setCutoff(cutoff)` followed by `tick(in)`, except that the stored cutoff and
coefficients stay as they were (any arithmetic). -/
theorem C32_tickMod {α : Type} [Arith α] [Libm α] (s : Filt α) (x hz : α) :
    (tickMod s x hz).2 = (tick (setCutoff hz s) x).2 ∧
      (tickMod s x hz).1.z = (tick (setCutoff hz s) x).1.z ∧
      (tickMod s x hz).1.cutoff = s.cutoff ∧ (tickMod s x hz).1.pole = s.pole ∧ (tickMod s x hz).1.gain = s.gain ∧
      (tickMod s x hz).1.sampleRate = s.sampleRate := ⟨rfl, rfl, rfl, rfl, rfl, rfl⟩

/-- The pole in single precision. -/
theorem pole_float [Libm F32] [LibmSpec] {sr hz : F32} (hsr : sr.isFin = true) (hsr0 : 1 ≤ sr.val) (hz' : hz ≠ .nan) :
    (Libm.exp (-TWO_PI * clamp hz (lit 1) (sr * lit 0.5) / sr) : F32).In 0 1 := by
  apply LibmSpec.exp_nonpos
  have h1 : (lit 1 : F32).In 1 1 := lit_one
  have hh : (lit 0.5 : F32).In 0.5 0.5 := lit_rep (by decide +kernel)
  have r2 : binary32.Rep (1/2) false := by decide +kernel
  have hn : (sr * lit 0.5 : F32).In (1/2) sr.val := by
    refine mul_in hsr hh.1 r2 (rep_val sr) ?_ ?_ <;> rw [hh.val_eq] <;> linarith
  have hc : (clamp hz (lit 1) (sr * lit 0.5) : F32).Pos := by
    unfold clamp
    by_cases ha : (hz <. lit 1) = true
    · rw [if_pos ha]; exact Or.inr ⟨h1.1, by rw [h1.val_eq]; norm_num⟩
    rw [if_neg ha]
    by_cases hb : (hz >. (sr * lit 0.5)) = true
    · rw [if_pos hb]; exact Or.inr ⟨hn.1, by linarith [hn.2.1]⟩
    rw [if_neg hb]
    rcases not_lt_cases hz' h1.1 (by simpa using ha) with h | ⟨h, h'⟩
    · exact Or.inl h
    · exact Or.inr ⟨h, by rw [h1.val_eq] at h'; linarith⟩
  have htp : (-TWO_PI : F32).isFin = true ∧ (-TWO_PI : F32).val < 0 := by decide +kernel
  exact (neg_mul_nonPos htp.1 htp.2 hc).div_pos hsr (by linarith)

/-- No NaN is passed as a cutoff, no sample exceeds `2^k` in magnitude. -/
def Tame (k : ℕ) : Call F32 → Prop
  | .setCutoff hz => hz ≠ .nan
  | .tick x => x.In (-2 ^ k) (2 ^ k)
  | .tickMod x hz => x.In (-2 ^ k) (2 ^ k) ∧ hz ≠ .nan
  | .reset => True

/-- **C32** in single precision, rounding included: if no input exceeds `2^k` then no output does, and no output is
negative if no input is; whatever cutoffs are set and however ticks are mixed. -/
theorem C32_range_float [Libm F32] [LibmSpec] (sr cutoff : F32) (hsr : sr.isFin = true) (hsr0 : 1 ≤ sr.val)
    (hcut : cutoff ≠ .nan) (k : ℕ) (hk : k ≤ 126) (cs : List (Call F32)) (hcs : ∀ c ∈ cs, Tame k c) :
    (∀ y ∈ (run (init sr cutoff) cs).2, y.In (-2 ^ k) (2 ^ k)) ∧
      ((∀ x ∈ inputs cs, 0 ≤ x.val) → ∀ y ∈ (run (init sr cutoff) cs).2, 0 ≤ y.val) := by
  have hB : (0:ℚ) < 2 ^ k := by positivity
  have h0 : (lit 0 : F32).In (-2 ^ k) (2 ^ k) := lit_zero.mono (by linarith) hB.le
  have key : ∀ (N : Bool) (cs : List (Call F32)) (s : Filt F32), s.sampleRate = sr → s.pole.In 0 1 → s.gain = lit 1 - s.pole →
      s.z.In (-2 ^ k) (2 ^ k) → (N = true → 0 ≤ s.z.val) → (∀ c ∈ cs, Tame k c) →
      (N = true → ∀ x ∈ inputs cs, 0 ≤ x.val) →
      ∀ y ∈ (run s cs).2, y.In (-2 ^ k) (2 ^ k) ∧ (N = true → 0 ≤ y.val) := by
    intro N cs
    induction cs with
    | nil => intro s _ _ _ _ _ _ _ y hy; simp [run] at hy
    | cons c cs ih =>
      intro s h1 h2 h3 h4 h5 hT hN
      have hT' : ∀ c ∈ cs, Tame k c := fun c hc => hT c (List.mem_cons_of_mem _ hc)
      have hc := hT c List.mem_cons_self
      cases c with
      | setCutoff hz =>
        refine ih (setCutoff hz s) h1 ?_ rfl h4 h5 hT' hN
        simp only [setCutoff, h1]
        exact pole_float hsr hsr0 hc
      | tick x =>
        have hz : (tick s x).2.In (-2 ^ k) (2 ^ k) ∧ (N = true → 0 ≤ (tick s x).2.val) := by
          obtain ⟨a, b⟩ := convex_in' hk h2 h4 hc
          rw [← h3] at a b
          exact ⟨a, fun hn => b (h5 hn) (hN hn x (by simp [inputs]))⟩
        intro y hy
        simp only [run, List.mem_cons] at hy
        rcases hy with rfl | hy
        · exact hz
        · exact ih (tick s x).1 h1 h2 h3 hz.1 hz.2 hT' (fun hn x hx => hN hn x (by simp [inputs, hx])) y hy
      | tickMod x hzc =>
        have hz : (tickMod s x hzc).2.In (-2 ^ k) (2 ^ k) ∧ (N = true → 0 ≤ (tickMod s x hzc).2.val) := by
          obtain ⟨a, b⟩ := convex_in' hk (pole_float hsr hsr0 hc.2) h4 hc.1
          rw [← h1] at a b
          exact ⟨a, fun hn => b (h5 hn) (hN hn x (by simp [inputs]))⟩
        intro y hy
        simp only [run, List.mem_cons] at hy
        rcases hy with rfl | hy
        · exact hz
        · exact ih (tickMod s x hzc).1 h1 h2 h3 hz.1 hz.2 hT' (fun hn x hx => hN hn x (by simp [inputs, hx])) y hy
      | reset => exact ih (reset s) h1 h2 h3 h0 (fun _ => lit_zero.2.1) hT' hN
  have hp := pole_float hsr hsr0 hcut
  constructor
  · intro y hy
    exact (key false cs (init sr cutoff) rfl hp rfl h0 (fun h => by cases h) hcs (fun h => by cases h) y hy).1
  · intro hN y hy
    exact (key true cs (init sr cutoff) rfl hp rfl h0 (fun _ => lit_zero.2.1) hcs (fun _ => hN) y hy).2 rfl

example [Libm F32] [LibmSpec] : ∀ y ∈ (run (init (lit 48000 : F32) (lit 1000))
    [.tick (lit 1), .setCutoff (lit 5), .tickMod (lit (-0.3)) (lit 1000000), .reset, .tick (lit 0.7)]).2, y.In (-1) 1 := by
  have := (C32_range_float (lit 48000) (lit 1000) (by decide +kernel) (by decide +kernel) (by decide +kernel) 0 (by norm_num)
    [.tick (lit 1), .setCutoff (lit 5), .tickMod (lit (-0.3)) (lit 1000000), .reset, .tick (lit 0.7)] ?_).1
  · simpa using this
  · simp only [List.forall_mem_cons, List.not_mem_nil, false_imp_iff, implies_true, and_true, Tame]
    decide +kernel

example : ∀ y ∈ (run (init (48000:ℝ) 1000) [.tick 3, .tickMod (-2) 1, .setCutoff 7, .tick 1]).2, -2 ≤ y ∧ y ≤ 3 :=
  C32_hull _ _ (by norm_num) _ _ _ (by norm_num) (by norm_num) (by intro x hx; simp [inputs] at hx; rcases hx with rfl | rfl | rfl <;> norm_num)

end OnePoleLPF

/-! ## C36: linearity and silence -/

/-- **C36**: DCBlock is linear. -/
theorem C36_dcblock_linear (s : DCBlock.Filt ℝ) : IsLinearBlockMap fun xs => (DCBlock.process (DCBlock.reset s) xs).2 := by
  intro a b xs ys hl
  refine forEach_mix (R := fun s1 s2 s3 => s1.coeff = s.coeff ∧ s2.coeff = s.coeff ∧ s3.coeff = s.coeff ∧
    s3.prevInputL = a * s1.prevInputL + b * s2.prevInputL ∧ s3.prevOutputL = a * s1.prevOutputL + b * s2.prevOutputL)
    ?_ xs ys _ _ _ ?_ hl
  · rintro s1 s2 s3 x y ⟨h1, h2, h3, h4, h5⟩
    simp only [DCBlock.tick, real_arith, h1, h2, h3, h4, h5, true_and]
    constructor <;> ring
  · simp [DCBlock.reset, real_arith]

/-- **C36**: OnePoleLPF is linear. -/
theorem C36_onepole_linear (s : OnePoleLPF.Filt ℝ) :
    IsLinearBlockMap fun xs => (OnePoleLPF.process (OnePoleLPF.reset s) xs).2 := by
  intro a b xs ys hl
  refine forEach_mix (R := fun s1 s2 s3 => s1.pole = s.pole ∧ s2.pole = s.pole ∧ s3.pole = s.pole ∧
    s1.gain = s.gain ∧ s2.gain = s.gain ∧ s3.gain = s.gain ∧ s3.z = a * s1.z + b * s2.z) ?_ xs ys _ _ _ ?_ hl
  · rintro s1 s2 s3 x y ⟨h1, h2, h3, h4, h5, h6, h7⟩
    simp only [OnePoleLPF.tick, real_arith, h1, h2, h3, h4, h5, h6, h7, true_and]
    constructor <;> ring
  · simp [OnePoleLPF.reset, real_arith]

/-- **C36**: RLPF is linear. -/
theorem C36_rlpf_linear (s : RLPF.Filt ℝ ℝ) : IsLinearBlockMap fun xs => (RLPF.process (RLPF.reset s) xs).2 := by
  intro a b xs ys hl
  refine forEach_mix (R := fun s1 s2 s3 => (∀ t ∈ [s1, s2, s3], t.b0 = s.b0 ∧ t.b1 = s.b1 ∧ t.b2 = s.b2 ∧ t.a1 = s.a1 ∧
    t.a2 = s.a2) ∧ s3.z1 = a * s1.z1 + b * s2.z1 ∧ s3.z2 = a * s1.z2 + b * s2.z2) ?_ xs ys _ _ _ ?_ hl
  · rintro s1 s2 s3 x y ⟨h, hz1, hz2⟩
    obtain ⟨p1, p2, p3, p4, p5⟩ := h s1 (by simp)
    obtain ⟨q1, q2, q3, q4, q5⟩ := h s2 (by simp)
    obtain ⟨r1, r2, r3, r4, r5⟩ := h s3 (by simp)
    simp only [RLPF.tick, Conv.conv, id, real_arith, List.mem_cons, List.not_mem_nil, or_false, forall_eq_or_imp, forall_eq,
      p1, p2, p3, p4, p5, q1, q2, q3, q4, q5, r1, r2, r3, r4, r5, hz1, hz2, and_self, true_and]
    refine ⟨⟨?_, ?_⟩, ?_⟩ <;> ring
  · simp [RLPF.reset, real_arith]

/-- **C36** in single precision: a reset DCBlock with a finite coefficient maps silence to silence. -/
theorem C36_dcblock_silent [Libm F32] (s : DCBlock.Filt F32) (hc : s.coeff.isFin = true) (xs : List F32)
    (hx : ∀ x ∈ xs, x.Zero) : ∀ y ∈ (DCBlock.process (DCBlock.reset s) xs).2, y.Zero := by
  refine forEach_silent (I := fun t => t.coeff.isFin = true ∧ t.prevInputL.Zero ∧ t.prevOutputL.Zero) ?_ xs _
    ⟨hc, zero_lit, zero_lit⟩ hx
  rintro t x ⟨h1, h2, h3⟩ hx
  have : (x - t.prevInputL + t.coeff * t.prevOutputL).Zero := zero_add_zero (zero_sub_zero hx h2) (mul_zero' h1 h3)
  exact ⟨⟨h1, hx, this⟩, this⟩

/-- **C36** in single precision: a reset OnePoleLPF with finite coefficients maps silence to silence. -/
theorem C36_onepole_silent [Libm F32] (s : OnePoleLPF.Filt F32) (hp : s.pole.isFin = true) (hg : s.gain.isFin = true)
    (xs : List F32) (hx : ∀ x ∈ xs, x.Zero) : ∀ y ∈ (OnePoleLPF.process (OnePoleLPF.reset s) xs).2, y.Zero := by
  refine forEach_silent (I := fun t => t.pole.isFin = true ∧ t.gain.isFin = true ∧ t.z.Zero) ?_ xs _
    ⟨hp, hg, zero_lit⟩ hx
  rintro t x ⟨h1, h2, h3⟩ hx
  have : (t.gain * x + t.pole * t.z).Zero := zero_add_zero (mul_zero' h2 hx) (mul_zero' h1 h3)
  exact ⟨⟨h1, h2, this⟩, this⟩

/-- **C36** in float/double arithmetic: a reset RLPF with finite coefficients maps silence to silence. -/
theorem C36_rlpf_silent (s : RLPF.Filt F32 F64) (h0 : s.b0.isFin = true) (h1 : s.b1.isFin = true) (h2 : s.b2.isFin = true)
    (g1 : s.a1.isFin = true) (g2 : s.a2.isFin = true) (xs : List F32) (hx : ∀ x ∈ xs, x.Zero) :
    ∀ y ∈ (RLPF.process (RLPF.reset s) xs).2, y.Zero := by
  refine forEach_silent (I := fun t => (t.b0.isFin = true ∧ t.b1.isFin = true ∧ t.b2.isFin = true ∧ t.a1.isFin = true ∧
    t.a2.isFin = true) ∧ t.z1.Zero ∧ t.z2.Zero) ?_ xs _ ⟨⟨h0, h1, h2, g1, g2⟩, zero_lit, zero_lit⟩ hx
  rintro t x ⟨⟨h0, h1, h2, g1, g2⟩, hz1, hz2⟩ hx
  have hi : (Conv.conv x : F64).Zero := zero_convert hx
  have ho : (t.b0 * Conv.conv x + t.z1 : F64).Zero := zero_add_zero (mul_zero' h0 hi) hz1
  refine ⟨⟨⟨h0, h1, h2, g1, g2⟩, ?_, ?_⟩, zero_convert ho⟩
  · exact zero_add_zero (zero_sub_zero (mul_zero' h1 hi) (mul_zero' g1 ho)) hz2
  · exact zero_sub_zero (mul_zero' h2 hi) (mul_zero' g2 ho)

end Verif
