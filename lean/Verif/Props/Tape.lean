import Verif.Model.Tape
import Verif.Lemmas.LinearBlocks
import Verif.Float.Convex
import Verif.Float.LibmSpec

/-!
# Property C41: tape saturation
-/

set_option linter.unusedSectionVars false

namespace Verif
open FP

namespace TapeFollower

/-- Follower states after a list of inputs. -/
def run {α : Type} [Arith α] (s : Fol α) (xs : List α) : Fol α := xs.foldl (fun s x => (process s x).1) s

theorem follower_hull (s : Fol ℝ) (ha : 0 ≤ s.attackCoeff ∧ s.attackCoeff ≤ 1) (hr : 0 ≤ s.releaseCoeff ∧ s.releaseCoeff ≤ 1)
    (B : ℝ) (h0 : 0 ≤ s.state) (hB : s.state ≤ B) (xs : List ℝ) (hx : ∀ x ∈ xs, |x| ≤ B) :
    0 ≤ (run s xs).state ∧ (run s xs).state ≤ B := by
  induction xs generalizing s with
  | nil => exact ⟨h0, hB⟩
  | cons x xs ih =>
    have hxB := hx x List.mem_cons_self
    have hx0 := abs_nonneg x
    refine ih (process s x).1 ha hr ?_ ?_ (fun y hy => hx y (List.mem_cons_of_mem _ hy))
    · simp only [process, real_arith, Rat.cast_one]
      split_ifs <;> nlinarith [ha.1, ha.2, hr.1, hr.2, mul_nonneg ha.1 h0, mul_nonneg hr.1 h0]
    · simp only [process, real_arith, Rat.cast_one]
      split_ifs <;> nlinarith [ha.1, ha.2, hr.1, hr.2]

/-- **C41** (exact arithmetic): the follower never goes below zero and never exceeds the largest rectified input seen. -/
theorem C41_follower (sr attack release B : ℝ) (hsr : 0 < sr) (ha : 0 < attack) (hr : 0 < release) (hB : 0 ≤ B)
    (xs : List ℝ) (hx : ∀ x ∈ xs, |x| ≤ B) :
    0 ≤ (run (init sr attack release) xs).state ∧ (run (init sr attack release) xs).state ≤ B := by
  have hc : ∀ t : ℝ, 0 < t → 0 ≤ Real.exp (-1 / (t * sr)) ∧ Real.exp (-1 / (t * sr)) ≤ 1 := by
    intro t ht
    refine ⟨(Real.exp_pos _).le, ?_⟩
    rw [Real.exp_le_one_iff]
    exact div_nonpos_of_nonpos_of_nonneg (by norm_num) (by positivity)
  have e : init sr attack release = ⟨Real.exp (-1 / (attack * sr)), Real.exp (-1 / (release * sr)), 0⟩ := by
    simp [init, real_arith]
  rw [e]
  exact follower_hull _ (hc _ ha) (hc _ hr) B le_rfl hB xs hx

/-- **C41**: NaN is sticky: after one NaN sample the follower is NaN for ever (until `reset`). Single precision. -/
theorem C41_nan_sticks (s : Fol F32) (xs : List F32) : (run s (.nan :: xs)).state = .nan := by
  have n1 : ∀ x : F32, x * .nan = .nan := by intro x; cases x <;> rfl
  have n2 : ∀ x : F32, x + .nan = .nan := by intro x; cases x <;> rfl
  have n3 : ∀ x : F32, .nan + x = .nan := by intro x; cases x <;> rfl
  have first : (process s .nan).1.state = .nan := by
    simp only [process]
    have : Arith.fabs (.nan : F32) = .nan := rfl
    rw [this]
    split_ifs <;> rw [n1, n2]
  have step : ∀ (s : Fol F32) (x : F32), s.state = .nan → (process s x).1.state = .nan := by
    intro s x h
    simp only [process, h]
    split_ifs <;> rw [n1, n3]
  have key : ∀ (xs : List F32) (s : Fol F32), s.state = .nan → (run s xs).state = .nan := by
    intro xs
    induction xs with
    | nil => intro s h; exact h
    | cons x xs ih => intro s h; exact ih _ (step s x h)
  exact key xs _ first

example : (run (init 48000 0.001 0.02) [0.5, -0.75, 0, 0.25] : Fol ℝ).state ≤ 0.75 :=
  (C41_follower 48000 0.001 0.02 0.75 (by norm_num) (by norm_num) (by norm_num) (by norm_num) _ (by
    intro x hx; simp at hx; rcases hx with rfl | rfl | rfl | rfl <;> norm_num [abs_le])).2

end TapeFollower

namespace Tape

/-- Calls a user can make. -/
inductive Call (α : Type) where
  | setBias (b : α)
  | setPregain (g : α)
  | tick (x : α)
  | tickStereo (l r : α)
  | reset

/-- Perform calls; collect every returned sample. -/
def run {α : Type} [Arith α] [Libm α] : T α → List (Call α) → T α × List α
  | s, [] => (s, [])
  | s, .setBias b :: cs => run (setBias b s) cs
  | s, .setPregain g :: cs => run (setPregain g s) cs
  | s, .tick x :: cs => let r := tick s x; let q := run r.1 cs; (q.1, r.2 :: q.2)
  | s, .tickStereo x y :: cs => let r := tickStereo s x y; let q := run r.1 cs; (q.1, r.2.left :: r.2.right :: q.2)
  | s, .reset :: cs => run (reset s) cs

/-- Finite bias, gain and inputs of magnitude up to `2^60`. -/
def Sane : Call F32 → Prop
  | .setBias b => b.isFin = true
  | .setPregain g => g.In (-2 ^ 60) (2 ^ 60)
  | .tick x => x.In (-2 ^ 60) (2 ^ 60)
  | .tickStereo x y => x.In (-2 ^ 60) (2 ^ 60) ∧ y.In (-2 ^ 60) (2 ^ 60)
  | .reset => True

/-- Invariant of the F32 tape. -/
structure Inv (s : T F32) : Prop where
  bias : s.bias.isFin = true
  pregain : s.pregain.In (-2 ^ 60) (2 ^ 60)
  att : s.follower.attackCoeff.In 0 1
  rel : s.follower.releaseCoeff.In 0 1
  fol : s.follower.state.In 0 (2 ^ 120)
  l1 : s.dcLeft.prevInput.In (-1) 1
  l2 : s.dcLeft.prevOutput.In (-256) 256
  l3 : s.dcLeft.gain = lit 0.99
  r1 : s.dcRight.prevInput.In (-1) 1
  r2 : s.dcRight.prevOutput.In (-256) 256
  r3 : s.dcRight.gain = lit 0.99

theorem abs_in {x : F32} {B : ℚ} (h : x.In (-B) B) : (Arith.fabs x).In 0 B := by
  obtain ⟨v, nz, hv, rfl⟩ := isFin_cases h.1
  exact ⟨rfl, abs_nonneg v, abs_le.mpr ⟨h.2.1, h.2.2⟩⟩

theorem drive_in {x g : F32} (hx : x.In (-2 ^ 60) (2 ^ 60)) (hg : g.In (-2 ^ 60) (2 ^ 60)) :
    (x * g).In (-2 ^ 120) (2 ^ 120) := by
  have hr := rep_two_pow (k := 120) (by norm_num)
  have h : |x.val * g.val| ≤ 2 ^ 120 := by
    rw [abs_mul]
    have h1 : |x.val| ≤ 2 ^ 60 := abs_le.mpr ⟨hx.2.1, hx.2.2⟩
    have h2 : |g.val| ≤ 2 ^ 60 := abs_le.mpr ⟨hg.2.1, hg.2.2⟩
    calc |x.val| * |g.val| ≤ 2 ^ 60 * 2 ^ 60 := mul_le_mul h1 h2 (abs_nonneg _) (by positivity)
      _ = 2 ^ 120 := by norm_num
  exact mul_in hx.1 hg.1 (Rep.neg hr) hr (abs_le.mp h).1 (abs_le.mp h).2

theorem follower_in {s : TapeFollower.Fol F32} {x : F32} (ha : s.attackCoeff.In 0 1) (hr : s.releaseCoeff.In 0 1)
    (hs : s.state.In 0 (2 ^ 120)) (hx : x.In (-2 ^ 120) (2 ^ 120)) : (TapeFollower.process s x).2.In 0 (2 ^ 120) := by
  have h0 : (-(2:ℚ) ^ 120) ≤ 0 := by norm_num
  have hax := abs_in hx
  have hs' : s.state.In (-2 ^ 120) (2 ^ 120) := hs.mono h0 le_rfl
  have hax' : (Arith.fabs x).In (-2 ^ 120) (2 ^ 120) := hax.mono h0 le_rfl
  simp only [TapeFollower.process]
  split_ifs
  · obtain ⟨a, b⟩ := convex_in (k := 120) (by norm_num) ha hs' hax'
    exact ⟨a.1, b hs.2.1 hax.2.1, a.2.2⟩
  · obtain ⟨a, b⟩ := convex_in (k := 120) (by norm_num) hr hs' hax'
    exact ⟨a.1, b hs.2.1 hax.2.1, a.2.2⟩

theorem pre_not_nan {o fv b : F32} (ho : o.isFin = true) (hf : fv.isFin = true) (hb : b.isFin = true) :
    o + (fv * b) ≠ .nan := by
  obtain ⟨zs, e⟩ := mul_def hf hb
  rw [e]
  obtain ⟨v, nz, hv, rfl⟩ := isFin_cases ho
  rcases h : (ofRat (fv.val * b.val) zs : F32) with _ | b' | ⟨w, nw, hw⟩
  · exact absurd h ofRat_ne_nan
  · show (FP.inf b' : F32) ≠ _
    simp
  · obtain ⟨zs', e'⟩ := add_def (x := (.fin v nz hv : F32)) (y := .fin w nw hw) rfl rfl
    rw [e']; exact ofRat_ne_nan

theorem blocker_in {s : TapeDcBlocker.Blk F32} {x : F32} (h1 : s.prevInput.In (-1) 1) (h2 : s.prevOutput.In (-256) 256)
    (h3 : s.gain = lit 0.99) (hx : x.In (-1) 1) : (TapeDcBlocker.process s x).2.In (-256) 256 := by
  have hg : (lit 0.99 : F32).In 0 0.9901 := by decide +kernel
  have hm : (s.gain * s.prevOutput).In (-253.5) 253.5 := by
    rw [h3]
    refine mul_in hg.1 h2.1 (by decide +kernel) (by decide +kernel) ?_ ?_
    · nlinarith [hg.2.1, hg.2.2, h2.2.1]
    · nlinarith [hg.2.1, hg.2.2, h2.2.2]
  have hd : (x - s.prevInput).In (-2) 2 := sub_in hx h1 (by decide +kernel) (by decide +kernel) (by norm_num) (by norm_num)
  exact add_in hd hm (by decide +kernel) (by decide +kernel) (by norm_num) (by norm_num)

variable [Libm F32] [LibmSpec]

theorem tick_inv {s : T F32} (hs : Inv s) {x : F32} (hx : x.In (-2 ^ 60) (2 ^ 60)) :
    Inv (tick s x).1 ∧ (tick s x).2.In (-1) 1 := by
  have hd := drive_in hx hs.pregain
  have hf := follower_in hs.att hs.rel hs.fol hd
  have ht := LibmSpec.tanh_range _ (pre_not_nan (b := s.bias) hd.1 hf.1 hs.bias)
  have hb := blocker_in hs.l1 hs.l2 hs.l3 ht
  have nn : ∀ {z : F32} {B : ℚ}, z.In (-B) B → z ≠ .nan := by
    intro z B h e; rw [e] at h; exact absurd h.1 (by simp)
  have ho := LibmSpec.tanh_range _ (nn hb)
  exact ⟨⟨hs.bias, hs.pregain, hs.att, hs.rel, hf, ht, hb, hs.l3, hs.r1, hs.r2, hs.r3⟩, ho⟩

theorem tickStereo_inv {s : T F32} (hs : Inv s) {x y : F32} (hx : x.In (-2 ^ 60) (2 ^ 60)) (hy : y.In (-2 ^ 60) (2 ^ 60)) :
    Inv (tickStereo s x y).1 ∧ (tickStereo s x y).2.left.In (-1) 1 ∧ (tickStereo s x y).2.right.In (-1) 1 := by
  have hd := drive_in hx hs.pregain
  have he := drive_in hy hs.pregain
  have hf := follower_in hs.att hs.rel hs.fol hd
  have ht := LibmSpec.tanh_range _ (pre_not_nan (b := s.bias) hd.1 hf.1 hs.bias)
  have hu := LibmSpec.tanh_range _ (pre_not_nan (b := s.bias) he.1 hf.1 hs.bias)
  have hb := blocker_in hs.l1 hs.l2 hs.l3 ht
  have hc := blocker_in hs.r1 hs.r2 hs.r3 hu
  have nn : ∀ {z : F32} {B : ℚ}, z.In (-B) B → z ≠ .nan := by
    intro z B h e; rw [e] at h; exact absurd h.1 (by simp)
  exact ⟨⟨hs.bias, hs.pregain, hs.att, hs.rel, hf, ht, hb, hs.l3, hu, hc, hs.r3⟩,
    LibmSpec.tanh_range _ (nn hb), LibmSpec.tanh_range _ (nn hc)⟩

theorem init_inv {sr : F32} (hsr : sr.Pos) : Inv (init sr) := by
  have hz := lit_zero (f := binary32)
  have hc : ∀ t : F32, t.Pos → (Libm.exp (-lit 1 / (t * sr))).In 0 1 := by
    intro t ht
    exact LibmSpec.exp_nonpos _ (neg_div_nonPos (by decide +kernel) (by decide +kernel) (ht.mul_posSign hsr))
  refine ⟨hz.1, ?_, hc _ (by decide +kernel), hc _ (by decide +kernel), hz.mono (by norm_num) (by norm_num),
    hz.mono (by norm_num) (by norm_num), hz.mono (by norm_num) (by norm_num), rfl, hz.mono (by norm_num) (by norm_num),
    hz.mono (by norm_num) (by norm_num), rfl⟩
  exact (lit_one (f := binary32)).mono (by norm_num) (by norm_num)

/-- **C41** in single precision, rounding included: whatever the sequence of ticks and parameter changes, with finite bias and
with gain and inputs up to `2^60` every output lies in `[-1, 1]` and the follower never goes below zero. -/
theorem C41_bounded (sr : F32) (hsr : sr.Pos) (cs : List (Call F32)) (hcs : ∀ c ∈ cs, Sane c) :
    (∀ y ∈ (run (init sr) cs).2, y.In (-1) 1) ∧ (run (init sr) cs).1.follower.state.In 0 (2 ^ 120) := by
  have key : ∀ (cs : List (Call F32)) (s : T F32), Inv s → (∀ c ∈ cs, Sane c) →
      (∀ y ∈ (run s cs).2, y.In (-1) 1) ∧ (run s cs).1.follower.state.In 0 (2 ^ 120) := by
    intro cs
    induction cs with
    | nil => intro s hs _; exact ⟨by simp [run], hs.fol⟩
    | cons c cs ih =>
      intro s hs hT
      have hT' : ∀ c ∈ cs, Sane c := fun c hc => hT c (List.mem_cons_of_mem _ hc)
      have hc := hT c List.mem_cons_self
      cases c with
      | setBias b => exact ih (setBias b s) { hs with bias := hc } hT'
      | setPregain g => exact ih (setPregain g s) { hs with pregain := hc } hT'
      | tick x =>
        obtain ⟨h1, h2⟩ := tick_inv hs hc
        obtain ⟨a, b⟩ := ih _ h1 hT'
        refine ⟨fun y hy => ?_, b⟩
        simp only [run, List.mem_cons] at hy
        rcases hy with rfl | hy
        · exact h2
        · exact a y hy
      | tickStereo x y =>
        obtain ⟨h1, h2, h3⟩ := tickStereo_inv hs hc.1 hc.2
        obtain ⟨a, b⟩ := ih _ h1 hT'
        refine ⟨fun z hz => ?_, b⟩
        simp only [run, List.mem_cons] at hz
        rcases hz with rfl | rfl | hz
        · exact h2
        · exact h3
        · exact a z hz
      | reset =>
        have hz := lit_zero (f := binary32)
        exact ih (reset s) { hs with fol := hz.mono (by norm_num) (by norm_num), l1 := hz.mono (by norm_num) (by norm_num),
                                     l2 := hz.mono (by norm_num) (by norm_num), r1 := hz.mono (by norm_num) (by norm_num),
                                     r2 := hz.mono (by norm_num) (by norm_num) } hT'
  exact key cs _ (init_inv hsr) hcs

omit [Libm F32] [LibmSpec] in
/-- **C41** in any arithmetic: the left channel of a stereo tick is the mono tick of the left input; the right input has no
influence on it. -/
theorem C41_stereo_left_is_mono {α : Type} [Arith α] [Libm α] (s : T α) (l r : α) :
    (tickStereo s l r).2.left = (tick s l).2 ∧ { (tickStereo s l r).1 with dcRight := s.dcRight } = (tick s l).1 := ⟨rfl, rfl⟩

example : ∀ y ∈ (run (init (lit 48000 : F32)) [.tick (lit 0.5), .setBias (lit (-3)), .setPregain (lit 1000),
    .tickStereo (lit 1) (lit (-1)), .reset, .tick (lit 0)]).2, y.In (-1) 1 := by
  refine (C41_bounded (lit 48000) (by decide +kernel) _ ?_).1
  simp only [List.forall_mem_cons, List.not_mem_nil, false_imp_iff, implies_true, and_true, Sane]
  decide +kernel

end Tape
end Verif
