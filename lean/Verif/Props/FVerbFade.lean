import Verif.Props.FVerbSilence
import Verif.Props.XPlayFloat

/-!
# C81: the crossfades of the reverb's modulated delays

A modulated delay of the reverb is a pair of taps and a mix between them (include/subcollider/ugens/fverb/FVerbDSP.h lines 823-837 and
891-905).  When the modulator asks for another delay the silent tap is moved there and faded in over 10 ms.  Proved in single precision, for
every sequence of requested delays: a tap is moved only while it is silent, the mix moves by at most one step per sample and stays between
0 and 1, and when the request stays put for 20 ms the delay heard is the one requested.
-/

namespace Verif.FVerbDSP
open FP Arith

/-! ## Values -/

/-- The clamped sum of the crossfade, in values. -/
theorem clampAdd {m t : F32} (hm : m.In 0 1) (ht : t.In (-1) 1) :
    (Arith.stdMax (lit 0) (Arith.stdMin (lit 1) (m + t)) : F32).In 0 1 ∧
      |(Arith.stdMax (lit 0) (Arith.stdMin (lit 1) (m + t)) : F32).val - m.val| ≤ |t.val| + 2 ^ (-25:ℤ) ∧
      min 1 (m.val + t.val - 2 ^ (-25:ℤ)) ≤ (Arith.stdMax (lit 0) (Arith.stdMin (lit 1) (m + t)) : F32).val ∧
      (Arith.stdMax (lit 0) (Arith.stdMin (lit 1) (m + t)) : F32).val ≤ max 0 (m.val + t.val + 2 ^ (-25:ℤ)) ∧
      (t.val = 0 → (Arith.stdMax (lit 0) (Arith.stdMin (lit 1) (m + t)) : F32).val = m.val) := by
  have hz := lit_zero (f := binary32)
  have ho := lit_one (f := binary32)
  have r2 : binary32.Rep 2 false := by exact_mod_cast rep32_nat (n := 2) (by norm_num)
  have q0 : -1 ≤ m.val + t.val := by linarith [hm.2.1, ht.2.1]
  have q1 : m.val + t.val ≤ 2 := by linarith [hm.2.2, ht.2.2]
  have hV := add_val hm.1 ht.1 (Rep.neg rep_one) r2 q0 q1
  obtain ⟨v, hv⟩ : ∃ v : F32, v = m + t := ⟨_, rfl⟩
  rw [← hv] at hV ⊢
  have hval : (Arith.stdMax (lit 0) (Arith.stdMin (lit 1) v) : F32).isFin = true ∧
      (Arith.stdMax (lit 0) (Arith.stdMin (lit 1) v) : F32).val = max 0 (min 1 v.val) := by
    unfold Arith.stdMin
    split_ifs with h
    · rw [lt_fin hV.1 ho.1, decide_eq_true_eq, ho.val_eq] at h
      rw [min_eq_right h.le]
      unfold Arith.stdMax
      split_ifs with h'
      · rw [lt_fin hz.1 hV.1, decide_eq_true_eq, hz.val_eq] at h'
        exact ⟨hV.1, (max_eq_right h'.le).symm⟩
      · rw [Bool.not_eq_true, lt_fin hz.1 hV.1, decide_eq_false_iff_not, hz.val_eq, not_lt] at h'
        exact ⟨hz.1, by rw [max_eq_left h', hz.val_eq]⟩
    · rw [Bool.not_eq_true, lt_fin hV.1 ho.1, decide_eq_false_iff_not, ho.val_eq, not_lt] at h
      rw [min_eq_left h]
      unfold Arith.stdMax
      rw [if_pos (by rw [lt_fin hz.1 ho.1, hz.val_eq, ho.val_eq]; norm_num)]
      exact ⟨ho.1, by rw [ho.val_eq]; norm_num⟩
  obtain ⟨w, hw⟩ : ∃ w : F32, w = Arith.stdMax (lit 0) (Arith.stdMin (lit 1) v) := ⟨_, rfl⟩
  rw [← hw] at hval ⊢
  have e25 : (2:ℚ) ^ (-25:ℤ) = 1 / 33554432 := by norm_num
  rw [e25]
  have hm0 := hm.2.1
  have hm1 := hm.2.2
  -- above one the sum rounds to at least one, below it the error is small
  have hr : (1 ≤ m.val + t.val ∧ 1 ≤ v.val) ∨ (m.val + t.val ≤ 1 ∧ |m.val + t.val - v.val| ≤ 1 / 33554432) := by
    rcases le_total 1 (m.val + t.val) with h | h
    · refine Or.inl ⟨h, ?_⟩
      rw [hV.2]
      exact binary32.le_rnd_of_le (K := ℚ) binary32.grid_one (by simpa using h)
    · refine Or.inr ⟨h, ?_⟩
      have := rnd_err_unit (x := m.val + t.val) (abs_le.mpr ⟨q0, h⟩)
      rwa [hV.2, ← e25]
  refine ⟨⟨hval.1, by rw [hval.2]; exact le_max_left _ _, by rw [hval.2]; exact max_le (by norm_num) (min_le_left _ _)⟩, ?_, ?_, ?_, ?_⟩
  · rw [hval.2]
    rcases hr with ⟨h1, h2⟩ | ⟨h1, h2⟩
    · rw [min_eq_left h2, max_eq_right (by norm_num), abs_of_nonneg (by linarith)]
      linarith [le_abs_self t.val]
    · rw [abs_le] at h2
      have a1 := le_abs_self t.val
      have a2 := neg_abs_le t.val
      rw [abs_le]
      constructor
      · rcases max_choice 0 (min 1 v.val) with h | h
        · have : min 1 v.val ≤ 0 := by rw [← h]; exact le_max_right _ _
          rcases min_choice 1 v.val with h' | h'
          · rw [h'] at this; linarith
          · rw [h'] at this; rw [h]; linarith
        · rw [h]
          rcases min_choice 1 v.val with h' | h' <;> rw [h'] <;> linarith
      · refine sub_le_iff_le_add.mpr (max_le ?_ ((min_le_right _ _).trans ?_)) <;> linarith [abs_nonneg t.val]
  · rw [hval.2]
    rcases hr with ⟨h1, h2⟩ | ⟨h1, h2⟩
    · rw [min_eq_left h2, max_eq_right (by norm_num)]; exact min_le_left _ _
    · rw [abs_le] at h2
      exact (min_le_min le_rfl (by linarith)).trans (le_max_right _ _)
  · rw [hval.2]
    rcases hr with ⟨h1, h2⟩ | ⟨h1, h2⟩
    · rw [min_eq_left h2, max_eq_right (by norm_num)]
      exact le_max_of_le_right (by linarith)
    · rw [abs_le] at h2
      exact max_le_max le_rfl ((min_le_right _ _).trans (by linarith))
  · intro h0
    have hg := binary32.rnd_grid (K := ℚ) (grid_val m)
    simp only [Rat.cast_id] at hg
    rw [hval.2, hV.2, h0, add_zero, hg, min_eq_right hm1, max_eq_right hm0]

/-! ## The states of a crossfade -/

/-- Tap A alone is heard and nothing moves. -/
def OnA (f : Fade F32) : Prop := f.slope.In 0 0 ∧ f.mix.In 0 0
/-- Tap B alone is heard and nothing moves. -/
def OnB (f : Fade F32) : Prop := f.slope.In 0 0 ∧ f.mix.In 1 1
/-- Fading from A to B. -/
def Up (c : F32) (f : Fade F32) : Prop := f.slope = c ∧ f.mix.In 0 1
/-- Fading from B to A. -/
def Down (c : F32) (f : Fade F32) : Prop := f.slope = -c ∧ f.mix.In 0 1

/-- The four kinds of states. -/
def Fading (c : F32) (f : Fade F32) : Prop := OnA f ∨ OnB f ∨ Up c f ∨ Down c f

theorem Fading.mix {c : F32} {f : Fade F32} (h : Fading c f) : f.mix.In 0 1 := by
  rcases h with h | h | h | h
  · exact h.2.mono le_rfl (by norm_num)
  · exact h.2.mono (by norm_num) le_rfl
  · exact h.2
  · exact h.2

section
variable {c : F32} {f : Fade F32} {T : ℤ}

theorem step_onA (hc : c.In 0 1) (h : OnA f) :
    (T = f.dA → OnA (fadeStep c T f) ∧ (fadeStep c T f).dA = f.dA ∧ (fadeStep c T f).dB = f.dB) ∧
    (T ≠ f.dA → Up c (fadeStep c T f) ∧ c.val - 2 ^ (-25:ℤ) ≤ (fadeStep c T f).mix.val ∧ (fadeStep c T f).dA = f.dA ∧
      (fadeStep c T f).dB = T) := by
  have hz := lit_zero (f := binary32)
  have ho := lit_one (f := binary32)
  have hm : f.mix.In 0 1 := h.2.mono le_rfl (by norm_num)
  have e1 : Arith.ne f.slope (lit 0) = false := by rw [Arith.ne, eq_fin h.1.1 hz.1, h.1.val_eq, hz.val_eq]; rfl
  have e2 : (f.mix ==. lit 0) = true := by rw [eq_fin h.2.1 hz.1, h.2.val_eq, hz.val_eq]; rfl
  have e3 : (f.mix ==. lit 1) = false := by rw [eq_fin h.2.1 ho.1, h.2.val_eq, ho.val_eq]; rfl
  have e4 : (f.mix >=. lit 1) = false := by rw [le_fin ho.1 h.2.1, h.2.val_eq, ho.val_eq]; rfl
  have e5 : (f.mix <=. lit 0) = true := by rw [le_fin h.2.1 hz.1, h.2.val_eq, hz.val_eq]; rfl
  constructor
  · rintro rfl
    have := clampAdd hm (hz.mono (by norm_num) (by norm_num))
    have e := this.2.2.2.2 hz.val_eq
    simp only [fadeStep, e1, e2, e3, e4, e5, OnA, Bool.false_eq_true, if_false, bne_self_eq_false, Bool.and_false, Bool.false_and]
    exact ⟨⟨hz, this.1.1, by rw [e, h.2.val_eq], by rw [e, h.2.val_eq]⟩, trivial, trivial⟩
  · intro hT
    have b1 : (T != f.dA) = true := by simpa using hT
    have b2 : (f.dA != T) = true := by simpa using Ne.symm hT
    have := clampAdd hm (hc.mono (by norm_num) le_rfl)
    simp only [fadeStep, e1, e2, e4, e5, b1, b2, Up, Bool.false_eq_true, if_false, Bool.and_true, if_true, Bool.false_and]
    refine ⟨⟨trivial, this.1⟩, le_trans (le_min ?_ ?_) this.2.2.1, trivial, trivial⟩
    · have : (0:ℚ) < 2 ^ (-25:ℤ) := by positivity
      linarith [hc.2.2]
    · rw [h.2.val_eq, zero_add]

theorem step_onB (hc : c.In 0 1) (h : OnB f) :
    (T = f.dB → OnB (fadeStep c T f) ∧ (fadeStep c T f).dA = f.dA ∧ (fadeStep c T f).dB = f.dB) ∧
    (T ≠ f.dB → Down c (fadeStep c T f) ∧ (fadeStep c T f).mix.val ≤ 1 - (c.val - 2 ^ (-25:ℤ)) ∧ (fadeStep c T f).dA = T ∧
      (fadeStep c T f).dB = f.dB) := by
  have hz := lit_zero (f := binary32)
  have ho := lit_one (f := binary32)
  have hm : f.mix.In 0 1 := h.2.mono (by norm_num) le_rfl
  have e1 : Arith.ne f.slope (lit 0) = false := by rw [Arith.ne, eq_fin h.1.1 hz.1, h.1.val_eq, hz.val_eq]; rfl
  have e2 : (f.mix ==. lit 0) = false := by rw [eq_fin h.2.1 hz.1, h.2.val_eq, hz.val_eq]; rfl
  have e3 : (f.mix ==. lit 1) = true := by rw [eq_fin h.2.1 ho.1, h.2.val_eq, ho.val_eq]; rfl
  have e4 : (f.mix >=. lit 1) = true := by rw [le_fin ho.1 h.2.1, h.2.val_eq, ho.val_eq]; rfl
  have e5 : (f.mix <=. lit 0) = false := by rw [le_fin h.2.1 hz.1, h.2.val_eq, hz.val_eq]; rfl
  constructor
  · rintro rfl
    have := clampAdd hm (hz.mono (by norm_num) (by norm_num))
    have e := this.2.2.2.2 hz.val_eq
    simp only [fadeStep, e1, e2, e3, e4, e5, OnB, Bool.false_eq_true, if_false, bne_self_eq_false, Bool.and_false, Bool.false_and]
    exact ⟨⟨hz, this.1.1, by rw [e, h.2.val_eq], by rw [e, h.2.val_eq]⟩, trivial, trivial⟩
  · intro hT
    have b1 : (T != f.dB) = true := by simpa using hT
    have b2 : (f.dB != T) = true := by simpa using Ne.symm hT
    have := clampAdd hm ((neg_in hc).mono le_rfl (by norm_num))
    simp only [fadeStep, e1, e2, e3, e4, e5, b1, b2, Down, Bool.false_eq_true, if_false, Bool.and_true, if_true, Bool.false_and]
    refine ⟨⟨trivial, this.1⟩, this.2.2.2.1.trans (max_le ?_ ?_), trivial, trivial⟩
    · have : (0:ℚ) < 2 ^ (-25:ℤ) := by positivity
      linarith [hc.2.2]
    · rw [h.2.val_eq, val_neg]; linarith

theorem step_up (hc : c.In 0 1) (h0 : 0 < c.val) (h : Up c f) :
    (f.mix.val = 1 → OnB (fadeStep c T f) ∧ (fadeStep c T f).dB = f.dB) ∧
    (f.mix.val = 0 → OnA (fadeStep c T f) ∧ (fadeStep c T f).dA = f.dA) ∧
    (0 < f.mix.val → f.mix.val < 1 → Up c (fadeStep c T f) ∧ min 1 (f.mix.val + (c.val - 2 ^ (-25:ℤ))) ≤ (fadeStep c T f).mix.val ∧
      (fadeStep c T f).dA = f.dA ∧ (fadeStep c T f).dB = f.dB) := by
  have hz := lit_zero (f := binary32)
  have ho := lit_one (f := binary32)
  obtain ⟨hs, hm⟩ := h
  have e1 : Arith.ne f.slope (lit 0) = true := by
    rw [Arith.ne, hs, eq_fin hc.1 hz.1, hz.val_eq]; simp [h0.ne']
  have a1 : (f.mix >. lit 0) = decide (0 < f.mix.val) := by rw [lt_fin hz.1 hm.1, hz.val_eq]
  have a2 : (f.mix <. lit 1) = decide (f.mix.val < 1) := by rw [lt_fin hm.1 ho.1, ho.val_eq]
  have a3 : (f.mix >=. lit 1) = decide (1 ≤ f.mix.val) := by rw [le_fin ho.1 hm.1, ho.val_eq]
  have a4 : (f.mix <=. lit 0) = decide (f.mix.val ≤ 0) := by rw [le_fin hm.1 hz.1, hz.val_eq]
  have k0 := clampAdd hm (hz.mono (by norm_num) (by norm_num))
  have e := k0.2.2.2.2 hz.val_eq
  refine ⟨fun h1 => ?_, fun h1 => ?_, fun h1 h2 => ?_⟩
  · simp only [fadeStep, e1, a1, a2, a3, a4, h1, if_true, OnB]
    norm_num
    exact ⟨hz, k0.1.1, by rw [e, h1], by rw [e, h1]⟩
  · simp only [fadeStep, e1, a1, a2, a3, a4, h1, if_true, OnA]
    norm_num
    exact ⟨hz, k0.1.1, by rw [e, h1], by rw [e, h1]⟩
  · have k1 := clampAdd hm (hc.mono (by norm_num) le_rfl)
    rw [hs] at e1
    simp only [fadeStep, e1, a1, a2, a3, a4, h1, h2, h1.not_ge, h2.not_ge, if_true, Up, hs, decide_true, decide_false, Bool.and_true,
      Bool.false_and, Bool.false_eq_true, if_false]
    refine ⟨⟨trivial, k1.1⟩, ?_, trivial, trivial⟩
    rw [← add_sub_assoc]; exact k1.2.2.1

theorem step_down (hc : c.In 0 1) (h0 : 0 < c.val) (h : Down c f) :
    (f.mix.val = 0 → OnA (fadeStep c T f) ∧ (fadeStep c T f).dA = f.dA) ∧
    (f.mix.val = 1 → OnB (fadeStep c T f) ∧ (fadeStep c T f).dB = f.dB) ∧
    (0 < f.mix.val → f.mix.val < 1 → Down c (fadeStep c T f) ∧ (fadeStep c T f).mix.val ≤ max 0 (f.mix.val - (c.val - 2 ^ (-25:ℤ))) ∧
      (fadeStep c T f).dA = f.dA ∧ (fadeStep c T f).dB = f.dB) := by
  have hz := lit_zero (f := binary32)
  have ho := lit_one (f := binary32)
  obtain ⟨hs, hm⟩ := h
  have hn := neg_in hc
  have e1 : Arith.ne f.slope (lit 0) = true := by
    rw [Arith.ne, hs, eq_fin hn.1 hz.1, hz.val_eq, val_neg]; simp [h0.ne']
  have a1 : (f.mix >. lit 0) = decide (0 < f.mix.val) := by rw [lt_fin hz.1 hm.1, hz.val_eq]
  have a2 : (f.mix <. lit 1) = decide (f.mix.val < 1) := by rw [lt_fin hm.1 ho.1, ho.val_eq]
  have a3 : (f.mix >=. lit 1) = decide (1 ≤ f.mix.val) := by rw [le_fin ho.1 hm.1, ho.val_eq]
  have a4 : (f.mix <=. lit 0) = decide (f.mix.val ≤ 0) := by rw [le_fin hm.1 hz.1, hz.val_eq]
  have k0 := clampAdd hm (hz.mono (by norm_num) (by norm_num))
  have e := k0.2.2.2.2 hz.val_eq
  refine ⟨fun h1 => ?_, fun h1 => ?_, fun h1 h2 => ?_⟩
  · simp only [fadeStep, e1, a1, a2, a3, a4, h1, if_true, OnA]
    norm_num
    exact ⟨hz, k0.1.1, by rw [e, h1], by rw [e, h1]⟩
  · simp only [fadeStep, e1, a1, a2, a3, a4, h1, if_true, OnB]
    norm_num
    exact ⟨hz, k0.1.1, by rw [e, h1], by rw [e, h1]⟩
  · have k1 := clampAdd hm (hn.mono le_rfl (by norm_num))
    rw [hs] at e1
    simp only [fadeStep, e1, a1, a2, a3, a4, h1, h2, h1.not_ge, h2.not_ge, if_true, Down, hs, decide_true, decide_false, Bool.and_true,
      Bool.false_and, Bool.false_eq_true, if_false]
    refine ⟨⟨trivial, k1.1⟩, ?_, trivial, trivial⟩
    refine k1.2.2.2.1.trans (max_le_max le_rfl ?_)
    rw [val_neg]; linarith

/-- Where a mix between 0 and 1 can be. -/
theorem mix_cases {m : F32} (h : m.In 0 1) : m.val = 0 ∨ m.val = 1 ∨ (0 < m.val ∧ m.val < 1) := by
  rcases h.2.1.eq_or_lt with a | a
  · exact Or.inl a.symm
  · rcases h.2.2.eq_or_lt with b | b
    · exact Or.inr (Or.inl b)
    · exact Or.inr (Or.inr ⟨a, b⟩)

theorem step_fading (hc : c.In 0 1) (h0 : 0 < c.val) (h : Fading c f) : Fading c (fadeStep c T f) := by
  rcases h with h | h | h | h
  · by_cases e : T = f.dA
    · exact Or.inl ((step_onA hc h).1 e).1
    · exact Or.inr (Or.inr (Or.inl ((step_onA hc h).2 e).1))
  · by_cases e : T = f.dB
    · exact Or.inr (Or.inl ((step_onB hc h).1 e).1)
    · exact Or.inr (Or.inr (Or.inr ((step_onB hc h).2 e).1))
  · rcases mix_cases h.2 with m | m | m
    · exact Or.inl ((step_up hc h0 h).2.1 m).1
    · exact Or.inr (Or.inl ((step_up hc h0 h).1 m).1)
    · exact Or.inr (Or.inr (Or.inl ((step_up hc h0 h).2.2 m.1 m.2).1))
  · rcases mix_cases h.2 with m | m | m
    · exact Or.inl ((step_down hc h0 h).1 m).1
    · exact Or.inr (Or.inl ((step_down hc h0 h).2.1 m).1)
    · exact Or.inr (Or.inr (Or.inr ((step_down hc h0 h).2.2 m.1 m.2).1))

end

/-! ## What is promised -/

/-- The crossfade after the requests `ts`, from the cleared reverb (FVerbDSP.h:460-463 and 491-494). -/
def fadeRun (c : F32) (ts : List ℤ) : Fade F32 := ts.foldl (fun f t => fadeStep c t f) ⟨lit 0, lit 0, 0, 0⟩

theorem fadeRun_fading {c : F32} (hc : c.In 0 1) (h0 : 0 < c.val) (ts : List ℤ) : Fading c (fadeRun c ts) := by
  have : ∀ (ts : List ℤ) (f : Fade F32), Fading c f → Fading c (ts.foldl (fun f t => fadeStep c t f) f) := by
    intro ts
    induction ts with
    | nil => exact fun f h => h
    | cons t ts ih => exact fun f h => ih _ (step_fading hc h0 h)
  exact this ts _ (Or.inl ⟨lit_zero, lit_zero⟩)

/-- **C81, no clicks.** After any sequence of requested delays, and whatever is requested next: the mix is between 0 and 1 and moves by at
most one step (up to one rounding); tap A is moved only if it had weight 0 (mix 1), tap B only if it had weight 0 (mix 0). -/
theorem C81_no_click (c : F32) (hc : c.In 0 1) (h0 : 0 < c.val) (ts : List ℤ) (t : ℤ) :
    let f := fadeRun c ts
    let f' := fadeRun c (ts ++ [t])
    f'.mix.In 0 1 ∧ |f'.mix.val - f.mix.val| ≤ c.val + 2 ^ (-25:ℤ) ∧ (f'.dA ≠ f.dA → f.mix.val = 1) ∧ (f'.dB ≠ f.dB → f.mix.val = 0) := by
  intro f f'
  have hf : Fading c f := fadeRun_fading hc h0 ts
  have e : f' = fadeStep c t f := by simp [f', f, fadeRun, List.foldl_append]
  have hz := lit_zero (f := binary32)
  have ho := lit_one (f := binary32)
  have hm := hf.mix
  rw [e]
  refine ⟨(step_fading hc h0 hf).mix, ?_, fun h => ?_, fun h => ?_⟩
  · have hs : f.slope.In (-c.val) c.val := by
      have l : -c.val ≤ 0 := by linarith
      rcases hf with h | h | h | h
      · exact h.1.mono l h0.le
      · exact h.1.mono l h0.le
      · rw [h.1]; exact ⟨hc.1, by linarith, le_rfl⟩
      · rw [h.1]; have := neg_in (in_val hc.1); exact this.mono le_rfl (by linarith)
    have key : ∀ t : F32, t.In (-c.val) c.val →
        |(Arith.stdMax (lit 0) (Arith.stdMin (lit 1) (f.mix + t)) : F32).val - f.mix.val| ≤ c.val + 2 ^ (-25:ℤ) := by
      intro t ht
      have k := (clampAdd hm (ht.mono (by linarith [hc.2.2]) hc.2.2)).2.1
      have : |t.val| ≤ c.val := abs_le.mpr ⟨ht.2.1, ht.2.2⟩
      exact k.trans (by gcongr)
    have z : (lit 0 : F32).In (-c.val) c.val := hz.mono (by linarith) h0.le
    have p : c.In (-c.val) c.val := ⟨hc.1, by linarith, le_rfl⟩
    have n : (-c).In (-c.val) c.val := (neg_in (in_val hc.1)).mono le_rfl (by linarith)
    refine key (fadeStep c t f).slope ?_
    unfold fadeStep
    dsimp only
    split_ifs <;> assumption
  · by_contra hne
    have a3 : (f.mix >=. lit 1) = false := by
      rw [le_fin ho.1 hm.1, ho.val_eq, decide_eq_false_iff_not, not_le]
      exact lt_of_le_of_ne hm.2.2 hne
    exact h (by simp [fadeStep, a3])
  · by_contra hne
    have a4 : (f.mix <=. lit 0) = false := by
      rw [le_fin hm.1 hz.1, hz.val_eq, decide_eq_false_iff_not, not_le]
      exact lt_of_le_of_ne hm.2.1 (Ne.symm hne)
    exact h (by simp [fadeStep, a4])

/-- Only one tap is heard, and it is at delay `T`. -/
def Hears (T : ℤ) (f : Fade F32) : Prop := (OnA f ∧ f.dA = T) ∨ (OnB f ∧ f.dB = T)

section
variable {c : F32} {T : ℤ}

theorem hears_stays (hc : c.In 0 1) {f : Fade F32} (h : Hears T f) : Hears T (fadeStep c T f) := by
  rcases h with ⟨h, rfl⟩ | ⟨h, rfl⟩
  · have := (step_onA (T := f.dA) hc h).1 rfl
    exact Or.inl ⟨this.1, this.2.1⟩
  · have := (step_onB (T := f.dB) hc h).1 rfl
    exact Or.inr ⟨this.1, this.2.2⟩

/-- `k` samples with the request `T`. -/
def hold (c : F32) (T : ℤ) (k : ℕ) (f : Fade F32) : Fade F32 := (fadeStep c T)^[k] f

theorem hold_succ (k : ℕ) (f : Fade F32) : hold c T (k + 1) f = hold c T k (fadeStep c T f) := rfl
theorem hold_add (j k : ℕ) (f : Fade F32) : hold c T (k + j) f = hold c T k (hold c T j f) := Function.iterate_add_apply _ _ _ _

theorem hears_hold (hc : c.In 0 1) (k : ℕ) {f : Fade F32} (h : Hears T f) : Hears T (hold c T k f) := by
  induction k generalizing f with
  | zero => exact h
  | succ k ih => exact ih (hears_stays hc h)

/-- An upward fade ends at tap B, which has not moved. -/
theorem up_ends (hc : c.In 0 1) (h0 : 2 ^ (-25:ℤ) < c.val) (k : ℕ) (f : Fade F32) (h : Up c f) (hp : 0 < f.mix.val)
    (hk : 1 - k * (c.val - 2 ^ (-25:ℤ)) ≤ f.mix.val) : ∃ j ≤ k + 1, OnB (hold c T j f) ∧ (hold c T j f).dB = f.dB := by
  have c0 : 0 < c.val := lt_trans (by positivity) h0
  induction k generalizing f with
  | zero =>
    have : f.mix.val = 1 := le_antisymm h.2.2.2 (by simpa using hk)
    exact ⟨1, le_rfl, (step_up hc c0 h).1 this⟩
  | succ k ih =>
    rcases h.2.2.2.eq_or_lt with h1 | h1
    · exact ⟨1, by omega, (step_up hc c0 h).1 h1⟩
    · obtain ⟨u, m, -, b⟩ := (step_up (T := T) hc c0 h).2.2 hp h1
      have hm : 0 < (fadeStep c T f).mix.val := lt_of_lt_of_le (lt_min one_pos (by linarith)) m
      obtain ⟨j, hj, o, d⟩ := ih _ u hm (by
        refine le_trans (le_min ?_ ?_) m
        · have : (0:ℚ) ≤ k * (c.val - 2 ^ (-25:ℤ)) := mul_nonneg (Nat.cast_nonneg k) (by linarith)
          linarith
        · push_cast at hk
          linarith)
      exact ⟨j + 1, by omega, o, d.trans b⟩

/-- A downward fade ends at tap A, which has not moved. -/
theorem down_ends (hc : c.In 0 1) (h0 : 2 ^ (-25:ℤ) < c.val) (k : ℕ) (f : Fade F32) (h : Down c f) (hp : f.mix.val < 1)
    (hk : f.mix.val ≤ k * (c.val - 2 ^ (-25:ℤ))) : ∃ j ≤ k + 1, OnA (hold c T j f) ∧ (hold c T j f).dA = f.dA := by
  have c0 : 0 < c.val := lt_trans (by positivity) h0
  induction k generalizing f with
  | zero =>
    have : f.mix.val = 0 := le_antisymm (by simpa using hk) h.2.2.1
    exact ⟨1, le_rfl, (step_down hc c0 h).1 this⟩
  | succ k ih =>
    rcases h.2.2.1.eq_or_lt with h1 | h1
    · exact ⟨1, by omega, (step_down hc c0 h).1 h1.symm⟩
    · obtain ⟨u, m, a, -⟩ := (step_down (T := T) hc c0 h).2.2 h1 hp
      have hm : (fadeStep c T f).mix.val < 1 := lt_of_le_of_lt m (max_lt one_pos (by linarith))
      obtain ⟨j, hj, o, d⟩ := ih _ u hm (by
        refine m.trans (max_le ?_ ?_)
        · exact mul_nonneg (Nat.cast_nonneg k) (by linarith)
        · push_cast at hk
          linarith)
      exact ⟨j + 1, by omega, o, d.trans a⟩

/-- From rest one fade suffices. -/
theorem rest_hears (hc : c.In 0 1) (h0 : 2 ^ (-25:ℤ) < c.val) (n : ℕ) (hn : 1 ≤ (n + 1) * (c.val - 2 ^ (-25:ℤ))) (f : Fade F32)
    (h : OnA f ∨ OnB f) : ∃ j ≤ n + 2, Hears T (hold c T j f) := by
  have d0 : 0 < c.val - 2 ^ (-25:ℤ) := by linarith
  rcases h with h | h
  · by_cases e : T = f.dA
    · exact ⟨0, by omega, Or.inl ⟨h, e.symm⟩⟩
    · obtain ⟨u, m, -, b⟩ := (step_onA hc h).2 e
      obtain ⟨j, hj, o, d⟩ := up_ends (T := T) hc h0 n _ u (lt_of_lt_of_le d0 m) (by linarith)
      exact ⟨j + 1, by omega, Or.inr ⟨o, d.trans b⟩⟩
  · by_cases e : T = f.dB
    · exact ⟨0, by omega, Or.inr ⟨h, e.symm⟩⟩
    · obtain ⟨u, m, a, -⟩ := (step_onB hc h).2 e
      obtain ⟨j, hj, o, d⟩ := down_ends (T := T) hc h0 n _ u (lt_of_le_of_lt m (by linarith)) (by linarith)
      exact ⟨j + 1, by omega, Or.inl ⟨o, d.trans a⟩⟩

/-- From anywhere the running fade ends first. -/
theorem fade_rests (hc : c.In 0 1) (h0 : 2 ^ (-25:ℤ) < c.val) (n : ℕ) (hn : 1 ≤ (n + 1) * (c.val - 2 ^ (-25:ℤ))) (f : Fade F32)
    (h : Fading c f) : ∃ j ≤ n + 2, OnA (hold c T j f) ∨ OnB (hold c T j f) := by
  have c0 : 0 < c.val := lt_trans (by positivity) h0
  rcases h with h | h | h | h
  · exact ⟨0, by omega, Or.inl h⟩
  · exact ⟨0, by omega, Or.inr h⟩
  · rcases h.2.2.1.eq_or_lt with a | a
    · exact ⟨1, by omega, Or.inl ((step_up hc c0 h).2.1 a.symm).1⟩
    · obtain ⟨j, hj, o, -⟩ := up_ends (T := T) hc h0 (n + 1) _ h a (by push_cast; linarith)
      exact ⟨j, by omega, Or.inr o⟩
  · rcases h.2.2.2.eq_or_lt with a | a
    · exact ⟨1, by omega, Or.inr ((step_down hc c0 h).2.1 a).1⟩
    · obtain ⟨j, hj, o, -⟩ := down_ends (T := T) hc h0 (n + 1) _ h a (by push_cast; linarith)
      exact ⟨j, by omega, Or.inl o⟩

/-- **C81, arrival (any step).** If `n + 1` steps, each short of its due by a rounding, make up the whole fade, then a request that stays for
`2 n + 4` samples is heard, whatever was requested before, and stays heard. -/
theorem arrives (c : F32) (hc : c.In 0 1) (h0 : 2 ^ (-25:ℤ) < c.val) (n : ℕ) (hn : 1 ≤ (n + 1) * (c.val - 2 ^ (-25:ℤ))) (ts : List ℤ)
    (T : ℤ) (k : ℕ) (hk : 2 * n + 4 ≤ k) : Hears T (fadeRun c (ts ++ List.replicate k T)) := by
  have hf := fadeRun_fading hc (lt_trans (by positivity) h0) ts
  obtain ⟨f, ef⟩ : ∃ f, f = fadeRun c ts := ⟨_, rfl⟩
  have e : ∀ (k : ℕ) (f : Fade F32), (List.replicate k T).foldl (fun f t => fadeStep c t f) f = hold c T k f := by
    intro k
    induction k with
    | zero => intro f; rfl
    | succ k ih => intro f; rw [List.replicate_succ, List.foldl_cons, ih]; rfl
  rw [fadeRun, List.foldl_append, e]
  change Hears T (hold c T k (fadeRun c ts))
  rw [← ef] at hf ⊢
  obtain ⟨j, hj, hr⟩ := fade_rests (T := T) hc h0 n hn f hf
  obtain ⟨i, hi, hh⟩ := rest_hears (T := T) hc h0 n hn _ hr
  have := hears_hold hc (k - (i + j)) hh
  rw [← hold_add, ← hold_add] at this
  rwa [show k - (i + j) + i + j = k by omega] at this

end

/-! ## The reverb's own step -/

/-- The step of the crossfades is one over the number of samples in 10 ms. -/
theorem c12_eq {sr : ℤ} (h1 : -2 ^ 31 ≤ sr) (h2 : sr < 2 ^ 31) {k : Consts F32} (hk : instanceConstants sr = some k) :
    ∃ n : ℤ, k.c12 = lit 1 / Arith.ofInt n ∧ 0 ≤ n ∧ n ≤ 1920 ∧
      n = ⌊(lit 0.01 * Arith.stdMin (lit 1.92e+05) (Arith.stdMax (lit 1) (Arith.ofInt sr)) : F32).val⌋ := by
  obtain ⟨n, hn, n0, n1, nf⟩ := n12_in (c0_in h1 h2)
  refine ⟨n, ?_, n0, n1, nf⟩
  unfold instanceConstants at hk
  dsimp only at hk
  iterate 5 obtain ⟨_, -, hk⟩ := Option.bind_eq_some_iff.1 hk
  obtain ⟨n', hn', hk⟩ := Option.bind_eq_some_iff.1 hk
  rw [hn] at hn'
  cases hn'
  iterate 23 obtain ⟨_, -, hk⟩ := Option.bind_eq_some_iff.1 hk
  cases hk
  rfl

/-- For sample rates from 101 Hz to 192 kHz it is `1 / n` with `1 ≤ n ≤ sr / 100 + 1`, up to a rounding. -/
theorem c12_step {sr : ℤ} (h1 : 101 ≤ sr) (h2 : sr ≤ 192000) {k : Consts F32} (hk : instanceConstants sr = some k) :
    ∃ n : ℕ, (n : ℤ) ≤ sr / 100 + 1 ∧ k.c12.In 0 1 ∧ 2 ^ (-25:ℤ) < k.c12.val ∧ 1 ≤ (n + 1) * (k.c12.val - 2 ^ (-25:ℤ)) := by
  obtain ⟨n, e, n0, n1, nf⟩ := c12_eq (by omega) (by omega) hk
  have hz := lit_zero (f := binary32)
  have ho := lit_one (f := binary32)
  have hsr : (Arith.ofInt sr : F32).In sr sr := by
    have r : binary32.Rep (sr : ℚ) false := by
      have := rep32_nat (n := sr.toNat) (by omega)
      have e : ((sr.toNat : ℕ) : ℚ) = sr := by
        have : ((sr.toNat : ℤ) : ℚ) = sr := by rw [Int.toNat_of_nonneg (by omega)]
        exact_mod_cast this
      rwa [e] at this
    exact ofRat_in r r le_rfl le_rfl
  have q1 : (101 : ℚ) ≤ sr := by exact_mod_cast h1
  have q2 : (sr : ℚ) ≤ 192000 := by exact_mod_cast h2
  have hc0 : (Arith.stdMin (lit 1.92e+05) (Arith.stdMax (lit 1) (Arith.ofInt sr)) : F32).In sr sr := by
    have m : (Arith.stdMax (lit 1) (Arith.ofInt sr) : F32) = Arith.ofInt sr := by
      unfold Arith.stdMax
      rw [if_pos (by rw [lt_fin ho.1 hsr.1, ho.val_eq, hsr.val_eq, decide_eq_true_eq]; linarith)]
    have hk : (lit 1.92e+05 : F32).In 192000 192000 := ⟨by decide +kernel, by decide +kernel, by decide +kernel⟩
    rw [m]
    unfold Arith.stdMin
    split_ifs with h
    · exact hsr
    · rw [Bool.not_eq_true, lt_fin hsr.1 hk.1, decide_eq_false_iff_not, not_lt, hk.val_eq, hsr.val_eq] at h
      have : (sr : ℚ) = 192000 := le_antisymm q2 h
      rw [this]; exact hk
  have hq : (lit 0.01 : F32).In (1 / 101) (1 / 100) := ⟨by decide +kernel, by decide +kernel, by decide +kernel⟩
  have hM : (lit 0.01 * Arith.stdMin (lit 1.92e+05) (Arith.stdMax (lit 1) (Arith.ofInt sr)) : F32).In 1 ((sr / 100 + 1 : ℤ) : ℚ) := by
    have r : binary32.Rep ((sr / 100 + 1 : ℤ) : ℚ) false := by
      have := rep32_nat (n := (sr / 100 + 1).toNat) (by omega)
      have e : (((sr / 100 + 1).toNat : ℕ) : ℚ) = ((sr / 100 + 1 : ℤ) : ℚ) := by
        have : (((sr / 100 + 1).toNat : ℤ) : ℚ) = ((sr / 100 + 1 : ℤ) : ℚ) := by rw [Int.toNat_of_nonneg (by omega)]
        exact_mod_cast this
      rwa [e] at this
    refine mul_in hq.1 hc0.1 rep_one r ?_ ?_ <;> rw [hc0.val_eq]
    · nlinarith [hq.2.1]
    · have : (sr : ℚ) ≤ ((sr / 100 + 1 : ℤ) : ℚ) * 100 := by
        have : sr ≤ (sr / 100 + 1) * 100 := by omega
        exact_mod_cast this
      nlinarith [hq.2.2]
  have n2 : 1 ≤ n := by rw [nf, Int.le_floor]; exact_mod_cast hM.2.1
  have n3 : n ≤ sr / 100 + 1 := by
    have h := (Int.floor_le _).trans hM.2.2
    rw [← nf] at h
    exact_mod_cast h
  have q3 : (1 : ℚ) ≤ n := by exact_mod_cast n2
  have q4 : (n : ℚ) ≤ 1920 := by exact_mod_cast n1
  have hN : (Arith.ofInt n : F32).In n n := by
    have r : binary32.Rep (n : ℚ) false := by
      have := rep32_nat (n := n.toNat) (by omega)
      have e : ((n.toNat : ℕ) : ℚ) = n := by
        have : ((n.toNat : ℤ) : ℚ) = n := by rw [Int.toNat_of_nonneg (by omega)]
        exact_mod_cast this
      rwa [e] at this
    exact ofRat_in r r le_rfl le_rfl
  have d0 : (0:ℚ) ≤ 1 / n := by positivity
  have d1 : (1:ℚ) / n ≤ 1 := by rw [div_le_one (by linarith)]; exact q3
  have hne : (Arith.ofInt n : F32).val ≠ 0 := by rw [hN.val_eq]; linarith
  have hI := div_in ho.1 hN.1 hne rep_zero rep_one (by rw [ho.val_eq, hN.val_eq]; exact d0) (by rw [ho.val_eq, hN.val_eq]; exact d1)
  have hV := div_val ho.1 hN.1 hne rep_zero rep_one (by rw [ho.val_eq, hN.val_eq]; exact d0) (by rw [ho.val_eq, hN.val_eq]; exact d1)
  have hE := rnd_err_unit (x := 1 / (n:ℚ)) (by rw [abs_of_nonneg d0]; exact d1)
  have hv := hV.2
  rw [ho.val_eq, hN.val_eq] at hv
  rw [← hv, ← e] at hE
  rw [← e] at hI
  have e25 : (2:ℚ) ^ (-25:ℤ) = 1 / 33554432 := by norm_num
  rw [e25] at hE ⊢
  rw [abs_le] at hE
  have d2 : (1:ℚ) / 1920 ≤ 1 / n := one_div_le_one_div_of_le (by linarith) q4
  refine ⟨n.toNat, by omega, hI, by linarith [hE.2], ?_⟩
  have en : ((n.toNat : ℕ) : ℚ) = n := by
    have : ((n.toNat : ℤ) : ℚ) = n := by rw [Int.toNat_of_nonneg (by omega)]
    exact_mod_cast this
  rw [en]
  have l : (1:ℚ) / n - 1 / 16777216 ≤ k.c12.val - 1 / 33554432 := by linarith [hE.2]
  have l2 : ((n:ℚ) + 1) * (1 / n - 1 / 16777216) ≤ (n + 1) * (k.c12.val - 1 / 33554432) := mul_le_mul_of_nonneg_left l (by linarith)
  refine le_trans ?_ l2
  have : ((n:ℚ) + 1) * (1 / n - 1 / 16777216) = 1 + (1 / n - (n + 1) / 16777216) := by field_simp; ring
  rw [this]
  have : ((n:ℚ) + 1) / 16777216 ≤ 1921 / 16777216 := by gcongr; linarith
  have : (1921:ℚ) / 16777216 ≤ 1 / 1920 := by norm_num
  linarith

/-- **C81, arrival.** At sample rates from 101 Hz to 192 kHz, after any requests `ts`, a delay requested for `2 (sr / 100) + 6` samples or
more (20 ms and a few samples) is the one heard: one of the two taps has all the weight and is at that delay, and nothing moves. -/
theorem C81_arrives (sr : ℤ) (h1 : 101 ≤ sr) (h2 : sr ≤ 192000) (k : Consts F32) (hk : instanceConstants sr = some k) (ts : List ℤ)
    (T : ℤ) (m : ℕ) (hm : 2 * (sr / 100) + 6 ≤ m) : Hears T (fadeRun k.c12 (ts ++ List.replicate m T)) := by
  obtain ⟨n, hn, hc, h0, hs⟩ := c12_step h1 h2 hk
  exact arrives k.c12 hc h0 n hs ts T m (by omega)

/-- **C81, no clicks in the reverb.** The same rates: `C81_no_click` applies to the reverb's own step. -/
theorem C81_no_click_reverb (sr : ℤ) (h1 : 101 ≤ sr) (h2 : sr ≤ 192000) (k : Consts F32) (hk : instanceConstants sr = some k)
    (ts : List ℤ) (t : ℤ) :
    let f := fadeRun k.c12 ts
    let f' := fadeRun k.c12 (ts ++ [t])
    f'.mix.In 0 1 ∧ |f'.mix.val - f.mix.val| ≤ k.c12.val + 2 ^ (-25:ℤ) ∧ (f'.dA ≠ f.dA → f.mix.val = 1) ∧
      (f'.dB ≠ f.dB → f.mix.val = 0) := by
  obtain ⟨n, -, hc, h0, -⟩ := c12_step h1 h2 hk
  exact C81_no_click k.c12 hc (lt_trans (by positivity) h0) ts t

/-- **C81, what the fades are.** After any number of frames of any input, from the cleared reverb, the two crossfades are the result of one
request per frame each. -/
theorem C81_reverb_fades [Libm F32] {L : Type} (I : LineImpl L F32) (k : Consts F32) (p : Params F32) (xs : List (Stereo F32))
    (s : State L F32) (ys : List (Stereo F32)) (h : compute I k p (clear I) xs = some (s, ys)) :
    ∃ tR tL : List ℤ, tR.length = xs.length ∧ tL.length = xs.length ∧ s.ctrl.fadeR = fadeRun k.c12 tR ∧ s.ctrl.fadeL = fadeRun k.c12 tL := by
  have key : ∀ (xs : List (Stereo F32)) (sl : Slow F32) (s s' : State L F32) (ys : List (Stereo F32)), loop I k sl s xs = some (s', ys) →
      ∃ tR tL : List ℤ, tR.length = xs.length ∧ tL.length = xs.length ∧
        s'.ctrl.fadeR = tR.foldl (fun f t => fadeStep k.c12 t f) s.ctrl.fadeR ∧
        s'.ctrl.fadeL = tL.foldl (fun f t => fadeStep k.c12 t f) s.ctrl.fadeL := by
    intro xs sl
    induction xs with
    | nil =>
      intro s s' ys h
      rw [loop] at h
      cases h
      exact ⟨[], [], rfl, rfl, rfl, rfl⟩
    | cons x xs ih =>
      intro s s' ys h
      rw [loop] at h
      obtain ⟨⟨s1, y⟩, hs, h⟩ := Option.bind_eq_some_iff.1 h
      dsimp only at h
      obtain ⟨⟨s2, ys'⟩, hl, h⟩ := Option.map_eq_some_iff.1 h
      cases h
      obtain ⟨tR, tL, a, b, eR, eL⟩ := ih s1 s2 ys' hl
      have : ∃ r l : ℤ, s1.ctrl.fadeR = fadeStep k.c12 r s.ctrl.fadeR ∧ s1.ctrl.fadeL = fadeStep k.c12 l s.ctrl.fadeL := by
        unfold step at hs
        obtain ⟨⟨c, pre⟩, hc, hs⟩ := Option.bind_eq_some_iff.1 hs
        dsimp only at hs
        iterate 8 obtain ⟨_, -, hs⟩ := Option.bind_eq_some_iff.1 hs
        obtain ⟨_, -, hs⟩ := Option.map_eq_some_iff.1 hs
        cases hs
        dsimp only
        unfold ctrlStep at hc
        dsimp only at hc
        iterate 5 obtain ⟨_, -, hc⟩ := Option.bind_eq_some_iff.1 hc
        obtain ⟨tr, -, hc⟩ := Option.bind_eq_some_iff.1 hc
        iterate 2 obtain ⟨_, -, hc⟩ := Option.bind_eq_some_iff.1 hc
        obtain ⟨tl, -, hc⟩ := Option.bind_eq_some_iff.1 hc
        cases hc
        exact ⟨tr, tl, rfl, rfl⟩
      obtain ⟨r, l, er, el⟩ := this
      exact ⟨r :: tR, l :: tL, by simp [a], by simp [b], by rw [eR, er]; rfl, by rw [eL, el]; rfl⟩
  exact key xs (slow k p) _ s ys h

/-- **C81, what is heard** (exact arithmetic). The sample read from a modulated delay is the weighted mean of the two taps, all of tap A at
mix 0 and all of tap B at mix 1. -/
theorem C81_heard [Libm ℝ] {L : Type} (I : LineImpl L ℝ) (tailN outBN : ℕ) (iota d dT : ℤ) (c : Ctrl ℝ) (f : Fade ℝ)
    (toTail toB : ℝ → ℝ) (fb x4 : ℝ) (prev h h' : Half L ℝ)
    (hs : tankStep I tailN outBN iota d dT c f toTail toB fb x4 prev h = some h') :
    ∃ a b : ℝ, I.rd 131072 h'.modLine iota (clampDelay f.dA) = some a ∧ I.rd 131072 h'.modLine iota (clampDelay f.dB) = some b ∧
      h'.modOut = (1 - f.mix) * a + f.mix * b ∧ (f.mix = 0 → h'.modOut = a) ∧ (f.mix = 1 → h'.modOut = b) := by
  unfold tankStep at hs
  dsimp only at hs
  obtain ⟨m, -, hs⟩ := Option.bind_eq_some_iff.1 hs
  obtain ⟨a, ha, hs⟩ := Option.bind_eq_some_iff.1 hs
  obtain ⟨b, hb, hs⟩ := Option.bind_eq_some_iff.1 hs
  iterate 6 obtain ⟨_, -, hs⟩ := Option.bind_eq_some_iff.1 hs
  obtain ⟨_, -, hs⟩ := Option.map_eq_some_iff.1 hs
  cases hs
  refine ⟨a, b, ha, hb, ?_, fun e => ?_, fun e => ?_⟩
  · show a + f.mix * (b - a) = _
    ring
  · show a + f.mix * (b - a) = _
    rw [e]; ring
  · show a + f.mix * (b - a) = _
    rw [e]; ring

/-- Instance: at 48 kHz (480 steps) a request of 1500 samples that follows one of 1400 is heard after 966 samples. -/
example [Libm F32] : ∃ k : Consts F32, instanceConstants 48000 = some k ∧
    Hears 1500 (fadeRun k.c12 ([0, 1400, 1400, 1400] ++ List.replicate 966 1500)) := by
  obtain ⟨k, hk, -⟩ := C48_delays_fit 48000 (by norm_num) (by norm_num)
  exact ⟨k, hk, C81_arrives 48000 (by norm_num) (by norm_num) k hk _ _ _ (by norm_num)⟩

end Verif.FVerbDSP
