import Verif.Model.Envelopes
import Verif.Float.LibmSpec
import Verif.Lemmas.Loops

/-! # Single-precision range lemmas for the envelopes -/

namespace Verif
open FP

theorem expCoeff_in [Libm F32] [LibmSpec] {t sr : F32} (ht : t.Pos) (hs : sr.Pos) :
    (Libm.exp (-lit 1 / (t * sr)) : F32).In 0 1 := by
  apply LibmSpec.exp_nonpos
  have h1 : (-lit 1 : F32).In (-1) (-1) := neg_in lit_one
  exact neg_div_nonPos h1.1 (by rw [h1.val_eq]; norm_num) (ht.mul_posSign hs)

/-- `time > 0.0001f ? time : 0.0001f` is positive whatever `time` is, NaN included. -/
theorem clampTime_pos (t : F32) : (if t >. lit 0.0001 then t else lit 0.0001 : F32).Pos := by
  split_ifs with h
  · have hl : (lit 0.0001 : F32).Pos := by decide +kernel
    rcases hl with hl | ⟨hl, hl0⟩
    · rw [hl] at h
      cases t with
      | nan => simp [Arith.lt, FP.lt] at h
      | inf b => simp [Arith.lt, FP.lt] at h
      | fin v nz hv => simp [Arith.lt, FP.lt] at h
    · cases t with
      | nan =>
        obtain ⟨w, nw, hw, e⟩ := isFin_cases hl
        rw [e] at h; simp [Arith.lt, FP.lt] at h
      | inf b =>
        obtain ⟨w, nw, hw, e⟩ := isFin_cases hl
        rw [e] at h
        cases b
        · exact Or.inl rfl
        · simp [Arith.lt, FP.lt] at h
      | fin v nz hv =>
        rw [lt_fin hl rfl] at h
        right
        exact ⟨rfl, hl0.trans (of_decide_eq_true h)⟩
  · decide +kernel

theorem attack_in {a v : F32} (ha : a.In 0 1) (hv : v.In 0 1) :
    (lit 1 - a * (lit 1 - v) : F32).In 0 1 := by
  have h1 : (lit 1 - v : F32).In 0 1 := sub_in lit_one hv rep_zero rep_one (by norm_num) (by norm_num)
  have h2 : (a * (lit 1 - v) : F32).In 0 1 :=
    mul_in ha.1 h1.1 rep_zero rep_one (mul_nonneg ha.2.1 h1.2.1) (mul_le_one₀ ha.2.2 h1.2.1 h1.2.2)
  exact sub_in lit_one h2 rep_zero rep_one (by norm_num) (by norm_num)

theorem release_in {a v : F32} (ha : a.In 0 1) (hv : v.In 0 1) : (a * v : F32).In 0 1 :=
  mul_in ha.1 hv.1 rep_zero rep_one (mul_nonneg ha.2.1 hv.2.1) (mul_le_one₀ ha.2.2 hv.2.1 hv.2.2)

theorem decay_in {d v s : F32} (hd : d.In 0 1) (hv : v.In 0 1) (hs : s.In 0 1) :
    (s + d * (v - s) : F32).In 0 1 := by
  have r1 : binary32.Rep 1 false := rep_one
  have rm1 : binary32.Rep (-1) false := Rep.neg rep_one
  have r2 : binary32.Rep 2 false := by decide +kernel
  obtain ⟨hw, hwv⟩ := sub_val (x := v) (y := s) hv.1 hs.1 rm1 r1
    (by linarith [hv.2.1, hs.2.2]) (by linarith [hv.2.2, hs.2.1])
  set w := v - s with hwdef
  have hw1 : w.val ≤ 1 := by
    rw [hwv]; exact binary32.rnd_le_of_le r1.1 (by simp; linarith [hv.2.2, hs.2.1])
  have hwl : -s.val ≤ w.val := by
    rw [hwv]; exact binary32.le_rnd_of_le (grid_val s).neg (by simp; linarith [hv.2.1])
  have hw2 : w.val ≤ v.val - s.val + 2 ^ (-25 : ℤ) ∨ s.val = 0 := by
    by_cases h : v.val - s.val = 1
    · right; linarith [hv.2.2, hs.2.1]
    · left
      have hlt : |v.val - s.val| < 2 ^ (0:ℤ) ∨ v.val - s.val = -1 := by
        rw [zpow_zero, abs_lt]
        by_cases h2 : v.val - s.val = -1
        · exact Or.inr h2
        · left
          have a1 : -1 ≤ v.val - s.val := by linarith [hv.2.1, hs.2.2]
          have a2 : v.val - s.val ≤ 1 := by linarith [hv.2.2, hs.2.1]
          exact ⟨lt_of_le_of_ne a1 (Ne.symm h2), lt_of_le_of_ne a2 h⟩
      rcases hlt with hlt | hlt
      · have := binary32.rnd_err_of_lt (K := ℚ) hlt (by decide)
        simp only [Rat.cast_id] at this
        rw [← hwv] at this
        have := (abs_le.mp this).1
        have e : (2:ℚ) ^ ((0:ℤ) - (binary32.prec : ℤ) - 1) = 2 ^ (-25 : ℤ) := by norm_num [binary32]
        linarith
      · rw [hwv, hlt]
        have := binary32.rnd_grid (K := ℚ) rm1.1
        simp only [Rat.cast_neg, Rat.cast_one] at this
        rw [this]
        have : (0:ℚ) < 2 ^ (-25 : ℤ) := by positivity
        linarith
  have hd0 := hd.2.1
  have hd1 := hd.2.2
  have hs0 := hs.2.1
  have hs1 := hs.2.2
  have hv1 := hv.2.2
  -- the product lies between `w` and `0`
  obtain ⟨hm, hmv⟩ := mul_val (x := d) (y := w) hd.1 hw rm1 r1
    (by nlinarith) (by nlinarith)
  set m := d * w with hmdef
  have hmu : m.val ≤ max 0 w.val := by
    rw [hmv]
    rcases le_total 0 w.val with h | h
    · rw [max_eq_right h]; exact binary32.rnd_le_of_le (grid_val w) (by simp; nlinarith)
    · rw [max_eq_left h]; exact binary32.rnd_le_of_le binary32.grid_zero (by simp; nlinarith)
  have hml : min 0 w.val ≤ m.val := by
    rw [hmv]
    rcases le_total 0 w.val with h | h
    · rw [min_eq_left h]; exact binary32.le_rnd_of_le binary32.grid_zero (by simp; nlinarith)
    · rw [min_eq_right h]; exact binary32.le_rnd_of_le (grid_val w) (by simp; nlinarith)
  have hsm0 : 0 ≤ s.val + m.val := by
    rcases min_choice 0 w.val with h | h <;> rw [h] at hml <;> linarith
  have hsm1 : s.val + m.val ≤ 1 + 2 ^ (-(binary32.prec : ℤ)) := by
    have e : (2:ℚ) ^ (-25 : ℤ) ≤ 2 ^ (-(binary32.prec : ℤ)) := zpow_le_zpow_right₀ (by norm_num) (by decide)
    have e0 : (0:ℚ) < 2 ^ (-25 : ℤ) := by positivity
    rcases max_choice 0 w.val with h | h <;> rw [h] at hmu
    · linarith
    · rcases hw2 with h2 | h2 <;> linarith
  have hp : (2:ℚ) ^ (-(binary32.prec : ℤ)) ≤ 1 := by norm_num [binary32]
  obtain ⟨hf, hfv⟩ := add_val (x := s) (y := m) hs.1 hm rep_zero r2 hsm0 (by linarith)
  refine ⟨hf, ?_, ?_⟩
  · rw [hfv]; exact binary32.le_rnd_of_le binary32.grid_zero (by simpa using hsm0)
  · rw [hfv]; exact binary32.rnd_le_one hsm1

theorem clamp01_in {x : F32} (hx : x ≠ .nan) : (clamp x (lit 0) (lit 1) : F32).In 0 1 := by
  have h0 : (lit 0 : F32).In 0 0 := lit_zero
  have h1 : (lit 1 : F32).In 1 1 := lit_one
  unfold clamp
  split_ifs with ha hb
  · exact h0.mono le_rfl zero_le_one
  · exact h1.mono zero_le_one le_rfl
  · rcases not_nan_cases hx with rfl | rfl | hf
    · obtain ⟨v, nz, hv, e⟩ := isFin_cases h0.1
      rw [e] at ha; exact absurd rfl ha
    · obtain ⟨v, nz, hv, e⟩ := isFin_cases h1.1
      rw [e] at hb; exact absurd rfl hb
    · rw [lt_fin hf h0.1] at ha
      rw [lt_fin h1.1 hf] at hb
      rw [h0.val_eq] at ha
      rw [h1.val_eq] at hb
      exact ⟨hf, by simpa using ha, by simpa using hb⟩

end Verif
