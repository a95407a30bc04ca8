import Verif.Props.CombLine
import Verif.Props.BadSample

/-!
# C35 and C83: the comb in single precision

Where the read position lies in single precision, the recurrence of a whole delay to the last bit, and what one NaN does.
-/

set_option linter.unusedSectionVars false

namespace Verif
open FP CombC

namespace CombC

theorem repSub {a b : ℕ} (ha : a ≤ 2 ^ 24) (hb : b ≤ 2 ^ 24) : binary32.Rep ((a : ℚ) - b) false := by
  rcases le_total b a with h | h
  · have := repNat (n := a - b) (by omega)
    rwa [Nat.cast_sub h] at this
  · have := Rep.neg (repNat (n := b - a) (by omega))
    rw [Nat.cast_sub h, neg_sub] at this
    refine ⟨this.1, this.2.1, by simp⟩

/-- One rounding of a number of at most `2 ^ 23`. -/
theorem round_err {q : ℚ} {zs : Bool} (hq : |q| ≤ 2 ^ 23) : |(ofRat q zs : F32).val - q| ≤ |q| / 2 ^ 24 + 1 / 2 ^ 149 := by
  have R : binary32.Rep (2 ^ 23) false := rep_two_pow (by norm_num)
  obtain ⟨l, u⟩ := abs_le.1 hq
  have hv := ofRat_val (f := binary32) (zs := zs) (Rep.neg R) R l u
  have h2 := binary32.rnd_rel_err (K := ℚ) q
  simp only [Rat.cast_id] at h2
  rw [← hv] at h2
  have e1 : (2:ℚ) ^ (-(binary32.prec : ℤ)) = 1 / 2 ^ 24 := by norm_num [binary32]
  have e2 : (2:ℚ) ^ (binary32.emin - 1) ≤ 1 / 2 ^ 149 := by
    have e : (1:ℚ) / 2 ^ 149 = 2 ^ (-149 : ℤ) := by norm_num
    rw [e]; exact zpow_le_zpow_right₀ (by norm_num) (by decide)
  rw [e1, abs_sub_comm] at h2
  exact h2.trans (by linarith)

/-- The read position with a delay between `c - 1` and `c` samples: the sample of age `c`, or the one after it,
and how far the position is from the exact one. -/
theorem readPos_near {s : Comb F32} (h : Safe s) {c : ℕ} (hc1 : 1 ≤ c) (hcN : c ≤ s.bufferSize)
    (hD0 : (c : ℚ) - 1 ≤ (s.delayTime * s.sampleRate).val) (hD1 : (s.delayTime * s.sampleRate).val ≤ c) {fuel : ℕ} (hf : 1 ≤ fuel) :
    ∃ (r : F32) (n e : ℕ), wrapLoop (Arith.ofNat s.bufferSize) fuel (Arith.ofNat s.writePos - s.delayTime * s.sampleRate) = some r ∧
      Arith.toSize? r = some n ∧ n ≤ s.bufferSize ∧ e ≤ 1 ∧ n % s.bufferSize = (s.writePos + s.bufferSize - c + e) % s.bufferSize ∧
      r.isFin = true ∧ ((s.delayTime * s.sampleRate).val = c → e = 0 ∧ r.val = n) ∧
      (n : ℚ) ≤ r.val ∧ ∃ t : ℚ, 0 ≤ t ∧ t ≤ 1 ∧ r.val = n - e + t ∧ |t - (c - (s.delayTime * s.sampleRate).val)| ≤ (2 * s.bufferSize + 1) / 2 ^ 24 := by
  have hw : s.writePos ≤ 2 ^ 24 := by have := h.pos; have := h.hi; omega
  have hN24 : s.bufferSize ≤ 2 ^ 24 := by have := h.hi; omega
  have hd : (s.delayTime * s.sampleRate).In 0 (2 ^ 22 : ℚ) :=
    mul_in h.dt h.sr.1 rep_zero (rep_two_pow (by norm_num)) (mul_nonneg h.dt0 h.sr.2.1) h.dtp
  obtain ⟨D, hD⟩ : ∃ D, D = s.delayTime * s.sampleRate := ⟨_, rfl⟩
  rw [← hD] at hd hD0 hD1 ⊢
  have hpos := h.pos
  have hlo := h.lo
  have hhi := h.hi
  have hc24 : (c - 1 : ℕ) ≤ 2 ^ 24 := by omega
  have hcc : ((c - 1 : ℕ) : ℚ) = c - 1 := by push_cast [hc1]; ring
  have e1 : ((s.writePos + 1 : ℕ) : ℚ) - c = s.writePos - ((c - 1 : ℕ) : ℚ) := by rw [hcc]; push_cast; ring
  have r0 : (Arith.ofNat s.writePos - D : F32).In ((s.writePos : ℚ) - c) (((s.writePos + 1 : ℕ) : ℚ) - c) := by
    refine sub_in (ofNat_in hw) (in_val hd.1) (repSub hw (by omega)) (repSub (by omega) (by omega)) ?_ ?_
    · linarith
    · push_cast; linarith
  have r0' : D.val = c → (Arith.ofNat s.writePos - D : F32).val = (s.writePos : ℚ) - c := by
    intro hc
    have := (sub_in (ofNat_in hw) (in_val hd.1) (repSub hw (b := c) (by omega)) (repSub hw (b := c) (by omega)) (by rw [hc]) (by rw [hc]) :
      (Arith.ofNat s.writePos - D : F32).In ((s.writePos : ℚ) - c) ((s.writePos : ℚ) - c))
    exact this.val_eq
  have hNq : (s.bufferSize : ℚ) ≤ 2 ^ 22 + 4 := by exact_mod_cast hhi
  have hwq : (s.writePos : ℚ) ≤ s.bufferSize := by exact_mod_cast hpos.le
  have hcq : (c : ℚ) ≤ s.bufferSize := by exact_mod_cast hcN
  have hc1q : (1 : ℚ) ≤ c := by exact_mod_cast hc1
  have hw0 : (0 : ℚ) ≤ s.writePos := by positivity
  have hwv : (Arith.ofNat s.writePos : F32).val = s.writePos := (ofNat_in hw).val_eq
  have hNv : (Arith.ofNat s.bufferSize : F32).val = s.bufferSize := (ofNat_in hN24).val_eq
  have rerr : |(Arith.ofNat s.writePos - D : F32).val - (s.writePos - D.val)| ≤ s.bufferSize / 2 ^ 24 + 1 / 2 ^ 149 := by
    obtain ⟨zs, k⟩ := sub_def (ofNat_in hw).1 hd.1
    have hb : |(s.writePos : ℚ) - D.val| ≤ s.bufferSize := abs_le.2 ⟨by linarith, by linarith⟩
    rw [k, hwv]
    refine (round_err (hb.trans (by norm_num at hNq ⊢; linarith))).trans ?_
    gcongr
  obtain ⟨p, hp⟩ : ∃ p, p = (Arith.ofNat s.writePos - D : F32) := ⟨_, rfl⟩
  rw [← hp] at r0 r0' rerr ⊢
  obtain ⟨f, rfl⟩ : ∃ f, fuel = f + 1 := ⟨fuel - 1, by omega⟩
  rw [wrapLoop, lt_fin r0.1 (lit_zero).1, lit_zero.val_eq]
  by_cases hneg : p.val < 0
  · rw [if_pos (by simpa using hneg)]
    have hwc : s.writePos < c := by
      by_contra hh
      have : (c:ℚ) ≤ s.writePos := by exact_mod_cast not_lt.1 hh
      linarith [r0.2.1]
    have b1 : (p + Arith.ofNat s.bufferSize : F32).In ((s.writePos + s.bufferSize : ℕ) - (c:ℚ)) ((s.writePos + s.bufferSize + 1 : ℕ) - (c:ℚ)) := by
      refine add_in (in_val r0.1) (ofNat_in hN24) (repSub (by omega) (by omega)) (repSub (by omega) (by omega)) ?_ ?_
      · push_cast; linarith [r0.2.1]
      · have := r0.2.2; push_cast at this ⊢; linarith
    have b2 : D.val = c → (p + Arith.ofNat s.bufferSize : F32).val = ((s.writePos + s.bufferSize : ℕ) - (c:ℚ)) := by
      intro hc
      have := (add_in (in_val r0.1) (ofNat_in hN24) (repSub (a := s.writePos + s.bufferSize) (b := c) (by omega) (by omega))
        (repSub (a := s.writePos + s.bufferSize) (b := c) (by omega) (by omega)) (by rw [r0' hc]; push_cast; linarith)
        (by rw [r0' hc]; push_cast; linarith) : (p + Arith.ofNat s.bufferSize : F32).In _ _)
      exact this.val_eq
    have berr : |(p + Arith.ofNat s.bufferSize : F32).val - (p.val + s.bufferSize)| ≤ s.bufferSize / 2 ^ 24 + 1 / 2 ^ 149 := by
      obtain ⟨zs, k⟩ := add_def r0.1 (ofNat_in hN24).1
      have hb : |p.val + (s.bufferSize : ℚ)| ≤ s.bufferSize := abs_le.2 ⟨by linarith [r0.2.1], by linarith⟩
      rw [k, hNv]
      refine (round_err (hb.trans (by norm_num at hNq ⊢; linarith))).trans ?_
      gcongr
    obtain ⟨q, hq⟩ : ∃ q, q = (p + Arith.ofNat s.bufferSize : F32) := ⟨_, rfl⟩
    rw [← hq] at b1 b2 berr ⊢
    have hq0 : 0 ≤ q.val := by
      have : (c:ℚ) ≤ ((s.writePos + s.bufferSize : ℕ) : ℚ) := by exact_mod_cast (by omega : c ≤ s.writePos + s.bufferSize)
      linarith [b1.2.1]
    have hqN : q.val ≤ s.bufferSize := by
      have : ((s.writePos + 1 : ℕ) : ℚ) ≤ c := by exact_mod_cast hwc
      have h2 := b1.2.2
      push_cast at this h2; linarith
    have hN22 : (s.bufferSize : ℚ) ≤ 2 ^ 22 + 4 := by exact_mod_cast hhi
    have hsz := toSize_fin b1.1 hq0 (lt_of_le_of_lt hqN (lt_of_le_of_lt hN22 (by norm_num)))
    have hf0 : (0:ℤ) ≤ ⌊q.val⌋ := Int.floor_nonneg.2 hq0
    have hl : ((s.writePos + s.bufferSize - c : ℕ) : ℤ) ≤ ⌊q.val⌋ := by
      rw [Int.le_floor]
      push_cast [Nat.cast_sub (by omega : c ≤ s.writePos + s.bufferSize)]
      have := b1.2.1; push_cast at this; exact this
    have hu : ⌊q.val⌋ ≤ ((s.writePos + s.bufferSize - c + 1 : ℕ) : ℤ) := by
      have h2 : q.val ≤ ((s.writePos + s.bufferSize - c + 1 : ℕ) : ℚ) := by
        push_cast [Nat.cast_sub (by omega : c ≤ s.writePos + s.bufferSize)]
        have := b1.2.2; push_cast at this; linarith
      have : (⌊q.val⌋ : ℚ) ≤ ((s.writePos + s.bufferSize - c + 1 : ℕ) : ℚ) := le_trans (Int.floor_le _) h2
      exact_mod_cast this
    have hNq : ⌊q.val⌋.toNat ≤ s.bufferSize := by
      have : (⌊q.val⌋ : ℚ) ≤ s.bufferSize := le_trans (Int.floor_le _) hqN
      have : ⌊q.val⌋ ≤ s.bufferSize := by exact_mod_cast this
      omega
    refine ⟨q, ⌊q.val⌋.toNat, ⌊q.val⌋.toNat - (s.writePos + s.bufferSize - c), ?_, hsz, hNq, by omega, ?_, b1.1, ?_, ?_, q.val - ((s.writePos + s.bufferSize : ℕ) - (c:ℚ)), ?_, ?_, ?_, ?_⟩
    · cases f <;> (rw [wrapLoop, lt_fin b1.1 (lit_zero).1, lit_zero.val_eq]; rw [if_neg (by simpa using hq0)])
    · congr 1; omega
    · intro hc
      have h2 : q.val = ((s.writePos + s.bufferSize - c : ℕ) : ℚ) := by
        rw [b2 hc]; push_cast [Nat.cast_sub (by omega : c ≤ s.writePos + s.bufferSize)]; ring
      rw [h2, Int.floor_natCast]
      simp
    · have h3 : ((⌊q.val⌋.toNat : ℕ) : ℚ) = ⌊q.val⌋ := by exact_mod_cast congrArg (Int.cast (R := ℚ)) (Int.toNat_of_nonneg hf0)
      rw [h3]; exact Int.floor_le _
    · linarith [b1.2.1]
    · have := b1.2.2; push_cast at this ⊢; linarith
    · have h3 : ((⌊q.val⌋.toNat - (s.writePos + s.bufferSize - c) : ℕ) : ℚ) = (⌊q.val⌋.toNat : ℚ) - ((s.writePos + s.bufferSize : ℕ) - (c:ℚ)) := by
        rw [Nat.cast_sub (by omega), Nat.cast_sub (by omega)]
      rw [h3]; ring
    · push_cast
      rw [show q.val - ((s.writePos : ℚ) + s.bufferSize - c) - (c - D.val) =
        (q.val - (p.val + s.bufferSize)) + (p.val - (s.writePos - D.val)) by ring]
      refine (abs_add_le _ _).trans ?_
      have : (1:ℚ) / 2 ^ 149 ≤ 1 / 2 / 2 ^ 24 := by norm_num
      linarith
  · rw [if_neg (by simpa using hneg)]
    have hp0 : 0 ≤ p.val := not_lt.1 hneg
    have hpw : p.val ≤ s.writePos := by
      have h2 := r0.2.2
      have : (1:ℚ) ≤ c := by exact_mod_cast hc1
      push_cast at h2; linarith
    have hw22 : (s.writePos : ℚ) ≤ 2 ^ 22 + 4 := by exact_mod_cast (by omega : s.writePos ≤ 2 ^ 22 + 4)
    have hsz := toSize_fin r0.1 hp0 (lt_of_le_of_lt hpw (lt_of_le_of_lt hw22 (by norm_num)))
    have hl : ((s.writePos : ℤ) - c) ≤ ⌊p.val⌋ := by
      rw [Int.le_floor]; push_cast; exact r0.2.1
    have hu : ⌊p.val⌋ ≤ (s.writePos : ℤ) - c + 1 := by
      have : (⌊p.val⌋ : ℚ) ≤ (s.writePos : ℚ) - c + 1 := le_trans (Int.floor_le _) (by have := r0.2.2; push_cast at this; linarith)
      exact_mod_cast this
    have hf0 : (0:ℤ) ≤ ⌊p.val⌋ := Int.floor_nonneg.2 hp0
    refine ⟨p, ⌊p.val⌋.toNat, (⌊p.val⌋.toNat + s.bufferSize) - (s.writePos + s.bufferSize - c), rfl, hsz, ?_, by omega, ?_, r0.1, ?_, ?_, p.val - (s.writePos - c), ?_, ?_, ?_, ?_⟩
    · omega
    · rw [← Nat.add_mod_right ⌊p.val⌋.toNat]
      congr 1; omega
    · intro hc
      have h2 := r0' hc
      have hcw : c ≤ s.writePos := by
        have : (c:ℚ) ≤ s.writePos := by linarith
        exact_mod_cast this
      have h3 : p.val = ((s.writePos - c : ℕ) : ℚ) := by rw [h2, Nat.cast_sub hcw]
      rw [h3, Int.floor_natCast]
      constructor
      · simp; omega
      · simp
    · have h3 : ((⌊p.val⌋.toNat : ℕ) : ℚ) = ⌊p.val⌋ := by exact_mod_cast congrArg (Int.cast (R := ℚ)) (Int.toNat_of_nonneg hf0)
      rw [h3]; exact Int.floor_le _
    · linarith [r0.2.1]
    · have := r0.2.2; push_cast at this; linarith
    · have h3 : ((⌊p.val⌋.toNat + s.bufferSize - (s.writePos + s.bufferSize - c) : ℕ) : ℚ) = (⌊p.val⌋.toNat : ℚ) - (s.writePos - (c:ℚ)) := by
        rw [Nat.cast_sub (by omega), Nat.cast_sub (by omega)]; push_cast; ring
      rw [h3]; ring
    · rw [show p.val - ((s.writePos : ℚ) - c) - (c - D.val) = p.val - (s.writePos - D.val) by ring]
      refine rerr.trans ?_
      have : (1:ℚ) / 2 ^ 149 ≤ 1 / 2 / 2 ^ 24 := by norm_num
      linarith

/-- The read position with a delay between `c - 1` and `c` samples: the sample of age `c`, or the one after it. -/
theorem readPos {s : Comb F32} (h : Safe s) {c : ℕ} (hc1 : 1 ≤ c) (hcN : c ≤ s.bufferSize)
    (hD0 : (c : ℚ) - 1 ≤ (s.delayTime * s.sampleRate).val) (hD1 : (s.delayTime * s.sampleRate).val ≤ c) {fuel : ℕ} (hf : 1 ≤ fuel) :
    ∃ (r : F32) (n e : ℕ), wrapLoop (Arith.ofNat s.bufferSize) fuel (Arith.ofNat s.writePos - s.delayTime * s.sampleRate) = some r ∧
      Arith.toSize? r = some n ∧ n ≤ s.bufferSize ∧ e ≤ 1 ∧ n % s.bufferSize = (s.writePos + s.bufferSize - c + e) % s.bufferSize ∧
      r.isFin = true ∧ ((s.delayTime * s.sampleRate).val = c → e = 0 ∧ r.val = n) := by
  obtain ⟨r, n, e, h1, h2, h3, h4, h5, h6, h7, -⟩ := readPos_near h hc1 hcN hD0 hD1 hf
  exact ⟨r, n, e, h1, h2, h3, h4, h5, h6, h7⟩

section generic
variable {α : Type} [Arith α]

theorem getD_set' {l : List α} {i j : ℕ} {v z : α} (h : i < l.length) : (l.set i v).getD j z = if i = j then v else l.getD j z := by
  simp only [List.getD_eq_getElem?_getD, List.getElem?_set]
  split_ifs with h1
  · rfl
  · rfl

/-- The sample written `k` ticks ago. -/
def ago (s : Comb α) (k : ℕ) : α := s.buffer.getD ((s.writePos + s.bufferSize - k) % s.bufferSize) (lit 0)

/-- After a tick every sample is one tick older. -/
theorem ago_advance {s : Comb α} (hl : s.buffer.length = s.bufferSize) (hp : s.writePos < s.bufferSize) (hN : s.bufferSize < 2 ^ 63) (x y : α) :
    ago (advance s x y) 1 = x + s.feedbackCoeff * y ∧ ∀ k, 1 ≤ k → k < s.bufferSize → ago (advance s x y) (k + 1) = ago s k := by
  have hsz : szAdd s.writePos 1 = s.writePos + 1 := Nat.mod_eq_of_lt (by omega)
  have hw' : (advance s x y).writePos = if s.writePos + 1 = s.bufferSize then 0 else s.writePos + 1 := by
    show szAdd s.writePos 1 % s.bufferSize = _
    rw [hsz]
    split_ifs with h1
    · rw [h1, Nat.mod_self]
    · exact Nat.mod_eq_of_lt (by omega)
  have hb : (advance s x y).bufferSize = s.bufferSize := rfl
  have hlt : (advance s x y).writePos < s.bufferSize := by rw [hw']; split_ifs <;> omega
  have hbuf : (advance s x y).buffer = s.buffer.set s.writePos (x + s.feedbackCoeff * y) := rfl
  constructor
  · unfold ago
    rw [hb, mod_sub hlt le_rfl (by omega), hbuf, getD_set' (by rw [hl]; exact hp), if_pos]
    rw [hw']; split_ifs <;> omega
  · intro k h1 h2
    unfold ago
    rw [hb, mod_sub hlt (by omega) (by omega), mod_sub hp h1 h2.le, hbuf, getD_set' (by rw [hl]; exact hp)]
    have e : (if k + 1 ≤ (advance s x y).writePos then (advance s x y).writePos - (k + 1) else
        (advance s x y).writePos + s.bufferSize - (k + 1)) =
        (if k ≤ s.writePos then s.writePos - k else s.writePos + s.bufferSize - k) := by
      rw [hw']; split_ifs <;> omega
    rw [e, if_neg]
    split_ifs <;> omega

end generic

/-- A comb whose delay lies between `c - 1` and `c` samples. -/
structure Delays (c : ℕ) (s : Comb F32) : Prop where
  safe : Safe s
  one : 1 ≤ c
  fits : c ≤ s.bufferSize
  lo : (c : ℚ) - 1 ≤ (s.delayTime * s.sampleRate).val
  hi : (s.delayTime * s.sampleRate).val ≤ c

variable [Libm F32]

/-- One tick of such a comb. -/
theorem tick_delays {c : ℕ} {s : Comb F32} (h : Delays c s) {fuel : ℕ} (hf : 1 ≤ fuel) (x : F32) :
    ∃ (r : F32) (n e : ℕ), CombC.tick fuel s x = some (advance s x (readAt s n (r - Arith.ofNat n)), readAt s n (r - Arith.ofNat n)) ∧
      Delays c (advance s x (readAt s n (r - Arith.ofNat n))) ∧
      n ≤ s.bufferSize ∧ e ≤ 1 ∧ n % s.bufferSize = (s.writePos + s.bufferSize - c + e) % s.bufferSize ∧ r.isFin = true ∧
      ((s.delayTime * s.sampleRate).val = c → e = 0 ∧ r.val = n) := by
  obtain ⟨r, n, e, h1, h2, h3, h4, h5, h6, h7⟩ := readPos h.safe h.one h.fits h.lo h.hi hf
  have hN0 : 0 < s.bufferSize := by have := h.safe.lo; omega
  refine ⟨r, n, e, tick_eq hN0.ne' h.safe.len h.safe.pos h1 h2, ?_, h3, h4, h5, h6, h7⟩
  have hs := h.safe
  exact ⟨⟨by simpa [advance] using hs.len, hs.lo, hs.hi, Nat.mod_lt _ hN0, hs.sr, hs.md, hs.md0, hs.prod, hs.dt, hs.dt0, hs.dtp⟩,
    h.one, h.fits, h.lo, h.hi⟩

theorem hermite_nan1 (a b c d : F32) : hermite a .nan b c d = .nan := by
  show _ + (.nan : F32) = .nan
  exact add_nan _

theorem hermite_nan0 (a b c d : F32) : hermite .nan a b c d = .nan := by
  have : lit 0.5 * (b - (.nan : F32)) = .nan := by rw [sub_nan, mul_nan]
  unfold hermite
  simp only [this, add_nan, nan_mul, nan_add]

theorem readAt_nan {c : ℕ} {s : Comb F32} (h : Delays c s) (hn : ago s c = .nan) {n e : ℕ} {frac : F32} (hnN : n ≤ s.bufferSize) (he : e ≤ 1)
    (hm : n % s.bufferSize = (s.writePos + s.bufferSize - c + e) % s.bufferSize) : readAt s n frac = .nan := by
  have hlo := h.safe.lo
  have hhi := h.safe.hi
  have hw := h.safe.pos
  have hc := h.one
  have hcN := h.fits
  have hs1 : szAdd n s.bufferSize = n + s.bufferSize := Nat.mod_eq_of_lt (by omega)
  have hs2 : szSub (n + s.bufferSize) 1 = n + s.bufferSize - 1 := by
    unfold szSub
    generalize s.bufferSize = N at *
    norm_num
    omega
  unfold readAt
  rw [hs1, hs2]
  rcases (by omega : e = 0 ∨ e = 1) with rfl | rfl
  · have : s.buffer.getD (n % s.bufferSize) (lit 0) = .nan := by rw [hm]; exact hn
    rw [this]; exact hermite_nan1 _ _ _ _
  · have : s.buffer.getD ((n + s.bufferSize - 1) % s.bufferSize) (lit 0) = .nan := by
      suffices hi : (n + s.bufferSize - 1) % s.bufferSize = (s.writePos + s.bufferSize - c) % s.bufferSize by rw [hi]; exact hn
      have e1 : n + s.bufferSize - 1 = n + (s.bufferSize - 1) := by omega
      rw [e1, Nat.add_mod, hm, ← Nat.add_mod]
      have e2 : s.writePos + s.bufferSize - c + 1 + (s.bufferSize - 1) = s.writePos + s.bufferSize - c + s.bufferSize := by omega
      rw [e2, Nat.add_mod_right]
    rw [this]; exact hermite_nan0 _ _ _ _

/-- A NaN of age `j` comes back every `c` samples. -/
theorem nan_returns {c fuel : ℕ} (hf : 1 ≤ fuel) : ∀ (xs : List F32) (s : Comb F32) (j : ℕ), Delays c s → ago s j = .nan → 1 ≤ j → j ≤ c →
    ∃ s' ys, CombC.process fuel s xs = some (s', ys) ∧ ∀ k, c - j + k * c < xs.length → ys[c - j + k * c]? = some .nan := by
  intro xs
  induction xs with
  | nil => intro s j _ _ _ _; exact ⟨s, [], rfl, fun k h => by simp at h⟩
  | cons x xs ih =>
    intro s j h hn h1 h2
    obtain ⟨r, n, e, a1, a2, a3, a4, a5, a6, -⟩ := tick_delays h hf x
    obtain ⟨b1, b2⟩ := ago_advance h.safe.len h.safe.pos (by have := h.safe.hi; omega) x (readAt s n (r - Arith.ofNat n))
    rcases Nat.eq_or_lt_of_le h2 with rfl | hlt
    · have hy := readAt_nan h hn (frac := r - Arith.ofNat n) a3 a4 a5
      have hw : ago (advance s x (readAt s n (r - Arith.ofNat n))) 1 = .nan := by rw [b1, hy]; nans
      obtain ⟨s', ys, c1, c2⟩ := ih _ 1 a2 hw le_rfl h1
      refine ⟨s', readAt s n (r - Arith.ofNat n) :: ys, by rw [CombC.process, a1]; simp [c1], ?_⟩
      intro k hk
      rcases k with _ | k
      · simp [hy]
      · have e1 : j - j + (k + 1) * j = (j - 1 + k * j) + 1 := by rw [Nat.add_mul]; omega
        rw [e1, List.getElem?_cons_succ]
        refine c2 k ?_
        rw [e1] at hk
        simpa using hk
    · have hw : ago (advance s x (readAt s n (r - Arith.ofNat n))) (j + 1) = .nan := by
        rw [b2 j h1 (lt_of_lt_of_le hlt h.fits)]; exact hn
      obtain ⟨s', ys, c1, c2⟩ := ih _ (j + 1) a2 hw (by omega) (by omega)
      refine ⟨s', readAt s n (r - Arith.ofNat n) :: ys, by rw [CombC.process, a1]; simp [c1], ?_⟩
      intro k hk
      have e1 : c - j + k * c = (c - (j + 1) + k * c) + 1 := by omega
      rw [e1, List.getElem?_cons_succ]
      refine c2 k ?_
      rw [e1] at hk
      simpa using hk

theorem nan_comes_back {c fuel : ℕ} (hf : 1 ≤ fuel) : ∀ (xs : List F32) (s : Comb F32), Delays c s →
    ∃ s' ys, CombC.process fuel s xs = some (s', ys) ∧ ys.length = xs.length ∧
      ∀ m, xs[m]? = some .nan → ∀ k, 1 ≤ k → m + k * c < xs.length → ys[m + k * c]? = some .nan := by
  intro xs
  induction xs with
  | nil => intro s _; exact ⟨s, [], rfl, rfl, fun m h => by simp at h⟩
  | cons x xs ih =>
    intro s h
    obtain ⟨r, n, e, a1, a2, -⟩ := tick_delays h hf x
    obtain ⟨b1, -⟩ := ago_advance h.safe.len h.safe.pos (by have := h.safe.hi; omega) x (readAt s n (r - Arith.ofNat n))
    obtain ⟨s', ys, c1, c2, c3⟩ := ih _ a2
    refine ⟨s', readAt s n (r - Arith.ofNat n) :: ys, by rw [CombC.process, a1]; simp [c1], by simp [c2], ?_⟩
    intro m hm k hk hlt
    have hc := h.one
    rcases m with _ | m
    · rw [List.getElem?_cons_zero, Option.some.injEq] at hm
      subst hm
      obtain ⟨s'', ys', d1, d2⟩ := nan_returns hf xs _ 1 a2 (by rw [b1]; nans) le_rfl hc
      rw [c1] at d1
      cases d1
      obtain ⟨k, rfl⟩ : ∃ k', k = k' + 1 := ⟨k - 1, by omega⟩
      have e1 : 0 + (k + 1) * c = (c - 1 + k * c) + 1 := by rw [Nat.add_mul]; omega
      rw [e1, List.getElem?_cons_succ]
      refine d2 k ?_
      rw [e1] at hlt
      simpa using hlt
    · rw [List.getElem?_cons_succ] at hm
      have e1 : m + 1 + k * c = (m + k * c) + 1 := by omega
      rw [e1, List.getElem?_cons_succ]
      refine c3 m hm k hk ?_
      rw [e1] at hlt
      simpa using hlt

/-- The state after `init`, `setDelayTime` and `setDecayTime`. -/
theorem setup_float {sr md dt : F32} (hsr : sr.In 0 (2 ^ 22)) (hmd : md.isFin = true) (hmd0 : 0 ≤ md.val) (hp : md.val * sr.val ≤ 2 ^ 22)
    (hdt : dt.In 0 md.val) (dc : F32) :
    ∃ s0, CombC.init sr md = some s0 ∧ ∃ s, s = CombC.setDecayTime dc (CombC.setDelayTime dt s0) ∧ Safe s ∧
      s.bufferSize = ⌈(md * sr).val⌉.toNat + 4 ∧ s.buffer = List.replicate s.bufferSize (lit 0) ∧ s.writePos = 0 ∧
      s.delayTime = dt ∧ s.sampleRate = sr := by
  obtain ⟨s0, h1, h2, h3, h4⟩ := init_safe hsr hmd hmd0 hp
  have hcl : clamp dt (lit 0) md = dt := by
    unfold clamp
    rw [lt_fin hdt.1 (lit_zero).1, lt_fin hmd hdt.1, lit_zero.val_eq]
    rw [if_neg (by simpa using hdt.2.1), if_neg (by simpa using hdt.2.2)]
  have hdt' : (CombC.setDelayTime dt s0).delayTime = dt := by
    show clamp dt (lit 0) s0.maxDelayTime = dt
    rw [h4, hcl]
  have hsafe : Safe (CombC.setDecayTime dc (CombC.setDelayTime dt s0)) := by
    refine ⟨h2.len, h2.lo, h2.hi, h2.pos, h2.sr, h2.md, h2.md0, h2.prod, ?_, ?_, ?_⟩
    · show (CombC.setDelayTime dt s0).delayTime.isFin = true; rw [hdt']; exact hdt.1
    · show 0 ≤ (CombC.setDelayTime dt s0).delayTime.val; rw [hdt']; exact hdt.2.1
    · show (CombC.setDelayTime dt s0).delayTime.val * s0.sampleRate.val ≤ _
      rw [hdt', h3]; exact le_trans (mul_le_mul_of_nonneg_right hdt.2.2 hsr.2.1) hp
  have hm : (md * sr).In 0 (2 ^ 22 : ℚ) := mul_in hmd hsr.1 rep_zero (rep_two_pow (by norm_num)) (mul_nonneg hmd0 hsr.2.1) hp
  have hc := ceil_in hm.1 prec32
  have hc0 : (0:ℤ) ≤ ⌈(md * sr).val⌉ := Int.ceil_nonneg hm.2.1
  have hc1 : ⌈(md * sr).val⌉ ≤ (2:ℤ) ^ 22 := by rw [Int.ceil_le]; push_cast; exact hm.2.2
  have hcq0 : (0:ℚ) ≤ ⌈(md * sr).val⌉ := by exact_mod_cast hc0
  have hcq1 : (⌈(md * sr).val⌉ : ℚ) ≤ 2 ^ 22 := by exact_mod_cast hc1
  have hsz := toSize_fin hc.1 (le_trans hcq0 hc.2.1) (lt_of_le_of_lt (le_trans hc.2.2 hcq1) (by norm_num))
  rw [hc.val_eq, Int.floor_intCast] at hsz
  have hn : szAdd ⌈(md * sr).val⌉.toNat 4 = ⌈(md * sr).val⌉.toNat + 4 := by
    unfold szAdd
    exact Nat.mod_eq_of_lt (by omega)
  have h5 := h1
  rw [CombC.init, hsz] at h5
  have h5 := Option.some.inj h5
  refine ⟨s0, h1, _, rfl, hsafe, ?_, ?_, ?_, hdt', h3⟩
  · show s0.bufferSize = _
    rw [← h5]; exact hn
  · show s0.buffer = List.replicate s0.bufferSize _
    rw [← h5]; rfl
  · show s0.writePos = _
    rw [← h5]; rfl

theorem setup_delays {sr md dt : F32} (hsr : sr.In 0 (2 ^ 22)) (hmd : md.isFin = true) (hmd0 : 0 ≤ md.val) (hp : md.val * sr.val ≤ 2 ^ 22)
    (hdt : dt.In 0 md.val) (dc : F32) {c : ℕ} (hc1 : 1 ≤ c) (hlo : (c : ℚ) - 1 ≤ (dt * sr).val) (hhi : (dt * sr).val ≤ c)  :
    ∃ s0, CombC.init sr md = some s0 ∧ ∃ s, s = CombC.setDecayTime dc (CombC.setDelayTime dt s0) ∧ Delays c s ∧
      s.buffer = List.replicate s.bufferSize (lit 0) ∧ s.delayTime = dt ∧ s.sampleRate = sr := by
  obtain ⟨s0, a1, s, a2, a3, a4, a5, a6, a7, a8⟩ := setup_float hsr hmd hmd0 hp hdt dc
  refine ⟨s0, a1, s, a2, ⟨a3, hc1, ?_, by rw [a7, a8]; exact hlo, by rw [a7, a8]; exact hhi⟩, a5, a7, a8⟩
  have hm : (md * sr).In 0 (2 ^ 22 : ℚ) := mul_in hmd hsr.1 rep_zero (rep_two_pow (by norm_num)) (mul_nonneg hmd0 hsr.2.1) hp
  have h1 : (dt * sr).In 0 (md * sr).val := by
    have b1 := mul_in hdt.1 hsr.1 rep_zero (rep_two_pow (k := 22) (by norm_num)) (mul_nonneg hdt.2.1 hsr.2.1)
      (le_trans (mul_le_mul_of_nonneg_right hdt.2.2 hsr.2.1) hp)
    have v1 := (mul_val hdt.1 hsr.1 rep_zero (rep_two_pow (k := 22) (by norm_num)) (mul_nonneg hdt.2.1 hsr.2.1)
      (le_trans (mul_le_mul_of_nonneg_right hdt.2.2 hsr.2.1) hp)).2
    have v2 := (mul_val hmd hsr.1 rep_zero (rep_two_pow (k := 22) (by norm_num)) (mul_nonneg hmd0 hsr.2.1) hp).2
    refine ⟨b1.1, b1.2.1, ?_⟩
    rw [v1, v2]
    exact binary32.rnd_mono (mul_le_mul_of_nonneg_right hdt.2.2 hsr.2.1)
  have h2 : (c : ℚ) ≤ ⌈(md * sr).val⌉ + 1 := by
    have := Int.le_ceil (md * sr).val
    linarith [h1.2.2]
  have h3 : (c : ℤ) ≤ ⌈(md * sr).val⌉ + 1 := by exact_mod_cast h2
  have h4 : (0:ℤ) ≤ ⌈(md * sr).val⌉ := Int.ceil_nonneg hm.2.1
  rw [a4]; omega

/-- Loudness: at most `2^k`. -/
def Amp (k : ℕ) (x : F32) : Prop := x.In (-2 ^ k) (2 ^ k)

theorem Amp.up {j k : ℕ} {x : F32} (h : Amp j x) (hk : j ≤ k) : Amp k x := by
  have : (2:ℚ) ^ j ≤ 2 ^ k := pow_le_pow_right₀ (by norm_num) hk
  exact h.mono (by linarith) this

theorem Amp.add {k : ℕ} {x y : F32} (hx : Amp k x) (hy : Amp k y) (hk : k ≤ 126) : Amp (k + 1) (x + y) :=
  add_in hx hy (Rep.neg (rep_two_pow (by omega))) (rep_two_pow (by omega)) (by rw [pow_succ]; linarith) (by rw [pow_succ]; linarith)

theorem Amp.sub {k : ℕ} {x y : F32} (hx : Amp k x) (hy : Amp k y) (hk : k ≤ 126) : Amp (k + 1) (x - y) :=
  sub_in hx hy (Rep.neg (rep_two_pow (by omega))) (rep_two_pow (by omega)) (by rw [pow_succ]; linarith) (by rw [pow_succ]; linarith)

theorem Amp.mul {j k : ℕ} {x y : F32} (hx : Amp j x) (hy : Amp k y) (hk : j + k ≤ 127) : Amp (j + k) (x * y) := by
  have h : |x.val * y.val| ≤ 2 ^ (j + k) := by
    rw [abs_mul, pow_add]
    exact mul_le_mul (abs_le.2 hx.2) (abs_le.2 hy.2) (abs_nonneg _) (by positivity)
  have h := abs_le.1 h
  exact mul_in hx.1 hy.1 (Rep.neg (rep_two_pow (by omega))) (rep_two_pow (by omega)) h.1 h.2

/-- Times zero. -/
theorem mul_zero_in {x z : F32} (hx : x.isFin = true) (hz : z.In 0 0) : (x * z).In 0 0 :=
  mul_in hx hz.1 rep_zero rep_zero (by rw [hz.val_eq]; simp) (by rw [hz.val_eq]; simp)

/-- Zero plus. -/
theorem zero_add_in {x z : F32} (hz : z.In 0 0) (hx : x.isFin = true) : (z + x).In x.val x.val :=
  add_in hz (in_val hx) (rep_val x) (rep_val x) (by simp) (by simp)

/-- Hermite interpolation at a sample is the sample. -/
theorem hermite_at {a b c d z : F32} (ha : Amp 25 a) (hb : Amp 25 b) (hc : Amp 25 c) (hd : Amp 25 d) (hz : z.In 0 0) :
    (hermite a b c d z).In b.val b.val := by
  have k1 : Amp 0 (lit 0.5 : F32) := by unfold Amp; decide +kernel
  have k2 : Amp 2 (lit 2.5 : F32) := by unfold Amp; decide +kernel
  have k3 : Amp 1 (lit 2 : F32) := by unfold Amp; decide +kernel
  have k4 : Amp 1 (lit 1.5 : F32) := by unfold Amp; decide +kernel
  have c1 : Amp 26 (lit 0.5 * (c - a)) := (k1.mul (hc.sub ha (by norm_num)) (by norm_num)).up (by norm_num)
  have c2 : Amp 30 (a - lit 2.5 * b + lit 2 * c - lit 0.5 * d) := by
    refine Amp.sub (k := 29) ?_ ((k1.mul hd (by norm_num)).up (by norm_num)) (by norm_num)
    refine Amp.add (k := 28) ?_ ((k3.mul hc (by norm_num)).up (by norm_num)) (by norm_num)
    exact Amp.sub (k := 27) (ha.up (by norm_num)) ((k2.mul hb (by norm_num)).up (by norm_num)) (by norm_num)
  have c3 : Amp 30 (lit 0.5 * (d - a) + lit 1.5 * (b - c)) := by
    refine Amp.add (k := 29) ((k1.mul (hd.sub ha (by norm_num)) (by norm_num)).up (by norm_num))
      ((k4.mul (hb.sub hc (by norm_num)) (by norm_num)).up (by norm_num)) (by norm_num)
  exact zero_add_in (mul_zero_in (zero_add_in (mul_zero_in (zero_add_in (mul_zero_in c3.1 hz) c2.1).1 hz) c1.1).1 hz) hb.1

/-- What is written stays within `2^25` of the loudest input: adding 1 to `2^25` is lost to rounding. -/
theorem write_amp {x g y : F32} (hx : x.In (-1) 1) (hg : g.In (-1) 1) (hy : Amp 25 y) : Amp 25 (x + g * y) := by
  have hp : Amp 25 (g * y) := by
    have := Amp.mul (j := 0) (by simpa [Amp] using hg) hy (by norm_num)
    simpa using this
  have hf : |x.val + (g * y).val| ≤ 2 ^ 25 + 1 := by
    have h1 := hx.2; have h2 := hp.2
    rw [abs_le]; constructor <;> linarith [h1.1, h1.2, h2.1, h2.2]
  have hf := abs_le.1 hf
  obtain ⟨v1, v2⟩ := add_val hx.1 hp.1 (Rep.neg (rep_two_pow (k := 26) (by norm_num))) (rep_two_pow (k := 26) (by norm_num))
    (le_trans (by norm_num) hf.1) (le_trans hf.2 (by norm_num))
  refine ⟨v1, ?_, ?_⟩
  · rw [v2]
    have h := binary32.rnd_mono hf.1
    have e : binary32.rnd (-(2 ^ 25 + 1) : ℚ) = -2 ^ 25 := by decide +kernel
    rw [e] at h; exact h
  · rw [v2]
    have h := binary32.rnd_mono hf.2
    have e : binary32.rnd (2 ^ 25 + 1 : ℚ) = 2 ^ 25 := by decide +kernel
    rw [e] at h; exact h

/-- A comb with a delay of exactly `d` samples holding nothing loud. -/
structure Whole (d : ℕ) (s : Comb F32) : Prop where
  del : Delays d s
  eq : (s.delayTime * s.sampleRate).val = d
  fb : s.feedbackCoeff.In (-1) 1
  amp : ∀ i, Amp 25 (s.buffer.getD i (lit 0))

theorem ago_amp {d : ℕ} {s : Comb F32} (h : Whole d s) (k : ℕ) : Amp 25 (ago s k) := h.amp _

/-- One tick: what was written `d` ticks ago. -/
theorem tick_exact {d : ℕ} {s : Comb F32} (h : Whole d s) {fuel : ℕ} (hf : 1 ≤ fuel) {x : F32} (hx : x.In (-1) 1) :
    ∃ y : F32, CombC.tick fuel s x = some (advance s x y, y) ∧ Whole d (advance s x y) ∧ y.In (ago s d).val (ago s d).val := by
  obtain ⟨r, n, e, a1, a2, a3, a4, a5, a6, a7⟩ := tick_delays h.del hf x
  obtain ⟨rfl, a8⟩ := a7 h.eq
  have hy : (readAt s n (r - Arith.ofNat n)).In (ago s d).val (ago s d).val := by
    have hn24 : n ≤ 2 ^ 24 := by have := h.del.safe.hi; omega
    have hz : (r - Arith.ofNat n).In 0 0 :=
      sub_in (in_val a6) (ofNat_in hn24) rep_zero rep_zero (by rw [a8]; simp) (by rw [a8]; simp)
    have := hermite_at (h.amp (szSub (szAdd n s.bufferSize) 1 % s.bufferSize)) (h.amp (n % s.bufferSize)) (h.amp (szAdd n 1 % s.bufferSize))
      (h.amp (szAdd n 2 % s.bufferSize)) hz
    have e : ago s d = s.buffer.getD (n % s.bufferSize) (lit 0) := by rw [a5]; rfl
    rw [e]; exact this
  refine ⟨_, a1, ⟨a2, h.eq, h.fb, ?_⟩, hy⟩
  intro i
  show Amp 25 ((s.buffer.set s.writePos _).getD i (lit 0))
  rw [getD_set' (by rw [h.del.safe.len]; exact h.del.safe.pos)]
  split_ifs
  · exact write_amp hx h.fb (hy.mono (ago_amp h d).2.1 (ago_amp h d).2.2)
  · exact h.amp i

theorem process_exact {d fuel : ℕ} (hf : 1 ≤ fuel) : ∀ (xs : List F32) (s : Comb F32) (h : List F32), Whole d s → (∀ x ∈ xs, x.In (-1) 1) →
    (∀ k, 1 ≤ k → k ≤ s.bufferSize → ago s k = h.getD (k - 1) (lit 0)) →
    ∃ s' ys, CombC.process fuel s xs = some (s', ys) ∧ ys.length = xs.length ∧ (∀ y ∈ ys, Amp 25 y) ∧
      ∀ n < xs.length, (ys.getD n (lit 0)).val =
        if n < d then (h.getD (d - 1 - n) (lit 0)).val else (xs.getD (n - d) (lit 0) + s.feedbackCoeff * ys.getD (n - d) (lit 0)).val := by
  intro xs
  induction xs with
  | nil => intro s h _ _ _; exact ⟨s, [], rfl, rfl, by simp, fun n hn => by simp at hn⟩
  | cons x xs ih =>
    intro s h hs hx hh
    obtain ⟨y, a1, a2, a3⟩ := tick_exact hs hf (hx x (by simp))
    obtain ⟨b1, b2⟩ := ago_advance hs.del.safe.len hs.del.safe.pos (by have := hs.del.safe.hi; omega) x y
    have hd1 := hs.del.one
    have hd2 := hs.del.fits
    obtain ⟨s', ys, c1, c2, c3, c4⟩ := ih (advance s x y) ((x + s.feedbackCoeff * y) :: h) a2 (fun z hz => hx z (by simp [hz])) (by
      intro k h1 h2
      change k ≤ s.bufferSize at h2
      rcases Nat.eq_or_lt_of_le h1 with rfl | h3
      · rw [b1]; rfl
      · obtain ⟨j, rfl⟩ : ∃ j, k = j + 1 := ⟨k - 1, by omega⟩
        rw [b2 j (by omega) (by omega), hh j (by omega) (by omega)]
        obtain ⟨i, rfl⟩ : ∃ i, j = i + 1 := ⟨j - 1, by omega⟩
        simp)
    refine ⟨s', y :: ys, by rw [CombC.process, a1]; simp [c1], by simp [c2], ?_, ?_⟩
    · intro z hz
      rcases List.mem_cons.1 hz with rfl | hz
      · exact a3.mono (ago_amp hs d).2.1 (ago_amp hs d).2.2
      · exact c3 z hz
    · intro n hn
      rcases n with _ | n
      · rw [if_pos (by omega), List.getD_cons_zero, a3.val_eq, hh d hd1 hd2]
        rfl
      · rw [List.getD_cons_succ, c4 n (by simpa using hn)]
        rcases lt_trichotomy (n + 1) d with h1 | h1 | h1
        · rw [if_pos (by omega), if_pos (by omega)]
          obtain ⟨i, hi⟩ : ∃ i, d - 1 - n = i + 1 := ⟨d - 1 - n - 1, by omega⟩
          have e2 : d - 1 - (n + 1) = i := by omega
          rw [hi, e2, List.getD_cons_succ]
        · rw [if_pos (by omega), if_neg (by omega)]
          have e1 : d - 1 - n = 0 := by omega
          have e2 : n + 1 - d = 0 := by omega
          rw [e1, e2, List.getD_cons_zero, List.getD_cons_zero, List.getD_cons_zero]
        · rw [if_neg (by omega), if_neg (by omega)]
          obtain ⟨i, hi⟩ : ∃ i, n + 1 - d = i + 1 := ⟨n - d, by omega⟩
          have e2 : n - d = i := by omega
          rw [hi, e2, List.getD_cons_succ, List.getD_cons_succ]
          rfl

end CombC

/-- **C35** in single precision, to the last bit. After `init(sr, maxDelay)`, `setDelayTime(dt)`, `setDecayTime(dc)` with `dt·sr` a whole
number of samples `d ≥ 1`, for any number of samples within ±1: the first `d` outputs are zero and from then on `out[n]` is exactly
`in[n-d] + g·out[n-d]`, computed in single precision, where `g` is the gain held in the object. No output is louder than `2^25`, even with
an infinite decay. -/
theorem C35_comb_recurrence_float [Libm F32] [LibmSpec] (sr md dt dc : F32) (d : ℕ) (hsr : sr.In 0 (2 ^ 22)) (hmd : md.isFin = true)
    (hmd0 : 0 ≤ md.val) (hp : md.val * sr.val ≤ 2 ^ 22) (hdt : dt.In 0 md.val) (hdc : dc ≠ .nan) (hd1 : 1 ≤ d) (hd : (dt * sr).val = d)
    (fuel : ℕ) (hf : 2 ^ 22 ≤ fuel) (xs : List F32) (hx : ∀ x ∈ xs, x.In (-1) 1) :
    ∃ s0 s s' ys, CombC.init sr md = some s0 ∧ s = CombC.setDecayTime dc (CombC.setDelayTime dt s0) ∧
      CombC.process fuel s xs = some (s', ys) ∧ ys.length = xs.length ∧ s.feedbackCoeff.In (-1) 1 ∧ (∀ y ∈ ys, y.In (-2 ^ 25) (2 ^ 25)) ∧
      ∀ n < xs.length, (ys.getD n (lit 0)).val =
        if n < d then 0 else (xs.getD (n - d) (lit 0) + s.feedbackCoeff * ys.getD (n - d) (lit 0)).val := by
  obtain ⟨s0, a1, s, a2, a3, a4, a5, a6⟩ := CombC.setup_delays hsr hmd hmd0 hp hdt dc hd1 (by rw [hd]; linarith) (by rw [hd])
  obtain ⟨s1, g1, g2, -⟩ := C35_gain_float sr md hsr hmd hmd0 hp fuel hf [.setDelayTime dt, .setDecayTime dc] (by
    intro c hc
    simp only [List.mem_cons, List.not_mem_nil, or_false] at hc
    rcases hc with rfl | rfl
    · show dt ≠ .nan; rintro rfl; exact absurd hdt.1 (by simp [isFin])
    · exact hdc)
  have hs1 : s1 = s := by
    rw [a1, Option.bind_some] at g1
    simp only [CombC.calls, List.foldlM_cons, List.foldlM_nil, CombC.call] at g1
    rw [a2]
    exact (Option.some.inj g1).symm
  rw [hs1] at g2
  have h0 : ∀ i, s.buffer.getD i (lit 0) = lit 0 := by
    intro i
    rw [a4, List.getD_eq_getElem?_getD, List.getElem?_replicate]
    split_ifs <;> rfl
  have hw : CombC.Whole d s := ⟨a3, by rw [a5, a6, hd], g2, fun i => by rw [h0]; exact lit_zero.mono (by norm_num) (by norm_num)⟩
  obtain ⟨s', ys, b1, b2, b3, b4⟩ := CombC.process_exact (le_trans (by norm_num) hf) xs s [] hw hx (by
    intro k _ _; rw [CombC.ago, h0]; rfl)
  refine ⟨s0, s, s', ys, a1, a2, b1, b2, g2, b3, ?_⟩
  intro n hn
  rw [b4 n hn]
  split_ifs
  · exact lit_zero.val_eq
  · rfl

/-- 1/64 s at 48 kHz is 750 samples exactly. -/
example : (ofRat 48000 : F32).In 0 (2 ^ 22) ∧ (ofRat (1/5) : F32).isFin = true ∧ 0 ≤ (ofRat (1/5) : F32).val ∧
    (ofRat (1/5) : F32).val * (ofRat 48000 : F32).val ≤ 2 ^ 22 ∧ (ofRat (1/64) : F32).In 0 (ofRat (1/5) : F32).val ∧
    ((ofRat (1/64) : F32) * ofRat 48000).val = ((750:ℕ):ℚ) := by decide +kernel

/-- **C83, false** of the comb: one NaN in the input comes back every `c` samples for ever, `c` being the delay in samples rounded up,
however quickly the comb is set to decay and whatever comes in later. -/
theorem C83_comb_returns [Libm F32] (sr md dt dc : F32) (hsr : sr.In 0 (2 ^ 22)) (hmd : md.isFin = true) (hmd0 : 0 ≤ md.val)
    (hp : md.val * sr.val ≤ 2 ^ 22) (hdt : dt.In 0 md.val) (c : ℕ) (hc1 : 1 ≤ c) (hlo : (c : ℚ) - 1 ≤ (dt * sr).val)
    (hhi : (dt * sr).val ≤ c) (fuel : ℕ) (hf : 1 ≤ fuel) (xs : List F32) :
    ∃ s0 s' ys, CombC.init sr md = some s0 ∧ CombC.process fuel (CombC.setDecayTime dc (CombC.setDelayTime dt s0)) xs = some (s', ys) ∧
      ys.length = xs.length ∧
      ∀ m, xs[m]? = some .nan → ∀ k, 1 ≤ k → m + k * c < xs.length → ys[m + k * c]? = some .nan := by
  obtain ⟨s0, a1, s, rfl, a3, -⟩ := CombC.setup_delays hsr hmd hmd0 hp hdt dc hc1 hlo hhi
  obtain ⟨s', ys, b1, b2, b3⟩ := CombC.nan_comes_back hf xs _ a3
  exact ⟨s0, s', ys, a1, b1, b2, b3⟩

/-- A hundredth of a second at 48 kHz. -/
example : (ofRat (1/100) : F32).In 0 (ofRat (1/5) : F32).val ∧ ((480:ℕ):ℚ) - 1 ≤ ((ofRat (1/100) : F32) * ofRat 48000).val ∧
    ((ofRat (1/100) : F32) * ofRat 48000).val ≤ ((480:ℕ):ℚ) := by decide +kernel

end Verif
