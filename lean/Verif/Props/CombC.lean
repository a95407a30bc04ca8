import Verif.Model.CombC
import Verif.Float.IntConv
import Verif.Float.LibmSpec
import Verif.Float.Order
import Verif.Lemmas.RealArith
import Verif.Lemmas.LinearBlocks

/-!
# C34, C35, C36 (comb) and C50: CombC
-/

set_option linter.unusedSectionVars false

namespace Verif
open FP CombC

/-! ## C34: memory safety in float arithmetic -/

namespace CombC

/-- The calls a user can make on an initialised comb. -/
inductive Call where
  | setDelayTime (dt : F32)
  | setDecayTime (dc : F32)
  | tick (x : F32)
  | reset

/-- Effect of a call; `none` is undefined behaviour or an unfinished loop. -/
def call [Libm F32] (fuel : ℕ) (s : Comb F32) : Call → Option (Comb F32)
  | .setDelayTime dt => some (CombC.setDelayTime dt s)
  | .setDecayTime dc => some (CombC.setDecayTime dc s)
  | .tick x => (CombC.tick fuel s x).map Prod.fst
  | .reset => some (CombC.reset s)

/-- A history of calls. -/
def calls [Libm F32] (fuel : ℕ) (s : Comb F32) (cs : List Call) : Option (Comb F32) := cs.foldlM (call fuel) s

/-- The delay time handed to `setDelayTime` is a number. -/
def Call.ok : Call → Prop
  | .setDelayTime dt => dt ≠ nan
  | _ => True

/-- Invariant. -/
structure Safe (s : Comb F32) : Prop where
  len : s.buffer.length = s.bufferSize
  lo : 4 ≤ s.bufferSize
  hi : s.bufferSize ≤ 2 ^ 22 + 4
  pos : s.writePos < s.bufferSize
  sr : s.sampleRate.In 0 (2 ^ 22)
  md : s.maxDelayTime.isFin = true
  md0 : 0 ≤ s.maxDelayTime.val
  prod : s.maxDelayTime.val * s.sampleRate.val ≤ 2 ^ 22
  dt : s.delayTime.isFin = true
  dt0 : 0 ≤ s.delayTime.val
  dtp : s.delayTime.val * s.sampleRate.val ≤ 2 ^ 22

theorem repNat {n : ℕ} (h : n ≤ 2 ^ 24) : binary32.Rep (n : ℚ) false := by
  refine ⟨binary32.grid_nat h, ?_, by simp⟩
  rw [abs_of_nonneg (by positivity)]
  have h1 : (n:ℚ) ≤ 2 ^ 24 := by exact_mod_cast h
  exact lt_of_le_of_lt h1 (two_pow_lt_max (by norm_num))

theorem ofNat_in {n : ℕ} (h : n ≤ 2 ^ 24) : (Arith.ofNat n : F32).In n n := ofRat_rep (repNat h)

/-- The `while` loop ends: one round per whole unit below zero at most. -/
theorem wrapLoop_ok {N : ℕ} (hN4 : 4 ≤ N) (hN : N ≤ 2 ^ 22 + 4) : ∀ (fuel k : ℕ) (r : F32), k ≤ fuel → k ≤ 2 ^ 22 →
    r.In (-k) N → ∃ r', wrapLoop (Arith.ofNat N : F32) fuel r = some r' ∧ r'.In 0 N := by
  intro fuel
  induction fuel with
  | zero =>
    intro k r hk _ hr
    obtain rfl : k = 0 := by omega
    have : r.In 0 N := hr.mono (by simp) le_rfl
    refine ⟨r, ?_, this⟩
    rw [wrapLoop, lt_fin hr.1 (lit_zero).1, lit_zero.val_eq]
    rw [if_neg (by simpa using this.2.1)]
  | succ fuel ih =>
    intro k r hk hk2 hr
    rw [wrapLoop, lt_fin hr.1 (lit_zero).1, lit_zero.val_eq]
    by_cases h : r.val < 0
    · rw [if_pos (by simpa using h)]
      have hk1 : 1 ≤ k := by
        by_contra h0
        have : k = 0 := by omega
        subst this
        have := hr.2.1
        simp at this; linarith
      refine ih (k - 1) _ (by omega) (by omega) ?_
      have hN' : (N:ℚ) ≤ 2 ^ 22 + 4 := by exact_mod_cast hN
      have h4 : (4:ℚ) ≤ N := by exact_mod_cast hN4
      have hc : ((k - 1 : ℕ) : ℚ) = k - 1 := by push_cast [hk1]; ring
      refine add_in (a := r.val) (b := r.val) (in_val hr.1) (ofNat_in (by omega)) (Rep.neg (repNat (by omega))) (repNat (by omega)) ?_ ?_
      · have := hr.2.1; rw [hc]; linarith
      · linarith
    · rw [if_neg (by simpa using h)]
      exact ⟨r, rfl, hr.1, not_lt.1 h, hr.2.2⟩

theorem getElem?_getD {α : Type} {l : List α} {i : ℕ} (z : α) (h : i < l.length) : l[i]? = some (l.getD i z) := by
  rw [List.getD_eq_getElem?_getD, List.getElem?_eq_getElem h, Option.getD_some]

section generic
variable {α : Type} [Arith α] [Libm α]

/-- The four samples read around position `n`, interpolated. -/
def readAt (s : Comb α) (n : ℕ) (frac : α) : α :=
  hermite (s.buffer.getD (szSub (szAdd n s.bufferSize) 1 % s.bufferSize) (lit 0)) (s.buffer.getD (n % s.bufferSize) (lit 0))
    (s.buffer.getD (szAdd n 1 % s.bufferSize) (lit 0)) (s.buffer.getD (szAdd n 2 % s.bufferSize) (lit 0)) frac

/-- State after a tick that read `y`. -/
def advance (s : Comb α) (x y : α) : Comb α :=
  { s with buffer := s.buffer.set s.writePos (x + s.feedbackCoeff * y), writePos := szAdd s.writePos 1 % s.bufferSize }

theorem tick_eq {s : Comb α} {fuel : ℕ} {x r : α} {n : ℕ} (h0 : s.bufferSize ≠ 0) (hl : s.buffer.length = s.bufferSize)
    (hp : s.writePos < s.bufferSize)
    (hr : wrapLoop (Arith.ofNat s.bufferSize) fuel (Arith.ofNat s.writePos - s.delayTime * s.sampleRate) = some r)
    (hn : Arith.toSize? r = some n) :
    CombC.tick fuel s x = some (advance s x (readAt s n (r - Arith.ofNat n)), readAt s n (r - Arith.ofNat n)) := by
  have hlt : ∀ a : ℕ, a % s.bufferSize < s.buffer.length := fun a => by rw [hl]; exact Nat.mod_lt _ (Nat.pos_of_ne_zero h0)
  simp only [CombC.tick, hr, hn, Option.bind_some, getElem?_getD (lit 0) (hlt _)]
  rw [if_neg h0, if_pos (by rw [hl]; exact hp)]
  rfl

theorem tick_some {s : Comb α} {fuel : ℕ} {x : α} {o : Comb α × α} (h : CombC.tick fuel s x = some o)
    (hl : s.buffer.length = s.bufferSize) : s.bufferSize ≠ 0 ∧ s.writePos < s.bufferSize ∧ ∃ r n,
    wrapLoop (Arith.ofNat s.bufferSize) fuel (Arith.ofNat s.writePos - s.delayTime * s.sampleRate) = some r ∧
    Arith.toSize? r = some n ∧ o = (advance s x (readAt s n (r - Arith.ofNat n)), readAt s n (r - Arith.ofNat n)) := by
  rw [CombC.tick] at h
  simp only [Option.bind_eq_some_iff] at h
  obtain ⟨r, hr, n, hn, h⟩ := h
  by_cases h0 : s.bufferSize = 0
  · rw [if_pos h0] at h; cases h
  · have hp : s.writePos < s.bufferSize := by
      by_contra hp
      rw [if_neg h0] at h
      simp only [Option.bind_eq_some_iff] at h
      obtain ⟨_, _, _, _, _, _, _, _, h⟩ := h
      rw [if_neg (by rw [hl]; exact hp)] at h
      cases h
    refine ⟨h0, hp, r, n, hr, hn, ?_⟩
    have := tick_eq (x := x) h0 hl hp hr hn
    rw [CombC.tick] at this
    simp only [hr, hn, Option.bind_some] at this
    rw [this] at h
    cases h; rfl

end generic

variable [Libm F32]

/-- A tick of a safe comb is defined and leaves it safe. -/
theorem tick_safe {s : Comb F32} (h : Safe s) {fuel : ℕ} (hf : 2 ^ 22 ≤ fuel) (x : F32) :
    ∃ s' y, CombC.tick fuel s x = some (s', y) ∧ Safe s' := by
  have hw : s.writePos ≤ 2 ^ 24 := by have := h.pos; have := h.hi; omega
  have hd : (s.delayTime * s.sampleRate).In 0 (2 ^ 22 : ℚ) :=
    mul_in h.dt h.sr.1 rep_zero (rep_two_pow (by norm_num)) (mul_nonneg h.dt0 h.sr.2.1) h.dtp
  have hNr : (s.bufferSize : ℚ) ≤ 2 ^ 22 + 4 := by exact_mod_cast h.hi
  have hpr : (s.writePos : ℚ) ≤ s.bufferSize := by exact_mod_cast h.pos.le
  have hr : (Arith.ofNat s.writePos - s.delayTime * s.sampleRate : F32).In (-(2 ^ 22 : ℕ)) s.bufferSize := by
    refine sub_in (ofNat_in hw) hd (Rep.neg (repNat (by norm_num))) (repNat (by have := h.hi; omega)) ?_ ?_
    · have : (0:ℚ) ≤ s.writePos := by positivity
      push_cast; linarith
    · linarith
  obtain ⟨r', hr', hb⟩ := wrapLoop_ok h.lo h.hi fuel (2 ^ 22) _ hf le_rfl hr
  have hsz := toSize_fin hb.1 hb.2.1 (lt_of_le_of_lt hb.2.2 (lt_of_le_of_lt hNr (by norm_num)))
  have hN0 : 0 < s.bufferSize := by have := h.lo; omega
  refine ⟨_, _, tick_eq hN0.ne' h.len h.pos hr' hsz, ?_⟩
  exact ⟨by simpa [advance] using h.len, h.lo, h.hi, Nat.mod_lt _ hN0, h.sr, h.md, h.md0, h.prod, h.dt, h.dt0, h.dtp⟩

theorem call_safe {s : Comb F32} (h : Safe s) {fuel : ℕ} (hf : 2 ^ 22 ≤ fuel) (c : Call) (hc : c.ok) :
    ∃ s', call fuel s c = some s' ∧ Safe s' := by
  cases c with
  | setDelayTime dt =>
    refine ⟨_, rfl, ?_⟩
    have hcl := clamp_in (x := dt) (hi := s.maxDelayTime) hc (lit_zero) (in_val h.md) h.md0
    exact ⟨h.len, h.lo, h.hi, h.pos, h.sr, h.md, h.md0, h.prod, hcl.1, hcl.2.1,
      le_trans (mul_le_mul_of_nonneg_right hcl.2.2 h.sr.2.1) h.prod⟩
  | setDecayTime dc =>
    exact ⟨_, rfl, ⟨h.len, h.lo, h.hi, h.pos, h.sr, h.md, h.md0, h.prod, h.dt, h.dt0, h.dtp⟩⟩
  | tick x =>
    obtain ⟨s', y, h1, h2⟩ := tick_safe h hf x
    exact ⟨s', by simp [call, h1], h2⟩
  | reset =>
    refine ⟨_, rfl, ⟨by simp [CombC.reset], h.lo, h.hi, ?_, h.sr, h.md, h.md0, h.prod, h.dt, h.dt0, h.dtp⟩⟩
    show 0 < s.bufferSize
    have := h.lo; omega

theorem calls_safe {fuel : ℕ} (hf : 2 ^ 22 ≤ fuel) : ∀ (cs : List Call) {s : Comb F32}, Safe s → (∀ c ∈ cs, c.ok) →
    ∃ s', calls fuel s cs = some s' ∧ Safe s' := by
  intro cs
  induction cs with
  | nil => intro s h _; exact ⟨s, rfl, h⟩
  | cons c cs ih =>
    intro s h hc
    obtain ⟨s1, h1, h2⟩ := call_safe h hf c (hc c List.mem_cons_self)
    obtain ⟨s2, h3, h4⟩ := ih h2 (fun c hc' => hc c (List.mem_cons_of_mem _ hc'))
    refine ⟨s2, ?_, h4⟩
    simp only [calls, List.foldlM_cons, h1]
    exact h3

theorem init_safe {sr md : F32} (hsr : sr.In 0 (2 ^ 22)) (hmd : md.isFin = true) (hmd0 : 0 ≤ md.val)
    (hp : md.val * sr.val ≤ 2 ^ 22) : ∃ s, CombC.init sr md = some s ∧ Safe s ∧ s.sampleRate = sr ∧ s.maxDelayTime = md := by
  have hm : (md * sr).In 0 (2 ^ 22 : ℚ) :=
    mul_in hmd hsr.1 rep_zero (rep_two_pow (by norm_num)) (mul_nonneg hmd0 hsr.2.1) hp
  have hc := ceil_in hm.1 prec32
  have hc0 : (0:ℤ) ≤ ⌈(md * sr).val⌉ := Int.ceil_nonneg hm.2.1
  have hc1 : ⌈(md * sr).val⌉ ≤ (2:ℤ) ^ 22 := by rw [Int.ceil_le]; push_cast; exact hm.2.2
  have hcq0 : (0:ℚ) ≤ ⌈(md * sr).val⌉ := by exact_mod_cast hc0
  have hcq1 : (⌈(md * sr).val⌉ : ℚ) ≤ 2 ^ 22 := by exact_mod_cast hc1
  have hsz := toSize_fin hc.1 (le_trans hcq0 hc.2.1) (lt_of_le_of_lt (le_trans hc.2.2 hcq1) (by norm_num))
  rw [hc.val_eq, Int.floor_intCast] at hsz
  have hn : szAdd ⌈(md * sr).val⌉.toNat 4 = ⌈(md * sr).val⌉.toNat + 4 := by
    unfold szAdd
    exact Nat.mod_eq_of_lt (by omega)
  refine ⟨_, by rw [CombC.init, hsz]; rfl, ?_, rfl, rfl⟩
  have h02 : (lit 0.2 : F32).In (1 / 8) (1 / 4) := by decide +kernel
  refine ⟨by simp [updateFeedback], ?_, ?_, ?_, hsr, hmd, hmd0, hp, h02.1, ?_, ?_⟩
  · show 4 ≤ szAdd _ _; rw [hn]; omega
  · show szAdd _ _ ≤ _; rw [hn]; omega
  · show 0 < szAdd _ _; rw [hn]; omega
  · show 0 ≤ (lit 0.2 : F32).val
    exact le_trans (by norm_num) h02.2.1
  · show (lit 0.2 : F32).val * sr.val ≤ _
    have h1 := h02.2.2
    have h2 := hsr.2.2
    have h3 := hsr.2.1
    have h4 := h02.2.1
    nlinarith

end CombC

/-- **C34** (partial: sample rates up to 2²² Hz, delay lines up to 2²² samples (87 s at 48 kHz), and delay times that are
numbers; the two negations below show that both conditions are needed). After `init`, every history of `setDelayTime`,
`setDecayTime`, `tick` and `reset` – any decay time and any input, including infinities and NaNs – runs without undefined
behaviour, i.e. without an access outside the delay line, and without a hanging `while` loop. -/
theorem C34_comb_safe_partial [Libm F32] (sr md : F32) (hsr : sr.In 0 (2 ^ 22)) (hmd : md.isFin = true) (hmd0 : 0 ≤ md.val)
    (hp : md.val * sr.val ≤ 2 ^ 22) (fuel : ℕ) (hf : 2 ^ 22 ≤ fuel) (cs : List CombC.Call) (hcs : ∀ c ∈ cs, c.ok) :
    ((CombC.init sr md).bind fun s => CombC.calls fuel s cs) ≠ none := by
  obtain ⟨s, h1, h2, -⟩ := CombC.init_safe hsr hmd hmd0 hp
  obtain ⟨s', h3, -⟩ := CombC.calls_safe hf cs h2 hcs
  rw [h1, Option.bind_some, h3]
  simp

example : (ofRat 48000 : F32).In 0 (2 ^ 22) ∧ (ofRat (1/5) : F32).isFin = true ∧ 0 ≤ (ofRat (1/5) : F32).val ∧
    (ofRat (1/5) : F32).val * (ofRat 48000 : F32).val ≤ 2 ^ 22 := by decide +kernel

/-- **C34**: the index used for the write and the length of the delay line in every reachable state. -/
theorem C34_write_inside [Libm F32] (sr md : F32) (hsr : sr.In 0 (2 ^ 22)) (hmd : md.isFin = true) (hmd0 : 0 ≤ md.val)
    (hp : md.val * sr.val ≤ 2 ^ 22) (fuel : ℕ) (hf : 2 ^ 22 ≤ fuel) (cs : List CombC.Call) (hcs : ∀ c ∈ cs, c.ok)
    (s : Comb F32) (hs : ((CombC.init sr md).bind fun s => CombC.calls fuel s cs) = some s) :
    s.writePos < s.buffer.length ∧ s.buffer.length = s.bufferSize := by
  obtain ⟨s0, h1, h2, -⟩ := CombC.init_safe hsr hmd hmd0 hp
  obtain ⟨s', h3, h4⟩ := CombC.calls_safe hf cs h2 hcs
  rw [h1, Option.bind_some, h3] at hs
  cases hs
  exact ⟨by rw [h4.len]; exact h4.pos, h4.len⟩

/-- **C34 negation**: after `setDelayTime(NaN)` the next tick converts a NaN to `size_t`, whatever the state. -/
theorem C34_nan_delay_undefined [Libm F32] (s : Comb F32) (fuel : ℕ) (x : F32) :
    CombC.tick fuel (CombC.setDelayTime nan s) x = none := by
  have h1 : (CombC.setDelayTime nan s).delayTime = nan := by
    show clamp nan (lit 0) s.maxDelayTime = nan
    have ha : ((nan : F32) <. lit 0) = false := rfl
    have hb : ((nan : F32) >. s.maxDelayTime) = false := by
      cases s.maxDelayTime <;> rfl
    simp [clamp, ha, hb]
  have h2 : (Arith.ofNat (CombC.setDelayTime nan s).writePos - (CombC.setDelayTime nan s).delayTime *
      (CombC.setDelayTime nan s).sampleRate : F32) = nan := by
    rw [h1]
    have : (nan : F32) * (CombC.setDelayTime nan s).sampleRate = nan := rfl
    rw [this]
    rcases (Arith.ofNat (CombC.setDelayTime nan s).writePos : F32) with _ | _ | _ <;> rfl
  have h3 : wrapLoop (Arith.ofNat (CombC.setDelayTime nan s).bufferSize : F32) fuel nan = some nan := by
    cases fuel <;> rfl
  have h4 : (Arith.toSize? (nan : F32)) = none := rfl
  simp only [CombC.tick, h2, h3, h4, Option.bind_some, Option.bind_none]

/-- **C34 negation**: with `init(1e9, 0)` the default delay of 0.2 s is `2·10⁸` samples and the delay line has 4; adding 4 to
`-2·10⁸` is lost to rounding, so that the `while` loop of the first tick never ends. -/
theorem C34_hang [Libm F32] (fuel : ℕ) (x : F32) :
    ((CombC.init (lit 1000000000) (lit 0) : Option (Comb F32)).bind fun s => CombC.tick fuel s x) = none := by
  obtain ⟨s, hs, h1, h2, h3, h4⟩ : ∃ s : Comb F32, CombC.init (lit 1000000000) (lit 0) = some s ∧
      s.sampleRate = lit 1000000000 ∧ s.delayTime = lit 0.2 ∧ s.bufferSize = 4 ∧ s.writePos = 0 := by
    have hz : Arith.toSize? (Arith.ceil (lit 0 * lit 1000000000 : F32)) = some 0 := by decide +kernel
    exact ⟨_, by rw [CombC.init, hz]; rfl, rfl, rfl, rfl, rfl⟩
  have key : ∀ n, wrapLoop (Arith.ofNat 4 : F32) n (Arith.ofNat 0 - lit 0.2 * lit 1000000000) = none := by
    have hneg : ((Arith.ofNat 0 - lit 0.2 * lit 1000000000 : F32) <. lit 0) = true := by decide +kernel
    have hadd : (Arith.ofNat 0 - lit 0.2 * lit 1000000000 : F32) + Arith.ofNat 4 =
      Arith.ofNat 0 - lit 0.2 * lit 1000000000 := by decide +kernel
    intro n
    induction n with
    | zero => rw [wrapLoop, if_pos hneg]
    | succ n ih => rw [wrapLoop, if_pos hneg, hadd, ih]
  rw [hs, Option.bind_some]
  simp only [CombC.tick, h1, h2, h3, h4, key, Option.bind_none]

end Verif
