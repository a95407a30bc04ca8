import Verif.Float.LogSpec
import Verif.Props.Lag
import Verif.Props.Lines

/-!
# Property C90: slow ramps and lines in single precision
-/

set_option linter.unusedSectionVars false

namespace Verif
open FP

/-- Adding less than a `2^26`th of a float leaves it as it is. -/
theorem add_absorb {v d : F32} (hv : v.isFin = true) (hd : d.isFin = true) (h : |d.val| < |v.val| / 2 ^ 26) : (v + d).In v.val v.val := by
  have hv0 : v.val ≠ 0 := by
    intro h0
    rw [h0] at h
    simp at h
    exact absurd h (not_lt.2 (abs_nonneg _))
  obtain ⟨zs, e⟩ := add_def hv hd
  have hl := zpow_log_le_abs hv0
  have hu := abs_lt_zpow_log v.val
  set m := Int.log 2 |v.val| with hm
  have hs : binary32.rnd (v.val + d.val) = v.val := by
    refine rnd_snap (K := ℚ) (e := m) (rep_val v).1 hl ?_
    have e1 : (2:ℚ) ^ (m + 1) = 2 ^ (m - 25) * 2 ^ 26 := by
      rw [show m + 1 = (m - 25) + 26 by ring, zpow_add₀ (by norm_num)]; norm_num
    rw [e1] at hu
    simp only [Rat.cast_id, add_sub_cancel_left]
    have : |v.val| / 2 ^ 26 < 2 ^ (m - 25) := by rw [div_lt_iff₀ (by positivity)]; exact hu
    linarith
  have hlt : |binary32.rnd (v.val + d.val)| < 2 ^ binary32.emaxp1 := by rw [hs]; exact (rep_val v).2.1
  rw [e]
  unfold ofRat ofK
  rw [dif_pos hlt]
  refine ⟨rfl, ?_, ?_⟩
  · show v.val ≤ binary32.rnd (v.val + d.val); rw [hs]
  · show binary32.rnd (v.val + d.val) ≤ v.val; rw [hs]

/-- Rounding at most doubles. -/
theorem ofRat_double {q : ℚ} {zs : Bool} {B : ℚ} (hB : binary32.Rep B false) (hq : |q| ≤ B) :
    (ofRat q zs : F32).isFin = true ∧ |(ofRat q zs : F32).val| ≤ 2 * |q| := by
  obtain ⟨l, u⟩ := abs_le.1 hq
  have hin := ofRat_in (f := binary32) (zs := zs) (Rep.neg hB) hB l u
  have hv := ofRat_val (f := binary32) (zs := zs) (Rep.neg hB) hB l u
  refine ⟨hin.1, ?_⟩
  rw [hv]
  have := binary32.rnd_nearest (K := ℚ) q binary32.grid_zero
  simp only [Rat.cast_id, Rat.cast_zero, sub_zero] at this
  have h2 := abs_sub_abs_le_abs_sub (binary32.rnd q) q
  rw [abs_sub_comm] at h2
  linarith

theorem ofInt_in {n : ℤ} (h0 : 0 ≤ n) (h : n ≤ 2 ^ 24) : (Arith.ofInt n : F32).In n n := by
  refine ofRat_rep ⟨binary32.grid_int (by rw [abs_of_nonneg h0]; exact h), ?_, by simp⟩
  rw [abs_of_nonneg (by exact_mod_cast h0)]
  refine lt_of_le_of_lt ?_ (two_pow_lt_max (k := 24) (by norm_num))
  exact_mod_cast h

namespace LagLinear

/-- The values of a ramp, in any arithmetic: the old value plus the increment again and again, and the target from the `n`-th sample on. -/
theorem ramp_list {α : Type} [Arith α] (s : Ramp α) (x : α) (hx : (x ==. x) = true) (hnew : Arith.ne x s.targetValue = true)
    (ht : (s.timeSeconds <=. lit 0) = false) (n : ℤ) (hn : rampLength s = some n) (k : ℕ) :
    ∃ s' ys, process s (List.replicate k x) = some (s', ys) ∧ ys.length = k ∧
      ∀ i < k, (((i:ℤ) + 1 < n → ys[i]? = some ((fun v => v + (x - s.currentValue) / Arith.ofInt n)^[i + 1] s.currentValue)) ∧
        (n ≤ i + 1 → ys[i]? = some x)) := by
  have hn1 : 1 ≤ n := by
    simp only [rampLength, Option.map_eq_some_iff] at hn
    obtain ⟨m, -, rfl⟩ := hn
    exact le_max_left _ _
  have key : ∀ (k : ℕ) (t : Ramp α), t.targetValue = x → ∃ s' ys, process t (List.replicate k x) = some (s', ys) ∧ ys.length = k ∧
      ∀ i < k, (((i:ℤ) + 1 < t.samplesRemaining → ys[i]? = some ((fun v => v + t.increment)^[i + 1] t.currentValue)) ∧
        (t.samplesRemaining ≤ i + 1 → ys[i]? = some x)) := by
    intro k
    induction k with
    | zero => intro t _; exact ⟨t, [], rfl, rfl, fun i hi => absurd hi (by omega)⟩
    | succ k ih =>
      intro t hT
      rw [List.replicate_succ]
      simp only [process, tick_same hx hT, Option.bind_some]
      rcases le_or_gt t.samplesRemaining 1 with h | h
      · obtain ⟨a1, a2, a3, a4⟩ := advance_landed h
        obtain ⟨s', ys, h1, h2, h3⟩ := ih (advance t).1 (a4.trans hT)
        refine ⟨s', (advance t).2 :: ys, by rw [h1]; rfl, by simp [h2], ?_⟩
        intro i hi
        cases i with
        | zero => exact ⟨fun h' => by push_cast at h'; omega, fun _ => by simp [a2, hT]⟩
        | succ i =>
          refine ⟨fun h' => by push_cast at h'; omega, fun _ => ?_⟩
          simpa using (h3 i (by omega)).2 (by omega)
      · obtain ⟨a1, a2⟩ := advance_ramp h
        obtain ⟨s', ys, h1, h2, h3⟩ := ih (advance t).1 (by rw [a1]; exact hT)
        rw [a1] at h3
        refine ⟨s', (advance t).2 :: ys, by rw [h1]; rfl, by simp [h2], ?_⟩
        intro i hi
        cases i with
        | zero => exact ⟨fun _ => by simp [a2], fun h' => by push_cast at h'; omega⟩
        | succ i =>
          obtain ⟨b1, b2⟩ := h3 i (by omega)
          refine ⟨fun h' => ?_, fun h' => ?_⟩
          · have := b1 (by push_cast at h'; show _ < t.samplesRemaining - 1; omega)
            simpa [Function.iterate_succ_apply] using this
          · have := b2 (by push_cast at h'; show t.samplesRemaining - 1 ≤ _; omega)
            simpa using this
  cases k with
  | zero => exact ⟨s, [], rfl, rfl, fun i hi => absurd hi (by omega)⟩
  | succ k =>
    have hn0 : ¬ n ≤ 0 := by omega
    set s1 := recalcIncrement { s with targetValue := x, samplesRemaining := n } with hs1
    have e1 : s1 = { s with targetValue := x, samplesRemaining := n, increment := (x - s.currentValue) / Arith.ofInt n } := by
      simp only [hs1, recalcIncrement, if_neg hn0]
    have htick : tick s x = some (advance s1) := by
      simp only [tick, hnew, if_true]
      rw [if_neg (by rw [ht]; simp)]
      have : rampLength { s with targetValue := x } = some n := hn
      rw [this]; rfl
    have hT : s1.targetValue = x := by rw [e1]
    obtain ⟨s', ys, h1, h2, h3⟩ := key (k + 1) s1 hT
    rw [e1] at h3
    refine ⟨s', ys, ?_, h2, h3⟩
    rw [List.replicate_succ] at h1 ⊢
    simp only [process, tick_same hx hT] at h1
    simp only [process, htick]
    exact h1

theorem eq_self_of_fin {x : F32} (h : x.isFin = true) : (x ==. x) = true := by rw [eq_fin h h]; simp

/-- **C90, negation for slow ramps**: if the distance to the new target is less than `n |v| / 2^28`, where `v` is the present value and
`n` the length of the ramp in samples, then LagLinear does not move at all for `n - 1` samples and makes the whole way in one jump with
the last one. -/
theorem C90_ramp_freezes (s : Ramp F32) (x : F32) (hx : x.isFin = true) (hv : s.currentValue.isFin = true)
    (hnew : Arith.ne x s.targetValue = true) (ht : (s.timeSeconds <=. lit 0) = false) (n : ℤ) (hn : rampLength s = some n)
    (h24 : n ≤ 2 ^ 24) (hslow : |x.val - s.currentValue.val| < n * |s.currentValue.val| / 2 ^ 28) (k : ℕ) :
    ∃ s' ys, process s (List.replicate k x) = some (s', ys) ∧ ys.length = k ∧
      ∀ (i : ℕ) (y : F32), ys[i]? = some y → ((i:ℤ) + 1 < n → y.In s.currentValue.val s.currentValue.val) ∧ (n ≤ i + 1 → y = x) := by
  have hn1 : 1 ≤ n := by
    simp only [rampLength, Option.map_eq_some_iff] at hn
    obtain ⟨m, -, rfl⟩ := hn
    exact le_max_left _ _
  have hn1q : (1:ℚ) ≤ n := by exact_mod_cast hn1
  have h24q : (n:ℚ) ≤ 2 ^ 24 := by exact_mod_cast h24
  obtain ⟨s', ys, h1, h2, h3⟩ := ramp_list s x (eq_self_of_fin hx) hnew ht n hn k
  refine ⟨s', ys, h1, h2, fun i y hy => ?_⟩
  have hik : i < k := by
    obtain ⟨h, -⟩ := List.getElem?_eq_some_iff.mp hy
    omega
  obtain ⟨b1, b2⟩ := h3 i hik
  refine ⟨fun hi => ?_, fun hi => ?_⟩
  · rw [b1 hi, Option.some.injEq] at hy
    subst hy
    set v := s.currentValue with hvdef
    have hvp : 0 ≤ |v.val| := abs_nonneg _
    have hin := ofInt_in (by omega) h24
    -- the increment
    obtain ⟨z1, e1⟩ := sub_def hx hv
    have hB : binary32.Rep |v.val| false := by
      rcases abs_choice v.val with h | h <;> rw [h]
      · exact rep_val v
      · exact Rep.neg (rep_val v)
    have d1 := ofRat_double (zs := z1) hB (q := x.val - v.val) (by
      rw [lt_div_iff₀ (by positivity)] at hslow
      have := mul_le_mul_of_nonneg_right h24q hvp
      nlinarith)
    rw [← e1] at d1
    obtain ⟨z2, e2⟩ := div_def d1.1 hin.1 (by rw [hin.val_eq]; linarith)
    have hq : |(x - v).val / (Arith.ofInt n : F32).val| ≤ 2 * (|x.val - v.val| / n) := by
      rw [hin.val_eq, abs_div, abs_of_pos (show (0:ℚ) < n by linarith), ← mul_div_assoc]
      exact div_le_div_of_nonneg_right d1.2 (by linarith)
    have hd : |x.val - v.val| / n < |v.val| / 2 ^ 28 := by
      rw [div_lt_iff₀ (by linarith)]
      linarith
    have d2 := ofRat_double (zs := z2) hB (q := (x - v).val / (Arith.ofInt n : F32).val) (by
      refine hq.trans ?_
      have : |v.val| / 2 ^ 28 ≤ |v.val| / 2 := by gcongr; norm_num
      linarith)
    rw [← e2] at d2
    have hinc : |((x - v) / Arith.ofInt n : F32).val| < |v.val| / 2 ^ 26 := by
      have : |v.val| / 2 ^ 26 = 4 * (|v.val| / 2 ^ 28) := by ring
      rw [this]
      linarith [d2.2]
    have step : ∀ m : ℕ, ((fun w => w + (x - v) / Arith.ofInt n)^[m] v).In v.val v.val := by
      intro m
      induction m with
      | zero => exact in_val hv
      | succ m ih =>
        rw [Function.iterate_succ_apply']
        have := add_absorb ih.1 d2.1 (by rw [ih.val_eq]; exact hinc)
        rw [ih.val_eq] at this
        exact this
    exact step (i + 1)
  · rw [b2 hi, Option.some.injEq] at hy
    exact hy.symm

/-- **C90** for LagLinear: on the way to a new target, sample `i` of the ramp is within `(i + 7) 2^-24 2^k` of the straight line, where
`2^k` bounds the present value and the target, for ramps of up to `2^20` samples (22 s at 48 kHz); so the last step, which goes to the
target exactly, is the slope of the line up to `(n + 5) 2^-24 2^k`. -/
theorem C90_ramp_accuracy (s : Ramp F32) (x : F32) (hx : x.isFin = true) (hv : s.currentValue.isFin = true)
    (hnew : Arith.ne x s.targetValue = true) (ht : (s.timeSeconds <=. lit 0) = false) (n : ℤ) (hn : rampLength s = some n)
    (h20 : n ≤ 2 ^ 20) (e : ℤ) (k1 : -100 ≤ e) (k2 : e ≤ 100) (hxb : |(x.val : ℝ)| ≤ 2 ^ e) (hvb : |(s.currentValue.val : ℝ)| ≤ 2 ^ e)
    (k : ℕ) :
    ∃ s' ys, process s (List.replicate k x) = some (s', ys) ∧ ys.length = k ∧
      ∀ (i : ℕ) (y : F32), ys[i]? = some y → ((i:ℤ) + 1 < n → y.isFin = true ∧
          |(y.val : ℝ) - (s.currentValue.val + (i + 1) / n * (x.val - s.currentValue.val))| ≤ (i + 7) / 2 ^ 24 * 2 ^ e) ∧
        (n ≤ i + 1 → y = x) ∧
        ∀ y', ys[i + 1]? = some y' → (i:ℤ) + 2 = n → |(y'.val : ℝ) - y.val - (x.val - s.currentValue.val) / n| ≤ (n + 5) / 2 ^ 24 * 2 ^ e := by
  have hn1 : 1 ≤ n := by
    simp only [rampLength, Option.map_eq_some_iff] at hn
    obtain ⟨m, -, rfl⟩ := hn
    exact le_max_left _ _
  have hn1r : (1:ℝ) ≤ n := by exact_mod_cast hn1
  have h20r : (n:ℝ) ≤ 2 ^ 20 := by exact_mod_cast h20
  have hnp : (0:ℝ) < n := by linarith
  obtain ⟨s', ys, h1, h2, h3⟩ := ramp_list s x (eq_self_of_fin hx) hnew ht n hn k
  set v := s.currentValue with hvdef
  set A : ℝ := 2 ^ e with hA
  have hAp : 0 < A := by positivity
  have hin := ofInt_in (n := n) (by omega) (by omega)
  -- the increment
  have e2 : (2:ℝ) ^ (e + 2) = 4 * A := by rw [zpow_add₀ (by norm_num)]; norm_num; ring
  have hxv : |(x.val : ℝ) - v.val| ≤ 2 * A := (abs_sub _ _).trans (by linarith)
  have n1 : Near (x - v) (x.val - v.val) (2 / 2 ^ 24 * A) := by
    refine (near_sub (e + 2) (near_val hx) (near_val hv) (by omega) (by omega) ?_).mono ?_
    · rw [e2]; linarith
    · rw [e2]; linarith
  have n2 : Near ((x - v) / Arith.ofInt n) ((x.val - v.val) / n) (6 / 2 ^ 24 * A / n) := by
    obtain ⟨zs, hdef⟩ := div_def n1.1 hin.1 (by rw [hin.val_eq]; exact_mod_cast hnp.ne')
    rw [hdef]
    set L := Int.log 2 (n:ℝ) with hL
    have l1 : (2:ℝ) ^ L ≤ n := by
      have := Int.zpow_log_le_self (b := 2) (r := (n:ℝ)) (by norm_num) hnp
      exact_mod_cast this
    have l2 : (n:ℝ) < 2 ^ (L + 1) := by
      have := Int.lt_zpow_succ_log_self (b := 2) (by norm_num) (n:ℝ)
      exact_mod_cast this
    have L0 : 0 ≤ L := by
      by_contra hc
      have : (2:ℝ) ^ (L + 1) ≤ 2 ^ (0:ℤ) := zpow_le_zpow_right₀ (by norm_num) (by omega)
      rw [zpow_zero] at this; linarith
    have L20 : L ≤ 20 := by
      by_contra hc
      have : (2:ℝ) ^ (21:ℤ) ≤ 2 ^ L := zpow_le_zpow_right₀ (by norm_num) (by omega)
      norm_num at this; linarith
    have e3 : (2:ℝ) ^ (e + 2 - L) = 4 * A / 2 ^ L := by rw [zpow_sub₀ (by norm_num), e2]
    have hp : (0:ℝ) < 2 ^ L := by positivity
    have l3 : (2:ℝ) ^ (L + 1) = 2 * 2 ^ L := by rw [zpow_add₀ (by norm_num)]; norm_num; ring
    have hlow : A / n ≤ A / 2 ^ L := by gcongr
    have hhigh : A / 2 ^ L ≤ 2 * A / n := by
      rw [div_le_div_iff₀ hp hnp]; nlinarith
    have hq : |(((x - v).val / (Arith.ofInt n : F32).val : ℚ) : ℝ) - (x.val - v.val) / n| ≤ 2 / 2 ^ 24 * A / n := by
      rw [hin.val_eq]
      push_cast
      rw [← sub_div, abs_div, abs_of_pos hnp]
      exact div_le_div_of_nonneg_right n1.2 hnp.le
    refine (near_of (k := e + 2 - L) (by omega) (by omega) hq ?_).mono ?_
    · rw [e3, abs_div, abs_of_pos hnp]
      have a1 : |(x.val : ℝ) - v.val| / n ≤ 2 * (A / n) := by
        rw [← mul_div_assoc]; exact div_le_div_of_nonneg_right hxv hnp.le
      have a2 : 2 / 2 ^ 24 * A / n = 2 / 2 ^ 24 * (A / n) := by ring
      have a3 : 4 * A / (2:ℝ) ^ L = 4 * (A / 2 ^ L) := by ring
      have a4 : 0 < A / n := by positivity
      rw [a2, a3]; linarith
    · rw [e3]
      have a2 : 2 / 2 ^ 24 * A / n = 2 / 2 ^ 24 * (A / n) := by ring
      have a3 : 4 * A / (2:ℝ) ^ L / 2 ^ 25 = 4 / 2 ^ 25 * (A / 2 ^ L) := by ring
      have a5 : 6 / 2 ^ 24 * A / n = 2 / 2 ^ 24 * (A / n) + 4 / 2 ^ 25 * (2 * A / n) := by ring
      rw [a2, a3, a5]; linarith
  set d := (x - v) / Arith.ofInt n with hd
  have step : ∀ m : ℕ, (m : ℝ) ≤ n → Near ((fun w => w + d)^[m] v) (v.val + m / n * (x.val - v.val)) ((m + 6 * (m / n)) / 2 ^ 24 * A) := by
    intro m
    induction m with
    | zero =>
      intro _
      have := near_val hv
      simpa using this
    | succ m ih =>
      intro hm
      push_cast at hm
      have hm' : (m:ℝ) ≤ n := by linarith
      rw [Function.iterate_succ_apply']
      have h0 : (0:ℝ) ≤ m := by positivity
      have hmn : (m + 1) / (n:ℝ) ≤ 1 := by rw [div_le_one hnp]; exact hm
      have hmn0 : (0:ℝ) ≤ (m + 1) / (n:ℝ) := by positivity
      have hdiv : ((m:ℝ) + 1) / n = m / n + 1 / n := by ring
      have hr : (v.val : ℝ) + m / n * (x.val - v.val) + (x.val - v.val) / n = v.val + ((m + 1 : ℕ) : ℝ) / n * (x.val - v.val) := by
        push_cast; ring
      have hb : |(v.val : ℝ) + m / n * (x.val - v.val) + (x.val - v.val) / n| ≤ A := by
        rw [hr]; push_cast
        rw [show (v.val : ℝ) + (m + 1) / n * (x.val - v.val) = (1 - (m + 1) / n) * v.val + (m + 1) / n * x.val by ring]
        refine (abs_add_le _ _).trans ?_
        rw [abs_mul, abs_mul, abs_of_nonneg hmn0, abs_of_nonneg (show (0:ℝ) ≤ 1 - (m + 1) / n by linarith)]
        have a1 := mul_le_mul_of_nonneg_left hvb (show (0:ℝ) ≤ 1 - (m + 1) / n by linarith)
        have a2 := mul_le_mul_of_nonneg_left hxb hmn0
        linarith
      have e1 : (2:ℝ) ^ (e + 1) = 2 * A := by rw [zpow_add₀ (by norm_num)]; norm_num; ring
      have hsum : (m + 6 * (m / n)) / 2 ^ 24 * A + 6 / 2 ^ 24 * A / n = (m + 6 * ((m + 1) / n)) / 2 ^ 24 * A := by rw [hdiv]; ring
      have := near_add (e + 1) (ih hm') n2 (by omega) (by omega) (by
        rw [e1, hsum]
        have : (m + 6 * ((m + 1) / (n:ℝ))) / 2 ^ 24 * A ≤ (2 ^ 20 + 6 * 1) / 2 ^ 24 * A := by gcongr; linarith
        linarith)
      refine (this.eq hr).mono ?_
      rw [hsum, e1]
      push_cast
      have : (m + 6 * ((m + 1) / (n:ℝ))) / 2 ^ 24 * A + 2 * A / 2 ^ 25 = (m + 1 + 6 * ((m + 1) / n)) / 2 ^ 24 * A := by ring
      rw [this]
  have main : ∀ (i : ℕ) (y : F32), ys[i]? = some y → ((i:ℤ) + 1 < n → y.isFin = true ∧
      |(y.val : ℝ) - (v.val + (i + 1) / n * (x.val - v.val))| ≤ (i + 7) / 2 ^ 24 * A) ∧ (n ≤ i + 1 → y = x) := by
    intro i y hy
    have hik : i < k := by
      obtain ⟨h, -⟩ := List.getElem?_eq_some_iff.mp hy
      omega
    obtain ⟨b1, b2⟩ := h3 i hik
    refine ⟨fun hi => ?_, fun hi => ?_⟩
    · rw [b1 hi, Option.some.injEq] at hy
      subst hy
      have hir : ((i + 1 : ℕ) : ℝ) ≤ n := by
        have : ((i:ℝ) + 1) < n := by exact_mod_cast hi
        push_cast; linarith
      have := step (i + 1) hir
      push_cast at this hir
      refine ⟨this.1, this.2.trans ?_⟩
      have : ((i:ℝ) + 1) / n ≤ 1 := by rw [div_le_one hnp]; exact hir
      exact mul_le_mul_of_nonneg_right (div_le_div_of_nonneg_right (by linarith) (by positivity)) hAp.le
    · rw [b2 hi, Option.some.injEq] at hy
      exact hy.symm
  refine ⟨s', ys, h1, h2, fun i y hy => ⟨(main i y hy).1, (main i y hy).2, fun y' hy' hi => ?_⟩⟩
  have e1 : y' = x := (main (i + 1) y' hy').2 (by push_cast; omega)
  obtain ⟨-, hb⟩ := (main i y hy).1 (by omega)
  have hir : (i:ℝ) + 2 = n := by exact_mod_cast hi
  have hfrac : ((i:ℝ) + 1) / n = 1 - 1 / n := by
    rw [← hir]; field_simp; ring
  rw [e1, show (x.val : ℝ) - y.val - (x.val - v.val) / n = -(y.val - (v.val + (i + 1) / n * (x.val - v.val))) by rw [hfrac]; ring, abs_neg]
  refine hb.trans (mul_le_mul_of_nonneg_right (div_le_div_of_nonneg_right (by linarith) (by positivity)) hAp.le)

/-- Concrete case: at 48 kHz, moving from 0.5 to 0.5005 in ten seconds. LagLinear stays at 0.5 for 479999 samples, then jumps. -/
example : ∃ s0 s : Ramp F32, init (lit 48000) (lit 0.5) (lit 10) = some s0 ∧ s0 = s ∧
    ∀ k, ∃ s' ys, process s (List.replicate k (lit 0.5005)) = some (s', ys) ∧ ys.length = k ∧
      ∀ (i : ℕ) (y : F32), ys[i]? = some y → ((i:ℤ) + 1 < 480000 → y.In 0.5 0.5) ∧ (480000 ≤ (i:ℤ) + 1 → y = lit 0.5005) := by
  refine ⟨⟨lit 48000, lit 10, lit 0.5, lit 0.5, lit 0, 0⟩, ⟨lit 48000, lit 10, lit 0.5, lit 0.5, lit 0, 0⟩, by decide +kernel, rfl, fun k => ?_⟩
  have hv : (lit 0.5 : F32).val = 0.5 := by decide +kernel
  obtain ⟨s', ys, h1, h2, h3⟩ := C90_ramp_freezes ⟨lit 48000, lit 10, lit 0.5, lit 0.5, lit 0, 0⟩ (lit 0.5005) (by decide +kernel) (by decide +kernel)
    (by decide +kernel) (by decide +kernel) 480000 (by decide +kernel) (by norm_num) (by decide +kernel) k
  simp only [hv] at h3
  exact ⟨s', ys, h1, h2, h3⟩

end LagLinear

namespace XLine

/-- What `set` leaves behind for positive end points and a positive duration. -/
theorem set_positive [Libm F32] (s0 : Line F32) {a b d m c : F32} (ha : a.isFin = true) (ha0 : 0 < a.val) (hb : b.isFin = true) (hb0 : 0 < b.val)
    (hd : d.isFin = true) (hd0 : 0 < d.val) (hN : (d * s0.sampleRate).isFin = true) (hN0 : 0 < (d * s0.sampleRate).val) :
    set a b d m c s0 = { s0 with
      start := a, stop := b, dur := d, mul := m, add := c, value := a, counter := lit 0, durSamples := d * s0.sampleRate, done := false,
      growthFactor := Libm.exp (Libm.log (b / a) / (d * s0.sampleRate)) } := by
  have hz := lit_zero (f := binary32)
  have he : endpoints a b = (a, b) := by
    simp [endpoints, eq_fin ha hz.1, eq_fin hb hz.1, lt_fin hz.1 ha, lt_fin hz.1 hb, hz.val_eq, ha0, hb0, ha0.ne', hb0.ne']
  simp only [set, he, updateGrowthFactor, lt_fin hz.1 hd, hz.val_eq, hd0, decide_true, if_true, lt_fin hz.1 hN, hN0, Bool.true_and,
    Arith.ne, eq_fin ha hz.1, ha0.ne', decide_false, Bool.not_false]

/-- The samples of a line before its end: the start value times the growth factor again and again. -/
theorem line_values [Libm F32] (s : Line F32) (hc : s.counter.In 0 0) (hd : s.done = false)
    (hf : s.durSamples.isFin = true) (h0 : 0 < s.durSamples.val) (h1 : s.durSamples.val ≤ 2 ^ 24) (n : ℕ) (hn : (n:ℚ) < s.durSamples.val) :
    tickOut tick n s = (fun v => v * s.growthFactor)^[n] s.value * s.mul + s.add := by
  have key : ∀ n : ℕ, (n:ℚ) < s.durSamples.val → (tickState tick n s).value = (fun v => v * s.growthFactor)^[n] s.value ∧
      (tickState tick n s).growthFactor = s.growthFactor ∧ (tickState tick n s).mul = s.mul ∧ (tickState tick n s).add = s.add := by
    intro n
    induction n with
    | zero => intro _; exact ⟨rfl, rfl, rfl, rfl⟩
    | succ n ih =>
      intro hn
      push_cast at hn
      obtain ⟨i1, i2, i3, i4⟩ := ih (by linarith)
      have d0 : (tickState tick n s).done = false := by
        have := (C20_done_float s hc hd hf h0 h1 n).1
        rw [isDone, Nat.ceil_le] at this
        rw [← Bool.not_eq_true, this]; linarith
      have d1 : (tickState tick (n + 1) s).done = false := by
        have := (C20_done_float s hc hd hf h0 h1 (n + 1)).1
        rw [isDone, Nat.ceil_le] at this
        rw [← Bool.not_eq_true, this]; push_cast; linarith
      rw [tickState_succ] at d1 ⊢
      rw [Function.iterate_succ_apply']
      generalize tickState tick n s = t at *
      simp only [tick, d0, Bool.not_false, if_true] at d1 ⊢
      by_cases h : ((t.counter + lit 1) >=. t.durSamples) = true
      · rw [if_pos h] at d1; simp at d1
      · rw [if_neg h]
        exact ⟨by rw [i1, i2], i2, i3, i4⟩
  obtain ⟨i1, -, i3, i4⟩ := key n hn
  simp only [tickOut, tick, i1, i3, i4]

/-- The output with factor 1 and offset 0 is the value. -/
theorem unscaled {v : F32} (hv : v.isFin = true) : (v * lit 1 + lit 0).In v.val v.val := by
  have h1 := lit_one (f := binary32)
  have h0 := lit_zero (f := binary32)
  have hm : (v * lit 1).In v.val v.val := mul_in hv h1.1 (rep_val v) (rep_val v) (by rw [h1.val_eq]; linarith) (by rw [h1.val_eq]; linarith)
  exact add_in hm h0 (rep_val v) (rep_val v) (by linarith) (by linarith)

theorem log_of_rel {x r e : ℝ} (hr : 0 < r) (he0 : 0 ≤ e) (he : e ≤ 1 / 200) (h : |x - r| ≤ e * r) :
    0 < x ∧ |Real.log x - Real.log r| ≤ 1.01 * e := by
  obtain ⟨l, u⟩ := abs_le.1 h
  have hx : 0 < x := by nlinarith
  refine ⟨hx, ?_⟩
  have h1 : Real.log x - Real.log r ≤ e := by
    rw [← Real.log_div hx.ne' hr.ne']
    refine (Real.log_le_sub_one_of_pos (by positivity)).trans ?_
    rw [sub_le_iff_le_add, div_le_iff₀ hr]; linarith
  have h2 : Real.log r - Real.log x ≤ 1.01 * e := by
    rw [← Real.log_div hr.ne' hx.ne']
    refine (Real.log_le_sub_one_of_pos (by positivity)).trans ?_
    rw [sub_le_iff_le_add, div_le_iff₀ hx]
    nlinarith
  rw [abs_le]
  constructor <;> linarith

/-- The exponent: how far `log(b/a)/N` computed with floats is from the exact one. -/
theorem exponent_near [Libm F32] [LogSpec] {a b N : F32} (ha : a.isFin = true) (hb : b.isFin = true) (hN : N.isFin = true)
    (a1 : 2 ^ (-50:ℤ) ≤ (a.val : ℝ)) (a2 : (a.val : ℝ) ≤ 2 ^ (50:ℤ)) (b1 : 2 ^ (-50:ℤ) ≤ (b.val : ℝ)) (b2 : (b.val : ℝ) ≤ 2 ^ (50:ℤ))
    (n1 : 2 ≤ (N.val : ℝ)) (n2 : (N.val : ℝ) ≤ 2 ^ 24) :
    |Real.log (b.val / a.val)| ≤ 70 ∧
      Near (Libm.log (b / a) / N) (Real.log (b.val / a.val) / N.val) ((1.3 + 3 * |Real.log (b.val / a.val)|) / 2 ^ 24 / N.val) := by
  have hap : (0:ℝ) < a.val := lt_of_lt_of_le (by positivity) a1
  have hbp : (0:ℝ) < b.val := lt_of_lt_of_le (by positivity) b1
  have hNp : (0:ℝ) < N.val := by linarith
  set r := (b.val : ℝ) / a.val with hr
  have hrp : 0 < r := by positivity
  have r1 : (2:ℝ) ^ (-100:ℤ) ≤ r := by
    rw [hr, le_div_iff₀ hap]
    calc (2:ℝ) ^ (-100:ℤ) * a.val ≤ 2 ^ (-100:ℤ) * 2 ^ (50:ℤ) := by gcongr
      _ = 2 ^ (-50:ℤ) := by rw [← zpow_add₀ (by norm_num)]; norm_num
      _ ≤ _ := b1
  have r2 : r ≤ 2 ^ (100:ℤ) := by
    rw [hr, div_le_iff₀ hap]
    calc (b.val : ℝ) ≤ 2 ^ (50:ℤ) := b2
      _ = 2 ^ (100:ℤ) * 2 ^ (-50:ℤ) := by rw [← zpow_add₀ (by norm_num)]; norm_num
      _ ≤ _ := by gcongr
  have hlog2 : Real.log 2 ≤ 0.7 := by have := Real.log_two_lt_d9; linarith
  have lu : Real.log r ≤ 70 := by
    have := Real.log_le_log hrp r2
    rw [Real.log_zpow] at this
    push_cast at this; linarith
  have ll : -70 ≤ Real.log r := by
    have := Real.log_le_log (by positivity) r1
    rw [Real.log_zpow] at this
    push_cast at this; linarith
  set L := Real.log r with hL
  have hL70 : |L| ≤ 70 := abs_le.2 ⟨ll, lu⟩
  refine ⟨hL70, ?_⟩
  have hav : a.val ≠ 0 := by exact_mod_cast hap.ne'
  have hbv : b.val ≠ 0 := by exact_mod_cast hbp.ne'
  have m1 : (2:ℝ) ^ (-125:ℤ) ≤ 2 ^ (-100:ℤ) := zpow_le_zpow_right₀ (by norm_num) (by norm_num)
  have m2 : (2:ℝ) ^ (100:ℤ) ≤ 2 ^ (126:ℤ) := zpow_le_zpow_right₀ (by norm_num) (by norm_num)
  have hq := (rel_div (rel_val hb hbv) (rel_val ha hav) le_rfl le_rfl (by norm_num) (by norm_num)
    (by rw [abs_of_pos hrp]; exact m1.trans r1) (by rw [abs_of_pos hrp]; exact r2.trans m2)).mono (show _ ≤ 1 / 2 ^ 24 by norm_num)
  obtain ⟨q1, -, q2⟩ := hq
  rw [← hr, abs_of_pos hrp] at q2
  obtain ⟨qp, ql⟩ := log_of_rel hrp (by norm_num) (by norm_num) q2
  set q := b / a with hqdef
  have qlo : (2:ℝ) ^ (-120:ℤ) ≤ q.val := by
    obtain ⟨l, -⟩ := abs_le.1 q2
    have : (2:ℝ) ^ (-120:ℤ) ≤ 2 ^ (-100:ℤ) / 2 := by norm_num
    have h3 : r / 2 ≤ q.val := by linarith
    exact this.trans ((div_le_div_of_nonneg_right r1 (by norm_num)).trans h3)
  have qhi : (q.val : ℝ) ≤ 2 ^ (120:ℤ) := by
    obtain ⟨-, u⟩ := abs_le.1 q2
    have : (2:ℝ) ^ (100:ℤ) * 2 ≤ 2 ^ (120:ℤ) := by norm_num
    have h3 : (q.val : ℝ) ≤ r * 2 := by linarith
    have h4 : r * 2 ≤ 2 ^ (100:ℤ) * 2 := by gcongr
    linarith
  obtain ⟨g1, g2⟩ := LogSpec.log_rel q q1
    (by
      have : ((2 ^ (-120:ℤ) : ℚ) : ℝ) ≤ (q.val : ℝ) := by rw [Rat.cast_zpow]; exact qlo
      exact_mod_cast this)
    (by
      have : (q.val : ℝ) ≤ ((2 ^ (120:ℤ) : ℚ) : ℝ) := by rw [Rat.cast_zpow]; exact qhi
      exact_mod_cast this)
  set l := (Libm.log q : F32) with hl
  have t149 : (2:ℝ) ^ (-149:ℤ) ≤ 0.001 / 2 ^ 24 := by norm_num
  have t23 : (2:ℝ) ^ (-23:ℤ) = 2 / 2 ^ 24 := by norm_num
  rw [t23] at g2
  have hlq : |Real.log (q.val : ℝ)| ≤ |L| + 1.01 * (1 / 2 ^ 24) := by
    have := abs_sub_abs_le_abs_sub (Real.log (q.val : ℝ)) L
    linarith
  have hll : |(l.val : ℝ) - L| ≤ (1.1 + 2 * |L|) / 2 ^ 24 := by
    have h1 := abs_sub_le (l.val : ℝ) (Real.log (q.val : ℝ)) L
    have h2 : 2 / 2 ^ 24 * |Real.log (q.val : ℝ)| ≤ 2 / 2 ^ 24 * (|L| + 1.01 * (1 / 2 ^ 24)) := by gcongr
    have h3 : (1.1 + 2 * |L|) / 2 ^ 24 = 2 / 2 ^ 24 * |L| + 1.1 / 2 ^ 24 := by ring
    rw [h3]
    norm_num at *
    linarith
  have hlb : |(l.val : ℝ)| ≤ |L| + 0.1 := by
    have h1 := abs_sub_abs_le_abs_sub (l.val : ℝ) L
    have h2 : (1.1 + 2 * |L|) / 2 ^ 24 ≤ (1.1 + 2 * 70) / 2 ^ 24 := by gcongr
    norm_num at *
    linarith
  have hNv : N.val ≠ 0 := by exact_mod_cast hNp.ne'
  obtain ⟨zs, hdef⟩ := div_def g1 hN hNv
  rw [hdef]
  have hb71 : |l.val / N.val| ≤ 128 := by
    have : ((|l.val / N.val| : ℚ) : ℝ) ≤ ((128 : ℚ) : ℝ) := by
      push_cast
      rw [abs_div, abs_of_pos hNp, div_le_iff₀ hNp]
      linarith
    exact_mod_cast this
  obtain ⟨c1, c2⟩ := abs_le.1 hb71
  have R : binary32.Rep 128 false := by decide +kernel
  have hin := ofRat_in (f := binary32) (zs := zs) (Rep.neg R) R c1 c2
  have hv := ofRat_val (f := binary32) (zs := zs) (Rep.neg R) R c1 c2
  refine ⟨hin.1, ?_⟩
  rw [hv]
  have he := binary32.rnd_rel_err (K := ℚ) (x := l.val / N.val)
  have he' : |((l.val / N.val : ℚ) : ℝ) - ((binary32.rnd (l.val / N.val) : ℚ) : ℝ)| ≤ |(l.val : ℝ) / N.val| * (1 / 2 ^ 24) + 2 ^ (-150:ℤ) := by
    have h2 : ((|l.val / N.val - binary32.rnd (l.val / N.val)| : ℚ) : ℝ) ≤
        ((|l.val / N.val| * 2 ^ (-24:ℤ) + 2 ^ (-150:ℤ) : ℚ) : ℝ) := by exact_mod_cast he
    rw [Rat.cast_add, Rat.cast_zpow] at h2
    rw [Rat.cast_mul, Rat.cast_abs, Rat.cast_abs, Rat.cast_zpow, Rat.cast_div, Rat.cast_sub, Rat.cast_div] at h2
    rw [Rat.cast_div]
    have h3 : (((2:ℚ) : ℝ)) ^ (-24:ℤ) = 1 / 2 ^ 24 := by push_cast; norm_num
    rw [h3] at h2
    have h4 : (((2:ℚ) : ℝ)) ^ (-150:ℤ) = 2 ^ (-150:ℤ) := by rw [Rat.cast_ofNat]
    rw [h4] at h2
    exact h2
  have hdv : |((l.val / N.val : ℚ) : ℝ) - L / N.val| ≤ (1.1 + 2 * |L|) / 2 ^ 24 / N.val := by
    push_cast
    rw [← sub_div, abs_div, abs_of_pos hNp]
    exact div_le_div_of_nonneg_right hll hNp.le
  have habs : |(l.val : ℝ) / N.val| ≤ (|L| + 0.1) / N.val := by
    rw [abs_div, abs_of_pos hNp]
    exact div_le_div_of_nonneg_right hlb hNp.le
  have h150 : (2:ℝ) ^ (-150:ℤ) ≤ 0.1 / 2 ^ 24 / N.val := by
    rw [le_div_iff₀ hNp]
    calc (2:ℝ) ^ (-150:ℤ) * N.val ≤ 2 ^ (-150:ℤ) * 2 ^ 24 := by gcongr
      _ ≤ _ := by norm_num
  have htri := abs_sub_le ((binary32.rnd (l.val / N.val) : ℚ) : ℝ) ((l.val / N.val : ℚ) : ℝ) (L / N.val)
  have hfin : (1.3 + 3 * |L|) / 2 ^ 24 / N.val = (1.1 + 2 * |L|) / 2 ^ 24 / N.val + ((|L| + 0.1) / N.val * (1 / 2 ^ 24) + 0.1 / 2 ^ 24 / N.val) := by
    field_simp; ring
  rw [hfin]
  have := mul_le_mul_of_nonneg_right habs (show (0:ℝ) ≤ 1 / 2 ^ 24 by norm_num)
  refine htri.trans ((add_le_add (((abs_sub_comm _ _).trans_le he').trans (add_le_add this h150)) hdv).trans (le_of_eq ?_))
  rw [add_comm]

/-- **C90, negation for slow lines**: if the line is so slow that `|log(end/start)| ≤ 0.99 N 2^-26`, where `N` is its length in samples, then
the growth factor is rounded to 1: XLine stays on its start value to the last sample and then jumps to the end value. -/
theorem C90_line_freezes [Libm F32] [LogSpec] (s0 : Line F32) (a b d : F32) (ha : a.isFin = true) (hb : b.isFin = true)
    (a1 : 2 ^ (-50:ℤ) ≤ (a.val : ℝ)) (a2 : (a.val : ℝ) ≤ 2 ^ (50:ℤ)) (b1 : 2 ^ (-50:ℤ) ≤ (b.val : ℝ)) (b2 : (b.val : ℝ) ≤ 2 ^ (50:ℤ))
    (hd : d.isFin = true) (hd0 : 0 < d.val) (hN : (d * s0.sampleRate).isFin = true) (n1 : 2 ^ 11 ≤ (d * s0.sampleRate).val)
    (n2 : (d * s0.sampleRate).val ≤ 2 ^ 24)
    (hslow : |Real.log (b.val / a.val)| ≤ 0.99 * (d * s0.sampleRate).val / 2 ^ 26) (i : ℕ) :
    ((i:ℚ) < (d * s0.sampleRate).val → (tickOut tick i (set a b d (lit 1) (lit 0) s0)).In a.val a.val) ∧
      ((d * s0.sampleRate).val ≤ i → (tickOut tick i (set a b d (lit 1) (lit 0) s0)).In b.val b.val) := by
  set N := d * s0.sampleRate with hNdef
  have n1r : (2:ℝ) ^ 11 ≤ N.val := by exact_mod_cast n1
  have n2r : (N.val : ℝ) ≤ 2 ^ 24 := by exact_mod_cast n2
  have hN0 : 0 < N.val := by linarith
  have hNp : (0:ℝ) < N.val := by exact_mod_cast hN0
  have hap : 0 < a.val := by
    have : (0:ℝ) < a.val := lt_of_lt_of_le (by positivity) a1
    exact_mod_cast this
  have hbp : 0 < b.val := by
    have : (0:ℝ) < b.val := lt_of_lt_of_le (by positivity) b1
    exact_mod_cast this
  obtain ⟨-, hx⟩ := exponent_near ha hb hN a1 a2 b1 b2 (by linarith) n2r
  have hg : (Libm.exp (Libm.log (b / a) / N) : F32).In 1 1 := by
    refine LogSpec.exp_one _ hx.1 ?_
    have h1 := hx.abs_val_le
    rw [abs_div, abs_of_pos hNp] at h1
    set L := |Real.log (b.val / a.val)| with hL
    have h2 : L / N.val ≤ 0.99 / 2 ^ 26 := by rw [div_le_iff₀ hNp]; linarith
    have h3 : (1.3 + 3 * L) / 2 ^ 24 / N.val = 1.3 / 2 ^ 24 / N.val + 3 / 2 ^ 24 * (L / N.val) := by ring
    have h4 : 1.3 / 2 ^ 24 / (N.val : ℝ) ≤ 1.3 / 2 ^ 24 / 2 ^ 11 := by gcongr
    have h5 : |((Libm.log (b / a) / N : F32).val : ℝ)| ≤ 2 ^ (-26:ℤ) := by
      rw [h3] at h1
      norm_num at *
      linarith
    have h6 : ((|(Libm.log (b / a) / N : F32).val| : ℚ) : ℝ) ≤ ((2 ^ (-26:ℤ) : ℚ) : ℝ) := by
      rw [Rat.cast_abs, Rat.cast_zpow]; exact h5
    exact_mod_cast h6
  rw [set_positive s0 ha hap hb hbp hd hd0 hN hN0]
  constructor
  · intro hi
    rw [line_values _ lit_zero rfl hN hN0 n2 i hi]
    have : ∀ m : ℕ, ((fun v => v * (Libm.exp (Libm.log (b / a) / N) : F32))^[m] a).In a.val a.val := by
      intro m
      induction m with
      | zero => exact in_val ha
      | succ m ih =>
        rw [Function.iterate_succ_apply']
        refine mul_in ih.1 hg.1 (rep_val a) (rep_val a) ?_ ?_ <;> rw [ih.val_eq, hg.val_eq] <;> linarith
    have h2 := unscaled (this i).1
    rw [(this i).val_eq] at h2
    exact h2
  · intro hi
    rw [(C20_done_float _ lit_zero rfl hN hN0 n2 i).2 (Nat.ceil_le.2 hi)]
    exact unscaled hb

/-- Repeated multiplication: if the logarithm of the factor is known up to `G`, every product is known up to `G + 1.01 u` per step. -/
theorem powers_near {a g : F32} {B L G N : ℝ} (ha : a.isFin = true) (hapr : (0:ℝ) < a.val) (g1 : g.isFin = true) (gp : (0:ℝ) < g.val)
    (hNp : 0 < N) (n2r : N ≤ 2 ^ 20) (la : |Real.log a.val| ≤ 35) (lb : |B| ≤ 35) (hLab : L = B - Real.log a.val)
    (hG : |Real.log g.val - L / N| ≤ G) (hGN : G * N ≤ 0.2) (m : ℕ) (hm : (m:ℝ) ≤ N) :
    ((fun v => v * g)^[m] a).isFin = true ∧ (0:ℝ) < ((fun v => v * g)^[m] a).val ∧
      |Real.log ((fun v => v * g)^[m] a).val - (Real.log a.val + m / N * L)| ≤ m * (G + 1.01 / 2 ^ 24) := by
  have hG0 : 0 ≤ G := (abs_nonneg _).trans hG
  -- the exact curve stays between the end points
  have between : ∀ m : ℕ, (m:ℝ) ≤ N → |Real.log a.val + m / N * L| ≤ 35 := by
    intro m hm
    have h0 : (0:ℝ) ≤ m / N := by positivity
    have h1 : (m:ℝ) / N ≤ 1 := by rw [div_le_one hNp]; exact hm
    rw [hLab, show Real.log a.val + (m:ℝ) / N * (B - Real.log a.val) =
      (1 - m / N) * Real.log a.val + m / N * B by ring]
    refine (abs_add_le _ _).trans ?_
    rw [abs_mul, abs_mul, abs_of_nonneg h0, abs_of_nonneg (show (0:ℝ) ≤ 1 - m / N by linarith)]
    have a1 := mul_le_mul_of_nonneg_left la (show (0:ℝ) ≤ 1 - m / N by linarith)
    have a2 := mul_le_mul_of_nonneg_left lb h0
    linarith
  revert hm
  induction m with
  | zero => intro _; exact ⟨ha, hapr, by simp⟩
  | succ m ih =>
    intro hm
    push_cast at hm
    obtain ⟨i1, i2, i3⟩ := ih (by linarith)
    rw [Function.iterate_succ_apply']
    set v := (fun v => v * g)^[m] a with hv
    have hm0 : (0:ℝ) ≤ m := by positivity
    have hsum : |Real.log v.val + Real.log g.val - (Real.log a.val + (m + 1) / N * L)| ≤ m * (G + 1.01 / 2 ^ 24) + G := by
      rw [show Real.log v.val + Real.log g.val - (Real.log a.val + ((m:ℝ) + 1) / N * L) =
        (Real.log v.val - (Real.log a.val + m / N * L)) + (Real.log g.val - L / N) by ring]
      exact (abs_add_le _ _).trans (add_le_add i3 hG)
    have hmG : m * (G + 1.01 / 2 ^ 24) + G ≤ 0.3 := by
      have h1 : (m + 1) * G ≤ N * G := by gcongr
      have h2 : (m:ℝ) * (1.01 / 2 ^ 24) ≤ 2 ^ 20 * (1.01 / 2 ^ 24) := by gcongr; linarith
      norm_num at *; nlinarith
    have hb36 : |Real.log v.val + Real.log g.val| ≤ 36 := by
      have h1 := between (m + 1) (by push_cast; exact hm)
      push_cast at h1
      have h2 := abs_sub_abs_le_abs_sub (Real.log v.val + Real.log g.val) (Real.log a.val + ((m:ℝ) + 1) / N * L)
      linarith
    have hvg : (0:ℝ) < (v.val : ℝ) * g.val := mul_pos i2 gp
    rw [← Real.log_mul i2.ne' gp.ne'] at hb36 hsum
    obtain ⟨w1, w2⟩ := abs_le.1 hb36
    have e1 : Real.exp 1 ≤ 2.72 := by have := Real.exp_one_lt_d9; linarith
    have e36 : Real.exp 36 ≤ 2 ^ (60:ℤ) := by
      calc Real.exp 36 = Real.exp 1 ^ 36 := by rw [← Real.exp_nat_mul]; norm_num
        _ ≤ 2.72 ^ 36 := by gcongr
        _ ≤ 2 ^ (60:ℤ) := by norm_num
    have hi1 : (v.val : ℝ) * g.val ≤ 2 ^ (60:ℤ) := by
      have := Real.exp_le_exp.2 w2
      rw [Real.exp_log hvg] at this
      linarith
    have hi2 : (2:ℝ) ^ (-60:ℤ) ≤ (v.val : ℝ) * g.val := by
      have := Real.exp_le_exp.2 w1
      rw [Real.exp_log hvg] at this
      refine le_trans ?_ this
      rw [Real.exp_neg, zpow_neg]
      exact inv_anti₀ (Real.exp_pos _) e36
    have m1 : (2:ℝ) ^ (-125:ℤ) ≤ 2 ^ (-60:ℤ) := zpow_le_zpow_right₀ (by norm_num) (by norm_num)
    have m2 : (2:ℝ) ^ (60:ℤ) ≤ 2 ^ (126:ℤ) := zpow_le_zpow_right₀ (by norm_num) (by norm_num)
    obtain ⟨f1, -, f2⟩ := (rel_mul (rel_val i1 (by exact_mod_cast i2.ne')) (rel_val g1 (by exact_mod_cast gp.ne')) le_rfl (by norm_num)
      (by rw [abs_of_pos hvg]; exact m1.trans hi2) (by rw [abs_of_pos hvg]; exact hi1.trans m2)).mono (show _ ≤ 1 / 2 ^ 24 by norm_num)
    rw [abs_of_pos hvg] at f2
    obtain ⟨k1, k2⟩ := log_of_rel hvg (by norm_num) (by norm_num) f2
    refine ⟨f1, k1, ?_⟩
    push_cast
    have := abs_sub_le (Real.log ((v * g : F32).val : ℝ)) (Real.log ((v.val : ℝ) * g.val)) (Real.log a.val + ((m:ℝ) + 1) / N * L)
    have h3 : ((m:ℝ) + 1) * (G + 1.01 / 2 ^ 24) = m * (G + 1.01 / 2 ^ 24) + G + 1.01 * (1 / 2 ^ 24) := by ring
    rw [h3]
    linarith

/-- **C90** for XLine: before its end, sample `i` of a line of up to `2^20` samples is the exponential curve up to a factor whose logarithm
is at most `(4 i + 3 |log(end/start)| + 2) 2^-24` (one part in 87 per second at 48 kHz); from the end on it is the end value exactly. -/
theorem C90_line_accuracy [Libm F32] [LogSpec] (s0 : Line F32) (a b d : F32) (ha : a.isFin = true) (hb : b.isFin = true)
    (a1 : 2 ^ (-50:ℤ) ≤ (a.val : ℝ)) (a2 : (a.val : ℝ) ≤ 2 ^ (50:ℤ)) (b1 : 2 ^ (-50:ℤ) ≤ (b.val : ℝ)) (b2 : (b.val : ℝ) ≤ 2 ^ (50:ℤ))
    (hd : d.isFin = true) (hd0 : 0 < d.val) (hN : (d * s0.sampleRate).isFin = true) (n1 : 2 ≤ (d * s0.sampleRate).val)
    (n2 : (d * s0.sampleRate).val ≤ 2 ^ 20) (i : ℕ) :
    ((i:ℚ) < (d * s0.sampleRate).val → (tickOut tick i (set a b d (lit 1) (lit 0) s0)).isFin = true ∧
        0 < (tickOut tick i (set a b d (lit 1) (lit 0) s0)).val ∧
        |Real.log (tickOut tick i (set a b d (lit 1) (lit 0) s0)).val - Real.log (curve a.val b.val (d * s0.sampleRate).val i)| ≤
          (4 * i + 3 * |Real.log (b.val / a.val)| + 2) / 2 ^ 24) ∧
      ((d * s0.sampleRate).val ≤ i → (tickOut tick i (set a b d (lit 1) (lit 0) s0)).In b.val b.val) := by
  set N := d * s0.sampleRate with hNdef
  have n1r : (2:ℝ) ≤ N.val := by exact_mod_cast n1
  have n2r : (N.val : ℝ) ≤ 2 ^ 20 := by exact_mod_cast n2
  have hN0 : 0 < N.val := by linarith
  have hNp : (0:ℝ) < N.val := by exact_mod_cast hN0
  have hapr : (0:ℝ) < a.val := lt_of_lt_of_le (by positivity) a1
  have hbpr : (0:ℝ) < b.val := lt_of_lt_of_le (by positivity) b1
  have hap : 0 < a.val := by exact_mod_cast hapr
  have hbp : 0 < b.val := by exact_mod_cast hbpr
  obtain ⟨hL70, hx⟩ := exponent_near ha hb hN a1 a2 b1 b2 n1r (n2r.trans (by norm_num))
  set L := Real.log (b.val / a.val) with hL
  have hLab : L = Real.log b.val - Real.log a.val := Real.log_div hbpr.ne' hapr.ne'
  have hL0 : 0 ≤ |L| := abs_nonneg _
  rw [set_positive s0 ha hap hb hbp hd hd0 hN hN0]
  constructor
  swap
  · intro hi
    rw [(C20_done_float _ lit_zero rfl hN hN0 (n2.trans (by norm_num)) i).2 (Nat.ceil_le.2 hi)]
    exact unscaled hb
  intro hi
  rw [line_values _ lit_zero rfl hN hN0 (n2.trans (by norm_num)) i hi]
  -- the growth factor
  set p := (Libm.log (b / a) / N : F32) with hp
  have hpb : |(p.val : ℝ)| ≤ 64 := by
    have h1 := hx.abs_val_le
    rw [abs_div, abs_of_pos hNp] at h1
    have h2 : |L| / N.val ≤ 35 := by rw [div_le_iff₀ hNp]; linarith
    have h3 : (1.3 + 3 * |L|) / 2 ^ 24 / N.val ≤ 1 := by
      rw [div_le_iff₀ hNp, div_le_iff₀ (by norm_num)]; nlinarith
    linarith
  obtain ⟨g1, g2⟩ := LogSpec.exp_rel p hx.1 (by exact_mod_cast hpb)
  obtain ⟨gp, gl⟩ := log_of_rel (Real.exp_pos _) (by norm_num) (by norm_num) g2
  rw [Real.log_exp] at gl
  set g := (Libm.exp p : F32) with hg
  set G : ℝ := 2.02 / 2 ^ 24 + (1.3 + 3 * |L|) / 2 ^ 24 / N.val with hGdef
  have hG : |Real.log g.val - L / N.val| ≤ G := by
    have := abs_sub_le (Real.log g.val) (p.val : ℝ) (L / N.val)
    have h2 := hx.2
    norm_num at gl
    rw [hGdef]
    norm_num at *
    linarith
  have hG0 : 0 ≤ G := (abs_nonneg _).trans hG
  have la : |Real.log a.val| ≤ 35 ∧ |Real.log b.val| ≤ 35 := by
    have hlog2 : Real.log 2 ≤ 0.7 := by have := Real.log_two_lt_d9; linarith
    have one : ∀ y : ℝ, 2 ^ (-50:ℤ) ≤ y → y ≤ 2 ^ (50:ℤ) → |Real.log y| ≤ 35 := by
      intro y y1 y2
      have h1 := Real.log_le_log (by positivity) y1
      have h2 := Real.log_le_log (lt_of_lt_of_le (by positivity) y1) y2
      rw [Real.log_zpow] at h1 h2
      push_cast at h1 h2
      rw [abs_le]; constructor <;> linarith
    exact ⟨one _ a1 a2, one _ b1 b2⟩
  have hGN : G * N.val ≤ 0.2 := by
    have : G * N.val = 2.02 / 2 ^ 24 * N.val + (1.3 + 3 * |L|) / 2 ^ 24 := by rw [hGdef]; field_simp
    rw [this]
    have h1 : 2.02 / 2 ^ 24 * (N.val : ℝ) ≤ 2.02 / 2 ^ 24 * 2 ^ 20 := by gcongr
    have h2 : (1.3 + 3 * |L|) / 2 ^ 24 ≤ (1.3 + 3 * 70) / 2 ^ 24 := by gcongr
    norm_num at *; linarith
  have step := powers_near ha hapr g1 gp hNp n2r la.1 la.2 hLab hG hGN
  have hir : (i:ℝ) < N.val := by exact_mod_cast hi
  obtain ⟨f1, f2, f3⟩ := step i hir.le
  have hout := unscaled f1
  refine ⟨hout.1, ?_, ?_⟩
  · rw [hout.val_eq]; exact_mod_cast f2
  · rw [hout.val_eq]
    have hcurve : Real.log (curve a.val b.val N.val i) = Real.log a.val + i / N.val * L := by
      rw [curve, if_pos hir, Real.log_mul hapr.ne' (by positivity), Real.log_rpow (by positivity)]
    rw [hcurve]
    refine f3.trans ?_
    have hi0 : (0:ℝ) ≤ i := by positivity
    have h1 : (i:ℝ) / N.val ≤ 1 := by rw [div_le_one hNp]; exact hir.le
    have h2 : (i:ℝ) * (G + 1.01 / 2 ^ 24) = 3.03 / 2 ^ 24 * i + (1.3 + 3 * |L|) / 2 ^ 24 * (i / N.val) := by
      rw [hGdef]; field_simp; ring
    rw [h2]
    have h3 : (1.3 + 3 * |L|) / 2 ^ 24 * ((i:ℝ) / N.val) ≤ (1.3 + 3 * |L|) / 2 ^ 24 * 1 := by gcongr
    have h4 : (4 * i + 3 * |L| + 2) / 2 ^ 24 = 4 / 2 ^ 24 * i + (2 + 3 * |L|) / 2 ^ 24 := by ring
    have h5 : (1.3 + 3 * |L|) / 2 ^ 24 ≤ (2 + 3 * |L|) / 2 ^ 24 := by gcongr; norm_num
    have h6 : 3.03 / 2 ^ 24 * (i:ℝ) ≤ 4 / 2 ^ 24 * i := by gcongr; norm_num
    rw [h4]
    linarith

/-- Concrete case: a glide from 440 Hz to 443 Hz in ten seconds at 48 kHz stays at 440 Hz for ten seconds. -/
example [Libm F32] [LogSpec] (i : ℕ) (hi : i < 480000) :
    (tickOut tick i (set (lit 440) (lit 443) (lit 10) (lit 1) (lit 0) (init (lit 48000 : F32)))).In 440 440 ∧
      ∀ j ≥ 480000, (tickOut tick j (set (lit 440) (lit 443) (lit 10) (lit 1) (lit 0) (init (lit 48000 : F32)))).In 443 443 := by
  have v : (lit 440 : F32).val = 440 ∧ (lit 443 : F32).val = 443 ∧ (lit 10 * lit 48000 : F32).val = 480000 := by decide +kernel
  obtain ⟨v1, v2, v3⟩ := v
  have hs : (init (lit 48000 : F32)).sampleRate = lit 48000 := rfl
  have hlog : |Real.log ((443:ℝ) / 440)| ≤ 0.99 * 480000 / 2 ^ 26 := by
    rw [abs_of_nonneg (Real.log_nonneg (by norm_num))]
    refine (Real.log_le_sub_one_of_pos (by norm_num)).trans ?_
    norm_num
  have h := fun j => C90_line_freezes (init (lit 48000 : F32)) (lit 440) (lit 443) (lit 10) (by decide +kernel) (by decide +kernel)
    (by rw [v1]; norm_num) (by rw [v1]; norm_num) (by rw [v2]; norm_num) (by rw [v2]; norm_num) (by decide +kernel) (by decide +kernel)
    (by rw [hs]; decide +kernel) (by rw [hs, v3]; norm_num) (by rw [hs, v3]; norm_num)
    (by rw [hs, v3, v1, v2]; push_cast; exact hlog) j
  rw [hs, v3, v1, v2] at h
  refine ⟨(h i).1 (by exact_mod_cast hi), fun j hj => (h j).2 (by exact_mod_cast hj)⟩

/-- Concrete case: half way through a one-second glide from 440 Hz to 880 Hz at 48 kHz the output is within 0.6 % of the exact curve. -/
example [Libm F32] [LogSpec] :
    |Real.log (tickOut tick 24000 (set (lit 440) (lit 880) (lit 1) (lit 1) (lit 0) (init (lit 48000 : F32)))).val - Real.log (curve 440 880 48000 24000)| ≤
      0.006 := by
  have v : (lit 440 : F32).val = 440 ∧ (lit 880 : F32).val = 880 ∧ (lit 1 * lit 48000 : F32).val = 48000 := by decide +kernel
  obtain ⟨v1, v2, v3⟩ := v
  have hs : (init (lit 48000 : F32)).sampleRate = lit 48000 := rfl
  have hlog : |Real.log ((880:ℝ) / 440)| ≤ 1 := by
    rw [abs_of_nonneg (Real.log_nonneg (by norm_num))]
    refine (Real.log_le_sub_one_of_pos (by norm_num)).trans ?_
    norm_num
  have h := (C90_line_accuracy (init (lit 48000 : F32)) (lit 440) (lit 880) (lit 1) (by decide +kernel) (by decide +kernel)
    (by rw [v1]; norm_num) (by rw [v1]; norm_num) (by rw [v2]; norm_num) (by rw [v2]; norm_num) (by decide +kernel) (by decide +kernel)
    (by rw [hs]; decide +kernel) (by rw [hs, v3]; norm_num) (by rw [hs, v3]; norm_num) 24000).1 (by rw [hs, v3]; norm_num)
  rw [hs, v3, v1, v2] at h
  have h3 := h.2.2
  push_cast at h3
  refine h3.trans ?_
  norm_num at hlog ⊢
  linarith

end XLine

end Verif
