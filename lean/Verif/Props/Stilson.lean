import Verif.Model.MoogLadders
import Verif.Float.Mag

/-!
# C44: the Stilson ladder
-/

set_option linter.unusedSectionVars false

namespace Verif.Stilson
open FP

/-! ## Table lookups -/

section
variable {α β : Type} [Arith α] [Arith β] [Conv α β] [Conv β α]

set_option maxRecDepth 4000 in
theorem gainTable_length : (gainTable : List α).length = 199 := rfl

/-- **C44**: whatever the number format does, the only way `setResonance` can be undefined is the conversion of
`floor(p * 99)` to `int`; once that is defined both table reads are in range. -/
theorem C44_table_in_range (r : α) (s : Ladder α β) :
    setResonance r s = none ↔ Arith.toI32? (Arith.floor (s.p * lit 99)) = none := by
  have g : ∀ i : ℤ, 0 ≤ i → i ≤ 198 → ∃ x, (gainAt i : Option α) = some x := by
    intro i h0 h1
    unfold gainAt
    rw [if_pos h0]
    have : i.toNat < (gainTable : List α).length := by rw [gainTable_length]; omega
    exact ⟨_, List.getElem?_eq_getElem this⟩
  cases h : Arith.toI32? (Arith.floor (s.p * lit 99)) with
  | none => simp only [setResonance, h, Option.bind_none]
  | some n =>
    simp only [setResonance, h, Option.bind_some, reduceCtorEq, iff_false]
    set m := (if (if n < -99 then -99 else n) > 98 then 98 else if n < -99 then -99 else n) with hm
    have h1 : -99 ≤ m ∧ m ≤ 98 := by rw [hm]; split_ifs <;> omega
    obtain ⟨a, ha⟩ := g (m + 99) (by omega) (by omega)
    obtain ⟨b, hb⟩ := g (m + 100) (by omega) (by omega)
    rw [ha, hb]
    simp
end

/-- The polynomial computed by `setCutoff`. -/
def cutoffP (s : Ladder F32 F64) (c : F32) : F64 :=
  let fc : F64 := Conv.conv c / Conv.conv s.sampleRate;
  (-lit 0.69346 * (fc * fc * fc) - lit 0.59515 * (fc * fc) + lit 3.2937 * fc - lit 1.0072)

theorem cutoff_p_mag (s : Ladder F32 F64) (c : F32) (hsr : s.sampleRate.isFin = true) (h0 : 1 ≤ s.sampleRate.val)
    (hc : c.isFin = true) (hc1 : |c.val| ≤ 64 * s.sampleRate.val) : (cutoffP s c).Mag 22 := by
  have cc := conv_up hc
  have cs := conv_up hsr
  have hfc : (Conv.conv c / Conv.conv s.sampleRate : F64).Mag 6 := by
    have hb : |(Conv.conv c : F64).val / (Conv.conv s.sampleRate : F64).val| ≤ 2 ^ 6 := by
      rw [cc.val_eq, cs.val_eq, abs_div, abs_of_pos (by linarith : 0 < s.sampleRate.val), div_le_iff₀ (by linarith)]
      exact le_trans hc1 (by norm_num)
    rw [abs_le] at hb
    exact div_in cc.1 cs.1 (by rw [cs.val_eq]; linarith) (Rep.neg (rep64_two_pow (by norm_num))) (rep64_two_pow (by norm_num)) hb.1 hb.2
  have l1 : (-lit 0.69346 : F64).Mag 0 := by decide +kernel
  have l2 : (lit 0.59515 : F64).Mag 0 := by decide +kernel
  have l3 : (lit 3.2937 : F64).Mag 2 := by decide +kernel
  have l4 : (lit 1.0072 : F64).Mag 1 := by decide +kernel
  set fc : F64 := Conv.conv c / Conv.conv s.sampleRate with hfcd
  have x2 := hfc.mul hfc
  have x3 := x2.mul hfc
  have a := (l1.mul x3).sub ((l2.mul x2).up 18)
  have b := a.add ((l3.mul hfc).up 19)
  exact (b.sub (l4.up 20)).up 22

theorem setCutoff_mag {s s' : Ladder F32 F64} {c : F32} (h : setCutoff c s = some s') (hsr : s.sampleRate.isFin = true)
    (h0 : 1 ≤ s.sampleRate.val) (hc : c.isFin = true) (hc1 : |c.val| ≤ 64 * s.sampleRate.val) : s'.p.Mag 22 := by
  have hp := cutoff_p_mag s c hsr h0 hc hc1
  simp only [setCutoff, setResonance, Option.bind_eq_some_iff, Option.map_eq_some_iff] at h
  obtain ⟨_, _, _, _, _, _, rfl⟩ := h
  exact hp

/-- **C44**: for a positive sample rate and every cutoff of magnitude at most 64 sample rates – far beyond the audible
range – the setters are defined, whatever the resonance. -/
theorem C44_setters_defined (s : Ladder F32 F64) (c : F32) (hsr : s.sampleRate.isFin = true) (h0 : 1 ≤ s.sampleRate.val)
    (hc : c.isFin = true) (hc1 : |c.val| ≤ 64 * s.sampleRate.val) : ∃ s', setCutoff c s = some s' ∧
      ∀ r, ∃ s'', setResonance r s' = some s'' ∧ s''.p = s'.p := by
  have key : ∀ (q : F64) (t : Ladder F32 F64) (r : F32), t.p = q → q.Mag 22 → ∃ t', setResonance r t = some t' ∧ t'.p = q := by
    intro q t r hq hm
    have h99 : (lit 99 : F64).Mag 7 := by decide +kernel
    have hix : (q * lit 99).Mag 29 := hm.mul h99
    have hfl := floor_in hix.1 prec64
    have hb : -2 ^ 31 ≤ ⌊(q * lit 99).val⌋ ∧ ⌊(q * lit 99).val⌋ < 2 ^ 31 := by
      constructor
      · rw [Int.le_floor]
        exact le_trans (by norm_num) hix.2.1
      · rw [Int.floor_lt]
        exact lt_of_le_of_lt hix.2.2 (by norm_num)
    have hd : Arith.toI32? (Arith.floor (q * lit 99)) ≠ none := by
      have e : truncQ (Arith.floor (q * lit 99)).val = ⌊(q * lit 99).val⌋ := by rw [hfl.val_eq]; exact truncQ_int _
      rw [toI32_fin hfl.1 (by rw [e]; exact hb.1) (by rw [e]; exact hb.2)]
      simp
    cases h : setResonance r t with
    | none => rw [C44_table_in_range, hq] at h; exact absurd h hd
    | some t' =>
      refine ⟨t', rfl, ?_⟩
      simp only [setResonance, Option.bind_eq_some_iff, Option.map_eq_some_iff] at h
      obtain ⟨_, _, _, _, _, _, rfl⟩ := h
      exact hq
  have hp := cutoff_p_mag s c hsr h0 hc hc1
  obtain ⟨s', e, ep⟩ := key _ { s with cutoff := c, p := _ } s.resonance rfl hp
  exact ⟨s', e, fun r => by
    obtain ⟨t, e1, e2⟩ := key _ s' r ep hp
    exact ⟨t, e1, e2.trans ep.symm⟩⟩

/-- 1 kHz at 48 kHz satisfies the hypotheses. -/
example : (lit 48000 : F32).isFin = true ∧ 1 ≤ (lit 48000 : F32).val ∧ |(lit 1000 : F32).val| ≤ 64 * (lit 48000 : F32).val := by
  decide +kernel

/-- **C44, negation for "every cutoff"**: a cutoff of 10⁹ Hz at 48 kHz makes `setCutoff` convert a number below -2³¹ to `int`, which
is undefined behaviour. -/
theorem C44_huge_cutoff_undefined (s : Ladder F32 F64) (hsr : s.sampleRate = lit 48000) : setCutoff (lit 1000000000) s = none := by
  unfold setCutoff
  simp only [hsr]
  rw [C44_table_in_range]
  simp only
  decide +kernel

/-! ## Limiting -/

theorem add_near {x c : F64} (hx : x.isFin = true) (hc : c.isFin = true) (h1 : |c.val| ≤ 1) :
    (x + c).isFin = true ∧ |(x + c).val - (x.val + c.val)| ≤ |c.val| := by
  obtain ⟨zs, e⟩ := add_def hx hc
  have hn := binary64.rnd_nearest (x.val + c.val) (grid_val x)
  have hn' : |x.val + c.val - binary64.rnd (x.val + c.val)| ≤ |c.val| := by
    refine le_trans (by simpa using hn) (le_of_eq ?_)
    simp
  rcases ofRat_cases (f := binary64) (x.val + c.val) zs with ⟨h2, h3⟩ | h2
  · rw [e]
    exact ⟨h2, by rw [h3, abs_sub_comm]; exact hn'⟩
  · exfalso
    have hbig : |binary64.rnd (x.val + c.val)| < 2 ^ binary64.emaxp1 := by
      have hx1 := abs_val_lt x
      have e1 : (2:ℚ) ^ binary64.emaxp1 = 2 ^ (1024:ℤ) := rfl
      rw [e1] at hx1 ⊢
      have hle : |binary64.rnd (x.val + c.val)| ≤ |x.val| + 2 := by
        have a1 := abs_le.1 hn'
        have a2 := abs_le.1 h1
        have a3 := abs_le.1 (le_refl |x.val|)
        rw [abs_le]; constructor <;> linarith
      refine lt_of_le_of_lt hle ?_
      by_cases hb : (2:ℚ) ^ ((971:ℤ) + binary64.prec - 1) ≤ |x.val|
      · obtain ⟨n, hn⟩ := (grid_val x).mult hb
        have hn2 : |n| < 2 ^ 53 := by
          have : |(n:ℚ)| * 2 ^ (971:ℤ) < 2 ^ (53:ℤ) * 2 ^ (971:ℤ) := by
            rw [← zpow_add₀ (by norm_num)]
            rw [hn, abs_mul, abs_of_pos (by positivity : (0:ℚ) < 2 ^ (971:ℤ))] at hx1
            norm_num at hx1 ⊢
            exact hx1
          have := lt_of_mul_lt_mul_right this (by positivity)
          exact_mod_cast this
        have hn3 : |(n:ℚ)| ≤ 2 ^ (53:ℤ) - 1 := by
          have : |n| ≤ 2 ^ 53 - 1 := by omega
          exact_mod_cast this
        rw [hn, abs_mul, abs_of_pos (by positivity : (0:ℚ) < 2 ^ (971:ℤ))]
        have h971 : (2:ℚ) < 2 ^ (971:ℤ) := by
          calc (2:ℚ) = 2 ^ (1:ℤ) := by norm_num
            _ < _ := zpow_lt_zpow_right₀ (by norm_num) (by norm_num)
        have : (2:ℚ) ^ (1024:ℤ) = 2 ^ (53:ℤ) * 2 ^ (971:ℤ) := by rw [← zpow_add₀ (by norm_num)]; norm_num
        rw [this]
        generalize (2:ℚ) ^ (971:ℤ) = K at *
        generalize (2:ℚ) ^ (53:ℤ) = L at *
        nlinarith
      · push Not at hb
        have e2 : (2:ℚ) ^ ((971:ℤ) + binary64.prec - 1) = 2 ^ (1023:ℤ) := rfl
        rw [e2] at hb
        have : (2:ℚ) ^ (1024:ℤ) = 2 ^ (1023:ℤ) + 2 ^ (1023:ℤ) := by
          rw [← two_mul, ← zpow_one_add₀ (by norm_num)]; norm_num
        rw [this]
        have : (2:ℚ) < 2 ^ (1023:ℤ) := by
          calc (2:ℚ) = 2 ^ (1:ℤ) := by norm_num
            _ < _ := zpow_lt_zpow_right₀ (by norm_num) (by norm_num)
        exact add_lt_add hb this
    unfold ofRat ofK at h2
    rw [dif_pos hbig] at h2
    cases h2

theorem abs_fin {x : F64} (hx : x.isFin = true) : (Arith.fabs x).In |x.val| |x.val| := by
  obtain ⟨v, nz, hv, rfl⟩ := isFin_cases hx
  exact ⟨rfl, le_rfl, le_rfl⟩

theorem c95 : (lit 0.95 : F64).isFin = true ∧ 0 ≤ (lit 0.95 : F64).val ∧ (lit 0.95 : F64).val ≤ 1 - 1 / 32 ∧
    (lit 0.95 : F64).val ≤ 63753421 / 2 ^ 26 - 1 / 2 ^ 40 := by decide +kernel

/-- Saturation of a finite number. -/
theorem saturate_bound {x : F64} (hx : x.isFin = true) {ε u : ℚ} (hu : binary64.Rep u false) (hu2 : binary64.Rep (2 * u) false)
    (h1 : |(x + lit 0.95).val - (x.val + (lit 0.95 : F64).val)| ≤ ε) (h2 : |(x - lit 0.95).val - (x.val - (lit 0.95 : F64).val)| ≤ ε)
    (h : (lit 0.95 : F64).val + ε ≤ u) : (saturate x).In (-u) u := by
  obtain ⟨c1, c2, c3, -⟩ := c95
  have hcabs : |(lit 0.95 : F64).val| ≤ 1 := by rw [abs_of_nonneg c2]; linarith
  have f1 := (add_near hx c1 hcabs).1
  have f2 : (x - lit 0.95).isFin = true := by
    rw [sub_eq]
    exact (add_near hx (isFin_neg c1) (by rw [val_neg, abs_neg]; exact hcabs)).1
  have a1 := abs_fin f1
  have a2 := abs_fin f2
  have hd : |(|(x + lit 0.95).val| - |(x - lit 0.95).val|)| ≤ 2 * u := by
    refine le_trans (abs_abs_sub_abs_le_abs_sub _ _) ?_
    rw [abs_le] at h1 h2 ⊢
    constructor <;> linarith
  rw [abs_le] at hd
  have hs := sub_in a1 a2 (Rep.neg hu2) hu2 hd.1 hd.2
  have h5 : (lit 0.5 : F64).In (1 / 2) (1 / 2) := by decide +kernel
  refine mul_in h5.1 hs.1 (Rep.neg hu) hu ?_ ?_
  · rw [h5.val_eq]; linarith [hs.2.1]
  · rw [h5.val_eq]; linarith [hs.2.2]

theorem saturate_nan : saturate (nan : F64) = nan := by decide +kernel

/-- Whatever is fed into `saturate`, the result is NaN or at most 2 in magnitude. -/
theorem saturate_all (x : F64) : saturate x = nan ∨ (saturate x).In (-2) 2 := by
  by_cases hx : x.isFin = true
  · right
    obtain ⟨c1, c2, c3, -⟩ := c95
    have hcabs : |(lit 0.95 : F64).val| ≤ 1 := by rw [abs_of_nonneg c2]; linarith
    refine saturate_bound (ε := 1) hx (by decide +kernel) (by decide +kernel) ?_ ?_ (by linarith)
    · exact le_trans (add_near hx c1 hcabs).2 hcabs
    · rw [sub_eq]
      have := (add_near hx (isFin_neg c1) (by rw [val_neg, abs_neg]; exact hcabs)).2
      rw [val_neg, abs_neg] at this
      exact le_trans (by rw [← sub_eq_add_neg] at this; exact this) hcabs
  · left
    cases x with
    | nan => exact saturate_nan
    | inf b => cases b <;> decide +kernel
    | fin v nz h => simp at hx

/-- The number used as a bound in double precision: slightly above 0.95. -/
abbrev bnd : ℚ := 63753421 / 2 ^ 26

theorem saturate_four {x : F64} (hx : x.In (-4) 4) : (saturate x).In (-bnd) bnd := by
  obtain ⟨c1, c2, c3, c4⟩ := c95
  have herr : ∀ q : ℚ, |q| ≤ 5 → |q - binary64.rnd q| ≤ 1 / 2 ^ 40 := by
    intro q hq
    have := binary64.rnd_err_of_lt (x := q) (k := 3) (lt_of_le_of_lt hq (by norm_num)) (by decide)
    refine le_trans (by simpa using this) ?_
    have : (binary64.prec : ℤ) = 53 := rfl
    rw [this]; norm_num
  have hr : ∀ q : ℚ, |q| ≤ 5 → ∀ zs, (ofRat q zs : F64).val = binary64.rnd q := by
    intro q hq zs
    rw [abs_le] at hq
    exact ofRat_val (Rep.neg (by decide +kernel : binary64.Rep 5 false)) (by decide +kernel) hq.1 hq.2
  refine saturate_bound (ε := 1 / 2 ^ 40) hx.1 (by decide +kernel) (by decide +kernel) ?_ ?_ (by linarith)
  · obtain ⟨zs, e⟩ := add_def hx.1 c1
    have hq : |x.val + (lit 0.95 : F64).val| ≤ 5 := by rw [abs_le]; constructor <;> linarith [hx.2.1, hx.2.2]
    rw [e, hr _ hq, abs_sub_comm]; exact herr _ hq
  · obtain ⟨zs, e⟩ := sub_def hx.1 c1
    have hq : |x.val - (lit 0.95 : F64).val| ≤ 5 := by rw [abs_le]; constructor <;> linarith [hx.2.1, hx.2.2]
    rw [e, hr _ hq, abs_sub_comm]; exact herr _ hq

/-- Sum of two saturated numbers, saturated again. -/
theorem saturate_sum {x y : F64} (hx : x = nan ∨ x.In (-2) 2) (hy : y = nan ∨ y.In (-2) 2) :
    saturate (x + y) = nan ∨ (saturate (x + y)).In (-bnd) bnd := by
  rcases hx with rfl | hx
  · left; exact saturate_nan
  · rcases hy with rfl | hy
    · left
      have : (x + nan : F64) = nan := by cases x <;> rfl
      rw [this]; exact saturate_nan
    · right
      exact saturate_four (add_in hx hy (Rep.neg (by decide +kernel : binary64.Rep 4 false)) (by decide +kernel)
        (by norm_num) (by norm_num))

theorem snap_in {x : F64} (hx : x = nan ∨ x.In (-bnd) bnd) : (snapToZero x).In (-bnd) bnd := by
  have h0 : (lit 0 : F64).In (-bnd) bnd := lit_zero.mono (by norm_num [bnd]) (by norm_num [bnd])
  unfold snapToZero
  split_ifs with h
  · exact h0
  · rcases hx with rfl | hx
    · exact absurd (by decide +kernel) h
    · exact hx

theorem to_float {x : F64} (hx : x.In (-bnd) bnd) : (Conv.conv x : F32).In (-0.95) 0.95 := by
  obtain ⟨v, nz, hv, rfl⟩ := isFin_cases hx.1
  have hb : binary32.rnd bnd = 15938355 / 2 ^ 24 := by decide +kernel
  have h1 : binary32.rnd v ≤ 15938355 / 2 ^ 24 := by rw [← hb]; exact binary32.rnd_mono hx.2.2
  have h2 : -(15938355 / 2 ^ 24) ≤ binary32.rnd v := by
    rw [← hb, ← binary32.rnd_neg]; exact binary32.rnd_mono hx.2.1
  have hlt : |binary32.rnd v| < 2 ^ binary32.emaxp1 := by
    have : |binary32.rnd v| ≤ 1 := by rw [abs_le]; constructor <;> linarith
    exact lt_of_le_of_lt this (by decide +kernel)
  show (ofK v nz : F32).In _ _
  unfold ofK
  rw [dif_pos hlt]
  exact ⟨rfl, by show _ ≤ binary32.rnd v; linarith, by show binary32.rnd v ≤ _; linarith⟩

/-- Calls a user can make after `init`. -/
inductive Op
  | setCutoff (c : F32)
  | setResonance (r : F32)
  | reset
  | tick (x : F32)

/-- Effect of one call and the samples it returns; `none` is undefined behaviour. -/
def exec (s : Ladder F32 F64) : Op → Option (Ladder F32 F64 × List F32)
  | .setCutoff c => (setCutoff c s).map (·, [])
  | .setResonance r => (setResonance r s).map (·, [])
  | .reset => some (reset s, [])
  | .tick x => some ((tick s x).1, [(tick s x).2])

/-- All samples returned by a sequence of calls. -/
def run : List Op → Ladder F32 F64 → Option (List F32)
  | [], _ => some []
  | op :: ops, s => (exec s op).bind fun p => (run ops p.1).map (p.2 ++ ·)

/-- The last stage's memory is NaN or at most 2 in magnitude. -/
def Inv (s : Ladder F32 F64) : Prop := s.s3 = nan ∨ s.s3.In (-2) 2

theorem setResonance_s3 {r : F32} {s s' : Ladder F32 F64} (h : setResonance r s = some s') : s'.s3 = s.s3 := by
  simp only [setResonance, Option.bind_eq_some_iff, Option.map_eq_some_iff] at h
  obtain ⟨_, _, _, _, _, _, rfl⟩ := h
  rfl

theorem tick_limited {s : Ladder F32 F64} (h : Inv s) (x : F32) : Inv (tick s x).1 ∧ (tick s x).2.In (-0.95) 0.95 := by
  refine ⟨saturate_all _, ?_⟩
  exact to_float (snap_in (saturate_sum (saturate_all _) h))

/-- **C44**: for every sample rate, every sequence of calls and every input – infinities and NaNs included – every output
is a finite number of magnitude at most 0.95. -/
theorem C44_limited (sr : F32) (s0 s : Ladder F32 F64) (hi : init sr s0 = some s) (ops : List Op) (out : List F32)
    (hr : run ops s = some out) : ∀ y ∈ out, y.In (-0.95) 0.95 := by
  have h0 : Inv s := by
    unfold init at hi
    rw [Option.bind_eq_some_iff] at hi
    obtain ⟨t, ht, hi⟩ := hi
    unfold Inv
    rw [setResonance_s3 hi, setResonance_s3 ht]
    right
    exact lit_zero.mono (by norm_num) (by norm_num)
  clear hi
  induction ops generalizing s out with
  | nil => simp [run] at hr; subst hr; simp
  | cons op ops ih =>
    simp only [run, Option.bind_eq_some_iff, Option.map_eq_some_iff] at hr
    obtain ⟨⟨s1, o⟩, h1, out', h2, rfl⟩ := hr
    have hstep : Inv s1 ∧ ∀ y ∈ o, y.In (-0.95) 0.95 := by
      cases op with
      | setCutoff c =>
        simp only [exec, Option.map_eq_some_iff, Prod.mk.injEq] at h1
        obtain ⟨t, ht, rfl, rfl⟩ := h1
        refine ⟨?_, by simp⟩
        unfold Inv
        rw [setResonance_s3 ht]; exact h0
      | setResonance r =>
        simp only [exec, Option.map_eq_some_iff, Prod.mk.injEq] at h1
        obtain ⟨t, ht, rfl, rfl⟩ := h1
        refine ⟨?_, by simp⟩
        unfold Inv
        rw [setResonance_s3 ht]; exact h0
      | reset =>
        simp only [exec, Option.some.injEq, Prod.mk.injEq] at h1
        obtain ⟨rfl, rfl⟩ := h1
        exact ⟨Or.inr (lit_zero.mono (by norm_num) (by norm_num)), by simp⟩
      | tick x =>
        simp only [exec, Option.some.injEq, Prod.mk.injEq] at h1
        obtain ⟨rfl, rfl⟩ := h1
        have := tick_limited h0 x
        exact ⟨this.1, by simpa using this.2⟩
    intro y hy
    rcases List.mem_append.1 hy with hy | hy
    · exact hstep.2 y hy
    · exact ih s1 out' h2 hstep.1 y hy

/-- A fresh object whose members hold arbitrary values. -/
def fresh : Ladder F32 F64 := ⟨nan, nan, nan, nan, nan, nan, nan, nan, nan, nan⟩

/-- A concrete run: loud and infinite input, with a parameter change in between. -/
example : ((init (lit 48000) fresh).bind (run [.tick (lit 100), .tick (lit 100), .setResonance (lit 0.9), .setCutoff (lit 5000),
    .tick (lit (-3)), .tick (.inf false)])).map List.length = some 4 := by decide +kernel

/-- `init` always leaves the same state behind, whatever the object contained, and never has undefined behaviour for a sample rate
of at least 100 Hz. -/
theorem C44_init_defined (sr : F32) (hsr : sr.isFin = true) (h0 : 100 ≤ sr.val) (s0 : Ladder F32 F64) :
    ∃ s, init sr s0 = some s := by
  obtain ⟨t, ht, h⟩ := C44_setters_defined { reset s0 with sampleRate := sr, p := lit 0, Q := lit 0 } (lit 1000) hsr
    (by show 1 ≤ sr.val; linarith) (by decide +kernel)
    (by have : (lit 1000 : F32).In 1000 1000 := by decide +kernel
        rw [this.val_eq]; show |(1000:ℚ)| ≤ 64 * sr.val; rw [abs_of_pos (by norm_num)]; linarith)
  obtain ⟨s, hs, -⟩ := h (lit 0.1)
  exact ⟨s, by unfold init; rw [ht]; exact hs⟩

/-- **C44**, what limiting hides: a single NaN input sample mutes the filter for good – every later output, for every input and with no
call of `reset`, is zero. -/
theorem C44_nan_mutes (s : Ladder F32 F64) (xs : List F32) :
    ∀ y ∈ (process (tick s nan).1 xs).2, y.Zero := by
  have hn : ∀ x : F64, (x + nan : F64) = nan := by intro x; cases x <;> rfl
  have hn' : ∀ x : F64, (nan + x : F64) = nan := fun x => rfl
  have hs := saturate_nan
  have hm : ∀ x : F64, (x * nan : F64) = nan := by intro x; cases x <;> rfl
  have hsub : ∀ x : F64, (nan - x : F64) = nan := fun x => rfl
  have hsub' : ∀ x : F64, (x - nan : F64) = nan := by intro x; cases x <;> rfl
  have hz : (Conv.conv (snapToZero (nan : F64)) : F32).Zero := by
    unfold FP.Zero; decide +kernel
  have h1 : ∀ (s : Ladder F32 F64) (x : F32), s.s3 = nan → (tick s x).1.s3 = nan ∧ (tick s x).2.Zero := by
    intro s x h
    simp only [tick, pole, h, hn, hs, hsub', hm]
    exact ⟨trivial, hz⟩
  have hc : (Conv.conv (nan : F32) : F64) = nan := rfl
  have hmn : ∀ x : F64, (nan * x : F64) = nan := fun x => rfl
  have h2 : (tick s nan).1.s3 = nan := by
    simp only [tick, pole, hc, hmn, hsub, hm, hn', hs]
  generalize (tick s nan).1 = t at h2
  induction xs generalizing t with
  | nil => simp [process, forEach]
  | cons x xs ih =>
    intro y hy
    simp only [process, forEach, List.mem_cons] at hy
    rcases hy with rfl | hy
    · exact (h1 t x h2).2
    · exact ih _ (h1 t x h2).1 y hy

end Verif.Stilson
