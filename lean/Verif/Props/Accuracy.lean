import Verif.Float.Near
import Verif.Props.Filters
import Verif.Props.Lag
import Verif.Props.ExampleVoice

/-!
# Property C89: rounding errors do not pile up in the one-pole filters

The same program is run twice: once on floats, once on the real numbers that those floats denote. The two output streams stay
within a fixed distance of each other, however long the run.
-/

set_option linter.unusedSectionVars false

namespace Verif
open FP

/-! ### Shared steps -/

theorem one_sub_exp {θ : ℝ} (h : 6 / 2 ^ 20 ≤ θ) : 60 / 2 ^ 24 ≤ 1 - Real.exp (-θ) := by
  have h1 : Real.exp (-θ) ≤ Real.exp (-(6 / 2 ^ 20)) := Real.exp_le_exp.2 (by linarith)
  have h2 := Real.add_one_le_exp (6 / 2 ^ 20 : ℝ)
  have h3 : Real.exp (-(6 / 2 ^ 20 : ℝ)) ≤ (6 / 2 ^ 20 + 1)⁻¹ := by
    rw [Real.exp_neg]
    exact inv_anti₀ (by positivity) h2
  have h4 : ((6 / 2 ^ 20 + 1 : ℝ))⁻¹ ≤ 1 - 60 / 2 ^ 24 := by norm_num
  linarith

theorem one_sub_exp' {θ δ : ℝ} (h0 : 0 < δ) (h1 : δ ≤ 1 / 2) (h : 2 * δ ≤ θ) : δ ≤ 1 - Real.exp (-θ) := by
  have h2 := Real.add_one_le_exp (2 * δ : ℝ)
  have h3 : Real.exp (-θ) ≤ (2 * δ + 1)⁻¹ := by
    refine (Real.exp_le_exp.2 (neg_le_neg h)).trans ?_
    rw [Real.exp_neg]
    exact inv_anti₀ (by positivity) h2
  have h4 : (2 * δ + 1)⁻¹ ≤ 1 - δ := by
    rw [inv_le_iff_one_le_mul₀ (by positivity)]
    nlinarith
  linarith

/-- The smoothing step `(1-p)·x + p·z` on floats. -/
theorem near_mix {p z x : F32} {P Z e : ℝ} (k : ℤ) (k1 : -100 ≤ k) (k2 : k ≤ 100) (hP0 : 0 ≤ P) (hP1 : P ≤ 1)
    (hp : Near p P (4 / 2 ^ 24)) (hz : Near z Z e) (hZ : |Z| ≤ 2 ^ k) (he0 : 0 ≤ e) (he : e ≤ 2 ^ k / 4)
    (hx : x.isFin = true) (hx' : |(x.val : ℝ)| ≤ 2 ^ k) :
    Near ((lit 1 - p) * x + p * z) ((1 - P) * x.val + P * Z) (P * e + 13 / 2 ^ 24 * 2 ^ k) ∧
      Near (p * z + (lit 1 - p) * x) (P * Z + (1 - P) * x.val) (P * e + 13 / 2 ^ 24 * 2 ^ k) ∧
      |(1 - P) * x.val + P * Z| ≤ 2 ^ k := by
  have h1 : Near (lit 1 : F32) 1 0 := by
    have := near_val (lit_one (f := binary32)).1
    rw [(lit_one (f := binary32)).val_eq] at this
    simpa using this
  have e1 : (2:ℝ) ^ (k + 1) = 2 * 2 ^ k := by rw [zpow_add₀ (by norm_num)]; norm_num; ring
  have hA : (0:ℝ) < 2 ^ k := by positivity
  have hg : Near (lit 1 - p) (1 - P) (5 / 2 ^ 24) := by
    refine (near_sub 1 h1 hp (by norm_num) (by norm_num) ?_).mono ?_
    · rw [abs_of_nonneg (by linarith)]; norm_num; linarith
    · norm_num
  have a1 : |(1 - P) * (x.val : ℝ)| ≤ (1 - P) * 2 ^ k := by
    rw [abs_mul, abs_of_nonneg (show (0:ℝ) ≤ 1 - P by linarith)]
    exact mul_le_mul_of_nonneg_left hx' (by linarith)
  have a2 : |P * Z| ≤ P * 2 ^ k := by
    rw [abs_mul, abs_of_nonneg hP0]
    exact mul_le_mul_of_nonneg_left hZ hP0
  have hgx : Near ((lit 1 - p) * x) ((1 - P) * x.val) (6 / 2 ^ 24 * 2 ^ k) := by
    refine (near_mul (k + 1) hg (near_val hx) (by omega) (by omega) ?_).mono ?_
    · rw [e1]; generalize (2:ℝ) ^ k = A at *; nlinarith
    · rw [e1]; generalize (2:ℝ) ^ k = A at *; nlinarith
  have hpz : Near (p * z) (P * Z) (P * e + 6 / 2 ^ 24 * 2 ^ k) := by
    refine (near_mul (k + 1) hp hz (by omega) (by omega) ?_).mono ?_
    · rw [e1, abs_of_nonneg hP0]; generalize (2:ℝ) ^ k = A at *; nlinarith
    · rw [e1, abs_of_nonneg hP0]; generalize (2:ℝ) ^ k = A at *; nlinarith
  have hs : |(1 - P) * x.val + P * Z| ≤ 2 ^ k := (abs_add_le _ _).trans (by linarith)
  have hPe : P * e ≤ 2 ^ k / 4 := by
    have := mul_le_mul_of_nonneg_right hP1 he0
    linarith
  refine ⟨?_, ?_, hs⟩
  · refine (near_add (k + 1) hgx hpz (by omega) (by omega) ?_).mono ?_
    · rw [e1]; generalize (2:ℝ) ^ k = A at *; linarith
    · rw [e1]; generalize (2:ℝ) ^ k = A at *; linarith
  · refine (near_add (k + 1) hpz hgx (by omega) (by omega) ?_).mono ?_
    · rw [e1, add_comm (P * Z)]; generalize (2:ℝ) ^ k = A at *; linarith
    · rw [e1]; generalize (2:ℝ) ^ k = A at *; linarith

/-! ### OnePoleLPF -/

namespace OnePoleLPF

/-- The same call with the numbers that the floats denote. -/
noncomputable def Call.real : Call F32 → Call ℝ
  | .setCutoff hz => .setCutoff hz.val
  | .tick x => .tick x.val
  | .tickMod x hz => .tickMod x.val hz.val
  | .reset => .reset

/-- The cutoffs asked for. -/
def cutoffs {α : Type} : List (Call α) → List α
  | [] => []
  | .setCutoff hz :: cs => hz :: cutoffs cs
  | .tickMod _ hz :: cs => hz :: cutoffs cs
  | _ :: cs => cutoffs cs

/-- The limited cutoff is the same number on both sides. -/
theorem clamp_val [Libm F32] [LibmSpec] {sr hz : F32} (hsr : sr.isFin = true) (h2 : 2 ≤ sr.val) (hz' : hz.isFin = true) :
    (clamp hz (lit 1) (sr * lit 0.5) : F32).isFin = true ∧
      ((clamp hz (lit 1) (sr * lit 0.5) : F32).val : ℝ) = clamp (hz.val : ℝ) (lit 1) ((sr.val : ℝ) * lit 0.5) ∧
      1 ≤ (clamp hz (lit 1) (sr * lit 0.5) : F32).val ∧ (clamp hz (lit 1) (sr * lit 0.5) : F32).val ≤ sr.val / 2 := by
  have h1 : (lit 1 : F32).In 1 1 := lit_one
  have hh : (lit 0.5 : F32).In 0.5 0.5 := lit_rep (by decide +kernel)
  have hn : (sr * lit 0.5 : F32).In (sr.val / 2) (sr.val / 2) := by
    refine mul_in hsr hh.1 (ExampleVoice.rep_half (by linarith)) (ExampleVoice.rep_half (by linarith)) ?_ ?_ <;> rw [hh.val_eq] <;> linarith
  generalize (sr * lit 0.5 : F32) = n at hn ⊢
  have hR : clamp (hz.val : ℝ) (lit 1) ((sr.val : ℝ) * lit 0.5) =
      ((if hz.val < 1 then 1 else if sr.val / 2 < hz.val then sr.val / 2 else hz.val : ℚ) : ℝ) := by
    have c1 : ((hz.val : ℝ) < 1) ↔ hz.val < 1 := by exact_mod_cast Iff.rfl
    have c2 : ((sr.val : ℝ) / 2 < hz.val) ↔ sr.val / 2 < hz.val := by
      rw [show (sr.val : ℝ) / 2 = ((sr.val / 2 : ℚ) : ℝ) by push_cast; rfl]
      exact_mod_cast Iff.rfl
    have e2 : (sr.val : ℝ) * lit 0.5 = sr.val / 2 := by simp only [real_arith]; norm_num; ring
    rw [e2]
    simp only [clamp, real_arith]
    push_cast
    simp only [c1, c2]
    split_ifs <;> push_cast <;> rfl
  rw [hR]
  simp only [clamp, lt_fin hz' h1.1, lt_fin hn.1 hz', h1.val_eq, hn.val_eq, decide_eq_true_eq]
  split_ifs with ha hb
  · exact ⟨h1.1, by rw [h1.val_eq], by rw [h1.val_eq], by rw [h1.val_eq]; linarith⟩
  · exact ⟨hn.1, by rw [hn.val_eq], by rw [hn.val_eq]; linarith, by rw [hn.val_eq]⟩
  · exact ⟨hz', rfl, by linarith, by linarith⟩

theorem rel_neg_two_pi : Rel (-TWO_PI : F32) (-(2 * 3.14159265358979323846)) (1 / 2 ^ 24) := by
  have h : (-TWO_PI : F32).isFin = true ∧ (-TWO_PI : F32).val = -13176795 / 2097152 := by decide +kernel
  refine ⟨h.1, by norm_num, ?_⟩
  rw [h.2]
  push_cast
  rw [abs_le]
  norm_num

/-- The pole on floats and the pole on numbers. -/
theorem pole_near [Libm F32] [LibmSpec] {sr hz : F32} (hsr : sr.isFin = true) (h2 : 2 ≤ sr.val) (h3 : sr.val ≤ 2 ^ 20)
    (hz' : hz.isFin = true) {f : ℝ} (hf : f ≤ sr.val / 2) (hfz : f ≤ max 1 (hz.val : ℝ)) :
    Near (Libm.exp (-TWO_PI * clamp hz (lit 1) (sr * lit 0.5) / sr))
        (Real.exp (-TWO_PI * clamp (hz.val : ℝ) (lit 1) ((sr.val : ℝ) * lit 0.5) / sr.val)) (4 / 2 ^ 24) ∧
      Real.exp (-TWO_PI * clamp (hz.val : ℝ) (lit 1) ((sr.val : ℝ) * lit 0.5) / sr.val) ≤
        Real.exp (-(2 * 3.14159265358979323846 * f / sr.val)) := by
  obtain ⟨hc, hv, l, u⟩ := clamp_val hsr h2 hz'
  set c := (clamp hz (lit 1) (sr * lit 0.5) : F32) with hcdef
  have h2r : (2:ℝ) ≤ sr.val := by exact_mod_cast h2
  have h3r : (sr.val:ℝ) ≤ 2 ^ 20 := by exact_mod_cast h3
  have lr : (1:ℝ) ≤ c.val := by exact_mod_cast l
  have ur : (c.val:ℝ) ≤ sr.val / 2 := by
    have : ((c.val : ℚ) : ℝ) ≤ ((sr.val / 2 : ℚ) : ℝ) := by exact_mod_cast u
    push_cast at this; exact this
  have hT : (TWO_PI : ℝ) = 2 * 3.14159265358979323846 := by simp only [TWO_PI, PI, real_arith]; norm_num
  have hfc : f ≤ c.val := by
    rw [hv]
    simp only [clamp, real_arith]
    push_cast
    rcases le_max_iff.1 hfz with h | h
    · split_ifs <;> norm_num <;> norm_num at * <;> linarith
    · split_ifs <;> norm_num <;> norm_num at * <;> linarith
  rw [← hv, hT]
  have m1 : (2:ℝ) ^ (-125:ℤ) ≤ 2 ^ (-20:ℤ) := zpow_le_zpow_right₀ (by norm_num) (by norm_num)
  have m2 : (2:ℝ) ^ (30:ℤ) ≤ 2 ^ (126:ℤ) := zpow_le_zpow_right₀ (by norm_num) (by norm_num)
  have r1 := rel_mul rel_neg_two_pi (rel_val hc (by linarith)) (by norm_num) (by norm_num)
    (by
      refine m1.trans ?_
      rw [abs_mul, abs_neg, abs_of_nonneg (by norm_num), abs_of_nonneg (by linarith)]
      norm_num; nlinarith)
    (by
      refine le_trans ?_ m2
      rw [abs_mul, abs_neg, abs_of_nonneg (by norm_num), abs_of_nonneg (by linarith)]
      norm_num; nlinarith)
  have hq : -(2 * 3.14159265358979323846) * (c.val:ℝ) / sr.val = -(2 * 3.14159265358979323846 * c.val / sr.val) := by ring
  have habs : |-(2 * 3.14159265358979323846) * (c.val:ℝ) / sr.val| = 2 * 3.14159265358979323846 * c.val / sr.val := by
    rw [hq, abs_neg, abs_of_nonneg (by positivity)]
  have hsp : (0:ℝ) < sr.val := by linarith
  have r2 := rel_div r1 (rel_val hsr (by linarith)) (by norm_num) le_rfl (by norm_num) (by norm_num)
    (by
      refine m1.trans ?_
      rw [habs, le_div_iff₀ hsp]
      norm_num; nlinarith)
    (by
      refine le_trans ?_ m2
      rw [habs, div_le_iff₀ hsp]
      norm_num; nlinarith)
  constructor
  · rw [hq] at r2 ⊢
    exact near_exp (by positivity) (r2.mono (by norm_num))
  · rw [hq]
    refine Real.exp_le_exp.2 (neg_le_neg ?_)
    gcongr

/-- **C89** for OnePoleLPF: let no cutoff in use be below `f` Hz (the filter limits every cutoff to at least 1 Hz, so `f = 1` asks
nothing) and no sample exceed `2^k`. Then, however long the run and however cutoffs, both kinds of ticks and resets are mixed,
each sample computed with floats is within `13 · 2^-24 · 2^k / (1 - exp(-2πf/sr))` of the sample that exact arithmetic gives:
errors do not accumulate. -/
theorem C89_onepole [Libm F32] [LibmSpec] (sr c0 : F32) (hsr : sr.isFin = true) (h2 : 2 ≤ sr.val) (h3 : sr.val ≤ 2 ^ 20) (f : ℝ)
    (hf1 : 1 ≤ f) (hf : f ≤ sr.val / 2) (k : ℤ) (k1 : -100 ≤ k) (k2 : k ≤ 100) (cs : List (Call F32))
    (hcut : ∀ c ∈ c0 :: cutoffs cs, c.isFin = true ∧ f ≤ max 1 (c.val : ℝ))
    (hin : ∀ x ∈ inputs cs, x.isFin = true ∧ |(x.val : ℝ)| ≤ 2 ^ k) :
    List.Forall₂ (fun (y : F32) (z : ℝ) => y.isFin = true ∧
        |(y.val : ℝ) - z| ≤ 13 / 2 ^ 24 * 2 ^ k / (1 - Real.exp (-(2 * 3.14159265358979323846 * f / sr.val))))
      (run (init sr c0) cs).2 (run (init (sr.val : ℝ) c0.val) (cs.map Call.real)).2 := by
  set Q := Real.exp (-(2 * 3.14159265358979323846 * f / sr.val)) with hQ
  set E := 13 / 2 ^ 24 * (2:ℝ) ^ k / (1 - Q) with hE
  have h2r : (2:ℝ) ≤ sr.val := by exact_mod_cast h2
  have h3r : (sr.val:ℝ) ≤ 2 ^ 20 := by exact_mod_cast h3
  have hsp : (0:ℝ) < sr.val := by linarith
  have hQ1 : 60 / 2 ^ 24 ≤ 1 - Q := one_sub_exp (by rw [le_div_iff₀ hsp]; nlinarith)
  have hQp : 0 < 1 - Q := lt_of_lt_of_le (by norm_num) hQ1
  have hA : (0:ℝ) < 2 ^ k := by positivity
  have hE0 : 0 ≤ E := by positivity
  have hEq : (1 - Q) * E = 13 / 2 ^ 24 * 2 ^ k := by rw [hE]; field_simp
  have hE4 : E ≤ 2 ^ k / 4 := by
    rw [hE, div_le_iff₀ hQp]; nlinarith
  have close : ∀ P : ℝ, P ≤ Q → P * E + 13 / 2 ^ 24 * 2 ^ k ≤ E := by
    intro P hP
    have := mul_le_mul_of_nonneg_right hP hE0
    linarith
  have hQle : Q ≤ 1 := by linarith
  have key : ∀ (cs : List (Call F32)) (s : Filt F32) (t : Filt ℝ), s.sampleRate = sr → t.sampleRate = sr.val →
      s.gain = lit 1 - s.pole → t.gain = 1 - t.pole → 0 ≤ t.pole → t.pole ≤ Q → Near s.pole t.pole (4 / 2 ^ 24) →
      |t.z| ≤ 2 ^ k → Near s.z t.z E →
      (∀ c ∈ cutoffs cs, c.isFin = true ∧ f ≤ max 1 (c.val : ℝ)) → (∀ x ∈ inputs cs, x.isFin = true ∧ |(x.val : ℝ)| ≤ 2 ^ k) →
      List.Forall₂ (fun (y : F32) (z : ℝ) => y.isFin = true ∧ |(y.val : ℝ) - z| ≤ E) (run s cs).2
        (run t (cs.map Call.real)).2 := by
    intro cs
    induction cs with
    | nil => intro s t _ _ _ _ _ _ _ _ _ _ _; exact .nil
    | cons c cs ih =>
      intro s t s1 t1 s2 t2 p0 p1 hp hz hsz hcut hin
      cases c with
      | setCutoff hz =>
        obtain ⟨c1, c2⟩ := hcut hz (by simp [cutoffs])
        obtain ⟨n, q⟩ := pole_near hsr h2 h3 c1 hf c2
        refine ih (setCutoff hz s) (setCutoff (hz.val : ℝ) t) s1 t1 rfl ?_ ?_ ?_ ?_ ‹_› hsz
          (fun c hc => hcut c (by simp [cutoffs, hc])) hin
        · simp [setCutoff, real_arith]
        · exact (Real.exp_pos _).le
        · simp only [setCutoff, t1]; exact q
        · simp only [setCutoff, s1, t1]; exact n
      | tick x =>
        obtain ⟨x1, x2⟩ := hin x (by simp [inputs])
        obtain ⟨n, -, b⟩ := near_mix k k1 k2 p0 (p1.trans hQle) hp hsz hz hE0 hE4 x1 x2
        rw [← s2, ← t2] at n
        rw [← t2] at b
        have n' := n.mono (close _ p1)
        exact .cons n' (ih (tick s x).1 (tick t (x.val : ℝ)).1 s1 t1 s2 t2 p0 p1 hp b n'
          (fun c hc => hcut c (by simpa [cutoffs] using hc)) (fun x hx => hin x (by simp [inputs, hx])))
      | tickMod x hzc =>
        obtain ⟨x1, x2⟩ := hin x (by simp [inputs])
        obtain ⟨c1, c2⟩ := hcut hzc (by simp [cutoffs])
        obtain ⟨m, q⟩ := pole_near hsr h2 h3 c1 hf c2
        obtain ⟨n, -, b⟩ := near_mix k k1 k2 (Real.exp_pos _).le (q.trans hQle) m hsz hz hE0 hE4 x1 x2
        have n' := n.mono (close _ q)
        have ey : (tickMod s x hzc).2 = (lit 1 - Libm.exp (-TWO_PI * clamp hzc (lit 1) (sr * lit 0.5) / sr)) * x +
            Libm.exp (-TWO_PI * clamp hzc (lit 1) (sr * lit 0.5) / sr) * s.z := by simp only [tickMod, s1]
        have ez : (tickMod t (x.val : ℝ) (hzc.val : ℝ)).2 =
            (1 - Real.exp (-TWO_PI * clamp (hzc.val : ℝ) (lit 1) ((sr.val : ℝ) * lit 0.5) / sr.val)) * x.val +
            Real.exp (-TWO_PI * clamp (hzc.val : ℝ) (lit 1) ((sr.val : ℝ) * lit 0.5) / sr.val) * t.z := by
          simp only [tickMod, t1, rAdd, rSub, rMul, rExp, rLit 1]
          simp
        rw [← ey, ← ez] at n'
        rw [← ez] at b
        exact .cons n' (ih (tickMod s x hzc).1 (tickMod t (x.val : ℝ) (hzc.val : ℝ)).1 s1 t1 s2 t2 p0 p1 hp b n'
          (fun c hc => hcut c (by simp [cutoffs, hc])) (fun x hx => hin x (by simp [inputs, hx])))
      | reset =>
        refine ih (reset s) (reset t) s1 t1 s2 t2 p0 p1 hp ?_ ?_ hcut hin
        · simp [reset, real_arith, hA.le]
        · refine ⟨(lit_zero (f := binary32)).1, ?_⟩
          simp only [reset, (lit_zero (f := binary32)).val_eq, real_arith]
          simpa using hE0
  obtain ⟨c1, c2⟩ := hcut c0 (by simp)
  obtain ⟨n, q⟩ := pole_near hsr h2 h3 c1 hf c2
  refine key cs (init sr c0) (init (sr.val : ℝ) c0.val) rfl rfl rfl ?_ (Real.exp_pos _).le q n ?_ ?_
    (fun c hc => hcut c (by simp [hc])) hin
  · simp [init, setCutoff, real_arith]
  · simp [init, setCutoff, real_arith, hA.le]
  · refine ⟨(lit_zero (f := binary32)).1, ?_⟩
    simp only [init, setCutoff, (lit_zero (f := binary32)).val_eq, real_arith]
    simpa using hE0

/-- At 48 kHz, with no cutoff below 100 Hz and samples in `[-1, 1]`, the filter is never off by more than `0.0002`. -/
example [Libm F32] [LibmSpec] :
    List.Forall₂ (fun (y : F32) (z : ℝ) => y.isFin = true ∧ |(y.val : ℝ) - z| ≤ 0.0002)
      (run (init (lit 48000 : F32) (lit 1000))
        [.tick (lit 1), .setCutoff (lit 100), .tickMod (lit (-0.5)) (lit 1000000), .reset, .tick (lit 0.75)]).2
      (run (init (48000 : ℝ) 1000) [.tick 1, .setCutoff 100, .tickMod (-0.5) 1000000, .reset, .tick 0.75]).2 := by
  have v : (lit 48000 : F32).val = 48000 ∧ (lit 1000 : F32).val = 1000 ∧ (lit 1 : F32).val = 1 ∧ (lit 100 : F32).val = 100 ∧
    (lit (-0.5) : F32).val = -0.5 ∧ (lit 1000000 : F32).val = 1000000 ∧ (lit 0.75 : F32).val = 0.75 := by decide +kernel
  obtain ⟨v1, v2, v3, v4, v5, v6, v7⟩ := v
  have h := C89_onepole (lit 48000) (lit 1000) (by decide +kernel) (by decide +kernel) (by decide +kernel) 100 (by norm_num)
    (by rw [v1]; norm_num) 0 (by norm_num) (by norm_num)
    [.tick (lit 1), .setCutoff (lit 100), .tickMod (lit (-0.5)) (lit 1000000), .reset, .tick (lit 0.75)]
    (by
      simp only [cutoffs, List.forall_mem_cons, v2, v4, v6]
      refine ⟨⟨by decide +kernel, by norm_num⟩, ⟨by decide +kernel, by norm_num⟩, ⟨by decide +kernel, by norm_num⟩, by simp⟩)
    (by
      simp only [inputs, List.forall_mem_cons, v3, v5, v7]
      refine ⟨⟨by decide +kernel, by norm_num⟩, ⟨by decide +kernel, by norm_num⟩, ⟨by decide +kernel, by norm_num⟩, by simp⟩)
  simp only [List.map_cons, List.map_nil, Call.real, v1, v2, v3, v4, v5, v6, v7] at h
  push_cast at h
  refine List.Forall₂.imp ?_ h
  rintro y z ⟨a, b⟩
  refine ⟨a, b.trans ?_⟩
  have := one_sub_exp' (θ := 2 * 3.14159265358979323846 * 100 / 48000) (δ := 0.006) (by norm_num) (by norm_num) (by norm_num)
  rw [div_le_iff₀ (by linarith)]
  norm_num at this ⊢
  linarith

end OnePoleLPF

/-! ### Lag -/

namespace Lag

/-- The same call with the numbers that the floats denote. -/
noncomputable def Call.real : Call F32 → Call ℝ
  | .setLagTime t => .setLagTime t.val
  | .tick x => .tick x.val
  | .setValue v => .setValue v.val

/-- The lag times asked for. -/
def lagTimes {α : Type} : List (Call α) → List α
  | [] => []
  | .setLagTime t :: cs => t :: lagTimes cs
  | _ :: cs => lagTimes cs

/-- The coefficient on floats and the coefficient on numbers. -/
theorem coeff_near [Libm F32] [LibmSpec] {s : Filt F32} {r : Filt ℝ} {lt : F32} (hsr : s.sampleRate.isFin = true)
    (hr : r.sampleRate = s.sampleRate.val) (h1 : 1 ≤ s.sampleRate.val) (hl : lt.isFin = true) {N : ℝ}
    (hN : N ≤ 2 ^ 20) (hlt : lt.val ≤ 0 ∨ 2 ^ (-40:ℤ) ≤ (lt.val : ℝ) ∧ (lt.val : ℝ) * s.sampleRate.val ≤ N) :
    Near (setLagTime lt s).coeff (setLagTime (lt.val : ℝ) r).coeff (4 / 2 ^ 24) ∧ 0 ≤ (setLagTime (lt.val : ℝ) r).coeff ∧
      (setLagTime (lt.val : ℝ) r).coeff ≤ Real.exp (-(6.907755 / N)) := by
  have hz := lit_zero (f := binary32)
  have h1r : (1:ℝ) ≤ s.sampleRate.val := by exact_mod_cast h1
  have hrp : 0 < r.sampleRate := by rw [hr]; linarith
  obtain ⟨c0, -, cpos, cneg⟩ := coeff_real r hrp (lt.val : ℝ)
  rcases hlt with h | ⟨ha, hb⟩
  · have e1 : (setLagTime lt s).coeff = lit 0 := by
      simp only [setLagTime, le_fin hl hz.1, hz.val_eq, h, decide_true, if_true]
    have e2 := cneg (by exact_mod_cast h)
    rw [e1, e2]
    refine ⟨⟨hz.1, ?_⟩, le_rfl, (Real.exp_pos _).le⟩
    rw [hz.val_eq]; norm_num
  · have hlp : (0:ℝ) < lt.val := lt_of_lt_of_le (by positivity) ha
    have hlq : ¬ lt.val ≤ 0 := by
      have : 0 < lt.val := by exact_mod_cast hlp
      linarith
    have e1 : (setLagTime lt s).coeff = Libm.exp (-lit 6.907755 / (lt * s.sampleRate)) := by
      simp only [setLagTime, le_fin hl hz.1, hz.val_eq, hlq, decide_false, Bool.false_eq_true, if_false]
    have e2 := cpos hlp
    rw [hr] at e2
    have hp : 0 < (lt.val : ℝ) * s.sampleRate.val := by positivity
    have hle : (2:ℝ) ^ (-40:ℤ) ≤ (lt.val : ℝ) * s.sampleRate.val := by nlinarith
    have hNp : 0 < N := lt_of_lt_of_le hp hb
    refine ⟨?_, c0, ?_⟩
    · rw [e1, e2]
      have hL : Rel (-lit 6.907755 : F32) (-6.907755) (1 / 2 ^ 24) := by
        have h : (-lit 6.907755 : F32).isFin = true ∧ |(-lit 6.907755 : F32).val - -6.907755| ≤ 1 / 2 ^ 24 * 6 := by decide +kernel
        refine ⟨h.1, by norm_num, ?_⟩
        have h2 : ((|(-lit 6.907755 : F32).val - -6.907755| : ℚ) : ℝ) ≤ ((1 / 2 ^ 24 * 6 : ℚ) : ℝ) := by exact_mod_cast h.2
        push_cast at h2
        refine h2.trans ?_
        rw [abs_neg, abs_of_pos (by norm_num)]
        norm_num
      have m1 : (2:ℝ) ^ (-125:ℤ) ≤ 2 ^ (-40:ℤ) := zpow_le_zpow_right₀ (by norm_num) (by norm_num)
      have m2 : (2:ℝ) ^ (50:ℤ) ≤ 2 ^ (126:ℤ) := zpow_le_zpow_right₀ (by norm_num) (by norm_num)
      have r1 := rel_mul (rel_val hl (by linarith)) (rel_val hsr (by linarith)) le_rfl (by norm_num)
        (by rw [abs_of_pos hp]; exact m1.trans hle)
        (by
          rw [abs_of_pos hp]
          refine le_trans ?_ m2
          norm_num; linarith)
      have hq : (-6.907755 : ℝ) / ((lt.val : ℝ) * s.sampleRate.val) = -(6.907755 / (lt.val * s.sampleRate.val)) := by ring
      have habs : |(-6.907755 : ℝ) / ((lt.val : ℝ) * s.sampleRate.val)| = 6.907755 / (lt.val * s.sampleRate.val) := by
        rw [hq, abs_neg, abs_of_nonneg (by positivity)]
      have r2 := rel_div hL r1 (by norm_num) (by norm_num) (by norm_num) (by norm_num)
        (by
          refine m1.trans ?_
          rw [habs, le_div_iff₀ hp]
          norm_num; linarith)
        (by
          refine le_trans ?_ m2
          rw [habs, div_le_iff₀ hp]
          norm_num at hle ⊢; linarith)
      rw [hq] at r2 ⊢
      exact near_exp (by positivity) (r2.mono (by norm_num))
    · rw [e2, show (-6.907755 : ℝ) / ((lt.val : ℝ) * s.sampleRate.val) = -(6.907755 / (lt.val * s.sampleRate.val)) by ring]
      refine Real.exp_le_exp.2 (neg_le_neg ?_)
      gcongr

/-- **C89** for Lag: let every lag time be non-positive, or at least `2^-40` seconds and at most `N` samples long (`N ≤ 2^20`), and
no value exceed `2^k`. Then each output computed with floats is within `13 · 2^-24 · 2^k / (1 - exp(-6.907755/N))` of the output
that exact arithmetic gives, for ever. -/
theorem C89_lag [Libm F32] [LibmSpec] (sr t0 : F32) (hsr : sr.isFin = true) (h1 : 1 ≤ sr.val) (N : ℝ) (hN0 : 0 < N) (hN : N ≤ 2 ^ 20) (k : ℤ) (k1 : -100 ≤ k) (k2 : k ≤ 100) (cs : List (Call F32))
    (hlag : ∀ t ∈ t0 :: lagTimes cs, t.isFin = true ∧ (t.val ≤ 0 ∨ 2 ^ (-40:ℤ) ≤ (t.val : ℝ) ∧ (t.val : ℝ) * sr.val ≤ N))
    (hin : ∀ x ∈ values cs, x.isFin = true ∧ |(x.val : ℝ)| ≤ 2 ^ k) :
    List.Forall₂ (fun (y : F32) (z : ℝ) => y.isFin = true ∧
        |(y.val : ℝ) - z| ≤ 13 / 2 ^ 24 * 2 ^ k / (1 - Real.exp (-(6.907755 / N))))
      (run (init sr t0) cs).2 (run (init (sr.val : ℝ) t0.val) (cs.map Call.real)).2 := by
  set Q := Real.exp (-(6.907755 / N)) with hQ
  set E := 13 / 2 ^ 24 * (2:ℝ) ^ k / (1 - Q) with hE
  have hQ1 : 60 / 2 ^ 24 ≤ 1 - Q := one_sub_exp (by rw [le_div_iff₀ hN0]; nlinarith)
  have hQp : 0 < 1 - Q := lt_of_lt_of_le (by norm_num) hQ1
  have hA : (0:ℝ) < 2 ^ k := by positivity
  have hE0 : 0 ≤ E := by positivity
  have hEq : (1 - Q) * E = 13 / 2 ^ 24 * 2 ^ k := by rw [hE]; field_simp
  have hE4 : E ≤ 2 ^ k / 4 := by
    rw [hE, div_le_iff₀ hQp]; nlinarith
  have close : ∀ P : ℝ, P ≤ Q → P * E + 13 / 2 ^ 24 * 2 ^ k ≤ E := by
    intro P hP
    have := mul_le_mul_of_nonneg_right hP hE0
    linarith
  have hQle : Q ≤ 1 := by linarith
  have keepS : ∀ {α : Type} [Arith α] [Libm α] (lt : α) (s : Filt α),
      (setLagTime lt s).sampleRate = s.sampleRate ∧ (setLagTime lt s).prevOutput = s.prevOutput := by
    intro α _ _ lt s
    simp only [setLagTime]; split_ifs <;> exact ⟨rfl, rfl⟩
  have key : ∀ (cs : List (Call F32)) (s : Filt F32) (t : Filt ℝ), s.sampleRate = sr → t.sampleRate = sr.val →
      0 ≤ t.coeff → t.coeff ≤ Q → Near s.coeff t.coeff (4 / 2 ^ 24) → |t.prevOutput| ≤ 2 ^ k → Near s.prevOutput t.prevOutput E →
      (∀ t ∈ lagTimes cs, t.isFin = true ∧ (t.val ≤ 0 ∨ 2 ^ (-40:ℤ) ≤ (t.val : ℝ) ∧ (t.val : ℝ) * sr.val ≤ N)) →
      (∀ x ∈ values cs, x.isFin = true ∧ |(x.val : ℝ)| ≤ 2 ^ k) →
      List.Forall₂ (fun (y : F32) (z : ℝ) => y.isFin = true ∧ |(y.val : ℝ) - z| ≤ E) (run s cs).2
        (run t (cs.map Call.real)).2 := by
    intro cs
    induction cs with
    | nil => intro s t _ _ _ _ _ _ _ _ _; exact .nil
    | cons c cs ih =>
      intro s t s1 t1 p0 p1 hp hz hsz hlag hin
      cases c with
      | setLagTime lt =>
        obtain ⟨c1, c2⟩ := hlag lt (by simp [lagTimes])
        rw [← s1] at c2
        obtain ⟨n, q0, q⟩ := coeff_near (s := s) (r := t) (by rw [s1]; exact hsr) (by rw [s1, t1]) (by rw [s1]; exact h1)
          c1 hN c2
        refine ih (setLagTime lt s) (setLagTime (lt.val : ℝ) t) ?_ ?_ q0 q n ?_ ?_ (fun c hc => hlag c (by simp [lagTimes, hc])) hin
        · rw [(keepS lt s).1]; exact s1
        · rw [(keepS (lt.val : ℝ) t).1]; exact t1
        · rw [(keepS (lt.val : ℝ) t).2]; exact hz
        · rw [(keepS (lt.val : ℝ) t).2, (keepS lt s).2]; exact hsz
      | tick x =>
        obtain ⟨x1, x2⟩ := hin x (by simp [values])
        obtain ⟨-, n, b⟩ := near_mix k k1 k2 p0 (p1.trans hQle) hp hsz hz hE0 hE4 x1 x2
        have n' := n.mono (close _ p1)
        have ez : (tick t (x.val : ℝ)).2 = t.coeff * t.prevOutput + (1 - t.coeff) * x.val := by
          simp [tick, real_arith]
        rw [add_comm, ← ez] at b
        rw [← ez] at n'
        exact .cons n' (ih (tick s x).1 (tick t (x.val : ℝ)).1 s1 t1 p0 p1 hp b n'
          (fun c hc => hlag c (by simpa [lagTimes] using hc)) (fun x hx => hin x (by simp [values, hx])))
      | setValue v =>
        obtain ⟨x1, x2⟩ := hin v (by simp [values])
        exact ih (setValue v s) (setValue (v.val : ℝ) t) s1 t1 p0 p1 hp x2 ((near_val x1).mono hE0) hlag
          (fun x hx => hin x (by simp [values, hx]))
  obtain ⟨c1, c2⟩ := hlag t0 (by simp)
  obtain ⟨n, q0, q⟩ := coeff_near (s := ⟨sr, lit 0, lit 0, lit 0⟩) (r := ⟨(sr.val : ℝ), lit 0, lit 0, lit 0⟩) hsr rfl h1 c1 hN c2
  refine key cs (init sr t0) (init (sr.val : ℝ) t0.val) (keepS _ _).1 (keepS _ _).1 q0 q n ?_ ?_
    (fun c hc => hlag c (by simp [hc])) hin
  · rw [init, (keepS _ _).2]
    simp [real_arith, hA.le]
  · rw [init, init, (keepS _ _).2, (keepS _ _).2]
    refine ⟨(lit_zero (f := binary32)).1, ?_⟩
    simp only [(lit_zero (f := binary32)).val_eq, real_arith]
    simpa using hE0

/-- At 48 kHz, with no lag time above 100 ms and values in `[-1, 1]`, the smoother is never off by more than `0.002`. -/
example [Libm F32] [LibmSpec] :
    List.Forall₂ (fun (y : F32) (z : ℝ) => y.isFin = true ∧ |(y.val : ℝ) - z| ≤ 0.002)
      (run (init (lit 48000 : F32) (lit 0.0625)) [.tick (lit 1), .setLagTime (lit (-1)), .tick (lit 0.5), .setValue (lit 0.75), .tick (lit 1)]).2
      (run (init (48000 : ℝ) 0.0625) [.tick 1, .setLagTime (-1), .tick 0.5, .setValue 0.75, .tick 1]).2 := by
  have v : (lit 48000 : F32).val = 48000 ∧ (lit 0.0625 : F32).val = 0.0625 ∧ (lit 1 : F32).val = 1 ∧ (lit (-1) : F32).val = -1 ∧
    (lit 0.5 : F32).val = 0.5 ∧ (lit 0.75 : F32).val = 0.75 := by decide +kernel
  obtain ⟨v1, v2, v3, v4, v5, v6⟩ := v
  have h := C89_lag (lit 48000) (lit 0.0625) (by decide +kernel) (by decide +kernel) 4800 (by norm_num) (by norm_num) 0
    (by norm_num) (by norm_num) [.tick (lit 1), .setLagTime (lit (-1)), .tick (lit 0.5), .setValue (lit 0.75), .tick (lit 1)]
    (by
      simp only [lagTimes, List.forall_mem_cons, v1, v2, v4]
      refine ⟨⟨by decide +kernel, by norm_num⟩, ⟨by decide +kernel, by norm_num⟩, by simp⟩)
    (by
      simp only [values, List.forall_mem_cons, v3, v5, v6]
      refine ⟨⟨by decide +kernel, by norm_num⟩, ⟨by decide +kernel, by norm_num⟩, ⟨by decide +kernel, by norm_num⟩,
        ⟨by decide +kernel, by norm_num⟩, by simp⟩)
  simp only [List.map_cons, List.map_nil, Call.real, v1, v2, v3, v4, v5, v6] at h
  push_cast at h
  refine List.Forall₂.imp ?_ h
  rintro y z ⟨a, b⟩
  refine ⟨a, b.trans ?_⟩
  have := one_sub_exp' (θ := 6.907755 / 4800) (δ := 0.0007) (by norm_num) (by norm_num) (by norm_num)
  rw [div_le_iff₀ (by linarith)]
  norm_num at this ⊢
  linarith

end Lag

/-! ### DCBlock -/

namespace DCBlock

/-- Calls a user can make on a running mono blocker. -/
inductive Call (α : Type) where
  | setCutoff (hz : α)
  | tick (x : α)
  | reset

/-- Perform calls; collect what the ticks return. -/
def run {α : Type} [Arith α] [Libm α] : Filt α → List (Call α) → Filt α × List α
  | s, [] => (s, [])
  | s, .setCutoff hz :: cs => run (setCutoff hz s) cs
  | s, .tick x :: cs => let r := tick s x; let q := run r.1 cs; (q.1, r.2 :: q.2)
  | s, .reset :: cs => run (reset s) cs

/-- The same call with the numbers that the floats denote. -/
noncomputable def Call.real : Call F32 → Call ℝ
  | .setCutoff hz => .setCutoff hz.val
  | .tick x => .tick x.val
  | .reset => .reset

/-- The samples fed in. -/
def inputs {α : Type} : List (Call α) → List α
  | [] => []
  | .tick x :: cs => x :: inputs cs
  | _ :: cs => inputs cs

/-- The cutoffs asked for. -/
def cutoffs {α : Type} : List (Call α) → List α
  | [] => []
  | .setCutoff hz :: cs => hz :: cutoffs cs
  | _ :: cs => cutoffs cs

/-- The normalised cutoff on floats: limited to exactly a quarter, or the quotient up to one rounding. -/
theorem normalized_near [Libm F32] {sr c : F32} (hsr : sr.isFin = true) (h1 : 1 ≤ sr.val) (hc : c.isFin = true)
    (hq : 2 ^ (-20:ℤ) ≤ (c.val : ℝ) / sr.val) :
    Rel (if (c / sr) >. lit 0.25 then lit 0.25 else c / sr) (min ((c.val : ℝ) / sr.val) (1 / 4)) (1 / 2 ^ 24) := by
  have h1r : (1:ℝ) ≤ sr.val := by exact_mod_cast h1
  have hsp : (0:ℝ) < sr.val := by linarith
  have hqp : (0:ℝ) < (c.val : ℝ) / sr.val := lt_of_lt_of_le (by positivity) hq
  have hcp : (0:ℝ) < c.val := by
    have := mul_pos hqp hsp
    rwa [div_mul_cancel₀ _ hsp.ne'] at this
  have hcq : 0 < c.val := by exact_mod_cast hcp
  have h4 : (lit 0.25 : F32).In (1/4) (1/4) := by decide +kernel
  have r4 : binary32.Rep (1/4) false := by decide +kernel
  have hd : (0:ℚ) < sr.val := by linarith
  rcases le_total ((c.val : ℝ) / sr.val) (1 / 4) with h | h
  · have hQ : c.val / sr.val ≤ 1 / 4 := by
      have : ((c.val / sr.val : ℚ) : ℝ) ≤ ((1 / 4 : ℚ) : ℝ) := by push_cast; exact h
      exact_mod_cast this
    have hin : (c / sr).In 0 (1/4) := div_in hc hsr hd.ne' rep_zero r4 (by positivity) hQ
    rw [min_eq_left h, if_neg (by rw [lt_fin h4.1 hin.1, h4.val_eq]; simpa using hin.2.2)]
    have m1 : (2:ℝ) ^ (-125:ℤ) ≤ 2 ^ (-20:ℤ) := zpow_le_zpow_right₀ (by norm_num) (by norm_num)
    have m2 : (2:ℝ) ^ (0:ℤ) ≤ 2 ^ (126:ℤ) := zpow_le_zpow_right₀ (by norm_num) (by norm_num)
    have := rel_div (rel_val hc hcq.ne') (rel_val hsr hd.ne') le_rfl le_rfl (by norm_num) (by norm_num)
      (by rw [abs_of_pos hqp]; exact m1.trans hq)
      (by
        rw [abs_of_pos hqp]
        refine le_trans ?_ m2
        rw [zpow_zero]; linarith)
    exact this.mono (by norm_num)
  · have hQ : 1 / 4 ≤ c.val / sr.val := by
      have : ((1 / 4 : ℚ) : ℝ) ≤ ((c.val / sr.val : ℚ) : ℝ) := by push_cast; exact h
      exact_mod_cast this
    have hin : (c / sr).In (1/4) c.val := div_in hc hsr hd.ne' r4 (rep_val c) hQ (by
      rw [div_le_iff₀ hd]; nlinarith)
    rw [min_eq_right h]
    have hv : (if (c / sr) >. lit 0.25 then lit 0.25 else c / sr : F32).In (1/4) (1/4) := by
      split_ifs with hg
      · exact h4
      · rw [lt_fin h4.1 hin.1, h4.val_eq] at hg
        exact ⟨hin.1, hin.2.1, by simpa using hg⟩
    refine ⟨hv.1, by norm_num, ?_⟩
    rw [hv.val_eq]
    push_cast
    rw [sub_self]
    norm_num

/-- The coefficient on floats and the coefficient on numbers. -/
theorem coeff_near [Libm F32] [LibmSpec] {s : Filt F32} {r : Filt ℝ} {c : F32} (hsr : s.sampleRate.isFin = true)
    (hr : r.sampleRate = s.sampleRate.val) (h1 : 1 ≤ s.sampleRate.val) (hc : c.isFin = true) {f : ℝ}
    (hf : (s.sampleRate.val : ℝ) / 2 ^ 20 ≤ f) (hf4 : f ≤ s.sampleRate.val / 4) (hcf : c.val ≤ 0 ∨ f ≤ c.val) :
    Near (setCutoff c s).coeff (setCutoff (c.val : ℝ) r).coeff (4 / 2 ^ 24) ∧ 0 ≤ (setCutoff (c.val : ℝ) r).coeff ∧
      (setCutoff (c.val : ℝ) r).coeff ≤ Real.exp (-(2 * 3.14159265358979323846 * f / s.sampleRate.val)) := by
  have hz := lit_zero (f := binary32)
  have h1r : (1:ℝ) ≤ s.sampleRate.val := by exact_mod_cast h1
  have hsp : (0:ℝ) < s.sampleRate.val := by linarith
  obtain ⟨c0, -, cneg, cpos⟩ := C31_coefficient r (c.val : ℝ) (by rw [hr]; exact hsp)
  rcases hcf with h | h
  · have e1 : (setCutoff c s).coeff = lit 0 := by
      simp only [setCutoff, le_fin hc hz.1, hz.val_eq, h, decide_true, if_true]
    have e2 := cneg (by exact_mod_cast h)
    rw [e1, e2]
    refine ⟨⟨hz.1, ?_⟩, le_rfl, (Real.exp_pos _).le⟩
    rw [hz.val_eq]; norm_num
  · have hfp : 0 < f := lt_of_lt_of_le (by positivity) hf
    have hcp : (0:ℝ) < c.val := lt_of_lt_of_le hfp h
    have hcq : ¬ c.val ≤ 0 := by
      have : 0 < c.val := by exact_mod_cast hcp
      linarith
    have e1 : (setCutoff c s).coeff =
        Libm.exp (-lit 2 * PI * (if (c / s.sampleRate) >. lit 0.25 then lit 0.25 else c / s.sampleRate)) := by
      simp only [setCutoff, le_fin hc hz.1, hz.val_eq, hcq, decide_false, Bool.false_eq_true, if_false]
    have e2 := cpos hcp
    rw [hr] at e2
    have hfs : (2:ℝ) ^ (-20:ℤ) ≤ f / s.sampleRate.val := by
      rw [le_div_iff₀ hsp]; norm_num at hf ⊢; linarith
    have hfm : f / s.sampleRate.val ≤ min ((c.val : ℝ) / s.sampleRate.val) (1 / 4) := by
      refine le_min (by gcongr) ?_
      rw [div_le_iff₀ hsp]; linarith
    have hn := normalized_near hsr h1 hc (hfs.trans (hfm.trans (min_le_left _ _)))
    refine ⟨?_, c0, ?_⟩
    · rw [e1, e2]
      set m := min ((c.val : ℝ) / s.sampleRate.val) (1 / 4) with hm
      have hm1 : m ≤ 1 / 4 := min_le_right _ _
      have hmp : (2:ℝ) ^ (-20:ℤ) ≤ m := hfs.trans hfm
      have hm0 : 0 < m := lt_of_lt_of_le (by positivity) hmp
      have hT : Rel (-lit 2 * PI : F32) (-(2 * 3.14159265358979323846)) (1 / 2 ^ 24) := by
        have h : (-lit 2 * PI : F32).isFin = true ∧ (-lit 2 * PI : F32).val = -13176795 / 2097152 := by decide +kernel
        refine ⟨h.1, by norm_num, ?_⟩
        rw [h.2]
        push_cast
        rw [abs_le]
        norm_num
      have m1 : (2:ℝ) ^ (-125:ℤ) ≤ 2 ^ (-20:ℤ) := zpow_le_zpow_right₀ (by norm_num) (by norm_num)
      have m2 : (2:ℝ) ^ (10:ℤ) ≤ 2 ^ (126:ℤ) := zpow_le_zpow_right₀ (by norm_num) (by norm_num)
      have habs : |-(2 * 3.14159265358979323846) * m| = 2 * 3.14159265358979323846 * m := by
        rw [abs_mul, abs_neg, abs_of_pos (by norm_num), abs_of_pos hm0]
      have r1 := rel_mul hT hn (by norm_num) (by norm_num)
        (by
          rw [habs]
          refine m1.trans (hmp.trans ?_)
          norm_num; linarith)
        (by
          rw [habs]
          refine le_trans ?_ m2
          norm_num; linarith)
      rw [show -(2 * 3.14159265358979323846) * m = -(2 * (3.14159265358979323846 * m)) by ring] at r1
      exact near_exp (by positivity) (r1.mono (by norm_num))
    · rw [e2]
      refine Real.exp_le_exp.2 (neg_le_neg ?_)
      rw [mul_div_assoc, mul_assoc]
      gcongr

/-- One step of the blocker on floats. -/
theorem near_step {R y x p : F32} {P Y e : ℝ} (k : ℤ) (k1 : -100 ≤ k) (k2 : k ≤ 100) (hP0 : 0 ≤ P) (hP1 : P ≤ 1)
    (hR : Near R P (4 / 2 ^ 24)) (hy : Near y Y e) (hY : |Y - p.val| ≤ 2 ^ k) (he0 : 0 ≤ e) (he : e ≤ 2 ^ k / 4)
    (hx : x.isFin = true) (hx' : |(x.val : ℝ)| ≤ 2 ^ k) (hp : p.isFin = true) (hp' : |(p.val : ℝ)| ≤ 2 ^ k) :
    Near (x - p + R * y) (x.val - p.val + P * Y) (P * e + 15 / 2 ^ 24 * 2 ^ k) ∧
      |(x.val : ℝ) - p.val + P * Y - x.val| ≤ 2 ^ k := by
  have e2 : (2:ℝ) ^ (k + 2) = 4 * 2 ^ k := by rw [zpow_add₀ (by norm_num)]; norm_num; ring
  have hA : (0:ℝ) < 2 ^ k := by positivity
  have hw : |(x.val : ℝ) - p.val + P * Y - x.val| ≤ 2 ^ k := by
    rw [show (x.val : ℝ) - p.val + P * Y - x.val = P * (Y - p.val) - (1 - P) * p.val by ring]
    refine (abs_sub _ _).trans ?_
    rw [abs_mul, abs_mul, abs_of_nonneg hP0, abs_of_nonneg (show (0:ℝ) ≤ 1 - P by linarith)]
    have a1 := mul_le_mul_of_nonneg_left hY hP0
    have a2 := mul_le_mul_of_nonneg_left hp' (show (0:ℝ) ≤ 1 - P by linarith)
    linarith
  have hYb : |Y| ≤ 2 * 2 ^ k := by
    have := abs_sub_abs_le_abs_sub Y (p.val : ℝ)
    linarith
  have hxp : |(x.val : ℝ) - p.val| ≤ 2 * 2 ^ k := (abs_sub _ _).trans (by linarith)
  have hsum : |(x.val : ℝ) - p.val + P * Y| ≤ 2 * 2 ^ k := by
    have := abs_sub_abs_le_abs_sub ((x.val : ℝ) - p.val + P * Y) (x.val : ℝ)
    linarith
  have hPe : P * e ≤ 2 ^ k / 4 := by
    have := mul_le_mul_of_nonneg_right hP1 he0
    linarith
  have hPe0 : 0 ≤ P * e := mul_nonneg hP0 he0
  have hPY : |P * Y| ≤ 2 * 2 ^ k := by
    rw [abs_mul, abs_of_nonneg hP0]
    have := mul_le_mul_of_nonneg_right hP1 (abs_nonneg Y)
    linarith
  have n1 : Near (x - p) ((x.val : ℝ) - p.val) (2 / 2 ^ 24 * 2 ^ k) := by
    refine (near_sub (k + 2) (near_val hx) (near_val hp) (by omega) (by omega) ?_).mono ?_
    · rw [e2]; generalize (2:ℝ) ^ k = A at *; linarith
    · rw [e2]; generalize (2:ℝ) ^ k = A at *; linarith
  have n2 : Near (R * y) (P * Y) (P * e + 11 / 2 ^ 24 * 2 ^ k) := by
    refine (near_mul (k + 2) hR hy (by omega) (by omega) ?_).mono ?_
    · rw [e2, abs_of_nonneg hP0]; generalize (2:ℝ) ^ k = A at *; linarith
    · rw [e2, abs_of_nonneg hP0]; generalize (2:ℝ) ^ k = A at *; linarith
  refine ⟨(near_add (k + 2) n1 n2 (by omega) (by omega) ?_).mono ?_, hw⟩
  · rw [e2]; generalize (2:ℝ) ^ k = A at *; linarith
  · rw [e2]; generalize (2:ℝ) ^ k = A at *; linarith

/-- **C89** for DCBlock: let every cutoff be non-positive (filter off) or at least `f`, where `f` is at least a millionth (`2^-20`)
and at most a quarter of the sampling rate, and no sample exceed `2^k`. Then each output computed with floats is within
`15 · 2^-24 · 2^k / (1 - exp(-2πf/sr))` of the output that exact arithmetic gives, for ever. -/
theorem C89_dcblock [Libm F32] [LibmSpec] (sr c0 : F32) (hsr : sr.isFin = true) (h1 : 1 ≤ sr.val) (f : ℝ)
    (hf : (sr.val : ℝ) / 2 ^ 20 ≤ f) (hf4 : f ≤ sr.val / 4) (k : ℤ) (k1 : -100 ≤ k) (k2 : k ≤ 100) (cs : List (Call F32))
    (hcut : ∀ c ∈ c0 :: cutoffs cs, c.isFin = true ∧ (c.val ≤ 0 ∨ f ≤ c.val))
    (hin : ∀ x ∈ inputs cs, x.isFin = true ∧ |(x.val : ℝ)| ≤ 2 ^ k) :
    List.Forall₂ (fun (y : F32) (z : ℝ) => y.isFin = true ∧
        |(y.val : ℝ) - z| ≤ 15 / 2 ^ 24 * 2 ^ k / (1 - Real.exp (-(2 * 3.14159265358979323846 * f / sr.val))))
      (run (init sr c0) cs).2 (run (init (sr.val : ℝ) c0.val) (cs.map Call.real)).2 := by
  set Q := Real.exp (-(2 * 3.14159265358979323846 * f / sr.val)) with hQ
  set E := 15 / 2 ^ 24 * (2:ℝ) ^ k / (1 - Q) with hE
  have h1r : (1:ℝ) ≤ sr.val := by exact_mod_cast h1
  have hsp : (0:ℝ) < sr.val := by linarith
  have hQ1 : 60 / 2 ^ 24 ≤ 1 - Q := one_sub_exp (by rw [le_div_iff₀ hsp]; linarith)
  have hQp : 0 < 1 - Q := lt_of_lt_of_le (by norm_num) hQ1
  have hA : (0:ℝ) < 2 ^ k := by positivity
  have hE0 : 0 ≤ E := by positivity
  have hEq : (1 - Q) * E = 15 / 2 ^ 24 * 2 ^ k := by rw [hE]; field_simp
  have hE4 : E ≤ 2 ^ k / 4 := by
    rw [hE, div_le_iff₀ hQp]; nlinarith
  have close : ∀ P : ℝ, P ≤ Q → P * E + 15 / 2 ^ 24 * 2 ^ k ≤ E := by
    intro P hP
    have := mul_le_mul_of_nonneg_right hP hE0
    linarith
  have hQle : Q ≤ 1 := by linarith
  have hz := lit_zero (f := binary32)
  have keepS : ∀ {α : Type} [Arith α] [Libm α] (c : α) (s : Filt α),
      (setCutoff c s).sampleRate = s.sampleRate ∧ (setCutoff c s).prevInputL = s.prevInputL ∧
        (setCutoff c s).prevOutputL = s.prevOutputL := by
    intro α _ _ lt s
    simp only [setCutoff]; split_ifs <;> exact ⟨rfl, rfl, rfl⟩
  have key : ∀ (cs : List (Call F32)) (s : Filt F32) (t : Filt ℝ), s.sampleRate = sr → t.sampleRate = sr.val →
      0 ≤ t.coeff → t.coeff ≤ Q → Near s.coeff t.coeff (4 / 2 ^ 24) → s.prevInputL.isFin = true → t.prevInputL = s.prevInputL.val →
      |t.prevInputL| ≤ 2 ^ k → |t.prevOutputL - t.prevInputL| ≤ 2 ^ k → Near s.prevOutputL t.prevOutputL E →
      (∀ c ∈ cutoffs cs, c.isFin = true ∧ (c.val ≤ 0 ∨ f ≤ c.val)) →
      (∀ x ∈ inputs cs, x.isFin = true ∧ |(x.val : ℝ)| ≤ 2 ^ k) →
      List.Forall₂ (fun (y : F32) (z : ℝ) => y.isFin = true ∧ |(y.val : ℝ) - z| ≤ E) (run s cs).2
        (run t (cs.map Call.real)).2 := by
    intro cs
    induction cs with
    | nil => intro s t _ _ _ _ _ _ _ _ _ _ _ _; exact .nil
    | cons c cs ih =>
      intro s t s1 t1 p0 p1 hp f1 v1 b1 w1 hsz hcut hin
      cases c with
      | setCutoff c =>
        obtain ⟨c1, c2⟩ := hcut c (by simp [cutoffs])
        obtain ⟨n, q0, q⟩ := coeff_near (s := s) (r := t) (f := f) (by rw [s1]; exact hsr) (by rw [s1, t1]) (by rw [s1]; exact h1)
          c1 (by rw [s1]; exact hf) (by rw [s1]; exact hf4) c2
        rw [s1] at q
        refine ih (setCutoff c s) (setCutoff (c.val : ℝ) t) ?_ ?_ q0 q n ?_ ?_ ?_ ?_ ?_
          (fun c hc => hcut c (by simp [cutoffs, hc])) hin
        · rw [(keepS c s).1]; exact s1
        · rw [(keepS (c.val : ℝ) t).1]; exact t1
        · rw [(keepS c s).2.1]; exact f1
        · rw [(keepS c s).2.1, (keepS (c.val : ℝ) t).2.1]; exact v1
        · rw [(keepS (c.val : ℝ) t).2.1]; exact b1
        · rw [(keepS (c.val : ℝ) t).2.1, (keepS (c.val : ℝ) t).2.2]; exact w1
        · rw [(keepS (c.val : ℝ) t).2.2, (keepS c s).2.2]; exact hsz
      | tick x =>
        obtain ⟨x1, x2⟩ := hin x (by simp [inputs])
        rw [v1] at w1 b1
        obtain ⟨n, b⟩ := near_step k k1 k2 p0 (p1.trans hQle) hp hsz w1 hE0 hE4 x1 x2 f1 b1
        have n' := n.mono (close _ p1)
        have ez : (tick t (x.val : ℝ)).2 = x.val - s.prevInputL.val + t.coeff * t.prevOutputL := by
          simp [tick, real_arith, v1]
        rw [← ez] at b n'
        exact .cons n' (ih (tick s x).1 (tick t (x.val : ℝ)).1 s1 t1 p0 p1 hp x1 rfl x2 b n'
          (fun c hc => hcut c (by simpa [cutoffs] using hc)) (fun x hx => hin x (by simp [inputs, hx])))
      | reset =>
        refine ih (reset s) (reset t) s1 t1 p0 p1 hp hz.1 ?_ ?_ ?_ ⟨hz.1, ?_⟩ hcut hin
        · simp [reset, real_arith, hz.val_eq]
        · simp [reset, real_arith, hA.le]
        · simp [reset, real_arith, hA.le]
        · simp only [reset, hz.val_eq, real_arith]
          simpa using hE0
  obtain ⟨c1, c2⟩ := hcut c0 (by simp)
  obtain ⟨n, q0, q⟩ := coeff_near (s := ⟨sr, lit 0, lit 0, lit 0, lit 0, lit 0, lit 0⟩)
    (r := ⟨(sr.val : ℝ), lit 0, lit 0, lit 0, lit 0, lit 0, lit 0⟩) hsr rfl h1 c1 hf hf4 c2
  refine key cs (init sr c0) (init (sr.val : ℝ) c0.val) (keepS _ _).1 (keepS _ _).1 q0 q n ?_ ?_ ?_ ?_ ⟨?_, ?_⟩
    (fun c hc => hcut c (by simp [hc])) hin
  · rw [init, (keepS _ _).2.1]; exact hz.1
  · rw [init, init, (keepS _ _).2.1, (keepS _ _).2.1]
    simp [real_arith, hz.val_eq]
  · rw [init, (keepS _ _).2.1]
    simp [real_arith, hA.le]
  · rw [init, (keepS _ _).2.1, (keepS _ _).2.2]
    simp [real_arith, hA.le]
  · rw [init, (keepS _ _).2.2]; exact hz.1
  · rw [init, init, (keepS _ _).2.2, (keepS _ _).2.2]
    simp only [hz.val_eq, real_arith]
    simpa using hE0

/-- At 48 kHz, with cutoffs of 10 Hz or more and samples in `[-1, 1]`, the blocker is never off by more than `0.002`. -/
example [Libm F32] [LibmSpec] :
    List.Forall₂ (fun (y : F32) (z : ℝ) => y.isFin = true ∧ |(y.val : ℝ) - z| ≤ 0.002)
      (run (init (lit 48000 : F32) (lit 10)) [.tick (lit 1), .tick (lit 1), .setCutoff (lit 20), .tick (lit (-1)), .reset, .tick (lit 1)]).2
      (run (init (48000 : ℝ) 10) [.tick 1, .tick 1, .setCutoff 20, .tick (-1), .reset, .tick 1]).2 := by
  have v : (lit 48000 : F32).val = 48000 ∧ (lit 10 : F32).val = 10 ∧ (lit 1 : F32).val = 1 ∧ (lit (-1) : F32).val = -1 ∧
    (lit 20 : F32).val = 20 := by decide +kernel
  obtain ⟨v1, v2, v3, v4, v5⟩ := v
  have h := C89_dcblock (lit 48000) (lit 10) (by decide +kernel) (by decide +kernel) 10 (by rw [v1]; norm_num) (by rw [v1]; norm_num) 0
    (by norm_num) (by norm_num) [.tick (lit 1), .tick (lit 1), .setCutoff (lit 20), .tick (lit (-1)), .reset, .tick (lit 1)]
    (by
      simp only [cutoffs, List.forall_mem_cons, v2, v5]
      refine ⟨⟨by decide +kernel, by norm_num⟩, ⟨by decide +kernel, by norm_num⟩, by simp⟩)
    (by
      simp only [inputs, List.forall_mem_cons, v3, v4]
      refine ⟨⟨by decide +kernel, by norm_num⟩, ⟨by decide +kernel, by norm_num⟩, ⟨by decide +kernel, by norm_num⟩,
        ⟨by decide +kernel, by norm_num⟩, by simp⟩)
  simp only [List.map_cons, List.map_nil, Call.real, v1, v2, v3, v4, v5] at h
  push_cast at h
  refine List.Forall₂.imp ?_ h
  rintro y z ⟨a, b⟩
  refine ⟨a, b.trans ?_⟩
  have := one_sub_exp' (θ := 2 * 3.14159265358979323846 * 10 / 48000) (δ := 0.0006) (by norm_num) (by norm_num) (by norm_num)
  rw [div_le_iff₀ (by linarith)]
  norm_num at this ⊢
  linarith

end DCBlock

end Verif
