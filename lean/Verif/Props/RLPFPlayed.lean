import Verif.Props.Response

/-!
# C107: a low pass whose cutoff and resonance are moved while it runs (exact arithmetic)

With a fixed cutoff `c = cos ω` the state has an energy, `z1² + 2 c z1 z2 + z2²`, that a tick without input lowers by `(1 - a2²) (1 - c²) z1²`,
whatever the resonance: the resonance can be moved at will. The cutoff cannot: the energies of two cutoffs differ, and switching between
them pumps.
-/

namespace Verif.RLPF

/-! ### Specification -/

/-- The outputs of a history of calls. -/
noncomputable def played : Filt ℝ ℝ → List Call → List ℝ
  | _, [] => []
  | s, .setFreq f :: cs => played (setFreq f s) cs
  | s, .setResonance r :: cs => played (setResonance r s) cs
  | s, .tick x :: cs => (tick s x).2 :: played (tick s x).1 cs
  | s, .reset :: cs => played (reset s) cs

/-- No input sample exceeds `X`. -/
def Call.within (X : ℝ) : Call → Prop
  | .tick x => |x| ≤ X
  | _ => True

/-- The cutoff is left alone. -/
def Call.keepsCutoff : Call → Prop
  | .setFreq _ => False
  | _ => True

/-- Whenever a sample is processed, twice the resonance is at most `θ |tan ω|`, `ω` being the cutoff in radians per sample. -/
noncomputable def tame (θ : ℝ) : Filt ℝ ℝ → List Call → Prop
  | _, [] => True
  | s, .setFreq f :: cs => tame θ (setFreq f s) cs
  | s, .setResonance r :: cs => tame θ (setResonance r s) cs
  | s, .tick x :: cs => 2 * s.resonance * |Real.cos (radians s.freq s.sampleRate)| ≤ θ * Real.sin (radians s.freq s.sampleRate) ∧
      tame θ (tick s x).1 cs
  | s, .reset :: cs => tame θ (reset s) cs

/-- `n` times: one sample of silence with cutoff `f1`, one with cutoff `f2`. -/
def wobble (f1 f2 : ℝ) : ℕ → List Call
  | 0 => []
  | n + 1 => .setFreq f1 :: .tick 0 :: .setFreq f2 :: .tick 0 :: wobble f1 f2 n

/-! ### Shape of the coefficients -/

/-- The coefficients in terms of the cosine `c` of the cutoff and the product `C` of the poles. -/
def Shape (c C : ℝ) (s : Filt ℝ ℝ) : Prop :=
  s.b0 = (1 - c) * (1 + C) / 4 ∧ s.b1 = (1 - c) * (1 + C) / 2 ∧ s.b2 = (1 - c) * (1 + C) / 4 ∧ s.a1 = -((1 + C) * c) ∧ s.a2 = C

/-- The product of the poles. -/
noncomputable def poles (w r : ℝ) : ℝ := (1 - Real.sin w / (2 * r)) / (1 + Real.sin w / (2 * r))

/-- What the calls keep true. -/
structure Kept (sr : ℝ) (s : Filt ℝ ℝ) : Prop where
  rate : s.sampleRate = sr
  w0 : 0 < radians s.freq sr
  w1 : radians s.freq sr < Real.pi
  r0 : 1 / 10 ≤ s.resonance
  r1 : s.resonance ≤ 30
  shape : Shape (Real.cos (radians s.freq sr)) (poles (radians s.freq sr) s.resonance) s

theorem Kept.sin_pos {sr : ℝ} {s : Filt ℝ ℝ} (h : Kept sr s) : 0 < Real.sin (radians s.freq sr) :=
  Real.sin_pos_of_pos_of_lt_pi h.w0 h.w1

theorem shape_update {s : Filt ℝ ℝ} (h : 0 < Real.sin (radians s.freq s.sampleRate)) (r : 0 < s.resonance) :
    Shape (Real.cos (radians s.freq s.sampleRate)) (poles (radians s.freq s.sampleRate) s.resonance) (updateCoefficients s) := by
  have e : radians s.freq s.sampleRate = 2 * 3.14159265358979323846 * s.freq / s.sampleRate := rfl
  have p : 0 < Real.sin (radians s.freq s.sampleRate) / (2 * s.resonance) := by positivity
  have one : 1 + poles (radians s.freq s.sampleRate) s.resonance = 2 / (1 + Real.sin (radians s.freq s.sampleRate) / (2 * s.resonance)) := by
    rw [poles]
    generalize Real.sin (radians s.freq s.sampleRate) / (2 * s.resonance) = a at p
    field_simp; ring
  unfold Shape
  rw [one]
  unfold poles
  simp only [updateCoefficients, Conv.conv, id, PI, real_arith]
  push_cast
  rw [← e]
  generalize Real.sin (radians s.freq s.sampleRate) / (2 * s.resonance) = a at p
  generalize Real.cos (radians s.freq s.sampleRate) = c
  have : (1 + a) ≠ 0 := by positivity
  refine ⟨?_, ?_, ?_, ?_, rfl⟩ <;> field_simp <;> ring

theorem radians_range {f sr : ℝ} (f0 : 0 < f) (f1 : 2 * f < sr) : 0 < radians f sr ∧ radians f sr < Real.pi := by
  have hpi := Real.pi_gt_d20
  have hs : 0 < sr := by linarith
  refine ⟨by unfold radians; positivity, ?_⟩
  rw [radians, div_lt_iff₀ hs]
  nlinarith [Real.pi_pos]

theorem setFreq_freq {sr : ℝ} (hsr : 2.1 ≤ sr) (f : ℝ) {s : Filt ℝ ℝ} (h : s.sampleRate = sr) :
    0 < (setFreq f s).freq ∧ 2 * (setFreq f s).freq < sr := by
  simp only [setFreq, updateCoefficients, real_arith, h]
  split_ifs with a b
  · norm_num; linarith
  · norm_num; constructor <;> linarith
  · push_cast at a b; push Not at a b
    norm_num at b
    constructor <;> linarith

theorem kept_setFreq {sr : ℝ} (hsr : 2.1 ≤ sr) (f : ℝ) {s : Filt ℝ ℝ} (h : s.sampleRate = sr) (r0 : 1 / 10 ≤ s.resonance)
    (r1 : s.resonance ≤ 30) : Kept sr (setFreq f s) := by
  obtain ⟨a, b⟩ := setFreq_freq hsr f h
  obtain ⟨w0, w1⟩ := radians_range a b
  subst h
  exact ⟨rfl, w0, w1, r0, r1, shape_update (s := { s with freq := (setFreq f s).freq }) (Real.sin_pos_of_pos_of_lt_pi w0 w1) (by linarith)⟩

theorem setResonance_resonance (r : ℝ) (s : Filt ℝ ℝ) : 1 / 10 ≤ (setResonance r s).resonance ∧ (setResonance r s).resonance ≤ 30 := by
  simp only [setResonance, updateCoefficients, real_arith]
  split_ifs with a b
  · norm_num
  · norm_num
  · push_cast at a b; push Not at a b
    constructor <;> linarith

theorem Kept.setResonance {sr : ℝ} {s : Filt ℝ ℝ} (h : Kept sr s) (r : ℝ) : Kept sr (setResonance r s) := by
  obtain ⟨a, b⟩ := setResonance_resonance r s
  have e := h.rate
  subst e
  exact ⟨rfl, h.w0, h.w1, a, b, shape_update (s := { s with resonance := (RLPF.setResonance r s).resonance }) h.sin_pos
    (by change 0 < (RLPF.setResonance r s).resonance; linarith)⟩

theorem Kept.tick {sr : ℝ} {s : Filt ℝ ℝ} (h : Kept sr s) (x : ℝ) : Kept sr (tick s x).1 := ⟨h.rate, h.w0, h.w1, h.r0, h.r1, h.shape⟩

theorem Kept.reset {sr : ℝ} {s : Filt ℝ ℝ} (h : Kept sr s) : Kept sr (reset s) := ⟨h.rate, h.w0, h.w1, h.r0, h.r1, h.shape⟩

theorem init_resonance (sr : ℝ) : 1 / 10 ≤ (init (β := ℝ) sr).resonance ∧ (init (β := ℝ) sr).resonance ≤ 30 := by
  simp only [init, updateCoefficients, real_arith]; norm_num

/-- A tick in terms of `c` and `C`. -/
theorem tick_shape {c C : ℝ} {s : Filt ℝ ℝ} (h : Shape c C s) (x : ℝ) :
    (tick s x).2 = s.b0 * x + s.z1 ∧ (tick s x).1.z1 = ((1 + C) * c * s.z1 + s.z2) + (s.b1 + (1 + C) * c * s.b0) * x ∧
    (tick s x).1.z2 = -C * s.z1 + (s.b2 - C * s.b0) * x := by
  obtain ⟨-, -, -, h4, h5⟩ := h
  simp only [tick, Conv.conv, id, real_arith, h4, h5]
  refine ⟨trivial, ?_, ?_⟩ <;> ring

theorem shape_small {c C : ℝ} {s : Filt ℝ ℝ} (h : Shape c C s) (hc : |c| ≤ 1) (hC : |C| ≤ 1) :
    |s.b0| ≤ 1 ∧ |s.b1 + (1 + C) * c * s.b0| ≤ 4 ∧ |s.b2 - C * s.b0| ≤ 2 := by
  obtain ⟨h1, h2, h3, -, -⟩ := h
  obtain ⟨c0, c1⟩ := abs_le.1 hc
  obtain ⟨C0, C1⟩ := abs_le.1 hC
  have m0 : 0 ≤ (1 - c) * (1 + C) := mul_nonneg (by linarith) (by linarith)
  have m1 : (1 - c) * (1 + C) ≤ 4 := by nlinarith
  have b0 : |s.b0| ≤ 1 := by rw [h1, abs_of_nonneg (by linarith)]; linarith
  have b1 : |s.b1| ≤ 2 := by rw [h2, abs_of_nonneg (by linarith)]; linarith
  have b2 : |s.b2| ≤ 1 := by rw [h3, abs_of_nonneg (by linarith)]; linarith
  refine ⟨b0, ?_, ?_⟩
  · refine (abs_add_le _ _).trans ?_
    have : |(1 + C) * c * s.b0| ≤ 2 * 1 * 1 := by
      rw [abs_mul, abs_mul]
      have : |1 + C| ≤ 2 := by rw [abs_of_nonneg (by linarith)]; linarith
      gcongr
    linarith
  · refine (abs_sub _ _).trans ?_
    have : |C * s.b0| ≤ 1 * 1 := by rw [abs_mul]; gcongr
    linarith

/-! ### The resonance -/

/-- The energy of the state, slightly tilted to make it fall at every tick. -/
def energy (c ε a b : ℝ) : ℝ := a ^ 2 + 2 * c * a * b + (1 + ε) * b ^ 2

theorem energy_falls {c C γ : ℝ} (hc : c ^ 2 ≤ 1) (g1 : γ ^ 2 ≤ 1) (hC : C ^ 2 ≤ γ ^ 2) (a b : ℝ) :
    energy c ((1 - γ ^ 2) * (1 - c ^ 2) / 2) ((1 + C) * c * a + b) (-C * a) ≤
      (1 - (1 - γ ^ 2) * (1 - c ^ 2) / 2 / 3) * energy c ((1 - γ ^ 2) * (1 - c ^ 2) / 2) a b := by
  set ε := (1 - γ ^ 2) * (1 - c ^ 2) / 2 with hε
  have e0 : 0 ≤ ε := by rw [hε]; have := mul_nonneg (sub_nonneg.2 g1) (sub_nonneg.2 hc); linarith
  have e1 : ε ≤ 1 / 2 := by rw [hε]; nlinarith [sq_nonneg γ, sq_nonneg c]
  have exact : energy c ε ((1 + C) * c * a + b) (-C * a) = energy c ε a b - ((1 - C ^ 2) * (1 - c ^ 2) - ε * C ^ 2) * a ^ 2 - ε * b ^ 2 := by
    unfold energy; ring
  have k : ε ≤ (1 - C ^ 2) * (1 - c ^ 2) - ε * C ^ 2 := by
    have h1 : (1 - γ ^ 2) * (1 - c ^ 2) ≤ (1 - C ^ 2) * (1 - c ^ 2) := mul_le_mul_of_nonneg_right (by linarith) (by linarith)
    have h2 : ε * C ^ 2 ≤ ε * 1 := mul_le_mul_of_nonneg_left (by linarith) e0
    linarith
  have up : energy c ε a b ≤ 3 * (a ^ 2 + b ^ 2) := by
    unfold energy
    have h1 : 2 * c * a * b ≤ a ^ 2 + b ^ 2 := by
      have : 0 ≤ (a - c * b) ^ 2 + (1 - c ^ 2) * b ^ 2 := by have := mul_nonneg (sub_nonneg.2 hc) (sq_nonneg b); positivity
      nlinarith
    have h2 := mul_le_mul_of_nonneg_right e1 (sq_nonneg b)
    nlinarith [sq_nonneg a, sq_nonneg b]
  have h3 := mul_le_mul_of_nonneg_right k (sq_nonneg a)
  have h4 := mul_le_mul_of_nonneg_left up e0
  rw [exact]
  linarith

theorem energy_nonneg {c ε : ℝ} (hc : c ^ 2 ≤ 1) (e : 0 ≤ ε) (a b : ℝ) : 0 ≤ energy c ε a b := by
  have : energy c ε a b = (a + c * b) ^ 2 + (1 - c ^ 2) * b ^ 2 + ε * b ^ 2 := by unfold energy; ring
  rw [this]
  have := mul_nonneg (sub_nonneg.2 hc) (sq_nonneg b)
  positivity

theorem energy_add {c ε d : ℝ} (hc : c ^ 2 ≤ 1) (e : 0 ≤ ε) (hd : 0 < d) (a b u v : ℝ) :
    energy c ε (a + u) (b + v) ≤ (1 + d) * energy c ε a b + (1 + 1 / d) * energy c ε u v := by
  have h := energy_nonneg hc e (d * a - u) (d * b - v)
  have : (1 + d) * energy c ε a b + (1 + 1 / d) * energy c ε u v - energy c ε (a + u) (b + v) = energy c ε (d * a - u) (d * b - v) / d := by
    unfold energy; field_simp; ring
  have := div_nonneg h hd.le
  linarith

theorem energy_input {c ε p q x X : ℝ} (hc : |c| ≤ 1) (e1 : ε ≤ 1) (hp : |p| ≤ 4) (hq : |q| ≤ 2) (hx : |x| ≤ X) :
    energy c ε (p * x) (q * x) ≤ 40 * X ^ 2 := by
  have : energy c ε (p * x) (q * x) = (p ^ 2 + 2 * (c * p * q) + (1 + ε) * q ^ 2) * x ^ 2 := by unfold energy; ring
  rw [this]
  have h1 : c * p * q ≤ 1 * 4 * 2 := (le_abs_self _).trans (by rw [abs_mul, abs_mul]; gcongr)
  have h2 : p ^ 2 ≤ 4 ^ 2 := sq_le_sq' (by linarith [(abs_le.1 hp).1]) (abs_le.1 hp).2
  have h3 : q ^ 2 ≤ 2 ^ 2 := sq_le_sq' (by linarith [(abs_le.1 hq).1]) (abs_le.1 hq).2
  have h4 : (1 + ε) * q ^ 2 ≤ 2 * 2 ^ 2 := by gcongr; linarith
  have h5 : x ^ 2 ≤ X ^ 2 := sq_le_sq' (by linarith [(abs_le.1 hx).1]) (abs_le.1 hx).2
  have h6 : p ^ 2 + 2 * (c * p * q) + (1 + ε) * q ^ 2 ≤ 40 := by linarith
  calc _ ≤ 40 * x ^ 2 := mul_le_mul_of_nonneg_right h6 (sq_nonneg x)
    _ ≤ 40 * X ^ 2 := by linarith

theorem poles_range {w r : ℝ} (s0 : 0 < Real.sin w) (r0 : 1 / 10 ≤ r) (r1 : r ≤ 30) : |poles w r| ≤ 1 - Real.sin w / 60 := by
  have s1 := Real.sin_le_one w
  have rp : 0 < r := by linarith
  set a := Real.sin w / (2 * r) with ha
  have a0 : 0 < a := by positivity
  have lo : Real.sin w / 60 ≤ a := by rw [ha, div_le_div_iff₀ (by norm_num) (by positivity)]; nlinarith
  have hi : a ≤ 5 := by rw [ha, div_le_iff₀ (by positivity)]; linarith
  have e : poles w r = (1 - a) / (1 + a) := rfl
  rw [e, abs_le]
  constructor
  · rw [le_div_iff₀ (by linarith)]; nlinarith
  · rw [div_le_iff₀ (by linarith)]; nlinarith

theorem hold_bounded {sr w X : ℝ} (X0 : 0 ≤ X) : let c := Real.cos w
    let γ := 1 - Real.sin w / 60
    let ε := (1 - γ ^ 2) * (1 - c ^ 2) / 2
    let K := 40 * (1 + 1 / (ε / 3)) / (ε / 3) ^ 2
    ∀ (cs : List Call) (s : Filt ℝ ℝ), Kept sr s → radians s.freq sr = w → (∀ e ∈ cs, e.keepsCutoff) → (∀ e ∈ cs, e.within X) →
      energy c ε s.z1 s.z2 ≤ K * X ^ 2 → ∀ y ∈ played s cs, |y| ≤ (1 + √K / Real.sin w) * X := by
  intro c γ ε K cs
  induction cs with
  | nil => intro s _ _ _ _ _ y hy; simp [played] at hy
  | cons e cs ih =>
    intro s hk hw h1 h2 hE
    have s0 : 0 < Real.sin w := hw ▸ hk.sin_pos
    have s1 := Real.sin_le_one w
    have sc : 1 - c ^ 2 = Real.sin w ^ 2 := by have := Real.sin_sq_add_cos_sq w; change 1 - Real.cos w ^ 2 = _; linarith
    have c2 : c ^ 2 ≤ 1 := by have := sq_nonneg (Real.sin w); linarith
    have ca : |c| ≤ 1 := Real.abs_cos_le_one w
    have g0 : 0 ≤ γ := by change 0 ≤ 1 - Real.sin w / 60; linarith
    have g1 : γ < 1 := by change 1 - Real.sin w / 60 < 1; linarith
    have gg : γ ^ 2 < 1 := by nlinarith
    have e0 : 0 < ε := by
      change 0 < (1 - γ ^ 2) * (1 - c ^ 2) / 2
      rw [sc]; have := sub_pos.2 gg; positivity
    have e1 : ε ≤ 1 := by
      change (1 - γ ^ 2) * (1 - c ^ 2) / 2 ≤ 1
      nlinarith [sq_nonneg γ, sq_nonneg c]
    have K0 : 0 ≤ K := by change 0 ≤ 40 * (1 + 1 / (ε / 3)) / (ε / 3) ^ 2; positivity
    have hc1 : ∀ e ∈ cs, e.keepsCutoff := fun e he => h1 e (by simp [he])
    have hc2 : ∀ e ∈ cs, e.within X := fun e he => h2 e (by simp [he])
    cases e with
    | setFreq f => exact (h1 (.setFreq f) (by simp)).elim
    | setResonance r => exact ih _ (hk.setResonance r) hw hc1 hc2 hE
    | reset =>
      refine ih _ hk.reset hw hc1 hc2 ?_
      have : energy c ε (reset s).z1 (reset s).z2 = 0 := by simp [reset, energy, real_arith]
      rw [this]; positivity
    | tick x =>
      have hx : |x| ≤ X := h2 (.tick x) (by simp)
      have sh := hk.shape
      rw [hw] at sh
      have pr := poles_range s0 hk.r0 hk.r1
      have p1 : |poles w s.resonance| ≤ 1 := pr.trans g1.le
      obtain ⟨t1, t2, t3⟩ := tick_shape sh x
      obtain ⟨q0, q1, q2⟩ := shape_small sh ca p1
      intro y hy
      rcases List.mem_cons.1 hy with rfl | hy
      · rw [t1]
        have : (Real.sin w * s.z1) ^ 2 ≤ K * X ^ 2 := by
          refine le_trans ?_ hE
          have : energy c ε s.z1 s.z2 = (s.z2 + c * s.z1) ^ 2 + (1 - c ^ 2) * s.z1 ^ 2 + ε * s.z2 ^ 2 := by unfold energy; ring
          rw [this, sc]
          have := mul_nonneg e0.le (sq_nonneg s.z2)
          nlinarith [sq_nonneg (s.z2 + c * s.z1)]
        have h := Real.abs_le_sqrt this
        rw [Real.sqrt_mul K0, Real.sqrt_sq X0, abs_mul, abs_of_pos s0] at h
        have z : |s.z1| ≤ √K / Real.sin w * X := by
          rw [div_mul_eq_mul_div, le_div_iff₀ s0]; linarith
        have : |s.b0 * x| ≤ 1 * X := by rw [abs_mul]; gcongr
        have := abs_add_le (s.b0 * x) s.z1
        linarith
      · refine ih _ (hk.tick x) hw hc1 hc2 ?_ y hy
        rw [t2, t3]
        have η0 : 0 < ε / 3 := by positivity
        refine (energy_add c2 e0.le η0 _ _ _ _).trans ?_
        have f1 := energy_falls (C := poles w s.resonance) c2 gg.le (sq_le_sq.2 (by rw [abs_of_nonneg g0]; exact pr)) s.z1 s.z2
        have f2 := energy_input ca e1 q1 q2 hx
        change energy c ε _ _ ≤ (1 - ε / 3) * energy c ε _ _ at f1
        have f3 : (1 - ε / 3) * energy c ε s.z1 s.z2 ≤ (1 - ε / 3) * (K * X ^ 2) := mul_le_mul_of_nonneg_left hE (by linarith)
        have f4 := mul_le_mul_of_nonneg_left (f1.trans f3) (by positivity : (0:ℝ) ≤ 1 + ε / 3)
        have f5 := mul_le_mul_of_nonneg_left f2 (by positivity : (0:ℝ) ≤ 1 + 1 / (ε / 3))
        refine (add_le_add f4 f5).trans (le_of_eq ?_)
        have : K * (ε / 3) ^ 2 = 40 * (1 + 1 / (ε / 3)) := by
          change 40 * (1 + 1 / (ε / 3)) / (ε / 3) ^ 2 * (ε / 3) ^ 2 = _
          exact div_mul_cancel₀ _ (by positivity)
        linear_combination (-X ^ 2) * this

/-- **C107**: the resonance can be played. Once the cutoff of a new filter has been set, to anything, there is a bound for its gain that holds
for every history of resonances, changed as often as one likes, every reset and every input of any length. -/
theorem C107_resonance (sr : ℝ) (hsr : 2.1 ≤ sr) (f : ℝ) : ∃ B : ℝ, ∀ (X : ℝ) (cs : List Call), 0 ≤ X → (∀ e ∈ cs, e.keepsCutoff) →
    (∀ e ∈ cs, e.within X) → ∀ y ∈ played (init sr) (.setFreq f :: cs), |y| ≤ B * X := by
  refine ⟨_, fun X cs X0 h1 h2 => hold_bounded (sr := sr) X0 cs (setFreq f (init sr))
    (kept_setFreq hsr f rfl (init_resonance sr).1 (init_resonance sr).2) rfl h1 h2 ?_⟩
  have k := kept_setFreq hsr f (s := init sr) rfl (init_resonance sr).1 (init_resonance sr).2
  set w := radians (setFreq f (init (β := ℝ) sr)).freq sr
  have z : (setFreq f (init (β := ℝ) sr)).z1 = 0 ∧ (setFreq f (init (β := ℝ) sr)).z2 = 0 := by
    simp [setFreq, init, updateCoefficients, real_arith]
  rw [z.1, z.2]
  have : energy (Real.cos w) ((1 - (1 - Real.sin w / 60) ^ 2) * (1 - Real.cos w ^ 2) / 2) 0 0 = 0 := by unfold energy; ring
  rw [this]
  have s0 := k.sin_pos
  have s1 := Real.sin_le_one w
  have sc : 1 - Real.cos w ^ 2 = Real.sin w ^ 2 := by have := Real.sin_sq_add_cos_sq w; linarith
  have : 0 ≤ 1 - (1 - Real.sin w / 60) ^ 2 := by
    change 0 < Real.sin w at s0
    nlinarith
  rw [sc]
  positivity

/-- Resonance up and down while a burst goes through. -/
example : (∀ e ∈ [Call.setResonance 30, .tick 1, .setResonance 0.1, .tick (-1), .reset, .tick 0], e.keepsCutoff) ∧
    ∀ e ∈ [Call.setResonance 30, .tick 1, .setResonance 0.1, .tick (-1), .reset, .tick 0], e.within 1 := by
  simp [Call.keepsCutoff, Call.within]

/-! ### The cutoff, when the resonance is low -/

/-- The size of the state, slightly tilted. -/
def size (ε a b : ℝ) : ℝ := |a| + (1 + ε) * |b|

theorem size_falls {k C ε : ℝ} (e0 : 0 ≤ ε) (e1 : ε ≤ 1) (h : |k| + |C| ≤ 1 - 2 * ε) (a b : ℝ) :
    size ε (k * a + b) (-C * a) ≤ (1 - ε / 2) * size ε a b := by
  unfold size
  have h1 : |k * a + b| ≤ |k| * |a| + |b| := (abs_add_le _ _).trans (by rw [abs_mul])
  have h2 : |-C * a| = |C| * |a| := by rw [abs_mul, abs_neg]
  have C1 : |C| ≤ 1 := by linarith [abs_nonneg k]
  have h3 : (|k| + (1 + ε) * |C|) * |a| ≤ (1 - ε / 2) * |a| := by
    apply mul_le_mul_of_nonneg_right _ (abs_nonneg a)
    have := mul_le_mul_of_nonneg_left C1 e0
    linarith
  have h4 : 1 * |b| ≤ (1 - ε / 2) * (1 + ε) * |b| := by
    apply mul_le_mul_of_nonneg_right _ (abs_nonneg b)
    nlinarith
  rw [h2]
  linarith

theorem size_add {ε : ℝ} (e0 : 0 ≤ ε) (a b u v : ℝ) : size ε (a + u) (b + v) ≤ size ε a b + size ε u v := by
  unfold size
  have h1 := abs_add_le a u
  have h2 := mul_le_mul_of_nonneg_left (abs_add_le b v) (by linarith : 0 ≤ 1 + ε)
  linarith

theorem tame_gain {w r θ : ℝ} (s0 : 0 < Real.sin w) (r0 : 1 / 10 ≤ r) (r1 : r ≤ 30) (θ0 : 0 ≤ θ) (θ1 : θ < 1)
    (h : 2 * r * |Real.cos w| ≤ θ * Real.sin w) : |(1 + poles w r) * Real.cos w| + |poles w r| ≤ 1 - 2 * ((1 - θ) / 720) := by
  have s1 := Real.sin_le_one w
  have rp : 0 < r := by linarith
  have sc := Real.sin_sq_add_cos_sq w
  rw [← sq_abs (Real.cos w)] at sc
  rw [abs_mul]
  have k0 := abs_nonneg (Real.cos w)
  have k1 := Real.abs_cos_le_one w
  generalize |Real.cos w| = c at *
  have e : poles w r = (1 - Real.sin w / (2 * r)) / (1 + Real.sin w / (2 * r)) := rfl
  generalize Real.sin w = s at *
  have ca : c ≤ θ * (s / (2 * r)) := by
    rw [mul_div_assoc', le_div_iff₀ (by positivity)]; linarith
  have cs : c ≤ 5 * s := by nlinarith
  have s6 : 1 / 6 ≤ s := by nlinarith
  have a0 : 0 < s / (2 * r) := by positivity
  have lo : 1 / 360 ≤ s / (2 * r) := by rw [div_le_div_iff₀ (by norm_num) (by positivity)]; nlinarith
  have hi : s / (2 * r) ≤ 5 := by rw [div_le_iff₀ (by positivity)]; linarith
  generalize s / (2 * r) = a at *
  have one : 1 + poles w r = 2 / (1 + a) := by rw [e]; field_simp; ring
  have p : 0 < 1 + a := by linarith
  rw [one, e, abs_of_pos (by positivity), abs_div, abs_of_pos p, div_mul_eq_mul_div, ← add_div, div_le_iff₀ p]
  rcases le_total a 1 with h1 | h1
  · rw [abs_of_nonneg (by linarith)]
    nlinarith
  · rw [abs_of_nonpos (by linarith)]
    have : c ≤ 1 - 1 / 72 := by nlinarith
    nlinarith

theorem tame_bounded {sr θ X : ℝ} (hsr : 2.1 ≤ sr) (θ0 : 0 ≤ θ) (θ1 : θ < 1) (X0 : 0 ≤ X) : ∀ (cs : List Call) (s : Filt ℝ ℝ), Kept sr s →
    tame θ s cs → (∀ e ∈ cs, e.within X) → size ((1 - θ) / 720) s.z1 s.z2 ≤ 11520 / (1 - θ) * X →
      ∀ y ∈ played s cs, |y| ≤ 11521 / (1 - θ) * X
  | [], s, _, _, _, _ => by intro y hy; simp [played] at hy
  | .setFreq f :: cs, s, hk, h1, h2, hE =>
    tame_bounded hsr θ0 θ1 X0 cs _ (kept_setFreq hsr f hk.rate hk.r0 hk.r1) h1 (fun e he => h2 e (by simp [he])) hE
  | .setResonance r :: cs, s, hk, h1, h2, hE =>
    tame_bounded hsr θ0 θ1 X0 cs _ (hk.setResonance r) h1 (fun e he => h2 e (by simp [he])) hE
  | .reset :: cs, s, hk, h1, h2, hE => by
    refine tame_bounded hsr θ0 θ1 X0 cs _ hk.reset h1 (fun e he => h2 e (by simp [he])) ?_
    have : size ((1 - θ) / 720) (reset s).z1 (reset s).z2 = 0 := by simp [reset, size, real_arith]
    rw [this]
    have : 0 < 1 - θ := by linarith
    positivity
  | .tick x :: cs, s, hk, h1, h2, hE => by
    have hx : |x| ≤ X := h2 (.tick x) (by simp)
    have p : 0 < 1 - θ := by linarith
    have ht := h1.1
    rw [hk.rate] at ht
    have g := tame_gain hk.sin_pos hk.r0 hk.r1 θ0 θ1 ht
    have C1 : |poles (radians s.freq sr) s.resonance| ≤ 1 := by
      have := abs_nonneg ((1 + poles (radians s.freq sr) s.resonance) * Real.cos (radians s.freq sr))
      linarith
    obtain ⟨t1, t2, t3⟩ := tick_shape hk.shape x
    obtain ⟨q0, q1, q2⟩ := shape_small hk.shape (Real.abs_cos_le_one _) C1
    have K : 11520 / (1 - θ) * X + X ≤ 11521 / (1 - θ) * X := by
      have : 11521 / (1 - θ) = 11520 / (1 - θ) + 1 / (1 - θ) := by ring
      have h1 : 1 ≤ 1 / (1 - θ) := by rw [le_div_iff₀ p]; linarith
      have := mul_le_mul_of_nonneg_right h1 X0
      nlinarith
    intro y hy
    rcases List.mem_cons.1 hy with rfl | hy
    · rw [t1]
      have z : |s.z1| ≤ 11520 / (1 - θ) * X := by
        refine le_trans ?_ hE
        unfold size
        have : 0 ≤ (1 + (1 - θ) / 720) * |s.z2| := by positivity
        linarith
      have : |s.b0 * x| ≤ 1 * X := by rw [abs_mul]; gcongr
      have := abs_add_le (s.b0 * x) s.z1
      linarith
    · refine tame_bounded hsr θ0 θ1 X0 cs _ (hk.tick x) h1.2 (fun e he => h2 e (by simp [he])) ?_ y hy
      rw [t2, t3]
      refine (size_add (by positivity) _ _ _ _).trans ?_
      have f1 := size_falls (ε := (1 - θ) / 720) (by positivity) (by linarith) g s.z1 s.z2
      have f2 : size ((1 - θ) / 720) ((s.b1 + (1 + poles (radians s.freq sr) s.resonance) * Real.cos (radians s.freq sr) * s.b0) * x)
          ((s.b2 - poles (radians s.freq sr) s.resonance * s.b0) * x) ≤ 8 * X := by
        unfold size
        rw [abs_mul, abs_mul]
        have u1 := mul_le_mul q1 hx (abs_nonneg x) (by norm_num)
        have u2 := mul_le_mul q2 hx (abs_nonneg x) (by norm_num)
        have u3 : (1 + (1 - θ) / 720) * (|s.b2 - poles (radians s.freq sr) s.resonance * s.b0| * |x|) ≤ 2 * (2 * X) :=
          mul_le_mul (by linarith) u2 (by positivity) (by norm_num)
        linarith
      have f3 := mul_le_mul_of_nonneg_left hE (by linarith : 0 ≤ 1 - (1 - θ) / 720 / 2)
      refine (add_le_add (f1.trans f3) f2).trans (le_of_eq ?_)
      field_simp
      ring

/-- **C107, partial**: the cutoff can be played too, if the resonance is low. However cutoff and resonance are moved about, at any rate: as long
as twice the resonance stays below `|tan ω|`, the gain of a new filter is bounded, by a number that does not even depend on the sample rate.
Missing: higher resonances, where `C107_explodes` shows the claim to be false. -/
theorem C107_cutoff_partial (sr θ : ℝ) (hsr : 880 < sr) (θ0 : 0 ≤ θ) (θ1 : θ < 1) (X : ℝ) (X0 : 0 ≤ X) (cs : List Call)
    (h1 : tame θ (init sr) cs) (h2 : ∀ e ∈ cs, e.within X) : ∀ y ∈ played (init sr) cs, |y| ≤ 11521 / (1 - θ) * X := by
  obtain ⟨i1, i2, i3, i4, -⟩ := inv_init hsr
  obtain ⟨w0, w1⟩ := radians_range i2 i3
  have k : Kept sr (init sr) := ⟨i1, w0, w1, (init_resonance sr).1, (init_resonance sr).2,
    shape_update (s := ⟨sr, lit 440, lit 0.707, _, _, _, _, _, _, _⟩) (Real.sin_pos_of_pos_of_lt_pi w0 w1) i4⟩
  refine tame_bounded (by linarith) θ0 θ1 X0 cs _ k h1 h2 ?_
  have z : (init (β := ℝ) sr).z1 = 0 ∧ (init (β := ℝ) sr).z2 = 0 := by
    simp [init, updateCoefficients, real_arith]
  have p : 0 < 1 - θ := by linarith
  rw [z.1, z.2, size, abs_zero]
  have : 0 ≤ 11520 / (1 - θ) * X := by positivity
  linarith

theorem setFreq_inside {f sr : ℝ} (f0 : 1 ≤ f) (f1 : f ≤ 0.495 * sr) {s : Filt ℝ ℝ} (h : s.sampleRate = sr) : (setFreq f s).freq = f := by
  simp only [setFreq, updateCoefficients, real_arith, h]
  rw [if_neg (by push_cast; linarith), if_neg (by push_cast; norm_num; linarith)]

/-- A filter at 48 kHz with resonance 0.5, played between 10 and 12 kHz. -/
example (x y : ℝ) : tame (1 / 2) (init 48000) [.setResonance 0.5, .setFreq 10000, .tick x, .setFreq 12000, .tick y] := by
  have hp := Real.pi_gt_d20
  have hp' := Real.pi_lt_d20
  have main : ∀ f : ℝ, 10000 ≤ f → f ≤ 12000 → 2 * 0.5 * |Real.cos (radians f 48000)| ≤ 1 / 2 * Real.sin (radians f 48000) := fun f h1 h2 => by
    have w0 : 1.308 ≤ radians f 48000 := by rw [radians, le_div_iff₀ (by norm_num)]; linarith
    have w1 : radians f 48000 ≤ Real.pi / 2 := by rw [radians, div_le_iff₀ (by norm_num)]; linarith
    have c0 : 0 ≤ Real.cos (radians f 48000) := Real.cos_nonneg_of_mem_Icc ⟨by linarith, w1⟩
    have c1 : Real.cos (radians f 48000) ≤ Real.pi / 2 - radians f 48000 := by
      rw [← Real.sin_pi_div_two_sub]; exact Real.sin_le (by linarith)
    have s1 := Real.mul_le_sin (by linarith : 0 ≤ radians f 48000) w1
    have : 0.8 ≤ 2 / Real.pi * radians f 48000 := by
      rw [div_mul_eq_mul_div, le_div_iff₀ Real.pi_pos]; linarith
    rw [abs_of_nonneg c0]
    linarith
  have r : (setResonance 0.5 (init (α := ℝ) (β := ℝ) 48000)).resonance = 0.5 := by
    simp only [setResonance, updateCoefficients, real_arith]
    rw [if_neg (by push_cast; norm_num), if_neg (by push_cast; norm_num)]
  refine ⟨?_, ?_, trivial⟩
  · rw [setFreq_inside (f := 10000) (sr := 48000) (by norm_num) (by norm_num) rfl]
    have := main 10000 (by norm_num) (by norm_num)
    rw [← r] at this
    exact this
  · rw [setFreq_inside (f := 12000) (sr := 48000) (by norm_num) (by norm_num) rfl]
    have := main 12000 (by norm_num) (by norm_num)
    rw [← r] at this
    exact this

/-! ### The cutoff, when the resonance is higher -/

/-- One period, in terms of the state before it. -/
theorem period {c1 C1 c2 C2 : ℝ} {s u v : Filt ℝ ℝ} (h1 : Shape c1 C1 u) (h2 : Shape c2 C2 v) (e1 : u.z1 = s.z1) (e2 : u.z2 = s.z2)
    (g1 : v.z1 = (tick u 0).1.z1) (g2 : v.z2 = (tick u 0).1.z2) :
    (tick u 0).2 = s.z1 ∧ (tick v 0).2 = (1 + C1) * c1 * s.z1 + s.z2 ∧
    (tick v 0).1.z1 = (1 + C2) * c2 * ((1 + C1) * c1 * s.z1 + s.z2) - C1 * s.z1 ∧
    (tick v 0).1.z2 = -C2 * ((1 + C1) * c1 * s.z1 + s.z2) := by
  obtain ⟨t1, t2, t3⟩ := tick_shape h1 0
  obtain ⟨v1, v2, v3⟩ := tick_shape h2 0
  rw [v1, v2, v3, g1, g2, t1, t2, t3, e1, e2]
  refine ⟨?_, ?_, ?_, ?_⟩ <;> ring

/-- The growth rate over two samples. -/
theorem growth_exists {C1 C2 k : ℝ} (h : (1 - C1) * (1 - C2) < k) :
    ∃ l : ℝ, 1 < l ∧ k * l = (l - C1) * (l - C2) := by
  set τ := k + C1 + C2 with hτ
  have d : 0 ≤ τ ^ 2 - 4 * (C1 * C2) := by
    by_contra hc
    push Not at hc
    nlinarith [sq_nonneg (τ - 2)]
  refine ⟨(τ + √(τ ^ 2 - 4 * (C1 * C2))) / 2, ?_, ?_⟩
  · by_contra hc
    push Not at hc
    have s : √(τ ^ 2 - 4 * (C1 * C2)) ≤ 2 - τ := by linarith
    have s0 := Real.sqrt_nonneg (τ ^ 2 - 4 * (C1 * C2))
    have := Real.sq_sqrt d
    nlinarith
  · have := Real.sq_sqrt d
    have k' : k = τ - C1 - C2 := by rw [hτ]; ring
    rw [k']
    linear_combination (-1 / 4 : ℝ) * this

theorem pumping {sr f1 f2 r l B : ℝ} (hsr : 2.1 ≤ sr) (a0 : 1 ≤ f1) (a1 : f1 ≤ 0.495 * sr) (b0 : 1 ≤ f2) (b1 : f2 ≤ 0.495 * sr) (r0 : 1 / 10 ≤ r)
    (r1 : r ≤ 30) : let c1 := Real.cos (radians f1 sr)
    let c2 := Real.cos (radians f2 sr)
    let C1 := poles (radians f1 sr) r
    let C2 := poles (radians f2 sr) r
    1 < l → -((1 + C1) * c1 * ((1 + C2) * c2)) * l = (l - C1) * (l - C2) →
    ∀ (n : ℕ) (s : Filt ℝ ℝ), s.sampleRate = sr → s.resonance = r → (∀ y ∈ played s (wobble f1 f2 (n + 1)), |y| ≤ B) →
      l ^ n * |(l - C2) * s.z1 - (1 + C2) * c2 * s.z2| ≤ (|l - C2| + |(1 + C2) * c2| * (1 + |(1 + C1) * c1|)) * B := by
  intro c1 c2 C1 C2 hl hchar n
  have key : ∀ s : Filt ℝ ℝ, s.sampleRate = sr → s.resonance = r → ∃ s' y1 y2, s'.sampleRate = sr ∧ s'.resonance = r ∧
      (∀ m, played s (wobble f1 f2 (m + 1)) = y1 :: y2 :: played s' (wobble f1 f2 m)) ∧ y1 = s.z1 ∧ y2 = (1 + C1) * c1 * s.z1 + s.z2 ∧
      s'.z1 = (1 + C2) * c2 * ((1 + C1) * c1 * s.z1 + s.z2) - C1 * s.z1 ∧ s'.z2 = -C2 * ((1 + C1) * c1 * s.z1 + s.z2) := by
    intro s hs hr
    have u := kept_setFreq hsr f1 hs (hr ▸ r0) (hr ▸ r1)
    have u1 := u.shape
    rw [setFreq_inside a0 a1 hs] at u1
    have ur : (setFreq f1 s).resonance = r := hr
    rw [ur] at u1
    have ut := u.tick 0
    have v := kept_setFreq hsr f2 (s := (tick (setFreq f1 s) 0).1) ut.rate ut.r0 ut.r1
    have v1 := v.shape
    rw [setFreq_inside b0 b1 ut.rate] at v1
    have vr : (setFreq f2 (tick (setFreq f1 s) 0).1).resonance = r := hr
    rw [vr] at v1
    obtain ⟨p1, p2, p3, p4⟩ := period (s := s) u1 v1 rfl rfl rfl rfl
    exact ⟨(tick (setFreq f2 (tick (setFreq f1 s) 0).1) 0).1, _, _, hs, hr, fun m => rfl, p1, p2, p3, p4⟩
  induction n with
  | zero =>
    intro s hs hr hy
    obtain ⟨s', y1, y2, -, -, hp, e1, e2, -, -⟩ := key s hs hr
    rw [hp] at hy
    have h1 : |y1| ≤ B := hy y1 (by simp)
    have h2 : |y2| ≤ B := hy y2 (by simp)
    have z2 : s.z2 = y2 - (1 + C1) * c1 * y1 := by rw [e1, e2]; ring
    rw [pow_zero, one_mul, z2, ← e1]
    have t1 := abs_sub ((l - C2) * y1) ((1 + C2) * c2 * (y2 - (1 + C1) * c1 * y1))
    have t2 := abs_sub y2 ((1 + C1) * c1 * y1)
    rw [abs_mul, abs_mul ((1 + C2) * c2)] at t1
    rw [abs_mul ((1 + C1) * c1)] at t2
    have t3 := mul_le_mul_of_nonneg_left h1 (abs_nonneg ((1 + C1) * c1))
    have t4 := mul_le_mul_of_nonneg_left (t2.trans (add_le_add h2 t3)) (abs_nonneg ((1 + C2) * c2))
    have t5 := mul_le_mul_of_nonneg_left h1 (abs_nonneg (l - C2))
    nlinarith
  | succ n ih =>
    intro s hs hr hy
    obtain ⟨s', y1, y2, hs', hr', hp, e1, e2, e3, e4⟩ := key s hs hr
    rw [hp] at hy
    have h := ih s' hs' hr' fun y h => hy y (by simp [h])
    have e : (l - C2) * s'.z1 - (1 + C2) * c2 * s'.z2 = -l * ((l - C2) * s.z1 - (1 + C2) * c2 * s.z2) := by
      rw [e3, e4]; linear_combination (-s.z1) * hchar
    rw [e, abs_mul, abs_neg, abs_of_pos (by linarith : 0 < l)] at h
    rw [pow_succ]
    linarith

/-- **C107 negation**: at higher resonances the cutoff must not be moved at will. Let one cutoff lie below a quarter of the sample rate and one
above, with `tan ω₁ |tan ω₂| < 4 Q²`. A new filter that is given a single click and then silence, and whose cutoff goes to and fro between
the two from sample to sample, exceeds every bound. -/
theorem C107_explodes (sr f1 f2 r : ℝ) (hsr : 2.1 ≤ sr) (a0 : 1 ≤ f1) (a1 : f1 ≤ 0.495 * sr) (b0 : 1 ≤ f2) (b1 : f2 ≤ 0.495 * sr)
    (r0 : 1 / 10 ≤ r) (r1 : r ≤ 30) (high : Real.cos (radians f2 sr) < 0)
    (h : Real.sin (radians f1 sr) * Real.sin (radians f2 sr) < 4 * r ^ 2 * (Real.cos (radians f1 sr) * -Real.cos (radians f2 sr))) (B : ℝ) :
    ∃ n, ∃ y ∈ played (init sr) (.setResonance r :: .setFreq f1 :: .tick 1 :: .setFreq f2 :: .tick 0 :: wobble f1 f2 n), B < |y| := by
  by_contra hc
  push Not at hc
  have rp : 0 < r := by linarith
  set s0 := setResonance r (init (β := ℝ) sr) with hs0
  have rr : s0.resonance = r := by
    simp only [hs0, setResonance, updateCoefficients, real_arith]
    rw [if_neg (by push_cast; linarith), if_neg (by push_cast; linarith)]
  have u := kept_setFreq hsr f1 (s := s0) rfl (rr ▸ r0) (rr ▸ r1)
  set s1 := setFreq f1 s0 with hs1
  have fr1 : s1.freq = f1 := setFreq_inside a0 a1 rfl
  have sn1 := u.sin_pos
  have u1 := u.shape
  have rr1 : s1.resonance = r := rr
  rw [fr1] at sn1 u1
  rw [rr1] at u1
  have v := kept_setFreq hsr f2 (s := (tick s1 1).1) rfl (by change 1 / 10 ≤ s0.resonance; exact rr ▸ r0) (by change s0.resonance ≤ 30; exact rr ▸ r1)
  set s2 := setFreq f2 (tick s1 1).1 with hs2
  have fr2 : s2.freq = f2 := setFreq_inside b0 b1 rfl
  have sn2 := v.sin_pos
  have v1 := v.shape
  have rr2 : s2.resonance = r := rr
  rw [fr2] at sn2 v1
  rw [rr2] at v1
  set s3 := (tick s2 0).1 with hs3
  have pump := fun l n h1 h2 => pumping (l := l) (B := B) hsr a0 a1 b0 b1 r0 r1 h1 h2 n s3 rfl rr fun y hy =>
    hc (n + 1) y (by simp only [played, List.mem_cons]; exact Or.inr (Or.inr hy))
  obtain ⟨t1, t2, t3⟩ := tick_shape u1 1
  obtain ⟨v1', v2, v3⟩ := tick_shape v1 0
  have z1 : s2.z1 = (tick s1 1).1.z1 := rfl
  have z2 : s2.z2 = (tick s1 1).1.z2 := rfl
  have y1 : s1.z1 = 0 := by simp [hs1, hs0, setFreq, setResonance, init, updateCoefficients, real_arith]
  have y2 : s1.z2 = 0 := by simp [hs1, hs0, setFreq, setResonance, init, updateCoefficients, real_arith]
  obtain ⟨d0, d1, d2, -, -⟩ := u1
  rw [y1, y2, d0, d1] at t2
  rw [y1, d0, d2] at t3
  rw [z1, z2, t2, t3] at v2
  rw [z1, t2] at v3
  have cc := Real.cos_lt_cos_of_nonneg_of_le_pi le_rfl (fr1 ▸ u.w1.le) (fr1 ▸ u.w0)
  rw [Real.cos_zero] at cc
  have e1 : 1 - poles (radians f1 sr) r = Real.sin (radians f1 sr) / (2 * r) * (1 + poles (radians f1 sr) r) := by
    unfold poles
    have : 0 < Real.sin (radians f1 sr) / (2 * r) := by positivity
    generalize Real.sin (radians f1 sr) / (2 * r) = a at *
    field_simp; ring
  have e2 : 1 - poles (radians f2 sr) r = Real.sin (radians f2 sr) / (2 * r) * (1 + poles (radians f2 sr) r) := by
    unfold poles
    have : 0 < Real.sin (radians f2 sr) / (2 * r) := by positivity
    generalize Real.sin (radians f2 sr) / (2 * r) = a at *
    field_simp; ring
  have p1 := poles_range sn1 r0 r1
  have p2 := poles_range sn2 r0 r1
  have P1 : 0 < 1 + poles (radians f1 sr) r := by linarith [(abs_le.1 p1).1]
  have P2 : 0 < 1 + poles (radians f2 sr) r := by linarith [(abs_le.1 p2).1]
  have P2' : poles (radians f2 sr) r < 1 := by linarith [(abs_le.1 p2).2]
  have prod : (1 - poles (radians f1 sr) r) * (1 - poles (radians f2 sr) r) <
      -((1 + poles (radians f1 sr) r) * Real.cos (radians f1 sr) * ((1 + poles (radians f2 sr) r) * Real.cos (radians f2 sr))) := by
    rw [e1, e2]
    have h' : Real.sin (radians f1 sr) / (2 * r) * (Real.sin (radians f2 sr) / (2 * r)) < Real.cos (radians f1 sr) * -Real.cos (radians f2 sr) := by
      rw [div_mul_div_comm, div_lt_iff₀ (by positivity)]; linarith
    have := mul_lt_mul_of_pos_right h' (mul_pos P1 P2)
    linarith
  obtain ⟨l, l1, hl⟩ := growth_exists prod
  have pump := fun n => pump l n l1 hl
  rw [v2, v3] at pump
  generalize poles (radians f1 sr) r = C1 at *
  generalize poles (radians f2 sr) r = C2 at *
  generalize Real.cos (radians f1 sr) = c1 at *
  generalize Real.cos (radians f2 sr) = c2 at *
  generalize (|l - C2| + |(1 + C2) * c2| * (1 + |(1 + C1) * c1|)) * B = K at pump
  have nz : 0 < |(l - C2) * ((1 + C2) * c2 * ((1 + C1) * c1 * 0 + 0 + ((1 - c1) * (1 + C1) / 2 + (1 + C1) * c1 * ((1 - c1) * (1 + C1) / 4)) * 1) +
      (-C1 * 0 + ((1 - c1) * (1 + C1) / 4 - C1 * ((1 - c1) * (1 + C1) / 4)) * 1) + (s2.b1 + (1 + C2) * c2 * s2.b0) * 0) - (1 + C2) * c2 *
      (-C2 * ((1 + C1) * c1 * 0 + 0 + ((1 - c1) * (1 + C1) / 2 + (1 + C1) * c1 * ((1 - c1) * (1 + C1) / 4)) * 1) + (s2.b2 - C2 * s2.b0) * 0)| := by
    have : (l - C2) * ((1 + C2) * c2 * ((1 + C1) * c1 * 0 + 0 + ((1 - c1) * (1 + C1) / 2 + (1 + C1) * c1 * ((1 - c1) * (1 + C1) / 4)) * 1) +
      (-C1 * 0 + ((1 - c1) * (1 + C1) / 4 - C1 * ((1 - c1) * (1 + C1) / 4)) * 1) + (s2.b1 + (1 + C2) * c2 * s2.b0) * 0) - (1 + C2) * c2 *
      (-C2 * ((1 + C1) * c1 * 0 + 0 + ((1 - c1) * (1 + C1) / 2 + (1 + C1) * c1 * ((1 - c1) * (1 + C1) / 4)) * 1) + (s2.b2 - C2 * s2.b0) * 0) =
      -((1 - c1) * (1 + C1) / 4 * ((l - C2) * (l - 1) + 2 * l * ((1 + C2) * -c2))) := by
      linear_combination (-((1 - c1) * (1 + C1) / 4)) * hl
    rw [this, abs_neg]
    have q1 : 0 < (1 - c1) * (1 + C1) / 4 := by have := sub_pos.2 cc; positivity
    have q2 : 0 < (l - C2) * (l - 1) := mul_pos (by linarith) (by linarith)
    have q3 : 0 < (1 + C2) * -c2 := mul_pos P2 (by linarith)
    have q4 : 0 < 2 * l * ((1 + C2) * -c2) := by have : 0 < l := by linarith
                                                 positivity
    exact abs_pos.2 (by positivity)
  have done : ∀ A : ℝ, 0 < A → (∀ n : ℕ, l ^ n * A ≤ K) → False := fun A nz pump => by
    obtain ⟨n, hn⟩ := pow_unbounded_of_one_lt (K / A) l1
    rw [div_lt_iff₀ nz] at hn
    exact absurd (pump n) (not_le.2 hn)
  exact done _ nz pump

/-- **C107 negation**, for ordinary settings: with the resonance a new filter has, or any higher one, every cutoff below a tenth and every cutoff
above four tenths of the sample rate will do. -/
theorem C107_explodes_butterworth (sr f1 f2 r : ℝ) (a0 : 1 ≤ f1) (a1 : f1 ≤ 0.1 * sr) (b0 : 0.4 * sr ≤ f2) (b1 : f2 ≤ 0.495 * sr)
    (r0 : 0.707 ≤ r) (r1 : r ≤ 30) (B : ℝ) :
    ∃ n, ∃ y ∈ played (init sr) (.setResonance r :: .setFreq f1 :: .tick 1 :: .setFreq f2 :: .tick 0 :: wobble f1 f2 n), B < |y| := by
  have hs : 10 ≤ sr := by linarith
  have hp := Real.pi_gt_d20
  have hp' := Real.pi_lt_d20
  have w1 : radians f1 sr < Real.pi / 4 := by
    rw [radians, div_lt_iff₀ (by linarith)]; nlinarith
  have w1' : 0 < radians f1 sr := by unfold radians; have : 0 < f1 := by linarith
                                     have : 0 < sr := by linarith
                                     positivity
  have w2 : 3 * Real.pi / 4 < radians f2 sr := by
    rw [radians, lt_div_iff₀ (by linarith)]; nlinarith
  have w2' : radians f2 sr < Real.pi := (radians_range (by linarith) (by linarith)).2
  have h1 : Real.sin (radians f1 sr) ≤ Real.cos (radians f1 sr) := by
    rw [← Real.sin_pi_div_two_sub]
    exact Real.sin_le_sin_of_le_of_le_pi_div_two (by linarith) (by linarith) (by linarith)
  have h2 : Real.sin (radians f2 sr) ≤ -Real.cos (radians f2 sr) := by
    rw [← Real.sin_pi_sub, ← Real.cos_pi_sub, ← Real.sin_pi_div_two_sub]
    exact Real.sin_le_sin_of_le_of_le_pi_div_two (by linarith) (by linarith) (by linarith)
  have p1 : 0 < Real.sin (radians f1 sr) := Real.sin_pos_of_pos_of_lt_pi w1' (by linarith)
  have p2 : 0 < Real.sin (radians f2 sr) := Real.sin_pos_of_pos_of_lt_pi (by linarith) w2'
  refine C107_explodes sr f1 f2 r (by linarith) a0 (by linarith) (by linarith) b1 (by linarith) r1 (by linarith) ?_ B
  have m := mul_le_mul h1 h2 p2.le (by linarith)
  have m0 := mul_pos p1 p2
  have : 1 < 4 * r ^ 2 := by nlinarith
  nlinarith

/-- A filter at 48 kHz between 1 kHz and 20 kHz. -/
example : ∃ n, ∃ y ∈ played (init 48000) (.setResonance 0.707 :: .setFreq 1000 :: .tick 1 :: .setFreq 20000 :: .tick 0 :: wobble 1000 20000 n), 1000000 < |y| :=
  C107_explodes_butterworth 48000 1000 20000 0.707 (by norm_num) (by norm_num) (by norm_num) (by norm_num) (by norm_num) (by norm_num) _

end Verif.RLPF
