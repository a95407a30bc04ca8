import Verif.Float.Near64
import Verif.Props.KrajeskiFloat
import Verif.Props.MicrotrackerRes

/-!
# C51: the Microtracker ladder in the arithmetic it is computed in

The energy argument of `MicrotrackerRes` with every rounding. A rounding error of a stage acts like a small extra input, because a coefficient
that is not zero is at least `2^-30`.
-/

namespace Verif.Microtracker
open FP

/-- The real number a double stands for. -/
local notation "⟪" x "⟫" => ((FP.val x : ℚ) : ℝ)

theorem near_of_range {x : F64} {a e : ℚ} (h : x.In (a - e) (a + e)) : Near64 x (a : ℝ) (e : ℝ) := by
  refine ⟨h.1, ?_⟩
  have : |x.val - a| ≤ e := abs_le.2 ⟨by linarith [h.2.1], by linarith [h.2.2]⟩
  exact_mod_cast this

theorem near64_in {x : F64} {r e A : ℝ} (h : Near64 x r e) (hr : |r| ≤ A) {u : ℝ} (hu : A + e ≤ u) : |⟪x⟫| ≤ u := (h.abs_le hr).trans hu

/-! ### One stage -/

theorem fastTanh_abs {x A : ℝ} (h : |x| ≤ A) : |fastTanh x| ≤ A / 9 + 0.77 := by
  have h1 := abs_le.1 (fastTanh_ninth x)
  have h2 := abs_le.1 h
  rw [abs_le]
  constructor <;> linarith [h1.1, h1.2, h2.1, h2.2]

/-- The saturation curve, rounded. -/
theorem fastTanh_near {x : F64} (hx : x.isFin = true) (h : |⟪x⟫| ≤ 2 ^ 12) : Near64 (fastTanh x) (fastTanh ⟪x⟫) (1 / 2 ^ 12) := by
  have n27 : Near64 (lit 27 : F64) 27 0 := by have := Near64.of_in (x := (lit 27 : F64)) (v := 27) (by decide +kernel); simpa using this
  have n9 : Near64 (lit 9 : F64) 9 0 := by have := Near64.of_in (x := (lit 9 : F64)) (v := 9) (by decide +kernel); simpa using this
  have hf := fastTanh_abs h
  rw [fastTanh_real] at hf ⊢
  have self := Near64.self hx
  generalize hv : ⟪x⟫ = v at *
  have v2 : v * v ≤ 2 ^ 24 := by
    have := abs_le.1 h
    nlinarith [this.1, this.2]
  have v0 : 0 ≤ v * v := mul_self_nonneg v
  have a1 : Near64 (x * x) (v * v) (1 / 2 ^ 28) := (self.mul self h h (by norm_num)).mono (by norm_num)
  have a2 : Near64 (lit 27 + x * x) (27 + v * v) (1 / 2 ^ 27) :=
    (n27.add a1 (A := 2 ^ 24 + 27) (by rw [abs_of_nonneg (by linarith)]; linarith) (by norm_num)).mono (by norm_num)
  have a3 : Near64 (x * (lit 27 + x * x)) (v * (27 + v * v)) (1 / 2 ^ 14) :=
    (self.mul a2 h (T := 2 ^ 24 + 27) (by rw [abs_of_nonneg (by linarith)]; linarith) (by norm_num)).mono (by norm_num)
  have a4 : Near64 (lit 9 * (x * x)) (9 * (v * v)) (1 / 2 ^ 24) :=
    (n9.mul a1 (A := 9) (by norm_num) (T := 2 ^ 24) (by rw [abs_of_nonneg v0]; exact v2) (by norm_num)).mono (by norm_num)
  have a5 : Near64 (lit 27 + lit 9 * (x * x)) (27 + 9 * (v * v)) (1 / 2 ^ 23) :=
    (n27.add a4 (A := 2 ^ 28) (by rw [abs_of_nonneg (by linarith)]; linarith) (by norm_num)).mono (by norm_num)
  have e : v * (27 + v ^ 2) / (27 + 9 * v ^ 2) = v * (27 + v * v) / (27 + 9 * (v * v)) := by rw [sq]
  rw [e] at hf ⊢
  exact (a3.div a5 (by linarith) (by norm_num) (A := 457) (hf.trans (by norm_num)) (by norm_num)).mono (by norm_num)

/-- The coefficient: zero, or large enough for the rounding errors to count as inputs. -/
structure Pace (c : F64) : Prop where
  fin : c.isFin = true
  lo : c.val = 0 ∨ 1 / 2 ^ 30 ≤ c.val
  hi : c.val ≤ 1

/-- A rounded stage moves towards its input, up to a bounded disturbance. -/
theorem stage_near {X p c : F64} (fX : X.isFin = true) (hX : |⟪X⟫| ≤ 2 ^ 12) (fp : p.isFin = true) (hp : |⟪p⟫| ≤ 2 ^ 11) (hc : Pace c) :
    (p + (fastTanh X - fastTanh p) * c).isFin = true ∧ |⟪p + (fastTanh X - fastTanh p) * c⟫| ≤ 2 ^ 12 ∧
    ∃ e : ℝ, |e| ≤ 13.87 ∧ ⟪p + (fastTanh X - fastTanh p) * c⟫ - ⟪p⟫ =
      ⟪c⟫ / (9 - ⟪c⟫) * (⟪X⟫ + e - ⟪p + (fastTanh X - fastTanh p) * c⟫) := by
  have t1 := fastTanh_near fX hX
  have t2 := fastTanh_near fp (hp.trans (by norm_num))
  have b1 := fastTanh_abs hX
  have b2 := fastTanh_abs hp
  have hd : |fastTanh ⟪X⟫ - fastTanh ⟪p⟫| ≤ 686 := (abs_sub _ _).trans (by norm_num at *; linarith)
  have D : Near64 (fastTanh X - fastTanh p) (fastTanh ⟪X⟫ - fastTanh ⟪p⟫) 0.0005 := (t1.sub t2 hd (by norm_num)).mono (by norm_num)
  have c1 : ⟪c⟫ ≤ 1 := by exact_mod_cast hc.hi
  obtain ⟨e, he, hs⟩ := stage_drive c1 ⟪X⟫ ⟪p⟫
  generalize fastTanh ⟪X⟫ - fastTanh ⟪p⟫ = d at *
  generalize fastTanh X - fastTanh p = Y at *
  rcases hc.lo with c0 | c0
  · have z : (Y * c).In 0 0 := mul_in D.1 hc.fin rep_zero rep_zero (by rw [c0]; simp) (by rw [c0]; simp)
    have q : (p + Y * c).In p.val p.val :=
      add_in (in_val fp) z (rep_val _) (rep_val _) (by simp) (by simp)
    have eq := q.val_eq
    refine ⟨q.1, ?_, 0, by norm_num, ?_⟩
    · rw [eq]; exact hp.trans (by norm_num)
    · rw [eq, c0]; simp
  · have c0' : (1:ℝ) / 2 ^ 30 ≤ ⟪c⟫ := by
      have : ((1 / 2 ^ 30 : ℚ) : ℝ) ≤ ⟪c⟫ := by exact_mod_cast c0
      simpa using this
    have cp : 0 < ⟪c⟫ := lt_of_lt_of_le (by positivity) c0'
    have m : Near64 (Y * c) (d * ⟪c⟫) (0.00051 * ⟪c⟫ + 1 / 2 ^ 250) := by
      refine (Near64.rounded (q := Y.val * c.val) (r := d * ⟪c⟫) (A := 686 * ⟪c⟫) (η := 0.0005 * ⟪c⟫) (fun k => mul64 D.1 hc.fin k) ?_ ?_ ?_).mono ?_
      · rw [abs_mul, abs_of_pos cp]; exact mul_le_mul_of_nonneg_right hd cp.le
      · push_cast
        rw [← sub_mul, abs_mul, abs_of_pos cp]
        exact mul_le_mul_of_nonneg_right D.2 cp.le
      · norm_num; linarith
      · norm_num at *; linarith
    have hm : |d * ⟪c⟫| ≤ 686 := by
      rw [abs_mul, abs_of_pos cp]
      calc |d| * ⟪c⟫ ≤ 686 * 1 := mul_le_mul hd c1 cp.le (by norm_num)
        _ = 686 := by norm_num
    have P : Near64 (p + Y * c) (⟪p⟫ + d * ⟪c⟫) (0.00051 * ⟪c⟫ + 1 / 2 ^ 41) := by
      refine ((Near64.self fp).add m (A := 2734) ((abs_add_le _ _).trans (by norm_num at *; linarith)) ?_).mono ?_
      · norm_num at *; linarith
      · norm_num at *; linarith
    generalize p + Y * c = Z at *
    refine ⟨P.1, near64_in P (A := 2734) ((abs_add_le _ _).trans (by norm_num at *; linarith)) (by norm_num at *; linarith), ?_⟩
    obtain ⟨ρ, hρ⟩ : ∃ ρ, ρ = ⟪Z⟫ - (⟪p⟫ + d * ⟪c⟫) := ⟨_, rfl⟩
    have hr := P.2
    rw [← hρ] at hr
    have hZ : ⟪Z⟫ = ⟪p⟫ + d * ⟪c⟫ + ρ := by rw [hρ]; ring
    refine ⟨e + ρ * 9 / ⟪c⟫, ?_, ?_⟩
    · refine (abs_add_le _ _).trans ?_
      have : |ρ * 9 / ⟪c⟫| ≤ 0.01 := by
        rw [abs_div, abs_mul, abs_of_pos cp, div_le_iff₀ cp]
        norm_num at *
        linarith
      linarith
    · have n9 : (9 - ⟪c⟫) ≠ 0 := by linarith
      have k : ⟪c⟫ / (9 - ⟪c⟫) * (ρ * 9 / ⟪c⟫ - ρ) = ρ := by
        have := cp.ne'
        field_simp
      rw [hZ]
      linear_combination hs - k

/-! ### The output -/

/-- The output before conversion, in real numbers. -/
def tap (a b c d : ℝ) : ℝ := a * 0.360891 + b * 0.417290 + c * 0.177896 + d * 0.0439725

theorem tap_abs {a b c d B : ℝ} (ha : |a| ≤ B) (hb : |b| ≤ B) (hc : |c| ≤ B) (hd : |d| ≤ B) : |tap a b c d| ≤ 1.0000495 * B := by
  have a := abs_le.1 ha
  have b := abs_le.1 hb
  have c := abs_le.1 hc
  have d := abs_le.1 hd
  unfold tap
  rw [abs_le]
  norm_num at *
  constructor <;> linarith

theorem weight {p w : F64} {r : ℝ} (fp : p.isFin = true) (hp : |⟪p⟫| ≤ 2 ^ 11) (hw : Near64 w r (1 / 2 ^ 53)) (r1 : |r| ≤ 1) :
    Near64 (p * w) (⟪p⟫ * r) (1 / 2 ^ 40) :=
  ((Near64.self fp).mul hw hp r1 (by norm_num)).mono (by norm_num)

theorem tap_near {a b c d : F64} (fa : a.isFin = true) (fb : b.isFin = true) (fc : c.isFin = true) (fd : d.isFin = true) (ha : |⟪a⟫| ≤ 2 ^ 11)
    (hb : |⟪b⟫| ≤ 2 ^ 11) (hc : |⟪c⟫| ≤ 2 ^ 11) (hd : |⟪d⟫| ≤ 2 ^ 11) :
    Near64 (a * lit 0.360891 + b * lit 0.417290 + c * lit 0.177896 + d * lit 0.0439725) (tap ⟪a⟫ ⟪b⟫ ⟪c⟫ ⟪d⟫) (1 / 2 ^ 37) := by
  have l1 : Near64 (lit 0.360891 : F64) 0.360891 (1 / 2 ^ 53) := by
    have := near_of_range (x := (lit 0.360891 : F64)) (a := 0.360891) (e := 1 / 2 ^ 53) (by decide +kernel); push_cast at this; exact this
  have l2 : Near64 (lit 0.417290 : F64) 0.417290 (1 / 2 ^ 53) := by
    have := near_of_range (x := (lit 0.417290 : F64)) (a := 0.417290) (e := 1 / 2 ^ 53) (by decide +kernel); push_cast at this; exact this
  have l3 : Near64 (lit 0.177896 : F64) 0.177896 (1 / 2 ^ 53) := by
    have := near_of_range (x := (lit 0.177896 : F64)) (a := 0.177896) (e := 1 / 2 ^ 53) (by decide +kernel); push_cast at this; exact this
  have l4 : Near64 (lit 0.0439725 : F64) 0.0439725 (1 / 2 ^ 53) := by
    have := near_of_range (x := (lit 0.0439725 : F64)) (a := 0.0439725) (e := 1 / 2 ^ 53) (by decide +kernel); push_cast at this; exact this
  have w1 := weight fa ha l1 (by norm_num)
  have w2 := weight fb hb l2 (by norm_num)
  have w3 := weight fc hc l3 (by norm_num)
  have w4 := weight fd hd l4 (by norm_num)
  have k1 := abs_le.1 ha
  have k2 := abs_le.1 hb
  have k3 := abs_le.1 hc
  have k4 := abs_le.1 hd
  have s2 := (w1.add w2 (A := 2 ^ 12) (by rw [abs_le]; norm_num at *; constructor <;> linarith) (by norm_num)).mono
    (show _ ≤ (1:ℝ) / 2 ^ 39 + 1 / 2 ^ 40 by norm_num)
  have s3 := (s2.add w3 (A := 2 ^ 12) (by rw [abs_le]; norm_num at *; constructor <;> linarith) (by norm_num)).mono
    (show _ ≤ (1:ℝ) / 2 ^ 38 + 1 / 2 ^ 39 by norm_num)
  exact (s3.add w4 (A := 2 ^ 12) (by rw [abs_le]; norm_num at *; constructor <;> linarith) (by norm_num)).mono (by norm_num)

/-- The conversion of the output to single precision. -/
theorem conv_down {z : F64} {u v : ℚ} (hz : z.isFin = true) (h : |z.val| ≤ u) (hu : u * (1 + 1 / 2 ^ 20) + 1 / 2 ^ 100 ≤ v) (hv : v ≤ 2 ^ 100) :
    (Conv.conv z : F32).isFin = true ∧ |(Conv.conv z : F32).val| ≤ v := by
  obtain ⟨q, n, hq, rfl⟩ := isFin_cases hz
  change |q| ≤ u at h
  show (ofRat q n : F32).isFin = true ∧ |(ofRat q n : F32).val| ≤ v
  have u0 : 0 ≤ u := (abs_nonneg q).trans h
  have R : binary32.Rep (2 ^ 100) false := rep_two_pow (by norm_num)
  have hq2 : |q| ≤ 2 ^ 100 := by
    have : 0 ≤ u * (1 / 2 ^ 20) := by positivity
    have : (0:ℚ) ≤ 1 / 2 ^ 100 := by positivity
    linarith
  obtain ⟨l, r⟩ := abs_le.1 hq2
  have hin := ofRat_in (f := binary32) (zs := n) (Rep.neg R) R l r
  have hv2 := ofRat_val (f := binary32) (zs := n) (Rep.neg R) R l r
  refine ⟨hin.1, ?_⟩
  have h2 := binary32.rnd_rel_err (K := ℚ) q
  simp only [Rat.cast_id] at h2
  rw [← hv2] at h2
  have e1 : (2:ℚ) ^ (-(binary32.prec : ℤ)) ≤ 1 / 2 ^ 20 := by
    have e : (1:ℚ) / 2 ^ 20 = 2 ^ (-20 : ℤ) := by norm_num
    rw [e]; exact zpow_le_zpow_right₀ (by norm_num) (by decide)
  have e2 : (2:ℚ) ^ (binary32.emin - 1) ≤ 1 / 2 ^ 100 := by
    have e : (1:ℚ) / 2 ^ 100 = 2 ^ (-100 : ℤ) := by norm_num
    rw [e]; exact zpow_le_zpow_right₀ (by norm_num) (by decide)
  have h3 := abs_sub_abs_le_abs_sub (ofRat q n : F32).val q
  rw [abs_sub_comm] at h2
  have h4 := mul_le_mul h e1 (by positivity) u0
  linarith

/-! ### One tick -/

/-- The invariant. -/
structure LoudF (sr : F32) (R B : ℝ) (s : Ladder F32 F64) : Prop where
  rate : s.sampleRate = sr
  res : s.resonance.In 0 (1 / 2)
  pace : Pace s.cutoffCoeff
  f0 : s.p0.isFin = true
  f1 : s.p1.isFin = true
  f2 : s.p2.isFin = true
  f3 : s.p3.isFin = true
  f32 : s.p32.isFin = true
  f33 : s.p33.isFin = true
  f34 : s.p34.isFin = true
  en : energy ⟪s.p0⟫ ⟪s.p1⟫ ⟪s.p2⟫ ⟪s.p3⟫ (⟪s.p3⟫ - ⟪s.p32⟫) (⟪s.p32⟫ - ⟪s.p33⟫) (⟪s.p33⟫ - ⟪s.p34⟫) ≤ R
  p32 : |⟪s.p32⟫| ≤ B
  p33 : |⟪s.p33⟫| ≤ B
  p34 : |⟪s.p34⟫| ≤ B

theorem stages_le {R p0 p1 p2 p3 d1 d2 d3 : ℝ} (hR : R ≤ 20 * (2 ^ 11) ^ 2) (h : energy p0 p1 p2 p3 d1 d2 d3 ≤ R) :
    |p0| ≤ 2 ^ 11 ∧ |p1| ≤ 2 ^ 11 ∧ |p2| ≤ 2 ^ 11 ∧ |p3| ≤ 2 ^ 11 := by
  unfold energy at h
  have a := sq_nonneg p0
  have b := sq_nonneg p1
  have c := sq_nonneg p2
  have d := sq_nonneg p3
  have x := sq_nonneg d1
  have y := sq_nonneg d2
  have z := sq_nonneg d3
  refine ⟨?_, ?_, ?_, ?_⟩ <;> refine abs_le_of_sq_le_sq ?_ (by norm_num) <;> linarith

theorem drive_near {k o x : F64} {t M B : ℝ} (fk : k.isFin = true) (k0 : 0 ≤ ⟪k⟫) (k1 : ⟪k⟫ ≤ 2) (ho : Near64 o t (1 / 2 ^ 37))
    (ht : |t| ≤ 1.0000495 * B) (hB : B ≤ 1185) (fx : x.isFin = true) (hx : |⟪x⟫| ≤ M) (hM : M ≤ 16) :
    Near64 (x - k * o) (⟪x⟫ - ⟪k⟫ * t) (1 / 2 ^ 34) ∧ |⟪x - k * o⟫| ≤ 2 ^ 12 := by
  have hk : |⟪k⟫| ≤ 2 := by rwa [abs_of_nonneg k0]
  have ht' : |t| ≤ 1186 := ht.trans (by norm_num at *; linarith)
  have m : Near64 (k * o) (⟪k⟫ * t) (1 / 2 ^ 35) := ((Near64.self fk).mul ho hk ht' (by norm_num)).mono (by norm_num)
  have hm : |⟪k⟫ * t| ≤ 2372 := by
    rw [abs_mul]
    calc |⟪k⟫| * |t| ≤ 2 * 1186 := mul_le_mul hk ht' (abs_nonneg _) (by norm_num)
      _ = 2372 := by norm_num
  have hs : |⟪x⟫ - ⟪k⟫ * t| ≤ 2388 := (abs_sub _ _).trans (by linarith)
  have n : Near64 (x - k * o) (⟪x⟫ - ⟪k⟫ * t) (1 / 2 ^ 34) := ((Near64.self fx).sub m hs (by norm_num)).mono (by norm_num)
  exact ⟨n, near64_in n hs (by norm_num)⟩

/-- What a tick does to the four stages. -/
theorem tick_stages {sr : F32} {R B M : ℝ} (hR : R ≤ 20 * (2 ^ 11) ^ 2) (hB : R ≤ 50 * B ^ 2) (B0 : 0 ≤ B) (B1 : B ≤ 1185) (hM : M ≤ 16)
    (s : Ladder F32 F64) (x : F32) (fx : x.isFin = true) (hx : |⟪x⟫| ≤ M) (h : LoudF sr R B s) :
    ((tick s x).1.p0.isFin = true ∧ (tick s x).1.p1.isFin = true ∧ (tick s x).1.p2.isFin = true ∧ (tick s x).1.p3.isFin = true) ∧
    ∃ k e0 e1 e2 e3 : ℝ, 0 ≤ k ∧ k ≤ 2 ∧ |e0| ≤ 13.88 ∧ |e1| ≤ 13.87 ∧ |e2| ≤ 13.87 ∧ |e3| ≤ 13.87 ∧
      ⟪(tick s x).1.p0⟫ - ⟪s.p0⟫ = ⟪s.cutoffCoeff⟫ / (9 - ⟪s.cutoffCoeff⟫) * (⟪x⟫ - k * tap ⟪s.p3⟫ ⟪s.p32⟫ ⟪s.p33⟫ ⟪s.p34⟫ + e0 - ⟪(tick s x).1.p0⟫) ∧
      ⟪(tick s x).1.p1⟫ - ⟪s.p1⟫ = ⟪s.cutoffCoeff⟫ / (9 - ⟪s.cutoffCoeff⟫) * (⟪(tick s x).1.p0⟫ + e1 - ⟪(tick s x).1.p1⟫) ∧
      ⟪(tick s x).1.p2⟫ - ⟪s.p2⟫ = ⟪s.cutoffCoeff⟫ / (9 - ⟪s.cutoffCoeff⟫) * (⟪(tick s x).1.p1⟫ + e2 - ⟪(tick s x).1.p2⟫) ∧
      ⟪(tick s x).1.p3⟫ - ⟪s.p3⟫ = ⟪s.cutoffCoeff⟫ / (9 - ⟪s.cutoffCoeff⟫) * (⟪(tick s x).1.p2⟫ + e3 - ⟪(tick s x).1.p3⟫) := by
  obtain ⟨q0, q1, q2, q3⟩ := stages_le hR h.en
  have l3 := last_le B0 hB h.en
  have hb : ∀ {y : ℝ}, |y| ≤ B → |y| ≤ 2 ^ 11 := fun h => h.trans (by norm_num; linarith)
  have ho := tap_near h.f3 h.f32 h.f33 h.f34 q3 (hb h.p32) (hb h.p33) (hb h.p34)
  have ht := tap_abs l3 h.p32 h.p33 h.p34
  have h4 : (lit 4 : F32).In 4 4 := by decide +kernel
  have hk : (s.resonance * lit 4 : F32).In 0 2 := by
    refine mul_in h.res.1 h4.1 rep_zero (by decide +kernel) ?_ ?_ <;> rw [h4.val_eq] <;> linarith [h.res.2.1, h.res.2.2]
  have hK := conv_up hk.1
  have k0 : (0:ℝ) ≤ ⟪(Conv.conv (s.resonance * lit 4) : F64)⟫ := by rw [hK.val_eq]; exact_mod_cast hk.2.1
  have k1 : ⟪(Conv.conv (s.resonance * lit 4) : F64)⟫ ≤ 2 := by rw [hK.val_eq]; exact_mod_cast hk.2.2
  have hX := conv_up fx
  have xv : |⟪(Conv.conv x : F64)⟫| ≤ M := by rw [hX.val_eq]; exact hx
  obtain ⟨n, nb⟩ := drive_near hK.1 k0 k1 ho ht B1 hX.1 xv hM
  obtain ⟨a0, b0, e0, c0, d0⟩ := stage_near n.1 nb h.f0 q0 h.pace
  obtain ⟨a1, b1, e1, c1, d1⟩ := stage_near (X := (tick s x).1.p0) (p := s.p1) a0 b0 h.f1 q1 h.pace
  obtain ⟨a2, b2, e2, c2, d2⟩ := stage_near (X := (tick s x).1.p1) (p := s.p2) a1 b1 h.f2 q2 h.pace
  obtain ⟨a3, b3, e3, c3, d3⟩ := stage_near (X := (tick s x).1.p2) (p := s.p3) a2 b2 h.f3 q3 h.pace
  refine ⟨⟨a0, a1, a2, a3⟩, ⟪(Conv.conv (s.resonance * lit 4) : F64)⟫, e0 + (⟪(Conv.conv x : F64) - Conv.conv (s.resonance * lit 4) *
    (s.p3 * lit 0.360891 + s.p32 * lit 0.417290 + s.p33 * lit 0.177896 + s.p34 * lit 0.0439725)⟫ -
    (⟪(Conv.conv x : F64)⟫ - ⟪(Conv.conv (s.resonance * lit 4) : F64)⟫ * tap ⟪s.p3⟫ ⟪s.p32⟫ ⟪s.p33⟫ ⟪s.p34⟫)), e1, e2, e3, k0, k1, ?_, c1, c2, c3,
    ?_, d1, d2, d3⟩
  · refine (abs_add_le _ _).trans ?_
    have := n.2
    norm_num at *
    linarith
  · have e : ⟪(Conv.conv x : F64)⟫ = ⟪x⟫ := by rw [hX.val_eq]
    have d0' : ⟪(tick s x).1.p0⟫ - ⟪s.p0⟫ = ⟪s.cutoffCoeff⟫ / (9 - ⟪s.cutoffCoeff⟫) * (⟪(Conv.conv x : F64) - Conv.conv (s.resonance * lit 4) *
      (s.p3 * lit 0.360891 + s.p32 * lit 0.417290 + s.p33 * lit 0.177896 + s.p34 * lit 0.0439725)⟫ + e0 - ⟪(tick s x).1.p0⟫) := d0
    rw [e, d0']
    generalize ⟪(Conv.conv x : F64) - Conv.conv (s.resonance * lit 4) *
      (s.p3 * lit 0.360891 + s.p32 * lit 0.417290 + s.p33 * lit 0.177896 + s.p34 * lit 0.0439725)⟫ = X
    congr 1
    ring

theorem tick_loudF {sr : F32} {E R B M : ℝ} (hR : R = 127 * (E ^ 2 / 0.045 ^ 2)) (R1 : R ≤ 20 * (2 ^ 11) ^ 2) (hB : R ≤ 50 * B ^ 2) (B0 : 0 ≤ B)
    (B1 : B ≤ 1185) (hM : M ≤ 16) (hE : M + 17.4 ≤ E) (s : Ladder F32 F64) (x : F32) (fx : x.isFin = true) (hx : |⟪x⟫| ≤ M) (h : LoudF sr R B s) :
    LoudF sr R B (tick s x).1 ∧ ∃ z : F64, (tick s x).2 = Conv.conv z ∧ z.isFin = true ∧ |⟪z⟫| ≤ 1.0000495 * B + 1 / 2 ^ 37 := by
  have M0 : 0 ≤ M := (abs_nonneg _).trans hx
  obtain ⟨⟨a0, a1, a2, a3⟩, k, e0, e1, e2, e3, k0, k1, b0, b1, b2, b3, d0, d1, d2, d3⟩ := tick_stages R1 hB B0 B1 hM s x fx hx h
  have q3 := last_le B0 hB h.en
  have l3 := (stages_le R1 h.en).2.2.2
  have hb : ∀ {y : ℝ}, |y| ≤ B → |y| ≤ 2 ^ 11 := fun h => h.trans (by norm_num; linarith)
  have ho := tap_near h.f3 h.f32 h.f33 h.f34 l3 (hb h.p32) (hb h.p33) (hb h.p34)
  refine ⟨⟨h.rate, h.res, h.pace, a0, a1, a2, a3, h.f3, h.f32, h.f33, ?_, q3, h.p32, h.p33⟩, _, rfl, ho.1, ho.abs_le (tap_abs q3 h.p32 h.p33 h.p34)⟩
  have er : tap ⟪s.p3⟫ ⟪s.p32⟫ ⟪s.p33⟫ ⟪s.p34⟫ = 1.0000495 * ⟪s.p3⟫ - 0.6391585 * (⟪s.p3⟫ - ⟪s.p32⟫) - 0.2218685 * (⟪s.p32⟫ - ⟪s.p33⟫) -
      0.0439725 * (⟪s.p33⟫ - ⟪s.p34⟫) := by unfold tap; ring
  have en := h.en
  have c0 : 0 ≤ ⟪s.cutoffCoeff⟫ := by
    have : 0 ≤ s.cutoffCoeff.val := by
      rcases h.pace.lo with h | h
      · exact h.ge
      · exact le_trans (by positivity) h
    exact_mod_cast this
  have c1 : ⟪s.cutoffCoeff⟫ ≤ 1 := by exact_mod_cast h.pace.hi
  have g0 : 0 ≤ ⟪s.cutoffCoeff⟫ / (9 - ⟪s.cutoffCoeff⟫) := div_nonneg c0 (by linarith)
  have g1 : ⟪s.cutoffCoeff⟫ / (9 - ⟪s.cutoffCoeff⟫) ≤ 1 / 8 := by rw [div_le_iff₀ (by linarith)]; linarith
  show energy ⟪(tick s x).1.p0⟫ ⟪(tick s x).1.p1⟫ ⟪(tick s x).1.p2⟫ ⟪(tick s x).1.p3⟫ (⟪(tick s x).1.p3⟫ - ⟪s.p3⟫) (⟪s.p3⟫ - ⟪s.p32⟫)
    (⟪s.p32⟫ - ⟪s.p33⟫) ≤ R
  rw [er] at d0
  generalize ⟪(tick s x).1.p0⟫ = P0 at *
  generalize ⟪(tick s x).1.p1⟫ = P1 at *
  generalize ⟪(tick s x).1.p2⟫ = P2 at *
  generalize ⟪(tick s x).1.p3⟫ = P3 at *
  generalize ⟪s.cutoffCoeff⟫ / (9 - ⟪s.cutoffCoeff⟫) = γ at *
  have E1 : (13.87:ℝ) ≤ E := by linarith
  have w0 : |⟪x⟫ + e0 + k * 1.0000495 * γ * e3| ≤ E := by
    have t1 : k * 1.0000495 * γ ≤ 2.0001 * (1 / 8) := mul_le_mul (by linarith) g1 g0 (by norm_num)
    have t0 : 0 ≤ k * 1.0000495 * γ := by positivity
    have t2 : |k * 1.0000495 * γ * e3| ≤ 2.0001 * (1 / 8) * 13.87 := by
      rw [abs_mul, abs_of_nonneg t0]
      exact mul_le_mul t1 b3 (abs_nonneg _) (by norm_num)
    refine (abs_add_le _ _).trans ?_
    have := abs_add_le ⟪x⟫ e0
    linarith
  have key := energy_step g0 g1 k0 k1 d0 d1 d2 d3 w0 (b1.trans E1) (b2.trans E1) (b3.trans E1)
  rw [← hR] at key
  have pos : 0 < 1 + 0.045 * γ := by positivity
  have : (1 + 0.045 * γ) * energy P0 P1 P2 P3 (P3 - ⟪s.p3⟫) (⟪s.p3⟫ - ⟪s.p32⟫) (⟪s.p32⟫ - ⟪s.p33⟫) ≤ (1 + 0.045 * γ) * R := by linarith
  exact le_of_mul_le_mul_left this pos

/-! ### The settings -/

/-- Calls with inputs up to `M`, cutoffs of zero or of at least `2^-10` Hz, and resonances up to one half. -/
def Tame (M : ℚ) : LadderCall F32 → Prop
  | .setCutoff c => c.isFin = true ∧ (c.val = 0 ∨ 1 / 2 ^ 10 ≤ c.val)
  | .setResonance r => r.isFin = true ∧ r.val ≤ 1 / 2
  | .reset => True
  | .tick x => x.isFin = true ∧ |x.val| ≤ M

instance (M : ℚ) : DecidablePred (Tame M) := fun a => by cases a <;> unfold Tame <;> infer_instance

/-- The coefficient computed by `setCutoff`. -/
theorem pace_of {sr c : F32} (hs : sr.In 1 (2 ^ 22)) (hc : Tame 1 (.setCutoff c)) (s : Ladder F32 F64) (hr : s.sampleRate = sr) :
    Pace (setCutoff c s).cutoffCoeff := by
  obtain ⟨fc, hc⟩ := hc
  have h1 := conv_up fc
  have h2 : (lit 2 : F64).In 2 2 := by decide +kernel
  have h3 : (Conv.conv (PI : F32) : F64).In 2 4 := by decide +kernel
  have h4 := conv_up hs.1
  have one : (lit 1 : F64).In 1 1 := by decide +kernel
  have cm : |c.val| < 2 ^ (128:ℤ) := abs_val_lt c
  have e128 : (2:ℚ) ^ (128:ℤ) = 2 ^ 128 := by norm_cast
  rw [e128] at cm
  have s0 : 0 < sr.val := by linarith [hs.2.1]
  have key : ∃ l : ℚ, (l = 0 ∨ 1 / 2 ^ 30 ≤ l) ∧ (Conv.conv c * lit 2 * Conv.conv (PI : F32) / Conv.conv sr : F64).In l (if l = 0 then 0 else 2 ^ 131) := by
    generalize (Conv.conv (PI : F32) : F64) = π at *
    rcases hc with c0 | c0
    · refine ⟨0, Or.inl rfl, ?_⟩
      rw [if_pos rfl]
      have m1 : (Conv.conv c * lit 2 : F64).In 0 0 :=
        mul_in h1.1 h2.1 rep_zero rep_zero (by rw [h1.val_eq, c0]; simp) (by rw [h1.val_eq, c0]; simp)
      have m2 : (Conv.conv c * lit 2 * π : F64).In 0 0 :=
        mul_in m1.1 h3.1 rep_zero rep_zero (by rw [m1.val_eq]; simp) (by rw [m1.val_eq]; simp)
      exact div_in m2.1 h4.1 (by rw [h4.val_eq]; exact s0.ne') rep_zero rep_zero (by rw [m2.val_eq]; simp) (by rw [m2.val_eq]; simp)
    · refine ⟨1 / 2 ^ 30, Or.inr le_rfl, ?_⟩
      rw [if_neg (by norm_num)]
      have c1 := (abs_lt.1 cm).2.le
      have m1 : (Conv.conv c * lit 2 : F64).In (1 / 2 ^ 9) (2 ^ 129) := by
        refine mul_in h1.1 h2.1 (by decide +kernel) (rep64_two_pow (by norm_num)) ?_ ?_ <;> rw [h1.val_eq, h2.val_eq]
        · norm_num at *; linarith
        · norm_num at *; linarith
      have m2 : (Conv.conv c * lit 2 * π : F64).In (1 / 2 ^ 8) (2 ^ 131) := by
        have a1 := m1.2.1
        have a2 := m1.2.2
        have b1 := h3.2.1
        have b2 := h3.2.2
        refine mul_in m1.1 h3.1 (by decide +kernel) (rep64_two_pow (by norm_num)) ?_ ?_
        · calc (1:ℚ) / 2 ^ 8 = 1 / 2 ^ 9 * 2 := by norm_num
            _ ≤ _ := mul_le_mul a1 b1 (by norm_num) (le_trans (by positivity) a1)
        · calc _ ≤ (2:ℚ) ^ 129 * 4 := mul_le_mul a2 b2 (by linarith) (by positivity)
            _ = 2 ^ 131 := by norm_num
      have a1 := m2.2.1
      have a2 := m2.2.2
      have s1 := hs.2.1
      have s2 := hs.2.2
      refine div_in m2.1 h4.1 (by rw [h4.val_eq]; exact s0.ne') (by decide +kernel) (rep64_two_pow (by norm_num)) ?_ ?_ <;> rw [h4.val_eq]
      · rw [le_div_iff₀ s0]; norm_num at *; linarith
      · rw [div_le_iff₀ s0]
        have : (2:ℚ) ^ 131 * 1 ≤ 2 ^ 131 * sr.val := mul_le_mul_of_nonneg_left s1 (by positivity)
        linarith
  obtain ⟨l, hl, k⟩ := key
  have e : (setCutoff c s).cutoffCoeff = if (Conv.conv c * lit 2 * Conv.conv (PI : F32) / Conv.conv sr : F64) >. lit 1 then lit 1
      else Conv.conv c * lit 2 * Conv.conv (PI : F32) / Conv.conv sr := by rw [← hr]; rfl
  rw [e]
  generalize (Conv.conv c * lit 2 * Conv.conv (PI : F32) / Conv.conv sr : F64) = w at *
  have hg : (w >. lit 1) = decide (1 < w.val) := by
    have := lt_fin (f := binary64) one.1 k.1
    rw [one.val_eq] at this
    exact this
  rw [hg]
  by_cases h : 1 < w.val
  · rw [if_pos (by simpa using h)]
    exact ⟨one.1, Or.inr (by rw [one.val_eq]; norm_num), one.val_eq.le⟩
  · rw [if_neg (by simpa using h)]
    refine ⟨k.1, ?_, not_lt.1 h⟩
    rcases hl with rfl | hl
    · rw [if_pos rfl] at k; exact Or.inl k.val_eq
    · exact Or.inr (hl.trans k.2.1)

theorem res_of {r : F32} (hr : r.isFin = true) (h : r.val ≤ 1 / 2) : (clamp01 r).In 0 (1 / 2) := by
  have z : (lit 0 : F32).In 0 0 := by decide +kernel
  have o : (lit 1 : F32).In 1 1 := by decide +kernel
  have e : clamp01 r = if r <. lit 0 then lit 0 else if lit 1 <. r then lit 1 else r := rfl
  rw [e, lt_fin hr z.1, lt_fin o.1 hr, z.val_eq, o.val_eq]
  by_cases h1 : r.val < 0
  · rw [if_pos (by simpa using h1)]; exact z.mono le_rfl (by norm_num)
  · rw [if_neg (by simpa using h1), if_neg (by simp; linarith)]
    exact ⟨hr, not_lt.1 h1, h⟩

/-- **C51, Microtracker, partial** (every rounding included): with the resonance kept at or below one half, inputs up to `M ≤ 16` give finite
outputs up to `35.5 (M + 17.4)`, however cutoff and resonance are moved while the filter runs. The cutoff may be anything that is zero or at
least a thousandth of a hertz. Missing: resonances above one half. -/
theorem C51_microtracker_float_partial [Libm F64] (sr : F32) (hs : sr.In 1 (2 ^ 22)) (M : ℚ) (M0 : 0 ≤ M) (M1 : M ≤ 16) (s0 : Ladder F32 F64)
    (l : List (LadderCall F32)) (hl : ∀ a ∈ l, Tame M a) :
    ∀ y ∈ api.play (init sr s0) l, y.isFin = true ∧ |y.val| ≤ 35.5 * (M + 17.4) := by
  obtain ⟨E, hE⟩ : ∃ E : ℝ, E = M + 17.4 := ⟨_, rfl⟩
  obtain ⟨R, hR⟩ : ∃ R : ℝ, R = 127 * (E ^ 2 / 0.045 ^ 2) := ⟨_, rfl⟩
  obtain ⟨B, hB⟩ : ∃ B : ℝ, B = 35.45 * E := ⟨_, rfl⟩
  have M0' : (0:ℝ) ≤ M := by exact_mod_cast M0
  have M1' : (M:ℝ) ≤ 16 := by exact_mod_cast M1
  have E0 : 0 ≤ E := by rw [hE]; linarith
  have E1 : E ≤ 33.4 := by rw [hE]; linarith
  have E2 : E ^ 2 ≤ 33.4 ^ 2 := pow_le_pow_left₀ E0 E1 2
  have B0 : 0 ≤ B := by rw [hB]; positivity
  have B1 : B ≤ 1185 := by rw [hB]; linarith
  have R0 : 0 ≤ R := by rw [hR]; positivity
  have e1 : R = 127 / 0.045 ^ 2 * E ^ 2 := by rw [hR]; ring
  have R1 : R ≤ 20 * (2 ^ 11) ^ 2 := by
    rw [e1]
    refine (mul_le_mul_of_nonneg_left E2 (by positivity)).trans (by norm_num)
  have hRB : R ≤ 50 * B ^ 2 := by
    have e : 50 * B ^ 2 = 50 * 35.45 ^ 2 * E ^ 2 := by rw [hB]; ring
    rw [e1, e]
    exact mul_le_mul_of_nonneg_right (by norm_num) (sq_nonneg E)
  have fz : (lit 0 : F64).isFin = true := by decide +kernel
  have vz : ⟪(lit 0 : F64)⟫ = 0 := by
    have : (lit 0 : F64).In 0 0 := by decide +kernel
    rw [this.val_eq]; simp
  have z : |⟪(lit 0 : F64)⟫| ≤ B := by rw [vz]; simpa using B0
  have ze : energy ⟪(lit 0 : F64)⟫ ⟪(lit 0 : F64)⟫ ⟪(lit 0 : F64)⟫ ⟪(lit 0 : F64)⟫ (⟪(lit 0 : F64)⟫ - ⟪(lit 0 : F64)⟫)
      (⟪(lit 0 : F64)⟫ - ⟪(lit 0 : F64)⟫) (⟪(lit 0 : F64)⟫ - ⟪(lit 0 : F64)⟫) ≤ R := by
    rw [vz]; unfold energy; norm_num; exact R0
  refine LadderApi.play_all api (LoudF sr R B) (Tame M) (fun y => y.isFin = true ∧ |y.val| ≤ 35.5 * (M + 17.4)) ?_ ?_ ?_ ?_ l hl _ ?_
  · intro c s hc h
    exact ⟨h.rate, h.res, pace_of hs hc s h.rate, h.f0, h.f1, h.f2, h.f3, h.f32, h.f33, h.f34, h.en, h.p32, h.p33, h.p34⟩
  · intro r s hr h
    exact ⟨h.rate, res_of hr.1 hr.2, h.pace, h.f0, h.f1, h.f2, h.f3, h.f32, h.f33, h.f34, h.en, h.p32, h.p33, h.p34⟩
  · intro s h
    exact ⟨h.rate, h.res, h.pace, fz, fz, fz, fz, fz, fz, fz, ze, z, z, z⟩
  · intro s x hx h
    have hx' : |⟪x⟫| ≤ (M:ℝ) := by exact_mod_cast hx.2
    obtain ⟨a, w, hw, fw, b⟩ := tick_loudF hR R1 hRB B0 B1 M1' hE.ge s x hx.1 hx' h
    refine ⟨a, ?_⟩
    have e : (api.tick s x).2 = Conv.conv w := hw
    rw [e]
    refine conv_down (u := 35.46 * (M + 17.4)) fw ?_ ?_ ?_
    · have : (((|w.val| : ℚ)) : ℝ) ≤ ((35.46 * (M + 17.4) : ℚ) : ℝ) := by
        push_cast
        refine b.trans ?_
        rw [hB, hE]
        norm_num
        linarith
      exact_mod_cast this
    · norm_num; linarith
    · norm_num; linarith
  · have h1000 : Tame 1 (.setCutoff (lit 1000)) := by decide +kernel
    have h01 : (lit 0.1 : F32).isFin = true ∧ (lit 0.1 : F32).val ≤ 1 / 2 := by decide +kernel
    exact ⟨rfl, res_of h01.1 h01.2, pace_of hs h1000 _ rfl, fz, fz, fz, fz, fz, fz, fz, ze, z, z, z⟩

/-- Concrete case: the settings of the header's example, a cutoff beyond Nyquist and one of zero, at 48 kHz. -/
example (s0 : Ladder F32 F64) (n : ℕ) : letI := idealLibm64
    ∀ y ∈ api.play (init (lit 48000) s0) ([.setCutoff (lit 1000), .setResonance (lit 0.5), .tick (lit 1), .setCutoff (lit 30000),
      .tick (lit (-1)), .setCutoff (lit 0)] ++ List.replicate n (.tick (lit 0.7)) ++ [.reset, .tick (lit 1)]), y.isFin = true ∧ |y.val| ≤ 654 := by
  let _ := idealLibm64
  intro y hy
  obtain ⟨a, b⟩ := C51_microtracker_float_partial (lit 48000) (by decide +kernel) 1 (by norm_num) (by norm_num) s0 _ (by
    intro a ha
    simp only [List.mem_append, List.mem_replicate] at ha
    rcases ha with (ha | ha) | ha
    · revert a; decide +kernel
    · rw [ha.2]; decide +kernel
    · revert a; decide +kernel) y hy
  exact ⟨a, b.trans (by norm_num)⟩

end Verif.Microtracker
