import Verif.Props.FVerbEnergy
import Verif.Lemmas.FVerbModEnergy

/-!
# C103: how much energy the reverb can build up while its delays are modulated
-/

namespace Verif.FVerbDSP
open Energy

/-! ### Specification -/

/-- Parameters in the ranges of the setters, with the tail density below 100 %. -/
structure Modulated (p : Params ℝ) : Prop where
  damping : 0 ≤ p.damping
  tailDensity : 0 ≤ p.tailDensity ∧ p.tailDensity < 100
  diffusion2 : 0 ≤ p.diffusion2 ∧ p.diffusion2 ≤ 100
  diffusion1 : 0 ≤ p.diffusion1 ∧ p.diffusion1 ≤ 100
  highPass : 0 ≤ p.highPass
  lowPass : 0 ≤ p.lowPass
  inputAmount : 0 ≤ p.inputAmount ∧ p.inputAmount ≤ 100
  predelay : 0 ≤ p.predelay ∧ p.predelay ≤ 300
  decay : 0 ≤ p.decay ∧ p.decay ≤ 100
  modFrequency : 0 ≤ p.modFrequency ∧ p.modFrequency ≤ 4
  modDepth : 0 ≤ p.modDepth ∧ p.modDepth ≤ 10

/-! ### One crossfade under changing targets -/

/-- What holds of a crossfade after every step, for targets between `lo` and `hi`. -/
structure FadeInv (c : ℝ) (lo hi : ℤ) (f : Fade ℝ) : Prop where
  m0 : 0 ≤ f.mix
  m1 : f.mix ≤ 1
  slope : (f.slope = 0 ∧ (f.mix = 0 ∨ f.mix = 1)) ∨ (f.slope = c ∧ 0 < f.mix) ∨ (f.slope = -c ∧ f.mix < 1)
  dB : 0 < f.mix → lo ≤ f.dB ∧ f.dB ≤ hi

section
variable {c : ℝ} {lo hi T : ℤ} {f : Fade ℝ}

/-- What one step adds to the mix. -/
theorem FadeInv.added (I : FadeInv c lo hi f) (c0 : 0 < c) :
    ∃ t, (fadeStep c T f).slope = t ∧ (fadeStep c T f).mix = max 0 (min 1 (f.mix + t)) ∧
      ((t = 0 ∧ (f.mix = 0 ∨ f.mix = 1)) ∨ (t = c ∧ f.mix < 1 ∧ (f.mix = 0 → T ≠ f.dA)) ∨ (t = -c ∧ 0 < f.mix ∧ (f.mix = 1 → T ≠ f.dB))) := by
  obtain ⟨t, ht, e⟩ := fadeStep_real c T f
  refine ⟨t, by rw [e], by rw [e], ?_⟩
  have m0 := I.m0
  have m1 := I.m1
  rcases I.slope with ⟨hs, hm⟩ | ⟨hs, hm⟩ | ⟨hs, hm⟩
  · rw [hs, if_neg (by simp)] at ht
    rcases hm with hm | hm
    · rw [hm] at ht
      by_cases hT : T ≠ f.dA
      · rw [if_pos ⟨rfl, hT⟩] at ht
        exact .inr (.inl ⟨ht, by linarith, fun _ => hT⟩)
      · rw [if_neg (fun h => hT h.2), if_neg (fun h => by norm_num at h)] at ht
        exact .inl ⟨ht, .inl hm⟩
    · rw [hm, if_neg (fun h => by norm_num at h)] at ht
      by_cases hT : T ≠ f.dB
      · rw [if_pos ⟨rfl, hT⟩] at ht
        exact .inr (.inr ⟨ht, by linarith, fun _ => hT⟩)
      · rw [if_neg (fun h => hT h.2)] at ht
        exact .inl ⟨ht, .inr hm⟩
  · rw [hs, if_pos c0.ne'] at ht
    by_cases h1 : f.mix < 1
    · rw [if_pos ⟨hm, h1⟩] at ht
      exact .inr (.inl ⟨ht, h1, fun h => by linarith⟩)
    · rw [if_neg (fun h => h1 h.2)] at ht
      exact .inl ⟨ht, .inr (by linarith)⟩
  · rw [hs, if_pos (by linarith)] at ht
    by_cases h1 : 0 < f.mix
    · rw [if_pos ⟨h1, hm⟩] at ht
      exact .inr (.inr ⟨ht, h1, fun h => by linarith⟩)
    · rw [if_neg (fun h => h1 h.1)] at ht
      exact .inl ⟨ht, .inl (by linarith)⟩

theorem fadeStep_dA (c : ℝ) (T : ℤ) (f : Fade ℝ) : (fadeStep c T f).dA = if 1 ≤ f.mix ∧ f.dB ≠ T then T else f.dA := by
  obtain ⟨t, -, e⟩ := fadeStep_real c T f
  rw [e]

theorem fadeStep_dB (c : ℝ) (T : ℤ) (f : Fade ℝ) : (fadeStep c T f).dB = if f.mix ≤ 0 ∧ f.dA ≠ T then T else f.dB := by
  obtain ⟨t, -, e⟩ := fadeStep_real c T f
  rw [e]

theorem FadeInv.step (I : FadeInv c lo hi f) (c0 : 0 < c) (c1 : c ≤ 1) (hT : lo ≤ T ∧ T ≤ hi) : FadeInv c lo hi (fadeStep c T f) := by
  obtain ⟨t, es, em, h⟩ := I.added (T := T) c0
  have m0 := I.m0
  have m1 := I.m1
  refine ⟨by rw [em]; exact le_max_left _ _, by rw [em]; exact max_le zero_le_one (min_le_left _ _), ?_, ?_⟩
  · rw [es, em]
    rcases h with ⟨rfl, hm⟩ | ⟨rfl, hm, -⟩ | ⟨rfl, hm, -⟩
    · rw [add_zero, min_eq_right m1, max_eq_right m0]
      exact .inl ⟨rfl, hm⟩
    · exact .inr (.inl ⟨rfl, lt_max_of_lt_right (lt_min one_pos (by linarith))⟩)
    · exact .inr (.inr ⟨rfl, max_lt one_pos (min_lt_of_right_lt (by linarith))⟩)
  · intro hp
    rw [fadeStep_dB]
    rw [em] at hp
    rcases m0.eq_or_lt with e | e
    · rcases h with ⟨rfl, -⟩ | ⟨rfl, -, hA⟩ | ⟨rfl, hm, -⟩
      · rw [← e] at hp; norm_num at hp
      · rw [if_pos ⟨e.symm.le, (hA e.symm).symm⟩]; exact hT
      · linarith
    · rw [if_neg (by intro h; linarith [h.1])]
      exact I.dB e

theorem FadeInv.slow (I : FadeInv c lo hi f) (c0 : 0 < c) (c1 : c ≤ 1) : |(fadeStep c T f).mix - f.mix| ≤ c := by
  obtain ⟨t, es, em, h⟩ := I.added (T := T) c0
  have m0 := I.m0
  have m1 := I.m1
  rw [em, abs_le]
  rcases h with ⟨rfl, hm⟩ | ⟨rfl, hm, -⟩ | ⟨rfl, hm, -⟩
  · rw [add_zero, min_eq_right m1, max_eq_right m0]
    constructor <;> linarith
  · rw [max_eq_right (le_min zero_le_one (by linarith))]
    have := min_le_right 1 (f.mix + t)
    have : f.mix ≤ min 1 (f.mix + t) := le_min m1 (by linarith)
    constructor <;> linarith
  · rw [min_eq_right (by linarith)]
    have := le_max_right 0 (f.mix + -c)
    have : max 0 (f.mix + -c) ≤ f.mix := max_le m0 (by linarith)
    constructor <;> linarith

/-- Leaving full weight of B, the mix goes down. -/
theorem FadeInv.leave1 (I : FadeInv c lo hi f) (c0 : 0 < c) (c1 : c ≤ 1) (h1 : f.mix = 1) :
    (fadeStep c T f).mix = 1 ∨ ((fadeStep c T f).mix < 1 ∧ (fadeStep c T f).slope = -c) := by
  obtain ⟨t, es, em, h⟩ := I.added (T := T) c0
  rw [em, es]
  rcases h with ⟨rfl, -⟩ | ⟨rfl, hm, -⟩ | ⟨rfl, -, -⟩
  · rw [h1]; norm_num
  · linarith
  · exact .inr ⟨max_lt one_pos (min_lt_of_right_lt (by linarith)), rfl⟩

theorem FadeInv.down (c0 : 0 < c) (hs : f.slope = -c) (m0 : 0 < f.mix) (m1 : f.mix < 1) :
    (fadeStep c T f).mix < 1 ∧ (fadeStep c T f).slope = -c := by
  obtain ⟨t, ht, e⟩ := fadeStep_real c T f
  rw [hs, if_pos (by linarith), if_pos ⟨m0, m1⟩] at ht
  rw [e, ht]
  exact ⟨max_lt one_pos (min_lt_of_right_lt (by linarith)), rfl⟩

/-- Leaving full weight of A, the mix goes up. -/
theorem FadeInv.leave0 (I : FadeInv c lo hi f) (c0 : 0 < c) (c1 : c ≤ 1) (h1 : f.mix = 0) :
    (fadeStep c T f).mix = 0 ∨ (0 < (fadeStep c T f).mix ∧ (fadeStep c T f).slope = c) := by
  obtain ⟨t, es, em, h⟩ := I.added (T := T) c0
  rw [em, es]
  rcases h with ⟨rfl, -⟩ | ⟨rfl, -, -⟩ | ⟨rfl, hm, -⟩
  · rw [h1]; norm_num
  · exact .inr ⟨lt_max_of_lt_right (lt_min one_pos (by linarith)), rfl⟩
  · linarith

theorem FadeInv.up (c0 : 0 < c) (hs : f.slope = c) (m0 : 0 < f.mix) (m1 : f.mix < 1) :
    0 < (fadeStep c T f).mix ∧ (fadeStep c T f).slope = c := by
  obtain ⟨t, ht, e⟩ := fadeStep_real c T f
  rw [hs, if_pos c0.ne', if_pos ⟨m0, m1⟩] at ht
  rw [e, ht]
  exact ⟨lt_max_of_lt_right (lt_min one_pos (by linarith)), rfl⟩

end

/-- A crossfade that follows targets between `lo` and `lo + W`. -/
theorem wobbling {F lo W : ℕ} (hF : 0 < F) (far : F ≤ lo) (hi : lo + W ≤ 65536) {c : ℝ} (hc : c = 1 / F) {T : ℕ → ℤ}
    (hT : ∀ t, (lo : ℤ) ≤ T t ∧ T t ≤ lo + W) {f : ℕ → Fade ℝ} (h0 : f 0 = fadeStep c (T 0) ⟨0, 0, 0, 0⟩)
    (hn : ∀ t, f (t + 1) = fadeStep c (T (t + 1)) (f t)) : Wobbling F c lo W f := by
  have Fr : (0:ℝ) < F := by exact_mod_cast hF
  have c0 : 0 < c := by rw [hc]; positivity
  have c1 : c ≤ 1 := by rw [hc, div_le_one Fr]; exact_mod_cast hF
  have start : FadeInv c lo (lo + W) ⟨0, 0, 0, 0⟩ := ⟨le_rfl, zero_le_one, .inl ⟨rfl, .inl rfl⟩, fun h => absurd h (lt_irrefl _)⟩
  have inv : ∀ t, FadeInv c lo (lo + W) (f t) := by
    intro t
    induction t with
    | zero => rw [h0]; exact start.step c0 c1 (hT 0)
    | succ t ih => rw [hn]; exact ih.step c0 c1 (hT _)
  -- the first fade
  have early : ∀ t, t + 1 ≤ F → (f t).dA = 0 ∧ (f t).mix = (t + 1) * c ∧ (f t).slope = c := by
    intro t
    induction t with
    | zero =>
      intro _
      have T0 : T 0 ≠ 0 := by have := (hT 0).1; omega
      obtain ⟨s, hs, e⟩ := fadeStep_real c (T 0) ⟨0, 0, 0, 0⟩
      rw [if_neg (by simp), if_pos ⟨rfl, T0⟩] at hs
      rw [h0, e, hs]
      dsimp only
      refine ⟨if_neg (by norm_num), ?_, rfl⟩
      rw [zero_add, min_eq_right c1, max_eq_right c0.le]
      push_cast
      ring
    | succ t ih =>
      intro ht
      obtain ⟨iA, im, is⟩ := ih (by omega)
      have mp : 0 < (f t).mix := by rw [im]; positivity
      have tF : (t : ℝ) + 1 + 1 ≤ F := by exact_mod_cast ht
      have tc : ((t : ℝ) + 1 + 1) * c ≤ 1 := by rw [hc, mul_one_div, div_le_one Fr]; exact tF
      have lt1 : (f t).mix < 1 := by rw [im]; linarith
      obtain ⟨s, hs, e⟩ := fadeStep_real c (T (t + 1)) (f t)
      rw [is, if_pos c0.ne', if_pos ⟨mp, lt1⟩] at hs
      rw [hn, e, hs]
      dsimp only
      refine ⟨?_, ?_, rfl⟩
      · rw [if_neg (by intro h; linarith [h.1])]; exact iA
      · rw [im, show ((t : ℝ) + 1) * c + c = (t + 1 + 1) * c by ring, min_eq_right tc, max_eq_right (by positivity)]
        push_cast
        ring
  have late : ∀ j, (f (F - 1 + j)).mix < 1 → (lo : ℤ) ≤ (f (F - 1 + j)).dA ∧ (f (F - 1 + j)).dA ≤ lo + W := by
    intro j
    induction j with
    | zero =>
      intro hx
      have := (early (F - 1) (by omega)).2.1
      rw [add_zero, this, Nat.cast_sub hF, Nat.cast_one, sub_add_cancel, hc, mul_one_div_cancel Fr.ne'] at hx
      exact absurd hx (lt_irrefl _)
    | succ j ih =>
      intro hx
      rw [← add_assoc, hn] at hx ⊢
      rw [fadeStep_dA]
      by_cases h1 : (f (F - 1 + j)).mix < 1
      · rw [if_neg (by intro h; linarith [h.1])]
        exact ih h1
      · have e1 : (f (F - 1 + j)).mix = 1 := le_antisymm (inv _).m1 (not_lt.1 h1)
        obtain ⟨t, es, em, h⟩ := (inv (F - 1 + j)).added (T := T (F - 1 + j + 1)) c0
        rcases h with ⟨rfl, -⟩ | ⟨rfl, hm, -⟩ | ⟨rfl, -, hB⟩
        · rw [em, e1] at hx; norm_num at hx
        · exact absurd hm h1
        · rw [if_pos ⟨e1.ge, (hB e1).symm⟩]
          exact hT _
  have cl : ∀ d : ℤ, (lo : ℤ) ≤ d ∧ d ≤ lo + W → clampDelay d = d := fun d h => by unfold clampDelay; omega
  refine ⟨hF, far, ⟨fun t => (inv t).m0, fun t => (inv t).m1, fun t => ?_, fun t hx => ?_, fun t hx => ?_, ?_, ?_⟩, fun t ht => ?_,
    fun t ht hx => ?_, fun t hx => ?_⟩
  · rw [hn]; exact (inv t).slow c0 c1
  · rw [hn, fadeStep_dA, if_neg (by intro h; linarith [h.1])]
  · rw [hn, fadeStep_dB, if_neg (by intro h; linarith [h.1])]
  · intro p r q hpr hrq hp hr hq
    by_contra hcon
    push Not at hcon
    have key : ∀ j, p + j ≤ q → (∀ i, p ≤ i → i ≤ p + j → (f i).mix = 1) ∨ ((f (p + j)).mix < 1 ∧ (f (p + j)).slope = -c) := by
      intro j
      induction j with
      | zero => exact fun _ => .inl fun i h1 h2 => by rw [show i = p by omega]; exact hp
      | succ j ih =>
        intro hj
        rw [← add_assoc, hn]
        rcases ih (by omega) with h | ⟨h1, h2⟩
        · rcases (inv (p + j)).leave1 (T := T (p + j + 1)) c0 c1 (h (p + j) (by omega) le_rfl) with h' | h'
          · refine .inl fun i i1 i2 => ?_
            rcases Nat.lt_or_ge (p + j) i with i3 | i3
            · rw [show i = p + j + 1 by omega, hn]; exact h'
            · exact h i i1 i3
          · exact .inr h'
        · have hj0 : p < p + j := by
            rcases Nat.eq_zero_or_pos j with rfl | hj0
            · rw [add_zero, hp] at h1; exact absurd h1 (lt_irrefl _)
            · omega
          exact .inr (FadeInv.down c0 h2 ((inv _).m0.lt_of_ne' (hcon _ hj0 (by omega))) h1)
    obtain ⟨j, rfl⟩ := Nat.exists_eq_add_of_le (hpr.trans hrq).le
    rcases key j le_rfl with h | ⟨h, -⟩
    · rw [h r hpr.le hrq.le] at hr; exact lt_irrefl _ hr
    · rw [hq] at h; exact lt_irrefl _ h
  · intro p r q hpr hrq hp hr hq
    by_contra hcon
    push Not at hcon
    have key : ∀ j, p + j ≤ q → (∀ i, p ≤ i → i ≤ p + j → (f i).mix = 0) ∨ (0 < (f (p + j)).mix ∧ (f (p + j)).slope = c) := by
      intro j
      induction j with
      | zero => exact fun _ => .inl fun i h1 h2 => by rw [show i = p by omega]; exact hp
      | succ j ih =>
        intro hj
        rw [← add_assoc, hn]
        rcases ih (by omega) with h | ⟨h1, h2⟩
        · rcases (inv (p + j)).leave0 (T := T (p + j + 1)) c0 c1 (h (p + j) (by omega) le_rfl) with h' | h'
          · refine .inl fun i i1 i2 => ?_
            rcases Nat.lt_or_ge (p + j) i with i3 | i3
            · rw [show i = p + j + 1 by omega, hn]; exact h'
            · exact h i i1 i3
          · exact .inr h'
        · have hj0 : p < p + j := by
            rcases Nat.eq_zero_or_pos j with rfl | hj0
            · rw [add_zero, hp] at h1; exact absurd h1 (lt_irrefl _)
            · omega
          exact .inr (FadeInv.up c0 h2 h1 ((inv _).m1.lt_of_ne (hcon _ hj0 (by omega))))
    obtain ⟨j, rfl⟩ := Nat.exists_eq_add_of_le (hpr.trans hrq).le
    rcases key j le_rfl with h | ⟨h, -⟩
    · rw [h r hpr.le hrq.le] at hr; exact lt_irrefl _ hr
    · rw [hq] at h; exact lt_irrefl _ h
  · rw [(early t (by omega)).1]; rfl
  · have := late (t - (F - 1)) (by rwa [show F - 1 + (t - (F - 1)) = t by omega])
    rw [show F - 1 + (t - (F - 1)) = t by omega] at this
    rw [cl _ this]
    exact this
  · have := (inv t).dB hx
    rw [cl _ this]
    exact this

/-- The requested delays stay in a band. -/
theorem requested {c0 q m s : ℝ} (h0 : 8000 ≤ c0) (h1 : c0 ≤ 192000) (q0 : 0.025 ≤ q) (q1 : q ≤ 0.031) {D : ℝ}
    (D1 : D ≤ 0.01) (m0 : 0 ≤ m) (m1 : m ≤ D) (s0 : -1 ≤ s) (s1 : s ≤ 1) {n : ℤ} (e : Arith.toI32? (c0 * (m * s + q)) = some n) :
    ⌊c0 * (q - D)⌋ - 1 ≤ n - 1 ∧ n - 1 ≤ ⌊c0 * (q - D)⌋ - 1 + (if D = 0 then 0 else ⌊2 * D * c0⌋ + 1) := by
  have a : -D ≤ m * s := by nlinarith
  have b : m * s ≤ D := by nlinarith
  have p0 : 0 ≤ c0 * (m * s + q) := mul_nonneg (by linarith) (by linarith)
  have p1 : c0 * (m * s + q) ≤ 2 ^ 24 := by nlinarith
  rw [toI32_floor p0 p1 e]
  constructor
  · have : ⌊c0 * (q - D)⌋ ≤ ⌊c0 * (m * s + q)⌋ := Int.floor_le_floor (mul_le_mul_of_nonneg_left (by linarith) (by linarith))
    omega
  · split_ifs with hD
    · have : c0 * (m * s + q) ≤ c0 * (q - D) := mul_le_mul_of_nonneg_left (by linarith) (by linarith)
      have := Int.floor_le_floor this
      omega
    have h2 : c0 * (m * s + q) ≤ c0 * (q - D) + 2 * D * c0 := by nlinarith
    have h3 := Int.floor_le_floor h2
    have h4 : ⌊c0 * (q - D) + 2 * D * c0⌋ ≤ ⌊c0 * (q - D)⌋ + ⌊2 * D * c0⌋ + 1 := by
      have := Int.le_floor_add_floor (c0 * (q - D)) (2 * D * c0)
      omega
    omega

/-- The crossfades of a run with modulation. -/
theorem ctrls_wobble {sr : ℤ} (hsr : 8000 ≤ sr) {k : Consts ℝ} (hk : instanceConstants sr = some k) {p : Params ℝ} (P : Settings p) :
    (∃ lo : ℕ, (lo + (band k.c0 p.modDepth).toNat + 1 : ℝ) ≤ (0.030509727 + p.modDepth / 1000) * k.c0 + 1 ∧
      Wobbling (⌊0.01 * k.c0⌋).toNat k.c12 lo (band k.c0 p.modDepth).toNat fun t => (ctrls k (slow k p) (t + 1)).fadeR) ∧
    (∃ lo : ℕ, (lo + (band k.c0 p.modDepth).toNat + 1 : ℝ) ≤ (0.025603978 + p.modDepth / 1000) * k.c0 + 1 ∧
      Wobbling (⌊0.01 * k.c0⌋).toNat k.c12 lo (band k.c0 p.modDepth).toNat fun t => (ctrls k (slow k p) (t + 1)).fadeL) := by
  obtain ⟨-, ⟨l0, l1⟩, -, k1, k2, k3, k4, k5, k11, k12, -⟩ := constants_tank hsr hk
  obtain ⟨st, -, -, -, h37⟩ := ctrls_tame hsr hk P
  have z : (lit 0 : ℝ) = 0 := by simp only [real_arith]; norm_num
  have E := fun t => ctrl_eqs (st t)
  have D0 : 0 ≤ p.modDepth / 1000 := by have := P.modDepth.1; positivity
  have D1 : p.modDepth / 1000 ≤ 0.01 := by linarith [P.modDepth.2]
  have F0 : 80 ≤ ⌊0.01 * k.c0⌋ := Int.le_floor.2 (by push_cast; linarith)
  have Fc : ((⌊0.01 * k.c0⌋.toNat : ℕ) : ℤ) = ⌊0.01 * k.c0⌋ := Int.toNat_of_nonneg (by omega)
  have k12' : k.c12 = 1 / ((⌊0.01 * k.c0⌋.toNat : ℕ) : ℝ) := by
    rw [k12]
    congr 1
    exact_mod_cast congrArg (Int.cast (R := ℝ)) Fc.symm
  have V0 : 0 ≤ ⌊2 * (p.modDepth / 1000) * k.c0⌋ := Int.floor_nonneg.2 (by positivity)
  have V1 : ⌊2 * (p.modDepth / 1000) * k.c0⌋ ≤ 3840 := Int.floor_le_iff.2 (by push_cast; nlinarith)
  have bd : (if p.modDepth / 1000 = 0 then 0 else ⌊2 * (p.modDepth / 1000) * k.c0⌋ + 1) = band k.c0 p.modDepth := by
    unfold band
    simp only [div_eq_zero_iff, OfNat.ofNat_ne_zero, or_false]
  have W0 : 0 ≤ band k.c0 p.modDepth := by rw [← bd]; split_ifs <;> omega
  have W1 : band k.c0 p.modDepth ≤ 3841 := by rw [← bd]; split_ifs <;> omega
  have Wc : (((band k.c0 p.modDepth).toNat : ℕ) : ℝ) ≤ 2 * (p.modDepth / 1000) * k.c0 + 1 := by
    have h : (((band k.c0 p.modDepth).toNat : ℕ) : ℝ) = (band k.c0 p.modDepth : ℝ) := by exact_mod_cast Int.toNat_of_nonneg W0
    rw [h, ← bd]
    split_ifs
    · push_cast; positivity
    · push_cast; linarith [Int.floor_le (2 * (p.modDepth / 1000) * k.c0)]
  have top : ∀ {q : ℝ}, 0 ≤ ⌊k.c0 * (q - p.modDepth / 1000)⌋ - 1 →
      (((⌊k.c0 * (q - p.modDepth / 1000)⌋ - 1).toNat : ℕ) + ((band k.c0 p.modDepth).toNat : ℕ) + 1 : ℝ) ≤ (q + p.modDepth / 1000) * k.c0 + 1 := by
    intro q hq
    have h : (((⌊k.c0 * (q - p.modDepth / 1000)⌋ - 1).toNat : ℕ) : ℝ) = (⌊k.c0 * (q - p.modDepth / 1000)⌋ : ℝ) - 1 := by
      exact_mod_cast congrArg (Int.cast (R := ℝ)) (Int.toNat_of_nonneg hq)
    rw [h]
    linarith [Int.floor_le (k.c0 * (q - p.modDepth / 1000))]
  have tb : ∀ j, -1 ≤ (table j : ℝ) ∧ (table j : ℝ) ≤ 1 := fun j => ⟨Real.neg_one_le_sin _, Real.sin_le_one _⟩
  have edges : ∀ {q : ℝ}, 0.025 ≤ q → q ≤ 0.031 → ⌊0.01 * k.c0⌋ ≤ ⌊k.c0 * (q - p.modDepth / 1000)⌋ - 1 ∧
      ⌊k.c0 * (q - p.modDepth / 1000)⌋ ≤ 6000 := by
    intro q q0 q1
    constructor
    · have : ⌊0.01 * k.c0⌋ + 1 ≤ ⌊k.c0 * (q - p.modDepth / 1000)⌋ := Int.le_floor.2 (by
        push_cast; have := Int.floor_le (0.01 * k.c0); nlinarith)
      omega
    · exact Int.floor_le_iff.2 (by push_cast; nlinarith)
  constructor
  · obtain ⟨b1, b2⟩ := edges (q := 0.030509727) (by norm_num) (by norm_num)
    have tgt : ∀ t, ∃ T, (⌊k.c0 * (0.030509727 - p.modDepth / 1000)⌋ - 1 ≤ T ∧
        T ≤ ⌊k.c0 * (0.030509727 - p.modDepth / 1000)⌋ - 1 + band k.c0 p.modDepth) ∧
        (ctrls k (slow k p) (t + 1)).fadeR = fadeStep k.c12 T (ctrls k (slow k p) t).fadeR := by
      intro t
      obtain ⟨j, n, hn, e⟩ := (E t).2.2.1
      have lq : (lit 0.030509727 : ℝ) = 0.030509727 := by simp only [real_arith]; norm_num
      rw [lq] at hn
      exact ⟨n - 1, bd ▸ requested l0 l1 (by norm_num) (by norm_num) D1 (h37 t).1 (h37 t).2 (tb j).1 (tb j).2 hn, e⟩
    choose T hT hf using tgt
    refine ⟨(⌊k.c0 * (0.030509727 - p.modDepth / 1000)⌋ - 1).toNat, top (by omega), wobbling (T := T) (by omega) (by omega) (by omega) k12' ?_ ?_ ?_⟩
    · intro t; have := hT t; omega
    · exact (hf 0).trans (by simp only [ctrls, clear, z])
    · exact fun t => hf (t + 1)
  · obtain ⟨b1, b2⟩ := edges (q := 0.025603978) (by norm_num) (by norm_num)
    have tgt : ∀ t, ∃ T, (⌊k.c0 * (0.025603978 - p.modDepth / 1000)⌋ - 1 ≤ T ∧
        T ≤ ⌊k.c0 * (0.025603978 - p.modDepth / 1000)⌋ - 1 + band k.c0 p.modDepth) ∧
        (ctrls k (slow k p) (t + 1)).fadeL = fadeStep k.c12 T (ctrls k (slow k p) t).fadeL := by
      intro t
      obtain ⟨j, n, hn, e⟩ := (E t).2.2.2
      have lq : (lit 0.025603978 : ℝ) = 0.025603978 := by simp only [real_arith]; norm_num
      rw [lq] at hn
      exact ⟨n - 1, bd ▸ requested l0 l1 (by norm_num) (by norm_num) D1 (h37 t).1 (h37 t).2 (tb j).1 (tb j).2 hn, e⟩
    choose T hT hf using tgt
    refine ⟨(⌊k.c0 * (0.025603978 - p.modDepth / 1000)⌋ - 1).toNat, top (by omega), wobbling (T := T) (by omega) (by omega) (by omega) k12' ?_ ?_ ?_⟩
    · intro t; have := hT t; omega
    · exact (hf 0).trans (by simp only [ctrls, clear, z])
    · exact fun t => hf (t + 1)

theorem band_nonneg {rate depth : ℝ} (h0 : 0 ≤ rate) (h1 : 0 ≤ depth) : 0 ≤ band rate depth := by
  unfold band
  split_ifs
  · exact le_rfl
  · have : 0 ≤ ⌊2 * (depth / 1000) * rate⌋ := Int.floor_nonneg.2 (by positivity)
    omega

theorem wobble_eq {sr : ℤ} (hsr : 8000 ≤ sr) {k : Consts ℝ} (hk : instanceConstants sr = some k) {depth : ℝ} (h0 : 0 ≤ depth) :
    wobble k.c0 depth = k.c12 * ((band k.c0 depth).toNat : ℕ) := by
  obtain ⟨-, ⟨l0, l1⟩, k0, -, -, -, -, -, -, k12, -⟩ := constants_tank hsr hk
  have h : (((band k.c0 depth).toNat : ℕ) : ℝ) = (band k.c0 depth : ℝ) := by
    exact_mod_cast congrArg (Int.cast (R := ℝ)) (Int.toNat_of_nonneg (band_nonneg (by linarith) h0))
  rw [h, wobble, k12]
  ring

/-! ### Theorems -/

/-- **C103, partial** (ideal arithmetic): the reverb does not build up energy while its delays are modulated either. At every sample rate
from 8 kHz and for all parameters in the ranges of the setters for which the modulation is shallow (`wobble` below 1: the delays move by
less than a crossfade is long, which is a depth below about 5 ms), the density leaves room for it and the decay is small enough
(`1.006 decay² swell < 1`), for every input in blocks of any lengths (fewer than `2^31` frames), whatever the modulation frequency: up to
every frame the loudness of either output channel is at most `5 swell (1 + 2 / (1 - density)) / (1 - 1.006 decay² swell)` times the loudness
of the two input channels together, as they leave the predelay. Without modulation `wobble` is 0, `swell` is 1, and the decay may reach
99.7 %. Missing: deeper modulation, longer decays, parameter changes while running, and rounding. -/
theorem C103_modulated_partial (sr : ℤ) (hsr : 8000 ≤ sr) (k : Consts ℝ) (hk : instanceConstants sr = some k) (p : Params ℝ) (P : Modulated p)
    (shallow : wobble (min 192000 sr) p.modDepth < 1)
    (dense : p.tailDensity / 100 * Real.sqrt (1 + wobble (min 192000 sr) p.modDepth) < 1)
    (short : 1.006 * ((p.decay / 100) ^ 2 * swell (wobble (min 192000 sr) p.modDepth) (p.tailDensity / 100)) < 1)
    (blocks : List (List (Stereo ℝ))) (hlen : blocks.flatten.length < 2 ^ 31) :
    ∃ ys, output k (blocks.map (Event.block p)) = some ys ∧ ys.length = blocks.flatten.length ∧ ∀ n ≤ ys.length,
      ∀ ch, ch = Stereo.left ∨ ch = Stereo.right →
      loudness n (fun t => channel ch ys t) ≤
        5 * (swell (wobble (min 192000 sr) p.modDepth) (p.tailDensity / 100) * (1 + 2 / (1 - p.tailDensity / 100))) /
          (1 - 1.006 * ((p.decay / 100) ^ 2 * swell (wobble (min 192000 sr) p.modDepth) (p.tailDensity / 100))) *
        (loudness n (fun t => channel Stereo.left blocks.flatten (arriving (min 192000 sr) p.predelay t)) +
          loudness n (fun t => channel Stereo.right blocks.flatten (arriving (min 192000 sr) p.predelay t))) := by
  have P' : Settings p := ⟨P.damping, P.tailDensity, P.diffusion2, P.diffusion1, P.highPass, P.lowPass, P.inputAmount, P.predelay, P.decay,
    P.modFrequency, P.modDepth⟩
  obtain ⟨-, -, k0, -⟩ := constants_tank hsr hk
  obtain ⟨-, C, -⟩ := ctrls_tame hsr hk P'
  obtain ⟨⟨lo, -, Br⟩, ⟨lo', -, Bl⟩⟩ := ctrls_wobble hsr hk P'
  have hη : wobble (min 192000 sr) p.modDepth = k.c12 * ((band k.c0 p.modDepth).toNat : ℕ) := by rw [← k0]; exact wobble_eq hsr hk P.modDepth.1
  rw [hη] at shallow dense short ⊢
  have S0 : 0 ≤ swell (k.c12 * ((band k.c0 p.modDepth).toNat : ℕ)) (p.tailDensity / 100) := Real.sqrt_nonneg _
  have td : 0 < 1 - p.tailDensity / 100 := by linarith [P.tailDensity.2]
  have h := output_bounds hsr hk P' S0 (div_nonneg (mul_nonneg zero_le_two S0) td.le) short
    (fun R _ hn => tank_mod_N R C Br shallow dense hn) (fun R _ hn => tank_mod_N R C Bl shallow dense hn) blocks hlen
  have e : swell (k.c12 * ((band k.c0 p.modDepth).toNat : ℕ)) (p.tailDensity / 100) * (1 + 2 / (1 - p.tailDensity / 100)) =
      swell (k.c12 * ((band k.c0 p.modDepth).toNat : ℕ)) (p.tailDensity / 100) +
        2 * swell (k.c12 * ((band k.c0 p.modDepth).toNat : ℕ)) (p.tailDensity / 100) / (1 - p.tailDensity / 100) := by ring
  rw [e]
  exact h

example : Modulated (resetUI : Params ℝ) := by
  constructor <;> simp only [resetUI, real_arith] <;> norm_num

/-- The default depth at 48 kHz: the delays move within 49 samples by crossfades of 480. -/
example : wobble 48000 0.5 = 49 / 480 := by
  have a : ⌊(2 * (0.5 / 1000) * 48000 : ℝ)⌋ = 48 := by norm_num
  have b : ⌊(0.01 * 48000 : ℝ)⌋ = 480 := by norm_num
  rw [wobble, band, if_neg (by norm_num), a, b]
  norm_num

/-- A new reverb wobbles by little more than a tenth of a crossfade, at every rate. -/
theorem wobble_default {sr : ℤ} (hsr : 8000 ≤ sr) : 0 ≤ wobble (min 192000 sr) 0.5 ∧ wobble (min 192000 sr) 0.5 ≤ 9 / 79 := by
  have hs : (8000:ℝ) ≤ sr := by exact_mod_cast hsr
  obtain ⟨r, hr⟩ : ∃ r : ℝ, r = min 192000 (sr : ℝ) := ⟨_, rfl⟩
  have l0 : 8000 ≤ r := hr ▸ le_min (by norm_num) hs
  rw [← hr]
  have f1 := Int.floor_le (2 * (0.5 / 1000) * r)
  have f0 : (0:ℝ) ≤ ⌊2 * (0.5 / 1000) * r⌋ := by exact_mod_cast Int.floor_nonneg.2 (by positivity)
  have f2 := Int.lt_floor_add_one (0.01 * r)
  rw [wobble, band, if_neg (by norm_num)]
  push_cast
  constructor
  · exact div_nonneg (by linarith) (by linarith)
  · rw [div_le_div_iff₀ (by linarith) (by norm_num)]
    linarith

/-- **C103** (ideal arithmetic), the reverb as it comes: with the parameters of a new reverb, modulation included, at every sample rate from
8 kHz, for every input in blocks of any lengths (fewer than `2^31` frames) and up to every frame, the loudness of either output channel is at
most 108 times the loudness of the two input channels together, however long it runs. -/
theorem C103_as_it_comes (sr : ℤ) (hsr : 8000 ≤ sr) (k : Consts ℝ) (hk : instanceConstants sr = some k)
    (blocks : List (List (Stereo ℝ))) (hlen : blocks.flatten.length < 2 ^ 31) :
    ∃ ys, output k (blocks.map (Event.block resetUI)) = some ys ∧ ys.length = blocks.flatten.length ∧ ∀ n ≤ ys.length,
      ∀ ch, ch = Stereo.left ∨ ch = Stereo.right → loudness n (fun t => channel ch ys t) ≤
        108 * (loudness n (fun t => channel Stereo.left blocks.flatten t) + loudness n (fun t => channel Stereo.right blocks.flatten t)) := by
  have P : Modulated (resetUI : Params ℝ) := by constructor <;> simp only [resetUI, real_arith] <;> norm_num
  have e1 : (resetUI : Params ℝ).modDepth = 0.5 := by simp only [resetUI, real_arith]; norm_num
  have e2 : (resetUI : Params ℝ).tailDensity = 70 := by simp only [resetUI, real_arith]; norm_num
  have e3 : (resetUI : Params ℝ).decay = 50 := by simp only [resetUI, real_arith]; norm_num
  have e4 : (resetUI : Params ℝ).predelay = 0 := by simp only [resetUI, real_arith]; norm_num
  obtain ⟨w0, w1⟩ := wobble_default hsr
  have main := C103_modulated_partial sr hsr k hk resetUI P
  rw [e1, e2, e3, e4] at main
  generalize wobble (min 192000 sr) 0.5 = η at w0 w1 main
  have s0 : 0 ≤ Real.sqrt (1 + η) := Real.sqrt_nonneg _
  have s1 : Real.sqrt (1 + η) ≤ 1.0556 := Real.sqrt_le_iff.2 ⟨by norm_num, by norm_num at w1 ⊢; linarith⟩
  have q : 0.2610 ≤ 1 - 70 / 100 * Real.sqrt (1 + η) := by norm_num at s1 ⊢; linarith
  have q2 : (0.2610:ℝ) ^ 2 ≤ (1 - 70 / 100 * Real.sqrt (1 + η)) ^ 2 := pow_le_pow_left₀ (by norm_num) q 2
  have S0 : 0 ≤ swell η (70 / 100) := Real.sqrt_nonneg _
  have S1 : swell η (70 / 100) ≤ 1.636 := by
    refine Real.sqrt_le_iff.2 ⟨by norm_num, ?_⟩
    have : η / (1 - 70 / 100 * Real.sqrt (1 + η)) ^ 2 ≤ (9 / 79) / 0.2610 ^ 2 := div_le_div₀ (by norm_num) w1 (by norm_num) q2
    norm_num at this ⊢
    linarith
  obtain ⟨ys, e, hl, h⟩ := main (by linarith) (by linarith) (by norm_num; linarith) blocks hlen
  refine ⟨ys, e, hl, fun n hn ch hch => (h n hn ch hch).trans ?_⟩
  have a : ∀ t, arriving (min 192000 sr) 0 t = t := fun t => by simp [arriving]
  simp only [a]
  refine mul_le_mul_of_nonneg_right ?_ (add_nonneg (Real.sqrt_nonneg _) (Real.sqrt_nonneg _))
  rw [div_le_iff₀ (by norm_num; linarith)]
  norm_num
  linarith

end Verif.FVerbDSP
