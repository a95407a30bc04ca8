import Verif.Model.Oscillators
import Verif.Lemmas.LinearBlocks
import Verif.Float.IntConv
import Verif.Float.Convex
import Mathlib.Data.ZMod.Basic
import Mathlib.Algebra.Ring.GeomSum
import Mathlib.Data.Nat.Prime.Basic
import Mathlib.Tactic.Ring

/-!
# Property C40: the noise generator
-/

set_option linter.unusedSectionVars false

namespace Verif
open FP

namespace LFNoise2

/-! ### The random sequence -/

/-- `1 + a + … + a^(n-1)` for the multiplier of the generator. -/
def S (n : ℕ) : ℕ := ∑ i ∈ Finset.range n, 1664525 ^ i

theorem S_succ (n : ℕ) : S (n + 1) = S n + 1664525 ^ n := Finset.sum_range_succ _ _

theorem S_add (n m : ℕ) : S (n + m) = S n + 1664525 ^ n * S m := by
  induction m with
  | zero => simp [S]
  | succ m ih => rw [← Nat.add_assoc, S_succ, ih, S_succ]; ring

/-- `n` draws, in closed form. -/
theorem iterate_closed (n x : ℕ) (hx : x < 2 ^ 32) :
    nextSeed^[n] x = (1664525 ^ n * x + 1013904223 * S n) % 2 ^ 32 := by
  induction n with
  | zero => rw [Function.iterate_zero_apply, pow_zero, one_mul, show S 0 = 0 from rfl, mul_zero, add_zero, Nat.mod_eq_of_lt hx]
  | succ n ih =>
    rw [Function.iterate_succ_apply', ih]
    simp only [nextSeed]
    have h1 : ((1664525 ^ n * x + 1013904223 * S n) % 2 ^ 32 * 1664525 + 1013904223) % 2 ^ 32 =
        ((1664525 ^ n * x + 1013904223 * S n) * 1664525 + 1013904223) % 2 ^ 32 := by
      rw [Nat.add_mod, Nat.mod_mul_mod, ← Nat.add_mod]
    rw [h1]
    have h2 : S (n + 1) = 1 + 1664525 * S n := by rw [Nat.add_comm n 1, S_add]; simp [S]
    have h3 : (1664525 ^ n * x + 1013904223 * S n) * 1664525 + 1013904223 =
        1664525 ^ (n + 1) * x + 1013904223 * S (n + 1) := by rw [h2]; ring
    rw [h3]

/-- The geometric sums have exactly the factors of two of their length (the multiplier is `1` modulo `4`). -/
theorem two_pow_dvd_S (k n : ℕ) : 2 ^ k ∣ S n ↔ 2 ^ k ∣ n := by
  induction k generalizing n with
  | zero => simp
  | succ k ih =>
    have hodd : ∀ n, S (2 * n + 1) % 2 = 1 := by
      intro n
      have hpar : ∀ m, S m % 2 = m % 2 := by
        intro m
        induction m with
        | zero => rfl
        | succ m ih =>
          have : 1664525 ^ m % 2 = 1 := by
            rw [Nat.pow_mod]; norm_num
          rw [S_succ]; omega
      rw [hpar]; omega
    rcases Nat.even_or_odd' n with ⟨m, rfl | rfl⟩
    · have e : S (2 * m) = S m * (1 + 1664525 ^ m) := by rw [two_mul, S_add]; ring
      have h4 : 1664525 ^ m % 4 = 1 := by rw [Nat.pow_mod]; norm_num
      obtain ⟨u, hu⟩ : ∃ u, 1 + 1664525 ^ m = 2 * (2 * u + 1) := ⟨(1664525 ^ m) / 4, by omega⟩
      rw [e, hu, pow_succ, show S m * (2 * (2 * u + 1)) = (S m * (2 * u + 1)) * 2 by ring, mul_comm 2 m]
      rw [Nat.mul_dvd_mul_iff_right (by norm_num), Nat.mul_dvd_mul_iff_right (by norm_num), ← ih m]
      refine (Nat.Coprime.dvd_mul_right (Nat.Coprime.pow_left k ?_))
      exact (Nat.coprime_two_left).mpr ⟨u, rfl⟩
    · have h := hodd m
      constructor
      · intro hd
        have : 2 ∣ S (2 * m + 1) := (Dvd.intro_left (2 ^ k) (pow_succ 2 k).symm).trans hd
        omega
      · intro hd
        have : 2 ∣ 2 * m + 1 := (Dvd.intro_left (2 ^ k) (pow_succ 2 k).symm).trans hd
        omega

theorem nextSeed_lt (x : ℕ) : nextSeed x < 2 ^ 32 := Nat.mod_lt _ (by norm_num)

theorem iterate_lt (n x : ℕ) (hx : x < 2 ^ 32) : nextSeed^[n] x < 2 ^ 32 := by
  cases n with
  | zero => exact hx
  | succ n => rw [Function.iterate_succ_apply']; exact nextSeed_lt _

/-- A seed recurs exactly after multiples of `2^32` draws. -/
theorem recurs_iff (n x : ℕ) (hx : x < 2 ^ 32) : nextSeed^[n] x = x ↔ 2 ^ 32 ∣ n := by
  rw [iterate_closed n x hx, ← two_pow_dvd_S 32 n]
  have e : 1664525 ^ n * x + 1013904223 * S n = x + S n * (1664524 * x + 1013904223) := by
    have : (1664525:ℕ) ^ n = 1 + 1664524 * S n := by
      induction n with
      | zero => simp [S]
      | succ n ih => rw [S_succ, pow_succ]; omega
    rw [this]; ring
  rw [e]
  have hcop : Nat.Coprime (2 ^ 32) (1664524 * x + 1013904223) :=
    Nat.Coprime.pow_left 32 (Nat.coprime_two_left.mpr ⟨832262 * x + 506952111, by ring⟩)
  constructor
  · intro h
    have : (x + S n * (1664524 * x + 1013904223)) % 2 ^ 32 = x % 2 ^ 32 := by rw [h, Nat.mod_eq_of_lt hx]
    have hd : 2 ^ 32 ∣ S n * (1664524 * x + 1013904223) := by
      have := (Nat.modEq_iff_dvd' (Nat.le_add_right x _)).mp this.symm
      simpa using this
    exact hcop.dvd_of_dvd_mul_right hd
  · intro ⟨m, hm⟩
    rw [hm, mul_assoc, Nat.add_mul_mod_self_left, Nat.mod_eq_of_lt hx]

theorem full_period (M seed : ℕ) (hM : M = 2 ^ 32) (hs : seed < M) :
    nextSeed^[M] seed = seed ∧
      (∀ n m, n < M → m < M → nextSeed^[n] seed = nextSeed^[m] seed → n = m) ∧
      ∀ x < M, ∃ n < M, nextSeed^[n] seed = x := by
  have hs' : seed < 2 ^ 32 := hM ▸ hs
  have hrec : ∀ n x, x < M → (nextSeed^[n] x = x ↔ M ∣ n) := by
    intro n x hx; rw [hM] at hx ⊢; exact recurs_iff n x hx
  have hlt : ∀ n, nextSeed^[n] seed < M := by
    intro n; rw [hM]; exact iterate_lt n seed hs'
  clear hM hs'
  have inj : ∀ n m, n < M → m < M → nextSeed^[n] seed = nextSeed^[m] seed → n = m := by
    have aux : ∀ n d, n + d < M → nextSeed^[n] seed = nextSeed^[n + d] seed → d = 0 := by
      intro n d hd h
      rw [Nat.add_comm, Function.iterate_add_apply] at h
      have := (hrec d _ (hlt n)).mp h.symm
      exact Nat.eq_zero_of_dvd_of_lt this (by omega)
    intro n m hn hm h
    rcases Nat.le_total n m with hle | hle
    · obtain ⟨d, rfl⟩ := Nat.exists_eq_add_of_le hle
      have := aux n d hm h; omega
    · obtain ⟨d, rfl⟩ := Nat.exists_eq_add_of_le hle
      have := aux m d hn h.symm; omega
  refine ⟨(hrec _ _ hs).mpr dvd_rfl, inj, ?_⟩
  let g : Fin M → Fin M := fun n => ⟨nextSeed^[n.1] seed, hlt _⟩
  have hg : Function.Injective g := by
    intro a b h
    exact Fin.ext (inj a.1 b.1 a.2 b.2 (Fin.mk.inj_iff.mp h))
  have hsurj := Finite.surjective_of_injective hg
  intro x hx
  obtain ⟨n, hn⟩ := hsurj ⟨x, hx⟩
  exact ⟨n.1, n.2, congrArg Fin.val hn⟩

/-- **C40**: full period. From every 32-bit seed, the first `2^32` states are pairwise different, they are all the 32-bit values,
and then the sequence repeats. -/
theorem C40_full_period (seed : ℕ) (hs : seed < 2 ^ 32) :
    nextSeed^[2 ^ 32] seed = seed ∧
      (∀ n m, n < 2 ^ 32 → m < 2 ^ 32 → nextSeed^[n] seed = nextSeed^[m] seed → n = m) ∧
      ∀ x < 2 ^ 32, ∃ n < 2 ^ 32, nextSeed^[n] seed = x :=
  full_period (2 ^ 32) seed rfl hs

example : nextSeed^[3] 12345 ≠ 12345 ∧ ∃ n < 2 ^ 32, nextSeed^[n] 12345 = 0 :=
  ⟨by decide, (C40_full_period 12345 (by norm_num)).2.2 0 (by norm_num)⟩

/-! ### Range and reproducibility -/

theorem sample_in (x : ℕ) (hx : x < 2 ^ 32) : (seedSample x : F32).In (-1) 1 := by
  have h32 : binary32.Rep (2 ^ 32) false := rep_two_pow (by norm_num)
  have h1 : (Arith.ofNat x : F32).In 0 (2 ^ 32) := by
    show (ofRat ((x:ℤ):ℚ) : F32).In 0 (2 ^ 32)
    refine ofRat_in rep_zero h32 (by push_cast; positivity) ?_
    have : (x:ℚ) ≤ (2 ^ 32 : ℕ) := by exact_mod_cast hx.le
    push_cast at this ⊢; exact this
  have hN : (LCG_NORM : F32).In (2 ^ 31) (2 ^ 31) := by decide +kernel
  have h2 : (Arith.ofNat x / LCG_NORM : F32).In 0 2 := by
    refine div_in h1.1 hN.1 (by rw [hN.val_eq]; norm_num) rep_zero (by decide +kernel) ?_ ?_ <;> rw [hN.val_eq]
    · exact div_nonneg h1.2.1 (by norm_num)
    · rw [div_le_iff₀ (by norm_num)]
      have := h1.2.2; norm_num at this ⊢; linarith
  exact sub_in h2 lit_one (Rep.neg rep_one) rep_one (by norm_num) (by norm_num)

/-- **C40**: every random value of the generator is in `[-1, 1]`, in single precision, for every seed. The upper end is reached
(the conversion of the largest states to float rounds up to `2^32`). -/
theorem C40_random_range (seed : ℕ) : ((nextRandom seed).2 : F32).In (-1) 1 := sample_in _ (nextSeed_lt seed)

theorem C40_one_reached : (seedSample (2 ^ 32 - 1) : F32) = lit 1 := by decide +kernel

/-- Calls a user can make. -/
inductive Call (α : Type) where
  | setFrequency (f : α)
  | setSeed (seed : ℕ)
  | reset (seed : ℕ)
  | tick

/-- Perform calls; collect state and outputs. -/
def run {α : Type} [Arith α] : Osc α → List (Call α) → Osc α × List α
  | s, [] => (s, [])
  | s, .setFrequency f :: cs => run (setFrequency f s) cs
  | s, .setSeed k :: cs => run (setSeed k s) cs
  | s, .reset k :: cs => run (reset k s) cs
  | s, .tick :: cs => let r := tick s; let q := run r.1 cs; (q.1, r.2 :: q.2)

/-- Frequencies at most the sample rate (not NaN). -/
def InRange (sr : F32) : Call F32 → Prop
  | .setFrequency f => f ≠ .nan ∧ ((f >. sr) = false)
  | _ => True

/-- The output of the interpolation is a number (bounded by 100, far from overflow). -/
theorem interp_in {t a b c d : F32} (ht : t.In 0 1) (ha : a.In (-1) 1) (hb : b.In (-1) 1) (hc : c.In (-1) 1)
    (hd : d.In (-1) 1) : (interp t a b c d).In (-100) 100 := by
  have r1 := rep_one (f := binary32)
  have r0 := rep_zero (f := binary32)
  have h5 : (lit 0.5 : F32).In 0.5 0.5 := lit_rep (by decide +kernel)
  have h15 : (lit 1.5 : F32).In 1.5 1.5 := lit_rep (by decide +kernel)
  have h25 : (lit 2.5 : F32).In 2.5 2.5 := lit_rep (by decide +kernel)
  have h2 : (lit 2 : F32).In 2 2 := lit_rep (by decide +kernel)
  have h1 := lit_one (f := binary32)
  have m : ∀ {k x : F32} {K : ℚ}, k.In K K → x.In 0 1 → |K| ≤ 4 → (k * x).In (-4) 4 := by
    intro k x K hk hx hK
    have := abs_le.mp hK
    refine mul_in hk.1 hx.1 (by decide +kernel) (by decide +kernel) ?_ ?_ <;> rw [hk.val_eq] <;>
      nlinarith [hx.2.1, hx.2.2]
  have t2 : (t * t).In 0 1 := mul_in ht.1 ht.1 r0 r1 (by nlinarith [ht.2.1]) (by nlinarith [ht.2.1, ht.2.2])
  have t3 : (t * t * t).In 0 1 := mul_in t2.1 ht.1 r0 r1 (mul_nonneg t2.2.1 ht.2.1) (by nlinarith [ht.2.1, ht.2.2, t2.2.1, t2.2.2])
  have t2' : (t * t).In (-4) 4 := t2.mono (by norm_num) (by norm_num)
  have h1' : (lit 1 : F32).In (-4) 4 := h1.mono (by norm_num) (by norm_num)
  have ad : ∀ {x y : F32} {A B C : ℚ}, x.In (-A) A → y.In (-B) B → binary32.Rep C false → A + B ≤ C → (x + y).In (-C) C := by
    intro x y A B C hx hy hC h
    exact add_in hx hy (Rep.neg hC) hC (by linarith) (by linarith)
  have sb : ∀ {x y : F32} {A B C : ℚ}, x.In (-A) A → y.In (-B) B → binary32.Rep C false → A + B ≤ C → (x - y).In (-C) C := by
    intro x y A B C hx hy hC h
    exact sub_in hx hy (Rep.neg hC) hC (by linarith) (by linarith)
  have r8 : binary32.Rep 8 false := by decide +kernel
  have r12 : binary32.Rep 12 false := by decide +kernel
  have n5 : (-lit 0.5 : F32).In (-0.5) (-0.5) := neg_in h5
  have n15 : (-lit 1.5 : F32).In (-1.5) (-1.5) := neg_in h15
  have c0 : (-lit 0.5 * (t * t * t) + t * t - lit 0.5 * t : F32).In (-12) 12 :=
    sb (ad (m n5 t3 (by norm_num)) t2' r8 (by norm_num)) (m h5 ht (by norm_num)) r12 (by norm_num)
  have c1 : (lit 1.5 * (t * t * t) - lit 2.5 * (t * t) + lit 1 : F32).In (-12) 12 :=
    ad (sb (m h15 t3 (by norm_num)) (m h25 t2 (by norm_num)) r8 (by norm_num)) h1' r12 (by norm_num)
  have c2 : (-lit 1.5 * (t * t * t) + lit 2 * (t * t) + lit 0.5 * t : F32).In (-12) 12 :=
    ad (ad (m n15 t3 (by norm_num)) (m h2 t2 (by norm_num)) r8 (by norm_num)) (m h5 ht (by norm_num)) r12 (by norm_num)
  have c3 : (lit 0.5 * (t * t * t) - lit 0.5 * (t * t) : F32).In (-12) 12 :=
    (sb (m h5 t3 (by norm_num)) (m h5 t2 (by norm_num)) r8 (by norm_num)).mono (by norm_num) (by norm_num)
  have mp : ∀ {x p : F32}, x.In (-12) 12 → p.In (-1) 1 → (x * p).In (-12) 12 := by
    intro x p hx hp
    have : |x.val * p.val| ≤ 12 := by
      rw [abs_mul]
      have h1 : |x.val| ≤ 12 := abs_le.mpr ⟨hx.2.1, hx.2.2⟩
      have h2 : |p.val| ≤ 1 := abs_le.mpr ⟨hp.2.1, hp.2.2⟩
      nlinarith [abs_nonneg x.val, abs_nonneg p.val]
    exact mul_in hx.1 hp.1 (Rep.neg r12) r12 (abs_le.mp this).1 (abs_le.mp this).2
  have s1 := ad (mp c0 ha) (mp c1 hb) (by decide +kernel : binary32.Rep 24 false) (by norm_num)
  have s2 := ad s1 (mp c2 hc) (by decide +kernel : binary32.Rep 36 false) (by norm_num)
  exact ad s2 (mp c3 hd) (by decide +kernel : binary32.Rep 100 false) (by norm_num)

/-- State invariant. -/
structure Inv (sr : F32) (s : Osc F32) : Prop where
  sr : s.sampleRate = sr
  phase : s.phase.In 0 1
  inc : s.phaseIncrement.In 0 1
  p0 : s.p0.In (-1) 1
  p1 : s.p1.In (-1) 1
  p2 : s.p2.In (-1) 1
  p3 : s.p3.In (-1) 1

theorem drawPoints_inv {sr : F32} {s : Osc F32} (h1 : s.sampleRate = sr) (h2 : s.phase.In 0 1) (h3 : s.phaseIncrement.In 0 1) :
    Inv sr (drawPoints s) := by
  have hr : ∀ r : ℕ × F32, (∃ k, nextRandom k = r) → r.2.In (-1) 1 := by
    rintro r ⟨k, rfl⟩; exact C40_random_range k
  unfold drawPoints
  generalize e0 : (nextRandom s.seed : ℕ × F32) = r0
  obtain ⟨s0, a⟩ := r0
  dsimp only
  generalize e1 : (nextRandom s0 : ℕ × F32) = r1
  obtain ⟨s1, b⟩ := r1
  dsimp only
  generalize e2 : (nextRandom s1 : ℕ × F32) = r2
  obtain ⟨s2, c⟩ := r2
  dsimp only
  generalize e3 : (nextRandom s2 : ℕ × F32) = r3
  obtain ⟨s3, d⟩ := r3
  exact ⟨h1, h2, h3, hr _ ⟨_, e0⟩, hr _ ⟨_, e1⟩, hr _ ⟨_, e2⟩, hr _ ⟨_, e3⟩⟩

theorem inc_in {sr f : F32} (hsr : sr.isFin = true) (h1 : 1 ≤ sr.val) (hf : f ≠ .nan) (hfs : (f >. sr) = false) :
    ((if f >. lit 0 then f else lit 0.001) / sr : F32).In 0 1 := by
  have hs0 : 0 < sr.val := by linarith
  have hx : (if f >. lit 0 then f else lit 0.001 : F32).In 0 sr.val := by
    split_ifs with h
    · cases f with
      | nan => exact absurd rfl hf
      | inf b =>
        cases b with
        | true => exact absurd h (by decide +kernel)
        | false =>
          obtain ⟨v, nz, hv, rfl⟩ := isFin_cases hsr
          exact absurd hfs (by simp [Arith.lt, FP.lt])
      | fin v nz hv =>
        rw [lt_fin lit_zero.1 rfl, lit_zero.val_eq] at h
        rw [lt_fin hsr rfl] at hfs
        have h' : 0 < v := of_decide_eq_true h
        have h'' : ¬ (sr.val < v) := of_decide_eq_false hfs
        exact ⟨rfl, h'.le, not_lt.mp h''⟩
    · have : (lit 0.001 : F32).In 0 1 := by decide +kernel
      exact this.mono le_rfl h1
  refine div_in hx.1 hsr hs0.ne' rep_zero rep_one (div_nonneg hx.2.1 hs0.le) ?_
  rw [div_le_one hs0]; exact hx.2.2

theorem inv_init {sr : F32} (hsr : sr.isFin = true) (h1 : 1 ≤ sr.val) (seed : ℕ) : Inv sr (init sr seed) := by
  refine drawPoints_inv rfl ((lit_zero (f := binary32)).mono le_rfl (by norm_num)) ?_
  have hs0 : 0 < sr.val := by linarith
  have hone := lit_one (f := binary32)
  have h : (lit 1 / sr : F32).In 0 1 := by
    refine div_in hone.1 hsr hs0.ne' rep_zero rep_one (div_nonneg (by linarith [hone.2.1]) hs0.le) ?_
    rw [div_le_one hs0, hone.val_eq]; exact h1
  exact h

theorem inv_setFrequency {sr : F32} (hsr : sr.isFin = true) (h1 : 1 ≤ sr.val) {s : Osc F32} (hs : Inv sr s) {f : F32}
    (hf : f ≠ .nan) (hfs : (f >. sr) = false) : Inv sr (setFrequency f s) := by
  refine { hs with inc := ?_ }
  simp only [setFrequency, updatePhaseIncrement, hs.sr]
  exact inc_in hsr h1 hf hfs

theorem inv_reset {sr : F32} {s : Osc F32} (hs : Inv sr s) (k : ℕ) : Inv sr (reset k s) :=
  drawPoints_inv hs.sr ((lit_zero (f := binary32)).mono le_rfl (by norm_num)) hs.inc

theorem inv_tick {sr : F32} {s : Osc F32} (hs : Inv sr s) : Inv sr (tick s).1 ∧ (tick s).2.In (-1) 1 := by
  have hone := lit_one (f := binary32)
  have hq : (s.phase + s.phaseIncrement).In 0 2 :=
    add_in hs.phase hs.inc rep_zero (by decide +kernel) (by norm_num) (by norm_num)
  have hout : (tick s).2.In (-1) 1 := by
    have hi := interp_in hs.phase hs.p0 hs.p1 hs.p2 hs.p3
    have hn : interp s.phase s.p0 s.p1 s.p2 s.p3 ≠ .nan := by
      intro e; rw [e] at hi; exact absurd hi.1 (by simp)
    exact clamp_in hn (neg_in hone) hone (by norm_num)
  refine ⟨?_, hout⟩
  by_cases h : ((s.phase + s.phaseIncrement) >=. lit 1) = true
  · have e : (tick s).1 =
        (⟨s.p1, s.p2, s.p3, (nextRandom s.seed).2, s.phase + s.phaseIncrement - lit 1, s.phaseIncrement, s.frequency,
          s.sampleRate, (nextRandom (α := F32) s.seed).1⟩ : Osc F32) := by
      simp only [tick, h, if_true]
    rw [e]
    rw [le_fin hone.1 hq.1, hone.val_eq] at h
    have h' : 1 ≤ (s.phase + s.phaseIncrement).val := by simpa using h
    exact ⟨hs.sr, sub_in (⟨hq.1, h', hq.2.2⟩ : (s.phase + s.phaseIncrement).In 1 2) hone rep_zero rep_one
      (by norm_num) (by norm_num), hs.inc, hs.p1, hs.p2, hs.p3, C40_random_range _⟩
  · have e : (tick s).1 = { s with phase := s.phase + s.phaseIncrement } := by simp [tick, h]
    rw [e]
    rw [le_fin hone.1 hq.1, hone.val_eq] at h
    have h' : (s.phase + s.phaseIncrement).val < 1 := by simpa using h
    exact ⟨hs.sr, ⟨hq.1, hq.2.1, h'.le⟩, hs.inc, hs.p0, hs.p1, hs.p2, hs.p3⟩

/-- **C40** in single precision, rounding included: with frequencies up to the sample rate, every output is in `[-1, 1]` after
any history of calls and whatever the seeds. -/
theorem C40_output_range (sr : F32) (hsr : sr.isFin = true) (h1 : 1 ≤ sr.val) (seed : ℕ) (cs : List (Call F32))
    (hcs : ∀ c ∈ cs, InRange sr c) : ∀ y ∈ (run (init sr seed) cs).2, y.In (-1) 1 := by
  have key : ∀ (cs : List (Call F32)) (s : Osc F32), Inv sr s → (∀ c ∈ cs, InRange sr c) →
      ∀ y ∈ (run s cs).2, y.In (-1) 1 := by
    intro cs
    induction cs with
    | nil => intro s _ _; simp [run]
    | cons c cs ih =>
      intro s hs hT
      have hT' : ∀ c ∈ cs, InRange sr c := fun c hc => hT c (List.mem_cons_of_mem _ hc)
      have hc := hT c List.mem_cons_self
      cases c with
      | setFrequency f => exact ih (setFrequency f s) (inv_setFrequency hsr h1 hs hc.1 hc.2) hT'
      | setSeed k => exact ih (setSeed k s) { hs with } hT'
      | reset k => exact ih (reset k s) (inv_reset hs k) hT'
      | tick =>
        intro y hy
        simp only [run, List.mem_cons] at hy
        rcases hy with rfl | hy
        · exact (inv_tick hs).2
        · exact ih _ (inv_tick hs).1 hT' y hy
  exact key cs _ (inv_init hsr h1 seed) hcs

/-- **C40** in any arithmetic: after any history, `reset(seed)` continues exactly like a fresh `init` with that seed at the same
frequency: all later outputs and states agree. -/
theorem C40_reset_like_init {α : Type} [Arith α] (sr : α) (seed0 seed : ℕ) (f : α) (before after : List (Call α)) :
    run (setFrequency f (reset seed (run (init sr seed0) before).1)) after =
      run (setFrequency f (init sr seed)) after := by
  have hsr : ∀ (cs : List (Call α)) (s : Osc α), (run s cs).1.sampleRate = s.sampleRate := by
    intro cs
    induction cs with
    | nil => intro s; rfl
    | cons c cs ih =>
      intro s
      cases c with
      | tick =>
        simp only [run]
        rw [ih]
        simp only [tick]
        split_ifs <;> rfl
      | setFrequency f => exact ih _
      | setSeed k => exact ih _
      | reset k => exact ih _
  have h := hsr before (init sr seed0)
  have e : setFrequency f (reset seed (run (init sr seed0) before).1) = setFrequency f (init sr seed) := by
    generalize (run (init sr seed0) before).1 = s at h
    obtain ⟨_, _, _, _, _, _, _, _, _⟩ := s
    have h' : _ = sr := h
    subst h'
    rfl
  rw [e]

/-- **C40** in any arithmetic: after `setSeed(seed)` the points drawn are the samples of the seeds that follow `seed`, one after the
other, and when they are drawn does not depend on the seed: after `n` ticks `w` points have been drawn, the newest of them is the `w`-th
sample, the one before it the `(w-1)`-th, and so on through all four points. -/
theorem C40_set_seed {α : Type} [Arith α] (s : Osc α) (n : ℕ) : ∃ w ≤ n, ∀ seed : ℕ,
    (tickState tick n (setSeed seed s)).seed = nextSeed^[w] seed ∧
      (1 ≤ w → (tickState tick n (setSeed seed s)).p3 = seedSample (nextSeed^[w] seed)) ∧
      (2 ≤ w → (tickState tick n (setSeed seed s)).p2 = seedSample (nextSeed^[w - 1] seed)) ∧
      (3 ≤ w → (tickState tick n (setSeed seed s)).p1 = seedSample (nextSeed^[w - 2] seed)) ∧
      (4 ≤ w → (tickState tick n (setSeed seed s)).p0 = seedSample (nextSeed^[w - 3] seed)) := by
  suffices h : ∃ w ≤ n, ∃ φ δ : α, ∀ seed : ℕ,
      (tickState tick n (setSeed seed s)).phase = φ ∧ (tickState tick n (setSeed seed s)).phaseIncrement = δ ∧
      (tickState tick n (setSeed seed s)).seed = nextSeed^[w] seed ∧
      (1 ≤ w → (tickState tick n (setSeed seed s)).p3 = seedSample (nextSeed^[w] seed)) ∧
      (2 ≤ w → (tickState tick n (setSeed seed s)).p2 = seedSample (nextSeed^[w - 1] seed)) ∧
      (3 ≤ w → (tickState tick n (setSeed seed s)).p1 = seedSample (nextSeed^[w - 2] seed)) ∧
      (4 ≤ w → (tickState tick n (setSeed seed s)).p0 = seedSample (nextSeed^[w - 3] seed)) by
    obtain ⟨w, hw, φ, δ, h⟩ := h
    exact ⟨w, hw, fun seed => (h seed).2.2⟩
  induction n with
  | zero =>
    exact ⟨0, le_rfl, s.phase, s.phaseIncrement, fun seed => ⟨rfl, rfl, rfl, by omega, by omega, by omega, by omega⟩⟩
  | succ n ih =>
    obtain ⟨w, hw, φ, δ, h⟩ := ih
    by_cases c : ((φ + δ) >=. lit 1) = true
    · refine ⟨w + 1, by omega, φ + δ - lit 1, δ, fun seed => ?_⟩
      obtain ⟨h1, h2, h3, h4, h5, h6, -⟩ := h seed
      rw [tickState_succ]
      simp only [tick, h1, h2, if_pos c, nextRandom, h3]
      rw [← Function.iterate_succ_apply' nextSeed]
      refine ⟨trivial, trivial, rfl, fun _ => rfl, fun g => ?_, fun g => ?_, fun g => ?_⟩
      · rw [h4 (by omega)]; rfl
      · rw [h5 (by omega)]; rfl
      · rw [h6 (by omega)]; rfl
    · refine ⟨w, by omega, φ + δ, δ, fun seed => ?_⟩
      obtain ⟨h1, h2, h3⟩ := h seed
      rw [tickState_succ]
      simp only [tick, h1, h2, if_neg c]
      exact ⟨trivial, trivial, h3⟩

example : ∀ y ∈ (run (init (lit 48000 : F32) 7) [.tick, .setFrequency (lit 48000), .tick, .setSeed 3, .tick, .reset 9, .tick]).2,
    y.In (-1) 1 := by
  refine C40_output_range (lit 48000) (by decide +kernel) (by decide +kernel) 7 _ ?_
  simp only [List.forall_mem_cons, List.not_mem_nil, false_imp_iff, implies_true, and_true, InRange]
  decide +kernel

end LFNoise2
end Verif
