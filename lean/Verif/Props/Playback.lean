import Verif.Props.BufRd
import Verif.Props.Lines

/-!
# C61: a Phasor driving a BufRd plays a sample without drift
-/

namespace Verif
open FP

/-- The single-precision number `x` is exactly `z * 2^k`. -/
def On (k : ℤ) (x : F32) (z : ℤ) : Prop := x.isFin = true ∧ x.val = z * (2:ℚ) ^ k

instance (k : ℤ) (x : F32) (z : ℤ) : Decidable (On k x z) := by unfold On; infer_instance

theorem On.toIn {k z : ℤ} {x : F32} (h : On k x z) : x.In (z * (2:ℚ) ^ k) (z * (2:ℚ) ^ k) := ⟨h.1, h.2.ge, h.2.le⟩

theorem In.toOn {k z : ℤ} {x : F32} (h : x.In (z * (2:ℚ) ^ k) (z * (2:ℚ) ^ k)) : On k x z := ⟨h.1, le_antisymm h.2.2 h.2.1⟩

theorem rep_on {k z : ℤ} (hk : -149 ≤ k ∧ k ≤ 100) (hz : |z| ≤ 2 ^ 24) : binary32.Rep (z * (2:ℚ) ^ k) false := by
  refine ⟨binary32.grid_of_mult hk.1 hz, ?_, by simp⟩
  rw [abs_mul, abs_of_pos (by positivity : (0:ℚ) < 2 ^ k), ← Int.cast_abs]
  have h1 : ((|z| : ℤ) : ℚ) ≤ 2 ^ (24:ℤ) := by exact_mod_cast hz
  calc ((|z| : ℤ) : ℚ) * 2 ^ k ≤ 2 ^ (24:ℤ) * 2 ^ (100:ℤ) :=
        mul_le_mul h1 (zpow_le_zpow_right₀ (by norm_num) hk.2) (by positivity) (by positivity)
    _ < 2 ^ binary32.emaxp1 := by rw [← zpow_add₀ (by norm_num)]; exact zpow_lt_zpow_right₀ (by norm_num) (by decide)

theorem On.add {k a b : ℤ} {x y : F32} (hk : -149 ≤ k ∧ k ≤ 100) (hx : On k x a) (hy : On k y b) (h : |a + b| ≤ 2 ^ 24) :
    On k (x + y) (a + b) := by
  refine In.toOn (add_in hx.toIn hy.toIn (rep_on hk h) (rep_on hk h) ?_ ?_) <;> push_cast <;> rw [add_mul]

theorem On.sub {k a b : ℤ} {x y : F32} (hk : -149 ≤ k ∧ k ≤ 100) (hx : On k x a) (hy : On k y b) (h : |a - b| ≤ 2 ^ 24) :
    On k (x - y) (a - b) := by
  refine In.toOn (sub_in hx.toIn hy.toIn (rep_on hk h) (rep_on hk h) ?_ ?_) <;> push_cast <;> rw [sub_mul]

theorem On.lt {k a b : ℤ} {x y : F32} (hx : On k x a) (hy : On k y b) : (x <. y) = decide (a < b) := by
  rw [lt_fin hx.1 hy.1, hx.2, hy.2]
  rw [decide_eq_decide, mul_lt_mul_iff_left₀ (by positivity)]
  exact Int.cast_lt

theorem On.le {k a b : ℤ} {x y : F32} (hx : On k x a) (hy : On k y b) : (x <=. y) = decide (a ≤ b) := by
  rw [le_fin hx.1 hy.1, hx.2, hy.2]
  rw [decide_eq_decide, mul_le_mul_iff_left₀ (by positivity)]
  exact Int.cast_le

theorem On.zero (k : ℤ) : On k (lit 0) 0 := ⟨lit_zero.1, by rw [lit_zero.val_eq]; simp⟩

theorem truncQ_div (p : ℤ) {n : ℤ} (hn : 0 < n) : truncQ ((p:ℚ) / n) = p.tdiv n := by
  have hn' : (0:ℚ) < n := by exact_mod_cast hn
  obtain ⟨m, rfl⟩ := Int.eq_ofNat_of_zero_le hn.le
  unfold truncQ
  have hfl : ∀ q : ℤ, ⌊(q:ℚ) / ((m:ℤ):ℚ)⌋ = q / (m:ℤ) := fun q => by
    have := Rat.floor_intCast_div_natCast q m; exact_mod_cast this
  split_ifs with h1
  · have hp0 : 0 ≤ p := by
      have h3 : (0:ℚ) ≤ p := by
        by_contra hc
        exact absurd h1 (not_le.2 (div_neg_of_neg_of_pos (not_le.1 hc) hn'))
      exact_mod_cast h3
    rw [hfl, Int.tdiv_eq_ediv_of_nonneg hp0]
  · have hp0 : p < 0 := by
      by_contra hc
      apply h1
      have : (0:ℚ) ≤ p := by exact_mod_cast not_lt.1 hc
      positivity
    have : ⌈(p:ℚ) / ((m:ℤ):ℚ)⌉ = -⌊((-p : ℤ):ℚ) / ((m:ℤ):ℚ)⌋ := by rw [← Int.ceil_neg]; congr 1; push_cast; ring
    rw [this, hfl, ← Int.tdiv_eq_ediv_of_nonneg (by omega), Int.neg_tdiv, neg_neg]

theorem abs_tmod_lt' (p : ℤ) {n : ℤ} (h : 0 < n) : -n < p.tmod n ∧ p.tmod n < n := by
  obtain ⟨m, rfl⟩ := Int.eq_ofNat_of_zero_le h.le
  exact BufRd.abs_tmod_lt p (by exact_mod_cast h)

theorem On.fmod {k p n : ℤ} {x y : F32} (hk : -149 ≤ k ∧ k ≤ 100) (hx : On k x p) (hy : On k y n) (hn : 0 < n) (hn' : n ≤ 2 ^ 24) :
    On k (Arith.fmod x y) (p.tmod n) := by
  have hu : (0:ℚ) < 2 ^ k := by positivity
  have hnq : (0:ℚ) < n := by exact_mod_cast hn
  obtain ⟨v, nz, hv, rfl⟩ := isFin_cases hx.1
  obtain ⟨w, mz, hw, rfl⟩ := isFin_cases hy.1
  have hv' : v = p * 2 ^ k := hx.2
  have hw' : w = n * 2 ^ k := hy.2
  subst hv' hw'
  show On k (if (n * 2 ^ k : ℚ) = 0 then nan else ofRat ((p * 2 ^ k : ℚ) - n * 2 ^ k * truncQ (p * 2 ^ k / (n * 2 ^ k))) _ : F32) _
  rw [if_neg (by positivity), mul_div_mul_right _ _ hu.ne', truncQ_div p hn]
  have : (p * 2 ^ k : ℚ) - n * 2 ^ k * ((p.tdiv n : ℤ) : ℚ) = ((p.tmod n : ℤ) : ℚ) * 2 ^ k := by
    have h2 : ((n:ℤ) : ℚ) * ((p.tdiv n : ℤ):ℚ) + ((p.tmod n : ℤ):ℚ) = p := by exact_mod_cast Int.mul_tdiv_add_tmod p n
    rw [← h2]; ring
  rw [this]
  have hr : binary32.Rep (((p.tmod n : ℤ) : ℚ) * 2 ^ k) false := rep_on hk (by
    have := abs_tmod_lt' p hn
    rw [abs_le]; omega)
  exact In.toOn (ofRat_rep hr)

/-- Truncated remainder corrected to the floored one. -/
theorem emod_of_tmod (p : ℤ) {n : ℤ} (hn : 0 < n) : p % n = if p.tmod n < 0 then p.tmod n + n else p.tmod n := by
  have h2 := Int.tmod_add_mul_tdiv p n
  have hb := abs_tmod_lt' p hn
  split_ifs with h
  · conv_lhs => rw [← h2]
    rw [Int.add_mul_emod_self_left, ← Int.add_emod_right, Int.emod_eq_of_lt (by omega) (by omega)]
  · conv_lhs => rw [← h2]
    rw [Int.add_mul_emod_self_left]
    exact Int.emod_eq_of_lt (by omega) (by omega)

namespace Phasor

/-- One wrap, exactly. -/
theorem wrap_on {k a b z : ℤ} {x y v : F32} (hk : -149 ≤ k ∧ k ≤ 100) (hx : On k x a) (hy : On k y b) (hv : On k v z) (hab : a < b)
    (ha : |a| ≤ 2 ^ 24) (hb : |b| ≤ 2 ^ 24) (hr : b - a ≤ 2 ^ 24) (hz : |z - a| ≤ 2 ^ 24) :
    On k (wrap v x y) (a + (z - a) % (b - a)) := by
  have hR : On k (y - x) (b - a) := hy.sub hk hx (by rw [abs_le]; omega)
  have hm1 := Int.emod_nonneg (z - a) (show b - a ≠ 0 by omega)
  have hm2 := Int.emod_lt_of_pos (z - a) (show 0 < b - a by omega)
  have e0 : ((y - x) >. lit 0) = true := by rw [(On.zero k).lt hR]; simpa using hab
  simp only [wrap, e0, if_true]
  rw [hy.le hv, hv.lt hx]
  by_cases h1 : (decide (b ≤ z) || decide (z < a)) = true
  · rw [if_pos h1]
    have hd : On k (v - x) (z - a) := hv.sub hk hx hz
    have hf := hd.fmod hk hR (by omega) hr
    rw [hf.lt (On.zero k)]
    have e := emod_of_tmod (z - a) (show 0 < b - a by omega)
    have hsum : |(z - a) % (b - a) + a| ≤ 2 ^ 24 := by rw [abs_le] at *; omega
    by_cases hneg : (z - a).tmod (b - a) < 0
    · rw [if_pos hneg] at e
      rw [if_pos (by simpa using hneg), add_comm a]
      refine On.add hk ?_ hx hsum
      rw [e]
      exact hf.add hk hR (by rw [← e, abs_le]; omega)
    · rw [if_neg hneg] at e
      rw [if_neg (by simpa using hneg), add_comm a]
      refine On.add hk ?_ hx hsum
      rw [e]; exact hf
  · rw [if_neg h1]
    simp only [Bool.or_eq_true, decide_eq_true_eq, not_or, not_le, not_lt] at h1
    have : a + (z - a) % (b - a) = z := by rw [Int.emod_eq_of_lt (by omega) (by omega)]; ring
    rw [this]; exact hv

/-- **C61, no drift** (bit-exact single precision): when start, end, rate and position are multiples of one power of two `2^k` and all
positions met have at most 24 bits, the phasor makes no rounding error at all: tick number `n` outputs exactly
`start + (position - start + n * rate) mod (end - start)`, for every `n`. -/
theorem C61_phasor_exact (s : Ph F32) (k a b r v : ℤ) (hk : -149 ≤ k ∧ k ≤ 100) (ha : On k s.start a) (hb : On k s.stop b)
    (hr : On k s.rate r) (hv : On k s.value v) (hab : a < b) (ha' : |a| + |r| ≤ 2 ^ 24) (hb' : |b| + |r| ≤ 2 ^ 24)
    (hr' : b - a + |r| ≤ 2 ^ 24) (hv' : |v - a| ≤ 2 ^ 24) (n : ℕ) :
    On k (tickOut tick n s) (a + (v - a + n * r) % (b - a)) := by
  have r0 := abs_nonneg r
  have r1 := neg_abs_le r
  have r2 := le_abs_self r
  have hA : |a| ≤ 2 ^ 24 := by omega
  have hB : |b| ≤ 2 ^ 24 := by omega
  have key : ∀ n : ℕ, (∃ z, On k (tickState tick n s).value z ∧ |z - a| ≤ 2 ^ 24 ∧ (z - a) % (b - a) = (v - a + n * r) % (b - a)) ∧
      (tickState tick n s).rate = s.rate ∧ (tickState tick n s).start = s.start ∧ (tickState tick n s).stop = s.stop := by
    intro n
    induction n with
    | zero => exact ⟨⟨v, hv, hv', by simp⟩, rfl, rfl, rfl⟩
    | succ n ih =>
      rw [tickState_succ]
      obtain ⟨⟨z, i1, i2, i3⟩, i4, i5, i6⟩ := ih
      generalize tickState tick n s = t at *
      refine ⟨⟨a + (z - a) % (b - a) + r, ?_, ?_, ?_⟩, i4, i5, i6⟩
      · show On k (wrap t.value t.start t.stop + t.rate) _
        rw [i4, i5, i6]
        have hm1 := Int.emod_nonneg (z - a) (show b - a ≠ 0 by omega)
        have hm2 := Int.emod_lt_of_pos (z - a) (show 0 < b - a by omega)
        refine (wrap_on hk ha hb i1 hab hA hB (by omega) i2).add hk hr ?_
        have := abs_le.1 (show |a| ≤ 2 ^ 24 - |r| by omega)
        have := abs_le.1 (show |b| ≤ 2 ^ 24 - |r| by omega)
        rw [abs_le]; omega
      · have hm1 := Int.emod_nonneg (z - a) (show b - a ≠ 0 by omega)
        have hm2 := Int.emod_lt_of_pos (z - a) (show 0 < b - a by omega)
        rw [abs_le]; omega
      · have e : a + (z - a) % (b - a) + r - a = (z - a) % (b - a) + r := by ring
        rw [e, i3, Int.emod_add_emod]
        congr 1
        push_cast; ring
  obtain ⟨⟨z, i1, i2, i3⟩, i4, i5, i6⟩ := key n
  simp only [tickOut, tick, i5, i6]
  rw [← i3]
  exact wrap_on hk ha hb i1 hab hA hB (by omega) i2

/-- Concrete case: a loop of 1000 frames played backwards at three quarters of the speed (unit 1/4). -/
example : On (-2) (tickOut tick 5 (set (lit (-0.75)) (lit 0) (lit 1000) (lit 0) (init (lit 48000 : F32)))) (0 + (0 - 0 + (5:ℕ) * -3) % (4000 - 0)) :=
  C61_phasor_exact _ (-2) 0 4000 (-3) 0 (by norm_num) (by decide +kernel) (by decide +kernel) (by decide +kernel) (by decide +kernel)
    (by norm_num) (by norm_num) (by norm_num) (by norm_num) (by norm_num) 5

end Phasor

namespace BufRd

/-- **C61** (bit-exact single precision): a looping BufRd driven by a Phasor that runs over the whole buffer of `N` frames at a rate of
`r / 2^d` frames per sample plays the buffer without drift for ever: whenever the ideal position `n r / 2^d mod N` is a whole frame `j`,
tick number `n` returns exactly the sample stored in frame `j`, in every interpolation mode and for either direction. (Rate 1: every
tick; rate 1/2: every other tick.) -/
theorem C61_playback (s : Reader F32) (b : Buffer F32) (hb : s.buffer = some b) (m : Mem F32) (o k : ℕ) (h : b.Backed m o k)
    (hm : Moderate b m) (hv : b.isValid = true) (hl : s.loop = true) (d : ℕ) (hd : d ≤ 24) (r : ℤ)
    (hN : b.numSamples * 2 ^ d + |r| ≤ 2 ^ 24) (ph : Phasor.Ph F32) (hs : ph.start.In 0 0)
    (he : ph.stop.In b.numSamples b.numSamples) (hr : ph.rate.val = r / 2 ^ d) (hrf : ph.rate.isFin = true) (hz : ph.value.In 0 0)
    (n j : ℕ) (hj : (n * r) % (b.numSamples * 2 ^ d) = j * 2 ^ d) :
    ∃ x y, b.getSample m j = some x ∧ tick s m (tickOut Phasor.tick n ph) = some y ∧ y.In x.val x.val := by
  have hN0 := valid_pos hv
  have r0 := abs_nonneg r
  have hp : (2:ℚ) ^ (-(d:ℤ)) = 1 / 2 ^ d := by rw [zpow_neg, zpow_natCast, one_div]
  have hpd : (0:ℤ) < 2 ^ d := by positivity
  have hn24 : b.numSamples ≤ 2 ^ 24 := by
    have : (b.numSamples : ℤ) ≤ b.numSamples * 2 ^ d := by nlinarith
    have : (b.numSamples : ℤ) ≤ 2 ^ 24 := by omega
    exact_mod_cast this
  have hpos : (0:ℤ) < b.numSamples * 2 ^ d := by positivity
  have key := Phasor.C61_phasor_exact ph (-(d:ℤ)) 0 (b.numSamples * 2 ^ d) r 0 ⟨by omega, by omega⟩
    ⟨hs.1, by rw [hs.val_eq]; simp⟩ ⟨he.1, by rw [he.val_eq, hp]; push_cast; field_simp⟩ ⟨hrf, by rw [hr, hp]; ring⟩
    ⟨hz.1, by rw [hz.val_eq]; simp⟩ (by positivity) (by simp; linarith) (by rw [abs_of_nonneg (by positivity)]; exact hN) (by simpa using hN)
    (by simp) n
  simp only [sub_zero, zero_add] at key
  rw [hj] at key
  have hjN : (j:ℤ) < b.numSamples := by
    have := Int.emod_lt_of_pos (n * r) (show (0:ℤ) < b.numSamples * 2 ^ d by positivity)
    rw [hj] at this
    exact lt_of_mul_lt_mul_right this hpd.le
  obtain ⟨x, y, h1, h2, h3⟩ := C38_whole_loop s b hb m o k h hm hv hn24 hl (tickOut Phasor.tick n ph) j key.1
    (by rw [key.2, hp]; push_cast; field_simp)
  rw [Int.emod_eq_of_lt (by omega) hjN, Int.toNat_natCast] at h1
  exact ⟨x, y, h1, h2, h3⟩

/-- The phasor of the example in the documentation: `set(1, 0, numSamples, 0)`, here for a buffer of four frames; tick 6 reads frame 2. -/
example : (Phasor.set (lit 1) (lit 0) (lit 4) (lit 0) (Phasor.init (lit 48000 : F32))).stop.In (4:ℕ) (4:ℕ) ∧
    (((6:ℕ) : ℤ) * 1) % (((4:ℕ) : ℤ) * 2 ^ 0) = ((2:ℕ) : ℤ) * 2 ^ 0 := by
  exact ⟨by decide +kernel, by norm_num⟩

end BufRd
end Verif
