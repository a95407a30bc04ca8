import Verif.Model.BufRd
import Verif.Props.Buffer
import Verif.Props.CombC

/-!
# C38: BufRd
-/

set_option linter.unusedSectionVars false

namespace Verif.BufRd
open FP Buffer

section generic
variable {α : Type} [Arith α]

/-- **C38**, null and invalid buffers: silence, whatever the memory and the phase. -/
theorem C38_no_buffer_silent (s : Reader α) (m : Mem α) (phase : α)
    (h : s.buffer = none ∨ ∃ b, s.buffer = some b ∧ b.isValid = false) :
    tick s m phase = some (lit 0) ∧ tickStereo s m phase = some Stereo.zero := by
  rcases h with h | ⟨b, h, hb⟩
  · simp [tick, tickStereo, h]
  · simp [tick, tickStereo, h, hb]

theorem getStereo_left {b : Buffer α} {m : Mem α} {o k : ℕ} (h : b.Backed m o k) (i : ℕ) :
    (b.getStereoSample m i).map Stereo.left = b.getSample m i := by
  obtain ⟨h1, h2⟩ := C10_mono_stereo_agree h i
  rcases h.ch with hc | hc
  · rw [h1 hc, Option.map_map]
    have : (Stereo.left ∘ Stereo.ofMono : α → α) = id := rfl
    rw [this]; simp
  · rw [h2 hc]

theorem getStereo_right_mono {b : Buffer α} {m : Mem α} {o k : ℕ} (h : b.Backed m o k) (hc : b.channels = 1) (i : ℕ) :
    (b.getStereoSample m i).map Stereo.right = b.getSample m i := by
  obtain ⟨h1, -⟩ := C10_mono_stereo_agree h i
  rw [h1 hc, Option.map_map]
  have : (Stereo.right ∘ Stereo.ofMono : α → α) = id := rfl
  rw [this]; simp

/-- A channel of the stereo read of `b` is the mono read of any buffer that holds that channel. -/
theorem channel_read (s : Reader α) (b b' : Buffer α) (hb : s.buffer = some b) (m m' : Mem α)
    (hn : b'.numSamples = b.numSamples) (hv' : b'.isValid = b.isValid) (phase : α) (pr : Stereo α → α) (hz : pr Stereo.zero = lit 0)
    (hg : ∀ i, (b.getStereoSample m i).map pr = b'.getSample m' i)
    (hl : ∀ s0 s1 : Stereo α, ∀ f, pr ⟨lerp s0.left s1.left f, lerp s0.right s1.right f⟩ = lerp (pr s0) (pr s1) f)
    (hc : ∀ s0 s1 s2 s3 : Stereo α, ∀ f, pr ⟨cubicInterp s0.left s1.left s2.left s3.left f,
      cubicInterp s0.right s1.right s2.right s3.right f⟩ = cubicInterp (pr s0) (pr s1) (pr s2) (pr s3) f) :
    (tickStereo s m phase).map pr = tick { s with buffer := some b' } m' phase := by
  simp only [tickStereo, tick, hb, hv', hn]
  by_cases hv : b.isValid = true
  · simp only [hv, Bool.not_true, Bool.false_eq_true, if_false, ← hg]
    have ha : adjust { s with buffer := some b' } b.numSamples phase = adjust s b.numSamples phase := rfl
    rw [ha]
    cases hi : Arith.toSize? (adjust s b.numSamples phase) with
    | none => rfl
    | some i =>
      have w1 : ∀ i n, wrapIndex { s with buffer := some b' } i n = wrapIndex s i n := fun _ _ => rfl
      have w2 : ∀ i n, prevIndex { s with buffer := some b' } i n = prevIndex s i n := fun _ _ => rfl
      simp only [Option.bind_some, w1, w2]
      by_cases h2 : s.interpolation = 2
      · simp only [h2, if_true]
        cases b.getStereoSample m i with
        | none => rfl
        | some s0 => cases b.getStereoSample m (wrapIndex s (szAdd i 1) b.numSamples) <;> simp [hl]
      · by_cases h4 : s.interpolation = 4
        · simp only [h4, if_true]
          cases b.getStereoSample m (prevIndex s i b.numSamples) with
          | none => rfl
          | some s0 =>
            cases b.getStereoSample m i with
            | none => rfl
            | some s1 =>
              cases b.getStereoSample m (wrapIndex s (szAdd i 1) b.numSamples) with
              | none => rfl
              | some s2 => cases b.getStereoSample m (wrapIndex s (szAdd i 2) b.numSamples) <;> simp [hc]
        · simp only [if_neg h2, if_neg h4]
  · simp only [hv, Bool.not_false, if_true, Option.map_some, hz]

/-- **C38**, channels: in any arithmetic, for every phase and mode, the mono read is the left channel of the stereo read, and for a
mono buffer both channels are equal. -/
theorem C38_mono_is_left (s : Reader α) (b : Buffer α) (hb : s.buffer = some b) (m : Mem α) (o k : ℕ) (h : b.Backed m o k)
    (phase : α) : (tickStereo s m phase).map Stereo.left = tick s m phase ∧
      (b.channels = 1 → (tickStereo s m phase).map Stereo.right = tick s m phase) := by
  have e : ({ s with buffer := some b } : Reader α) = s := by rw [← hb]
  have key := fun pr hz hg hl hc => channel_read s b b hb m m rfl rfl phase pr hz hg hl hc
  rw [e] at key
  exact ⟨key Stereo.left rfl (getStereo_left h) (fun _ _ _ => rfl) (fun _ _ _ _ _ => rfl),
    fun h1 => key Stereo.right rfl (getStereo_right_mono h h1) (fun _ _ _ => rfl) (fun _ _ _ _ _ => rfl)⟩

/-- **C38**, channels do not mix: if `b'` is a mono buffer holding the right channel of the stereo buffer `b`, frame by frame, then
in any arithmetic, for every phase and mode, the right channel read from `b` is what is read from `b'`. So everything below about
the mono read holds of both channels. -/
theorem C38_right_channel (s : Reader α) (b b' : Buffer α) (hb : s.buffer = some b) (m m' : Mem α) (o k o' k' : ℕ)
    (h : b.Backed m o k) (h' : b'.Backed m' o' k') (hc : b.channels = 2) (hc' : b'.channels = 1) (hn : b'.numSamples = b.numSamples)
    (hr : ∀ i < b.numSamples, (m' o')[k' + i]? = (m o)[k + (2 * i + 1)]?) (phase : α) :
    (tickStereo s m phase).map Stereo.right = tick { s with buffer := some b' } m' phase := by
  have hs := h.small
  have hs' := h'.small
  refine channel_read s b b' hb m m' hn ?_ phase _ rfl ?_ (fun _ _ _ => rfl) (fun _ _ _ _ _ => rfl)
  · simp [isValid, h.data, h'.data, hc, hc', hn]; rfl
  · intro i
    by_cases hi : i < b.numSamples
    · have g := h.room
      rw [hc] at g hs
      have e1 : szMul i 2 = 2 * i := by unfold szMul; rw [Nat.mod_eq_of_lt (by omega)]; omega
      have e2 : szAdd (2 * i) 1 = 2 * i + 1 := by unfold szAdd; rw [Nat.mod_eq_of_lt (by omega)]
      have e3 : szMul i 1 = i := by unfold szMul; rw [Nat.mod_eq_of_lt (by omega)]; omega
      have hl : ∃ x, (m o)[k + 2 * i]? = some x := ⟨_, List.getElem?_eq_getElem (by omega)⟩
      obtain ⟨x, hx⟩ := hl
      simp [getStereoSample, getSample, h.data, h'.data, hc, hc', hn, not_le.2 hi, e1, e2, e3, Mem.load, hx, hr i hi,
        Option.map_map, Function.comp_def]
    · rw [getStereoSample, getSample, if_pos (Or.inr (by omega)), if_pos (Or.inr (by omega))]; rfl

/-- A read is defined as soon as the adjusted phase can be converted. -/
theorem tick_defined {s : Reader α} {b : Buffer α} (hb : s.buffer = some b) {m : Mem α} {o k : ℕ} (h : b.Backed m o k)
    {phase : α} {i : ℕ} (hi : b.isValid = true → Arith.toSize? (adjust s b.numSamples phase) = some i) :
    tick s m phase ≠ none ∧ tickStereo s m phase ≠ none := by
  have g1 : ∀ j, ∃ x, b.getSample m j = some x := fun j => (C10_accessors_safe h j).1
  have g2 : ∀ j, ∃ x, b.getStereoSample m j = some x := fun j => (C10_accessors_safe h j).2.1
  simp only [tick, tickStereo, hb]
  by_cases hv : b.isValid = true
  · simp only [hv, Bool.not_true, Bool.false_eq_true, if_false, hi hv, Option.bind_some]
    obtain ⟨x0, e0⟩ := g1 i
    obtain ⟨x1, e1⟩ := g1 (wrapIndex s (szAdd i 1) b.numSamples)
    obtain ⟨x2, e2⟩ := g1 (wrapIndex s (szAdd i 2) b.numSamples)
    obtain ⟨x3, e3⟩ := g1 (prevIndex s i b.numSamples)
    obtain ⟨y0, f0⟩ := g2 i
    obtain ⟨y1, f1⟩ := g2 (wrapIndex s (szAdd i 1) b.numSamples)
    obtain ⟨y2, f2⟩ := g2 (wrapIndex s (szAdd i 2) b.numSamples)
    obtain ⟨y3, f3⟩ := g2 (prevIndex s i b.numSamples)
    simp only [e0, e1, e2, e3, f0, f1, f2, f3, Option.bind_some, Option.map_some]
    constructor <;> split_ifs <;> simp
  · simp [hv]

end generic

/-! ## Single precision -/

theorem nF_in {n : ℕ} (hn : n < 2 ^ 62) : (Arith.ofNat n : F32).In 0 (2 ^ 62) := by
  refine ofRat_in rep_zero (rep_two_pow (by norm_num)) (by push_cast; positivity) ?_
  push_cast; exact_mod_cast hn.le

theorem nF_ge_one {n : ℕ} (h0 : 0 < n) (hn : n < 2 ^ 62) : 1 ≤ (Arith.ofNat n : F32).val := by
  have : (Arith.ofNat n : F32).In 1 (2 ^ 62) := by
    refine ofRat_in rep_one (rep_two_pow (by norm_num)) ?_ ?_
    · push_cast; exact_mod_cast h0
    · push_cast; exact_mod_cast hn.le
  exact this.2.1

theorem adjust_in {s : Reader F32} {n : ℕ} (h0 : 0 < n) (hn : n < 2 ^ 62) {phase : F32}
    (hp : phase.isFin = true ∨ s.loop = false ∧ phase ≠ nan) : (adjust s n phase).In 0 (2 ^ 62) := by
  have hN := nF_in hn
  have h1 := nF_ge_one h0 hn
  unfold adjust
  by_cases hl : s.loop = true
  · rw [if_pos hl]
    have hpf : phase.isFin = true := by
      rcases hp with hp | ⟨hp, -⟩
      · exact hp
      · rw [hl] at hp; cases hp
    have hf := fmod_in hpf hN.1 (lt_of_lt_of_le one_pos h1)
    simp only
    rw [lt_fin hf.1 lit_zero.1, lit_zero.val_eq]
    by_cases hneg : (Arith.fmod phase (Arith.ofNat n)).val < 0
    · rw [if_pos (by simpa using hneg)]
      refine add_in (in_val hf.1) (in_val hN.1) rep_zero (rep_two_pow (by norm_num)) ?_ ?_
      · linarith [hf.2.1]
      · linarith [hN.2.2]
    · rw [if_neg (by simpa using hneg)]
      exact ⟨hf.1, not_lt.1 hneg, le_trans hf.2.2 hN.2.2⟩
  · rw [if_neg hl]
    have hpn : phase ≠ nan := by
      rcases hp with hp | ⟨-, hp⟩
      · rintro rfl; cases hp
      · exact hp
    have hs : ((Arith.ofNat n : F32) - lit 1).In 0 (2 ^ 62) :=
      sub_in (in_val hN.1) lit_one rep_zero (rep_two_pow (by norm_num)) (by linarith) (by linarith [hN.2.2])
    have := clamp_in (x := phase) hpn (lit_zero (f := binary32)) (in_val hs.1) hs.2.1
    exact this.mono le_rfl hs.2.2

/-- **C38**, safety. For every backed buffer, loop flag, interpolation mode and finite phase – in clamp mode also for infinite
phases – BufRd performs no undefined conversion and no access outside the buffer. -/
theorem C38_safe (s : Reader F32) (b : Buffer F32) (hb : s.buffer = some b) (m : Mem F32) (o k : ℕ) (h : b.Backed m o k)
    (phase : F32) (hp : phase.isFin = true ∨ s.loop = false ∧ phase ≠ nan) :
    tick s m phase ≠ none ∧ tickStereo s m phase ≠ none := by
  by_cases hv : b.isValid = true
  · have h0 : 0 < b.numSamples := by
      simp only [isValid, Bool.and_eq_true, decide_eq_true_eq] at hv; exact hv.1.2
    have ha := adjust_in (s := s) h0 h.small.2 hp
    exact tick_defined hb h (fun _ => toSize_fin ha.1 ha.2.1 (lt_of_le_of_lt ha.2.2 (by norm_num)))
  · exact tick_defined (i := 0) hb h (fun hv' => absurd hv' hv)

/-- **C38 negation**: an infinite or NaN phase in loop mode, and a NaN phase in clamp mode, is undefined behaviour (conversion of a
NaN to `size_t`). -/
theorem C38_nan_undefined (s : Reader F32) (b : Buffer F32) (hb : s.buffer = some b) (hv : b.isValid = true)
    (m : Mem F32) (phase : F32) (hp : phase = nan ∨ s.loop = true ∧ phase.isFin = false) : tick s m phase = none := by
  have ha : adjust s b.numSamples phase = nan := by
    have hcl : ∀ x : F32, clamp nan (lit 0) x = nan := by
      intro x
      have ha : ((nan : F32) <. lit 0) = false := rfl
      have hb : ((nan : F32) >. x) = false := by cases x <;> rfl
      simp [clamp, ha, hb]
    have hfm : phase.isFin = false → Arith.fmod phase (Arith.ofNat b.numSamples) = nan := by
      intro hf
      cases phase with
      | nan => rfl
      | inf c => cases (Arith.ofNat b.numSamples : F32) <;> rfl
      | fin => cases hf
    have hn0 : ((nan : F32) <. lit 0) = false := rfl
    unfold adjust
    by_cases hl : s.loop = true
    · have hf : phase.isFin = false := by
        rcases hp with rfl | ⟨-, h⟩
        · rfl
        · exact h
      simp only [hl, if_true, hfm hf, hn0, Bool.false_eq_true, if_false]
    · have : phase = nan := by
        rcases hp with h | ⟨h, -⟩
        · exact h
        · exact absurd h hl
      subst this
      simp only [hl, Bool.false_eq_true, if_false, hcl]
  have ht : (Arith.toSize? (nan : F32)) = none := rfl
  simp [tick, hb, hv, ha, ht]

/-- The samples are of moderate size (below about 10³⁰). -/
def Moderate (b : Buffer F32) (m : Mem F32) : Prop := ∀ i x, b.getSample m i = some x → x.In (-2 ^ 100) (2 ^ 100)

theorem mul_c {c x : F32} {j : ℕ} (hj : j ≤ 120) (hc : c.In (-4) 4) (hx : x.In (-2 ^ j) (2 ^ j)) :
    (c * x).In (-2 ^ (j + 2)) (2 ^ (j + 2)) := by
  have hb : |c.val * x.val| ≤ 2 ^ (j + 2) := by
    rw [abs_mul, pow_add, mul_comm ((2:ℚ) ^ j)]
    have h1 : |c.val| ≤ 2 ^ 2 := by rw [abs_le]; norm_num; exact ⟨hc.2.1, hc.2.2⟩
    have h2 : |x.val| ≤ 2 ^ j := by rw [abs_le]; exact ⟨hx.2.1, hx.2.2⟩
    exact mul_le_mul h1 h2 (abs_nonneg _) (by norm_num)
  rw [abs_le] at hb
  exact mul_in hc.1 hx.1 (Rep.neg (rep_two_pow (by omega))) (rep_two_pow (by omega)) hb.1 hb.2

theorem add_c {x y : F32} {j : ℕ} (hj : j ≤ 120) (hx : x.In (-2 ^ j) (2 ^ j)) (hy : y.In (-2 ^ j) (2 ^ j)) :
    (x + y).In (-2 ^ (j + 1)) (2 ^ (j + 1)) := by
  refine add_in hx hy (Rep.neg (rep_two_pow (by omega))) (rep_two_pow (by omega)) ?_ ?_ <;> rw [pow_succ] <;> linarith

theorem sub_c {x y : F32} {j : ℕ} (hj : j ≤ 120) (hx : x.In (-2 ^ j) (2 ^ j)) (hy : y.In (-2 ^ j) (2 ^ j)) :
    (x - y).In (-2 ^ (j + 1)) (2 ^ (j + 1)) := by
  refine sub_in hx hy (Rep.neg (rep_two_pow (by omega))) (rep_two_pow (by omega)) ?_ ?_ <;> rw [pow_succ] <;> linarith

theorem up_c {x : F32} {j : ℕ} (i : ℕ) (hx : x.In (-2 ^ j) (2 ^ j)) (h : j ≤ i := by omega) : x.In (-2 ^ i) (2 ^ i) := by
  have : (2:ℚ) ^ j ≤ 2 ^ i := pow_le_pow_right₀ (by norm_num) h
  exact hx.mono (by linarith) this

theorem cubic_zero {y0 y1 y2 y3 t : F32} (h0 : y0.In (-2 ^ 100) (2 ^ 100)) (h1 : y1.In (-2 ^ 100) (2 ^ 100))
    (h2 : y2.In (-2 ^ 100) (2 ^ 100)) (h3 : y3.In (-2 ^ 100) (2 ^ 100)) (ht : t.Zero) :
    (cubicInterp y0 y1 y2 y3 t).In y1.val y1.val := by
  have l5 : (lit 0.5 : F32).In (-4) 4 := by decide +kernel
  have l5n : (-lit 0.5 : F32).In (-4) 4 := by decide +kernel
  have l15 : (lit 1.5 : F32).In (-4) 4 := by decide +kernel
  have l2 : (lit 2 : F32).In (-4) 4 := by decide +kernel
  have l25 : (lit 2.5 : F32).In (-4) 4 := by decide +kernel
  have t2 : (t * t).Zero := mul_zero' ht.1 ht
  have t3 : (t * t * t).Zero := mul_zero' t2.1 ht
  have a0 := add_c (j := 104) (by norm_num) (sub_c (j := 103) (by norm_num)
    (add_c (j := 102) (by norm_num) (mul_c (by norm_num) l5n h0) (mul_c (by norm_num) l15 h1)) (up_c _ (mul_c (by norm_num) l15 h2)))
    (up_c _ (mul_c (by norm_num) l5 h3))
  have a1 := sub_c (j := 104) (by norm_num) (add_c (j := 103) (by norm_num)
    (sub_c (j := 102) (by norm_num) (up_c _ h0) (mul_c (by norm_num) l25 h1)) (up_c _ (mul_c (by norm_num) l2 h2)))
    (up_c _ (mul_c (by norm_num) l5 h3))
  have a2 := add_c (j := 102) (by norm_num) (mul_c (by norm_num) l5n h0) (mul_c (by norm_num) l5 h2)
  exact zero_add' (zero_add_zero (zero_add_zero (mul_zero' a0.1 t3) (mul_zero' a1.1 t2)) (mul_zero' a2.1 ht)) h1.1

theorem lerp_zero {x y t : F32} (h0 : x.In (-2 ^ 100) (2 ^ 100)) (h1 : y.In (-2 ^ 100) (2 ^ 100)) (ht : t.Zero) :
    (lerp x y t).In x.val x.val :=
  add_zero' h0.1 (zero_mul' ht (sub_c (by norm_num) h1 h0).1)

/-- If the adjusted phase is the whole number `i`, frame `i` is returned. -/
theorem read_whole {s : Reader F32} {b : Buffer F32} (hb : s.buffer = some b) {m : Mem F32} {o k : ℕ} (h : b.Backed m o k)
    (hm : Moderate b m) (hv : b.isValid = true) {phase : F32} {i : ℕ} (hi : i ≤ 2 ^ 24)
    (ha : (adjust s b.numSamples phase).In i i) :
    ∃ x y, b.getSample m i = some x ∧ tick s m phase = some y ∧ y.In x.val x.val := by
  have hts : Arith.toSize? (adjust s b.numSamples phase) = some i := by
    have hiq : (i:ℚ) ≤ 2 ^ 24 := by exact_mod_cast hi
    have := toSize_fin ha.1 (by rw [ha.val_eq]; positivity) (by rw [ha.val_eq]; exact lt_of_le_of_lt hiq (by norm_num))
    rw [this, ha.val_eq]; simp
  have hfr : (adjust s b.numSamples phase - Arith.ofNat i : F32).Zero := by
    refine sub_in ha (CombC.ofNat_in hi) rep_zero rep_zero ?_ ?_ <;> linarith
  have g : ∀ j, ∃ x, b.getSample m j = some x := fun j => (C10_accessors_safe h j).1
  obtain ⟨x0, e0⟩ := g i
  obtain ⟨x1, e1⟩ := g (wrapIndex s (szAdd i 1) b.numSamples)
  obtain ⟨x2, e2⟩ := g (wrapIndex s (szAdd i 2) b.numSamples)
  obtain ⟨x3, e3⟩ := g (prevIndex s i b.numSamples)
  simp only [tick, hb, hv, Bool.not_true, Bool.false_eq_true, if_false, hts, Option.bind_some, e0, e1, e2, e3, Option.map_some]
  by_cases h2 : s.interpolation = 2
  · simp only [h2, if_true]
    exact ⟨x0, _, rfl, rfl, lerp_zero (hm _ _ e0) (hm _ _ e1) hfr⟩
  · by_cases h4 : s.interpolation = 4
    · simp only [h4, if_true]
      exact ⟨x0, _, rfl, rfl, cubic_zero (hm _ _ e3) (hm _ _ e0) (hm _ _ e1) (hm _ _ e2) hfr⟩
    · simp only [h2, h4, if_false]
      exact ⟨x0, _, rfl, rfl, in_val (hm _ _ e0).1⟩

theorem abs_tmod_lt (p : ℤ) {n : ℕ} (h : 0 < n) : -(n:ℤ) < p.tmod n ∧ p.tmod n < n := by
  rcases le_or_gt 0 p with hp | hp
  · rw [Int.tmod_eq_emod_of_nonneg hp]
    have h1 := Int.emod_nonneg p (show (n:ℤ) ≠ 0 by omega)
    have h2 := Int.emod_lt_of_pos p (show (0:ℤ) < n by omega)
    omega
  · have e : p.tmod n = -((-p) % n) := by
      rw [← Int.tmod_eq_emod_of_nonneg (by omega), Int.neg_tmod, neg_neg]
    have h1 := Int.emod_nonneg (-p) (show (n:ℤ) ≠ 0 by omega)
    have h2 := Int.emod_lt_of_pos (-p) (show (0:ℤ) < n by omega)
    omega

theorem abs_val_small {v : ℚ} (h : |v| ≤ 2 ^ 24) : |v| < 2 ^ binary32.emaxp1 :=
  lt_of_le_of_lt h (two_pow_lt_max (by norm_num))

theorem valid_pos {b : Buffer F32} (hv : b.isValid = true) : 0 < b.numSamples := by
  simp only [isValid, Bool.and_eq_true, decide_eq_true_eq] at hv; exact hv.1.2

/-- **C38**, whole phases in loop mode: for a buffer of at most 2²⁴ frames with samples of moderate size, every whole-number
phase `p` – of either sign and any size – returns the value stored in frame `p mod numSamples`, in every interpolation mode. -/
theorem C38_whole_loop (s : Reader F32) (b : Buffer F32) (hb : s.buffer = some b) (m : Mem F32) (o k : ℕ) (h : b.Backed m o k)
    (hm : Moderate b m) (hv : b.isValid = true) (hn : b.numSamples ≤ 2 ^ 24) (hl : s.loop = true) (phase : F32) (p : ℤ)
    (hp : phase.isFin = true) (hpv : phase.val = p) :
    ∃ x y, b.getSample m (p % b.numSamples).toNat = some x ∧ tick s m phase = some y ∧ y.In x.val x.val := by
  have h0 := valid_pos hv
  set n := b.numSamples with hnd
  have hN := CombC.ofNat_in hn
  have hn0 : (n:ℤ) ≠ 0 := by omega
  have hmod0 := Int.emod_nonneg p hn0
  have hmod1 := Int.emod_lt_of_pos p (show (0:ℤ) < n by omega)
  refine read_whole hb h hm hv (i := (p % n).toNat) (by omega) ?_
  have hcast : (((p % n).toNat : ℕ) : ℚ) = ((p % n : ℤ) : ℚ) := by
    have : (((p % n).toNat : ℕ) : ℤ) = p % n := Int.toNat_of_nonneg hmod0
    exact_mod_cast this
  rw [hcast]
  -- the remainder of truncated division
  have hfm : (Arith.fmod phase (Arith.ofNat n)).In ((p.tmod n : ℤ) : ℚ) ((p.tmod n : ℤ) : ℚ) := by
    obtain ⟨v, nz, hv, rfl⟩ := isFin_cases hp
    obtain ⟨w, mz, hw, e⟩ := isFin_cases hN.1
    have hw' : w = n := by have := hN.val_eq; rw [e] at this; exact this
    subst hw'
    have hv' : v = p := hpv
    subst hv'
    rw [e]
    show (if (n:ℚ) = 0 then nan else ofRat ((p:ℚ) - n * truncQ (p / n)) _ : F32).In _ _
    rw [if_neg (by exact_mod_cast h0.ne')]
    have htr : truncQ ((p:ℚ) / n) = p.tdiv n := by
      unfold truncQ
      have hfl : ∀ q : ℤ, ⌊(q:ℚ) / (n:ℚ)⌋ = q / n := fun q => by
        have := Rat.floor_intCast_div_natCast q n; exact_mod_cast this
      split_ifs with h1
      · have hp0 : 0 ≤ p := by
          have h2 : (0:ℚ) < n := by exact_mod_cast h0
          have h3 : (0:ℚ) ≤ p := by
            by_contra hc
            exact absurd h1 (not_le.2 (div_neg_of_neg_of_pos (not_le.1 hc) h2))
          exact_mod_cast h3
        rw [hfl, Int.tdiv_eq_ediv_of_nonneg hp0]
      · have hp0 : p < 0 := by
          by_contra hc
          apply h1
          have : (0:ℚ) ≤ p := by exact_mod_cast not_lt.1 hc
          positivity
        have : ⌈(p:ℚ) / n⌉ = -⌊((-p : ℤ):ℚ) / n⌋ := by rw [← Int.ceil_neg]; congr 1; push_cast; ring
        rw [this, hfl, ← Int.tdiv_eq_ediv_of_nonneg (by omega), Int.neg_tdiv, neg_neg]
    rw [htr]
    have : (p:ℚ) - n * ((p.tdiv n : ℤ) : ℚ) = ((p.tmod n : ℤ) : ℚ) := by
      have := Int.mul_tdiv_add_tmod p n
      have h2 : ((n:ℤ) : ℚ) * ((p.tdiv n : ℤ):ℚ) + ((p.tmod n : ℤ):ℚ) = p := by exact_mod_cast this
      push_cast at h2 ⊢
      linarith
    rw [this]
    refine ofRat_rep ⟨binary32.grid_int ?_, abs_val_small ?_, by simp⟩
    · have := abs_tmod_lt p h0
      have e2 : (2:ℤ) ^ binary32.prec = 2 ^ 24 := by decide
      rw [e2, abs_le]; omega
    · have := abs_tmod_lt p h0
      rw [← Int.cast_abs]
      have : |p.tmod n| ≤ 2 ^ 24 := by rw [abs_le]; omega
      exact_mod_cast this
  unfold adjust
  rw [if_pos hl]
  simp only
  rw [lt_fin hfm.1 lit_zero.1, lit_zero.val_eq, hfm.val_eq]
  by_cases hneg : p.tmod n < 0
  · rw [if_pos (by simpa using hneg)]
    have : ((p % n : ℤ) : ℚ) = ((p.tmod n : ℤ):ℚ) + n := by
      have h1 := Int.emod_add_mul_ediv p n
      have h2 := Int.tmod_add_mul_tdiv p n
      have h3 := Int.emod_eq_of_lt (a := p.tmod n + n) (b := n) (by have := abs_tmod_lt p h0; omega) (by omega)
      have h4 : p % n = (p.tmod n + n) % n := by
        conv_lhs => rw [← h2]
        rw [Int.add_mul_emod_self_left, Int.add_emod_right]
      rw [h4, h3]; push_cast; ring
    rw [this]
    refine add_in hfm hN ?_ ?_ ?_ ?_
    · rw [← this]; rw [← hcast]; exact CombC.repNat (by omega)
    · rw [← this]; rw [← hcast]; exact CombC.repNat (by omega)
    · rfl
    · rfl
  · rw [if_neg (by simpa using hneg)]
    have : p % n = p.tmod n := by
      have h2 := Int.tmod_add_mul_tdiv p n
      conv_lhs => rw [← h2]
      rw [Int.add_mul_emod_self_left]
      have := abs_tmod_lt p h0
      exact Int.emod_eq_of_lt (by omega) (by omega)
    rw [this]; exact hfm

/-- **C38**, clamp mode: a phase at or below zero (down to minus infinity) returns the first frame, one at or beyond the last
index (up to plus infinity) the last frame, and a whole phase in between its own frame. -/
theorem C38_clamp (s : Reader F32) (b : Buffer F32) (hb : s.buffer = some b) (m : Mem F32) (o k : ℕ) (h : b.Backed m o k)
    (hm : Moderate b m) (hv : b.isValid = true) (hn : b.numSamples ≤ 2 ^ 24) (hl : s.loop = false) (phase : F32) :
    (phase <=. lit 0 → ∃ x y, b.getSample m 0 = some x ∧ tick s m phase = some y ∧ y.In x.val x.val) ∧
    ((Arith.ofNat (b.numSamples - 1) : F32) <=. phase →
      ∃ x y, b.getSample m (b.numSamples - 1) = some x ∧ tick s m phase = some y ∧ y.In x.val x.val) ∧
    (∀ i < b.numSamples, phase.In i i → ∃ x y, b.getSample m i = some x ∧ tick s m phase = some y ∧ y.In x.val x.val) := by
  have h0 := valid_pos hv
  have hN := CombC.ofNat_in hn
  have hlast : ((Arith.ofNat b.numSamples : F32) - lit 1).In (b.numSamples - 1 : ℕ) (b.numSamples - 1 : ℕ) := by
    have e : ((b.numSamples - 1 : ℕ) : ℚ) = b.numSamples - 1 := by push_cast [h0]; ring
    exact sub_in hN lit_one (CombC.repNat (by omega)) (CombC.repNat (by omega)) (by rw [e]) (by rw [e])
  have hL := CombC.ofNat_in (n := b.numSamples - 1) (by omega)
  have key : ∀ i, i < b.numSamples → (clamp phase (lit 0) ((Arith.ofNat b.numSamples : F32) - lit 1)).In i i →
      ∃ x y, b.getSample m i = some x ∧ tick s m phase = some y ∧ y.In x.val x.val := by
    intro i hi hc
    refine read_whole hb h hm hv (by omega) ?_
    unfold adjust
    rw [if_neg (by rw [hl]; simp)]
    exact hc
  have hNN : (0:ℚ) ≤ ((b.numSamples - 1 : ℕ):ℚ) := by positivity
  refine ⟨?_, ?_, ?_⟩
  · intro hp
    refine key 0 h0 ?_
    have hn' : phase ≠ nan := by rintro rfl; cases hp
    rcases not_nan_cases hn' with rfl | rfl | hf
    · have : ((inf true : F32) <. lit 0) = true := by decide +kernel
      simp only [clamp, this, if_true]; simpa using lit_zero
    · have : ((inf false : F32) <=. lit 0) = false := by decide +kernel
      rw [this] at hp; cases hp
    · rw [le_fin hf lit_zero.1, lit_zero.val_eq] at hp
      have hp' : phase.val ≤ 0 := by simpa using hp
      have := clamp_in (x := phase) hn' lit_zero (in_val hlast.1) (by rw [hlast.val_eq]; exact hNN)
      refine ⟨this.1, by simpa using this.2.1, ?_⟩
      unfold clamp
      rw [lt_fin hf lit_zero.1, lt_fin hlast.1 hf, lit_zero.val_eq, hlast.val_eq]
      split_ifs with h1 h2
      · rw [lit_zero.val_eq]; simp
      · simp only [decide_eq_true_eq] at h2; linarith
      · simpa using hp'
  · intro hp
    refine key _ (by omega) ?_
    have hn' : phase ≠ nan := by
      rintro rfl
      obtain ⟨w, mz, hw, e⟩ := isFin_cases hL.1
      rw [e] at hp; cases hp
    rcases not_nan_cases hn' with rfl | rfl | hf
    · obtain ⟨w, mz, hw, e⟩ := isFin_cases hL.1
      rw [e] at hp; cases hp
    · obtain ⟨w, mz, hw, e⟩ := isFin_cases hlast.1
      have h1 : ((inf false : F32) <. lit 0) = false := by decide +kernel
      have h2 : ((inf false : F32) >. (Arith.ofNat b.numSamples : F32) - lit 1) = true := by rw [e]; rfl
      simp only [clamp, h1, h2, if_true, Bool.false_eq_true, if_false]
      exact hlast
    · rw [le_fin hL.1 hf, hL.val_eq] at hp
      have hp' : ((b.numSamples - 1 : ℕ):ℚ) ≤ phase.val := by simpa using hp
      have := clamp_in (x := phase) hn' lit_zero (in_val hlast.1) (by rw [hlast.val_eq]; exact hNN)
      refine ⟨this.1, ?_, by rw [hlast.val_eq] at this; exact this.2.2⟩
      unfold clamp
      rw [lt_fin hf lit_zero.1, lt_fin hlast.1 hf, lit_zero.val_eq, hlast.val_eq]
      split_ifs with h1 h2
      · simp only [decide_eq_true_eq] at h1; linarith
      · rw [hlast.val_eq]
      · exact hp'
  · intro i hi hp
    refine key i hi ?_
    have hle : (i:ℚ) ≤ ((b.numSamples - 1 : ℕ):ℚ) := by exact_mod_cast (by omega : i ≤ b.numSamples - 1)
    rw [clamp_id hp.1 lit_zero.1 hlast.1 (by rw [lit_zero.val_eq, hp.val_eq]; positivity) (by rw [hlast.val_eq, hp.val_eq]; exact hle)]
    exact hp

/-! ### Concrete buffers -/

/-- Four mono frames 1, 2, 3, 4. -/
def demoMem : Mem F32 := fun _ => [lit 1, lit 2, lit 3, lit 4]
def demoBuf : Buffer F32 := ⟨.at 0 0, 1, lit 48000, 4⟩

example : demoBuf.isValid = true ∧ demoBuf.data = .at 0 0 ∧ 0 + demoBuf.numSamples * demoBuf.channels ≤ (demoMem 0).length := by
  decide

example : Moderate demoBuf demoMem := by
  intro i x h
  rcases Nat.lt_or_ge i 4 with hi | hi
  · have : i = 0 ∨ i = 1 ∨ i = 2 ∨ i = 3 := by omega
    rcases this with rfl | rfl | rfl | rfl <;> (cases h; decide +kernel)
  · have : demoBuf.getSample demoMem i = some (lit 0) := by
      unfold getSample; exact if_pos (Or.inr hi)
    rw [this] at h; cases h; decide +kernel

/-- The right channel 10, 20 of the stereo frames (1, 10), (2, 20), read at phase 1/2. -/
example : (tickStereo ⟨some ⟨.at 0 0, 2, lit 48000, 2⟩, true, 2⟩ (fun _ => [lit 1, lit 10, lit 2, lit 20] : Mem F32) (lit 0.5)).map
    Stereo.right = some (lit 15) := by
  rw [C38_right_channel _ ⟨.at 0 0, 2, lit 48000, 2⟩ ⟨.at 0 0, 1, lit 48000, 2⟩ rfl _ (fun _ => [lit 10, lit 20]) 0 0 0 0
    ⟨rfl, Or.inr rfl, by simp, by simp⟩ ⟨rfl, Or.inl rfl, by simp, by simp⟩ rfl rfl rfl]
  · decide +kernel
  · intro i hi
    rcases (show i = 0 ∨ i = 1 by have : i < 2 := hi; omega) with rfl | rfl <;> rfl

/-- **C38 negation** (loop mode): a tiny negative phase is rounded up to `numSamples` and reads silence instead of a value
between the last and the first frame. -/
theorem C38_tiny_negative_phase : tick ⟨some demoBuf, true, 1⟩ demoMem (lit (-1 / 2 ^ 30)) = some (lit 0) ∧
    (tick ⟨some demoBuf, true, 2⟩ demoMem (lit (-1 / 2 ^ 30))) = some (lit 0) := by
  decide +kernel

/-- **C38 negation** (clamp mode, cubic): just after the first frame the neighbour "before the first frame" is taken to be the
last frame, so two buffers that differ only in their last frame give different values at phase 1/2. -/
theorem C38_clamp_cubic_wraps :
    tick ⟨some ⟨.at 0 0, 1, lit 48000, 5⟩, false, 4⟩ (fun _ => [lit 1, lit 2, lit 3, lit 4, lit 5]) (lit 0.5) ≠
    tick ⟨some ⟨.at 0 0, 1, lit 48000, 5⟩, false, 4⟩ (fun _ => [lit 1, lit 2, lit 3, lit 4, lit 6] : Mem F32) (lit 0.5) := by
  decide +kernel

end Verif.BufRd
