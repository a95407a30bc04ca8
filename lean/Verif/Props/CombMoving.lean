import Verif.Props.CombStable

/-!
# C105: a comb whose delay moves

Every value read from the line is at most 5/4 of the largest value on it, so a comb whose gain stays below 4/5 is bounded however its
delay and decay times are moved about. From a gain of 4/5 on it is not: moving the delay to and fro by one sample makes it grow.
-/

namespace Verif.CombC

/-! ### Specification -/

/-- What can be done to a comb while it runs. -/
inductive Ride where
  | delay (dt : ℝ)
  | decay (dc : ℝ)
  | reset
  | tick (x : ℝ)

/-- A history of calls, with the outputs of the ticks. -/
noncomputable def ride (fuel : ℕ) : Comb ℝ → List Ride → Option (Comb ℝ × List ℝ)
  | s, [] => some (s, [])
  | s, .delay dt :: es => ride fuel (CombC.setDelayTime dt s) es
  | s, .decay dc :: es => ride fuel (CombC.setDecayTime dc s) es
  | s, .reset :: es => ride fuel (CombC.reset s) es
  | s, .tick x :: es => (CombC.tick fuel s x).bind fun (s, y) => (ride fuel s es).map fun (s, ys) => (s, y :: ys)

/-- The delay is never set below `τ`, the decay time is never set beyond `T`, and the input stays within `X`. -/
def Ride.within (τ T X : ℝ) : Ride → Prop
  | .delay dt => τ ≤ dt
  | .decay dc => |dc| ≤ T
  | .reset => True
  | .tick x => |x| ≤ X

/-- Two samples up, two samples down. -/
def updown (k : ℤ) : ℝ := if k / 2 % 2 = 0 then 1 else -1

/-- Tick number `k` of a comb rocked to and fro by one sample: the delay is `4 q - 1/2` samples at even ticks and `4 q + 1/2` at odd ones, the
input is two samples up and two samples down for `4 q + 2` samples, then silence. -/
noncomputable def rock (sr : ℝ) (q k : ℕ) : List Ride :=
  [.delay (if k % 2 = 0 then (4 * q - 1 / 2) / sr else (4 * q + 1 / 2) / sr), .tick (if k < 4 * q + 2 then updown k else 0)]

/-! ### Every read is at most 5/4 of the line -/

theorem segment_abs {a b c d t M : ℝ} (ha : |a| ≤ M) (hb : |b| ≤ M) (hc : |c| ≤ M) (hd : |d| ≤ M) (t0 : 0 ≤ t) (t1 : t ≤ 1) :
    |segment a b c d t| ≤ 5 / 4 * M := by
  have M0 : 0 ≤ M := (abs_nonneg a).trans ha
  set c0 := t * (1 - t) ^ 2 / 2 with k0
  set c1 := (2 - 5 * t ^ 2 + 3 * t ^ 3) / 2 with k1
  set c2 := (t + 4 * t ^ 2 - 3 * t ^ 3) / 2 with k2
  set c3 := t ^ 2 * (1 - t) / 2 with k3
  have u : 0 ≤ 1 - t := by linarith
  have e : segment a b c d t = -(c0 * a) + c1 * b + c2 * c - c3 * d := by simp only [segment, k0, k1, k2, k3]; ring
  have n0 : 0 ≤ c0 := by positivity
  have n3 : 0 ≤ c3 := by positivity
  have n1 : 0 ≤ c1 := by
    have : c1 = (1 - t) * (2 + 2 * t - 3 * t ^ 2) / 2 := by rw [k1]; ring
    rw [this]
    have : 0 ≤ 2 + 2 * t - 3 * t ^ 2 := by nlinarith
    positivity
  have n2 : 0 ≤ c2 := by
    have : c2 = t * (1 + 4 * t - 3 * t ^ 2) / 2 := by rw [k2]; ring
    rw [this]
    have : 0 ≤ 1 + 4 * t - 3 * t ^ 2 := by nlinarith
    positivity
  have s : c0 + c1 + c2 + c3 ≤ 5 / 4 := by
    have : c0 + c1 + c2 + c3 = 5 / 4 - (t - 1 / 2) ^ 2 := by rw [k0, k1, k2, k3]; ring
    rw [this]; linarith [sq_nonneg (t - 1 / 2)]
  rw [abs_le] at ha hb hc hd ⊢
  have A := mul_le_mul_of_nonneg_left ha.1 n0
  have A' := mul_le_mul_of_nonneg_left ha.2 n0
  have B := mul_le_mul_of_nonneg_left hb.1 n1
  have B' := mul_le_mul_of_nonneg_left hb.2 n1
  have C := mul_le_mul_of_nonneg_left hc.1 n2
  have C' := mul_le_mul_of_nonneg_left hc.2 n2
  have D := mul_le_mul_of_nonneg_left hd.1 n3
  have D' := mul_le_mul_of_nonneg_left hd.2 n3
  have S := mul_le_mul_of_nonneg_right s M0
  rw [e]
  constructor <;> linarith

theorem gain_le {dt dc τ T : ℝ} (h0 : 0 ≤ τ) (h1 : τ ≤ dt) (h2 : |dc| ≤ T) : |gain dt dc| ≤ Real.exp (-6.907755 * (τ / T)) := by
  unfold gain
  split_ifs with h
  · rw [abs_zero]; exact (Real.exp_pos _).le
  · rw [abs_mul, Real.abs_exp]
    have : |((SignType.sign dc : SignType) : ℝ)| = 1 := by
      rcases lt_or_gt_of_ne h with h | h
      · simp [sign_neg h]
      · simp [sign_pos h]
    rw [this, one_mul, Real.exp_le_exp]
    have : τ / T ≤ dt / |dc| := div_le_div₀ (h0.trans h1) h1 (abs_pos.2 h) h2
    linarith

/-- The invariant of a bounded ride. -/
structure Calm (sr md τ T M : ℝ) (s : Comb ℝ) : Prop where
  len : s.buffer.length = s.bufferSize
  pos : s.writePos < s.bufferSize
  size : (s.bufferSize : ℝ) = ⌈md * sr⌉.toNat + 4
  rate : s.sampleRate = sr
  top : s.maxDelayTime = md
  delay : τ ≤ s.delayTime ∧ s.delayTime ≤ md
  decay : |s.decayTime| ≤ T
  coeff : s.feedbackCoeff = gain s.delayTime s.decayTime
  cell : ∀ v ∈ s.buffer, |v| ≤ M

theorem calm_delay {sr md τ T M dt : ℝ} {s : Comb ℝ} (t0 : 0 ≤ τ) (t1 : τ ≤ md) (h : Calm sr md τ T M s) (hd : τ ≤ dt) :
    Calm sr md τ T M (CombC.setDelayTime dt s) := by
  have e : (CombC.setDelayTime dt s).delayTime = max 0 (min md dt) := by
    show clamp dt (lit 0) s.maxDelayTime = _
    rw [h.top]
    simp only [real_arith]
    rw [clamp_real (by push_cast; linarith)]
    push_cast; rfl
  refine ⟨h.len, h.pos, h.size, h.rate, h.top, ?_, h.decay, updateFeedback_real _, h.cell⟩
  rw [e]
  exact ⟨le_max_of_le_right (le_min t1 hd), max_le (t0.trans t1) (min_le_left _ _)⟩

theorem calm_decay {sr md τ T M dc : ℝ} {s : Comb ℝ} (h : Calm sr md τ T M s) (hd : |dc| ≤ T) :
    Calm sr md τ T M (CombC.setDecayTime dc s) :=
  ⟨h.len, h.pos, h.size, h.rate, h.top, h.delay, hd, updateFeedback_real _, h.cell⟩

theorem calm_reset {sr md τ T M : ℝ} (M0 : 0 ≤ M) {s : Comb ℝ} (h : Calm sr md τ T M s) : Calm sr md τ T M (CombC.reset s) := by
  refine ⟨by simp [CombC.reset], ?_, h.size, h.rate, h.top, h.delay, h.decay, h.coeff, ?_⟩
  · show 0 < s.bufferSize
    have := h.pos
    omega
  · intro v hv
    have : v = (lit 0 : ℝ) := List.eq_of_mem_replicate hv
    rw [this]
    simp only [real_arith]
    simpa using M0

theorem calm_tick {sr md τ T M X x : ℝ} (hsr : 0 ≤ sr) (hp : md * sr ≤ 2 ^ 62) (t0 : 0 ≤ τ) (X0 : |x| ≤ X)
    (M1 : X + Real.exp (-6.907755 * (τ / T)) * (5 / 4 * M) ≤ M) {s : Comb ℝ} (h : Calm sr md τ T M s) {fuel : ℕ} (hf : 1 ≤ fuel) :
    ∃ s' y, CombC.tick fuel s x = some (s', y) ∧ Calm sr md τ T M s' ∧ |y| ≤ 5 / 4 * M := by
  have hw : (s.writePos : ℝ) + 1 ≤ s.bufferSize := by exact_mod_cast h.pos
  have D0 : 0 ≤ s.delayTime * s.sampleRate := mul_nonneg (t0.trans h.delay.1) (h.rate ▸ hsr)
  have D1 : s.delayTime * s.sampleRate ≤ s.bufferSize - 4 := by
    rw [h.rate, h.size]
    have a : s.delayTime * sr ≤ md * sr := mul_le_mul_of_nonneg_right h.delay.2 hsr
    have b := Int.le_ceil (md * sr)
    have c : (⌈md * sr⌉ : ℝ) ≤ (⌈md * sr⌉.toNat : ℝ) := by exact_mod_cast Int.self_le_toNat _
    linarith
  have N1 : s.bufferSize ≤ 2 ^ 62 + 4 := by
    have : ⌈md * sr⌉ ≤ 2 ^ 62 := by rw [Int.ceil_le]; push_cast; norm_num at hp ⊢; exact hp
    have e : s.bufferSize = ⌈md * sr⌉.toNat + 4 := by exact_mod_cast h.size
    omega
  obtain ⟨r, hr, r0, r1⟩ : ∃ r : ℝ, wrapLoop (Arith.ofNat s.bufferSize) fuel (Arith.ofNat s.writePos - s.delayTime * s.sampleRate) = some r ∧
      0 ≤ r ∧ r < s.bufferSize := by
    obtain ⟨f, rfl⟩ : ∃ f, fuel = f + 1 := ⟨fuel - 1, by omega⟩
    rw [wrapLoop]
    simp only [real_arith]
    push_cast
    have w0 : (0:ℝ) ≤ s.writePos := by positivity
    split_ifs with c
    · refine ⟨s.writePos - s.delayTime * s.sampleRate + s.bufferSize, ?_, by linarith, by linarith⟩
      cases f <;> (rw [wrapLoop]; simp only [real_arith]; rw [if_neg (by push_cast; linarith)])
    · exact ⟨_, rfl, by linarith, by linarith⟩
  have hn : Arith.toSize? r = some ⌊r⌋.toNat := by
    have f0 := Int.floor_nonneg.2 r0
    have f1 : ⌊r⌋ < s.bufferSize := by rw [Int.floor_lt]; exact_mod_cast r1
    simp only [Arith.toSize?, real_arith, BufRd.truncR_nonneg r0]
    rw [if_pos ⟨f0, by omega⟩]
  have ht := tick_eq (x := x) (show s.bufferSize ≠ 0 by have := h.pos; omega) h.len h.pos hr hn
  set y := readAt s ⌊r⌋.toNat (r - Arith.ofNat ⌊r⌋.toNat) with hy
  have cell : ∀ i, |s.buffer.getD (i % s.bufferSize) (lit 0)| ≤ M := by
    intro i
    have : i % s.bufferSize < s.buffer.length := by rw [h.len]; exact Nat.mod_lt _ (by have := h.pos; omega)
    rw [List.getD_eq_getElem?_getD, List.getElem?_eq_getElem this, Option.getD_some]
    exact h.cell _ (List.getElem_mem _)
  have yb : |y| ≤ 5 / 4 * M := by
    have fr : ((⌊r⌋.toNat : ℕ) : ℝ) = ⌊r⌋ := by exact_mod_cast congrArg (Int.cast (R := ℝ)) (Int.toNat_of_nonneg (Int.floor_nonneg.2 r0))
    rw [hy, readAt, hermite_eq]
    refine segment_abs (cell _) (cell _) (cell _) (cell _) ?_ ?_ <;> simp only [real_arith, fr]
    · linarith [Int.floor_le r]
    · linarith [Int.lt_floor_add_one r]
  refine ⟨_, y, ht, ⟨?_, ?_, h.size, h.rate, h.top, h.delay, h.decay, h.coeff, ?_⟩, yb⟩
  · simpa [advance] using h.len
  · show szAdd s.writePos 1 % s.bufferSize < s.bufferSize
    exact Nat.mod_lt _ (by have := h.pos; omega)
  · intro v hv
    rcases List.mem_or_eq_of_mem_set hv with hv | rfl
    · exact h.cell v hv
    · have g := gain_le t0 h.delay.1 h.decay
      rw [← h.coeff] at g
      have := mul_le_mul g yb (abs_nonneg y) (Real.exp_pos _).le
      rw [← abs_mul] at this
      exact (abs_add_le _ _).trans (by linarith)

theorem calm_ride {sr md τ T M X : ℝ} (hsr : 0 ≤ sr) (hp : md * sr ≤ 2 ^ 62) (t0 : 0 ≤ τ) (t1 : τ ≤ md) (M0 : 0 ≤ M)
    (M1 : X + Real.exp (-6.907755 * (τ / T)) * (5 / 4 * M) ≤ M) {fuel : ℕ} (hf : 1 ≤ fuel) : ∀ (es : List Ride) {s : Comb ℝ},
    Calm sr md τ T M s → (∀ e ∈ es, e.within τ T X) → ∃ s' ys, ride fuel s es = some (s', ys) ∧ ∀ y ∈ ys, |y| ≤ 5 / 4 * M
  | [], s, _, _ => ⟨s, [], rfl, by simp⟩
  | .delay dt :: es, s, h, hes => calm_ride hsr hp t0 t1 M0 M1 hf es (calm_delay t0 t1 h (hes (.delay dt) (by simp))) fun e he => hes e (by simp [he])
  | .decay dc :: es, s, h, hes => calm_ride hsr hp t0 t1 M0 M1 hf es (calm_decay h (hes (.decay dc) (by simp))) fun e he => hes e (by simp [he])
  | .reset :: es, s, h, hes => calm_ride hsr hp t0 t1 M0 M1 hf es (calm_reset M0 h) fun e he => hes e (by simp [he])
  | .tick x :: es, s, h, hes => by
    obtain ⟨s1, y, a, b, c⟩ := calm_tick hsr hp t0 (hes (.tick x) (by simp)) M1 h hf
    obtain ⟨s', ys, d, e⟩ := calm_ride hsr hp t0 t1 M0 M1 hf es b fun e he => hes e (by simp [he])
    refine ⟨s', y :: ys, by simp only [ride, a, Option.bind_some, d, Option.map_some], ?_⟩
    intro v hv
    rcases List.mem_cons.1 hv with rfl | hv
    · exact c
    · exact e v hv

/-! ### Theorems -/

/-- **C105, partial** (ideal arithmetic): a comb whose decay time is at most about 30 times its delay stays bounded however both are moved
about while it runs, whole or fractional delays of any length, in any order of calls: if no delay is below `τ` and no decay time beyond `T`
and the gain `0.001^(τ/T)` is below 4/5, inputs within `X` give outputs within `(5/4) X / (1 - (5/4) 0.001^(τ/T))`. With rounding: `C105_bounded_float_partial`. For
larger gains the claim is false, see `C105_explodes`. -/
theorem C105_bounded_partial (sr md τ T X dt dc : ℝ) (hsr : 0 ≤ sr) (hp : md * sr ≤ 2 ^ 62) (t0 : 0 ≤ τ) (t1 : τ ≤ md) (X0 : 0 ≤ X)
    (short : 5 / 4 * Real.exp (-6.907755 * (τ / T)) < 1) (hdt : τ ≤ dt) (hdc : |dc| ≤ T) (fuel : ℕ) (hf : 1 ≤ fuel) (es : List Ride)
    (hes : ∀ e ∈ es, e.within τ T X) :
    ∃ s0 s' ys, CombC.init sr md = some s0 ∧ ride fuel s0 (.delay dt :: .decay dc :: es) = some (s', ys) ∧
      ∀ y ∈ ys, |y| ≤ 5 / 4 * (X / (1 - 5 / 4 * Real.exp (-6.907755 * (τ / T)))) := by
  have md0 : 0 ≤ md := t0.trans t1
  obtain ⟨s0, hs0, s, rfl, hb, hh, h3, h4, h5⟩ := setup_real (dt := min md dt) (dc := dc) hsr md0 (le_min md0 (t0.trans hdt)) (min_le_left _ _) hp
  have d1 : 0 < 1 - 5 / 4 * Real.exp (-6.907755 * (τ / T)) := by linarith
  set M := X / (1 - 5 / 4 * Real.exp (-6.907755 * (τ / T))) with hM
  have M0 : 0 ≤ M := div_nonneg X0 d1.le
  have M1 : X + Real.exp (-6.907755 * (τ / T)) * (5 / 4 * M) ≤ M := by
    have : M * (1 - 5 / 4 * Real.exp (-6.907755 * (τ / T))) = X := div_mul_cancel₀ _ d1.ne'
    linarith
  have hz := hs0
  simp only [CombC.init, Option.map_eq_some_iff] at hz
  obtain ⟨n, -, hn⟩ := hz
  have top : s0.maxDelayTime = md := by rw [← hn]; rfl
  have same : CombC.setDelayTime dt s0 = CombC.setDelayTime (min md dt) s0 := by
    unfold CombC.setDelayTime
    congr 2
    rw [top]
    simp only [real_arith]
    rw [clamp_real (by push_cast; exact md0), clamp_real (by push_cast; exact md0), ← min_assoc, min_self]
  have C : Calm sr md τ T M (CombC.setDecayTime dc (CombC.setDelayTime dt s0)) := by
    rw [same]
    refine ⟨hh.len, hh.pos, by rw [hb]; push_cast; rfl, h4, by rw [← top]; rfl, by rw [h3]; exact ⟨le_min t1 hdt, min_le_left _ _⟩, hdc, ?_, ?_⟩
    · rw [h5, h3]; rfl
    · have : (CombC.setDecayTime dc (CombC.setDelayTime (min md dt) s0)).buffer = s0.buffer := rfl
      rw [this, ← hn]
      intro v hv
      have : v = (lit 0 : ℝ) := List.eq_of_mem_replicate hv
      rw [this]
      simp only [real_arith]
      simpa using M0
  obtain ⟨s', ys, a, b⟩ := calm_ride hsr hp t0 t1 M0 M1 hf es C hes
  exact ⟨s0, s', ys, hs0, a, b⟩

/-- Concrete case: delays from 10 ms on and decay times up to 0.3 s. -/
example : (5 / 4 : ℝ) * Real.exp (-6.907755 * ((1 / 100) / (3 / 10))) < 1 := by
  have h := Real.quadratic_le_exp_of_nonneg (show (0:ℝ) ≤ 6.907755 * ((1 / 100) / (3 / 10)) by norm_num)
  have e : (-6.907755 * ((1 / 100) / (3 / 10)) : ℝ) = -(6.907755 * ((1 / 100) / (3 / 10))) := by ring
  rw [e, Real.exp_neg, ← div_eq_mul_inv, div_lt_one (Real.exp_pos _)]
  refine lt_of_lt_of_le ?_ h
  norm_num

/-! ### Rocking -/

theorem ride_append (fuel : ℕ) : ∀ (a b : List Ride) (s : Comb ℝ), ride fuel s (a ++ b) =
    (ride fuel s a).bind fun r => (ride fuel r.1 b).map fun t => (t.1, r.2 ++ t.2)
  | [], b, s => by
    simp only [List.nil_append, ride, Option.bind_some, List.nil_append, Prod.mk.eta, Option.map_id']
  | .delay dt :: a, b, s => by simp only [List.cons_append, ride]; exact ride_append fuel a b _
  | .decay dc :: a, b, s => by simp only [List.cons_append, ride]; exact ride_append fuel a b _
  | .reset :: a, b, s => by simp only [List.cons_append, ride]; exact ride_append fuel a b _
  | .tick x :: a, b, s => by
    simp only [List.cons_append, ride]
    cases CombC.tick fuel s x with
    | none => rfl
    | some r =>
      simp only [Option.bind_some, ride_append fuel a b]
      cases ride fuel r.1 a with
      | none => rfl
      | some t =>
        simp only [Option.bind_some, Option.map_some]
        cases ride fuel t.1 b <;> simp

theorem updown_sq (k : ℤ) : updown k * updown k = 1 := by unfold updown; split_ifs <;> norm_num

theorem updown_near (n q : ℕ) : updown (2 * (n / 2 : ℕ) - 4 * q) = updown n ∧ updown (2 * (n / 2 : ℕ) - 4 * q + 1) = updown n ∧
    updown (2 * (n / 2 : ℕ) - 4 * q - 1) = -updown n ∧ updown (2 * (n / 2 : ℕ) - 4 * q + 2) = -updown n := by
  have h : ∀ a b : ℤ, (a / 2 % 2 = 0 ↔ b / 2 % 2 = 0) → updown a = updown b := fun a b h => by
    unfold updown
    by_cases c : b / 2 % 2 = 0
    · rw [if_pos (h.2 c), if_pos c]
    · rw [if_neg (fun d => c (h.1 d)), if_neg c]
  have h' : ∀ a b : ℤ, (a / 2 % 2 = 0 ↔ ¬b / 2 % 2 = 0) → updown a = -updown b := fun a b h => by
    unfold updown
    by_cases c : b / 2 % 2 = 0
    · rw [if_neg (fun d => h.1 d c), if_pos c]
    · rw [if_pos (h.2 c), if_neg c]; norm_num
  exact ⟨h _ _ (by omega), h _ _ (by omega), h' _ _ (by omega), h' _ _ (by omega)⟩

/-- The middle between two points. -/
theorem spline_half (u : ℤ → ℝ) (i : ℤ) : spline u (i + 1 / 2) = (-u (i - 1) + 9 * u i + 9 * u (i + 1) - u (i + 2)) / 16 := by
  have : ⌊(i : ℝ) + 1 / 2⌋ = i := by rw [Int.floor_eq_iff]; constructor <;> norm_num
  rw [spline, this, segment]
  ring

/-- What a rocked comb has done after `n` ticks. -/
structure Rocked (sr md dc c : ℝ) (B n : ℕ) (s : Comb ℝ) (V ys : List ℝ) : Prop where
  holds : Holds s V.reverse
  size : (s.bufferSize : ℝ) = ⌈md * sr⌉.toNat + 4
  rate : s.sampleRate = sr
  top : s.maxDelayTime = md
  decay : s.decayTime = dc
  written : V.length = n
  heard : ys.length = n
  sign : ∀ i, 0 ≤ updown i * signal V i
  line : ∀ k < n, c ^ (k / B) ≤ updown k * signal V k
  out : ∀ k < n, B ≤ k → c ^ (k / B) ≤ updown k * ys.getD k 0

theorem signal_snoc (V : List ℝ) (w : ℝ) (i : ℤ) : signal (V ++ [w]) i = if i = V.length then w else signal V i := by
  unfold signal
  by_cases h0 : i < 0
  · rw [if_pos h0, if_pos h0, if_neg (by omega)]
  · rw [if_neg h0, if_neg h0]
    simp only [List.getD_eq_getElem?_getD]
    split_ifs with h
    · rw [h, Int.toNat_natCast, List.getElem?_append_right le_rfl]; simp
    · by_cases h2 : i.toNat < V.length
      · rw [List.getElem?_append_left h2]
      · rw [List.getElem?_eq_none (by simp; omega), List.getElem?_eq_none (by omega)]

theorem rocked_step {sr md dc : ℝ} {q n : ℕ} (hsr : 0 < sr) (hp : md * sr ≤ 2 ^ 62) (hq : 1 ≤ q) (hd : (4 * q + 1 / 2) / sr ≤ md)
    (hdc : 0 < dc) (hc : 1 ≤ 5 / 4 * gain ((4 * q + 1 / 2) / sr) dc) {s : Comb ℝ} {V ys : List ℝ}
    (R : Rocked sr md dc (5 / 4 * gain ((4 * q + 1 / 2) / sr) dc) (4 * q + 2) n s V ys) {fuel : ℕ} (hf : 1 ≤ fuel) :
    ∃ s' w y, ride fuel s (rock sr q n) = some (s', [y]) ∧
      Rocked sr md dc (5 / 4 * gain ((4 * q + 1 / 2) / sr) dc) (4 * q + 2) (n + 1) s' (V ++ [w]) (ys ++ [y]) := by
  have q1 : (1:ℝ) ≤ q := by exact_mod_cast hq
  obtain ⟨D, hD⟩ : ∃ D : ℝ, D = if n % 2 = 0 then 4 * (q:ℝ) - 1 / 2 else 4 * q + 1 / 2 := ⟨_, rfl⟩
  have D1 : 2 ≤ D := by rw [hD]; split_ifs <;> linarith
  have D2 : D ≤ 4 * q + 1 / 2 := by rw [hD]; split_ifs <;> linarith
  have eD : (if n % 2 = 0 then (4 * (q:ℝ) - 1 / 2) / sr else (4 * q + 1 / 2) / sr) = D / sr := by rw [hD]; split_ifs <;> rfl
  have d0 : 0 ≤ D / sr := div_nonneg (by linarith) hsr.le
  have d1 : D / sr ≤ md := (div_le_div_of_nonneg_right D2 hsr.le).trans hd
  set s1 := CombC.setDelayTime (D / sr) s with hs1
  have e1 : s1.delayTime = D / sr := by
    show clamp (D / sr) (lit 0) s.maxDelayTime = _
    rw [R.top]
    simp only [real_arith]
    rw [clamp_real (by push_cast; linarith)]
    push_cast
    rw [min_eq_right d1, max_eq_right d0]
  have H1 : Holds s1 V.reverse := ⟨R.holds.len, R.holds.pos, R.holds.cell⟩
  have N1 : s1.bufferSize < 2 ^ 63 := by
    have : ⌈md * sr⌉ ≤ 2 ^ 62 := by rw [Int.ceil_le]; push_cast; norm_num at hp ⊢; exact hp
    have e : s.bufferSize = ⌈md * sr⌉.toNat + 4 := by exact_mod_cast R.size
    show s.bufferSize < _
    omega
  have e2 : s1.delayTime * s1.sampleRate = D := by
    rw [e1]; show D / sr * s.sampleRate = D
    rw [R.rate]; exact div_mul_cancel₀ _ hsr.ne'
  have D3 : D ≤ s1.bufferSize - 4 := by
    show D ≤ (s.bufferSize : ℝ) - 4
    rw [R.size]
    have a := mul_le_mul_of_nonneg_right d1 hsr.le
    rw [div_mul_cancel₀ _ hsr.ne'] at a
    have b := Int.le_ceil (md * sr)
    have c : (⌈md * sr⌉ : ℝ) ≤ (⌈md * sr⌉.toNat : ℝ) := by exact_mod_cast Int.self_le_toNat _
    linarith
  obtain ⟨x, hx⟩ : ∃ x : ℝ, x = if n < 4 * q + 2 then updown n else 0 := ⟨_, rfl⟩
  have ht := tick_fraction H1 N1 e2 D1 D3 hf x
  set y := spline (signal V) (V.length - D) with hy
  have g1 : s1.feedbackCoeff = gain (D / sr) dc := by
    rw [← e1, ← R.decay]; exact updateFeedback_real _
  set g := gain ((4 * q + 1 / 2) / sr) dc with hg
  have gg : g ≤ gain (D / sr) dc := by
    rw [hg]
    unfold gain
    rw [if_neg hdc.ne', if_neg hdc.ne', sign_pos hdc]
    simp only [SignType.coe_one, one_mul]
    refine Real.exp_le_exp.2 ?_
    have a := div_le_div_of_nonneg_right (div_le_div_of_nonneg_right D2 hsr.le) (abs_nonneg dc)
    linarith
  have gl : g < 1 := (abs_lt.1 (gain_abs (dc := dc) (div_pos (by linarith) hsr))).2
  -- what is read
  obtain ⟨i, hi⟩ : ∃ i : ℤ, i = 2 * (n / 2 : ℕ) - 4 * q := ⟨_, rfl⟩
  have pos : (V.length : ℝ) - D = i + 1 / 2 := by
    rw [R.written, hD, hi]
    obtain ⟨j, hj⟩ : ∃ j : ℕ, n / 2 = j := ⟨_, rfl⟩
    rw [hj]
    rcases Nat.mod_two_eq_zero_or_one n with h | h
    · have : (n : ℝ) = 2 * j := by exact_mod_cast (by omega : n = 2 * j)
      rw [if_pos h]; push_cast; linarith
    · have : (n : ℝ) = 2 * j + 1 := by exact_mod_cast (by omega : n = 2 * j + 1)
      rw [if_neg (by omega)]; push_cast; linarith
  obtain ⟨u0, u1, u2, u3⟩ := updown_near n q
  rw [← hi] at u0 u1 u2 u3
  have hyv : updown n * y = (updown (i - 1) * signal V (i - 1) + 9 * (updown i * signal V i) + 9 * (updown (i + 1) * signal V (i + 1)) +
      updown (i + 2) * signal V (i + 2)) / 16 := by
    rw [hy, pos, spline_half, u0, u1, u2, u3]; ring
  have y0 : 0 ≤ updown n * y := by
    rw [hyv]
    have a := R.sign (i - 1)
    have b := R.sign i
    have c := R.sign (i + 1)
    have d := R.sign (i + 2)
    linarith
  have y1 : 4 * q + 2 ≤ n → 5 / 4 * (5 / 4 * g) ^ (n / (4 * q + 2) - 1) ≤ updown n * y := by
    intro hn
    have at' : ∀ j : ℤ, (n : ℤ) - (4 * q + 2) ≤ j → j < n → (5 / 4 * g) ^ (n / (4 * q + 2) - 1) ≤ updown j * signal V j := by
      intro j j0 j1
      obtain ⟨k, rfl⟩ : ∃ k : ℕ, j = k := ⟨j.toNat, by omega⟩
      refine le_trans (pow_le_pow_right₀ hc ?_) (R.line k (by omega))
      have : n / (4 * q + 2) - 1 = (n - (4 * q + 2)) / (4 * q + 2) := by
        rw [Nat.div_eq_sub_div (by omega) hn, Nat.add_sub_cancel]
      rw [this]
      exact Nat.div_le_div_right (by omega)
    rw [hyv]
    have a := at' (i - 1) (by omega) (by omega)
    have b := at' i (by omega) (by omega)
    have c := at' (i + 1) (by omega) (by omega)
    have d := at' (i + 2) (by omega) (by omega)
    linarith
  have split : 4 * q + 2 ≤ n → (5 / 4 * g) ^ (n / (4 * q + 2)) = g * (5 / 4 * (5 / 4 * g) ^ (n / (4 * q + 2) - 1)) := by
    intro hn
    have : 0 < n / (4 * q + 2) := Nat.div_pos hn (by omega)
    obtain ⟨m, hm⟩ : ∃ m, n / (4 * q + 2) = m + 1 := ⟨n / (4 * q + 2) - 1, by omega⟩
    rw [hm, Nat.add_sub_cancel, pow_succ]; ring
  have w0 : 0 ≤ g := by linarith
  set w := x + s1.feedbackCoeff * y with hw
  have uw : updown n * w = updown n * x + gain (D / sr) dc * (updown n * y) := by rw [hw, g1]; ring
  have wl : (5 / 4 * g) ^ (n / (4 * q + 2)) ≤ updown n * w := by
    rw [uw]
    have a := mul_le_mul_of_nonneg_right gg y0
    by_cases hn : n < 4 * q + 2
    · rw [hx, if_pos hn, updown_sq, Nat.div_eq_of_lt hn, pow_zero]
      have := mul_nonneg w0 y0
      linarith
    · rw [hx, if_neg hn, mul_zero, zero_add, split (by omega)]
      exact (mul_le_mul_of_nonneg_left (y1 (by omega)) w0).trans a
  refine ⟨advance s1 x y, w, y, ?_, ?_⟩
  · simp only [rock, eD, ← hx, ride, ← hs1, ht, Option.bind_some, Option.map_some]
  · have snoc : ∀ k : ℤ, signal (V ++ [w]) k = if k = n then w else signal V k := fun k => by rw [signal_snoc, R.written]
    refine ⟨by rw [List.reverse_append]; exact holds_advance H1 N1 x y, R.size, R.rate, R.top, R.decay, by simp [R.written], by simp [R.heard], ?_, ?_, ?_⟩
    · intro k
      rw [snoc]
      split_ifs with h
      · rw [h]; exact le_trans (pow_nonneg (by linarith) _) wl
      · exact R.sign k
    · intro k hk
      rw [snoc]
      split_ifs with h
      · have : k = n := by exact_mod_cast h
        rw [this]; exact wl
      · exact R.line k (by omega)
    · intro k hk hB
      rw [List.getD_eq_getElem?_getD]
      by_cases h : k = n
      · rw [h, List.getElem?_append_right (by rw [R.heard]), R.heard, Nat.sub_self, List.getElem?_cons_zero, Option.getD_some, split (h ▸ hB)]
        have a := y1 (h ▸ hB)
        have b : 0 ≤ 5 / 4 * (5 / 4 * g) ^ (n / (4 * q + 2) - 1) := mul_nonneg (by norm_num) (pow_nonneg (by linarith) _)
        have c := mul_le_mul_of_nonneg_right gl.le b
        linarith
      · rw [List.getElem?_append_left (by rw [R.heard]; omega), ← List.getD_eq_getElem?_getD]
        exact R.out k (by omega) hB

/-- **C105 negation** (ideal arithmetic): a comb is not safe to modulate. Take any sample rate, any delay of `4 q` samples and any positive
decay time long enough for the gain to exceed 4/5 (about 31 times the delay). If the delay is moved to and fro by one sample, from
`4 q - 1/2` to `4 q + 1/2` and back, a burst of `4 q + 2` samples of plus and minus one, followed by silence, makes the output grow for ever:
tick `k` gives at least `(5/4 g)^(k / (4 q + 2))`, `g < 1` being the smaller of the two gains. -/
theorem C105_explodes (sr md dc : ℝ) (q : ℕ) (hsr : 0 < sr) (hp : md * sr ≤ 2 ^ 62) (hq : 1 ≤ q) (hd : (4 * q + 1 / 2) / sr ≤ md) (hdc : 0 < dc)
    (hc : 1 ≤ 5 / 4 * gain ((4 * q + 1 / 2) / sr) dc) (fuel : ℕ) (hf : 1 ≤ fuel) (n : ℕ) :
    ∃ s0 s' ys, CombC.init sr md = some s0 ∧
      ride fuel s0 (.decay dc :: (List.range n).flatMap (rock sr q)) = some (s', ys) ∧ ys.length = n ∧
      gain ((4 * q + 1 / 2) / sr) dc < 1 ∧
      ∀ k < n, 4 * q + 2 ≤ k → (5 / 4 * gain ((4 * q + 1 / 2) / sr) dc) ^ (k / (4 * q + 2)) ≤ |ys.getD k 0| := by
  have q1 : (1:ℝ) ≤ q := by exact_mod_cast hq
  have p0 : 0 < (4 * (q:ℝ) + 1 / 2) / sr := div_pos (by linarith) hsr
  obtain ⟨s0, hs0, s, hs, hb, hh, -, h4, -⟩ := setup_real (dt := (4 * q + 1 / 2) / sr) (dc := dc) hsr.le (p0.le.trans hd) p0.le hd hp
  have hz := hs0
  simp only [CombC.init, Option.map_eq_some_iff] at hz
  obtain ⟨m, -, hm⟩ := hz
  have top : s0.maxDelayTime = md := by rw [← hm]; rfl
  have H : Holds (CombC.setDecayTime dc s0) [] := by
    rw [hs] at hh
    exact ⟨hh.len, hh.pos, hh.cell⟩
  have key : ∀ n, ∃ s' V ys, ride fuel (CombC.setDecayTime dc s0) ((List.range n).flatMap (rock sr q)) = some (s', ys) ∧
      Rocked sr md dc (5 / 4 * gain ((4 * q + 1 / 2) / sr) dc) (4 * q + 2) n s' V ys := by
    intro n
    induction n with
    | zero =>
      refine ⟨CombC.setDecayTime dc s0, [], [], rfl, H, ?_, ?_, top, rfl, rfl, rfl, fun i => ?_, by simp, by simp⟩
      · rw [hs] at hb
        have : (CombC.setDecayTime dc s0).bufferSize = ⌈md * sr⌉.toNat + 4 := hb
        rw [this]; push_cast; rfl
      · rw [hs] at h4; exact h4
      · simp [signal]
    | succ n ih =>
      obtain ⟨s', V, ys, a, R⟩ := ih
      obtain ⟨s'', w, y, b, R'⟩ := rocked_step hsr hp hq hd hdc hc R hf
      refine ⟨s'', _, _, ?_, R'⟩
      rw [List.range_succ, List.flatMap_append, List.flatMap_singleton, ride_append, a, Option.bind_some, b]
      rfl
  obtain ⟨s', V, ys, a, R⟩ := key n
  refine ⟨s0, s', ys, hs0, a, R.heard, (abs_lt.1 (gain_abs (dc := dc) p0)).2, fun k hk hB => (R.out k hk hB).trans ?_⟩
  refine (le_abs_self _).trans (le_of_eq ?_)
  rw [abs_mul]
  have : |updown k| = 1 := by unfold updown; split_ifs <;> norm_num
  rw [this, one_mul]

/-- Concrete case: a comb of 10 ms at 48 kHz with the default decay time of one second, its delay moved to and fro by 21 µs. A burst of
10 ms is answered with more than `10^100` (beyond the range of `float`) within twenty seconds. -/
theorem C105_explodes_ten_ms (fuel : ℕ) (hf : 1 ≤ fuel) : ∃ s0 s' ys, CombC.init 48000 (1 / 5 : ℝ) = some s0 ∧
    ride fuel s0 (.decay 1 :: (List.range 960000).flatMap (rock 48000 120)) = some (s', ys) ∧ 10 ^ 100 ≤ |ys.getD 959999 0| := by
  have hg : (0.928:ℝ) ≤ gain ((4 * (120 : ℕ) + 1 / 2) / 48000) 1 := by
    unfold gain
    rw [if_neg one_ne_zero]
    have := Real.add_one_le_exp (-6.907755 * (((4 * (120 : ℕ) + 1 / 2) / 48000 : ℝ) / |1|))
    norm_num at this ⊢
    linarith
  obtain ⟨s0, s', ys, a, b, -, -, c⟩ := C105_explodes 48000 (1 / 5) 1 120 (by norm_num) (by norm_num) (by norm_num) (by norm_num) (by norm_num)
    (by linarith) fuel hf 960000
  refine ⟨s0, s', ys, a, b, le_trans ?_ (c 959999 (by norm_num) (by norm_num))⟩
  have h1 : (1.16:ℝ) ≤ 5 / 4 * gain ((4 * (120 : ℕ) + 1 / 2) / 48000) 1 := by linarith
  generalize 5 / 4 * gain ((4 * (120 : ℕ) + 1 / 2) / 48000) 1 = z at h1 ⊢
  have h2 : (2:ℝ) ≤ z ^ 5 := le_trans (by norm_num) (pow_le_pow_left₀ (by norm_num) h1 5)
  have h3 : (10:ℝ) ^ 100 ≤ 2 ^ 340 := by
    rw [show (2:ℝ) ^ 340 = (2 ^ 170) ^ 2 by rw [← pow_mul], show (10:ℝ) ^ 100 = (10 ^ 50) ^ 2 by rw [← pow_mul]]
    exact pow_le_pow_left₀ (by norm_num) (by norm_num) 2
  have h4 : (2:ℝ) ^ 340 ≤ z ^ (5 * 340) := by rw [pow_mul]; exact pow_le_pow_left₀ (by norm_num) h2 340
  exact (h3.trans h4).trans (pow_le_pow_right₀ (by linarith) (by norm_num))

end Verif.CombC
