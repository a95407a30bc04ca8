import Verif.Model.Filters
import Verif.Lemmas.Loops
import Verif.Lemmas.LinearBlocks
import Verif.Float.IntConv

/-!
# Properties C18, C19: the smoothers `LagLinear` and `Lag`
-/

namespace Verif
open FP

/-! ## C19: Lag -/

namespace Lag

/-- Calls a user can make on a running `Lag`. -/
inductive Call (α : Type) where
  | setLagTime (t : α)
  | tick (x : α)
  | setValue (v : α)

/-- Perform calls; collect what the ticks return. -/
def run {α : Type} [Arith α] [Libm α] : Filt α → List (Call α) → Filt α × List α
  | s, [] => (s, [])
  | s, .setLagTime t :: cs => run (setLagTime t s) cs
  | s, .tick x :: cs => let r := tick s x; let q := run r.1 cs; (q.1, r.2 :: q.2)
  | s, .setValue v :: cs => run (setValue v s) cs

/-- The values handed to the smoother: inputs and forced values. -/
def values {α : Type} : List (Call α) → List α
  | [] => []
  | .tick x :: cs => x :: values cs
  | .setValue v :: cs => v :: values cs
  | .setLagTime _ :: cs => values cs

theorem coeff_real (s : Filt ℝ) (hsr : 0 < s.sampleRate) (t : ℝ) :
    0 ≤ (setLagTime t s).coeff ∧ (setLagTime t s).coeff < 1 ∧
      (0 < t → (setLagTime t s).coeff = Real.exp (-6.907755 / (t * s.sampleRate))) ∧
      (t ≤ 0 → (setLagTime t s).coeff = 0) := by
  rcases le_or_gt t 0 with h | h
  · have : (setLagTime t s).coeff = 0 := by
      simp only [setLagTime, real_arith]
      rw [if_pos (by exact_mod_cast h)]; simp
    exact ⟨this.ge, by rw [this]; norm_num, fun h' => absurd h (not_le.mpr h'), fun _ => this⟩
  · have : (setLagTime t s).coeff = Real.exp (-6.907755 / (t * s.sampleRate)) := by
      simp only [setLagTime, real_arith]
      rw [if_neg (by push_cast; exact not_le.mpr h)]
      norm_num
    refine ⟨by rw [this]; positivity, ?_, fun _ => this, fun h' => absurd h (not_lt.mpr h')⟩
    rw [this, Real.exp_lt_one_iff]
    exact div_neg_of_neg_of_pos (by norm_num) (mul_pos h hsr)

/-- **C19** (exact arithmetic): every output lies in every interval that contains the initial value 0 and all values
handed to the smoother, whatever lag times are set in between. -/
theorem C19_hull (sr t : ℝ) (hsr : 0 < sr) (cs : List (Call ℝ)) (a b : ℝ) (ha : a ≤ 0) (hb : 0 ≤ b)
    (hin : ∀ x ∈ values cs, a ≤ x ∧ x ≤ b) : ∀ y ∈ (run (init sr t) cs).2, a ≤ y ∧ y ≤ b := by
  have key : ∀ (cs : List (Call ℝ)) (s : Filt ℝ), s.sampleRate = sr → 0 ≤ s.coeff → s.coeff ≤ 1 →
      a ≤ s.prevOutput ∧ s.prevOutput ≤ b → (∀ x ∈ values cs, a ≤ x ∧ x ≤ b) → ∀ y ∈ (run s cs).2, a ≤ y ∧ y ≤ b := by
    intro cs
    induction cs with
    | nil => intro s _ _ _ _ _ y hy; simp [run] at hy
    | cons c cs ih =>
      intro s h1 h2 h3 h5 hin
      cases c with
      | setLagTime t =>
        obtain ⟨p0, p1, -, -⟩ := coeff_real s (by rw [h1]; exact hsr) t
        refine ih (setLagTime t s) ?_ p0 p1.le ?_ hin
        · simp only [setLagTime]; split_ifs <;> exact h1
        · simp only [setLagTime]; split_ifs <;> exact h5
      | tick x =>
        have hx := hin x (by simp [values])
        have hz : a ≤ (tick s x).2 ∧ (tick s x).2 ≤ b := by
          simp only [tick, real_arith]; push_cast
          constructor <;> nlinarith
        intro y hy
        simp only [run, List.mem_cons] at hy
        rcases hy with rfl | hy
        · exact hz
        · exact ih (tick s x).1 h1 h2 h3 hz (fun x hx => hin x (by simp [values, hx])) y hy
      | setValue v =>
        exact ih (setValue v s) h1 h2 h3 (hin v (by simp [values])) (fun x hx => hin x (by simp [values, hx]))
  obtain ⟨p0, p1, -, -⟩ := coeff_real ⟨sr, lit 0, lit 0, lit 0⟩ hsr t
  refine key cs (init sr t) ?_ p0 p1.le ?_ hin
  · simp only [init, setLagTime]; split_ifs <;> rfl
  · have : (init sr t).prevOutput = 0 := by
      simp only [init, setLagTime]; split_ifs <;> simp [real_arith]
    rw [this]; exact ⟨ha, hb⟩

/-- **C19**: a smoother started on a value `v` stays between `v` and its inputs (no reference to 0). -/
theorem C19_hull_from (s : Filt ℝ) (hsr : 0 < s.sampleRate) (v t : ℝ) (xs : List ℝ) (a b : ℝ)
    (hv : a ≤ v ∧ v ≤ b) (hin : ∀ x ∈ xs, a ≤ x ∧ x ≤ b) :
    ∀ y ∈ (process (setLagTime t (setValue v s)) xs).2, a ≤ y ∧ y ≤ b := by
  obtain ⟨p0, p1, -, -⟩ := coeff_real (setValue v s) hsr t
  have hp : (setLagTime t (setValue v s)).prevOutput = v := by
    simp only [setLagTime, setValue]; split_ifs <;> rfl
  have key : ∀ (xs : List ℝ) (s : Filt ℝ), 0 ≤ s.coeff → s.coeff ≤ 1 → a ≤ s.prevOutput ∧ s.prevOutput ≤ b →
      (∀ x ∈ xs, a ≤ x ∧ x ≤ b) → ∀ y ∈ (process s xs).2, a ≤ y ∧ y ≤ b := by
    intro xs
    induction xs with
    | nil => intro s _ _ _ _ y hy; simp [process, forEach] at hy
    | cons x xs ih =>
      intro s h2 h3 h5 hin y hy
      have hx := hin x List.mem_cons_self
      have hz : a ≤ (tick s x).2 ∧ (tick s x).2 ≤ b := by
        simp only [tick, real_arith]; push_cast
        constructor <;> nlinarith
      simp only [process, forEach, List.mem_cons] at hy
      rcases hy with rfl | hy
      · exact hz
      · exact ih (tick s x).1 h2 h3 hz (fun x hx => hin x (List.mem_cons_of_mem _ hx)) y hy
  exact key xs _ p0 p1.le (by rw [hp]; exact hv) hin

/-- **C19**: the distance to a constant target `c` shrinks by `exp(-6.907755/(t·sr))` per tick, hence by
`exp(-6.907755)` (about 1/1000) whenever `n` ticks make up one lag time. -/
theorem C19_decay (s : Filt ℝ) (hsr : 0 < s.sampleRate) (t : ℝ) (ht : 0 < t) (c : ℝ) (n : ℕ) :
    (tickState (fun s => tick s c) n (setLagTime t s)).prevOutput - c =
        Real.exp (-6.907755 * (n / (t * s.sampleRate))) * (s.prevOutput - c) ∧
      ((n : ℝ) = t * s.sampleRate → (tickState (fun s => tick s c) n (setLagTime t s)).prevOutput - c =
        Real.exp (-6.907755) * (s.prevOutput - c)) := by
  have key : ∀ (n : ℕ) (s : Filt ℝ), (tickState (fun s => tick s c) n s).prevOutput - c = s.coeff ^ n * (s.prevOutput - c) := by
    intro n
    induction n with
    | zero => intro s; simp [tickState]
    | succ n ih =>
      intro s
      rw [tickState_succ', ih]
      simp only [tick, real_arith, pow_succ]; push_cast; ring
  have h1 : (tickState (fun s => tick s c) n (setLagTime t s)).prevOutput - c =
        Real.exp (-6.907755 * (n / (t * s.sampleRate))) * (s.prevOutput - c) := by
    have hp : (setLagTime t s).prevOutput = s.prevOutput := by
      simp only [setLagTime]; split_ifs <;> rfl
    rw [key, (coeff_real s hsr t).2.2.1 ht, hp, ← Real.exp_nat_mul]
    congr 2; ring
  refine ⟨h1, fun hn => ?_⟩
  rw [h1, hn, div_self (mul_pos ht hsr).ne', mul_one]

/-- **C19** in single precision: with a lag time `<= 0` the output is the input (as a number), for any finite history. -/
theorem C19_passthrough_float [Libm F32] (s : Filt F32) (hs : s.prevOutput.isFin = true) (t x : F32)
    (ht : (t <=. lit 0) = true) (hx : x.isFin = true) : (tick (setLagTime t s) x).2.In x.val x.val := by
  have hz := lit_zero (f := binary32)
  have h1 := lit_one (f := binary32)
  simp only [setLagTime, ht, if_true, tick]
  have ha : (lit 0 * s.prevOutput : F32).Zero := by
    obtain ⟨zs, e⟩ := mul_def hz.1 hs
    rw [e, hz.val_eq, zero_mul]; exact ofRat_rep rep_zero
  have hg : (lit 1 - lit 0 : F32).In 1 1 := sub_in h1 hz rep_one rep_one (by norm_num) (by norm_num)
  have hb : ((lit 1 - lit 0) * x : F32).In x.val x.val :=
    mul_in hg.1 hx (rep_val x) (rep_val x) (by rw [hg.val_eq]; linarith) (by rw [hg.val_eq]; linarith)
  exact add_in ha hb (rep_val x) (rep_val x) (by linarith) (by linarith)

/-- No NaN lag time, no value beyond `2^k`. -/
def Tame (k : ℕ) : Call F32 → Prop
  | .setLagTime t => t ≠ .nan
  | .tick x => x.In (-2 ^ k) (2 ^ k)
  | .setValue v => v.In (-2 ^ k) (2 ^ k)

theorem coeff_float [Libm F32] [LibmSpec] (s : Filt F32) (hsr : s.sampleRate.Pos) (t : F32) (ht : t ≠ .nan) :
    (setLagTime t s).coeff.In 0 1 := by
  unfold setLagTime
  by_cases h : (t <=. lit 0) = true
  · rw [if_pos h]; exact lit_zero.mono le_rfl (by norm_num)
  · rw [if_neg h]
    apply LibmSpec.exp_nonpos
    have htp : t.Pos := by
      have hz := lit_zero (f := binary32)
      rcases not_nan_cases ht with rfl | rfl | hf
      · exact absurd (by decide +kernel) h
      · exact Or.inl rfl
      · rw [le_fin hf hz.1, hz.val_eq] at h
        exact Or.inr ⟨hf, by simpa using h⟩
    have hl : (-lit 6.907755 : F32).isFin = true ∧ (-lit 6.907755 : F32).val < 0 := by decide +kernel
    exact neg_div_nonPos hl.1 hl.2 (htp.mul_posSign hsr)

/-- **C19** in single precision, rounding included: no output exceeds `2^k` in magnitude if no value does, and none is
negative if no value is. -/
theorem C19_range_float [Libm F32] [LibmSpec] (sr t : F32) (hsr : sr.Pos) (ht : t ≠ .nan) (k : ℕ) (hk : k ≤ 126)
    (cs : List (Call F32)) (hcs : ∀ c ∈ cs, Tame k c) :
    (∀ y ∈ (run (init sr t) cs).2, y.In (-2 ^ k) (2 ^ k)) ∧
      ((∀ x ∈ values cs, 0 ≤ x.val) → ∀ y ∈ (run (init sr t) cs).2, 0 ≤ y.val) := by
  have hB : (0:ℚ) < 2 ^ k := by positivity
  have h0 : (lit 0 : F32).In (-2 ^ k) (2 ^ k) := lit_zero.mono (by linarith) hB.le
  have key : ∀ (N : Bool) (cs : List (Call F32)) (s : Filt F32), s.sampleRate = sr → s.coeff.In 0 1 →
      s.prevOutput.In (-2 ^ k) (2 ^ k) → (N = true → 0 ≤ s.prevOutput.val) → (∀ c ∈ cs, Tame k c) →
      (N = true → ∀ x ∈ values cs, 0 ≤ x.val) →
      ∀ y ∈ (run s cs).2, y.In (-2 ^ k) (2 ^ k) ∧ (N = true → 0 ≤ y.val) := by
    intro N cs
    induction cs with
    | nil => intro s _ _ _ _ _ _ y hy; simp [run] at hy
    | cons c cs ih =>
      intro s h1 h2 h4 h5 hT hN
      have hT' : ∀ c ∈ cs, Tame k c := fun c hc => hT c (List.mem_cons_of_mem _ hc)
      have hc := hT c List.mem_cons_self
      cases c with
      | setLagTime t =>
        refine ih (setLagTime t s) ?_ (coeff_float s (by rw [h1]; exact hsr) t hc) ?_ ?_ hT' hN
        · simp only [setLagTime]; split_ifs <;> exact h1
        · simp only [setLagTime]; split_ifs <;> exact h4
        · simp only [setLagTime]; split_ifs <;> exact h5
      | tick x =>
        have hz : (tick s x).2.In (-2 ^ k) (2 ^ k) ∧ (N = true → 0 ≤ (tick s x).2.val) := by
          obtain ⟨a, b⟩ := convex_in hk h2 h4 hc
          exact ⟨a, fun hn => b (h5 hn) (hN hn x (by simp [values]))⟩
        intro y hy
        simp only [run, List.mem_cons] at hy
        rcases hy with rfl | hy
        · exact hz
        · exact ih (tick s x).1 h1 h2 hz.1 hz.2 hT' (fun hn x hx => hN hn x (by simp [values, hx])) y hy
      | setValue v =>
        exact ih (setValue v s) h1 h2 hc (fun hn => hN hn v (by simp [values])) hT'
          (fun hn x hx => hN hn x (by simp [values, hx]))
  have hp : (init sr t).coeff.In 0 1 := coeff_float ⟨sr, lit 0, lit 0, lit 0⟩ hsr t ht
  have hs : (init sr t).sampleRate = sr := by simp only [init, setLagTime]; split_ifs <;> rfl
  have hv : (init sr t).prevOutput = lit 0 := by simp only [init, setLagTime]; split_ifs <;> rfl
  constructor
  · intro y hy
    exact (key false cs _ hs hp (by rw [hv]; exact h0) (fun h => by cases h) hcs (fun h => by cases h) y hy).1
  · intro hN y hy
    exact (key true cs _ hs hp (by rw [hv]; exact h0) (fun _ => by rw [hv]; exact lit_zero.2.1) hcs (fun _ => hN) y hy).2 rfl

/-- **C19, negative**: with rounding the output can leave the hull of its history by a unit in the last place: state and
input are both `0.91f`, the coefficient is `0.4f`, the output is larger than `0.91f`. -/
theorem C19_float_leaves_hull :
    ∃ (s : Filt F32) (x : F32), s.prevOutput = x ∧ s.coeff.In 0 1 ∧ (x <. (tick s x).2) = true :=
  ⟨⟨lit 48000, lit 1, lit 0.4, lit 0.91⟩, lit 0.91, rfl, by decide +kernel, by decide +kernel⟩

example [Libm F32] [LibmSpec] : ∀ y ∈ (run (init (lit 48000 : F32) (lit 0.1))
    [.tick (lit 1), .setLagTime (lit 5), .tick (lit (-0.3)), .setValue (lit 0.7), .tick (lit 0.7)]).2, y.In (-1) 1 := by
  have := (C19_range_float (lit 48000) (lit 0.1) (by decide +kernel) (by decide +kernel) 0 (by norm_num)
    [.tick (lit 1), .setLagTime (lit 5), .tick (lit (-0.3)), .setValue (lit 0.7), .tick (lit 0.7)] ?_).1
  · simpa using this
  · simp only [List.forall_mem_cons, List.not_mem_nil, false_imp_iff, implies_true, and_true, Tame]
    decide +kernel

example : ∀ y ∈ (run (init (48000:ℝ) 1) [.tick 3, .setLagTime (-1), .tick (-2), .setValue 1, .tick 1]).2, -2 ≤ y ∧ y ≤ 3 :=
  C19_hull _ _ (by norm_num) _ _ _ (by norm_num) (by norm_num) (by
    intro x hx; simp [values] at hx; rcases hx with rfl | rfl | rfl | rfl <;> norm_num)

end Lag

/-! ## C18: LagLinear -/

namespace LagLinear

section
variable {α : Type} [Arith α]

theorem advance_landed {s : Ramp α} (h : s.samplesRemaining ≤ 1) :
    (advance s).1.currentValue = s.targetValue ∧ (advance s).2 = s.targetValue ∧
      (advance s).1.samplesRemaining ≤ 0 ∧ (advance s).1.targetValue = s.targetValue := by
  simp only [advance]
  by_cases h0 : s.samplesRemaining > 0
  · rw [if_pos h0]
    have h1 : s.samplesRemaining - 1 = 0 := by omega
    simp [h1]
  · rw [if_neg h0]
    simp; omega

theorem advance_ramp {s : Ramp α} (h : 1 < s.samplesRemaining) :
    (advance s).1 = { s with currentValue := s.currentValue + s.increment, samplesRemaining := s.samplesRemaining - 1 } ∧
      (advance s).2 = s.currentValue + s.increment := by
  simp only [advance]
  have h0 : s.samplesRemaining > 0 := by omega
  have h1 : ¬ s.samplesRemaining - 1 = 0 := by omega
  simp [h0, h1]

theorem tick_same {s : Ramp α} {x : α} (hx : (x ==. x) = true) (h : s.targetValue = x) : tick s x = some (advance s) := by
  simp [tick, Arith.ne, h, hx]

/-- Once the target is set, further identical inputs land after the remaining number of samples. -/
theorem land_from {x : α} (hx : (x ==. x) = true) : ∀ (k : ℕ) (s : Ramp α), s.targetValue = x →
    ∃ s' ys, process s (List.replicate k x) = some (s', ys) ∧ ys.length = k ∧
      (∀ i < k, s.samplesRemaining ≤ i + 1 → ys[i]? = some x) ∧
      (0 < k → s.samplesRemaining ≤ k → s'.currentValue = x ∧ s'.samplesRemaining ≤ 0) ∧ s'.targetValue = x := by
  intro k
  induction k with
  | zero => intro s hs; exact ⟨s, [], rfl, rfl, by simp, by simp, hs⟩
  | succ k ih =>
    intro s hs
    rw [List.replicate_succ]
    simp only [process, tick_same hx hs, Option.bind_some]
    rcases le_or_gt s.samplesRemaining 1 with h | h
    · obtain ⟨a1, a2, a3, a4⟩ := advance_landed h
      obtain ⟨s', ys, h1, h2, h3, h4, h5⟩ := ih (advance s).1 (a4.trans hs)
      refine ⟨s', (advance s).2 :: ys, by rw [h1]; rfl, by simp [h2], ?_, ?_, h5⟩
      · intro i hi _
        cases i with
        | zero => simp [a2, hs]
        | succ i => simpa using h3 i (by omega) (by omega)
      · intro _ _
        rcases Nat.eq_zero_or_pos k with rfl | hk
        · simp only [List.replicate_zero, process, Option.some.injEq, Prod.mk.injEq] at h1
          rw [← h1.1]; exact ⟨a1.trans hs, a3⟩
        · exact h4 hk (by omega)
    · obtain ⟨a1, a2⟩ := advance_ramp h
      obtain ⟨s', ys, h1, h2, h3, h4, h5⟩ := ih (advance s).1 (by rw [a1]; exact hs)
      rw [a1] at h3 h4
      refine ⟨s', (advance s).2 :: ys, by rw [h1]; rfl, by simp [h2], ?_, ?_, h5⟩
      · intro i hi hr
        cases i with
        | zero => simp at hr; omega
        | succ i =>
          have := h3 i (by omega) (by push_cast at hr; show s.samplesRemaining - 1 ≤ _; omega)
          simpa using this
      · intro _ hr
        push_cast at hr
        exact h4 (by omega) (by show s.samplesRemaining - 1 ≤ _; omega)

/-- **C18** (any arithmetic): when a new target `x` arrives and the ramp takes `n` samples, the `n`-th output from then on is
exactly `x`, and so is every later one while the input stays at `x`; nothing undefined happens. `x ==. x` says
that `x` is not NaN. -/
theorem C18_lands_exactly (s : Ramp α) (x : α) (hx : (x ==. x) = true) (hnew : Arith.ne x s.targetValue = true)
    (ht : (s.timeSeconds <=. lit 0) = false) (n : ℤ) (hn : rampLength s = some n) (k : ℕ) :
    ∃ s' ys, process s (List.replicate k x) = some (s', ys) ∧ ys.length = k ∧
      (∀ i < k, n ≤ i + 1 → ys[i]? = some x) ∧ (n ≤ k → s'.currentValue = x) := by
  have hn1 : 1 ≤ n := by
    simp only [rampLength, Option.map_eq_some_iff] at hn
    obtain ⟨m, -, rfl⟩ := hn
    exact le_max_left _ _
  cases k with
  | zero => exact ⟨s, [], rfl, rfl, by simp, fun h => by simp at h; omega⟩
  | succ k =>
    set s1 := recalcIncrement { s with targetValue := x, samplesRemaining := n } with hs1
    have hr : s1.samplesRemaining = n := by simp only [hs1, recalcIncrement]; split_ifs <;> rfl
    have hT : s1.targetValue = x := by simp only [hs1, recalcIncrement]; split_ifs <;> rfl
    have htick : tick s x = some (advance s1) := by
      simp only [tick, hnew, if_true]
      rw [if_neg (by rw [ht]; simp)]
      have : rampLength { s with targetValue := x } = some n := hn
      rw [this]; rfl
    have hsame : tick s1 x = some (advance s1) := tick_same hx hT
    obtain ⟨s', ys, h1, h2, h3, h4, h5⟩ := land_from hx (k + 1) s1 hT
    rw [hr] at h3 h4
    refine ⟨s', ys, ?_, h2, h3, fun h => (h4 (by omega) h).1⟩
    rw [List.replicate_succ] at h1 ⊢
    simp only [process, hsame] at h1
    simp only [process, htick]
    exact h1

/-- **C18** (any arithmetic): a time `<= 0` jumps to the target at once. -/
theorem C18_zero_time_jumps (s : Ramp α) (x : α) (hnew : Arith.ne x s.targetValue = true)
    (ht : (s.timeSeconds <=. lit 0) = true) : ∃ s', tick s x = some (s', x) ∧ s'.currentValue = x := by
  simp only [tick, hnew, if_true]
  rw [if_pos ht]
  exact ⟨_, rfl, rfl⟩

/-- **C18** (any arithmetic): `setTime` with a time `<= 0` jumps at once, also in the middle of a ramp: the value is the target, and stays
there while the input does. -/
theorem C18_set_time_zero (s : Ramp α) (t x : α) (ht : (t <=. lit 0) = true) (hx : (x ==. x) = true) (hs : s.targetValue = x) (k : ℕ) :
    ∃ s1 s' , setTime t s = some s1 ∧ s1.currentValue = x ∧ process s1 (List.replicate k x) = some (s', List.replicate k x) := by
  refine ⟨{ s with timeSeconds := t, increment := lit 0, samplesRemaining := 0, currentValue := s.targetValue }, ?_⟩
  obtain ⟨s', ys, h1, h2, h3, -, -⟩ := land_from hx k { s with timeSeconds := t, increment := lit 0, samplesRemaining := 0, currentValue := s.targetValue } hs
  have e : ys = List.replicate k x := by
    rw [List.eq_replicate_iff]
    refine ⟨h2, fun y hy => ?_⟩
    obtain ⟨i, hi, rfl⟩ := List.mem_iff_getElem.mp hy
    have := h3 i (by omega) (by show (0 : ℤ) ≤ _; omega)
    rw [List.getElem?_eq_getElem hi] at this
    simpa using this
  refine ⟨s', ?_, hs, e ▸ h1⟩
  simp only [setTime, ht, if_true]

/-- **C18** (any arithmetic): `setTime` in the middle of a ramp starts it again with the new time: if that time takes `n` samples, the
`n`-th output from then on is exactly the target, and so is every later one while the input stays. -/
theorem C18_set_time_restarts (s : Ramp α) (t x : α) (ht : (t <=. lit 0) = false) (hx : (x ==. x) = true) (hs : s.targetValue = x)
    (hne : Arith.ne x s.currentValue = true) (n : ℤ) (hn : rampLength { s with timeSeconds := t } = some n) (k : ℕ) :
    ∃ s1 s' ys, setTime t s = some s1 ∧ s1.currentValue = s.currentValue ∧ process s1 (List.replicate k x) = some (s', ys) ∧ ys.length = k ∧
      (∀ i < k, n ≤ i + 1 → ys[i]? = some x) ∧ (n ≤ k → s'.currentValue = x) := by
  have hn1 : 1 ≤ n := by
    simp only [rampLength, Option.map_eq_some_iff] at hn
    obtain ⟨m, -, rfl⟩ := hn
    exact le_max_left _ _
  obtain ⟨s1, hs1⟩ : ∃ s1, s1 = recalcIncrement { s with timeSeconds := t, samplesRemaining := n } := ⟨_, rfl⟩
  have hr : s1.samplesRemaining = n := by simp only [hs1, recalcIncrement]; split_ifs <;> rfl
  have hT : s1.targetValue = x := by simp only [hs1, recalcIncrement]; split_ifs <;> exact hs
  have hc : s1.currentValue = s.currentValue := by simp only [hs1, recalcIncrement]; split_ifs <;> rfl
  have e : setTime t s = some s1 := by
    simp only [setTime]
    rw [if_neg (by rw [ht]; simp), if_pos (by rw [hs]; exact hne), hn, hs1]
    rfl
  obtain ⟨s', ys, h1, h2, h3, h4, h5⟩ := land_from hx k s1 hT
  rw [hr] at h3 h4
  exact ⟨s1, s', ys, e, hc, h1, h2, h3, fun h => (h4 (by omega) h).1⟩

end

/-- The ramp length in single precision: `max(1, round(time * sampleRate))` of the rounded product, for any product below
`2^31 - 1`. -/
theorem C18_length_float (s : Ramp F32) (h : (s.timeSeconds * s.sampleRate).isFin = true)
    (h0 : 0 ≤ (s.timeSeconds * s.sampleRate).val) (h1 : (s.timeSeconds * s.sampleRate).val < 2 ^ 31 - 1) :
    rampLength s = some (max 1 (roundQ (s.timeSeconds * s.sampleRate).val)) := by
  have hr := round_in h prec32
  set p := s.timeSeconds * s.sampleRate
  have he := abs_le.mp (roundQ_err p.val)
  have hlt : (roundQ p.val : ℚ) < (2 ^ 31 : ℤ) := by push_cast; linarith [he.2]
  have hge : (-1 : ℚ) < (roundQ p.val : ℚ) := by linarith [he.1]
  have hlt' : roundQ p.val < 2 ^ 31 := by exact_mod_cast hlt
  have hge' : (-1:ℤ) < roundQ p.val := by exact_mod_cast hge
  have ht : truncQ (Arith.round p).val = roundQ p.val := by rw [hr.val_eq, truncQ_int]
  have := toI32_fin hr.1 (by rw [ht]; omega) (by rw [ht]; exact hlt')
  rw [ht] at this
  show (Arith.toI32? (Arith.round p)).map (max 1) = _
  rw [this]; rfl

/-- **C18, negative**: when `time * sampleRate` does not fit an `int` the conversion is undefined: here 48 kHz and half a day
(44740 s would still fit). -/
theorem C18_long_ramp_undefined :
    ∃ s : Ramp F32, init (lit 48000) (lit 0) (lit 45000) = some s ∧ tick s (lit 1) = none :=
  ⟨⟨lit 48000, lit 45000, lit 0, lit 0, lit 0, 0⟩, by decide +kernel, by decide +kernel⟩

/-- **C18, negative**: in single precision the ramp can overshoot before landing. At 10 Hz, ramping in one second from 1 to
`1 + 6·2^-23`, the ninth value is above the target (the increment `0.6` ulp is rounded up to one ulp in every step). -/
theorem C18_float_overshoots :
    ∃ (s : Ramp F32) (x y : F32), init (lit 10) (lit 1) (lit 1) = some s ∧ (lit 1 <. x) = true ∧
      ((process s (List.replicate 9 x)).bind fun r => r.2[8]?) = some y ∧ (x <. y) = true :=
  ⟨⟨lit 10, lit 1, lit 1, lit 1, lit 0, 0⟩, lit (1 + 6 / 2 ^ 23), lit (1 + 9 / 2 ^ 23), by decide +kernel,
    by decide +kernel, by decide +kernel, by decide +kernel⟩

/-- **C18** (exact arithmetic): the ramp is the straight line from the old value to the target; it takes
`max(1, round(time*sampleRate))` samples and never overshoots. -/
theorem C18_straight_line (s : Ramp ℝ) (x : ℝ) (hnew : x ≠ s.targetValue) (ht : 0 < s.timeSeconds)
    (hlen : |roundR (s.timeSeconds * s.sampleRate)| < 2 ^ 31) :
    let n := max 1 (roundR (s.timeSeconds * s.sampleRate))
    ∀ k : ℕ, ∃ s' ys, process s (List.replicate k x) = some (s', ys) ∧ ys.length = k ∧
      ∀ (i : ℕ) (y : ℝ), ys[i]? = some y → y = s.currentValue + (min ((i + 1 : ℝ) / n) 1) * (x - s.currentValue) ∧
        min s.currentValue x ≤ y ∧ y ≤ max s.currentValue x := by
  intro n k
  have hn1 : 1 ≤ n := le_max_left _ _
  have hnpos : (0:ℝ) < n := by exact_mod_cast hn1
  have hround : truncR ((roundR (s.timeSeconds * s.sampleRate) : ℤ) : ℝ) = roundR (s.timeSeconds * s.sampleRate) := by
    unfold truncR; split_ifs <;> simp
  have hrl : rampLength s = some n := by
    simp only [rampLength, Arith.toI32?, real_arith, hround]
    rw [abs_lt] at hlen
    rw [if_pos ⟨by omega, by omega⟩]; rfl
  obtain ⟨s', ys, h1, h2, h3, -⟩ := C18_lands_exactly s x (by simp [real_arith]) (by simp [Arith.ne, real_arith, hnew])
    (by simp [real_arith, ht]) n hrl k
  refine ⟨s', ys, h1, h2, ?_⟩
  -- the value of the ramp before landing
  have line : ∀ (k : ℕ) (t : Ramp ℝ) (t' : Ramp ℝ) (ys : List ℝ), t.targetValue = x →
      process t (List.replicate k x) = some (t', ys) → ∀ (i : ℕ) (y : ℝ), ys[i]? = some y → (i + 1 : ℤ) < t.samplesRemaining →
      y = t.currentValue + (i + 1) * t.increment := by
    intro k
    induction k with
    | zero =>
      intro t t' ys _ hp i y hy _
      simp only [List.replicate_zero, process, Option.some.injEq, Prod.mk.injEq] at hp
      rw [← hp.2] at hy; simp at hy
    | succ k ih =>
      intro t t' ys hT hp i y hy hi
      rw [List.replicate_succ] at hp
      simp only [process, tick_same (x := x) (by simp [real_arith]) hT, Option.bind_some, Option.map_eq_some_iff] at hp
      obtain ⟨⟨t2, zs⟩, hp, he⟩ := hp
      obtain ⟨a1, a2⟩ := advance_ramp (s := t) (by omega)
      simp only [Prod.mk.injEq] at he
      rw [← he.2] at hy
      cases i with
      | zero =>
        simp only [List.getElem?_cons_zero, Option.some.injEq] at hy
        rw [← hy, a2]; simp [real_arith]
      | succ i =>
        simp only [List.getElem?_cons_succ] at hy
        rw [a1] at hp
        have := ih _ _ _ (by exact hT) hp i y hy (by push_cast at hi; show _ < t.samplesRemaining - 1; omega)
        rw [this]; simp only [real_arith]; push_cast; ring
  have hval : ∀ (i : ℕ) (y : ℝ), ys[i]? = some y → y = s.currentValue + (min ((i + 1 : ℝ) / n) 1) * (x - s.currentValue) := by
    intro i y hy
    have hik : i < k := by
      have := List.getElem?_eq_some_iff.mp hy
      obtain ⟨h, -⟩ := this; omega
    rcases lt_or_ge (i + 1 : ℤ) n with hlt | hge
    · cases k with
      | zero => omega
      | succ k =>
        set s1 := recalcIncrement { s with targetValue := x, samplesRemaining := n } with hs1
        have hn0 : ¬ n ≤ 0 := by omega
        have hs1' : s1 = { s with targetValue := x, samplesRemaining := n, increment := (x - s.currentValue) / n } := by
          simp only [hs1, recalcIncrement, if_neg hn0, real_arith]
        have htick : tick s x = some (advance s1) := by
          simp only [tick, Arith.ne, real_arith, hnew, decide_false, Bool.not_false, if_true]
          rw [if_neg (by push_cast; exact not_le.mpr ht)]
          have : rampLength { s with targetValue := x } = some n := hrl
          rw [this]; rfl
        have hsame : tick s1 x = some (advance s1) := tick_same (by simp [real_arith]) (by rw [hs1'])
        have h1' : process s1 (List.replicate (k + 1) x) = some (s', ys) := by
          rw [List.replicate_succ] at h1 ⊢
          simp only [process, htick] at h1
          simp only [process, hsame]
          exact h1
        have := line (k + 1) s1 s' ys (by rw [hs1']) h1' i y hy (by rw [hs1']; exact hlt)
        rw [this, hs1']
        have hle : ((i:ℝ) + 1) / n ≤ 1 := by
          rw [div_le_one hnpos]; exact_mod_cast hlt.le
        rw [min_eq_left hle]; ring
    · have := h3 i hik hge
      rw [hy] at this
      have hyx : y = x := by simpa using this
      have hle : 1 ≤ ((i:ℝ) + 1) / n := by
        rw [one_le_div hnpos]; exact_mod_cast hge
      rw [min_eq_right hle, hyx]; ring
  intro i y hy
  refine ⟨hval i y hy, ?_⟩
  rw [hval i y hy]
  have hm0 : 0 ≤ min (((i:ℝ) + 1) / n) 1 := le_min (by positivity) (by norm_num)
  have hm1 : min (((i:ℝ) + 1) / n) 1 ≤ 1 := min_le_right _ _
  set m := min (((i:ℝ) + 1) / n) 1
  rcases le_total s.currentValue x with h | h
  · rw [min_eq_left h, max_eq_right h]; constructor <;> nlinarith
  · rw [min_eq_right h, max_eq_left h]; constructor <;> nlinarith

example : ∃ s : Ramp F32, init (lit 10) (lit 0) (lit 1) = some s ∧ rampLength s = some 10 ∧
    (lit 1 ==. (lit 1 : F32)) = true ∧ Arith.ne (lit 1) s.targetValue = true ∧ (s.timeSeconds <=. lit 0) = false :=
  ⟨⟨lit 10, lit 1, lit 0, lit 0, lit 0, 0⟩, by decide +kernel, by decide +kernel, by decide +kernel, by decide +kernel,
    by decide +kernel⟩

/-- Instance: a ramp in progress at 10 Hz, restarted for half a second. -/
example : ∃ s : Ramp F32, ((init (lit 10) (lit 0) (lit 1)).bind fun s => (tick s (lit 1)).map Prod.fst) = some s ∧
    (lit 0.5 <=. (lit 0 : F32)) = false ∧ s.targetValue = lit 1 ∧ Arith.ne (lit 1) s.currentValue = true ∧
    rampLength { s with timeSeconds := lit 0.5 } = some 5 :=
  ⟨⟨lit 10, lit 1, lit 0.1, lit 1, lit 0.1, 9⟩, by decide +kernel, by decide +kernel, by decide +kernel, by decide +kernel,
    by decide +kernel⟩

end LagLinear
end Verif
