import Verif.Model.Examples
import Verif.Props.Controls
import Verif.Props.Lag
import Verif.Props.LadderBounds

/-!
# C76 – C79: the other example programs
-/

set_option linter.unusedSectionVars false

namespace Verif

/-- A 200 ms smoother that starts from 0 lets through less than a thousandth of its target in the first sample at 44.1 kHz and above. -/
theorem Lag.fresh_first {n : ℕ} (hn : 44100 ≤ n) {x : ℝ} (hx : 0 < x) :
    (Lag.tick (Lag.init (Arith.ofNat n) (lit 0.2)) x).2 < x / 1000 := by
  have hn' : (44100 : ℝ) ≤ n := by exact_mod_cast hn
  obtain ⟨-, -, hc, -⟩ := Lag.coeff_real { sampleRate := (n : ℝ), prevOutput := lit 0, lagTime := lit 0, coeff := lit 0 }
    (by show (0 : ℝ) < n; linarith) ((0.2 : ℚ) : ℝ)
  have hcoe := hc (by norm_num)
  have e : (Lag.tick (Lag.init (Arith.ofNat n) (lit 0.2)) x).2 = (1 - Real.exp (-6.907755 / (((0.2 : ℚ) : ℝ) * n))) * x := by
    simp only [Lag.tick, Lag.init, rOfNat, rLit]
    simp only [rLit] at hcoe
    rw [hcoe]
    have hp : (Lag.setLagTime ((0.2 : ℚ) : ℝ) { sampleRate := (n : ℝ), prevOutput := ((0 : ℚ) : ℝ), lagTime := ((0 : ℚ) : ℝ), coeff := ((0 : ℚ) : ℝ) }).prevOutput = 0 := by
      simp only [Lag.setLagTime]; split_ifs <;> push_cast <;> rfl
    rw [hp]
    simp only [real_arith]
    push_cast
    ring
  rw [e]
  have h1 := Real.add_one_le_exp (-6.907755 / (((0.2 : ℚ) : ℝ) * n))
  have h2 : 6.907755 / (((0.2 : ℚ) : ℝ) * n) < 1 / 1000 := by
    rw [div_lt_div_iff₀ (by push_cast; linarith) (by norm_num)]
    push_cast; linarith
  have h3 : -6.907755 / (((0.2 : ℚ) : ℝ) * n) = -(6.907755 / (((0.2 : ℚ) : ℝ) * n)) := neg_div _ _
  rw [h3] at h1 ⊢
  nlinarith

/-! ## moog_example.cpp -/

namespace MoogExample

/-- The controls and rates of a history leave room: no rate below `4 cap`, no cutoff outside `[0, cap]`. The resonance is free. -/
def Room (cap : ℝ) : Event ℝ → Prop
  | .block l => ∀ c ∈ l, 0 ≤ c.1 ∧ c.1 ≤ cap
  | .rate n => 4 * cap ≤ n

/-- The filter is sound for a rate of at least `4 cap`, and the smoother stays in `[0, cap]`. -/
def Good (cap : ℝ) (s : State ℝ ℝ) : Prop :=
  (∃ sr, 4 * cap ≤ sr ∧ Oberheim.Bdd sr 1 s.filter) ∧
  0 ≤ s.cutoffLag.coeff ∧ s.cutoffLag.coeff ≤ 1 ∧ 0 ≤ s.cutoffLag.prevOutput ∧ s.cutoffLag.prevOutput ≤ cap

theorem lag_good {cap : ℝ} (hc : 1000 ≤ cap) {n : ℕ} (hn : 4 * cap ≤ n) :
    0 ≤ (Lag.init (Arith.ofNat n) (lit 0.2) : Lag.Filt ℝ).coeff ∧ (Lag.init (Arith.ofNat n) (lit 0.2) : Lag.Filt ℝ).coeff ≤ 1 ∧
      (Lag.init (Arith.ofNat n) (lit 0.2) : Lag.Filt ℝ).prevOutput = 0 := by
  obtain ⟨p0, p1, -, -⟩ := Lag.coeff_real { sampleRate := (Arith.ofNat n : ℝ), prevOutput := lit 0, lagTime := lit 0, coeff := lit 0 }
    (by show (0 : ℝ) < Arith.ofNat n; rw [rOfNat]; linarith) (lit 0.2)
  refine ⟨p0, p1.le, ?_⟩
  simp only [Lag.init, Lag.setLagTime]; split_ifs <;> simp only [real_arith] <;> norm_num

theorem filter_good {cap : ℝ} (hc : 1000 ≤ cap) {n : ℕ} (hn : 4 * cap ≤ n) (old : Oberheim.Ladder ℝ ℝ) :
    Oberheim.Bdd (Arith.ofNat n) 1 (Oberheim.init (Arith.ofNat n) old) := by
  rw [rOfNat]
  exact Oberheim.init_bdd (by linarith) le_rfl (by norm_num; linarith) (Oberheim.tan_quarter (by linarith) (by norm_num) (by linarith)) old

theorem good_frame {cap : ℝ} (hc : 1000 ≤ cap) {s : State ℝ ℝ} (h : Good cap s) {c r : ℝ} (h0 : 0 ≤ c) (h1 : c ≤ cap) :
    Good cap (frame s c r).1 ∧ |(frame s c r).2| ≤ 0.3 := by
  obtain ⟨⟨sr, hsr, hb⟩, k0, k1, p0, p1⟩ := h
  have hl : (Lag.tick s.cutoffLag c).2 = s.cutoffLag.coeff * s.cutoffLag.prevOutput + (1 - s.cutoffLag.coeff) * c := by
    simp only [Lag.tick, real_arith]; push_cast; ring
  have l0 : 0 ≤ (Lag.tick s.cutoffLag c).2 := by
    rw [hl]; exact add_nonneg (mul_nonneg k0 p0) (mul_nonneg (by linarith) h0)
  have l1 : (Lag.tick s.cutoffLag c).2 ≤ cap := by rw [hl]; nlinarith
  have hf : Oberheim.Bdd sr 1 (Oberheim.setResonance (Lag.tick s.resonanceLag r).2 (Oberheim.setCutoff (Lag.tick s.cutoffLag c).2 s.filter)) :=
    Oberheim.setResonance_bdd _ _ (Oberheim.setCutoff_bdd (by linarith) l0 (by norm_num; linarith)
      (Oberheim.tan_quarter (by linarith) l0 (by linarith)) _ hb)
  obtain ⟨t1, t2⟩ := Oberheim.tick_bdd le_rfl _ (((SawDPW.tick s.sawC).2 + (SawDPW.tick s.sawE).2 + (SawDPW.tick s.sawG).2) / lit 3 : ℝ) hf
  refine ⟨⟨⟨sr, hsr, t1⟩, k0, k1, l0, l1⟩, ?_⟩
  have e : (lit 0.3 : ℝ) = 0.3 := by simp only [real_arith]; norm_num
  show |_ * (lit 0.3 : ℝ)| ≤ 0.3
  rw [rMul, abs_mul, e, abs_of_pos (by norm_num : (0 : ℝ) < 0.3)]
  rw [one_pow] at t2
  calc _ ≤ (1 : ℝ) * 0.3 := mul_le_mul_of_nonneg_right t2 (by norm_num)
    _ = 0.3 := one_mul _

/-- **C77** (exact arithmetic): for every history of blocks, mouse movements and changes of rate in which the cutoff stays at or below a
quarter of the rate, no sample of moog_example.cpp exceeds 0.3. -/
theorem C77_bounded (cap : ℝ) (hc : 1000 ≤ cap) (R : ℕ) (hR : 4 * cap ≤ R) (old : Oberheim.Ladder ℝ ℝ) (es : List (Event ℝ))
    (he : ∀ e ∈ es, Room cap e) : ∀ ys ∈ (run (setup R old) es).2, ∀ y ∈ ys, |y| ≤ 0.3 := by
  have hstep : ∀ (s : State ℝ ℝ) (e : Event ℝ), Good cap s → Room cap e → Good cap (step s e).1 ∧ ∀ y ∈ (step s e).2, |y| ≤ 0.3 := by
    intro s e hs hr
    cases e with
    | rate n =>
      obtain ⟨a, b, c⟩ := lag_good hc hr
      refine ⟨⟨⟨_, by rw [rOfNat]; exact hr, filter_good hc hr _⟩, a, b, c.ge, ?_⟩, fun y hy => absurd hy List.not_mem_nil⟩
      show (Lag.init (Arith.ofNat n) (lit 0.2) : Lag.Filt ℝ).prevOutput ≤ cap
      rw [c]; linarith
    | block l =>
      show Good cap (processCallback s l).1 ∧ _
      have key : ∀ (l : List (ℝ × ℝ)) (s : State ℝ ℝ), Good cap s → (∀ c ∈ l, 0 ≤ c.1 ∧ c.1 ≤ cap) →
          Good cap (processCallback s l).1 ∧ ∀ y ∈ (processCallback s l).2, |y| ≤ 0.3 := by
        intro l
        induction l with
        | nil => intro s hs _; exact ⟨hs, fun y hy => by simp [processCallback, forEach] at hy⟩
        | cons c l ih =>
          intro s hs hl
          obtain ⟨a, b⟩ := good_frame hc hs (r := c.2) (hl c List.mem_cons_self).1 (hl c List.mem_cons_self).2
          obtain ⟨p, q⟩ := ih _ a fun c' h' => hl c' (List.mem_cons_of_mem _ h')
          refine ⟨p, fun y hy => ?_⟩
          rcases List.mem_cons.mp hy with rfl | hy
          · exact b
          · exact q y hy
      exact key l s hs hr
  have key : ∀ (es : List (Event ℝ)) (s : State ℝ ℝ), Good cap s → (∀ e ∈ es, Room cap e) → ∀ ys ∈ (run s es).2, ∀ y ∈ ys, |y| ≤ 0.3 := by
    intro es
    induction es with
    | nil => intro s _ _ ys hy; simp [run] at hy
    | cons e es ih =>
      intro s hs he ys hy
      obtain ⟨a, b⟩ := hstep s e hs (he _ List.mem_cons_self)
      rcases List.mem_cons.mp hy with rfl | hy
      · exact b
      · exact ih _ a (fun e' h' => he e' (List.mem_cons_of_mem _ h')) ys hy
  refine key es _ ?_ he
  obtain ⟨a, b, -⟩ := lag_good hc hR
  have e : (lit 1000 : ℝ) = 1000 := by simp only [real_arith]; norm_num
  refine ⟨⟨_, by rw [rOfNat]; exact hR, Oberheim.setResonance_bdd _ _ (Oberheim.setCutoff_bdd (sr := Arith.ofNat R) ?_ ?_ ?_ ?_ _ (filter_good hc hR _))⟩, a, b, ?_, ?_⟩
  · rw [rOfNat]; linarith
  · rw [e]; norm_num
  · rw [e, rOfNat]; norm_num; linarith
  · rw [e, rOfNat]; exact Oberheim.tan_quarter (by linarith) (by norm_num) (by linarith)
  · show (0 : ℝ) ≤ lit 1000
    rw [e]; norm_num
  · show (lit 1000 : ℝ) ≤ cap
    rw [e]; exact hc

/-- **C77** (exact arithmetic): every pointer position the program can see gives controls inside the bounds above, so at 32 kHz and more the
output never exceeds 0.3, wherever the mouse goes. -/
theorem C77_mouse (R : ℕ) (hR : 32000 ≤ R) (old : Oberheim.Ladder ℝ ℝ) (w h : ℤ) (blocks : List (List (ℤ × ℤ))) :
    ∀ ys ∈ (run (setup R old) (blocks.map fun b => .block (b.map fun p => (cutoffOf 100 8000 p.1 w, resonanceOf p.2 h)))).2,
      ∀ y ∈ ys, |y| ≤ 0.3 := by
  refine C77_bounded 8000 (by norm_num) R (by norm_num; exact_mod_cast hR) old _ fun e he => ?_
  obtain ⟨b, -, rfl⟩ := List.mem_map.mp he
  intro c hc
  obtain ⟨p, -, rfl⟩ := List.mem_map.mp hc
  obtain ⟨a, b⟩ := C74_cutoff_range 100 8000 (by norm_num) (by norm_num) p.1 w
  exact ⟨by show (0 : ℝ) ≤ cutoffOf 100 8000 p.1 w; linarith, b⟩

/-- Concrete case: a history with a change of rate. -/
example : ∀ e ∈ ([.block [(100, 5), (8000, -3)], .rate 44100, .block [(0, 0.99)]] : List (Event ℝ)), Room 8000 e := by
  simp only [List.forall_mem_cons, List.not_mem_nil, false_imp_iff, implies_true, and_true, Room]
  norm_num

/-- **C76, negative** (exact arithmetic): a change of the rate shuts the filter. The callback starts the smoother of the cutoff from 0, so the
first frame after it is filtered with less than a thousandth of the cutoff under the mouse – and the resonance likewise – where the start
of the program hands the filter the cutoff it shows. -/
theorem C76_filter_shuts (n : ℕ) (hn : 44100 ≤ n) (s : State ℝ ℝ) (c r : ℝ) (h : 0 < c) :
    (frame (sampleRateCallback n s) c r).1.filter.cutoff < c / 1000 := Lag.fresh_first hn h

theorem C76_start_is_right (R : ℕ) (old : Oberheim.Ladder ℝ ℝ) (r : ℝ) :
    (frame (setup R old) 1000 r).1.filter.cutoff = (1000 : ℝ) := by
  show (Lag.tick (Lag.setValue (lit 1000) (Lag.init (Arith.ofNat R) (lit 0.2))) 1000).2 = (1000 : ℝ)
  simp only [Lag.tick, Lag.setValue, real_arith]; push_cast; ring

end MoogExample

/-! ## supersaw_example.cpp -/

namespace SuperSawExample

/-- **C76, negative** (any arithmetic): the three voices of supersaw_example.cpp start with different random phases (the seeds 42, 43 and 44).
After a change of the rate all three use the phases of seed 42. -/
theorem C76_voices_in_step {α β : Type} [Arith α] [Arith β] [Libm α] [Libm β] [Conv α β] [Conv β α] (R n : ℕ) (rand : ℕ → ℕ → α)
    (cutoff drive : α) (old s s0 s1 : State α β) (h0 : setup R rand cutoff drive old = some s0)
    (h1 : sampleRateCallback n rand cutoff drive s = some s1) :
    (s0.voices.map fun v => v.voices.map fun u => (u.vibratoPhase, u.sawPhase)) =
      [42, 43, 44].map (fun seed => (List.range 7).map fun i => (rand seed (2 * i), rand seed (2 * i + 1))) ∧
    (s1.voices.map fun v => v.voices.map fun u => (u.vibratoPhase, u.sawPhase)) =
      List.replicate 3 ((List.range 7).map fun i => (rand 42 (2 * i), rand 42 (2 * i + 1))) := by
  have hv : ∀ (sr f : α) (rd : ℕ → α), ((voiceOf sr f rd).voices.map fun u => (u.vibratoPhase, u.sawPhase)) =
      (List.range 7).map fun i => (rd (2 * i), rd (2 * i + 1)) := by
    intro sr f rd
    rfl
  obtain ⟨p, -, rfl⟩ := Option.map_eq_some_iff.mp h0
  obtain ⟨q, -, rfl⟩ := Option.map_eq_some_iff.mp h1
  simp only [VOICE_FREQUENCIES, List.map_map, Function.comp_def, hv]
  exact ⟨rfl, rfl⟩

/-- **C76, negative** (exact arithmetic): after a change of the rate the cutoff and the drive of the first frame are below a thousandth of
what the mouse asks for. -/
theorem C76_controls_restart (n : ℕ) (hn : 44100 ≤ n) (rand : ℕ → ℕ → ℝ) (cutoff drive : ℝ) (s s1 : State ℝ ℝ)
    (h : sampleRateCallback n rand cutoff drive s = some s1) (hc : 0 < cutoff) (hd : 0 < drive) :
    (dryFrame s1 (cutoff, drive)).1.cutoffLag.prevOutput < cutoff / 1000 ∧ (dryFrame s1 (cutoff, drive)).1.driveLag.prevOutput < drive / 1000 := by
  obtain ⟨q, -, rfl⟩ := Option.map_eq_some_iff.mp h
  exact ⟨Lag.fresh_first hn hc, Lag.fresh_first hn hd⟩

/-! ### C78: the meter of the processor load -/

/-- The last `k` of a list. -/
def latest (k : ℕ) (xs : List ℝ) : List ℝ := xs.drop (xs.length - k)

/-- Feeding the meter. -/
noncomputable def Meter.feed : Meter ℝ ℝ → List ℝ → Option (Meter ℝ ℝ)
  | k, [] => some k
  | k, x :: xs => (k.add x).bind fun k => Meter.feed k xs

theorem Meter.feed_snoc (k : Meter ℝ ℝ) (xs : List ℝ) (x : ℝ) : k.feed (xs ++ [x]) = (k.feed xs).bind fun k => k.add x := by
  induction xs generalizing k with
  | nil => simp only [List.nil_append, Meter.feed, Option.bind_some]; cases k.add x <;> rfl
  | cons y ys ih =>
    simp only [List.cons_append, Meter.feed, Option.bind_assoc]
    congr 1; funext k'; exact ih k'

/-- What the meter holds after the loads `xs`. -/
structure Meter.Holds (xs : List ℝ) (k : Meter ℝ ℝ) : Prop where
  len : k.ring.length = 100
  size : k.size = min xs.length 100
  index : k.index = xs.length % 100
  cell : ∀ j (h : j < xs.length), xs.length ≤ j + 100 → k.ring[j % 100]? = some xs[j]
  sum : k.sum = (latest 100 xs).sum
  usage : xs ≠ [] → k.usage = (latest 100 xs).sum / (min xs.length 100 : ℕ)

theorem Meter.holds (xs : List ℝ) : ∃ k, (Meter.init : Meter ℝ ℝ).feed xs = some k ∧ k.Holds xs := by
  induction xs using List.reverseRecOn with
  | nil => exact ⟨_, rfl, List.length_replicate, rfl, rfl, fun j h => absurd h (Nat.not_lt_zero _), by simp [Meter.init, latest, real_arith], fun h => absurd rfl h⟩
  | append_singleton xs x ih =>
    obtain ⟨k, hk, H⟩ := ih
    rw [Meter.feed_snoc, hk, Option.bind_some]
    have hi : k.index < k.ring.length := by rw [H.len, H.index]; exact Nat.mod_lt _ (by norm_num)
    have cell : ∀ j (h : j < (xs ++ [x]).length), (xs ++ [x]).length ≤ j + 100 →
        (k.ring.set k.index x)[j % 100]? = some (xs ++ [x])[j] := by
      intro j h h'
      rw [List.length_append, List.length_singleton] at h h'
      rcases Nat.lt_or_ge j xs.length with hj | hj
      · rw [List.getElem?_set_ne (by rw [H.index]; omega), List.getElem_append_left hj]
        exact H.cell j hj (by omega)
      · obtain rfl : j = xs.length := by omega
        rw [← H.index, List.getElem?_set_self hi]
        simp
    rcases Nat.lt_or_ge xs.length 100 with h | h
    · have hs : k.size < 100 := by rw [H.size]; omega
      refine ⟨_, by rw [Meter.add, if_pos hi, if_pos hs]; rfl, by simp [H.len], ?_, ?_, cell, ?_, ?_⟩
      · show k.size + 1 = _
        rw [H.size, List.length_append, List.length_singleton]; omega
      · show (k.index + 1) % 100 = _
        rw [H.index, List.length_append, List.length_singleton]; omega
      all_goals
        have hl : latest 100 (xs ++ [x]) = xs ++ [x] := by
          rw [latest, List.length_append, List.length_singleton, show xs.length + 1 - 100 = 0 by omega, List.drop_zero]
        have hl' : latest 100 xs = xs := by rw [latest, show xs.length - 100 = 0 by omega, List.drop_zero]
        have hsum : (k.sum + Conv.conv x : ℝ) = (latest 100 (xs ++ [x])).sum := by
          rw [hl, H.sum, hl', List.sum_append, List.sum_singleton]; rfl
      · exact hsum
      · intro _
        show (Conv.conv (((k.sum + Conv.conv x : ℝ)) / Arith.ofNat (k.size + 1) : ℝ) : ℝ) = _
        rw [← hsum, H.size, List.length_append, List.length_singleton, rOfNat]
        rw [show min (xs.length + 1) 100 = min xs.length 100 + 1 by omega]
        rfl
    · have hs : ¬ k.size < 100 := by rw [H.size]; omega
      have hj : xs.length - 100 < xs.length := by omega
      have hold : k.ring[k.index]? = some xs[xs.length - 100] := by
        rw [H.index, ← H.cell (xs.length - 100) hj (by omega)]
        congr 1; omega
      refine ⟨_, by rw [Meter.add, if_pos hi, if_neg hs, hold]; rfl, by simp [H.len], ?_, ?_, cell, ?_, ?_⟩
      · show k.size = _
        rw [H.size, List.length_append, List.length_singleton]; omega
      · show (k.index + 1) % 100 = _
        rw [H.index, List.length_append, List.length_singleton]; omega
      all_goals
        have hl : latest 100 (xs ++ [x]) = xs.drop (xs.length - 100 + 1) ++ [x] := by
          rw [latest, List.length_append, List.length_singleton, show xs.length + 1 - 100 = xs.length - 100 + 1 by omega,
            List.drop_append_of_le_length (by omega)]
        have hl' : latest 100 xs = xs[xs.length - 100] :: xs.drop (xs.length - 100 + 1) := List.drop_eq_getElem_cons hj
        have hsum : (k.sum - Conv.conv xs[xs.length - 100] + Conv.conv x : ℝ) = (latest 100 (xs ++ [x])).sum := by
          rw [hl, H.sum, hl', List.sum_append, List.sum_singleton, List.sum_cons]
          show (_ + _) - xs[xs.length - 100] + x = _
          ring
      · exact hsum
      · intro _
        show (Conv.conv ((k.sum - Conv.conv xs[xs.length - 100] + Conv.conv x : ℝ) / Arith.ofNat k.size : ℝ) : ℝ) = _
        rw [← hsum, H.size, List.length_append, List.length_singleton, rOfNat]
        rw [show min (xs.length + 1) 100 = min xs.length 100 by omega]
        rfl

/-- **C78** (exact arithmetic): after any number of blocks the meter shows the mean of the last 100 loads, or of all of them while there are
fewer, and never touches a cell outside its ring. -/
theorem C78_meter (xs : List ℝ) (hx : xs ≠ []) : ∃ k, (Meter.init : Meter ℝ ℝ).feed xs = some k ∧
    k.usage = (latest 100 xs).sum / (latest 100 xs).length := by
  obtain ⟨k, h1, h2⟩ := Meter.holds xs
  refine ⟨k, h1, ?_⟩
  rw [h2.usage hx]
  congr 2
  rw [latest, List.length_drop]; omega

/-- Concrete case: 150 loads of which the last 100 are 30 %. -/
example : ∃ k, (Meter.init : Meter ℝ ℝ).feed (List.replicate 50 90 ++ List.replicate 100 30) = some k ∧ k.usage = 30 := by
  obtain ⟨k, h1, h2⟩ := C78_meter (List.replicate 50 90 ++ List.replicate 100 30) (by simp)
  refine ⟨k, h1, ?_⟩
  have : latest 100 (List.replicate 50 90 ++ List.replicate 100 30) = List.replicate 100 30 := by
    rw [latest, List.length_append, List.length_replicate, List.length_replicate]
    exact List.drop_left' List.length_replicate
  rw [h2, this, List.sum_replicate, List.length_replicate]
  norm_num

end SuperSawExample

/-! ## jack_playback_example.cpp -/

namespace JackPlayback

/-- **C76, negative** (any arithmetic): a change of the rate restarts the file. The state after the callback is the same wherever the playback
was and whatever speed it had; only the loaded file and the mouse matter. -/
theorem C76_restarts {α : Type} [Arith α] [Libm α] (n : ℕ) (c : α) (s s' : State α) (hb : s.audioBuffer = s'.audioBuffer)
    (hr : s.bufRd = s'.bufRd) (hf : s.fileSampleRate = s'.fileSampleRate) (hv : s.audioBuffer.isValid = true) :
    sampleRateCallback n c s = sampleRateCallback n c s' ∧ (sampleRateCallback n c s).phasor.value = lit 0 := by
  obtain ⟨b, p, r, l, d, f, sr, ir, br⟩ := s
  obtain ⟨b', p', r', l', d', f', sr', ir', br'⟩ := s'
  simp only at hb hr hf hv
  subst hb; subst hr; subst hf
  simp only [sampleRateCallback, configurePlayback]
  rw [if_pos hv, if_pos hv]
  exact ⟨rfl, rfl⟩

end JackPlayback

/-! ## jack_xplay.cpp -/

namespace JackXPlay
variable {α : Type} [Arith α] [Libm α]

/-- The event is a movement of the mouse. -/
def Event.isMouse : Event → Bool
  | .mouse _ _ => true
  | _ => false

/-- The parts of the state the audio depends on. -/
def Same (s t : State α) : Prop := s.buffer = t.buffer ∧ s.xplay = t.xplay

/-- Both defined with the same audio and states that agree on what matters, or both undefined. -/
def Alike : Option (State α × List (Stereo α)) → Option (State α × List (Stereo α)) → Prop
  | some (s, y), some (t, z) => Same s t ∧ y = z
  | none, none => True
  | _, _ => False

theorem block_alike (n : ℕ) (m : Mem α) (s t : State α) (h : Same s t) : Alike (processCallback n m s) (processCallback n m t) := by
  have key : ∀ (a b a' b' : α) (n lo : ℕ) (s t : State α) (out : List (Stereo α)), Same s t →
      Alike (forLoop (fun _ (p : State α × List (Stereo α)) => (frame a b m p.1).map fun q => (q.1, p.2 ++ [q.2])) lo n (s, out))
        (forLoop (fun _ (p : State α × List (Stereo α)) => (frame a' b' m p.1).map fun q => (q.1, p.2 ++ [q.2])) lo n (t, out)) := by
    intro a b a' b' n
    induction n with
    | zero => intro lo s t out h; exact ⟨h, rfl⟩
    | succ n ih =>
      intro lo s t out h
      simp only [forLoop, frame, h.2]
      cases XPlay.tick t.xplay m with
      | none => trivial
      | some r => exact ih _ _ _ _ ⟨h.1, rfl⟩
  exact key _ _ _ _ n 0 s t [] h

theorem step_alike (w h w' h' : ℤ) (m : Mem α) (s t : State α) (e : Event) (hst : Same s t) : Alike (step w h m s e) (step w' h' m t e) := by
  cases e with
  | block n => exact block_alike n m s t hst
  | mouse x y => exact ⟨hst, rfl⟩
  | rate n =>
    simp only [step, configurePlayback, hst.1, hst.2]
    cases XPlay.init (Arith.ofNat n) t.xplay with
    | none => trivial
    | some x =>
      simp only [Option.bind_some]
      cases XPlay.setBuffer (some t.buffer) x with
      | none => trivial
      | some x =>
        simp only [Option.bind_some]
        cases XPlay.setFadeTime (lit 0.5) { x with reader := BufRd.setLoop true (BufRd.setInterpolation 4 x.reader) } with
        | none => trivial
        | some x =>
          simp only [Option.bind_some]
          cases XPlay.setStartEnd 0 (lit 0.25) (lit 0.75) false (XPlay.setRate (lit 0.5) (XPlay.setGate (lit 1) x)) with
          | none => trivial
          | some x => exact ⟨⟨rfl, rfl⟩, rfl⟩

/-- **C79** (any arithmetic): a block of jack_xplay.cpp is a block of its player, whatever the smoothers do; in particular it is defined
whenever the player's is (C39 says when). -/
theorem C79_block (n : ℕ) (m : Mem α) (s : State α) :
    (processCallback n m s).map (fun r => (r.1.xplay, r.2)) = XPlay.process s.xplay m n := by
  have key : ∀ (a b : α) (n lo : ℕ) (s : State α) (out : List (Stereo α)),
      (forLoop (fun _ (p : State α × List (Stereo α)) => (frame a b m p.1).map fun q => (q.1, p.2 ++ [q.2])) lo n (s, out)).map
        (fun r => (r.1.xplay, r.2)) = (XPlay.process s.xplay m n).map fun r => (r.1, out ++ r.2) := by
    intro a b n
    induction n with
    | zero => intro lo s out; simp [forLoop, XPlay.process]
    | succ n ih =>
      intro lo s out
      simp only [forLoop, frame, XPlay.process]
      cases XPlay.tick s.xplay m with
      | none => rfl
      | some r =>
        simp only [Option.map_some, Option.bind_some]
        refine (ih (lo + 1) { s with xplay := r.1, startLag := (Lag.tick s.startLag a).1, endLag := (Lag.tick s.endLag b).1 } (out ++ [r.2])).trans ?_
        simp only
        cases XPlay.process r.1 m n with
        | none => rfl
        | some q => simp
  have := key s.startTarget s.endTarget n 0 s []
  rw [processCallback, this]
  cases XPlay.process s.xplay m n <;> rfl

/-- **C79, negative** (any arithmetic): the program announces "Mouse X -> start, Mouse Y -> end". No movement of the mouse, on no screen, changes
a single sample of any history: with all movements left out the audio is the same. -/
theorem C79_mouse_does_nothing (w h w' h' : ℤ) (m : Mem α) (s : State α) (es : List Event) :
    (run w h m s es).map (·.2) = (run w' h' m s (es.filter fun e => !e.isMouse)).map (·.2) := by
  have key : ∀ (es : List Event) (s t : State α), Same s t →
      (run w h m s es).map (·.2) = (run w' h' m t (es.filter fun e => !e.isMouse)).map (·.2) := by
    intro es
    induction es with
    | nil => intro s t _; rfl
    | cons e es ih =>
      intro s t hst
      by_cases hm : e.isMouse = true
      · rw [List.filter_cons_of_neg (by simp [hm])]
        cases e with
        | block n => cases hm
        | rate n => cases hm
        | mouse x y =>
          rw [← ih (mouse x y w h s) t hst]
          simp only [run, step, Option.bind_some, List.nil_append, Option.map_map]
          rfl
      · rw [List.filter_cons_of_pos (by simp [hm])]
        have ha := step_alike w h w' h' m s t e hst
        simp only [run]
        rcases h1 : step w h m s e with _ | ⟨s1, y⟩ <;> rcases h2 : step w' h' m t e with _ | ⟨t1, z⟩ <;> rw [h1, h2] at ha
        · rfl
        · exact ha.elim
        · exact ha.elim
        · obtain ⟨hs, rfl⟩ := ha
          simp only [Option.bind_some, Option.map_map]
          have := ih s1 t1 hs
          revert this
          rcases run w h m s1 es with _ | ⟨s2, ys⟩ <;> rcases run w' h' m t1 (es.filter fun e => !e.isMouse) with _ | ⟨t2, zs⟩
          · intro _; rfl
          · intro this; cases this
          · intro this; cases this
          · intro this
            have e : ys = zs := Option.some.inj this
            rw [e]; rfl
  exact key es s s ⟨rfl, rfl⟩

/-- Concrete case: a movement between two blocks. -/
example : ([.block 64, .mouse 10 1000, .block 64] : List Event).filter (fun e => !e.isMouse) = [.block 64, .block 64] := rfl

end JackXPlay
end Verif
