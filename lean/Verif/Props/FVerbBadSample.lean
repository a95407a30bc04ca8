import Verif.Props.FVerbRun
import Verif.Props.BadSample

/-!
# C83: what one NaN sample does to the reverb
-/

namespace Verif.FVerbDSP
open FP

set_option linter.unusedSectionVars false

/-! ### Specification -/

/-- A session: blocks of frames, each with the parameters that were set before it. -/
def blocks {α : Type} (bs : List (Params α × List (Stereo α))) : List (Event α) := bs.map fun b => .block b.1 b.2

/-- All frames of a session. -/
def input {α : Type} (bs : List (Params α × List (Stereo α))) : List (Stereo α) := bs.flatMap Prod.snd

/-- Both samples of a frame are NaN. -/
def Dead (y : Stereo F32) : Prop := y.left = .nan ∧ y.right = .nan

/-! ### A session frame by frame -/

section
variable {α L : Type} [Arith α] [Libm α]

def walk (I : LineImpl L α) (k : Consts α) : State L α → List (Params α × Stereo α) → Option (State L α × List (Stereo α))
  | s, [] => some (s, [])
  | s, x :: xs => (step I k (slow k x.1) s x.2).bind fun (s, y) => (walk I k s xs).map fun (s, ys) => (s, y :: ys)

theorem walk_loop (I : LineImpl L α) (k : Consts α) (p : Params α) (xs : List (Stereo α)) (rest : List (Params α × Stereo α)) :
    ∀ s : State L α, walk I k s (xs.map (fun x => (p, x)) ++ rest) =
      (loop I k (slow k p) s xs).bind fun (s, ys) => (walk I k s rest).map fun (s, zs) => (s, ys ++ zs) := by
  induction xs with
  | nil =>
    intro s
    simp only [List.map_nil, List.nil_append, loop, Option.bind_some]
    cases walk I k s rest <;> rfl
  | cons x xs ih =>
    intro s
    simp only [List.map_cons, List.cons_append, walk, loop]
    cases step I k (slow k p) s x with
    | none => rfl
    | some r =>
      obtain ⟨s1, y⟩ := r
      simp only [Option.bind_some, ih]
      cases loop I k (slow k p) s1 xs with
      | none => rfl
      | some r =>
        obtain ⟨s2, ys⟩ := r
        simp only [Option.bind_some, Option.map_some]
        cases walk I k s2 rest <;> rfl

theorem run_walk (I : LineImpl L α) (k : Consts α) (bs : List (Params α × List (Stereo α))) :
    ∀ s : State L α, run I k s (blocks bs) = walk I k s (bs.flatMap fun b => b.2.map fun x => (b.1, x)) := by
  induction bs with
  | nil => intro s; rfl
  | cons b bs ih =>
    intro s
    simp only [blocks, List.map_cons, run, compute, List.flatMap_cons, walk_loop]
    simp only [blocks] at ih
    simp only [ih]

end

/-! ### A NaN in one channel -/

variable [Libm F32]

/-- The channel fed from `input1` (`true`) or `input0`. -/
def half {L : Type} (b : Bool) (s : State L F32) : Half L F32 := if b then s.r else s.l
def chan (b : Bool) (x : Stereo F32) : F32 := if b then x.right else x.left

theorem inputStep_nan {now pre d1 d2 d3 d4 : ℤ} {c : Ctrl F32} {f : F32 → F32} (hf : f .nan = .nan) {x : F32} {h h' : Half (ℤ → F32) F32} {x4 : F32}
    (e : inputStep ideal now pre d1 d2 d3 d4 c f x h = some (h', x4)) :
    h'.preLine = Function.update h.preLine now (x * c.rec27) ∧ h'.lp = h'.preLine (now - pre) + c.rec25 * h.lp ∧ h'.outC = h.outC ∧
      (h'.lp = .nan → x4 = .nan) := by
  simp only [inputStep, ideal, Option.bind_some, allpass, Option.map_some, Option.some.injEq, Prod.mk.injEq] at e
  obtain ⟨rfl, rfl⟩ := e
  refine ⟨rfl, rfl, rfl, fun hl => ?_⟩
  simp only at hl
  simp only [hl, hf, nan_add, nan_sub, mul_nan]

theorem tankStep_nan {tN bN : ℕ} {now d dT : ℤ} {c : Ctrl F32} {f : Fade F32} {u v : F32 → F32} {fb x4 : F32} {p h h' : Half (ℤ → F32) F32}
    (e : tankStep ideal tN bN now d dT c f u v fb x4 p h = some h') :
    h'.preLine = h.preLine ∧ h'.lp = h.lp ∧ ∃ z, h'.outC = Function.update h.outC now z ∧ (x4 = .nan → z = .nan) := by
  simp only [tankStep, ideal, Option.bind_some, Option.map_some, Option.some.injEq] at e
  subst e
  refine ⟨rfl, rfl, _, rfl, ?_⟩
  rintro rfl
  nans

/-- What one sample does, as far as it matters here. -/
theorem step_chan {k : Consts F32} {sl : Slow F32} {s s' : State (ℤ → F32) F32} {x y : Stereo F32}
    (e : step ideal k sl s x = some (s', y)) (b : Bool) :
    ∃ pre, ctrlStep k sl s.ctrl = some (s'.ctrl, pre) ∧ s'.iota = s.iota + 1 ∧
      (half b s').preLine = Function.update (half b s).preLine s.iota (chan b x * s'.ctrl.rec27) ∧
      (half b s').lp = (half b s').preLine (s.iota - pre) + s'.ctrl.rec25 * (half b s).lp ∧
      (∃ z, (half b s').outC = Function.update (half b s).outC s.iota z ∧ ((half b s').lp = .nan → z = .nan)) ∧
      ((half b s').outC (s.iota - if b then k.i28 else k.i24) = .nan → y.left = .nan) ∧
      ((half b s').outC (s.iota - if b then k.i31 else k.i35) = .nan → y.right = .nan) := by
  simp only [step, Option.bind_eq_some_iff, Option.map_eq_some_iff, Prod.exists] at e
  obtain ⟨c, pre, hc, r, r14, hr, fbR, -, r', hr', l, r44, hl, fbL, -, l', hl', o0, h0, o1, h1, n, hn, e⟩ := e
  obtain ⟨rfl, -, -⟩ := i32_eq_some hn
  cases e
  simp only [tap, ideal, Option.bind_some, Option.map_some, Option.some.injEq] at h0 h1
  subst h0 h1
  refine ⟨pre, hc, rfl, ?_⟩
  cases b
  · obtain ⟨a1, a2, a3, a4⟩ := inputStep_nan (by simp only [mul_nan]) hl
    obtain ⟨b1, b2, z, b3, b4⟩ := tankStep_nan hl'
    refine ⟨b1.trans a1, ?_, ⟨z, ?_, ?_⟩, ?_, ?_⟩
    · show l'.lp = l'.preLine _ + _
      rw [b2, a2, b1]; rfl
    · show l'.outC = _
      rw [b3, a3]; rfl
    · intro h
      exact b4 (a4 (b2.symm.trans h))
    · intro h
      simp only [half, Bool.false_eq_true, if_false] at h
      nans_with h
    · intro h
      simp only [half, Bool.false_eq_true, if_false] at h
      nans_with h
  · obtain ⟨a1, a2, a3, a4⟩ := inputStep_nan (by simp only [nan_mul]) hr
    obtain ⟨b1, b2, z, b3, b4⟩ := tankStep_nan hr'
    refine ⟨b1.trans a1, ?_, ⟨z, ?_, ?_⟩, ?_, ?_⟩
    · show r'.lp = r'.preLine _ + _
      rw [b2, a2, b1]; rfl
    · show r'.outC = _
      rw [b3, a3]; rfl
    · intro h
      exact b4 (a4 (b2.symm.trans h))
    · intro h
      simp only [half, if_true] at h
      nans_with h
    · intro h
      simp only [half, if_true] at h
      nans_with h

/-- Since time `t` the filter of the channel holds a NaN and everything written to the tank is NaN. -/
def Stuck (b : Bool) (t : ℤ) (s : State (ℤ → F32) F32) : Prop :=
  (half b s).lp = .nan ∧ ∀ u, t ≤ u → u < s.iota → (half b s).outC u = .nan

theorem stuck_step {k : Consts F32} (K : Fits k) {sl : Slow F32} {s s' : State (ℤ → F32) F32} {x y : Stereo F32} {b : Bool} {t : ℤ}
    (e : step ideal k sl s x = some (s', y)) (S : Stuck b t s) : Stuck b t s' ∧ (t + 32768 ≤ s.iota → Dead y) := by
  obtain ⟨pre, -, ei, -, elp, ⟨z, ez, hz⟩, yl, yr⟩ := step_chan e b
  have hlp : (half b s').lp = .nan := by rw [elp, S.1, mul_nan, add_nan]
  have hout : ∀ u, t ≤ u → u < s'.iota → (half b s').outC u = .nan := by
    intro u h1 h2
    rw [ez]
    by_cases hu : u = s.iota
    · rw [hu, Function.update_self]; exact hz hlp
    · rw [Function.update_of_ne hu]; exact S.2 u h1 (by omega)
  refine ⟨⟨hlp, hout⟩, fun h => ⟨yl (hout _ ?_ ?_), yr (hout _ ?_ ?_)⟩⟩
  all_goals
    have := K.i28; have := K.i24; have := K.i31; have := K.i35
    cases b <;> simp only [Bool.false_eq_true, if_false, if_true] <;> omega

/-- The predelay in samples that the control values stand for. -/
def preOf (k : Consts F32) (c : Ctrl F32) : ℤ := clampDelay (truncQ (k.c0 * c.rec28).val)

/-- A NaN was written to the predelay line at time `t` and has not been read yet. -/
def Waiting (k : Consts F32) (b : Bool) (t : ℤ) (s : State (ℤ → F32) F32) : Prop :=
  (half b s).preLine t = .nan ∧ t < s.iota ∧ s.iota - t ≤ preOf k s.ctrl

/-- Next sample: still waiting, or read. -/
theorem waiting_step {k : Consts F32} {sl : Slow F32} {s s' : State (ℤ → F32) F32} {x y : Stereo F32} {b : Bool} {t : ℤ}
    (e : step ideal k sl s x = some (s', y)) (hpre : ∀ c pre, ctrlStep k sl s.ctrl = some (c, pre) → pre = preOf k c ∧ preOf k s.ctrl ≤ pre)
    (W : Waiting k b t s) : Waiting k b t s' ∨ Stuck b (t + 65536) s' := by
  obtain ⟨pre, hc, ei, epl, elp, -, -⟩ := step_chan e b
  obtain ⟨h1, h2⟩ := hpre _ _ hc
  obtain ⟨w1, w2, w3⟩ := W
  have hpl : (half b s').preLine t = .nan := by
    rw [epl, Function.update_of_ne (by omega)]; exact w1
  by_cases h : s.iota - t = pre
  · right
    have hlp : (half b s').lp = .nan := by
      rw [elp, show s.iota - pre = t by omega, hpl, nan_add]
    refine ⟨hlp, fun u hu hu' => ?_⟩
    have : pre ≤ 65536 := by rw [h1]; exact clampDelay_le _
    obtain ⟨-, -, -, -, -, ⟨z, ez, hz⟩, -⟩ := step_chan e b
    have : u = s.iota := by omega
    rw [ez, this, Function.update_self]
    exact hz hlp
  · left
    exact ⟨hpl, by omega, by rw [← h1]; omega⟩

/-- The sample itself is NaN. -/
theorem hit_step {k : Consts F32} {sl : Slow F32} {s s' : State (ℤ → F32) F32} {x y : Stereo F32} {b : Bool}
    (e : step ideal k sl s x = some (s', y)) (hpre : ∀ c pre, ctrlStep k sl s.ctrl = some (c, pre) → pre = preOf k c ∧ preOf k s.ctrl ≤ pre)
    (hx : chan b x = .nan) : Waiting k b s.iota s' ∨ Stuck b (s.iota + 65536) s' := by
  obtain ⟨pre, hc, ei, epl, elp, ⟨z, ez, hz⟩, -⟩ := step_chan e b
  obtain ⟨h1, h2⟩ := hpre _ _ hc
  have h0 : 0 ≤ pre := by rw [h1]; exact clampDelay_nonneg _
  have hpl : (half b s').preLine s.iota = .nan := by rw [epl, Function.update_self, hx, nan_mul]
  by_cases h : pre = 0
  · right
    have hlp : (half b s').lp = .nan := by rw [elp, h, sub_zero, hpl, nan_add]
    exact ⟨hlp, fun u hu hu' => by omega⟩
  · left
    exact ⟨hpl, by omega, by rw [← h1]; omega⟩

/-! ### The predelay only grows -/

variable [LibmSpec]

/-- The smoothed predelay is on its way up towards the one that is set. -/
def Rising (k : Consts F32) (d : F32) (c : Ctrl F32) : Prop := Safe c ∧ c.rec28.val ≤ (k.c5 * d + k.c2 * c.rec28).val

theorem smooth_mono {k : Consts F32} (K : Good k) {d d' x x' : F32} (hd : d.In 0 300) (hd' : d'.In 0 300) (hx : x.In 0 8) (hx' : x'.In 0 8)
    (h1 : d.val ≤ d'.val) (h2 : x.val ≤ x'.val) : (k.c5 * d + k.c2 * x).val ≤ (k.c5 * d' + k.c2 * x').val := by
  have r9 : binary32.Rep (2 ^ 9) false := rep_two_pow (by norm_num)
  have r3 : binary32.Rep (2 ^ 3) false := rep_two_pow (by norm_num)
  have r10 : binary32.Rep (2 ^ 10) false := rep_two_pow (by norm_num)
  have m : ∀ {z : F32}, z.In 0 300 → (k.c5 * z).In 0 (2 ^ 9) ∧ (k.c5 * z).val = binary32.rnd (k.c5.val * z.val) := by
    intro z hz
    have a := mul_nonneg K.c5.2.1 hz.2.1
    have b : k.c5.val * z.val ≤ 2 ^ 9 := by nlinarith [K.c5.2.1, K.c5.2.2, hz.2.1, hz.2.2]
    exact ⟨mul_in K.c5.1 hz.1 rep_zero r9 a b, (mul_val K.c5.1 hz.1 rep_zero r9 a b).2⟩
  have n : ∀ {z : F32}, z.In 0 8 → (k.c2 * z).In 0 (2 ^ 3) ∧ (k.c2 * z).val = binary32.rnd (k.c2.val * z.val) := by
    intro z hz
    have a := mul_nonneg K.c2.2.1 hz.2.1
    have b : k.c2.val * z.val ≤ 2 ^ 3 := by nlinarith [K.c2.2.1, K.c2.2.2, hz.2.1, hz.2.2]
    exact ⟨mul_in K.c2.1 hz.1 rep_zero r3 a b, (mul_val K.c2.1 hz.1 rep_zero r3 a b).2⟩
  obtain ⟨a1, a2⟩ := m hd
  obtain ⟨b1, b2⟩ := m hd'
  obtain ⟨c1, c2⟩ := n hx
  obtain ⟨d1, d2⟩ := n hx'
  have e1 := (add_val a1.1 c1.1 rep_zero r10 (add_nonneg a1.2.1 c1.2.1) (by linarith [a1.2.2, c1.2.2])).2
  have e2 := (add_val b1.1 d1.1 rep_zero r10 (add_nonneg b1.2.1 d1.2.1) (by linarith [b1.2.2, d1.2.2])).2
  rw [e1, e2, a2, b2, c2, d2]
  exact binary32.rnd_mono (add_le_add (binary32.rnd_mono (mul_le_mul_of_nonneg_left h1 K.c5.2.1)) (binary32.rnd_mono (mul_le_mul_of_nonneg_left h2 K.c2.2.1)))

theorem rising_up {k : Consts F32} (K : Good k) {d d' : F32} (hd : d.In 0 300) (hd' : d'.In 0 300) (h : d.val ≤ d'.val) {c : Ctrl F32}
    (R : Rising k d c) : Rising k d' c :=
  ⟨R.1, R.2.trans (smooth_mono K hd hd' R.1.rec28 R.1.rec28 h le_rfl)⟩

theorem truncQ_mono {x y : ℚ} (h0 : 0 ≤ x) (h : x ≤ y) : truncQ x ≤ truncQ y := by
  rw [truncQ_nonneg h0, truncQ_nonneg (h0.trans h)]
  exact Int.floor_le_floor h

theorem rising_step {k : Consts F32} (K : Good k) {p : Params F32} (P : InRange p) {c c' : Ctrl F32} {pre : ℤ} (R : Rising k p.predelay c)
    (e : ctrlStep k (slow k p) c = some (c', pre)) : Rising k p.predelay c' ∧ pre = preOf k c' ∧ preOf k c ≤ pre := by
  obtain ⟨c1, pre1, e1, S⟩ := ctrl_safe K P R.1
  rw [e] at e1
  cases e1
  have e28 : c'.rec28 = k.c5 * p.predelay + k.c2 * c.rec28 := by
    simp only [ctrlStep, slow, Option.bind_eq_some_iff, Option.some.injEq, Prod.mk.injEq] at e
    obtain ⟨_, -, _, -, _, -, _, -, _, -, _, -, _, -, _, -, _, -, rfl, -⟩ := e
    rfl
  have hle : c.rec28.val ≤ c'.rec28.val := by rw [e28]; exact R.2
  have hpre : pre = preOf k c' := by
    simp only [ctrlStep, slow, Option.bind_eq_some_iff, Option.some.injEq, Prod.mk.injEq] at e
    obtain ⟨n, hn, _, -, _, -, _, -, _, -, _, -, _, -, _, -, _, -, -, rfl⟩ := e
    rw [← e28, (toI32_small (fl_in (j := 21) (B := 8) (by norm_num) K.c0 (S.rec28.mono (by norm_num) le_rfl) (by norm_num))).1] at hn
    cases hn
    rfl
  refine ⟨⟨S, ?_⟩, hpre, ?_⟩
  · have := smooth_mono K P.predelay P.predelay R.1.rec28 S.rec28 le_rfl hle
    rw [← e28] at this
    exact this
  · rw [hpre]
    have r21 : binary32.Rep (2 ^ 21) false := rep_two_pow (by norm_num)
    have q : ∀ {z : F32}, z.In 0 8 → 0 ≤ (k.c0 * z).val ∧ (k.c0 * z).val = binary32.rnd (k.c0.val * z.val) := by
      intro z hz
      have hp : 0 ≤ k.c0.val := by linarith [K.c0.2.1]
      have a := mul_nonneg hp hz.2.1
      have b : k.c0.val * z.val ≤ 2 ^ 21 := by nlinarith [K.c0.2.2, hz.2.1, hz.2.2]
      exact ⟨(mul_in K.c0.1 hz.1 rep_zero r21 a b).2.1, (mul_val K.c0.1 hz.1 rep_zero r21 a b).2⟩
    have h := truncQ_mono (q R.1.rec28).1 (show (k.c0 * c.rec28).val ≤ (k.c0 * c'.rec28).val by
      rw [(q R.1.rec28).2, (q S.rec28).2]
      exact binary32.rnd_mono (mul_le_mul_of_nonneg_left hle (by linarith [K.c0.2.1])))
    unfold preOf clampDelay
    omega

/-! ### A whole session -/

theorem stuck_walk {k : Consts F32} (K : Fits k) {b : Bool} {t : ℤ} (xs : List (Params F32 × Stereo F32)) :
    ∀ {s s' : State (ℤ → F32) F32} {ys : List (Stereo F32)}, walk ideal k s xs = some (s', ys) → Stuck b t s →
      ∀ (j : ℕ) (y : Stereo F32), ys[j]? = some y → t + 32768 ≤ s.iota + j → Dead y := by
  induction xs with
  | nil => intro s s' ys h S j y hj; cases h; simp at hj
  | cons x xs ih =>
    intro s s' ys h S j y hj hle
    simp only [walk, Option.bind_eq_some_iff, Option.map_eq_some_iff, Prod.exists] at h
    obtain ⟨s1, y1, h1, s2, zs, h2, e⟩ := h
    cases e
    obtain ⟨S1, D⟩ := stuck_step K h1 S
    obtain ⟨-, -, ei, -⟩ := step_chan h1 b
    cases j with
    | zero => cases hj; exact D (by simpa using hle)
    | succ j => exact ih h2 S1 j y (by simpa using hj) (by rw [ei]; push_cast at hle ⊢; omega)

/-- The predelay is at least `d` and is never turned down. -/
def Upward (d : F32) (xs : List (Params F32 × Stereo F32)) : Prop :=
  (∀ x ∈ xs, InRange x.1 ∧ d.val ≤ x.1.predelay.val) ∧ xs.Pairwise fun x y => x.1.predelay.val ≤ y.1.predelay.val

theorem Upward.tail {d : F32} {x : Params F32 × Stereo F32} {xs : List (Params F32 × Stereo F32)} (U : Upward d (x :: xs)) :
    Upward x.1.predelay xs := by
  obtain ⟨h1, h2⟩ := U
  rw [List.pairwise_cons] at h2
  exact ⟨fun z hz => ⟨(h1 z (List.mem_cons_of_mem _ hz)).1, h2.1 z hz⟩, h2.2⟩

theorem waiting_walk {k : Consts F32} (K : Fits k) (G : Good k) {b : Bool} {t : ℤ} (xs : List (Params F32 × Stereo F32)) :
    ∀ {d : F32} {s s' : State (ℤ → F32) F32} {ys : List (Stereo F32)}, d.In 0 300 → Upward d xs → Rising k d s.ctrl →
      walk ideal k s xs = some (s', ys) → Waiting k b t s →
      ∀ (j : ℕ) (y : Stereo F32), ys[j]? = some y → t + 98304 ≤ s.iota + j → Dead y := by
  induction xs with
  | nil => intro d s s' ys hd U R h S j y hj; cases h; simp at hj
  | cons x xs ih =>
    intro d s s' ys hd U R h W j y hj hle
    obtain ⟨P, hdx⟩ := U.1 x (List.mem_cons_self)
    have R' := rising_up G hd P.predelay hdx R
    simp only [walk, Option.bind_eq_some_iff, Option.map_eq_some_iff, Prod.exists] at h
    obtain ⟨s1, y1, h1, s2, zs, h2, e⟩ := h
    cases e
    obtain ⟨pre, hc, ei, -⟩ := step_chan h1 b
    have hW := waiting_step h1 (fun c pre hc => (rising_step G P R' hc).2) W
    have R1 := (rising_step G P R' hc).1
    cases j with
    | zero =>
      exfalso
      have := clampDelay_le (truncQ (k.c0 * s.ctrl.rec28).val)
      have := W.2.2
      unfold preOf at this
      simp at hle
      omega
    | succ j =>
      have hj' : zs[j]? = some y := by simpa using hj
      push_cast at hle
      rcases hW with W1 | S1
      · exact ih P.predelay U.tail R1 h2 W1 j y hj' (by rw [ei]; omega)
      · exact stuck_walk K xs h2 S1 j y hj' (by rw [ei]; omega)

theorem session_walk {k : Consts F32} (K : Fits k) (G : Good k) (b : Bool) (xs : List (Params F32 × Stereo F32)) :
    ∀ {d : F32} {s s' : State (ℤ → F32) F32} {ys : List (Stereo F32)}, d.In 0 300 → Upward d xs → Rising k d s.ctrl →
      walk ideal k s xs = some (s', ys) →
      ∀ (i : ℕ) (x : Params F32 × Stereo F32), xs[i]? = some x → chan b x.2 = .nan →
        ∀ (j : ℕ) (y : Stereo F32), ys[j]? = some y → i + 98304 ≤ j → Dead y := by
  induction xs with
  | nil => intro d s s' ys hd U R h i x hi; simp at hi
  | cons x xs ih =>
    intro d s s' ys hd U R h i x' hi hx j y hj hle
    obtain ⟨P, hdx⟩ := U.1 x (List.mem_cons_self)
    have R' := rising_up G hd P.predelay hdx R
    simp only [walk, Option.bind_eq_some_iff, Option.map_eq_some_iff, Prod.exists] at h
    obtain ⟨s1, y1, h1, s2, zs, h2, e⟩ := h
    cases e
    obtain ⟨pre, hc, ei, -⟩ := step_chan h1 b
    have R1 := (rising_step G P R' hc).1
    obtain ⟨j, rfl⟩ : ∃ j', j = j' + 1 := ⟨j - 1, by omega⟩
    have hj' : zs[j]? = some y := by simpa using hj
    cases i with
    | succ i => exact ih P.predelay U.tail R1 h2 i x' (by simpa using hi) hx j y hj' (by omega)
    | zero =>
      cases hi
      rcases hit_step h1 (fun c pre hc => (rising_step G P R' hc).2) hx with W1 | S1
      · exact waiting_walk K G xs P.predelay U.tail R1 h2 W1 j y hj' (by rw [ei]; omega)
      · exact stuck_walk K xs h2 S1 j y hj' (by rw [ei]; omega)

/-! ### Theorem -/

/-- **C83, false** of the reverb (binary32): for every sample rate from 45 Hz, every session of blocks of any length and any parameters in
the ranges of the setters in which the predelay is not turned down, one frame with a NaN in either channel makes both output channels NaN
at most 98304 frames later (two seconds at 48 kHz), and for the whole rest of the session, whatever is played afterwards. -/
theorem C83_reverb_sticks (sr : ℤ) (h1 : 45 ≤ sr) (h2 : sr < 2 ^ 31) (k : Consts F32) (hk : instanceConstants sr = some k)
    (bs : List (Params F32 × List (Stereo F32))) (hp : ∀ b ∈ bs, InRange b.1)
    (hup : bs.Pairwise fun b c => b.1.predelay.val ≤ c.1.predelay.val)
    (s : State (List F32) F32) (ys : List (Stereo F32)) (hrun : run arrays k (clear arrays) (blocks bs) = some (s, ys))
    (i : ℕ) (x : Stereo F32) (hi : (input bs)[i]? = some x) (hx : x.left = .nan ∨ x.right = .nan)
    (j : ℕ) (hj : i + 98304 ≤ j) (y : Stereo F32) (hy : ys[j]? = some y) : y.left = .nan ∧ y.right = .nan := by
  obtain ⟨k', e, K, -⟩ := constants_fit (by omega) h2
  rw [hk] at e
  cases e
  have G := (good_of_rate h1 h2 hk).2
  have hi' := C48_lines sr (by omega) h2 k hk (blocks bs)
  rw [hrun, run_walk] at hi'
  cases hw : walk ideal k (clear ideal) (bs.flatMap fun b => b.2.map fun x => (b.1, x)) with
  | none => rw [hw] at hi'; cases hi'
  | some r =>
    obtain ⟨s', zs⟩ := r
    rw [hw] at hi'
    cases hi'
    have hin : input bs = (bs.flatMap fun b => b.2.map fun x => (b.1, x)).map Prod.snd := by
      simp only [input, List.map_flatMap, List.map_map]
      congr 1
      funext b
      simp [Function.comp_def]
    have hU : Upward (lit 0) (bs.flatMap fun b => b.2.map fun x => (b.1, x)) := by
      constructor
      · intro z hz
        simp only [List.mem_flatMap, List.mem_map] at hz
        obtain ⟨b, hb, w, -, rfl⟩ := hz
        refine ⟨hp b hb, ?_⟩
        rw [(lit_zero (f := binary32)).val_eq]
        exact (hp b hb).predelay.2.1
      · rw [List.pairwise_flatMap]
        refine ⟨fun b _ => ?_, hup.imp ?_⟩
        · rw [List.pairwise_map]
          exact List.pairwise_of_forall fun _ _ => le_rfl
        · intro b c h u hu v hv
          simp only [List.mem_map] at hu hv
          obtain ⟨_, -, rfl⟩ := hu
          obtain ⟨_, -, rfl⟩ := hv
          exact h
    have h0 := lit_zero (f := binary32)
    have hR : Rising k (lit 0) (clear (ideal (α := F32))).ctrl := by
      refine ⟨clear_safe _, ?_⟩
      show (lit 0 : F32).val ≤ (k.c5 * lit 0 + k.c2 * lit 0 : F32).val
      rw [h0.val_eq]
      have a := mul_in G.c5.1 h0.1 rep_zero rep_zero (by rw [h0.val_eq]; simp) (by rw [h0.val_eq]; simp)
      have b := mul_in G.c2.1 h0.1 rep_zero rep_zero (by rw [h0.val_eq]; simp) (by rw [h0.val_eq]; simp)
      exact (add_in a b rep_zero rep_zero (by norm_num) (by norm_num)).2.1
    rw [hin, List.getElem?_map, Option.map_eq_some_iff] at hi
    obtain ⟨x', hx', rfl⟩ := hi
    rcases hx with hx | hx
    · exact session_walk K G false _ (h0.mono le_rfl (by norm_num)) hU hR hw i x' hx' hx j y hy hj
    · exact session_walk K G true _ (h0.mono le_rfl (by norm_num)) hU hR hw i x' hx' hx j y hy hj

/-- A session with the default parameters, one bad frame and silence after it meets the hypotheses; by `C58_defined` it has an
output. -/
example : let p : Params F32 := resetUI
    let bs := [(p, [⟨lit 0, .nan⟩]), (p, List.replicate 100000 ⟨lit 0, lit 0⟩)]
    (∀ b ∈ bs, InRange b.1) ∧ (bs.Pairwise fun b c => b.1.predelay.val ≤ c.1.predelay.val) ∧ Fine 0 (blocks bs) ∧
      (input bs)[0]? = some ⟨lit 0, .nan⟩ := by
  have h : InRange (resetUI : Params F32) := ⟨by decide +kernel, by decide +kernel, by decide +kernel⟩
  intro p bs
  refine ⟨?_, ?_, ?_, rfl⟩
  · intro b hb
    simp only [bs, List.mem_cons, List.not_mem_nil, or_false] at hb
    rcases hb with rfl | rfl <;> exact h
  · simp only [bs, List.pairwise_cons, List.mem_cons, List.not_mem_nil, or_false, forall_eq]
    exact ⟨le_rfl, by simp⟩
  · simp only [bs, blocks, List.map_cons, List.map_nil, Fine, List.length_replicate, List.length_cons, List.length_nil]
    exact ⟨h, by norm_num, h, by norm_num, trivial⟩

end Verif.FVerbDSP
