import Verif.Props.FVerb

/-!
# C49, C58: parameter ranges, programs that go wrong, and programs that cannot
-/

namespace Verif.FVerb
open FP FVerbDSP

set_option linter.unusedSectionVars false

/-! ### Documented parameter ranges (FVerb.h:62-126) -/

/-- The documented range of a setter. -/
def documented : Setter → ℚ × ℚ
  | .predelay => (0, 300)
  | .inputAmount => (0, 100)
  | .inputLowPass => (1, 20000)
  | .inputHighPass => (1, 1000)
  | .diffusion1 => (0, 100)
  | .diffusion2 => (0, 100)
  | .tailDensity => (0, 100)
  | .decay => (0, 100)
  | .damping => (10, 20000)
  | .modFrequency => (0.01, 4)
  | .modDepth => (0, 10)

/-- The parameter a setter is named after. -/
def current {α : Type} (p : Params α) : Setter → α
  | .predelay => p.predelay
  | .inputAmount => p.inputAmount
  | .inputLowPass => p.lowPass
  | .inputHighPass => p.highPass
  | .diffusion1 => p.diffusion1
  | .diffusion2 => p.diffusion2
  | .tailDensity => p.tailDensity
  | .decay => p.decay
  | .damping => p.damping
  | .modFrequency => p.modFrequency
  | .modDepth => p.modDepth

theorem current_setParam {α : Type} [Arith α] (w : Setter) (x : α) (p : Params α) :
    current (setParam w x p) w = clamp x (lit (documented w).1) (lit (documented w).2) := by
  cases w <;> rfl

theorem documented_lits (w : Setter) :
    (lit (documented w).1 : F32).isFin = true ∧ (lit (documented w).2 : F32).isFin = true ∧
      (lit (documented w).1 : F32).val ≤ (lit (documented w).2 : F32).val := by
  cases w <;> decide +kernel

/-- **C49**: whatever is passed to a setter, other than NaN, the parameter ends up in its documented range (bounds as the `float` literals
they are); values already there are kept, others go to the nearer end; and no other parameter changes. -/
theorem C49_clamped (w : Setter) (x : F32) (hx : x ≠ .nan) (p : Params F32) :
    ((lit (documented w).1 <=. current (setParam w x p) w) = true ∧ (current (setParam w x p) w <=. lit (documented w).2) = true) ∧
    ((lit (documented w).1 <=. x) = true → (x <=. lit (documented w).2) = true → current (setParam w x p) w = x) ∧
    ((x <. lit (documented w).1) = true → current (setParam w x p) w = lit (documented w).1) ∧
    ((lit (documented w).2 <. x) = true → current (setParam w x p) w = lit (documented w).2) ∧
    ∀ v, v ≠ w → current (setParam w x p) v = current p v := by
  obtain ⟨hl, hh, hle⟩ := documented_lits w
  rw [current_setParam]
  have hin : (clamp x (lit (documented w).1 : F32) (lit (documented w).2)).In (lit (documented w).1 : F32).val (lit (documented w).2 : F32).val :=
    clamp_in hx (in_val hl) (in_val hh) hle
  refine ⟨⟨?_, ?_⟩, ?_, ?_, ?_, ?_⟩
  · rw [le_fin hl hin.1]; exact decide_eq_true hin.2.1
  · rw [le_fin hin.1 hh]; exact decide_eq_true hin.2.2
  · intro h1 h2
    rcases not_nan_cases hx with rfl | rfl | hf
    · obtain ⟨v, nz, hv, e⟩ := isFin_cases hl
      rw [e] at h1; cases h1
    · obtain ⟨v, nz, hv, e⟩ := isFin_cases hh
      rw [e] at h2; cases h2
    · rw [le_fin hl hf] at h1
      rw [le_fin hf hh] at h2
      exact clamp_id hf hl hh (of_decide_eq_true h1) (of_decide_eq_true h2)
  · intro h
    unfold clamp
    rw [if_pos h]
  · intro h
    unfold clamp
    rcases not_nan_cases hx with rfl | rfl | hf
    · obtain ⟨v, nz, hv, e⟩ := isFin_cases hh
      rw [e] at h; cases h
    · obtain ⟨v, nz, hv, e⟩ := isFin_cases hl
      rw [if_neg (by rw [e]; simp [Arith.lt, FP.lt]), if_pos h]
    · have h2 := h
      rw [lt_fin hh hf] at h2
      have h2 := of_decide_eq_true h2
      rw [if_neg (by rw [lt_fin hf hl]; simp only [decide_eq_true_eq, not_lt]; linarith), if_pos h]
  · intro v hv
    cases w <;> cases v <;> first | rfl | exact absurd rfl hv

example : current (setParam .decay (lit 250) (resetUI : Params F32)) .decay = lit 100 ∧
    current (setParam .damping (lit 440) (resetUI : Params F32)) .damping = lit 440 :=
  ⟨((C49_clamped .decay (lit 250) (by decide +kernel) resetUI).2.2.2.1) (by decide +kernel),
    ((C49_clamped .damping (lit 440) (by decide +kernel) resetUI).2.1) (by decide +kernel) (by decide +kernel)⟩

/-- The default a slider is declared with (FVerbDSP.h:628-696, first number of `addHorizontalSlider`). -/
def declared : Setter → ℚ
  | .predelay => 0
  | .inputAmount => 100
  | .inputLowPass => 10000
  | .inputHighPass => 100
  | .diffusion1 => 75
  | .diffusion2 => 62.5
  | .tailDensity => 70
  | .decay => 50
  | .damping => 5500
  | .modFrequency => 1
  | .modDepth => 0.5

/-- What the wrapper replaces on `init` (FVerb.cpp:27-31). -/
def chosen : Setter → Option ℚ
  | .predelay => some 150
  | .decay => some 82
  | .tailDensity => some 80
  | .diffusion1 => some 70
  | .diffusion2 => some 75
  | _ => none

/-- **C49**: the reverb engine starts with the values its sliders declare, and the wrapper starts with its own five and the declared others; all of
them are in the documented ranges. -/
theorem C49_defaults {L : Type} (I : LineImpl L F32) (sr : F32) (d : Dsp L F32) (h : newDsp I sr = some d) (w : Setter) :
    current (resetUI : Params F32) w = lit (declared w) ∧ current d.params w = lit ((chosen w).getD (declared w)) ∧
      (documented w).1 ≤ (chosen w).getD (declared w) ∧ (chosen w).getD (declared w) ≤ (documented w).2 := by
  have e : d.params = setParam .diffusion2 (lit 75) (setParam .diffusion1 (lit 70) (setParam .tailDensity (lit 80)
      (setParam .decay (lit 82) (setParam .predelay (lit 150) resetUI)))) := by
    unfold newDsp at h
    obtain ⟨n, -, h⟩ := Option.bind_eq_some_iff.1 h
    obtain ⟨k, -, rfl⟩ := Option.map_eq_some_iff.1 h
    rfl
  refine ⟨by cases w <;> rfl, ?_, ?_, ?_⟩
  · rw [e]; cases w <;> decide +kernel
  · cases w <;> norm_num [documented, chosen, declared]
  · cases w <;> norm_num [documented, chosen, declared]

/-- Non-trivial case: such an engine exists at 48 kHz. -/
example (L : Type) (I : LineImpl L F32) : (newDsp I (lit 48000)).isSome = true := by
  have h : (Arith.toI32? (lit 48000 : F32)) = some 48000 := by decide +kernel
  have k : (instanceConstants (α := F32) 48000).isSome = true := by decide +kernel
  simp [newDsp, h, k]

/-- **C49 negation**: NaN goes through every setter unclamped. -/
theorem C49_nan_unclamped (w : Setter) (p : Params F32) : current (setParam w .nan p) w = .nan := by
  rw [current_setParam]
  obtain ⟨hl, hh, -⟩ := documented_lits w
  obtain ⟨v, nz, hv, e⟩ := isFin_cases hl
  obtain ⟨v', nz', hv', e'⟩ := isFin_cases hh
  rw [e, e']
  rfl

/-! ### Programs that go wrong -/

section
variable {α : Type} [Arith α] [Libm α]

/-- **C49 negation**: an empty block right after `init` (any sample rate) dereferences the null `inputBuffers`. -/
theorem C49_empty_block (sr : α) : World.start.run [.declare 0, .init 0 sr, .process 0 []] = none := by
  refine run_fails _ start_rep (by intro c d; simp) ?_
  cases h : newDsp arrays sr <;> simp [specRun, specStep, h]

/-- **C49 negation**: the implicitly generated copy constructor shares the DSP, so destroying original and copy frees it twice. -/
theorem C49_copy (sr : α) : World.start.run [.declare 0, .init 0 sr, .copy 0 1, .destroy 0, .destroy 1] = none := by
  cases h : newDsp arrays sr with
  | none => simp [World.run, World.step, World.start, init, Heap.deleteIf, Obj.fresh, h]
  | some D =>
    simp [World.run, World.step, World.start, init, Heap.deleteIf, Obj.fresh, h, destroy, freeBuffers, freePair, Heap.delete, Heap.new]

end

variable [Libm F32]

/-- **C58 negation**: a sample rate that does not fit an `int` (NaN, an infinity, `2^31` and above) makes `init` undefined. -/
theorem C58_init_rate (sr : F32) (h : Arith.toI32? sr = none) : World.start.run [.declare 0, .init 0 sr] = none := by
  simp [World.run, World.step, World.start, init, Heap.deleteIf, Obj.fresh, newDsp, h]

example : Arith.toI32? (.nan : F32) = none ∧ Arith.toI32? (.inf false : F32) = none ∧ Arith.toI32? (lit (2 ^ 31) : F32) = none := by
  decide +kernel

/-- **C58 negation**: `setPredelay(NaN)` followed by a non-empty block is undefined. -/
theorem C58_nan_program (sr : F32) (x : Stereo F32) (xs : List (Stereo F32)) :
    World.start.run [.declare 0, .init 0 sr, .set 0 .predelay .nan, .process 0 (x :: xs)] = none := by
  refine run_fails _ start_rep (by intro c d; simp) ?_
  cases h : newDsp arrays sr with
  | none => simp [specRun, specStep, h]
  | some D =>
    have := C58_nan_predelay arrays D.consts (setParam .predelay .nan D.params) (C49_nan_unclamped .predelay D.params) D.state x xs
    simp [specRun, specStep, h, this]

/-! ### Programs that cannot go wrong -/

/-- What the user of a reverb has to remember: has it been initialised, has it processed a non-empty block, how many frames did it process
since the last `init` or `reset`. -/
structure Book where
  started : Bool
  warm : Bool
  frames : ℕ

/-- The contract. Reverbs are declared before use, destroyed at most once and not copied; sample rates are at least 23 Hz and fit an
`int`; setters never get NaN; the first block after the first `init` is not empty; and no reverb processes `2^31` frames without a
`reset` or `init` in between. Block sizes and samples are unrestricted. -/
def Contract : (ℕ → Option Book) → List (Call F32) → Prop
  | _, [] => True
  | b, .declare c :: qs => b c = none ∧ Contract (Function.update b c (some ⟨false, false, 0⟩)) qs
  | b, .init c sr :: qs => ∃ k, b c = some k ∧ sr.isFin = true ∧ 23 ≤ sr.val ∧ sr.val < 2 ^ 31 ∧
      Contract (Function.update b c (some { k with started := true, frames := 0 })) qs
  | b, .process c xs :: qs => ∃ k, b c = some k ∧
      ((k.started = false ∧ Contract b qs) ∨
        (k.started = true ∧ (xs = [] → k.warm = true) ∧ k.frames + xs.length < 2 ^ 31 ∧
          Contract (Function.update b c (some ⟨true, true, k.frames + xs.length⟩)) qs))
  | b, .set c _ x :: qs => (∃ k, b c = some k) ∧ x ≠ .nan ∧ Contract b qs
  | b, .reset c :: qs => ∃ k, b c = some k ∧ Contract (Function.update b c (some { k with frames := 0 })) qs
  | _, .copy _ _ :: _ => False
  | b, .destroy c :: qs => (∃ k, b c = some k) ∧ Contract (Function.update b c none) qs

variable [LibmSpec]

/-- The running reverb is in a state it cannot fail from. -/
structure Runs (D : Dsp (List F32) F32) (n : ℕ) : Prop where
  rate : ∃ sr : ℤ, 23 ≤ sr ∧ sr < 2 ^ 31 ∧ instanceConstants sr = some D.consts
  params : InRange D.params
  state : ∃ S, StateRel D.state S ∧ Calm D.consts S.ctrl ∧ S.iota = n

/-- The book agrees with the reverb. -/
def Keeps (k : Book) (r : Unit' F32) : Prop :=
  r.warm = k.warm ∧ match r.dsp with
    | none => k.started = false
    | some D => k.started = true ∧ Runs D k.frames

theorem setParam_inRange (w : Setter) (x : F32) (hx : x ≠ .nan) {p : Params F32} (P : InRange p) : InRange (setParam w x p) := by
  have h0 := lit_zero (f := binary32)
  have h300 : (lit 300 : F32).In 300 300 := by decide +kernel
  have h10 : (lit 10 : F32).In 10 10 := by decide +kernel
  have h4 : (lit 4 : F32).In 4 4 := by decide +kernel
  have h001 : (lit 0.01 : F32).isFin = true ∧ 0 ≤ (lit 0.01 : F32).val ∧ (lit 0.01 : F32).val ≤ 4 := by decide +kernel
  cases w
  case predelay => exact ⟨clamp_in hx h0 h300 (by norm_num), P.modFrequency, P.modDepth⟩
  case modFrequency =>
    exact ⟨P.predelay, (clamp_in hx (in_val h001.1) h4 h001.2.2).mono h001.2.1 le_rfl, P.modDepth⟩
  case modDepth => exact ⟨P.predelay, P.modFrequency, clamp_in hx h0 h10 (by norm_num)⟩
  all_goals exact ⟨P.predelay, P.modFrequency, P.modDepth⟩

theorem newDsp_runs {sr : F32} (hf : sr.isFin = true) (h1 : 23 ≤ sr.val) (h2 : sr.val < 2 ^ 31) :
    ∃ D, newDsp arrays sr = some D ∧ Runs D 0 := by
  have h0 : 0 ≤ sr.val := by linarith
  have ht : truncQ sr.val = ⌊sr.val⌋ := truncQ_nonneg h0
  have a : 23 ≤ truncQ sr.val := by rw [ht]; exact Int.le_floor.2 (by exact_mod_cast h1)
  have b : truncQ sr.val < 2 ^ 31 := by rw [ht]; exact Int.floor_lt.2 (by exact_mod_cast h2)
  obtain ⟨k, e, -⟩ := constants_fit (sr := truncQ sr.val) (by omega) b
  refine ⟨_, by simp only [newDsp, toI32_fin hf (by omega) b, Option.bind_some, e, Option.map_some]; rfl, ⟨_, a, b, e⟩, ?_,
    ⟨_, clear_rel, clear_calm ideal a b e, rfl⟩⟩
  have h : InRange (resetUI : Params F32) := ⟨by decide +kernel, by decide +kernel, by decide +kernel⟩
  refine setParam_inRange .diffusion2 (lit 75) (by decide +kernel) (setParam_inRange .diffusion1 (lit 70) (by decide +kernel)
    (setParam_inRange .tailDensity (lit 80) (by decide +kernel) (setParam_inRange .decay (lit 82) (by decide +kernel)
    (setParam_inRange .predelay (lit 150) (by decide +kernel) h))))

theorem compute_runs {D : Dsp (List F32) F32} {n : ℕ} (R : Runs D n) (xs : List (Stereo F32)) (hn : n + xs.length < 2 ^ 31) :
    ∃ S ys, compute arrays D.consts D.params D.state xs = some (S, ys) ∧ Runs { D with state := S } (n + xs.length) := by
  obtain ⟨sr, h1, h2, hk⟩ := R.rate
  obtain ⟨S, hS, hsafe, hi⟩ := R.state
  obtain ⟨k', e', K, -⟩ := constants_fit (sr := sr) (by omega) h2
  rw [hk] at e'
  cases e'
  obtain ⟨S', ys, e, hs', hi'⟩ := loop_safe R.params xs hsafe (by omega) (by omega)
  have hr := loop_rel K (slow D.consts D.params) xs hS
  rw [e] at hr
  cases ha : loop arrays D.consts (slow D.consts D.params) D.state xs with
  | none => rw [ha] at hr; exact hr.elim
  | some r =>
    rw [ha] at hr
    obtain ⟨T, zs⟩ := r
    exact ⟨T, zs, ha, R.rate, R.params, S', hr.1, hs', by rw [hi', hi]; push_cast; ring⟩

theorem contract_run (qs : List (Call F32)) : ∀ {b : ℕ → Option Book} {u : ℕ → Option (Unit' F32)},
    (∀ c, OptRel Keeps (b c) (u c)) → Contract b qs → ∃ u' outs, specRun u qs = some (u', outs) := by
  have get : ∀ {b : ℕ → Option Book} {u : ℕ → Option (Unit' F32)}, (∀ c, OptRel Keeps (b c) (u c)) → ∀ {c : ℕ} {k : Book},
      b c = some k → ∃ r, u c = some r ∧ Keeps k r := by
    intro b u H c k hk
    have := H c
    rw [hk] at this
    cases hu : u c with
    | none => rw [hu] at this; exact this.elim
    | some r => rw [hu] at this; exact ⟨r, rfl, this⟩
  have upd : ∀ {b : ℕ → Option Book} {u : ℕ → Option (Unit' F32)}, (∀ c, OptRel Keeps (b c) (u c)) → ∀ (c : ℕ) {k : Option Book}
      {r : Option (Unit' F32)}, OptRel Keeps k r → ∀ d, OptRel Keeps (Function.update b c k d) (Function.update u c r d) := by
    intro b u H c k r h d
    by_cases e : d = c
    · subst e; simpa only [Function.update_self] using h
    · simpa only [Function.update_of_ne e] using H d
  have next : ∀ {q : Call F32} {qs : List (Call F32)} {u u1 : ℕ → Option (Unit' F32)} {ys : List (Stereo F32)},
      specStep u q = some (u1, ys) → (∃ u' outs, specRun u1 qs = some (u', outs)) → ∃ u' outs, specRun u (q :: qs) = some (u', outs) := by
    rintro q qs u u1 ys h ⟨u', outs, e⟩
    exact ⟨u', ys :: outs, by simp only [specRun, h, Option.bind_some, e, Option.map_some]⟩
  induction qs with
  | nil => intro b u _ _; exact ⟨u, [], rfl⟩
  | cons q qs ih =>
    intro b u H C
    cases q with
    | declare c =>
      obtain ⟨hb, C⟩ := C
      have hu : u c = none := by
        have := H c
        rw [hb] at this
        cases hu : u c with
        | none => rfl
        | some r => rw [hu] at this; exact this.elim
      refine next (by simp only [specStep, hu]; rfl) (ih (upd H c ?_) C)
      exact ⟨rfl, rfl⟩
    | init c sr =>
      obtain ⟨k, hb, hf, h1, h2, C⟩ := C
      obtain ⟨r, hu, K⟩ := get H hb
      obtain ⟨D, hD, R⟩ := newDsp_runs hf h1 h2
      refine next (by simp only [specStep, hu, Option.bind_some, hD, Option.map_some]; rfl) (ih (upd H c ?_) C)
      exact ⟨K.1, rfl, R⟩
    | process c xs =>
      obtain ⟨k, hb, C⟩ := C
      obtain ⟨r, hu, K⟩ := get H hb
      cases hr : r.dsp with
      | none =>
        rcases C with ⟨-, C⟩ | ⟨hs, -⟩
        · exact next (by simp only [specStep, hu, Option.bind_some, hr]; rfl) (ih H C)
        · have := K.2
          rw [hr] at this
          dsimp only at this
          rw [hs] at this; cases this
      | some D =>
        have K2 := K.2
        rw [hr] at K2
        dsimp only at K2
        rcases C with ⟨hs, -⟩ | ⟨-, hw, hn, C⟩
        · rw [hs] at K2; cases K2.1
        · obtain ⟨S, ys, e, R⟩ := compute_runs K2.2 xs hn
          have hg : ¬ (2 ^ 31 ≤ xs.length ∨ (xs = [] ∧ r.warm = false)) := by
            rintro (h | ⟨h3, h4⟩)
            · omega
            · rw [K.1, hw h3] at h4; cases h4
          refine next (by simp only [specStep, hu, Option.bind_some, hr, if_neg hg, e, Option.map_some]; rfl) (ih (upd H c ?_) C)
          exact ⟨rfl, rfl, R⟩
    | set c w x =>
      obtain ⟨⟨k, hb⟩, hx, C⟩ := C
      obtain ⟨r, hu, K⟩ := get H hb
      refine next (by simp only [specStep, hu, Option.map_some]; rfl) (ih ?_ C)
      have := upd H c (k := some k) (r := some { r with dsp := r.dsp.map fun D => { D with params := setParam w x D.params } }) ?_
      · rwa [← hb, Function.update_eq_self] at this
      · refine ⟨K.1, ?_⟩
        have K2 := K.2
        cases hr : r.dsp with
        | none => rw [hr] at K2; exact K2
        | some D =>
          rw [hr] at K2
          exact ⟨K2.1, K2.2.rate, setParam_inRange w x hx K2.2.params, K2.2.state⟩
    | reset c =>
      obtain ⟨k, hb, C⟩ := C
      obtain ⟨r, hu, K⟩ := get H hb
      refine next (by simp only [specStep, hu, Option.map_some]; rfl) (ih (upd H c ?_) C)
      refine ⟨K.1, ?_⟩
      have K2 := K.2
      cases hr : r.dsp with
      | none => rw [hr] at K2; exact K2
      | some D =>
        rw [hr] at K2
        obtain ⟨sr, h1, h2, hk⟩ := K2.2.rate
        exact ⟨K2.1, ⟨sr, h1, h2, hk⟩, K2.2.params, _, clear_rel, clear_calm ideal h1 h2 hk, rfl⟩
    | copy c d => exact C.elim
    | destroy c =>
      obtain ⟨⟨k, hb⟩, C⟩ := C
      obtain ⟨r, hu, -⟩ := get H hb
      exact next (by simp only [specStep, hu, Option.map_some]; rfl) (ih (upd H c (k := none) (r := none) trivial) C)

/-- **C58.** A program that keeps the contract never reaches undefined behaviour in the reverb: neither in the wrapper's memory
management nor in the DSP's conversions, indices and counter; whatever the samples are, NaN and infinities included. If it destroys every
reverb it declared, nothing is leaked.

Each clause of the contract is needed: `C49_copy`, `C49_empty_block`, `C58_init_rate`, `C58_low_rate`,
`C58_nan_program`, `C58_counter_overflow`. -/
theorem C58_program (qs : List (Call F32)) (h : Contract (fun _ => none) qs) :
    ∃ w outs, World.start.run qs = some (w, outs) ∧ ((∀ c, w.obj c = none) → ∀ a, w.heap.cell a = none) := by
  obtain ⟨u, outs, e⟩ := contract_run qs (b := fun _ => none) (u := fun _ => none) (fun _ => trivial) h
  obtain ⟨w, ew, h1, h2⟩ := C49_refines_partial qs u outs e
  refine ⟨w, outs, ew, fun hn => h2 fun c => ?_⟩
  have := h1 c
  rw [hn c] at this
  exact Option.not_isSome_iff_eq_none.1 (by rw [← this]; simp)

example : Contract (fun _ => none) [.declare 0, .process 0 [⟨.nan, lit 1⟩], .init 0 (lit 44100), .declare 1, .set 0 .decay (.inf false),
    .process 0 [⟨.nan, lit 1⟩, ⟨lit 0, lit 2⟩], .process 0 [], .init 0 (lit 96000), .init 1 (lit 96000), .process 0 [], .reset 0,
    .destroy 0, .destroy 1] := by
  simp only [Contract]
  refine ⟨trivial, ⟨false, false, 0⟩, by simp, Or.inl ⟨rfl, ⟨false, false, 0⟩, by simp, by decide +kernel, by decide +kernel, by decide +kernel,
    by simp, ⟨⟨true, false, 0⟩, by simp⟩, by simp, ⟨true, false, 0⟩, by simp, Or.inr ⟨rfl, by simp, by simp,
    ⟨true, true, 2⟩, by simp, Or.inr ⟨rfl, by simp, by simp, ⟨true, true, 2⟩, by simp, by decide +kernel, by decide +kernel, by decide +kernel,
    ⟨false, false, 0⟩, by simp, by decide +kernel, by decide +kernel, by decide +kernel, ⟨true, true, 0⟩, by simp, Or.inr ⟨rfl, by simp, by simp,
    ⟨true, true, 0⟩, by simp, ⟨⟨true, true, 0⟩, by simp⟩, ⟨⟨true, false, 0⟩, by simp⟩, trivial⟩⟩⟩⟩⟩

end Verif.FVerb
