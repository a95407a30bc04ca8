import Verif.Model.Examples
import Verif.Props.Buffer

/-!
# C72: loading a sound file into a buffer (jack_playback_example.cpp, jack_xplay.cpp)
-/

set_option linter.unusedSectionVars false

namespace Verif
variable {α : Type} [Arith α]

open BufferAllocator

/-- Frame `i` of a mono or stereo file: its first and its last channel. -/
def SndFile.frame (f : SndFile α) (i : ℕ) : Option (Stereo α) :=
  f.data[i * f.channels]?.bind fun l => f.data[i * f.channels + (f.channels - 1)]?.map fun r => ⟨l, r⟩

/-- Reading stores the samples one after the other and nothing else. -/
theorem SndFile.read_spec (f : SndFile α) {m : Mem α} {o k items : ℕ} (hroom : k + min items f.data.length ≤ (m o).length) :
    ∃ m', f.read (.at o k) items m = some (m', min items f.data.length) ∧
      ∀ o2 j, (m' o2)[j]? = if o2 = o ∧ k ≤ j ∧ j < k + min items f.data.length then f.data[j - k]? else (m o2)[j]? := by
  obtain ⟨n, hn⟩ : ∃ n, n = min items f.data.length := ⟨_, rfl⟩
  have hnl : n ≤ f.data.length := by omega
  rw [← hn] at hroom ⊢
  have := forLoop_inv (body := fun i m => f.data[i]?.bind fun x => Mem.store m (.at o k) i x)
    (I := fun i m' => ∀ o2 j, (m' o2)[j]? = if o2 = o ∧ k ≤ j ∧ j < k + i then f.data[j - k]? else (m o2)[j]?) n 0 m ?_ ?_
  · rw [Nat.zero_add] at this
    obtain ⟨m', h1, h2⟩ := this
    exact ⟨m', by rw [SndFile.read, ← hn, h1]; rfl, h2⟩
  · intro i m1 _ hi hI
    simp only [Nat.zero_add] at hi
    have hlen1 : k + i < (m1 o).length := by
      by_contra hge
      have h1 := List.getElem?_eq_none (l := m1 o) (i := k + i) (by omega)
      rw [hI, if_neg (by omega)] at h1
      have := List.getElem?_eq_none_iff.mp h1
      omega
    have hld : f.data[i]? = some (f.data[i]'(by omega)) := by simp
    refine ⟨Function.update m1 o ((m1 o).set (k + i) (f.data[i]'(by omega))), ?_, ?_⟩
    · simp only [hld, Option.bind_some, Mem.store, if_pos hlen1]
    · intro o2 j
      by_cases ho : o2 = o
      · subst ho
        rw [Function.update_self, List.getElem?_set]
        by_cases hj : k + i = j
        · subst hj
          rw [if_pos rfl, if_pos hlen1, if_pos ⟨rfl, by omega, by omega⟩, show k + i - k = i by omega, hld]
        · rw [if_neg hj, hI]
          by_cases hj2 : k ≤ j ∧ j < k + i
          · rw [if_pos ⟨rfl, hj2⟩, if_pos ⟨rfl, by omega, by omega⟩]
          · rw [if_neg (by tauto), if_neg (by rintro ⟨_, h1, h2⟩; omega)]
      · rw [Function.update_of_ne ho, hI, if_neg (by tauto), if_neg (by tauto)]
  · intro o2 j
    rw [if_neg (by omega)]

/-- Storing keeps the size of every object. -/
theorem Mem.store_length {m m' : Mem α} {p : Ptr} {i : ℕ} {x : α} (h : m.store p i x = some m') (o : ℕ) :
    (m' o).length = (m o).length := by
  cases p with
  | null => simp [Mem.store] at h
  | «at» o' k =>
    simp only [Mem.store] at h
    split_ifs at h
    cases h
    by_cases ho : o = o'
    · subst ho; simp
    · rw [Function.update_of_ne ho]

/-- Reading more than there is room for is undefined. -/
theorem SndFile.read_overrun (f : SndFile α) {m : Mem α} {o k items : ℕ} (hk : k ≤ (m o).length)
    (hroom : (m o).length < k + min items f.data.length) : f.read (.at o k) items m = none := by
  have : ∀ (n lo : ℕ) (m : Mem α), k + lo ≤ (m o).length → (m o).length < k + (lo + n) →
      forLoop (fun i m => f.data[i]?.bind fun x => Mem.store m (.at o k) i x) lo n m = none := by
    intro n
    induction n with
    | zero => intro lo m h1 h2; omega
    | succ n ih =>
      intro lo m h1 h2
      rw [forLoop]
      rcases hb : f.data[lo]?.bind fun x => Mem.store m (.at o k) lo x with _ | m1
      · rfl
      · rw [Option.bind_some]
        obtain ⟨x, _, hs⟩ := Option.bind_eq_some_iff.mp hb
        have hl := Mem.store_length hs o
        have : k + lo < (m o).length := by
          simp only [Mem.store] at hs
          split_ifs at hs with h
          exact h
        exact ih (lo + 1) m1 (by omega) (by omega)
  rw [SndFile.read]
  rw [this _ 0 m (by omega) (by omega)]; rfl

/-- What a load does when the allocation succeeds with a buffer at `p`, for any number of channels. -/
theorem SndFile.load_valid {P M : ℕ} (f : SndFile α) {a a' : Alloc α} {m : Mem α} {b : Buffer α}
    (ha : allocate P M f.frames (if f.channels ≥ 2 then 2 else 1) a = some (a', b)) (hv : b.isValid = true) (hc : 0 < f.channels) :
    f.load P M a m = (f.read b.data (f.frames * f.channels) m).map fun x => (a', x.1, some b) := by
  rw [SndFile.load]
  simp only [ha, Option.bind_some, hv, Bool.not_true, Bool.false_eq_true, if_false]
  by_cases h2 : f.channels ≥ 2
  · simp [if_pos h2]
  · have h1 : f.channels = 1 := by omega
    simp [h1]

/-- **C72, partial.** Loading a mono or stereo file of at least one frame into an allocator in any reachable state never runs into undefined
behaviour. It fails exactly if no free run of the pool can take the samples, and then changes nothing. Otherwise the buffer has the file's
length and channels; every frame the file delivers is read back from the buffer as it is in the file; if the file ends early (fewer
samples than announced), the remaining frames are what was in the pool before; and every buffer that was live before sounds as before.
Missing: files with more than two channels, for which the claim is false (`C72_surround_overruns`, `C72_surround_undefined`). -/
theorem SndFile.C72_load_partial {P M : ℕ} (hS : Sizes P M) {w0 w : World α} (hF : Fresh P M w0) {ops : List (Op α)}
    (hno : ∀ o ∈ ops, o.NoWrap) (hrun : run P M ops w0 = some w) (hi : w.a.inited = true) (f : SndFile α)
    (hc : f.channels = 1 ∨ f.channels = 2) (hn : 0 < f.frames) (hfit : f.frames * f.channels < 2 ^ 64)
    (hlen : f.data.length ≤ f.frames * f.channels) :
    ∃ a' m' r, f.load P M w.a w.mem = some (a', m', r) ∧
      (r.isSome ↔ ∃ p, Feasible P w (f.frames * f.channels) p) ∧
      (r = none → a' = w.a ∧ m' = w.mem) ∧
      ∀ b, r = some b → b.isValid = true ∧ b.numSamples = f.frames ∧ b.channels = f.channels ∧ b.sampleRate = w.a.rate ∧
        (∀ i, (i + 1) * f.channels ≤ f.data.length → b.getStereoSample m' i = f.frame i ∧ (f.frame i).isSome) ∧
        (∀ i, f.data.length ≤ i * f.channels → b.getStereoSample m' i = b.getStereoSample w.mem i) ∧
        (∀ x ∈ w.live, ∀ i, x.1.getStereoSample m' i = x.1.getStereoSample w.mem i ∧ x.1.getSample m' i = x.1.getSample w.mem i) := by
  have hch : (if f.channels ≥ 2 then 2 else 1) = f.channels := by rcases hc with h | h <;> simp [h]
  obtain ⟨a', b, ha, hiff, hfail⟩ := C04_alloc_iff_gap hS hF hno hrun hi hn hc hfit
  cases hv : b.isValid with
  | false =>
    refine ⟨a', w.mem, none, ?_, ?_, fun _ => ⟨hfail hv, rfl⟩, fun b hb => by simp at hb⟩
    · rw [SndFile.load]
      simp only [hch, ha, Option.bind_some, hv, Bool.not_false, if_true]
    · rw [← hiff, hv]; simp
  | true =>
    obtain ⟨p, hd, hbn, hbc, hbr, ⟨hfe, _⟩⟩ := C05_first_fit_lowest hS hF hno hrun hfit ha hv
    have hinv := reachL hS hF hno hrun
    have hpool := hinv.pool
    have hP := hS.pool_bytes
    obtain ⟨hf1, hf2⟩ := hfe
    have hmin : min (f.frames * f.channels) f.data.length = f.data.length := by omega
    obtain ⟨m', hm1, hm2⟩ := f.read_spec (m := w.mem) (o := w.a.obj) (k := p) (items := f.frames * f.channels) (by omega)
    rw [hmin] at hm2
    have hback : b.Backed w.mem w.a.obj p := ⟨hd, by rw [hbc]; exact hc, by rw [hbn, hbc]; omega, by omega⟩
    refine ⟨a', m', some b, ?_, ?_, fun h => by simp at h, ?_⟩
    · rw [f.load_valid (by rw [hch]; exact ha) hv (by omega), hd, hm1]; rfl
    · rw [← hiff, hv]; simp
    · rintro _ ⟨⟩
      refine ⟨hv, hbn, hbc, hbr, ?_, ?_, ?_⟩
      · intro i hil
        have hin : i < f.frames := by rcases hc with h | h <;> rw [h] at hil hlen <;> omega
        have hcn : ¬ (b.data = .null ∨ i ≥ b.numSamples) := by rw [hd, hbn]; simp; omega
        rw [Buffer.getStereoSample, if_neg hcn, hd, SndFile.frame, hbc]
        rcases hc with h | h
        · rw [h] at hil ⊢
          rw [if_pos rfl]
          simp only [Mem.load, Nat.mul_one, Nat.sub_self, Nat.add_zero]
          rw [hm2, if_pos ⟨rfl, by omega, by omega⟩, show p + i - p = i by omega,
            List.getElem?_eq_getElem (show i < f.data.length by omega)]
          exact ⟨rfl, rfl⟩
        · rw [h] at hil hlen hf1 hfit ⊢
          rw [if_neg (by omega)]
          have e0 : szMul i 2 = i * 2 := szMul_eq (by omega)
          have e00 : szAdd (i * 2) 1 = i * 2 + 1 := szAdd_eq (by omega)
          simp only [Mem.load, e0, e00]
          rw [hm2, hm2, if_pos ⟨rfl, by omega, by omega⟩, if_pos ⟨rfl, by omega, by omega⟩, show p + i * 2 - p = i * 2 by omega,
            show p + (i * 2 + 1) - p = i * 2 + 1 by omega, List.getElem?_eq_getElem (show i * 2 < f.data.length by omega),
            List.getElem?_eq_getElem (show i * 2 + (2 - 1) < f.data.length by omega)]
          exact ⟨rfl, rfl⟩
      · intro i hil
        by_cases hcn : b.data = .null ∨ i ≥ b.numSamples
        · rw [Buffer.getStereoSample, Buffer.getStereoSample, if_pos hcn, if_pos hcn]
        have hin : i < f.frames := by rw [hd, hbn] at hcn; simp at hcn; omega
        rw [Buffer.getStereoSample, Buffer.getStereoSample, if_neg hcn, if_neg hcn, hd, hbc]
        rcases hc with h | h
        · rw [h] at hil ⊢
          rw [if_pos rfl, if_pos rfl]
          simp only [Mem.load]
          rw [hm2, if_neg (by omega)]
        · rw [h] at hil hlen hf1 hfit ⊢
          rw [if_neg (by omega), if_neg (by omega)]
          have e0 : szMul i 2 = i * 2 := szMul_eq (by omega)
          have e00 : szAdd (i * 2) 1 = i * 2 + 1 := szAdd_eq (by omega)
          simp only [Mem.load, e0, e00]
          rw [hm2, hm2, if_neg (by omega), if_neg (by omega)]
      · intro x hx i
        obtain ⟨k, h1, h2, h3⟩ := (C01_live_disjoint_partial hS hF hno hrun).1 x hx
        have hxc : x.1.channels = 1 ∨ x.1.channels = 2 := by
          have := (hinv.grant x hx).1
          simp only [Buffer.isValid, Bool.and_eq_true, Bool.or_eq_true, beq_iff_eq] at this
          exact this.2
        have hb : x.1.Backed w.mem w.a.obj k := ⟨h1, hxc, by omega, by omega⟩
        have := (Buffer.C10_accessors_safe hb i).2.2.2 m' (fun j hj1 hj2 => by
          rw [hm2, if_neg]
          rintro ⟨_, h4, h5⟩
          exact hf2 j h4 (by omega) x hx ⟨k, h1, hj1, by omega⟩)
        exact ⟨this.2, this.1⟩

/-- What the load of a file with three or more channels does: the buffer has room for two channels, all channels are stored. -/
theorem SndFile.load_surround {P M : ℕ} (hS : Sizes P M) {w0 w : World α} (hF : Fresh P M w0) {ops : List (Op α)}
    (hno : ∀ o ∈ ops, o.NoWrap) (hrun : run P M ops w0 = some w) (hi : w.a.inited = true) (f : SndFile α)
    (hc : 3 ≤ f.channels) (hn : 0 < f.frames) (hfit : f.frames * 2 < 2 ^ 64) {p0 : ℕ} (hfe : Feasible P w (f.frames * 2) p0) :
    ∃ a' b p, IsLeast {p | Feasible P w (f.frames * 2) p} p ∧ b.data = .at w.a.obj p ∧ b.numSamples = f.frames ∧ b.channels = 2 ∧
      f.load P M w.a w.mem = (f.read (.at w.a.obj p) (f.frames * f.channels) w.mem).map fun x => (a', x.1, some b) := by
  have hch : (if f.channels ≥ 2 then 2 else 1) = 2 := by rw [if_pos (by omega)]
  obtain ⟨a', b, ha, hiff, hfail⟩ := C04_alloc_iff_gap hS hF hno hrun hi hn (Or.inr rfl) hfit
  have hv := hiff.mpr ⟨p0, hfe⟩
  obtain ⟨p, hd, hbn, hbc, hbr, hp⟩ := C05_first_fit_lowest hS hF hno hrun hfit ha hv
  exact ⟨a', b, p, hp, hd, hbn, hbc, by rw [f.load_valid (by rw [hch]; exact ha) hv (by omega), hd]⟩

/-- **C72, negation: a file with three or more channels is stored beyond its buffer.** In every reachable state in which two channels find
room: if the pool is large enough for what is read, the floats of the pool behind the buffer - `frames * (channels - 2)` of them, whether
free or part of other buffers - are overwritten with samples of the file. And the buffer holds the wrong material: frame `i` is made of
the samples `2 i` and `2 i + 1` of the interleaved file. -/
theorem SndFile.C72_surround_overruns {P M : ℕ} (hS : Sizes P M) {w0 w : World α} (hF : Fresh P M w0) {ops : List (Op α)}
    (hno : ∀ o ∈ ops, o.NoWrap) (hrun : run P M ops w0 = some w) (hi : w.a.inited = true) (f : SndFile α)
    (hc : 3 ≤ f.channels) (hn : 0 < f.frames) (hfit : f.frames * 2 < 2 ^ 64) (hlen : f.data.length = f.frames * f.channels) {p : ℕ}
    (hp : IsLeast {p | Feasible P w (f.frames * 2) p} p) (hroom : p + f.frames * f.channels ≤ P) :
    ∃ a' m' b, f.load P M w.a w.mem = some (a', m', some b) ∧ b.numSamples = f.frames ∧ b.channels = 2 ∧
      (∀ j, p + f.frames * 2 ≤ j → j < p + f.frames * f.channels → ¬ Occupies w.a.obj b j ∧ (m' w.a.obj)[j]? = f.data[j - p]?) ∧
      ∀ i < f.frames, b.getStereoSample m' i = f.data[2 * i]?.bind fun l => f.data[2 * i + 1]?.map fun r => ⟨l, r⟩ := by
  have hpool := (reachL hS hF hno hrun).pool
  obtain ⟨a', b, q, hq, hd, hbn, hbc, hload⟩ := f.load_surround hS hF hno hrun hi hc hn hfit hp.1
  obtain rfl := hq.unique hp
  have hmin : min (f.frames * f.channels) f.data.length = f.frames * f.channels := by omega
  have h23 : f.frames * 2 ≤ f.frames * f.channels := Nat.mul_le_mul_left _ (by omega)
  obtain ⟨m', hm1, hm2⟩ := f.read_spec (m := w.mem) (o := w.a.obj) (k := q) (items := f.frames * f.channels) (by omega)
  rw [hmin] at hm2
  refine ⟨a', m', b, by rw [hload, hm1]; rfl, hbn, hbc, ?_, ?_⟩
  · intro j h1 h2
    refine ⟨?_, by rw [hm2, if_pos ⟨rfl, by omega, h2⟩]⟩
    rintro ⟨k, h3, h4, h5⟩
    rw [hd] at h3
    cases h3
    rw [hbn, hbc] at h5
    omega
  · intro i hin
    have e0 : szMul i 2 = 2 * i := by rw [szMul_eq (by omega)]; omega
    have e00 : szAdd (2 * i) 1 = 2 * i + 1 := szAdd_eq (by omega)
    rw [Buffer.getStereoSample, if_neg (by rw [hd, hbn]; simp; omega), if_neg (by omega), hd]
    simp only [Mem.load, e0, e00]
    rw [hm2, hm2, if_pos ⟨rfl, by omega, by omega⟩, if_pos ⟨rfl, by omega, by omega⟩, show q + 2 * i - q = 2 * i by omega,
      show q + (2 * i + 1) - q = 2 * i + 1 by omega]

/-- **C72, negation: undefined behaviour.** If the pool takes two channels of the file but not all of them, the load writes beyond the pool. -/
theorem SndFile.C72_surround_undefined {P M : ℕ} (hS : Sizes P M) {w0 w : World α} (hF : Fresh P M w0) {ops : List (Op α)}
    (hno : ∀ o ∈ ops, o.NoWrap) (hrun : run P M ops w0 = some w) (hi : w.a.inited = true) (f : SndFile α)
    (hc : 3 ≤ f.channels) (hn : 0 < f.frames) (hfit : f.frames * 2 < 2 ^ 64) (hlen : f.data.length = f.frames * f.channels) {p : ℕ}
    (hp : IsLeast {p | Feasible P w (f.frames * 2) p} p) (hroom : P < p + f.frames * f.channels) :
    f.load P M w.a w.mem = none := by
  have hpool := (reachL hS hF hno hrun).pool
  obtain ⟨a', b, q, hq, hd, hbn, hbc, hload⟩ := f.load_surround hS hF hno hrun hi hc hn hfit hp.1
  obtain rfl := hq.unique hp
  have := hp.1.1
  rw [hload, f.read_overrun (by omega) (by omega)]; rfl

/-- **C72, the rate of the file.** `jack_xplay` additionally notes the file's rate in the buffer (the player needs it for the pitch); the
memory and the buffer's samples are those of the other loader. -/
theorem SndFile.C72_loadX {P M : ℕ} (f : SndFile α) (a : Alloc α) (m : Mem α) :
    (f.loadX P M a m).map (fun r => (r.2.1, r.2.2.map fun b => (b.data, b.channels, b.numSamples))) =
      (f.load P M a m).map (fun r => (r.2.1, r.2.2.map fun b => (b.data, b.channels, b.numSamples))) ∧
    ∀ a' m' b, f.loadX P M a m = some (a', m', some b) → b.sampleRate = Arith.ofInt f.samplerate := by
  rw [SndFile.loadX]
  rcases f.load P M a m with _ | ⟨a1, m1, _ | b1⟩
  · simp
  · simp
  · refine ⟨rfl, ?_⟩
    rintro a' m' b ⟨⟩
    rfl

/-! ## Non-trivial instances: a pool of 10 floats -/

/-- a stereo file of three frames -/
def exStereoFile : SndFile F32 := ⟨44100, 2, 3, [lit 1, lit 2, lit 3, lit 4, lit 5, lit 6]⟩

/-- a file of two frames with three channels -/
def exSurroundFile : SndFile F32 := ⟨44100, 3, 2, [lit 1, lit 2, lit 3, lit 4, lit 5, lit 6]⟩

/-- The stereo file beside a live mono buffer of three samples: the pool afterwards, and frame 1. -/
example : ((run 10 3 [.init (lit 48000), .allocate 3 1] exWorld).bind fun w => (exStereoFile.load 10 3 w.a w.mem).map fun r => r.2.1 0) =
    some [lit 0, lit 0, lit 0, lit 1, lit 2, lit 3, lit 4, lit 5, lit 6, lit 0] := by decide +kernel
example : ((run 10 3 [.init (lit 48000), .allocate 3 1] exWorld).bind fun w => (exStereoFile.load 10 3 w.a w.mem).bind fun r =>
    r.2.2.bind fun b => b.getStereoSample r.2.1 1) = some ⟨lit 3, lit 4⟩ := by decide +kernel

/-- The three-channel file is put before a live mono buffer of one sample and destroys it. -/
example : ((run 10 3 [.init (lit 48000), .allocate 4 1, .allocate 1 1, .release ⟨.at 0 0, 1, lit 0, 4⟩] exWorld).bind fun w =>
    (exSurroundFile.load 10 3 w.a w.mem).map fun r => (w.live.map fun x => (x.1.data, x.1.getSample w.mem 0, x.1.getSample r.2.1 0))) =
    some [(.at 0 4, some (lit 0), some (lit 5))] := by decide +kernel

/-- In a pool of exactly two channels the load is undefined. -/
example : (run 4 3 [.init (lit 48000)] { exWorld with mem := fun _ => List.replicate 4 (lit 7) }).map (fun w =>
    (exSurroundFile.load 4 3 w.a w.mem).isNone) = some true := by decide +kernel

end Verif
