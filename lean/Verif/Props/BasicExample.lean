import Verif.Model.BasicExample
import Verif.Props.AudioLoop
import Verif.Props.ExampleVoice
import Verif.Props.EnvelopeTimes
import Verif.Props.Noise

/-!
# C94: what examples/basic_example.cpp prints
-/

set_option linter.unusedSectionVars false

namespace Verif.BasicExample
open FP

section generic
variable {α : Type} [Arith α] [Libm α]

/-! ### Example 4: one voice, released half way -/

/-- The frames of `n` samples of a voice. -/
def frames (n : ℕ) (v : ExampleVoice.Voice α) : List (Stereo α) := (ticks ExampleVoice.tick n v).2

/-- The voice after `n` samples. -/
def after (n : ℕ) (v : ExampleVoice.Voice α) : ExampleVoice.Voice α := tickState ExampleVoice.tick n v

theorem process_eq (v : ExampleVoice.Voice α) (B : ℕ) :
    ExampleVoice.process v (List.replicate B Stereo.zero) = (after B v, frames B v) := by
  rw [(ExampleVoice.C42_blocks v _ []).1, List.length_replicate]
  exact Prod.ext (ticks_state _ _ _) rfl

theorem frames_add (n m : ℕ) (v : ExampleVoice.Voice α) : frames (n + m) v = frames n v ++ frames m (after n v) := by
  unfold frames after
  rw [ticks_add, ← ticks_state]

theorem after_add (n m : ℕ) (v : ExampleVoice.Voice α) : after (n + m) v = after m (after n v) := tickState_add _ _ _ _

/-- Blocks that are not followed by the release. -/
theorem fold_plain (B nb : ℕ) (bs : List ℕ) (h : ∀ b ∈ bs, b ≠ nb / 2) (s : Solo α) :
    bs.foldl (soloStep B nb) s =
      { voice := after (bs.length * B) s.voice
        maxValL := (frames (bs.length * B) s.voice).foldl (fun m x => peakStep m x.left) s.maxValL
        maxValR := (frames (bs.length * B) s.voice).foldl (fun m x => peakStep m x.right) s.maxValR } := by
  induction bs generalizing s with
  | nil => simp [after, frames, ticks, tickState]
  | cons b bs ih =>
    rw [List.foldl_cons, ih (fun b hb => h b (List.mem_cons_of_mem _ hb))]
    have e : (b :: bs).length * B = B + bs.length * B := by rw [List.length_cons]; ring
    rw [e, frames_add, after_add]
    simp only [soloStep, process_eq, if_neg (h b List.mem_cons_self), List.foldl_append]

/-- **C94, example 4** (any arithmetic, any block size, any number of blocks but zero): the voice plays the blocks `0 … numBlocks / 2` held
and the rest released, and the peaks are taken over all frames of both parts. -/
theorem C94_solo (B nb : ℕ) (h : 0 < nb) :
    let held := (nb / 2 + 1) * B
    let rest := (nb - (nb / 2 + 1)) * B
    let let_go : ExampleVoice.Voice α := ExampleVoice.release (after held soloVoice)
    let all := frames held soloVoice ++ frames rest let_go
    solo B nb = { voice := after rest let_go
                  maxValL := all.foldl (fun m x => peakStep m x.left) (lit 0)
                  maxValR := all.foldl (fun m x => peakStep m x.right) (lit 0) } := by
  intro held rest let_go all
  have e : List.range nb = List.range (nb / 2) ++ [nb / 2] ++ (List.range (nb - (nb / 2 + 1))).map (fun i => nb / 2 + 1 + i) := by
    have h1 : nb = nb / 2 + 1 + (nb - (nb / 2 + 1)) := by omega
    conv_lhs => rw [h1, List.range_add, List.range_succ]
  unfold solo
  rw [e, List.foldl_append, List.foldl_append, fold_plain (bs := List.range (nb / 2)) (h := by intro b hb; rw [List.mem_range] at hb; omega)]
  simp only [List.foldl_cons, List.foldl_nil]
  rw [fold_plain (h := by intro b hb; rw [List.mem_map] at hb; obtain ⟨i, -, rfl⟩ := hb; omega)]
  simp only [List.length_map, List.length_range, soloStep, process_eq, if_true]
  have e2 : held = nb / 2 * B + B := by show (nb / 2 + 1) * B = _; ring
  have e3 : after held (soloVoice : ExampleVoice.Voice α) = after B (after (nb / 2 * B) soloVoice) := by rw [e2, after_add]
  have e4 : frames held (soloVoice : ExampleVoice.Voice α) = frames (nb / 2 * B) soloVoice ++ frames B (after (nb / 2 * B) soloVoice) := by
    rw [e2, frames_add]
  simp only [all, let_go, rest, e3, e4, List.foldl_append]

/-! ### Example 5: the double buffers -/

/-- The block a pointer does not designate. -/
def other : AudioLoop.Side → AudioLoop.Side
  | .A => .B
  | .B => .A

theorem write_spec (p : AudioLoop.Side) (i : ℕ) (x : α) (l : AudioLoop.Loop α) (h : i < (l.block p).length) :
    ∃ l', AudioLoop.write p i x l = some l' ∧ l'.block p = (l.block p).set i x ∧ l'.block (other p) = l.block (other p) ∧
      l'.currentBuffer = l.currentBuffer := by
  unfold AudioLoop.write
  rw [if_pos h]
  cases p <;> exact ⟨_, rfl, rfl, rfl, rfl⟩

theorem storeFrames_spec (pL pR : AudioLoop.Side) (xs : List (Stereo α)) :
    ∀ (i : ℕ) (l r : AudioLoop.Loop α), (l.block pL).length = i + xs.length → (r.block pR).length = i + xs.length →
    ∃ l' r', storeFrames pL pR i xs l r = some (l', r') ∧
      l'.block pL = (l.block pL).take i ++ xs.map Stereo.left ∧ r'.block pR = (r.block pR).take i ++ xs.map Stereo.right ∧
      l'.block (other pL) = l.block (other pL) ∧ r'.block (other pR) = r.block (other pR) ∧
      l'.currentBuffer = l.currentBuffer ∧ r'.currentBuffer = r.currentBuffer := by
  induction xs with
  | nil =>
    intro i l r hl hr
    simp only [List.length_nil, Nat.add_zero] at hl hr
    refine ⟨l, r, rfl, ?_, ?_, rfl, rfl, rfl, rfl⟩
    · rw [← hl, List.take_length]; simp
    · rw [← hr, List.take_length]; simp
  | cons x xs ih =>
    intro i l r hl hr
    rw [List.length_cons] at hl hr
    obtain ⟨l1, a1, a2, a3, a4⟩ := write_spec pL i x.left l (by omega)
    obtain ⟨r1, b1, b2, b3, b4⟩ := write_spec pR i x.right r (by omega)
    obtain ⟨l', r', c1, c2, c3, c4, c5, c6, c7⟩ := ih (i + 1) l1 r1 (by rw [a2, List.length_set]; omega) (by rw [b2, List.length_set]; omega)
    have tk : ∀ (bs : List α) (y : α), i < bs.length → (bs.set i y).take (i + 1) = bs.take i ++ [y] := by
      intro bs y hi
      rw [List.take_add_one, List.take_set_of_le le_rfl]
      simp [hi]
    refine ⟨l', r', ?_, ?_, ?_, by rw [c4, a3], by rw [c5, b3], by rw [c6, a4], by rw [c7, b4]⟩
    · simp only [storeFrames, a1, b1, Option.bind_eq_bind, Option.bind_some, c1]
    · rw [c2, a2, tk _ _ (by omega)]; simp
    · rw [c3, b2, tk _ _ (by omega)]; simp

/-- What a listener and the voice see of one loop. -/
def Shows (B : ℕ) (l : AudioLoop.Loop α) (published draft : List α) : Prop :=
  l.block (AudioLoop.getOutputBuffer l) = published ∧ l.block (AudioLoop.getProcessingBuffer l) = draft ∧
    published.length = B ∧ draft.length = B

/-- One pass through one loop object. -/
theorem pass {B : ℕ} {l l' : AudioLoop.Loop α} {pub dr xs : List α} (h : Shows B l pub dr) (hx : xs.length = B)
    (h1 : l'.block (AudioLoop.getProcessingBuffer l) = xs)
    (h2 : l'.block (other (AudioLoop.getProcessingBuffer l)) =
      (AudioLoop.clearProcessingBuffer B l).block (other (AudioLoop.getProcessingBuffer l)))
    (h3 : l'.currentBuffer = (AudioLoop.clearProcessingBuffer B l).currentBuffer) :
    Shows B (AudioLoop.swapBuffers l') xs pub := by
  obtain ⟨a, b, c, d⟩ := h
  by_cases hc : l.currentBuffer = 0
  · simp only [AudioLoop.getOutputBuffer, AudioLoop.getProcessingBuffer, AudioLoop.clearProcessingBuffer, hc, if_true, other] at a h1 h2 h3
    simp only [Shows, AudioLoop.getOutputBuffer, AudioLoop.getProcessingBuffer, AudioLoop.swapBuffers, h3, if_true, one_ne_zero, if_false]
    exact ⟨h1, h2.trans a, hx, c⟩
  · simp only [AudioLoop.getOutputBuffer, AudioLoop.getProcessingBuffer, AudioLoop.clearProcessingBuffer, if_neg hc, other] at a h1 h2 h3
    simp only [Shows, AudioLoop.getOutputBuffer, AudioLoop.getProcessingBuffer, AudioLoop.swapBuffers, h3, if_neg hc, if_true]
    exact ⟨h1, h2.trans a, hx, c⟩

/-- The voice of example 5 as the example is meant: 440 Hz at 48 kHz, triggered. -/
def duoVoice : ExampleVoice.Voice α := ExampleVoice.trigger (ExampleVoice.setFrequency (lit 440) (ExampleVoice.init (lit 48000)))

/-- **C94, example 5**: its voice is sounding, at the pitch asked for. -/
theorem C94_duo_sounds : ExampleVoice.isActive (duoVoice : ExampleVoice.Voice α) = true ∧ (duoVoice : ExampleVoice.Voice α).baseFrequency = lit 440 ∧
    (duoVoice : ExampleVoice.Voice α).env.state = .attack := ⟨rfl, rfl, rfl⟩

/-- Block `k` of the voice of example 5 (zeroes before the first one). -/
def duoBlock (B : ℕ) : ℕ → List (Stereo α)
  | 0 => List.replicate B Stereo.zero
  | k + 1 => frames B (after (k * B) duoVoice)

/-- **C94, example 5** (any arithmetic, any block size, any number of passes): no store leaves a buffer; after `n` passes the two output
buffers hold the left and the right half of the `n`-th block of the voice, the processing buffers still hold the block before it, and the
blocks follow each other without a gap. -/
theorem C94_duo (B n : ℕ) : ∃ s : Duo α, duo B n = some s ∧ s.voice = after (n * B) duoVoice ∧
    s.loopL.block (AudioLoop.getOutputBuffer s.loopL) = (duoBlock B n).map Stereo.left ∧
    s.loopR.block (AudioLoop.getOutputBuffer s.loopR) = (duoBlock B n).map Stereo.right ∧
    s.loopL.block (AudioLoop.getProcessingBuffer s.loopL) = (duoBlock B (n - 1)).map Stereo.left ∧
    s.loopR.block (AudioLoop.getProcessingBuffer s.loopR) = (duoBlock B (n - 1)).map Stereo.right := by
  have hlen : ∀ k, (duoBlock B k : List (Stereo α)).length = B := by
    intro k
    cases k with
    | zero => simp [duoBlock]
    | succ k => simp [duoBlock, frames]
  suffices h : ∃ s : Duo α, duo B n = some s ∧ s.voice = after (n * B) duoVoice ∧
      Shows B s.loopL ((duoBlock B n).map Stereo.left) ((duoBlock B (n - 1)).map Stereo.left) ∧
      Shows B s.loopR ((duoBlock B n).map Stereo.right) ((duoBlock B (n - 1)).map Stereo.right) by
    obtain ⟨s, h1, h2, h3, h4⟩ := h
    exact ⟨s, h1, h2, h3.1, h4.1, h3.2.1, h4.2.1⟩
  induction n with
  | zero =>
    refine ⟨duoInit B, rfl, by rw [Nat.zero_mul]; rfl, ?_, ?_⟩ <;>
      simp [Shows, duoInit, AudioLoop.init, AudioLoop.getOutputBuffer, AudioLoop.getProcessingBuffer, AudioLoop.Loop.block, AudioBuffer.clear,
        duoBlock, Stereo.zero]
  | succ n ih =>
    obtain ⟨s, h1, h2, h3, h4⟩ := ih
    have hclear : ∀ {l : AudioLoop.Loop α} {p d : List α}, Shows B l p d →
        ((AudioLoop.clearProcessingBuffer B l).block (AudioLoop.getProcessingBuffer l)).length = B := by
      intro l p d _
      by_cases hc : l.currentBuffer = 0 <;>
        simp [AudioLoop.clearProcessingBuffer, AudioLoop.getProcessingBuffer, hc, AudioLoop.Loop.block, AudioBuffer.clear]
    have hb : (duoBlock B (n + 1) : List (Stereo α)) = frames B s.voice := by rw [duoBlock, h2]
    have hB : (frames B s.voice).length = B := by rw [← hb]; exact hlen _
    obtain ⟨l', r', c1, c2, c3, c4, c5, c6, c7⟩ := storeFrames_spec (AudioLoop.getProcessingBuffer s.loopL)
      (AudioLoop.getProcessingBuffer s.loopR) (frames B s.voice) 0 (AudioLoop.clearProcessingBuffer B s.loopL)
      (AudioLoop.clearProcessingBuffer B s.loopR) (by rw [hclear h3, hB]; simp) (by rw [hclear h4, hB]; simp)
    simp only [List.take_zero, List.nil_append] at c2 c3
    refine ⟨⟨after B s.voice, AudioLoop.swapBuffers l', AudioLoop.swapBuffers r'⟩, ?_, ?_, ?_, ?_⟩
    · rw [duo, h1, Option.bind_some]
      simp only [duoStep, process_eq, c1, Option.bind_eq_bind, Option.bind_some]
    · show after B s.voice = _
      rw [h2, ← after_add]; congr 1; ring
    · rw [hb]; exact pass h3 (by rw [List.length_map, hB]) c2 c4 c6
    · rw [hb]; exact pass h4 (by rw [List.length_map, hB]) c3 c5 c7

end generic

/-! ### Single precision -/

section float
variable [Libm F32] [LibmSpec]

/-- The peak of finite numbers is their largest magnitude. -/
theorem peak_fold (xs : List F32) : ∀ (m : F32), m.isFin = true → (∀ x ∈ xs, x.isFin = true) →
    let r := xs.foldl peakStep m
    r.isFin = true ∧ m.val ≤ r.val ∧ (∀ x ∈ xs, |x.val| ≤ r.val) ∧ (r = m ∨ ∃ x ∈ xs, r.val = |x.val|) := by
  induction xs with
  | nil => intro m hm _; exact ⟨hm, le_rfl, by simp, Or.inl rfl⟩
  | cons x xs ih =>
    intro m hm hx
    have hxf := hx x List.mem_cons_self
    obtain ⟨f1, f2⟩ := fabs_val hxf
    have key : (peakStep m x).isFin = true ∧ m.val ≤ (peakStep m x).val ∧ |x.val| ≤ (peakStep m x).val ∧
        (peakStep m x = m ∨ (peakStep m x).val = |x.val|) := by
      unfold peakStep
      by_cases h : (Arith.fabs x >. m) = true
      · rw [if_pos h]
        rw [lt_fin hm f1] at h
        have := of_decide_eq_true h
        exact ⟨f1, this.le, by rw [f2], Or.inr f2⟩
      · rw [if_neg h]
        rw [lt_fin hm f1] at h
        have : ¬ m.val < (Arith.fabs x).val := by simpa using h
        rw [f2, not_lt] at this
        exact ⟨hm, le_rfl, this, Or.inl rfl⟩
    obtain ⟨i1, i2, i3, i4⟩ := ih (peakStep m x) key.1 (fun y hy => hx y (List.mem_cons_of_mem _ hy))
    refine ⟨i1, key.2.1.trans i2, ?_, ?_⟩
    · intro y hy
      rcases List.mem_cons.1 hy with rfl | hy
      · exact key.2.2.1.trans i2
      · exact i3 y hy
    · rcases i4 with h | ⟨y, hy, h⟩
      · rcases key.2.2.2 with h' | h'
        · exact Or.inl (h.trans h')
        · refine Or.inr ⟨x, List.mem_cons_self, ?_⟩
          show (xs.foldl peakStep (peakStep m x)).val = _
          rw [h, h']
      · exact Or.inr ⟨y, List.mem_cons_of_mem _ hy, h⟩

/-- All frames of example 4. -/
def soloFrames (B nb : ℕ) : List (Stereo F32) :=
  frames ((nb / 2 + 1) * B) soloVoice ++
    frames ((nb - (nb / 2 + 1)) * B) (ExampleVoice.release (after ((nb / 2 + 1) * B) soloVoice))

/-- The calls that lead to the voice of example 4. -/
def soloOps : List (ExampleVoice.Op F32) :=
  [.setFrequency (lit 440), .setAttack (lit 0.01), .setRelease (lit 0.5), .setVibratoDepth (lit 0.1), .setVibratoRate (lit 5),
    .setAmplitude (lit 0.8), .trigger]

theorem soloOps_run : ExampleVoice.run (ExampleVoice.init (lit 48000)) soloOps = (soloVoice : ExampleVoice.Voice F32) := rfl

theorem soloOps_legal : ∀ op ∈ soloOps, op.Legal (lit 48000) := by
  have hs : (lit 48000 : F32).val = 48000 := by decide +kernel
  intro op hop
  simp only [soloOps, List.mem_cons, List.not_mem_nil, or_false] at hop
  rcases hop with rfl | rfl | rfl | rfl | rfl | rfl | rfl
  · show (lit 440 : F32).In 0 ((lit 48000 : F32).val / 4)
    rw [hs]; exact ⟨by decide +kernel, by decide +kernel, by decide +kernel⟩
  · trivial
  · trivial
  · show _ → (lit 0.1 : F32).In 0 12
    intro _; exact ⟨by decide +kernel, by decide +kernel, by decide +kernel⟩
  · show (lit 5 : F32) ≠ nan ∧ ((lit 5 : F32) >. lit 48000) = false
    constructor <;> decide +kernel
  · show (lit 0.8 : F32) ≠ nan
    decide +kernel
  · trivial

theorem amp_run (v : ExampleVoice.Voice F32) (n : ℕ) : (after n v).amplitude = v.amplitude :=
  tickState_inv (I := fun u => u.amplitude = v.amplitude) (fun u h => (ExampleVoice.tick_amp u).trans h) rfl n

theorem solo_amp : (soloVoice : ExampleVoice.Voice F32).amplitude = lit 0.8 := by
  show clamp (lit 0.8 : F32) (lit 0) (lit 1) = lit 0.8
  decide +kernel

/-- Every frame of example 4 is within the amplitude. -/
theorem soloFrames_within (B nb : ℕ) : ∀ x ∈ soloFrames B nb, ExampleVoice.Within (lit 0.8 : F32).val x := by
  have hsr : (lit 48000 : F32).In 1760 (2 ^ 100) := ⟨by decide +kernel, by decide +kernel, by decide +kernel⟩
  intro x hx
  rcases List.mem_append.1 hx with hx | hx
  · have := (ExampleVoice.C42_bounded (lit 48000) hsr soloOps soloOps_legal).2.2 (List.replicate ((nb / 2 + 1) * B) Stereo.zero)
    rw [soloOps_run, process_eq, solo_amp] at this
    exact this x hx
  · have := (ExampleVoice.C42_bounded (lit 48000) hsr
      (soloOps ++ [.process (List.replicate ((nb / 2 + 1) * B) Stereo.zero), .release]) (by
        intro op hop
        rcases List.mem_append.1 hop with h | h
        · exact soloOps_legal op h
        · simp only [List.mem_cons, List.not_mem_nil, or_false] at h
          rcases h with rfl | rfl <;> trivial)).2.2 (List.replicate ((nb - (nb / 2 + 1)) * B) Stereo.zero)
    have e : ExampleVoice.run (ExampleVoice.init (lit 48000))
        (soloOps ++ [.process (List.replicate ((nb / 2 + 1) * B) Stereo.zero), .release]) =
        ExampleVoice.release (after ((nb / 2 + 1) * B) soloVoice) := by
      show ExampleVoice.release (ExampleVoice.process (soloVoice : ExampleVoice.Voice F32)
        (List.replicate ((nb / 2 + 1) * B) Stereo.zero)).1 = _
      rw [process_eq]
    rw [e, process_eq] at this
    have ha : (ExampleVoice.release (after ((nb / 2 + 1) * B) (soloVoice : ExampleVoice.Voice F32))).amplitude = lit 0.8 := by
      show (after ((nb / 2 + 1) * B) (soloVoice : ExampleVoice.Voice F32)).amplitude = _
      rw [amp_run, solo_amp]
    rw [ha] at this
    exact this x hx

/-- **C94, the peaks of example 4** (binary32, any block size and number of blocks but zero): each printed peak is a number, the largest
magnitude on its channel among all frames played, and at most the amplitude 0.8. -/
theorem C94_peaks (B nb : ℕ) (h : 0 < nb) :
    let s : Solo F32 := solo B nb
    s.maxValL.In 0 (lit 0.8 : F32).val ∧ s.maxValR.In 0 (lit 0.8 : F32).val ∧
    (∀ x ∈ soloFrames B nb, |x.left.val| ≤ s.maxValL.val ∧ |x.right.val| ≤ s.maxValR.val) ∧
    (s.maxValL = lit 0 ∨ ∃ x ∈ soloFrames B nb, s.maxValL.val = |x.left.val|) ∧
    (s.maxValR = lit 0 ∨ ∃ x ∈ soloFrames B nb, s.maxValR.val = |x.right.val|) := by
  intro s
  have hs : s = _ := C94_solo B nb h
  have hL : s.maxValL = ((soloFrames B nb).map Stereo.left).foldl peakStep (lit 0) := by rw [hs, List.foldl_map]; rfl
  have hR : s.maxValR = ((soloFrames B nb).map Stereo.right).foldl peakStep (lit 0) := by rw [hs, List.foldl_map]; rfl
  have hw := soloFrames_within B nb
  have z := lit_zero (f := binary32)
  obtain ⟨a1, a2, a3, a4⟩ := peak_fold ((soloFrames B nb).map Stereo.left) (lit 0) z.1 (by
    intro x hx; obtain ⟨y, hy, rfl⟩ := List.mem_map.1 hx; exact (hw y hy).1.1)
  obtain ⟨b1, b2, b3, b4⟩ := peak_fold ((soloFrames B nb).map Stereo.right) (lit 0) z.1 (by
    intro x hx; obtain ⟨y, hy, rfl⟩ := List.mem_map.1 hx; exact (hw y hy).2.1)
  rw [← hL] at a1 a2 a3 a4
  rw [← hR] at b1 b2 b3 b4
  rw [z.val_eq] at a2 b2
  have a4' : s.maxValL = lit 0 ∨ ∃ x ∈ soloFrames B nb, s.maxValL.val = |x.left.val| := by
    rcases a4 with h | ⟨x, hx, h⟩
    · exact Or.inl h
    · obtain ⟨y, hy, rfl⟩ := List.mem_map.1 hx; exact Or.inr ⟨y, hy, h⟩
  have b4' : s.maxValR = lit 0 ∨ ∃ x ∈ soloFrames B nb, s.maxValR.val = |x.right.val| := by
    rcases b4 with h | ⟨x, hx, h⟩
    · exact Or.inl h
    · obtain ⟨y, hy, rfl⟩ := List.mem_map.1 hx; exact Or.inr ⟨y, hy, h⟩
  have h8 : 0 ≤ (lit 0.8 : F32).val := by decide +kernel
  refine ⟨⟨a1, a2, ?_⟩, ⟨b1, b2, ?_⟩, fun x hx => ⟨a3 _ (List.mem_map_of_mem hx), b3 _ (List.mem_map_of_mem hx)⟩, a4', b4'⟩
  · rcases a4' with h | ⟨x, hx, h⟩
    · rw [h, z.val_eq]; exact h8
    · rw [h]; exact abs_le.2 ⟨(hw x hx).1.2.1, (hw x hx).1.2.2⟩
  · rcases b4' with h | ⟨x, hx, h⟩
    · rw [h, z.val_eq]; exact h8
    · rw [h]; exact abs_le.2 ⟨(hw x hx).2.2.1, (hw x hx).2.2.2⟩

/-- The envelope of a voice runs on its own. -/
theorem env_run (v : ExampleVoice.Voice F32) (n : ℕ) : (after n v).env = tickState EnvelopeAR.tick n v.env := by
  induction n with
  | zero => rfl
  | succ n ih =>
    show (tickState ExampleVoice.tick (n + 1) v).env = _
    rw [tickState_succ, tickState_succ, ← ih]
    show (EnvelopeAR.tick (ExampleVoice.modulate (after n v)).env).1 = _
    rw [(ExampleVoice.modulate_rest _).2]

variable [LogSpec]

/-- The envelope of example 4 before the first block. -/
theorem solo_env : (soloVoice : ExampleVoice.Voice F32).env =
    EnvelopeAR.trigger (EnvelopeAR.setRelease (lit 0.5) (EnvelopeAR.setAttack (lit 0.01)
      (EnvelopeAR.setRelease (lit 0.3) (EnvelopeAR.setAttack (lit 0.01) (EnvelopeAR.init (lit 48000)))))) := rfl

/-- At the release, 3264 samples in, the attack has not quite ended. -/
theorem solo_attack (n : ℕ) (hn : (n:ℝ) = 3264) (e : EnvelopeAR.Env F32) (he : e = (soloVoice : ExampleVoice.Voice F32).env) :
    let u := tickState EnvelopeAR.tick n e
    u.state = .attack ∧ u.value.In 0 1 ∧ (0.997:ℝ) ≤ u.value.val ∧
      u.releaseTime = lit 0.5 ∧ u.sampleRate = lit 48000 ∧ u.releaseCoeff = Libm.exp (-lit 1 / (lit 0.5 * lit 48000)) := by
  intro u
  have hsv : (lit 48000 : F32).val = 48000 := by decide +kernel
  have hav : (lit 0.01 : F32).val = 10737418 / 2 ^ 30 := by decide +kernel
  have ha : (if (lit 0.01 : F32) >. lit 0.0001 then (lit 0.01 : F32) else lit 0.0001) = lit 0.01 := by decide +kernel
  have hr : (if (lit 0.5 : F32) >. lit 0.0001 then (lit 0.5 : F32) else lit 0.0001) = lit 0.5 := by decide +kernel
  have e1 : e.attackTime = lit 0.01 := by rw [he, solo_env]; exact ha
  have e2 : e.sampleRate = lit 48000 := by rw [he]; rfl
  have e3 : e.attackCoeff = Libm.exp (-lit 1 / (e.attackTime * e.sampleRate)) := by rw [he]; rfl
  have e4 : e.releaseTime = lit 0.5 := by rw [he, solo_env]; exact hr
  have e5 : e.releaseCoeff = Libm.exp (-lit 1 / (e.releaseTime * e.sampleRate)) := by rw [he]; rfl
  have e6 : e.value = lit 0 := by rw [he]; rfl
  have e7 : e.state = .attack := by rw [he]; rfl
  have e8 : e.gate = true := by rw [he]; rfl
  have hx : (n:ℝ) / (10737418 / 2 ^ 30 * 48000) ≤ 41 / 6 ∧ 6 ≤ (n:ℝ) / (10737418 / 2 ^ 30 * 48000) := by rw [hn]; norm_num
  have hA := EnvelopeAR.C93_ar_attack e (10737418 / 2 ^ 30 * 48000) (by rw [e1, e2, hsv, hav]; push_cast; rfl)
    (by norm_num) (by norm_num) (by rw [e1]; decide +kernel) (by rw [e1]; decide +kernel) (by rw [e2]; decide +kernel) e3 e7 e8
    (by rw [e6]; exact lit_zero.mono le_rfl (by norm_num)) (by rw [e6, lit_zero.val_eq]; norm_num) n
  rw [e6, lit_zero.val_eq] at hA
  have T := settleTol_late (N := 10737418 / 2 ^ 30 * 48000) (by norm_num) n
  have hb := exp_small (x := (n:ℝ) / (10737418 / 2 ^ 30 * 48000)) (k := 6) hx.2 (by norm_num)
  have hb2 := exp_small (x := (n:ℝ) / (10737418 / 2 ^ 30 * 48000) / 2) (y := 3) (k := 3) (by linarith [hx.2]) (by norm_num)
  have hd : 0.00107 ≤ Real.exp (-((n:ℝ) / (10737418 / 2 ^ 30 * 48000))) := by
    rw [Real.exp_neg, le_inv_comm₀ (by norm_num) (Real.exp_pos _)]
    have h := Real.exp_one_lt_d9
    have h6 : Real.exp (5 / 6) ≤ 2.31 := by
      by_contra hc
      have e : Real.exp (5 / 6) ^ 6 = Real.exp 1 ^ 5 := by rw [← Real.exp_nat_mul, ← Real.exp_nat_mul]; norm_num
      have h1 : (2.31:ℝ) ^ 6 < Real.exp (5 / 6) ^ 6 := by gcongr; exact not_le.1 hc
      have h2 : Real.exp 1 ^ 5 ≤ 2.7183 ^ 5 := by gcongr; linarith
      rw [e] at h1; norm_num at h1 h2; linarith
    calc _ ≤ Real.exp (6 + 5 / 6) := Real.exp_le_exp.2 (by linarith [hx.1])
      _ = Real.exp 1 ^ 6 * Real.exp (5 / 6) := by rw [Real.exp_add, ← Real.exp_nat_mul]; norm_num
      _ ≤ 2.7183 ^ 6 * 2.31 := by gcongr; linarith
      _ ≤ _ := by norm_num
  have hq : Real.exp (1 / (10737418 / 2 ^ 30 * 48000)) ≤ 2 := by
    refine (Real.exp_le_exp.2 (show (1 / (10737418 / 2 ^ 30 * 48000) : ℝ) ≤ 1 / 2 by norm_num)).trans ?_
    have h := Real.exp_one_lt_d9
    have e : Real.exp (1 / 2) * Real.exp (1 / 2) = Real.exp 1 := by rw [← Real.exp_add]; norm_num
    nlinarith [Real.exp_pos (1 / 2)]
  have hT : settleTol (10737418 / 2 ^ 30 * 48000) n ≤ 0.00004 := by
    refine T.trans ?_
    have hq0 := Real.exp_pos (1 / (10737418 / 2 ^ 30 * 48000))
    have hp0 := Real.exp_pos (-((n:ℝ) / (10737418 / 2 ^ 30 * 48000) / 2))
    clear * - hq hb2 hq0 hp0
    generalize Real.exp (1 / (10737418 / 2 ^ 30 * 48000)) = q at *
    generalize Real.exp _ = p at *
    norm_num at *
    nlinarith
  have hA1 := hA.1 (by
    clear * - hT hd
    generalize settleTol _ n = T' at *
    generalize Real.exp _ = p at *
    norm_num at *
    linarith)
  have hset : u.releaseTime = e.releaseTime ∧ u.sampleRate = e.sampleRate ∧ u.releaseCoeff = e.releaseCoeff := by
    refine tickState_inv (I := fun u : EnvelopeAR.Env F32 => u.releaseTime = e.releaseTime ∧ u.sampleRate = e.sampleRate ∧
      u.releaseCoeff = e.releaseCoeff) ?_ ⟨rfl, rfl, rfl⟩ n
    intro u hu
    obtain ⟨a, b, c, d, e, -⟩ := EnvelopeAR.tick_settings u
    rw [b, d, e]; exact hu
  refine ⟨hA1.1, hA1.2.1, ?_, by rw [hset.1, e4], by rw [hset.2.1, e2], by rw [hset.2.2, e5, e4, e2]⟩
  have h3 := (abs_le.1 hA1.2.2).1
  clear * - h3 hT hb
  show _ ≤ ((tickState EnvelopeAR.tick n e).value.val : ℝ)
  generalize ((tickState EnvelopeAR.tick n e).value.val : ℝ) = y at *
  generalize settleTol _ n = T' at *
  generalize Real.exp _ = p at *
  norm_num at *
  linarith

/-- 3136 samples of release later. -/
theorem solo_release (n : ℕ) (hn : (n:ℝ) = 3136) (u : EnvelopeAR.Env F32) (hst : u.state = .release) (hv : u.value.In 0 1)
    (hv1 : (0.997:ℝ) ≤ u.value.val) (hT : u.releaseTime = lit 0.5) (hs : u.sampleRate = lit 48000)
    (hc : u.releaseCoeff = Libm.exp (-lit 1 / (lit 0.5 * lit 48000))) :
    let w := tickState EnvelopeAR.tick n u
    w.state = .release ∧ (0.86:ℝ) ≤ w.value.val ∧ (w.value.val : ℝ) ≤ 0.88 := by
  intro w
  have hsv : (lit 48000 : F32).val = 48000 := by decide +kernel
  have hrv : (lit 0.5 : F32).val = 1 / 2 := by decide +kernel
  have hv0 : (0:ℝ) < u.value.val := by linarith
  have hvr : (u.value.val : ℝ) ≤ 1 := by exact_mod_cast hv.2.2
  have hR := EnvelopeAR.C93_ar_release u 24000 (by rw [hT, hs, hsv, hrv]; norm_num)
    (by norm_num) (by norm_num) (by rw [hT]; decide +kernel) (by rw [hT]; decide +kernel)
    (by rw [hs]; decide +kernel) (by rw [hT, hs]; exact hc) hst hv (by linarith) n
  rw [hn] at hR
  obtain ⟨h1, h2, h3, h4⟩ := hR.1 (by
    have hl : 1 < Real.log (u.value.val / 0.0001) := by
      rw [Real.lt_log_iff_exp_lt (by positivity), lt_div_iff₀ (by norm_num)]
      have := Real.exp_one_lt_d9
      linarith
    norm_num at hl ⊢
    linarith)
  have lo : Real.log u.value.val - 0.1315 ≤ Real.log w.value.val := by
    have := (abs_le.1 h4).1
    norm_num at this ⊢
    linarith
  have hi : Real.log w.value.val ≤ Real.log u.value.val - 0.1299 := by
    have := (abs_le.1 h4).2
    norm_num at this ⊢
    linarith
  have hw : (0:ℝ) < w.value.val := by exact_mod_cast h3
  refine ⟨h1, ?_, ?_⟩
  · have a := Real.exp_le_exp.2 lo
    rw [Real.exp_log hw, Real.exp_sub, Real.exp_log hv0, div_le_iff₀ (Real.exp_pos _)] at a
    have b := Real.one_sub_le_exp_neg 0.1315
    have c : Real.exp 0.1315 ≤ (1 - 0.1315)⁻¹ := by
      rw [Real.exp_neg] at b
      exact (le_inv_comm₀ (by norm_num) (Real.exp_pos _)).1 b
    have d : (0.997:ℝ) ≤ w.value.val * (1 - 0.1315)⁻¹ := hv1.trans (a.trans (mul_le_mul_of_nonneg_left c hw.le))
    norm_num at d ⊢
    linarith
  · have a := Real.exp_le_exp.2 hi
    rw [Real.exp_log hw, Real.exp_sub, Real.exp_log hv0, le_div_iff₀ (Real.exp_pos _)] at a
    have b := Real.quadratic_le_exp_of_nonneg (x := 0.1299) (by norm_num)
    have c : (w.value.val : ℝ) * (1 + 0.1299 + 0.1299 ^ 2 / 2) ≤ 1 := (mul_le_mul_of_nonneg_left b hw.le).trans (a.trans hvr)
    norm_num at c ⊢
    linarith

/-- **C94, the last line of example 4** (binary32): the program prints "Voice active: yes". The attack (10 ms time constant) is still running
when the voice is let go after 51 of 100 blocks, and at the end the envelope is in its release, between 0.86 and 0.88. -/
theorem C94_active :
    (soloReport : F32 × F32 × Bool).2.2 = true ∧ (after (51 * 64) (soloVoice : ExampleVoice.Voice F32)).env.state = .attack ∧
    (0.86:ℝ) ≤ (solo BLOCK_SIZE NUM_BLOCKS : Solo F32).voice.env.value.val ∧
    ((solo BLOCK_SIZE NUM_BLOCKS : Solo F32).voice.env.value.val : ℝ) ≤ 0.88 := by
  have hg : ∀ B nb : ℕ, 0 < nb → (solo B nb : Solo F32).voice =
      after ((nb - (nb / 2 + 1)) * B) (ExampleVoice.release (after ((nb / 2 + 1) * B) soloVoice)) :=
    fun B nb h => congrArg Solo.voice (C94_solo B nb h)
  have hv := hg BLOCK_SIZE NUM_BLOCKS (by decide)
  have n1 : (NUM_BLOCKS / 2 + 1) * BLOCK_SIZE = 51 * 64 := by decide
  obtain ⟨m, hm⟩ : ∃ m, m = 51 * 64 := ⟨_, rfl⟩
  obtain ⟨k, hk⟩ : ∃ k, k = (NUM_BLOCKS - (NUM_BLOCKS / 2 + 1)) * BLOCK_SIZE := ⟨_, rfl⟩
  have hmr : (m:ℝ) = 3264 := by rw [hm]; norm_num
  have hkr : (k:ℝ) = 3136 := by rw [hk]; norm_num [NUM_BLOCKS, BLOCK_SIZE]
  rw [n1, ← hm, ← hk] at hv
  rw [← hm]
  obtain ⟨a1, a2, a3, a4, a5, a6⟩ := solo_attack m hmr _ rfl
  rw [← env_run] at a1 a2 a3 a4 a5 a6
  generalize hu : after m (soloVoice : ExampleVoice.Voice F32) = u at *
  have hrel : (ExampleVoice.release u).env.state = .release := by
    show (if u.env.state ≠ .idle then _ else _) = _
    rw [a1]; rfl
  obtain ⟨b1, b2, b3⟩ := solo_release k hkr (ExampleVoice.release u).env hrel a2 a3 a4 a5 a6
  rw [← env_run, ← hv] at b1 b2 b3
  refine ⟨?_, a1, b2, b3⟩
  show decide ((solo BLOCK_SIZE NUM_BLOCKS : Solo F32).voice.env.state ≠ .idle) = true
  rw [b1]; rfl

/-! ### Examples 1 to 3 -/

/-- **C94, example 2** (binary32): each of the 64 values computed (eight are printed) is within 0.00005 of the exact attack curve
`1 - exp (-t / 10 ms)`. -/
theorem C94_env (i : ℕ) (hi : i < 64) : ∃ x : F32, (envBlock : List F32)[i]? = some x ∧ x.In 0 1 ∧
    |(x.val : ℝ) - (1 - Real.exp (-((i + 1) / 480)))| ≤ 0.00005 := by
  have hsv : (lit 48000 : F32).val = 48000 := by decide +kernel
  have hav : (lit 0.01 : F32).val = 10737418 / 2 ^ 30 := by decide +kernel
  have ha : (if (lit 0.01 : F32) >. lit 0.0001 then (lit 0.01 : F32) else lit 0.0001) = lit 0.01 := by decide +kernel
  obtain ⟨e, he⟩ : ∃ e : EnvelopeAR.Env F32, e =
    EnvelopeAR.trigger (EnvelopeAR.setRelease (lit 0.1) (EnvelopeAR.setAttack (lit 0.01) (EnvelopeAR.init SAMPLE_RATE))) := ⟨_, rfl⟩
  have e1 : e.attackTime = lit 0.01 := by rw [he]; exact ha
  have e2 : e.sampleRate = lit 48000 := by rw [he]; rfl
  have e3 : e.attackCoeff = Libm.exp (-lit 1 / (e.attackTime * e.sampleRate)) := by rw [he]; rfl
  have e6 : e.value = lit 0 := by rw [he]; rfl
  have e7 : e.state = .attack := by rw [he]; rfl
  have e8 : e.gate = true := by rw [he]; rfl
  have hout : (envBlock : List F32)[i]? = some (tickState EnvelopeAR.tick (i + 1) e).value := by
    unfold envBlock EnvelopeAR.process
    rw [forEach_eq_ticks, ← he, ticks_get _ _ _ _ (by simpa [AudioBuffer.clear, BLOCK_SIZE] using hi), tickState_succ]
    rfl
  refine ⟨_, hout, ?_⟩
  have hA := EnvelopeAR.C93_ar_attack e (10737418 / 2 ^ 30 * 48000) (by rw [e1, e2, hsv, hav]; push_cast; rfl)
    (by norm_num) (by norm_num) (by rw [e1]; decide +kernel) (by rw [e1]; decide +kernel) (by rw [e2]; decide +kernel) e3 e7 e8
    (by rw [e6]; exact lit_zero.mono le_rfl (by norm_num)) (by rw [e6, lit_zero.val_eq]; norm_num) (i + 1)
  rw [e6, lit_zero.val_eq] at hA
  have hir : (i:ℝ) ≤ 63 := by exact_mod_cast (by omega : i ≤ 63)
  have hi0 : (0:ℝ) ≤ i := Nat.cast_nonneg i
  have hT : settleTol (10737418 / 2 ^ 30 * 48000) (i + 1) ≤ 0.00004 := by
    unfold settleTol
    have : Real.exp (-((((i + 1 : ℕ) : ℝ) - 1) / (10737418 / 2 ^ 30 * 48000))) ≤ 1 := by
      rw [Real.exp_le_one_iff]; push_cast; rw [neg_nonpos, add_sub_cancel_right]; positivity
    have h0 := Real.exp_pos (-((((i + 1 : ℕ) : ℝ) - 1) / (10737418 / 2 ^ 30 * 48000)))
    generalize Real.exp _ = p at this h0 ⊢
    push_cast
    clear * - hir hi0 this h0
    have hp : (i + 1 : ℝ) * p ≤ 64 := by nlinarith
    generalize (i + 1 : ℝ) = m at *
    norm_num at *
    nlinarith
  have hx : 0 ≤ ((i + 1 : ℕ) : ℝ) / (10737418 / 2 ^ 30 * 48000) ∧ ((i + 1 : ℕ) : ℝ) / (10737418 / 2 ^ 30 * 48000) ≤ 1 / 5 := by
    push_cast; constructor
    · positivity
    · rw [div_le_iff₀ (by norm_num)]; norm_num; linarith
  have hd : 0.8 ≤ Real.exp (-(((i + 1 : ℕ) : ℝ) / (10737418 / 2 ^ 30 * 48000))) := by
    have := Real.one_sub_le_exp_neg (((i + 1 : ℕ) : ℝ) / (10737418 / 2 ^ 30 * 48000))
    norm_num at *; linarith
  obtain ⟨-, h2, h3⟩ := hA.1 (by
    clear * - hT hd
    generalize settleTol _ (i + 1) = T' at *
    generalize Real.exp _ = p at *
    norm_num at *
    linarith)
  refine ⟨h2, ?_⟩
  -- 479.99999 instead of 480 samples
  have hN : |Real.exp (-(((i + 1 : ℕ) : ℝ) / (10737418 / 2 ^ 30 * 48000))) - Real.exp (-((i + 1) / 480))| ≤ 0.000001 := by
    have hlip : ∀ a b : ℝ, 0 ≤ a → a ≤ b → |Real.exp (-b) - Real.exp (-a)| ≤ b - a := by
      intro a b h0 hab
      have h1 : Real.exp (-b) ≤ Real.exp (-a) := Real.exp_le_exp.2 (by linarith)
      rw [abs_sub_comm, abs_of_nonneg (by linarith)]
      have h2 := Real.one_sub_le_exp_neg (b - a)
      have h3 : Real.exp (-b) = Real.exp (-a) * Real.exp (-(b - a)) := by rw [← Real.exp_add]; congr 1; ring
      have h4 : Real.exp (-a) ≤ 1 := Real.exp_le_one_iff.2 (by linarith)
      rw [h3]
      nlinarith [Real.exp_pos (-a)]
    refine (hlip _ _ (by positivity) ?_).trans ?_
    · push_cast
      exact div_le_div_of_nonneg_left (by positivity) (by norm_num) (by norm_num)
    · push_cast; norm_num; linarith
  push_cast at h3 hN
  have e : ((tickState EnvelopeAR.tick (i + 1) e).value.val : ℝ) - (1 - Real.exp (-((i + 1) / 480))) =
      ((tickState EnvelopeAR.tick (i + 1) e).value.val - (1 - (1 - 0) * Real.exp (-((i + 1) / (10737418 / 2 ^ 30 * 48000))))) -
        (Real.exp (-((i + 1) / (10737418 / 2 ^ 30 * 48000))) - Real.exp (-((i + 1) / 480))) := by ring
  rw [e]
  refine (abs_sub _ _).trans ?_
  have := h3.trans hT
  norm_num at *
  linarith

end float

/-- The phase of the oscillator of example 1, sample by sample. -/
def oscPhase : ℕ → F32
  | 0 => lit 0
  | i + 1 =>
    let p := oscPhase i + (TWO_PI * lit 440) / lit 48000
    if p >=. TWO_PI then p - TWO_PI else p

theorem oscPhase_acc : ∀ i ∈ List.range 64, (oscPhase i).In 0 4 ∧
    |(oscPhase i).val - 2 * 3.14159265358979323846 * 440 / 48000 * i| ≤ 1 / 200000 := by decide +kernel

/-- **C94, example 1** (binary32): each of the 64 samples computed (eight are printed) is within 0.00001 of the sine of 440 Hz. -/
theorem C94_osc [Libm F32] [LibmSpec] (i : ℕ) (hi : i < 64) : ∃ x : F32, (oscBlock : List F32)[i]? = some x ∧
    |(x.val : ℝ) - Real.sin (2 * Real.pi * 440 * i / 48000)| ≤ 0.00001 := by
  have hph : ∀ k, (tickState SinOsc.tick k (SinOsc.setFrequency (lit 440) (SinOsc.init (SAMPLE_RATE : F32)))).phase = oscPhase k ∧
      (tickState SinOsc.tick k (SinOsc.setFrequency (lit 440) (SinOsc.init (SAMPLE_RATE : F32)))).phaseIncrement =
        (TWO_PI * lit 440) / lit 48000 := by
    intro k
    induction k with
    | zero => exact ⟨rfl, rfl⟩
    | succ k ih =>
      rw [tickState_succ]
      simp only [SinOsc.tick, ih.1, ih.2, oscPhase, and_self]
  have hout : (oscBlock : List F32)[i]? = some (Libm.sin (oscPhase i)) := by
    unfold oscBlock SinOsc.process
    rw [forEach_eq_ticks, ticks_get _ _ _ _ (by simpa [AudioBuffer.clear, BLOCK_SIZE] using hi), tickOut, ← (hph i).1]
    rfl
  refine ⟨_, hout, ?_⟩
  obtain ⟨h1, h2⟩ := oscPhase_acc i (List.mem_range.2 hi)
  have h3 := LibmSpec.sin_acc (oscPhase i) h1.1 (by rw [abs_of_nonneg h1.2.1]; exact h1.2.2)
  have h2' : |((oscPhase i).val : ℝ) - 2 * 3.14159265358979323846 * 440 / 48000 * i| ≤ 1 / 200000 := by
    have := (Rat.cast_le (K := ℝ)).2 h2
    push_cast at this; exact this
  have hir : (i:ℝ) ≤ 63 := by exact_mod_cast (by omega : i ≤ 63)
  have hi0 : (0:ℝ) ≤ i := Nat.cast_nonneg i
  have h4 : |((oscPhase i).val : ℝ) - 2 * Real.pi * 440 * i / 48000| ≤ 0.000006 := by
    have p1 := Real.pi_gt_d20
    have p2 := Real.pi_lt_d20
    rw [abs_le] at h2' ⊢
    clear * - p1 p2 h2' hir hi0
    have m1 : (3.14159265358979323846:ℝ) * i ≤ Real.pi * i := mul_le_mul_of_nonneg_right p1.le hi0
    have m2 : Real.pi * i ≤ (3.14159265358979323847:ℝ) * i := mul_le_mul_of_nonneg_right p2.le hi0
    generalize ((oscPhase i).val : ℝ) = y at *
    have e : 2 * Real.pi * 440 * i / 48000 = 880 / 48000 * (Real.pi * i) := by ring
    rw [e]
    generalize Real.pi * (i:ℝ) = z at *
    generalize (i:ℝ) = w at *
    norm_num at h2' m1 m2 ⊢
    constructor <;> linarith
  have h5 : |Real.sin ((oscPhase i).val : ℝ) - Real.sin (2 * Real.pi * 440 * i / 48000)| ≤ 0.000006 := by
    have := Real.abs_sin_sub_sin_le (x := ((oscPhase i).val : ℝ)) (y := 2 * Real.pi * 440 * i / 48000)
    exact this.trans h4
  have := abs_sub_le ((Libm.sin (oscPhase i)).val : ℝ) (Real.sin ((oscPhase i).val : ℝ)) (Real.sin (2 * Real.pi * 440 * i / 48000))
  norm_num at *
  linarith

/-- **C94, example 3** (binary32, no library function involved): all 64 values are in [-1, 1], and the first one is exactly the second number
drawn from the seed 42. -/
theorem C94_noise : (∀ x ∈ (noiseBlock : List F32), x.In (-1) 1) ∧
    (noiseBlock : List F32)[0]? = some (LFNoise2.seedSample (LFNoise2.nextSeed (LFNoise2.nextSeed 42))) := by
  constructor
  · have h := LFNoise2.C40_output_range (lit 48000) (by decide +kernel) (by decide +kernel) 42
      (.setFrequency (lit 4) :: List.replicate 64 .tick) (by
        intro c hc
        rcases List.mem_cons.1 hc with rfl | hc
        · exact ⟨by decide +kernel, by decide +kernel⟩
        · rw [List.eq_of_mem_replicate hc]; trivial)
    have e : ∀ (n : ℕ) (s : LFNoise2.Osc F32), (LFNoise2.run s (List.replicate n .tick)).2 =
        (LFNoise2.process s (List.replicate n (lit 0))).2 := by
      intro n
      induction n with
      | zero => intro s; rfl
      | succ n ih =>
        intro s
        simp only [List.replicate_succ, LFNoise2.run, LFNoise2.process, forEach]
        rw [ih]; rfl
    intro x hx
    refine h x ?_
    show x ∈ (LFNoise2.run (LFNoise2.setFrequency (lit 4) (LFNoise2.init (lit 48000) 42)) (List.replicate 64 .tick)).2
    rw [e]; exact hx
  · decide +kernel

/-- The hypotheses of the theorems can be met. -/
example : ∃ (_ : Libm F32) (_ : LibmSpec), Nonempty LogSpec := ⟨idealLibm, idealLibm_spec, ⟨idealLibm_log⟩⟩

/-- Two passes of example 5 with blocks of three samples. -/
example [Libm F32] : ∃ s : Duo F32, duo 3 2 = some s ∧
    s.loopL.block (AudioLoop.getOutputBuffer s.loopL) = (frames 3 (after 3 duoVoice)).map Stereo.left := by
  obtain ⟨s, h1, -, h2, -⟩ := C94_duo (α := F32) 3 2
  exact ⟨s, h1, h2⟩

/-- The peaks of example 4 as it stands. -/
example [Libm F32] [LibmSpec] : ((solo BLOCK_SIZE NUM_BLOCKS : Solo F32).maxValL).In 0 (lit 0.8 : F32).val :=
  (C94_peaks BLOCK_SIZE NUM_BLOCKS (by decide)).1

end Verif.BasicExample
