import Verif.Model.Examples
import Verif.Lemmas.Stream
import Verif.Props.SoundFile
import Verif.Props.Playback
import Verif.Props.Lag

/-!
# C73: what jack_playback_example.cpp plays
-/

set_option linter.unusedSectionVars false

namespace Verif.JackPlayback

section generic
variable {α : Type} [Arith α] [Libm α]

/-- The position from which an internal sample is read, given the rate the program is heading for: the smoothed rate drives the phasor. -/
def drive (d : Lag.Filt α × Phasor.Ph α) (target : α) : (Lag.Filt α × Phasor.Ph α) × α :=
  let (l, r) := Lag.tick d.1 target
  let (p, pos) := Phasor.tick (Phasor.setRate r d.2)
  ((l, p), pos)

/-- The audio of `n` frames whose internal samples number `k, k + 1, …` are read by `sample`: pairs go through the downsampler. -/
def render (sample : ℕ → Option (Stereo α)) : (n k : ℕ) → StereoDownsampler.SDown α → Option (List (Stereo α))
  | 0, _, _ => some []
  | n + 1, k, d => (sample k).bind fun x => (sample (k + 1)).bind fun y =>
      let (d, out) := StereoDownsampler.read (StereoDownsampler.write (StereoDownsampler.write d x) y)
      (render sample n (k + 2) d).map fun ys => out :: ys

/-- The controls of a list of blocks, frame by frame. -/
def controls (bs : List (ℕ × α)) : List α := bs.flatMap fun b => List.replicate b.1 b.2

/-- Frames with the given controls. -/
def playFrames (m : Mem α) : State α → List α → Option (State α × List (Stereo α))
  | s, [] => some (s, [])
  | s, c :: cs => (frame (s.basePlaybackRate * c) m s).bind fun (s, y) => (playFrames m s cs).map fun (s, ys) => (s, y :: ys)

theorem playFrames_append (m : Mem α) (cs ds : List α) (s : State α) :
    playFrames m s (cs ++ ds) = (playFrames m s cs).bind fun r => (playFrames m r.1 ds).map fun q => (q.1, r.2 ++ q.2) := by
  induction cs generalizing s with
  | nil => simp [playFrames]
  | cons c cs ih =>
    rw [List.cons_append, playFrames, playFrames]
    rcases frame (s.basePlaybackRate * c) m s with _ | ⟨s1, y⟩
    · rfl
    · simp only [Option.bind_some, ih]
      rcases playFrames m s1 cs with _ | ⟨s2, ys⟩
      · rfl
      · simp only [Option.bind_some, Option.map_some]
        rcases playFrames m s2 ds with _ | ⟨s3, zs⟩ <;> rfl

theorem processCallback_eq (n : ℕ) (c : α) (m : Mem α) (s : State α) :
    processCallback n c m s = playFrames m s (List.replicate n c) := by
  have key : ∀ (n lo : ℕ) (s : State α) (out : List (Stereo α)),
      forLoop (fun _ (p : State α × List (Stereo α)) => (frame (p.1.basePlaybackRate * c) m p.1).map fun q => (q.1, p.2 ++ [q.2])) lo n (s, out) =
        (playFrames m s (List.replicate n c)).map fun r => (r.1, out ++ r.2) := by
    intro n
    induction n with
    | zero => intro lo s out; simp [forLoop, playFrames]
    | succ n ih =>
      intro lo s out
      rw [forLoop, List.replicate_succ, playFrames]
      rcases frame (s.basePlaybackRate * c) m s with _ | ⟨s1, y⟩
      · rfl
      · simp only [Option.map_some, Option.bind_some, ih]
        rcases playFrames m s1 (List.replicate n c) with _ | ⟨s2, ys⟩
        · rfl
        · simp
  have := key n 0 s []
  simp only [List.nil_append] at this
  rw [show (fun r : State α × List (Stereo α) => (r.1, r.2)) = id from rfl, Option.map_id, id] at this
  exact this

theorem playBlocks_eq (m : Mem α) (bs : List (ℕ × α)) (s : State α) : playBlocks m s bs = playFrames m s (controls bs) := by
  induction bs generalizing s with
  | nil => rfl
  | cons b bs ih =>
    obtain ⟨n, c⟩ := b
    rw [playBlocks, controls, List.flatMap_cons, playFrames_append, processCallback_eq]
    rcases playFrames m s (List.replicate n c) with _ | ⟨s1, y⟩
    · rfl
    · simp only [Option.bind_some, ih, controls]

/-- One frame in terms of `drive`. -/
theorem frame_eq (t : α) (m : Mem α) (s : State α) :
    frame t m s = (BufRd.tickStereo s.bufRd m (drive (s.rateLag, s.phasor) t).2).bind fun x =>
      (BufRd.tickStereo s.bufRd m (drive (drive (s.rateLag, s.phasor) t).1 t).2).map fun y =>
        ({ s with rateLag := (drive (drive (s.rateLag, s.phasor) t).1 t).1.1, phasor := (drive (drive (s.rateLag, s.phasor) t).1 t).1.2,
                  downsampler := (StereoDownsampler.read (StereoDownsampler.write (StereoDownsampler.write s.downsampler x) y)).1 },
          (StereoDownsampler.read (StereoDownsampler.write (StereoDownsampler.write s.downsampler x) y)).2) := by
  simp only [frame, OVERSAMPLE_FACTOR, forLoop, inner, drive]
  rcases BufRd.tickStereo s.bufRd m (Phasor.tick (Phasor.setRate (Lag.tick s.rateLag t).2 s.phasor)).2 with _ | x
  · rfl
  · simp only [Option.map_some, Option.bind_some]
    generalize BufRd.tickStereo s.bufRd m _ = z
    cases z <;> rfl

theorem feed_shift {σ α : Type} (tick : σ → α → σ × α) (s : σ) (x : ℕ → α) (n : ℕ) :
    feed tick s x (n + 1) = feed tick (tick s (x 0)).1 (fun i => x (i + 1)) n := by
  induction n with
  | zero => rfl
  | succ n ih => rw [feed, ih]; rfl

theorem heard_shift {σ α : Type} (tick : σ → α → σ × α) (s : σ) (x : ℕ → α) (n : ℕ) :
    heard tick s x (n + 1) = heard tick (tick s (x 0)).1 (fun i => x (i + 1)) n := by
  rw [heard, feed_shift]; rfl

theorem render_shift (f g : ℕ → Option (Stereo α)) (n k l : ℕ) (h : ∀ i, f (k + i) = g (l + i)) (d : StereoDownsampler.SDown α) :
    render f n k d = render g n l d := by
  induction n generalizing k l d with
  | zero => rfl
  | succ n ih =>
    rw [render, render]
    have h0 := h 0
    have h1 := h 1
    simp only [Nat.add_zero] at h0
    rw [h0, h1]
    have : ∀ d, render f n (k + 2) d = render g n (l + 2) d := fun d => ih (k + 2) (l + 2) (fun i => by
      have := h (2 + i); rwa [← Nat.add_assoc, ← Nat.add_assoc] at this) d
    simp only [this]

/-- The program, unfolded: whatever blocks the server asks for, the audio is the downsampled sequence of reads at the driven positions. -/
theorem playFrames_eq (m : Mem α) (cs : List α) (s : State α) (x : ℕ → α)
    (hx : ∀ k (h : k / 2 < cs.length), x k = s.basePlaybackRate * cs[k / 2]) :
    (playFrames m s cs).map (·.2) =
        render (fun k => BufRd.tickStereo s.bufRd m (heard drive (s.rateLag, s.phasor) x k)) cs.length 0 s.downsampler ∧
      ∀ r, playFrames m s cs = some r → (r.1.rateLag, r.1.phasor) = feed drive (s.rateLag, s.phasor) x (2 * cs.length) ∧
        r.1.bufRd = s.bufRd ∧ r.1.basePlaybackRate = s.basePlaybackRate ∧ r.1.audioBuffer = s.audioBuffer := by
  induction cs generalizing s x with
  | nil => exact ⟨rfl, by rintro _ ⟨⟩; exact ⟨rfl, rfl, rfl, rfl⟩⟩
  | cons c cs ih =>
    have x0 : x 0 = s.basePlaybackRate * c := hx 0 (by simp)
    have x1 : x 1 = s.basePlaybackRate * c := hx 1 (by simp)
    have e0 : heard drive (s.rateLag, s.phasor) x 0 = (drive (s.rateLag, s.phasor) (s.basePlaybackRate * c)).2 := by rw [heard, x0]; rfl
    have e1 : heard drive (s.rateLag, s.phasor) x 1 =
        (drive (drive (s.rateLag, s.phasor) (s.basePlaybackRate * c)).1 (s.basePlaybackRate * c)).2 := by
      rw [heard, x1, feed, x0]; rfl
    rw [playFrames, frame_eq, List.length_cons, render]
    simp only [e0, Nat.zero_add, e1]
    rcases BufRd.tickStereo s.bufRd m (drive (s.rateLag, s.phasor) (s.basePlaybackRate * c)).2 with _ | a
    · exact ⟨rfl, fun r h => by simp at h⟩
    simp only [Option.bind_some]
    rcases BufRd.tickStereo s.bufRd m (drive (drive (s.rateLag, s.phasor) (s.basePlaybackRate * c)).1 (s.basePlaybackRate * c)).2 with _ | b
    · exact ⟨rfl, fun r h => by simp at h⟩
    simp only [Option.bind_some, Option.map_some]
    obtain ⟨i1, i2⟩ := ih { s with
      rateLag := (drive (drive (s.rateLag, s.phasor) (s.basePlaybackRate * c)).1 (s.basePlaybackRate * c)).1.1
      phasor := (drive (drive (s.rateLag, s.phasor) (s.basePlaybackRate * c)).1 (s.basePlaybackRate * c)).1.2
      downsampler := (StereoDownsampler.read (StereoDownsampler.write (StereoDownsampler.write s.downsampler a) b)).1 }
      (fun k => x (k + 2)) (fun k h => by
        have := hx (k + 2) (by rw [Nat.add_div_right _ (by norm_num)]; simpa using h)
        simp only [Nat.add_div_right _ (show 0 < 2 by norm_num)] at this
        simpa using this)
    have hs : ∀ k, feed drive (s.rateLag, s.phasor) x (k + 2) =
        feed drive (drive (drive (s.rateLag, s.phasor) (s.basePlaybackRate * c)).1 (s.basePlaybackRate * c)).1 (fun k => x (k + 2)) k := by
      intro k
      rw [show k + 2 = (k + 1) + 1 by omega, feed_shift, feed_shift]
      simp only [x0, Nat.zero_add, x1]
    have hh : ∀ k, heard drive (s.rateLag, s.phasor) x (k + 2) =
        heard drive (drive (drive (s.rateLag, s.phasor) (s.basePlaybackRate * c)).1 (s.basePlaybackRate * c)).1 (fun k => x (k + 2)) k := by
      intro k
      rw [heard, hs]; rfl
    constructor
    · rw [Option.map_map]
      have : render (fun k => BufRd.tickStereo s.bufRd m (heard drive (s.rateLag, s.phasor) x k)) cs.length (0 + 2)
          (StereoDownsampler.read (StereoDownsampler.write (StereoDownsampler.write s.downsampler a) b)).1 =
          render (fun k => BufRd.tickStereo s.bufRd m (heard drive (drive (drive (s.rateLag, s.phasor) (s.basePlaybackRate * c)).1
            (s.basePlaybackRate * c)).1 (fun k => x (k + 2)) k)) cs.length 0
          (StereoDownsampler.read (StereoDownsampler.write (StereoDownsampler.write s.downsampler a) b)).1 :=
        render_shift _ _ _ _ _ (fun i => by rw [show 0 + 2 + i = i + 2 by omega, hh, Nat.zero_add]) _
      simp only [Nat.zero_add] at this
      rw [this, ← i1, Option.map_map]
      rfl
    · intro r hr
      rw [Option.map_eq_some_iff] at hr
      obtain ⟨q, hq, rfl⟩ := hr
      obtain ⟨j1, j2, j3, j4⟩ := i2 q hq
      refine ⟨?_, j2, j3, j4⟩
      rw [show 2 * (cs.length + 1) = 2 * cs.length + 2 by omega, hs, ← j1]

open BufferAllocator in
/-- What `main` has set up when the audio starts: the file fits the pool, so the program does not leave early. -/
theorem setup_spec {P M : ℕ} (hS : Sizes P M) {w0 : World α} (hF : Fresh P M w0) (f : SndFile α) (hc : f.channels = 1 ∨ f.channels = 2)
    (hn : 0 < f.frames) (hfit : f.frames * f.channels ≤ P) (hlen : f.data.length ≤ f.frames * f.channels) (R : ℕ) (c : α) (old : State α) :
    ∃ m s b o k, setup P M f R c w0.a w0.mem old = some (m, some s) ∧ b.Backed m o k ∧ b.isValid = true ∧ b.numSamples = f.frames ∧
      s.audioBuffer = b ∧ s.bufRd = ⟨some b, true, 4⟩ ∧ s.basePlaybackRate = Arith.ofInt f.samplerate / (Arith.ofNat R * Arith.ofNat 2) ∧
      s.rateLag = Lag.setValue (s.basePlaybackRate * c) (Lag.init (Arith.ofNat R * Arith.ofNat 2) (lit 0.2)) ∧
      s.phasor = Phasor.set (s.basePlaybackRate * c) (lit 0) (Arith.ofNat f.frames) (lit 0) (Phasor.init (Arith.ofNat R * Arith.ofNat 2)) ∧
      s.downsampler = StereoDownsampler.init (Arith.ofNat R) 2 ∧
      ∀ i, (i + 1) * f.channels ≤ f.data.length → b.getStereoSample m i = f.frame i ∧ (f.frame i).isSome := by
  have hno : ∀ o ∈ ([.init (Arith.ofNat R)] : List (Op α)), o.NoWrap := by simp [Op.NoWrap]
  obtain ⟨w, hrun, hinv, _⟩ := invL_run hS [.init (Arith.ofNat R)] hno (invL_fresh hF)
  obtain ⟨am, hinit, hw⟩ : ∃ am, init P (Arith.ofNat R) w0.a w0.mem = some am ∧ w = ⟨am.1, am.2, []⟩ := by
    have hi := hrun
    rw [run, step] at hi
    cases hin : init P (Arith.ofNat R) w0.a w0.mem with
    | none => rw [hin] at hi; simp at hi
    | some am => rw [hin] at hi; exact ⟨am, rfl, by simpa [run] using hi.symm⟩
  have hin : w.a.inited = true := by
    rw [init, Option.bind_eq_some_iff] at hinit
    obtain ⟨t, _, hinit⟩ := hinit
    rw [Option.map_eq_some_iff] at hinit
    obtain ⟨m', _, rfl⟩ := hinit
    rw [hw]
  have hP := hS.pool_bytes
  have hlive : w.live = [] := by rw [hw]
  obtain ⟨a', m', r, hload, hsome, _, hb⟩ := f.C72_load_partial hS hF hno hrun hin hc hn (by omega) hlen
  have hr : r.isSome := hsome.mpr ⟨0, by omega, fun i _ _ b hb => by rw [hlive] at hb; simp at hb⟩
  obtain ⟨b, rfl⟩ := Option.isSome_iff_exists.mp hr
  obtain ⟨hv, hbn, hbc, _, hread, _⟩ := hb b rfl
  -- the buffer lies in the pool
  have hback : ∃ k, b.Backed m' w.a.obj k := by
    have hch : (if f.channels ≥ 2 then 2 else 1) = f.channels := by rcases hc with h | h <;> simp [h]
    obtain ⟨a2, b2, ha2, hiff, _⟩ := C04_alloc_iff_gap hS hF hno hrun hin hn hc (show f.frames * f.channels < 2 ^ 64 by omega)
    have hv2 := hiff.mpr (hsome.mp hr)
    obtain ⟨p, hd, hbn2, hbc2, _, ⟨hfe, _⟩⟩ := C05_first_fit_lowest hS hF hno hrun (by omega) ha2 hv2
    have hpool := hinv.pool
    obtain ⟨m2, hm1, hm2⟩ := f.read_spec (m := w.mem) (o := w.a.obj) (k := p) (items := f.frames * f.channels) (by have := hfe.1; omega)
    rw [f.load_valid (by rw [hch]; exact ha2) hv2 (by omega), hd, hm1] at hload
    simp only [Option.map_some, Option.some.injEq, Prod.mk.injEq] at hload
    obtain ⟨_, rfl, rfl⟩ := hload
    have hl : (m2 w.a.obj).length = P := by
      rw [← hpool]
      apply le_antisymm
      · by_contra hlt
        have := hm2 w.a.obj (w.mem w.a.obj).length
        rw [if_neg (by rintro ⟨_, h1, h2⟩; have := hfe.1; omega), List.getElem?_eq_none le_rfl, List.getElem?_eq_none_iff] at this
        omega
      · by_contra hlt
        have := hm2 w.a.obj (m2 w.a.obj).length
        rw [List.getElem?_eq_none le_rfl] at this
        split_ifs at this with h
        · have := List.getElem?_eq_none_iff.mp this.symm
          omega
        · have := List.getElem?_eq_none_iff.mp this.symm
          omega
    exact ⟨p, hd, by rw [hbc2]; exact hc, by rw [hbn2, hbc2, hl]; exact hfe.1, by omega⟩
  obtain ⟨k, hk⟩ := hback
  rw [hw] at hload
  have hset : setup P M f R c w0.a w0.mem old = some (m', some
      { configurePlayback (Arith.ofNat R) c { old with fileSampleRate := Arith.ofInt f.samplerate, audioBuffer := b } with
        bufRd := ⟨some b, true, 4⟩ }) := by
    rw [setup, hinit]
    simp only [Option.bind_some, hload, Option.map_some]
    rfl
  refine ⟨m', _, b, w.a.obj, k, hset, hk, hv, hbn, ?_⟩
  simp only [configurePlayback, hv, if_true, hbn]
  exact ⟨trivial, trivial, rfl, rfl, rfl, rfl, hread⟩

/-- Reads that are all defined give defined audio. -/
theorem render_some {sample : ℕ → Option (Stereo α)} (h : ∀ k, sample k ≠ none) (n k : ℕ) (d : StereoDownsampler.SDown α) :
    render sample n k d ≠ none := by
  induction n generalizing k d with
  | zero => simp [render]
  | succ n ih =>
    rw [render]
    obtain ⟨x, hx⟩ := Option.ne_none_iff_exists'.mp (h k)
    obtain ⟨y, hy⟩ := Option.ne_none_iff_exists'.mp (h (k + 1))
    rw [hx, hy]
    simp only [Option.bind_some]
    simpa using ih (k + 2) _

/-- What the two halves of `drive` do. -/
theorem feed_drive (l : Lag.Filt α) (p : Phasor.Ph α) (x : ℕ → α) (k : ℕ) :
    (feed drive (l, p) x k).1 = feed Lag.tick l x k ∧ (feed drive (l, p) x k).2.start = p.start ∧
      (feed drive (l, p) x k).2.stop = p.stop ∧ (feed drive (l, p) x 0).2.value = p.value ∧
      heard drive (l, p) x k = Phasor.wrap (feed drive (l, p) x k).2.value p.start p.stop ∧
      (feed drive (l, p) x (k + 1)).2.value = heard drive (l, p) x k + heard Lag.tick l x k := by
  have key : ∀ k, (feed drive (l, p) x k).1 = feed Lag.tick l x k ∧ (feed drive (l, p) x k).2.start = p.start ∧
      (feed drive (l, p) x k).2.stop = p.stop := by
    intro k
    induction k with
    | zero => exact ⟨rfl, rfl, rfl⟩
    | succ k ih =>
      refine ⟨?_, ?_, ?_⟩
      · rw [feed, feed, ← ih.1]; rfl
      · rw [← ih.2.1]; rfl
      · rw [← ih.2.2]; rfl
  obtain ⟨k1, k2, k3⟩ := key k
  have h1 : heard drive (l, p) x k = Phasor.wrap (feed drive (l, p) x k).2.value p.start p.stop := by
    rw [← k2, ← k3]; rfl
  refine ⟨k1, k2, k3, rfl, h1, ?_⟩
  rw [heard, heard, ← k1]
  rfl

/-- The controls of the blocks, as a sequence of target rates for the internal samples: all of them the same. -/
theorem controls_const {bs : List (ℕ × α)} {c : α} (h : ∀ b ∈ bs, b.2 = c) :
    controls bs = List.replicate (bs.map Prod.fst).sum c := by
  induction bs with
  | nil => rfl
  | cons b bs ih =>
    rw [controls, List.flatMap_cons, h b (by simp)]
    have := ih fun b hb => h b (by simp [hb])
    rw [controls] at this
    rw [this, List.map_cons, List.sum_cons, List.replicate_add]

end generic

/-! ## Ideal numbers -/

/-- Position and smoothed rate over the reals. -/
theorem drive_ideal (l : Lag.Filt ℝ) (p : Phasor.Ph ℝ) (hs : p.start = 0) (hp : 0 < p.stop) (x : ℕ → ℝ) (k : ℕ) :
    0 ≤ heard drive (l, p) x k ∧ heard drive (l, p) x k < p.stop ∧
      ∃ z : ℤ, heard drive (l, p) x k = p.value + ∑ i ∈ Finset.range k, heard Lag.tick l x i + z * p.stop := by
  have key : ∀ k, ∃ z : ℤ, (feed drive (l, p) x k).2.value = p.value + ∑ i ∈ Finset.range k, heard Lag.tick l x i + z * p.stop := by
    intro k
    induction k with
    | zero => exact ⟨0, by simp [feed]⟩
    | succ k ih =>
      obtain ⟨z, hz⟩ := ih
      obtain ⟨_, _, _, _, h5, h6⟩ := feed_drive l p x k
      obtain ⟨_, y, hy⟩ := (Phasor.wrap_real (feed drive (l, p) x k).2.value p.start p.stop).1 (by rw [hs]; exact hp)
      refine ⟨z + y, ?_⟩
      rw [h6, h5, hy, hz, hs, Finset.sum_range_succ]
      push_cast; ring
  obtain ⟨z, hz⟩ := key k
  obtain ⟨_, _, _, _, h5, _⟩ := feed_drive l p x k
  obtain ⟨⟨h1, h2⟩, y, hy⟩ := (Phasor.wrap_real (feed drive (l, p) x k).2.value p.start p.stop).1 (by rw [hs]; exact hp)
  rw [← h5] at h1 h2 hy
  refine ⟨by rw [hs] at h1; exact h1, h2, z + y, ?_⟩
  rw [hy, hz, hs]; push_cast; ring

/-- With the rate at its target the smoother changes nothing. -/
theorem lag_hold (l : Lag.Filt ℝ) (x : ℝ) (h : l.prevOutput = x) (k : ℕ) : heard Lag.tick l (fun _ => x) k = x := by
  have key : ∀ k, (feed Lag.tick l (fun _ => x) k).coeff = l.coeff ∧ (feed Lag.tick l (fun _ => x) k).prevOutput = x := by
    intro k
    induction k with
    | zero => exact ⟨rfl, h⟩
    | succ k ih =>
      refine ⟨ih.1, ?_⟩
      rw [feed]
      simp only [Lag.tick, ih.1, ih.2, real_arith]
      push_cast; ring
  rw [heard]
  simp only [Lag.tick, (key k).1, (key k).2, real_arith]
  push_cast; ring

open BufferAllocator in
/-- **C73, the player in ideal arithmetic.** Whatever mono or stereo file fits the pool, whatever blocks the server asks for and however
the control moves: the audio is the downsampled sequence of interpolated reads of the loaded buffer, two per frame, at positions in
`[0, length)` that advance, modulo the length of the file, by the smoothed rate. The smoothed rate starts at, and pursues with the
200 ms coefficient, `file rate / (2 * server rate) * control`. -/
theorem C73_plays {P M : ℕ} (hS : Sizes P M) {w0 : World ℝ} (hF : Fresh P M w0) (f : SndFile ℝ) (hc : f.channels = 1 ∨ f.channels = 2)
    (hn : 0 < f.frames) (hfit : f.frames * f.channels ≤ P) (hlen : f.data.length ≤ f.frames * f.channels) (R : ℕ) (c0 : ℝ) (old : State ℝ) :
    ∃ m s b, setup P M f R c0 w0.a w0.mem old = some (m, some s) ∧ b.numSamples = f.frames ∧
      (∀ i, (i + 1) * f.channels ≤ f.data.length → b.getStereoSample m i = f.frame i ∧ (f.frame i).isSome) ∧
      ∀ bs : List (ℕ × ℝ), ∃ pos rate : ℕ → ℝ,
        (playBlocks m s bs).map (·.2) =
          render (fun k => BufRd.tickStereo ⟨some b, true, 4⟩ m (pos k)) (controls bs).length 0 (StereoDownsampler.init (R : ℝ) 2) ∧
        rate 0 = f.samplerate / (2 * R) * c0 ∧
        (∀ k (h : k / 2 < (controls bs).length), rate (k + 1) = Real.exp (-6.907755 / (0.2 * (2 * R))) * rate k +
          (1 - Real.exp (-6.907755 / (0.2 * (2 * R)))) * (f.samplerate / (2 * R) * (controls bs)[k / 2])) ∧
        ∀ k, 0 ≤ pos k ∧ pos k < f.frames ∧ ∃ z : ℤ, pos k = ∑ i ∈ Finset.range k, rate (i + 1) + z * f.frames := by
  obtain ⟨m, s, b, o, k, h1, _, _, hbn, _, h5, h6, h7, h8, h9, h10⟩ := setup_spec hS hF f hc hn hfit hlen R c0 old
  refine ⟨m, s, b, h1, hbn, h10, fun bs => ?_⟩
  obtain ⟨x, hx⟩ : ∃ x : ℕ → ℝ, ∀ k (h : k / 2 < (controls bs).length), x k = s.basePlaybackRate * (controls bs)[k / 2] :=
    ⟨fun k => if h : k / 2 < (controls bs).length then s.basePlaybackRate * (controls bs)[k / 2] else 0, fun k h => by simp [h]⟩
  obtain ⟨p1, _⟩ := playFrames_eq m (controls bs) s x hx
  have hbase : s.basePlaybackRate = f.samplerate / (2 * R) := by
    rw [h6]; simp only [real_arith]; push_cast; ring
  have hco : ∀ k, (feed Lag.tick s.rateLag x k).coeff = Real.exp (-6.907755 / (0.2 * (2 * R))) := by
    intro k
    induction k with
    | zero =>
      rw [feed, h7]
      simp only [Lag.setValue, Lag.init, Lag.setLagTime, real_arith]
      rw [if_neg (by norm_num)]
      push_cast
      congr 2
      ring
    | succ k ih => rw [← ih]; rfl
  refine ⟨heard drive (s.rateLag, s.phasor) x, fun k => (feed Lag.tick s.rateLag x k).prevOutput, ?_, ?_, ?_, ?_⟩
  · rw [playBlocks_eq, p1, h5, h9]
    simp only [real_arith]
  · rw [← hbase]; show s.rateLag.prevOutput = _; rw [h7]; rfl
  · intro k h
    show (Lag.tick (feed Lag.tick s.rateLag x k) (x k)).1.prevOutput = _
    rw [Lag.tick, hco, hx k h, hbase]
    simp only [real_arith]
    push_cast
    rfl
  · intro k
    have hst : s.phasor.stop = f.frames := by rw [h8]; simp only [Phasor.set, real_arith]
    have hs0 : s.phasor.start = 0 := by rw [h8]; simp only [Phasor.set, real_arith]; simp
    have hv : s.phasor.value = 0 := by rw [h8]; simp only [Phasor.set, real_arith]; simp
    have := drive_ideal s.rateLag s.phasor hs0 (by rw [hst]; exact_mod_cast hn) x k
    rw [hst, hv, zero_add] at this
    exact this

open BufferAllocator in
/-- **C73, the speed.** With the control left alone at `c`, internal sample `k` (two per frame of output) is read at
`k * file rate / (2 * server rate) * c` modulo the length of the file: after `t` seconds the player has advanced by exactly
`t * file rate * c` frames. -/
theorem C73_speed {P M : ℕ} (hS : Sizes P M) {w0 : World ℝ} (hF : Fresh P M w0) (f : SndFile ℝ) (hc : f.channels = 1 ∨ f.channels = 2)
    (hn : 0 < f.frames) (hfit : f.frames * f.channels ≤ P) (hlen : f.data.length ≤ f.frames * f.channels) (R : ℕ) (c : ℝ) (old : State ℝ) :
    ∃ m s b, setup P M f R c w0.a w0.mem old = some (m, some s) ∧
      ∀ bs : List (ℕ × ℝ), (∀ x ∈ bs, x.2 = c) → ∃ pos : ℕ → ℝ,
        (playBlocks m s bs).map (·.2) =
          render (fun k => BufRd.tickStereo ⟨some b, true, 4⟩ m (pos k)) (bs.map Prod.fst).sum 0 (StereoDownsampler.init (R : ℝ) 2) ∧
        ∀ k, 0 ≤ pos k ∧ pos k < f.frames ∧ ∃ z : ℤ, pos k = k * (f.samplerate / (2 * R) * c) + z * f.frames := by
  obtain ⟨m, s, b, o, k, h1, _, _, hbn, _, h5, h6, h7, h8, h9, h10⟩ := setup_spec hS hF f hc hn hfit hlen R c old
  refine ⟨m, s, b, h1, fun bs hbs => ⟨heard drive (s.rateLag, s.phasor) (fun _ => s.basePlaybackRate * c), ?_, fun k => ?_⟩⟩
  · obtain ⟨p1, _⟩ := playFrames_eq m (controls bs) s (fun _ => s.basePlaybackRate * c) (fun k h => by
      simp only [controls_const hbs, List.getElem_replicate])
    rw [playBlocks_eq, p1, h5, h9, controls_const hbs, List.length_replicate]
    simp only [real_arith]
  · have hst : s.phasor.stop = f.frames := by rw [h8]; simp only [Phasor.set, real_arith]
    have hs0 : s.phasor.start = 0 := by rw [h8]; simp only [Phasor.set, real_arith]; simp
    have hv : s.phasor.value = 0 := by rw [h8]; simp only [Phasor.set, real_arith]; simp
    have := drive_ideal s.rateLag s.phasor hs0 (by rw [hst]; exact_mod_cast hn) (fun _ => s.basePlaybackRate * c) k
    rw [hst, hv, zero_add] at this
    simp only [lag_hold s.rateLag (s.basePlaybackRate * c) (by rw [h7]; rfl)] at this
    rw [Finset.sum_const, Finset.card_range, nsmul_eq_mul] at this
    rw [show (f.samplerate / (2 * R) : ℝ) = s.basePlaybackRate by rw [h6]; simp only [real_arith]; push_cast; ring]
    exact this

/-! ## Single precision -/

section single
open FP

theorem rep_frac {q : ℚ} (z k : ℤ) (hk : -149 ≤ k ∧ k ≤ 100) (hz : |z| ≤ 2 ^ 24) (h : q = z * (2:ℚ) ^ k) : binary32.Rep q false :=
  h ▸ rep_on hk hz

/-- The coefficient of the 200 ms smoother at twice any usual server rate. -/
theorem coeff_usual [Libm F32] [LibmSpec] {R : ℕ} (h1 : 8000 ≤ R) (h2 : R ≤ 200000) :
    (Lag.init (Arith.ofNat R * Arith.ofNat 2 : F32) (lit 0.2)).coeff.In (1 / 2) (1 - 1 / 20000) := by
  have q1 : (8000:ℚ) ≤ R := by exact_mod_cast h1
  have q2 : (R:ℚ) ≤ 200000 := by exact_mod_cast h2
  have hR := CombC.ofNat_in (n := R) (by omega)
  have h22 := CombC.ofNat_in (n := 2) (by norm_num)
  have hRR : (Arith.ofNat R * Arith.ofNat 2 : F32).In (R * 2) (R * 2) := by
    have hrep : binary32.Rep ((R:ℚ) * 2) false := by
      have := CombC.repNat (n := R * 2) (by omega)
      push_cast at this; exact this
    refine mul_in hR.1 h22.1 hrep hrep ?_ ?_ <;> rw [hR.val_eq, h22.val_eq] <;> norm_num
  have hl : (lit 0.2 : F32).In (1999 / 10000) (2001 / 10000) := ⟨by decide +kernel, by decide +kernel, by decide +kernel⟩
  have h6 : (-lit 6.907755 : F32).In (-(691 / 100)) (-(69 / 10)) := ⟨by decide +kernel, by decide +kernel, by decide +kernel⟩
  have hz := lit_zero (f := binary32)
  have hns : (lit 0.2 * (Arith.ofNat R * Arith.ofNat 2) : F32).In 3072 81920 := by
    refine mul_in hl.1 hRR.1 ?_ ?_ ?_ ?_
    · have := CombC.repNat (n := 3072) (by norm_num); push_cast at this; exact this
    · have := CombC.repNat (n := 81920) (by norm_num); push_cast at this; exact this
    · rw [hRR.val_eq]; nlinarith [hl.2.1]
    · rw [hRR.val_eq]; nlinarith [hl.2.2]
  have hnp : 0 < (lit 0.2 * (Arith.ofNat R * Arith.ofNat 2) : F32).val := lt_of_lt_of_le (by norm_num) hns.2.1
  have hq : (-lit 6.907755 / (lit 0.2 * (Arith.ofNat R * Arith.ofNat 2)) : F32).In (-(1 / 256)) (-(1 / 16384)) := by
    refine div_in h6.1 hns.1 hnp.ne' ?_ ?_ ?_ ?_
    · exact rep_frac (-1) (-8) (by decide) (by decide) (by norm_num)
    · exact rep_frac (-1) (-14) (by decide) (by decide) (by norm_num)
    · rw [le_div_iff₀ hnp]; norm_num; nlinarith [hns.2.1, h6.2.1]
    · rw [div_le_iff₀ hnp]; norm_num; nlinarith [hns.2.2, h6.2.2]
  have hne : ¬ ((lit 0.2 : F32) <=. lit 0) = true := by decide +kernel
  have hco : (Lag.init (Arith.ofNat R * Arith.ofNat 2 : F32) (lit 0.2)).coeff =
      Libm.exp (-lit 6.907755 / (lit 0.2 * (Arith.ofNat R * Arith.ofNat 2)) : F32) := by
    rw [Lag.init, Lag.setLagTime, if_neg hne]
  obtain ⟨q, hqv⟩ : ∃ q : F32, q = -lit 6.907755 / (lit 0.2 * (Arith.ofNat R * Arith.ofNat 2)) := ⟨_, rfl⟩
  rw [hco, ← hqv]
  rw [← hqv] at hq
  have hq0 : q.val ≤ 0 := hq.2.2.trans (by norm_num)
  have hin := LibmSpec.exp_nonpos q (Or.inr ⟨hq.1, hq0⟩)
  have hacc := LibmSpec.exp_acc q hq.1 hq0
  have e23 : (2:ℝ) ^ (-23:ℤ) = 1 / 8388608 := by norm_num
  rw [abs_le, e23] at hacc
  have b1 : (1:ℝ) + q.val ≤ Real.exp q.val := by linarith [Real.add_one_le_exp (q.val:ℝ)]
  have g1 : (-(1 / 256) : ℝ) ≤ q.val := by have := (Rat.cast_le (K := ℝ)).mpr hq.2.1; push_cast at this; exact this
  have g2 : (q.val : ℝ) ≤ -(1 / 16384) := by have := (Rat.cast_le (K := ℝ)).mpr hq.2.2; push_cast at this; exact this
  have b2 : Real.exp q.val ≤ 1 / (1 + 1 / 16384) := by
    have : Real.exp q.val * Real.exp (-q.val) = 1 := by rw [← Real.exp_add]; simp
    rw [le_div_iff₀ (by positivity)]
    have e1 := Real.add_one_le_exp (-(q.val:ℝ))
    have e2 := Real.exp_pos (q.val:ℝ)
    nlinarith
  refine ⟨hin.1, ?_, ?_⟩
  · rw [← Rat.cast_le (K := ℝ)]
    push_cast
    linarith [hacc.1]
  · rw [← Rat.cast_le (K := ℝ)]
    have : 1 / (1 + 1 / 16384 : ℝ) ≤ 1 - 1 / 20000 - 1 / 8388608 := by norm_num
    push_cast
    linarith [hacc.2]

/-- `1 - c` is exact for a coefficient of at least one half. -/
theorem one_sub_exact {c : F32} (hc : c.In (1 / 2) 1) : ∃ z : ℤ, 0 ≤ z ∧ z ≤ 2 ^ 23 ∧ On (-24) c (2 ^ 24 - z) ∧ On (-24) (lit 1 - c) z := by
  obtain ⟨n, hn⟩ := (grid_val c).mult (k := -24) (by
    rw [abs_of_nonneg (le_trans (by norm_num) hc.2.1)]
    refine le_trans (le_of_eq ?_) hc.2.1
    norm_num [binary32])
  have hcn : On (-24) c n := ⟨hc.1, hn⟩
  have h1 := hc.2.1
  have h2 := hc.2.2
  rw [hn] at h1 h2
  have n1 : (2 ^ 23 : ℤ) ≤ n := by
    have : ((2 ^ 23 : ℤ) : ℚ) ≤ n := by norm_num at h1 ⊢; linarith
    exact_mod_cast this
  have n2 : n ≤ (2 ^ 24 : ℤ) := by
    have : (n : ℚ) ≤ ((2 ^ 24 : ℤ) : ℚ) := by norm_num at h2 ⊢; linarith
    exact_mod_cast this
  have hone : On (-24) (lit 1 : F32) (2 ^ 24) := ⟨lit_one.1, by rw [lit_one.val_eq]; norm_num⟩
  refine ⟨2 ^ 24 - n, by omega, by omega, by rw [sub_sub_cancel]; exact hcn, ?_⟩
  exact hone.sub (by norm_num) hcn (by rw [abs_le]; omega)

/-- The smoother holds a rate of one half exactly. -/
theorem lag_half {l : Lag.Filt F32} {x : F32} (hc : l.coeff.In (1 / 2) 1) (hp : l.prevOutput.In (1 / 2) (1 / 2)) (hx : x.In (1 / 2) (1 / 2)) :
    (Lag.tick l x).2.In (1 / 2) (1 / 2) := by
  obtain ⟨z, z0, z1, h1, h2⟩ := one_sub_exact hc
  have hm : ∀ {a b : F32} {w : ℤ}, |w| ≤ 2 ^ 24 → On (-24) a w → b.In (1 / 2) (1 / 2) → On (-25) (a * b) w := by
    intro a b w hw ha hb
    have e : a.val * b.val = w * (2:ℚ) ^ (-25:ℤ) := by rw [ha.2, hb.val_eq]; norm_num; ring
    exact In.toOn (mul_in ha.1 hb.1 (rep_on (by norm_num) hw) (rep_on (by norm_num) hw) e.ge e.le)
  have := (hm (by rw [abs_le]; omega) h1 hp).add (by norm_num) (hm (by rw [abs_le]; omega) h2 hx) (by rw [sub_add_cancel]; norm_num)
  rw [sub_add_cancel] at this
  refine ⟨this.1, ?_, ?_⟩
  · show _ ≤ (l.coeff * l.prevOutput + (lit 1 - l.coeff) * x).val
    rw [this.2]; norm_num
  · show (l.coeff * l.prevOutput + (lit 1 - l.coeff) * x).val ≤ _
    rw [this.2]; norm_num

/-- A rate between 0.45 and 0.5 keeps the smoothed rate between 0.4 and 0.5. -/
theorem lag_near {l : Lag.Filt F32} {x : F32} (hc : l.coeff.In (1 / 2) (1 - 1 / 20000)) (hp : l.prevOutput.In (2 / 5) (1 / 2))
    (hx : x.In (9 / 20) (1 / 2)) : (Lag.tick l x).2.In (2 / 5) (1 / 2) := by
  obtain ⟨z, z0, z1, h1, h2⟩ := one_sub_exact (hc.mono le_rfl (by norm_num))
  have hz0 : (0:ℚ) ≤ z := by exact_mod_cast z0
  have hcd : (lit 1 - l.coeff).val = 1 - l.coeff.val := by rw [h1.2, h2.2]; push_cast; norm_num; ring
  have c0 := hc.2.1
  have c1 := hc.2.2
  obtain ⟨d, hd⟩ : ∃ d : F32, d = lit 1 - l.coeff := ⟨_, rfl⟩
  rw [← hd] at h2 hcd
  have hr0 : binary32.Rep 0 false := rep_zero
  -- both products: nonnegative, at most half the weight, and within 2^-25
  have hm : ∀ {a b : F32} {w : ℤ}, 0 ≤ w → w ≤ 2 ^ 24 → On (-24) a w → b.In 0 (1 / 2) →
      (a * b).isFin = true ∧ (a * b).val ≤ a.val / 2 ∧ a.val * b.val - 2 ^ (-25:ℤ) ≤ (a * b).val ∧ 0 ≤ (a * b).val := by
    intro a b w w0 w1 ha hb
    have hw0 : (0:ℚ) ≤ w := by exact_mod_cast w0
    have hw1 : (w:ℚ) ≤ 2 ^ 24 := by exact_mod_cast w1
    have ha0 : 0 ≤ a.val := by rw [ha.2]; positivity
    have ha1 : a.val ≤ 1 := by rw [ha.2]; norm_num at hw1 ⊢; linarith
    have hu : binary32.Rep (a.val / 2) false := rep_frac w (-25) (by norm_num) (by rw [abs_le]; omega) (by rw [ha.2]; norm_num; ring)
    have p0 : 0 ≤ a.val * b.val := mul_nonneg ha0 hb.2.1
    have p1 : a.val * b.val ≤ a.val / 2 := by nlinarith [hb.2.2]
    have hI := mul_in ha.1 hb.1 hr0 hu p0 p1
    have hV := mul_val ha.1 hb.1 hr0 hu p0 p1
    have hE := rnd_err_unit (x := a.val * b.val) (by rw [abs_of_nonneg p0]; linarith)
    rw [abs_le] at hE
    exact ⟨hI.1, hI.2.2, by rw [hV.2]; linarith [hE.2], hI.2.1⟩
  obtain ⟨A0, A1, A2, A3⟩ := hm (by omega) (by omega) h1 (hp.mono (by norm_num) le_rfl)
  obtain ⟨B0, B1, B2, B3⟩ := hm z0 (by omega) h2 (hx.mono (by norm_num) le_rfl)
  rw [hcd] at B1 B2
  have hhalf : binary32.Rep (1 / 2) false := rep_frac 1 (-1) (by norm_num) (by norm_num) (by norm_num)
  have s0 : 0 ≤ (l.coeff * l.prevOutput).val + (d * x).val := by linarith
  have s1 : (l.coeff * l.prevOutput).val + (d * x).val ≤ 1 / 2 := by linarith
  have hV := add_val A0 B0 hr0 hhalf s0 s1
  have hI := add_in (in_val A0) (in_val B0) hr0 hhalf s0 s1
  have hE := rnd_err_unit (x := (l.coeff * l.prevOutput).val + (d * x).val) (by rw [abs_of_nonneg s0]; linarith)
  rw [abs_le] at hE
  have hout : (Lag.tick l x).2 = l.coeff * l.prevOutput + d * x := by rw [hd]; rfl
  rw [hout]
  refine ⟨hI.1, ?_, hI.2.2⟩
  rw [hV.2]
  have t1 : (2:ℚ) ^ (-25:ℤ) = 1 / 33554432 := by norm_num
  rw [t1] at hE A2 B2
  have t2 : l.coeff.val * (2 / 5) ≤ l.coeff.val * l.prevOutput.val := mul_le_mul_of_nonneg_left hp.2.1 (by linarith)
  have t3 : (1 - l.coeff.val) * (9 / 20) ≤ (1 - l.coeff.val) * x.val := mul_le_mul_of_nonneg_left hx.2.1 (by linarith)
  linarith [hE.2]

/-- Within the loop the phasor does not wrap. -/
theorem wrap_inside {v a b : F32} (ha : a.In 0 0) (hb : b.isFin = true) (hv : v.isFin = true) (h0 : 0 ≤ v.val) (h1 : v.val < b.val) :
    Phasor.wrap v a b = v := by
  have hr : (b - a).In b.val b.val := sub_in (in_val hb) ha (rep_val b) (rep_val b) (by simp) (by simp)
  have hz := lit_zero (f := binary32)
  have e0 : ((b - a) >. lit 0) = true := by rw [lt_fin hz.1 hr.1, hz.val_eq, hr.val_eq]; simpa using lt_of_le_of_lt h0 h1
  have e1 : ((v >=. b) || (v <. a)) = false := by
    rw [le_fin hb hv, lt_fin hv ha.1, ha.val_eq]
    simp [h0, h1]
  simp only [Phasor.wrap, e0, if_true, e1, Bool.false_eq_true, if_false]

/-- At `2^23` half a frame is lost in the rounding. -/
theorem rnd_half : binary32.rnd (8388608 + 1 / 2 : ℚ) = 8388608 := by decide +kernel

theorem stuck {v r : F32} (hv : v.In 8388608 8388608) (hr : r.In 0 (1 / 2)) : (v + r).In 8388608 8388608 := by
  have hl : binary32.Rep 8388608 false := rep_frac 1 23 (by norm_num) (by norm_num) (by norm_num)
  have hu : binary32.Rep 8388609 false := rep_frac 8388609 0 (by norm_num) (by norm_num) (by norm_num)
  have h0 := hr.2.1
  have h1 := hr.2.2
  have hV := add_val hv.1 hr.1 hl hu (by rw [hv.val_eq]; linarith) (by rw [hv.val_eq]; linarith)
  have hI := add_in hv hr hl hu (by norm_num) (by norm_num)
  refine ⟨hI.1, hI.2.1, ?_⟩
  rw [hV.2, hv.val_eq]
  exact (binary32.rnd_mono (K := ℚ) (by linarith)).trans rnd_half.le

/-- **C73, speed is lost to rounding.** From position `2^22` on (95 s into a file at 44.1 kHz) positions are half frames apart, so every
rate above a quarter and up to one half advances the player by exactly half a frame. -/
theorem half_steps {v r : F32} (hv : v.isFin = true) (h1 : 4194304 ≤ v.val) (h2 : v.val < 8388608) (hr : r.isFin = true) (hr1 : 1 / 4 < r.val)
    (hr2 : r.val ≤ 1 / 2) : (v + r).In (v.val + 1 / 2) (v.val + 1 / 2) := by
  obtain ⟨n, hn⟩ := (grid_val v).mult (k := -1) (by
    rw [abs_of_nonneg (by linarith)]
    refine le_trans (le_of_eq ?_) h1
    norm_num [binary32])
  have n2 : n < 2 ^ 24 := by
    rw [hn] at h2
    have : (n : ℚ) < ((2 ^ 24 : ℤ) : ℚ) := by norm_num at h2 ⊢; linarith
    exact_mod_cast this
  have n1 : 2 ^ 23 ≤ n := by
    rw [hn] at h1
    have : ((2 ^ 23 : ℤ) : ℚ) ≤ (n : ℚ) := by norm_num at h1 ⊢; linarith
    exact_mod_cast this
  have hg : binary32.Rep (v.val + 1 / 2) false :=
    rep_frac (n + 1) (-1) (by norm_num) (by rw [abs_le]; omega) (by rw [hn]; push_cast; norm_num; ring)
  have hV := add_val hv hr (rep_val v) hg (by linarith) (by linarith)
  have hI := add_in (in_val hv) (in_val hr) (rep_val v) hg (by linarith) (by linarith)
  refine ⟨hI.1, ?_, hI.2.2⟩
  have hnear := binary32.rnd_nearest (K := ℚ) (v.val + r.val) hg.1
  simp only [Rat.cast_id] at hnear
  rw [← hV.2] at hnear
  obtain ⟨k, hk⟩ := (grid_val (v + r)).mult (k := -1) (by
    rw [abs_of_nonneg (by linarith [hI.2.1])]
    refine le_trans (le_of_eq ?_) (h1.trans hI.2.1)
    norm_num [binary32])
  -- the result is a half frame more than a quarter frame above `v`
  have h3 : |v.val + r.val - (v.val + 1 / 2)| = 1 / 2 - r.val := by rw [abs_of_nonpos (by linarith)]; ring
  rw [h3, abs_le] at hnear
  have h4 : v.val < (v + r).val := by linarith [hnear.2]
  rw [hk, hn] at h4
  have h6 : n + 1 ≤ k := by norm_num at h4; exact h4
  have h7 : ((n + 1 : ℤ) : ℚ) ≤ k := by exact_mod_cast h6
  rw [hk, hn]
  push_cast at h7
  norm_num
  linarith

/-- One step of the position at a rate between 0.4 and 0.5: forward by at least an eighth of a frame, but not past `2^23`. -/
theorem creep {v r : F32} (hv : v.In 0 8388608) (hr : r.In (2 / 5) (1 / 2)) :
    (v + r).In (min 8388608 (v.val + 1 / 8)) 8388608 := by
  rcases hv.2.2.lt_or_eq with h | h
  · rcases le_or_gt 4194304 v.val with h1 | h1
    · have := half_steps hv.1 h1 h hr.1 (by linarith [hr.2.1]) hr.2.2
      have h8 : v.val + 1 / 2 ≤ 8388608 := by
        obtain ⟨n, hn⟩ := (grid_val v).mult (k := -1) (by
          rw [abs_of_nonneg (by linarith)]
          refine le_trans (le_of_eq ?_) h1
          norm_num [binary32])
        rw [hn] at h ⊢
        have : (n : ℚ) < ((2 ^ 24 : ℤ) : ℚ) := by norm_num at h ⊢; linarith
        have h9 : n < 2 ^ 24 := by exact_mod_cast this
        have h10 : n + 1 ≤ 2 ^ 24 := h9
        have : ((n + 1 : ℤ) : ℚ) ≤ ((2 ^ 24 : ℤ) : ℚ) := by exact_mod_cast h10
        push_cast at this
        norm_num at this ⊢
        linarith
      exact this.mono ((min_le_right _ _).trans (by linarith)) h8
    · have hu : binary32.Rep 4194305 false := rep_frac 4194305 0 (by norm_num) (by norm_num) (by norm_num)
      have s0 : 0 ≤ v.val + r.val := by linarith [hv.2.1, hr.2.1]
      have s1 : v.val + r.val ≤ 4194305 := by linarith [hr.2.2]
      have hV := add_val hv.1 hr.1 rep_zero hu s0 s1
      have hI := add_in (in_val hv.1) (in_val hr.1) rep_zero hu s0 s1
      refine ⟨hI.1, (min_le_right _ _).trans ?_, hI.2.2.trans (by norm_num)⟩
      have hE := binary32.rnd_err_of_lt (K := ℚ) (x := v.val + r.val) (k := 23) (by
        rw [abs_of_nonneg s0]; norm_num; linarith) (by decide)
      simp only [Rat.cast_id] at hE
      rw [← hV.2, abs_le, show (2:ℚ) ^ (23 - (binary32.prec : ℤ) - 1) = 1 / 4 by norm_num [binary32]] at hE
      linarith [hE.2, hr.2.1]
  · have := stuck (v := v) (r := r) ⟨hv.1, h.ge, h.le⟩ (hr.mono (by norm_num) le_rfl)
    exact this.mono (min_le_left _ _) le_rfl

/-- The number of frames of a long file as a float. -/
theorem ofNat_long {N : ℕ} (h1 : 8388608 < N) (h2 : N < 2 ^ 62) : (Arith.ofNat N : F32).isFin = true ∧ 8388609 ≤ (Arith.ofNat N : F32).val := by
  have q1 : (8388609:ℚ) ≤ N := by exact_mod_cast h1
  have q2 : (N:ℚ) ≤ 2 ^ 62 := by exact_mod_cast h2.le
  have : (Arith.ofNat N : F32).In 8388609 (2 ^ 62) :=
    ofRat_in (rep_frac 8388609 0 (by norm_num) (by norm_num) (by norm_num)) (rep_frac 1 62 (by norm_num) (by norm_num) (by norm_num)) q1 q2
  exact ⟨this.1, this.2.1⟩

/-- The smoothed rate of a file at the server's own rate. -/
theorem rate_half [Libm F32] {l : Lag.Filt F32} {x : ℕ → F32} (hc : l.coeff.In (1 / 2) 1) (hp : l.prevOutput.In (1 / 2) (1 / 2))
    (hx : ∀ k, (x k).In (1 / 2) (1 / 2)) (k : ℕ) : (heard Lag.tick l x k).In (1 / 2) (1 / 2) := by
  have key : ∀ k, (feed Lag.tick l x k).coeff = l.coeff ∧ (feed Lag.tick l x k).prevOutput.In (1 / 2) (1 / 2) := by
    intro k
    induction k with
    | zero => exact ⟨rfl, hp⟩
    | succ k ih => exact ⟨ih.1, lag_half (by rw [ih.1]; exact hc) ih.2 (hx k)⟩
  exact lag_half (by rw [(key k).1]; exact hc) (key k).2 (hx k)

theorem rate_near [Libm F32] {l : Lag.Filt F32} {x : ℕ → F32} (hc : l.coeff.In (1 / 2) (1 - 1 / 20000)) (hp : l.prevOutput.In (2 / 5) (1 / 2))
    (hx : ∀ k, (x k).In (9 / 20) (1 / 2)) (k : ℕ) : (heard Lag.tick l x k).In (2 / 5) (1 / 2) := by
  have key : ∀ k, (feed Lag.tick l x k).coeff = l.coeff ∧ (feed Lag.tick l x k).prevOutput.In (2 / 5) (1 / 2) := by
    intro k
    induction k with
    | zero => exact ⟨rfl, hp⟩
    | succ k ih => exact ⟨ih.1, lag_near (by rw [ih.1]; exact hc) ih.2 (hx k)⟩
  exact lag_near (by rw [(key k).1]; exact hc) (key k).2 (hx k)

/-- Positions at half a frame per internal sample, in a loop of at most `2^23` frames. -/
theorem pos_loop [Libm F32] {l : Lag.Filt F32} {p : Phasor.Ph F32} {x : ℕ → F32} {N : ℕ} (hr : ∀ k, (heard Lag.tick l x k).In (1 / 2) (1 / 2))
    (hs : p.start.In 0 0) (hv : p.value.In 0 0) (he : p.stop.In N N) (h0 : 0 < N) (hN : N ≤ 2 ^ 23) (k : ℕ) :
    On (-1) (heard drive (l, p) x k) ((k:ℤ) % (2 * N)) := by
  have on0 : ∀ {y : F32}, y.In 0 0 → On (-1) y 0 := fun h => ⟨h.1, by rw [h.val_eq]; norm_num⟩
  have hhalf : ∀ {y : F32}, y.In (1 / 2) (1 / 2) → On (-1) y 1 := fun h => ⟨h.1, by rw [h.val_eq]; norm_num⟩
  have hstop : On (-1) p.stop (2 * N) := ⟨he.1, by rw [he.val_eq]; push_cast; norm_num; ring⟩
  have hwrap : ∀ {y : F32} {z : ℤ}, On (-1) y z → 0 ≤ z → z ≤ 2 * N → On (-1) (Phasor.wrap y p.start p.stop) (z % (2 * N)) := by
    intro y z hy z0 z1
    have := Phasor.wrap_on (by norm_num) (on0 hs) hstop hy (by omega) (by norm_num) (by rw [abs_le]; omega) (by omega)
      (by rw [abs_le]; omega)
    simpa using this
  have key : ∀ k : ℕ, ∃ z : ℤ, On (-1) (feed drive (l, p) x k).2.value z ∧ 0 ≤ z ∧ z ≤ 2 * N ∧ z % (2 * N) = (k:ℤ) % (2 * N) := by
    intro k
    induction k with
    | zero => exact ⟨0, on0 hv, le_rfl, by omega, rfl⟩
    | succ k ih =>
      obtain ⟨z, h1, h2, h3, h4⟩ := ih
      obtain ⟨_, _, _, _, h5, h6⟩ := feed_drive l p x k
      have m0 := Int.emod_nonneg z (show (2 * N : ℤ) ≠ 0 by omega)
      have m1 := Int.emod_lt_of_pos z (show (0:ℤ) < 2 * N by omega)
      refine ⟨z % (2 * N) + 1, ?_, by omega, by omega, ?_⟩
      · rw [h6, h5]
        exact (hwrap h1 h2 h3).add (by norm_num) (hhalf (hr k)) (by rw [abs_le]; omega)
      · rw [h4]; push_cast; rw [Int.emod_add_emod]
  obtain ⟨z, h1, h2, h3, h4⟩ := key k
  rw [(feed_drive l p x k).2.2.2.2.1, ← h4]
  exact hwrap h1 h2 h3

/-- Positions at half a frame per internal sample, in a longer file. -/
theorem pos_long [Libm F32] {l : Lag.Filt F32} {p : Phasor.Ph F32} {x : ℕ → F32} (hr : ∀ k, (heard Lag.tick l x k).In (1 / 2) (1 / 2))
    (hs : p.start.In 0 0) (hv : p.value.In 0 0) (he : p.stop.isFin = true) (hN : 8388609 ≤ p.stop.val) (k : ℕ) :
    On (-1) (heard drive (l, p) x k) (min k (2 ^ 24)) := by
  have hval : ∀ {y : F32} {z : ℤ}, On (-1) y z → 0 ≤ z → z ≤ 2 ^ 24 → 0 ≤ y.val ∧ y.val ≤ 8388608 := by
    intro y z hy z0 z1
    have q0 : (0:ℚ) ≤ z := by exact_mod_cast z0
    have q1 : (z:ℚ) ≤ 2 ^ 24 := by exact_mod_cast z1
    rw [hy.2]; norm_num at q1 ⊢; constructor <;> linarith
  have hwrap : ∀ {y : F32} {z : ℤ}, On (-1) y z → 0 ≤ z → z ≤ 2 ^ 24 → Phasor.wrap y p.start p.stop = y := by
    intro y z hy z0 z1
    obtain ⟨v0, v1⟩ := hval hy z0 z1
    exact wrap_inside hs he hy.1 v0 (by linarith)
  have key : ∀ k : ℕ, On (-1) (feed drive (l, p) x k).2.value (min k (2 ^ 24)) := by
    intro k
    induction k with
    | zero => exact ⟨hv.1, by show p.value.val = _; rw [hv.val_eq]; norm_num⟩
    | succ k ih =>
      obtain ⟨_, _, _, _, h5, h6⟩ := feed_drive l p x k
      rw [h6, h5, hwrap ih (by omega) (by omega)]
      have hrk := hr k
      rcases lt_or_ge k (2 ^ 24) with h | h
      · have e : (min ((k + 1 : ℕ) : ℤ) (2 ^ 24)) = min (k:ℤ) (2 ^ 24) + 1 := by omega
        rw [e]
        exact ih.add (by norm_num) ⟨hrk.1, by rw [hrk.val_eq]; norm_num⟩ (by rw [abs_le]; omega)
      · have e1 : (min (k:ℤ) (2 ^ 24)) = 2 ^ 24 := by omega
        have e2 : (min ((k + 1 : ℕ) : ℤ) (2 ^ 24)) = 2 ^ 24 := by omega
        rw [e1] at ih
        rw [e2]
        have := stuck (v := (feed drive (l, p) x k).2.value) ⟨ih.1, by rw [ih.2]; norm_num, by rw [ih.2]; norm_num⟩
          (hrk.mono (by norm_num) le_rfl)
        exact ⟨this.1, by rw [this.val_eq]; norm_num⟩
  rw [(feed_drive l p x k).2.2.2.2.1, hwrap (key k) (by omega) (by omega)]
  exact key k

/-- Positions at a rate between 0.4 and 0.5 in a long file. -/
theorem pos_creep [Libm F32] {l : Lag.Filt F32} {p : Phasor.Ph F32} {x : ℕ → F32} (hr : ∀ k, (heard Lag.tick l x k).In (2 / 5) (1 / 2))
    (hs : p.start.In 0 0) (hv : p.value.In 0 0) (he : p.stop.isFin = true) (hN : 8388609 ≤ p.stop.val) (k : ℕ) :
    (heard drive (l, p) x k).In (min 8388608 (k / 8)) 8388608 ∧
      ((4194304 ≤ (heard drive (l, p) x k).val ∧ (heard drive (l, p) x k).val < 8388608) →
        (heard drive (l, p) x (k + 1)).val = (heard drive (l, p) x k).val + 1 / 2) := by
  have hwrap : ∀ {y : F32} {a : ℚ}, 0 ≤ a → y.In a 8388608 → Phasor.wrap y p.start p.stop = y := by
    intro y a ha hy
    exact wrap_inside hs he hy.1 (ha.trans hy.2.1) (by linarith [hy.2.2])
  have hm : ∀ k : ℕ, (0:ℚ) ≤ min 8388608 ((k:ℚ) / 8) := fun k => le_min (by norm_num) (by positivity)
  have key : ∀ k : ℕ, (feed drive (l, p) x k).2.value.In (min 8388608 (k / 8)) 8388608 := by
    intro k
    induction k with
    | zero => exact hv.mono (by norm_num) (by norm_num)
    | succ k ih =>
      obtain ⟨_, _, _, _, h5, h6⟩ := feed_drive l p x k
      rw [h6, h5, hwrap (hm k) ih]
      refine (creep (ih.mono (hm k) le_rfl) (hr k)).mono ?_ le_rfl
      refine le_min (min_le_left _ _) ?_
      have h7 := ih.2.1
      rcases le_total (8388608:ℚ) ((k:ℚ) / 8) with h | h
      · rw [min_eq_left h] at h7
        exact (min_le_left _ _).trans (by linarith)
      · rw [min_eq_right h] at h7
        refine (min_le_right _ _).trans ?_
        push_cast; linarith
  have hp : ∀ k, heard drive (l, p) x k = (feed drive (l, p) x k).2.value := fun k => by
    rw [(feed_drive l p x k).2.2.2.2.1, hwrap (hm k) (key k)]
  refine ⟨by rw [hp]; exact key k, fun h => ?_⟩
  rw [hp (k + 1), (feed_drive l p x k).2.2.2.2.2]
  have := hr k
  exact (half_steps (by rw [hp]; exact (key k).1) h.1 h.2 this.1 (by linarith [this.2.1]) this.2.2).val_eq

open BufferAllocator in
/-- What all the single-precision statements below share: the program with its control at rest. -/
theorem play_single [Libm F32] [LibmSpec] {P M : ℕ} (hS : Sizes P M) {w0 : World F32} (hF : Fresh P M w0) (f : SndFile F32)
    (hc : f.channels = 1 ∨ f.channels = 2) (hn : 0 < f.frames) (hfit : f.frames * f.channels ≤ P)
    (hlen : f.data.length ≤ f.frames * f.channels) {R : ℕ} (hR1 : 8000 ≤ R) (hR2 : R ≤ 200000) (old : State F32) {lo : ℚ}
    (hrate : (Arith.ofInt f.samplerate / (Arith.ofNat R * Arith.ofNat 2) * lit 1 : F32).In lo (1 / 2)) :
    ∃ m s b, setup P M f R (lit 1) w0.a w0.mem old = some (m, some s) ∧ b.numSamples = f.frames ∧
      (∀ i, (i + 1) * f.channels ≤ f.data.length → b.getStereoSample m i = f.frame i ∧ (f.frame i).isSome) ∧
      s.rateLag.coeff.In (1 / 2) (1 - 1 / 20000) ∧ s.rateLag.prevOutput.In lo (1 / 2) ∧ s.phasor.start.In 0 0 ∧ s.phasor.value.In 0 0 ∧
      s.phasor.stop = Arith.ofNat f.frames ∧
      ∀ pos, pos = heard drive (s.rateLag, s.phasor) (fun _ => Arith.ofInt f.samplerate / (Arith.ofNat R * Arith.ofNat 2) * lit 1) →
        (∀ k, (pos k).isFin = true) → ∀ bs : List (ℕ × F32), (∀ x ∈ bs, x.2 = lit 1) →
        playBlocks m s bs ≠ none ∧ (playBlocks m s bs).map (·.2) =
          render (fun k => BufRd.tickStereo ⟨some b, true, 4⟩ m (pos k)) (bs.map Prod.fst).sum 0 (StereoDownsampler.init (Arith.ofNat R) 2) := by
  obtain ⟨m, s, b, o, k, h1, hback, _, hbn, _, h5, h6, h7, h8, h9, h10⟩ := setup_spec hS hF f hc hn hfit hlen R (lit 1) old
  have hcoeff := coeff_usual hR1 hR2
  refine ⟨m, s, b, h1, hbn, h10, by rw [h7]; exact hcoeff, by rw [h7, h6]; exact hrate, by rw [h8]; exact lit_zero, by rw [h8]; exact lit_zero,
    by rw [h8]; rfl, ?_⟩
  rintro pos rfl hfin bs hbs
  obtain ⟨p1, _⟩ := playFrames_eq m (controls bs) s (fun _ => s.basePlaybackRate * lit 1) (fun k h => by
    simp only [controls_const hbs, List.getElem_replicate])
  rw [h5, h9, controls_const hbs, List.length_replicate, ← controls_const hbs, ← playBlocks_eq, h6] at p1
  refine ⟨fun hnone => ?_, p1⟩
  rw [hnone] at p1
  exact render_some (fun k => (BufRd.C38_safe ⟨some b, true, 4⟩ b rfl m o _ hback _ (Or.inl (hfin k))).2) _ _ _ p1.symm

/-- The rate of a file at the server's own rate is exactly one half. -/
theorem same_rate {R : ℕ} (hR1 : 8000 ≤ R) (hR2 : R ≤ 200000) :
    (Arith.ofInt (R:ℤ) / (Arith.ofNat R * Arith.ofNat 2) * lit 1 : F32).In (1 / 2) (1 / 2) := by
  have q1 : (8000:ℚ) ≤ R := by exact_mod_cast hR1
  have hR := CombC.ofNat_in (n := R) (by omega)
  have hRi : (Arith.ofInt (R:ℤ) : F32).In R R := by simpa [Arith.ofNat] using hR
  have h22 := CombC.ofNat_in (n := 2) (by norm_num)
  have hRR : (Arith.ofNat R * Arith.ofNat 2 : F32).In (R * 2) (R * 2) := by
    have hrep : binary32.Rep ((R:ℚ) * 2) false := by
      have := CombC.repNat (n := R * 2) (by omega)
      push_cast at this; exact this
    refine mul_in hR.1 h22.1 hrep hrep ?_ ?_ <;> rw [hR.val_eq, h22.val_eq] <;> norm_num
  have hhalf : binary32.Rep (1 / 2) false := rep_frac 1 (-1) (by norm_num) (by norm_num) (by norm_num)
  have e : (R:ℚ) / (R * 2) = 1 / 2 := by field_simp
  have hd : (Arith.ofInt (R:ℤ) / (Arith.ofNat R * Arith.ofNat 2) : F32).In (1 / 2) (1 / 2) := by
    refine div_in hRi.1 hRR.1 ?_ hhalf hhalf ?_ ?_
    · rw [hRR.val_eq]; positivity
    · rw [hRi.val_eq, hRR.val_eq, e]
    · rw [hRi.val_eq, hRR.val_eq, e]
  have h1 := lit_one (f := binary32)
  refine mul_in hd.1 h1.1 hhalf hhalf ?_ ?_ <;> rw [hd.val_eq, h1.val_eq] <;> norm_num

open BufferAllocator in
/-- **C73, partial: files at the server's rate, in single precision.** A file of at most `2^23` frames whose rate is the server's plays
bit-exactly in a loop for ever: internal sample `k` is read at exactly `k / 2` modulo the length, for every `k` and any block sizes, and
nothing undefined happens. Missing: other rates and controls (rounding), and files longer than `2^23` frames, for which it is false. -/
theorem C73_same_rate_partial [Libm F32] [LibmSpec] {P M : ℕ} (hS : Sizes P M) {w0 : World F32} (hF : Fresh P M w0) (f : SndFile F32)
    (hc : f.channels = 1 ∨ f.channels = 2) (hn : 0 < f.frames) (hfit : f.frames * f.channels ≤ P)
    (hlen : f.data.length ≤ f.frames * f.channels) {R : ℕ} (hR1 : 8000 ≤ R) (hR2 : R ≤ 200000) (hsr : f.samplerate = R)
    (hshort : f.frames ≤ 2 ^ 23) (old : State F32) :
    ∃ m s b, setup P M f R (lit 1) w0.a w0.mem old = some (m, some s) ∧ b.numSamples = f.frames ∧
      (∀ i, (i + 1) * f.channels ≤ f.data.length → b.getStereoSample m i = f.frame i ∧ (f.frame i).isSome) ∧
      ∃ pos : ℕ → F32, (∀ k : ℕ, On (-1) (pos k) ((k:ℤ) % (2 * f.frames))) ∧
        ∀ bs : List (ℕ × F32), (∀ x ∈ bs, x.2 = lit 1) → playBlocks m s bs ≠ none ∧ (playBlocks m s bs).map (·.2) =
          render (fun k => BufRd.tickStereo ⟨some b, true, 4⟩ m (pos k)) (bs.map Prod.fst).sum 0 (StereoDownsampler.init (Arith.ofNat R) 2) := by
  have hsame := same_rate hR1 hR2
  rw [← hsr] at hsame
  obtain ⟨m, s, b, h1, h2, h3, h4, h5, h6, h7, h8, h9⟩ := play_single hS hF f hc hn hfit hlen hR1 hR2 old hsame
  have hst := CombC.ofNat_in (n := f.frames) (by omega)
  rw [← h8] at hst
  have hpos := fun k => pos_loop (l := s.rateLag) (p := s.phasor)
    (rate_half (h4.mono le_rfl (by norm_num)) h5 (fun _ => hsame)) h6 h7 hst hn hshort k
  exact ⟨m, s, b, h1, h2, h3, _, hpos, h9 _ rfl fun k => (hpos k).1⟩

open BufferAllocator in
/-- **C73, negation: a long file stops at frame `2^23`.** The example's pool holds files of up to 28.8 million mono frames. If the file
has the server's rate and more than `2^23` frames (2 min 55 s at 48 kHz), the player reads position `min(k, 2^24) / 2` at internal sample
`k`: from frame `2^23` on it reads the same position for ever and never reaches the rest of the file. -/
theorem C73_long_file_freezes [Libm F32] [LibmSpec] {P M : ℕ} (hS : Sizes P M) {w0 : World F32} (hF : Fresh P M w0) (f : SndFile F32)
    (hc : f.channels = 1 ∨ f.channels = 2) (hfit : f.frames * f.channels ≤ P)
    (hlen : f.data.length ≤ f.frames * f.channels) {R : ℕ} (hR1 : 8000 ≤ R) (hR2 : R ≤ 200000) (hsr : f.samplerate = R)
    (hlong : 2 ^ 23 < f.frames) (old : State F32) :
    ∃ m s b, setup P M f R (lit 1) w0.a w0.mem old = some (m, some s) ∧ b.numSamples = f.frames ∧
      ∃ pos : ℕ → F32, (∀ k : ℕ, On (-1) (pos k) (min k (2 ^ 24))) ∧
        ∀ bs : List (ℕ × F32), (∀ x ∈ bs, x.2 = lit 1) → playBlocks m s bs ≠ none ∧ (playBlocks m s bs).map (·.2) =
          render (fun k => BufRd.tickStereo ⟨some b, true, 4⟩ m (pos k)) (bs.map Prod.fst).sum 0 (StereoDownsampler.init (Arith.ofNat R) 2) := by
  have hsame := same_rate hR1 hR2
  rw [← hsr] at hsame
  obtain ⟨m, s, b, h1, h2, h3, h4, h5, h6, h7, h8, h9⟩ := play_single hS hF f hc (by omega) hfit hlen hR1 hR2 old hsame
  have hP := hS.pool_bytes
  have hst := ofNat_long (N := f.frames) hlong (by rcases hc with h | h <;> rw [h] at hfit <;> omega)
  rw [← h8] at hst
  have hpos := fun k => pos_long (l := s.rateLag) (p := s.phasor)
    (rate_half (h4.mono le_rfl (by norm_num)) h5 (fun _ => hsame)) h6 h7 hst.1 hst.2 k
  exact ⟨m, s, b, h1, h2, _, hpos, h9 _ rfl fun k => (hpos k).1⟩

open BufferAllocator in
/-- **C73, negation: the speed changes on the way.** The same for every file whose rate is between 90 % and 100 % of the server's (44.1 kHz at
48 kHz: 92 %): from position `2^22` on the player advances by exactly half a frame per internal sample, as if the file had the server's
rate, and from internal sample `2^26` at the latest it stands still at frame `2^23`. -/
theorem C73_resampled_file_freezes [Libm F32] [LibmSpec] {P M : ℕ} (hS : Sizes P M) {w0 : World F32} (hF : Fresh P M w0) (f : SndFile F32)
    (hc : f.channels = 1 ∨ f.channels = 2) (hfit : f.frames * f.channels ≤ P)
    (hlen : f.data.length ≤ f.frames * f.channels) {R : ℕ} (hR1 : 8000 ≤ R) (hR2 : R ≤ 200000)
    (hsr : (Arith.ofInt f.samplerate / (Arith.ofNat R * Arith.ofNat 2) * lit 1 : F32).In (9 / 20) (1 / 2))
    (hlong : 2 ^ 23 < f.frames) (old : State F32) :
    ∃ m s b, setup P M f R (lit 1) w0.a w0.mem old = some (m, some s) ∧ b.numSamples = f.frames ∧
      ∃ pos : ℕ → F32, (∀ k, 2 ^ 22 ≤ (pos k).val → (pos k).val < 2 ^ 23 → (pos (k + 1)).val = (pos k).val + 1 / 2) ∧
        (∀ k, 2 ^ 26 ≤ k → (pos k).In (2 ^ 23) (2 ^ 23)) ∧
        ∀ bs : List (ℕ × F32), (∀ x ∈ bs, x.2 = lit 1) → playBlocks m s bs ≠ none ∧ (playBlocks m s bs).map (·.2) =
          render (fun k => BufRd.tickStereo ⟨some b, true, 4⟩ m (pos k)) (bs.map Prod.fst).sum 0 (StereoDownsampler.init (Arith.ofNat R) 2) := by
  obtain ⟨m, s, b, h1, h2, h3, h4, h5, h6, h7, h8, h9⟩ := play_single hS hF f hc (by omega) hfit hlen hR1 hR2 old hsr
  have hP := hS.pool_bytes
  have hst := ofNat_long (N := f.frames) hlong (by rcases hc with h | h <;> rw [h] at hfit <;> omega)
  rw [← h8] at hst
  have hpos := fun k => pos_creep (l := s.rateLag) (p := s.phasor)
    (rate_near h4 (h5.mono (by norm_num) le_rfl) (fun _ => hsr)) h6 h7 hst.1 hst.2 k
  refine ⟨m, s, b, h1, h2, _, fun k hk1 hk2 => (hpos k).2 ⟨by norm_num at hk1; exact hk1, by norm_num at hk2; exact hk2⟩, fun k hk => ?_,
    h9 _ rfl fun k => (hpos k).1.1⟩
  have hkq : (67108864 : ℚ) ≤ k := by exact_mod_cast (show 67108864 ≤ k by omega)
  refine (hpos k).1.mono (le_min (by norm_num) ?_) (by norm_num)
  rw [show (2:ℚ) ^ 23 = 8388608 by norm_num]
  linarith

/-! ## Non-trivial instances -/

/-- A mono file of nine million frames at 48 kHz (3 min 7 s) in the example's pool, and the same at 44.1 kHz. -/
def exLongFile : SndFile F32 := ⟨48000, 1, 9000000, [lit 1, lit 2]⟩
/-- the example's pool and table, as constructed -/
def exPool : BufferAllocator.World F32 :=
  { a := BufferAllocator.construct 0 (List.replicate 256 ⟨0, 0, false⟩), mem := fun _ => List.replicate 28800000 (lit 7), live := [] }

example : BufferAllocator.Sizes 28800000 256 := ⟨by norm_num, by norm_num, by norm_num, by norm_num⟩
example : BufferAllocator.Fresh 28800000 256 exPool := ⟨List.length_replicate, List.length_replicate, rfl, rfl⟩
example : exLongFile.frames * exLongFile.channels ≤ 28800000 ∧ 2 ^ 23 < exLongFile.frames ∧ exLongFile.samplerate = (48000 : ℕ) ∧
    exLongFile.data.length ≤ exLongFile.frames * exLongFile.channels := ⟨by decide, by decide, rfl, by decide⟩
example : (Arith.ofInt 44100 / (Arith.ofNat 48000 * Arith.ofNat 2) * lit 1 : F32).In (9 / 20) (1 / 2) :=
  ⟨by decide +kernel, by decide +kernel, by decide +kernel⟩

end single

end Verif.JackPlayback
