import Verif.Lemmas.Polarity
import Verif.Props.LadderBounds
import Verif.Lemmas.Tanh
import Verif.Props.KrajeskiFloat
import Verif.Model.Tape
import Verif.Model.Filters

/-!
# C102: turning the signal upside down

The filters have no preferred polarity: the same calls with the opposite input samples give the opposite output samples, to the last bit
(rounding to nearest is symmetric), saturation, clipping and all.
-/

namespace Verif
open Polar

variable {α β : Type} [Arith α] [Polar α] [Arith β] [Polar β] [Conv α β] [Conv β α] [PolarConv α β] [PolarConv β α]

/-- `y` is `x` with the other sign. -/
def Opposite (x y : α) : Prop := Sg true x y

omit [Arith α] [Polar α] [Arith β] [Polar β] [Conv α β] [Conv β α] [PolarConv α β] [PolarConv β α] in
/-- What `Opposite` means in floating point: both NaN, or `y == -x` in the sense of C++ (the two zeros are equal). -/
theorem C102_opposite_float {f : Fmt} (x y : FP f) : Opposite x y ↔ (x = .nan ∧ y = .nan) ∨ (y ==. -x) = true := by
  cases x <;> cases y <;> simp [Opposite, Sg, FP.Sgn, Arith.eq, FP.eq, Neg.neg, FP.neg]

omit [Arith α] [Polar α] [Arith β] [Polar β] [Conv α β] [Conv β α] [PolarConv α β] [PolarConv β α] in
/-- What `Opposite` means for real numbers. -/
theorem C102_opposite_real (x y : ℝ) : Opposite x y ↔ y = -x := by simp [Opposite, Sg]

/-- A block loop whose step keeps a relation between two states while the inputs are opposite. -/
theorem forEach_opposite {σ : Type} {step : σ → α → σ × α} {R : σ → σ → Prop}
    (h : ∀ s s' x y, R s s' → Sg true x y → R (step s x).1 (step s' y).1 ∧ Sg true (step s x).2 (step s' y).2) (xs : List α) :
    ∀ s s', R s s' → List.Forall₂ Opposite (forEach step s xs).2 (forEach step s' (xs.map (-·))).2 := by
  induction xs with
  | nil => intro s s' _; simp [forEach]
  | cons x xs ih =>
    intro s s' hR
    obtain ⟨h1, h2⟩ := h s s' x (-x) hR (opp x)
    simp only [List.map_cons, forEach]
    exact List.Forall₂.cons h2 (ih _ _ h1)

theorem mul_left {a b : α} (k : α) (h : Sg true a b) : Sg true (k * a) (k * b) := by simpa using mul (refl k) h
theorem mul_right {a b : α} (k : α) (h : Sg true a b) : Sg true (a * k) (b * k) := by simpa using mul h (refl k)

/-! ### The linear filters -/

section linear

omit [Arith β] [Polar β] [Conv α β] [Conv β α] [PolarConv α β] [PolarConv β α] in
/-- **C102** (single precision and exact arithmetic). -/
theorem OnePoleLPF.C102_polarity (s : Filt α) (xs : List α) :
    List.Forall₂ Opposite (process (reset s) xs).2 (process (reset s) (xs.map (-·))).2 :=
  forEach_opposite (R := fun s s' : Filt α => s'.pole = s.pole ∧ s'.gain = s.gain ∧ Sg true s.z s'.z)
    (fun s s' x y ⟨h1, h2, h3⟩ h => by
      have : Sg true (s.gain * x + s.pole * s.z) (s'.gain * y + s'.pole * s'.z) := by
        rw [h1, h2]; exact add (mul_left _ h) (mul_left _ h3)
      exact ⟨⟨h1, h2, this⟩, this⟩) xs _ _ ⟨rfl, rfl, zero⟩

omit [Arith β] [Polar β] [Conv α β] [Conv β α] [PolarConv α β] [PolarConv β α] in
/-- **C102**. -/
theorem DCBlock.C102_polarity (s : Filt α) (xs : List α) :
    List.Forall₂ Opposite (process (reset s) xs).2 (process (reset s) (xs.map (-·))).2 :=
  forEach_opposite (R := fun s s' : Filt α => s'.coeff = s.coeff ∧ Sg true s.prevInputL s'.prevInputL ∧ Sg true s.prevOutputL s'.prevOutputL)
    (fun s s' x y ⟨h1, h2, h3⟩ h => by
      have : Sg true (x - s.prevInputL + s.coeff * s.prevOutputL) (y - s'.prevInputL + s'.coeff * s'.prevOutputL) := by
        rw [h1]; exact add (sub h h2) (mul_left _ h3)
      exact ⟨⟨h1, h, this⟩, this⟩) xs _ _ ⟨rfl, zero, zero⟩

omit [Arith β] [Polar β] [Conv α β] [Conv β α] [PolarConv α β] [PolarConv β α] in
/-- **C102**. -/
theorem Lag.C102_polarity (s : Filt α) (xs : List α) :
    List.Forall₂ Opposite (process (reset s) xs).2 (process (reset s) (xs.map (-·))).2 :=
  forEach_opposite (R := fun s s' : Filt α => s'.coeff = s.coeff ∧ Sg true s.prevOutput s'.prevOutput)
    (fun s s' x y ⟨h1, h2⟩ h => by
      have : Sg true (s.coeff * s.prevOutput + (lit 1 - s.coeff) * x) (s'.coeff * s'.prevOutput + (lit 1 - s'.coeff) * y) := by
        rw [h1]; exact add (mul_left _ h2) (mul_left _ h)
      exact ⟨⟨h1, this⟩, this⟩) xs _ _ ⟨rfl, zero⟩

/-- **C102**. -/
theorem RLPF.C102_polarity (s : Filt α β) (xs : List α) :
    List.Forall₂ Opposite (process (reset s) xs).2 (process (reset s) (xs.map (-·))).2 :=
  forEach_opposite (R := fun s s' : Filt α β => s'.b0 = s.b0 ∧ s'.b1 = s.b1 ∧ s'.b2 = s.b2 ∧ s'.a1 = s.a1 ∧ s'.a2 = s.a2 ∧
      Sg true s.z1 s'.z1 ∧ Sg true s.z2 s'.z2)
    (fun s s' x y ⟨h1, h2, h3, h4, h5, h6, h7⟩ h => by
      have hx : Sg true (Conv.conv x : β) (Conv.conv y) := PolarConv.conv h
      have ho : Sg true (s.b0 * Conv.conv x + s.z1) (s.b0 * Conv.conv y + s'.z1) := add (mul_left _ hx) h6
      simp only [tick, h1, h2, h3, h4, h5]
      exact ⟨⟨trivial, trivial, trivial, trivial, trivial, add (sub (mul_left _ hx) (mul_left _ ho)) h7, sub (mul_left _ hx) (mul_left _ ho)⟩,
        PolarConv.conv ho⟩) xs _ _ ⟨rfl, rfl, rfl, rfl, rfl, zero, zero⟩

/-! ### Tape -/

omit [Arith β] [Polar β] [Conv α β] [Conv β α] [PolarConv α β] [PolarConv β α] in
/-- **C102**: the tape saturator, with the bias it has after `init`. -/
theorem Tape.C102_polarity [Libm α] [OddTanh α] (s : T α) (hb : s.bias = lit 0) (xs : List α) :
    List.Forall₂ Opposite (process (reset s) xs).2 (process (reset s) (xs.map (-·))).2 :=
  forEach_opposite (R := fun s s' : T α => s.bias = lit 0 ∧ s'.bias = lit 0 ∧ s'.pregain = s.pregain ∧ s'.follower = s.follower ∧
      s'.dcLeft.gain = s.dcLeft.gain ∧ Sg true s.dcLeft.prevInput s'.dcLeft.prevInput ∧ Sg true s.dcLeft.prevOutput s'.dcLeft.prevOutput)
    (fun s s' x y ⟨h0, h0', h1, h2, h3, h4, h5⟩ h => by
      have hx : Sg true (x * s.pregain) (y * s.pregain) := mul_right _ h
      have ha := Polar.abs hx
      have hf : TapeFollower.process s.follower (y * s.pregain) = TapeFollower.process s.follower (x * s.pregain) := by
        simp only [TapeFollower.process, ha]
      simp only [tick, h0, h0', h1, h2, hf, TapeDcBlocker.process, h3]
      have ht := OddTanh.tanh (add hx (mul_left (TapeFollower.process s.follower (x * s.pregain)).2 (zero (α := α))))
      have ho := add (sub ht h4) (mul_left s.dcLeft.gain h5)
      exact ⟨⟨trivial, trivial, trivial, trivial, trivial, ht, ho⟩, OddTanh.tanh ho⟩) xs _ _ ⟨hb, hb, rfl, rfl, rfl, zero, zero⟩

end linear

/-! ### The ladders -/

section ladders

omit [Arith α] [Polar α] [Conv α β] [Conv β α] [PolarConv α β] [PolarConv β α] in
theorem fastTanh_opposite {x y : β} (h : Sg true x y) : Sg true (Microtracker.fastTanh x) (Microtracker.fastTanh y) := by
  simp only [Microtracker.fastTanh, ← Polar.sq h]
  exact Polar.div _ (mul_right _ h)

/-- **C102**: the Microtracker ladder, with any settings. -/
theorem Microtracker.C102_polarity (s : Ladder α β) (xs : List α) :
    List.Forall₂ Opposite (process (reset s) xs).2 (process (reset s) (xs.map (-·))).2 :=
  forEach_opposite (R := fun s s' : Ladder α β => s'.resonance = s.resonance ∧ s'.cutoffCoeff = s.cutoffCoeff ∧ Sg true s.p0 s'.p0 ∧
      Sg true s.p1 s'.p1 ∧ Sg true s.p2 s'.p2 ∧ Sg true s.p3 s'.p3 ∧ Sg true s.p32 s'.p32 ∧ Sg true s.p33 s'.p33 ∧ Sg true s.p34 s'.p34)
    (fun s s' x y ⟨h1, h2, a0, a1, a2, a3, b2, b3, b4⟩ h => by
      have ho : Sg true (s.p3 * lit 0.360891 + s.p32 * lit 0.417290 + s.p33 * lit 0.177896 + s.p34 * lit 0.0439725)
          (s'.p3 * lit 0.360891 + s'.p32 * lit 0.417290 + s'.p33 * lit 0.177896 + s'.p34 * lit 0.0439725) :=
        add (add (add (mul_right _ a3) (mul_right _ b2)) (mul_right _ b3)) (mul_right _ b4)
      have st : ∀ {p p' q q' : β}, Sg true p p' → Sg true q q' →
          Sg true (p + (Microtracker.fastTanh q - Microtracker.fastTanh p) * s.cutoffCoeff)
            (p' + (Microtracker.fastTanh q' - Microtracker.fastTanh p') * s.cutoffCoeff) :=
        fun hp hq => add hp (mul_right _ (sub (fastTanh_opposite hq) (fastTanh_opposite hp)))
      have c0 := st a0 (sub (PolarConv.conv (β := β) h) (mul_left (Conv.conv (s.resonance * lit 4)) ho))
      have c1 := st a1 c0
      have c2 := st a2 c1
      have c3 := st a3 c2
      simp only [tick, h1, h2]
      exact ⟨⟨trivial, trivial, c0, c1, c2, c3, a3, b2, b3⟩, PolarConv.conv ho⟩)
    xs _ _ ⟨rfl, rfl, zero, zero, zero, zero, zero, zero, zero⟩

/-- **C102**: the MusicDSP ladder, with any settings. -/
theorem MusicDSP.C102_polarity (s : Ladder α β) (xs : List α) :
    List.Forall₂ Opposite (process (reset s) xs).2 (process (reset s) (xs.map (-·))).2 :=
  forEach_opposite (R := fun s s' : Ladder α β => s'.p = s.p ∧ s'.k = s.k ∧ s'.resonanceCoeff = s.resonanceCoeff ∧ Sg true s.s0 s'.s0 ∧
      Sg true s.s1 s'.s1 ∧ Sg true s.s2 s'.s2 ∧ Sg true s.s3 s'.s3 ∧ Sg true s.d0 s'.d0 ∧ Sg true s.d1 s'.d1 ∧ Sg true s.d2 s'.d2 ∧
      Sg true s.d3 s'.d3)
    (fun s s' x y ⟨h1, h2, h3, a0, a1, a2, a3, b0, b1, b2, b3⟩ h => by
      have st : ∀ {a a' d d' q q' : β}, Sg true a a' → Sg true d d' → Sg true q q' →
          Sg true (q * s.p + d * s.p - s.k * a) (q' * s.p + d' * s.p - s.k * a') :=
        fun ha hd hq => sub (add (mul_right _ hq) (mul_right _ hd)) (mul_left _ ha)
      have hx := sub (PolarConv.conv (β := β) h) (mul_left s.resonanceCoeff a3)
      have c0 := st a0 b0 hx
      have c1 := st a1 b1 c0
      have c2 := st a2 b2 c1
      have c3 := st a3 b3 c2
      have c4 := sub c3 (Polar.div (lit 6) (by simpa using mul (mul c3 c3) c3))
      simp only [tick, h1, h2, h3]
      exact ⟨⟨trivial, trivial, trivial, c0, c1, c2, c4, hx, c0, c1, c2⟩, PolarConv.conv c4⟩)
    xs _ _ ⟨rfl, rfl, rfl, zero, zero, zero, zero, zero, zero, zero, zero⟩

omit [Arith α] [Polar α] [Conv α β] [Conv β α] [PolarConv α β] [PolarConv β α] in
theorem saturate_opposite {x y : β} (h : Sg true x y) : Sg true (Stilson.saturate x) (Stilson.saturate y) := by
  simp only [Stilson.saturate, ← Polar.abs (add_sub _ h), ← Polar.abs (sub_add _ h)]
  exact mul_left _ (sub_swap _ _)

omit [Arith α] [Polar α] [Conv α β] [Conv β α] [PolarConv α β] [PolarConv β α] in
theorem snap_opposite {x y : β} (h : Sg true x y) : Sg true (Stilson.snapToZero x) (Stilson.snapToZero y) := by
  have e1 := Polar.lt h (opp' (lit 1.0e-8))
  have e2 := Polar.lt (opp (lit 1.0e-8)) h
  simp only [Stilson.snapToZero, e1, e2, Bool.or_comm (y <. -lit 1.0e-8)]
  split
  · exact zero
  · exact h

omit [Arith α] [Polar α] [Conv α β] [Conv β α] [PolarConv α β] [PolarConv β α] in
theorem pole_opposite (p : β) {o o' z z' : β} (h : Sg true o o') (k : Sg true z z') :
    Sg true (Stilson.pole p o z).1 (Stilson.pole p o' z').1 ∧ Sg true (Stilson.pole p o z).2 (Stilson.pole p o' z').2 := by
  have h1 := saturate_opposite (add h (mul_left p (sub h k)))
  exact ⟨h1, saturate_opposite (add h1 k)⟩

/-- **C102**: the Stilson ladder, with any settings. -/
theorem Stilson.C102_polarity (s : Ladder α β) (xs : List α) :
    List.Forall₂ Opposite (process (reset s) xs).2 (process (reset s) (xs.map (-·))).2 :=
  forEach_opposite (R := fun s s' : Ladder α β => s'.p = s.p ∧ s'.Q = s.Q ∧ Sg true s.s0 s'.s0 ∧ Sg true s.s1 s'.s1 ∧ Sg true s.s2 s'.s2 ∧
      Sg true s.s3 s'.s3 ∧ Sg true s.output s'.output)
    (fun s s' x y ⟨h1, h2, a0, a1, a2, a3, b⟩ h => by
      have c := mul_left (lit 0.25) (sub (mul_right (lit 0.65) (PolarConv.conv (β := β) h)) b)
      have c0 := pole_opposite s.p c a0
      have c1 := pole_opposite s.p c0.2 a1
      have c2 := pole_opposite s.p c1.2 a2
      have c3 := pole_opposite s.p c2.2 a3
      have hr := snap_opposite c3.2
      simp only [tick, h1, h2]
      exact ⟨⟨trivial, trivial, c0.1, c1.1, c2.1, c3.1, mul_right _ hr⟩, PolarConv.conv hr⟩)
    xs _ _ ⟨rfl, rfl, zero, zero, zero, zero, zero⟩

/-- **C102**: the Improved ladder, with any settings. -/
theorem Improved.C102_polarity [Libm β] [OddTanh β] (s : Ladder α β) (xs : List α) :
    List.Forall₂ Opposite (process (reset s) xs).2 (process (reset s) (xs.map (-·))).2 :=
  forEach_opposite (R := fun s s' : Ladder α β => s'.resonance = s.resonance ∧ s'.sampleRate = s.sampleRate ∧ s'.g = s.g ∧ s'.drive = s.drive ∧
      s'.makeupGain = s.makeupGain ∧ (Sg true s.V0 s'.V0 ∧ Sg true s.V1 s'.V1 ∧ Sg true s.V2 s'.V2 ∧ Sg true s.V3 s'.V3) ∧
      (Sg true s.dV0 s'.dV0 ∧ Sg true s.dV1 s'.dV1 ∧ Sg true s.dV2 s'.dV2 ∧ Sg true s.dV3 s'.dV3) ∧
      Sg true s.tV0 s'.tV0 ∧ Sg true s.tV1 s'.tV1 ∧ Sg true s.tV2 s'.tV2 ∧ Sg true s.tV3 s'.tV3)
    (fun s s' x y ⟨h1, h2, h3, h4, h5, ⟨a0, a1, a2, a3⟩, ⟨b0, b1, b2, b3⟩, c0, c1, c2, c3⟩ h => by
      have th : ∀ {v v' : β}, Sg true v v' → Sg true (Libm.tanh (v / (lit 2 * VT))) (Libm.tanh (v' / (lit 2 * VT))) :=
        fun hv => OddTanh.tanh (Polar.div _ hv)
      have ac : ∀ {v v' d d' e e' : β}, Sg true v v' → Sg true d d' → Sg true e e' →
          Sg true (v + (d + e) / (lit 2 * Conv.conv s.sampleRate)) (v' + (d' + e') / (lit 2 * Conv.conv s.sampleRate)) :=
        fun hv hd he => add hv (Polar.div _ (add hd he))
      have d0 := mul_left (-s.g) (add (th (add (mul_left s.drive (PolarConv.conv (β := β) h)) (mul_left (Conv.conv s.resonance * lit 4) a3))) c0)
      have v0 := ac a0 d0 b0
      have d1 := mul_left s.g (sub (th v0) c1)
      have v1 := ac a1 d1 b1
      have d2 := mul_left s.g (sub (th v1) c2)
      have v2 := ac a2 d2 b2
      have d3 := mul_left s.g (sub (th v2) c3)
      have v3 := ac a3 d3 b3
      simp only [tick, h1, h2, h3, h4, h5]
      exact ⟨⟨trivial, trivial, trivial, trivial, trivial, ⟨v0, v1, v2, v3⟩, ⟨d0, d1, d2, d3⟩, th v0, th v1, th v2, th v3⟩,
        PolarConv.conv (mul_right _ v3)⟩)
    xs _ _ ⟨rfl, rfl, rfl, rfl, rfl, ⟨zero, zero, zero, zero⟩, ⟨zero, zero, zero, zero⟩, zero, zero, zero, zero⟩

/-- Two stages of the Oberheim ladder with the same coefficients and opposite contents. -/
def Oberheim.Mirror (f f' : Oberheim.OnePole β) : Prop :=
  (f'.alpha = f.alpha ∧ f'.beta = f.beta ∧ f'.gamma = f.gamma ∧ f'.delta = f.delta ∧ f'.epsilon = f.epsilon ∧ f'.a0 = f.a0) ∧
    Sg true f.feedback f'.feedback ∧ Sg true f.z1 f'.z1

omit [Arith α] [Polar α] [Conv α β] [Conv β α] [PolarConv α β] [PolarConv β α] in
theorem Oberheim.mirror_feedback {f f' : OnePole β} (h : Mirror f f') : Sg true f.feedbackOutput f'.feedbackOutput := by
  obtain ⟨⟨_, h1, _, h2, _, _⟩, h3, h4⟩ := h
  simp only [OnePole.feedbackOutput, h1, h2]
  exact mul_left _ (add h4 (mul_right _ h3))

omit [Arith α] [Polar α] [Conv α β] [Conv β α] [PolarConv α β] [PolarConv β α] in
theorem Oberheim.mirror_tick {f f' : OnePole β} (h : Mirror f f') {x y : β} (hx : Sg true x y) :
    Mirror (f.tick x).1 (f'.tick y).1 ∧ Sg true (f.tick x).2 (f'.tick y).2 := by
  have hb := mirror_feedback h
  obtain ⟨⟨h1, h2, h3, h4, h5, h6⟩, hf, hz⟩ := h
  have hs := add (add (mul_right f.gamma hx) hf) (mul_left f.epsilon hb)
  have hv := mul_right f.alpha (sub (mul_left f.a0 hs) hz)
  have ho := add hv hz
  simp only [OnePole.tick, h1, h3, h5, h6]
  exact ⟨⟨⟨rfl, h2, rfl, h4, rfl, rfl⟩, hf, add hv ho⟩, ho⟩

/-- **C102**: the Oberheim ladder, with any settings. -/
theorem Oberheim.C102_polarity [Libm β] [OddTanh β] (s : Ladder α β) (xs : List α) :
    List.Forall₂ Opposite (process (reset s) xs).2 (process (reset s) (xs.map (-·))).2 :=
  forEach_opposite (R := fun s s' : Ladder α β => (s'.K = s.K ∧ s'.alpha0 = s.alpha0 ∧ s'.saturation = s.saturation) ∧
      (s'.c0 = s.c0 ∧ s'.c1 = s.c1 ∧ s'.c2 = s.c2 ∧ s'.c3 = s.c3 ∧ s'.c4 = s.c4) ∧
      Mirror s.f0 s'.f0 ∧ Mirror s.f1 s'.f1 ∧ Mirror s.f2 s'.f2 ∧ Mirror s.f3 s'.f3)
    (fun s s' x y ⟨⟨h1, h2, h3⟩, ⟨k0, k1, k2, k3, k4⟩, m0, m1, m2, m3⟩ h => by
      have hσ := add (add (add (mirror_feedback m0) (mirror_feedback m1)) (mirror_feedback m2)) (mirror_feedback m3)
      have hi := mul_right (lit 1 + s.K) (PolarConv.conv (β := β) h)
      have hu := OddTanh.tanh (mul_left s.saturation (mul_right s.alpha0 (sub hi (mul_left s.K hσ))))
      have t0 := mirror_tick m0 hu
      have t1 := mirror_tick m1 t0.2
      have t2 := mirror_tick m2 t1.2
      have t3 := mirror_tick m3 t2.2
      have ho := add (add (add (add (mul_left s.c0 hu) (mul_left s.c1 t0.2)) (mul_left s.c2 t1.2)) (mul_left s.c3 t2.2)) (mul_left s.c4 t3.2)
      simp only [tick, h1, h2, h3, k0, k1, k2, k3, k4]
      exact ⟨⟨⟨trivial, trivial, trivial⟩, ⟨trivial, trivial, trivial, trivial, trivial⟩, t0.1, t1.1, t2.1, t3.1⟩, PolarConv.conv ho⟩)
    xs _ _ ⟨⟨rfl, rfl, rfl⟩, ⟨rfl, rfl, rfl, rfl, rfl⟩, ⟨⟨rfl, rfl, rfl, rfl, rfl, rfl⟩, zero, zero⟩,
      ⟨⟨rfl, rfl, rfl, rfl, rfl, rfl⟩, zero, zero⟩, ⟨⟨rfl, rfl, rfl, rfl, rfl, rfl⟩, zero, zero⟩, ⟨⟨rfl, rfl, rfl, rfl, rfl, rfl⟩, zero, zero⟩⟩

/-- Two Runge-Kutta ladders with the same settings and opposite contents. -/
def RKSimulation.Mirror (s s' : RKSimulation.Ladder α β) : Prop := ∃ v : RKSimulation.Vec β, s' = { s with state := v } ∧
  Sg true s.state.x0 v.x0 ∧ Sg true s.state.x1 v.x1 ∧ Sg true s.state.x2 v.x2 ∧ Sg true s.state.x3 v.x3

/-- Two vectors of opposite contents. -/
def RKSimulation.Vec.Opp (a b : RKSimulation.Vec β) : Prop := Sg true a.x0 b.x0 ∧ Sg true a.x1 b.x1 ∧ Sg true a.x2 b.x2 ∧ Sg true a.x3 b.x3

omit [Arith α] [Polar α] [Conv α β] [Conv β α] [PolarConv α β] [PolarConv β α] in
theorem RKSimulation.clip_opposite (s : Ladder α β) {x y : β} (h : Sg true x y) : Sg true (clip s x) (clip s y) := by
  have hm := mul_right s.saturationInv h
  have e1 := Polar.lt hm (opp' (lit 1))
  have e2 := Polar.lt (opp (lit 1)) hm
  have hp := Polar.opp (lit 1 : β)
  have key : ∀ {v w : β}, Sg true v w → Sg true (s.saturation * (v - lit 1 / lit 3 * v * v * v)) (s.saturation * (w - lit 1 / lit 3 * w * w * w)) :=
    fun hv => mul_left _ (sub hv (by simpa using mul (mul (mul_left (lit 1 / lit 3) hv) hv) hv))
  unfold clip
  refine key ?_
  have e3 : (x * s.saturationInv >. lit 1) = (y * s.saturationInv <. -lit 1) := e2
  have e4 : (x * s.saturationInv <. -lit 1) = (y * s.saturationInv >. lit 1) := e1
  rw [e3, e4]
  cases a : (y * s.saturationInv >. lit 1) <;> cases b : (y * s.saturationInv <. -lit 1) <;> simp
  · exact hm
  · exact hp
  · exact opp' _
  · exact (Polar.apart _ a b).elim

omit [PolarConv α β] [PolarConv β α] [Polar α] [Arith α] [Conv β α] in
theorem RKSimulation.derivatives_opposite (s : Ladder α β) {x y : β} (h : Sg true x y) {v w : Vec β} (hv : v.Opp w) :
    (derivatives s x v).Opp (derivatives s y w) := by
  obtain ⟨v0, v1, v2, v3⟩ := hv
  have c := @clip_opposite α β _ _ s
  exact ⟨mul_left _ (sub (c (sub (mul_right _ h) (mul_left _ v3))) (c v0)), mul_left _ (sub (c v0) (c v1)), mul_left _ (sub (c v1) (c v2)),
    mul_left _ (sub (c v2) (c v3))⟩

omit [Arith α] [Polar α] [Conv α β] [Conv β α] [PolarConv α β] [PolarConv β α] in
theorem RKSimulation.step_opposite (h : β) {v w d e : Vec β} (hv : v.Opp w) (hd : d.Opp e) : (v.step h d).Opp (w.step h e) :=
  ⟨add hv.1 (mul_left _ hd.1), add hv.2.1 (mul_left _ hd.2.1), add hv.2.2.1 (mul_left _ hd.2.2.1), add hv.2.2.2 (mul_left _ hd.2.2.2)⟩

omit [PolarConv α β] [PolarConv β α] [Polar α] [Arith α] [Conv β α] in
theorem RKSimulation.solver_opposite {s s' : Ladder α β} (m : Mirror s s') {x y : β} (h : Sg true x y) : Mirror (solver x s) (solver y s') := by
  obtain ⟨w, rfl, hv⟩ := m
  have d1 := derivatives_opposite s h (v := s.state) (w := w) hv
  have d2 := derivatives_opposite s h (step_opposite (lit 0.5 * s.stepSize) hv d1)
  have d3 := derivatives_opposite s h (step_opposite (lit 0.5 * s.stepSize) hv d2)
  have d4 := derivatives_opposite s h (step_opposite s.stepSize hv d3)
  have comb : ∀ {x x' a a' b b' c c' d d' : β}, Sg true x x' → Sg true a a' → Sg true b b' → Sg true c c' → Sg true d d' →
      Sg true (x + lit 1 / lit 6 * s.stepSize * (a + lit 2 * b + lit 2 * c + d)) (x' + lit 1 / lit 6 * s.stepSize * (a' + lit 2 * b' + lit 2 * c' + d')) :=
    fun hx ha hb hc hd => add hx (mul_left _ (add (add (add ha (mul_left _ hb)) (mul_left _ hc)) hd))
  exact ⟨_, rfl, comb hv.1 d1.1 d2.1 d3.1 d4.1, comb hv.2.1 d1.2.1 d2.2.1 d3.2.1 d4.2.1, comb hv.2.2.1 d1.2.2.1 d2.2.2.1 d3.2.2.1 d4.2.2.1,
    comb hv.2.2.2 d1.2.2.2 d2.2.2.2 d3.2.2.2 d4.2.2.2⟩

/-- **C102**: the Runge-Kutta ladder, with any settings. -/
theorem RKSimulation.C102_polarity (s : Ladder α β) (xs : List α) :
    List.Forall₂ Opposite (process (reset s) xs).2 (process (reset s) (xs.map (-·))).2 :=
  forEach_opposite (R := Mirror)
    (fun s s' x y m h => by
      have hx := PolarConv.conv (β := β) h
      have it : ∀ n (s s' : Ladder α β), Mirror s s' → Mirror ((solver (Conv.conv x))^[n] s) ((solver (Conv.conv y))^[n] s') := by
        intro n
        induction n with
        | zero => intro s s' m; exact m
        | succ n ih => intro s s' m; exact ih _ _ (solver_opposite m hx)
      have e : s'.oversampleFactor = s.oversampleFactor := by obtain ⟨w, rfl, _⟩ := m; rfl
      have := it s.oversampleFactor.toNat s s' m
      simp only [tick, e]
      refine ⟨this, ?_⟩
      generalize (solver (Conv.conv x))^[s.oversampleFactor.toNat] s = p at this
      generalize (solver (Conv.conv y))^[s.oversampleFactor.toNat] s' = q at this
      obtain ⟨w, rfl, hw⟩ := this
      exact PolarConv.conv (mul_right _ hw.2.2.2))
    xs _ _ ⟨_, rfl, zero, zero, zero, zero⟩

end ladders

/-! ### The Krajeski ladder

Its clamp is built from `fmax` and `fmin`, which turn NaN into -1e30 whatever the polarity, so a NaN among the input samples spoils the
symmetry; on finite input no NaN comes up. -/

/-- The same call with the input sample turned upside down. -/
def LadderCall.flip : LadderCall α → LadderCall α
  | .tick x => .tick (-x)
  | c => c

omit [Arith β] [Polar β] [Conv α β] [Conv β α] [PolarConv α β] [PolarConv β α] in
theorem play_opposite {σ : Type} (A : LadderApi σ α) {R : σ → σ → Prop} {P : LadderCall α → Prop}
    (hc : ∀ c s s', P (.setCutoff c) → R s s' → R (A.setCutoff c s) (A.setCutoff c s'))
    (hr : ∀ r s s', P (.setResonance r) → R s s' → R (A.setResonance r s) (A.setResonance r s'))
    (h0 : ∀ s s', R s s' → R (A.reset s) (A.reset s'))
    (ht : ∀ s s' x, P (.tick x) → R s s' → R (A.tick s x).1 (A.tick s' (-x)).1 ∧ Sg true (A.tick s x).2 (A.tick s' (-x)).2)
    (l : List (LadderCall α)) (hl : ∀ a ∈ l, P a) :
    ∀ s s', R s s' → List.Forall₂ Opposite (A.play s l) (A.play s' (l.map LadderCall.flip)) := by
  induction l with
  | nil => intro s s' _; simp [LadderApi.play]
  | cons a l ih =>
    intro s s' hR
    have ih := ih (fun b hb => hl b (List.mem_cons_of_mem _ hb))
    have ha := hl a List.mem_cons_self
    cases a with
    | setCutoff c => exact ih _ _ (hc c s s' ha hR)
    | setResonance r => exact ih _ _ (hr r s s' ha hR)
    | reset => exact ih _ _ (h0 s s' hR)
    | tick x =>
      obtain ⟨h1, h2⟩ := ht s s' x ha hR
      exact List.Forall₂.cons h2 (ih _ _ h1)

namespace Krajeski

/-- Two Krajeski ladders with the same settings and opposite contents. -/
def Mirror (s s' : Ladder α β) : Prop :=
  (s'.sampleRate = s.sampleRate ∧ s'.wc = s.wc ∧ s'.g = s.g ∧ s'.gRes = s.gRes ∧ s'.gComp = s.gComp ∧ s'.drive = s.drive) ∧
    (Sg true s.s1 s'.s1 ∧ Sg true s.s2 s'.s2 ∧ Sg true s.s3 s'.s3 ∧ Sg true s.s4 s'.s4) ∧
    Sg true s.d0 s'.d0 ∧ Sg true s.d1 s'.d1 ∧ Sg true s.d2 s'.d2 ∧ Sg true s.d3 s'.d3

/-- If the clamps of the four stages keep the polarity then so does a tick. -/
theorem tick_opposite [Libm β] [OddTanh β] {s s' : Ladder α β} {x y : α} (h : Sg true x y) (m : Mirror s s') (Q : β → Prop)
    (hst : ∀ {a a' d d' n n' : β}, Sg true a a' → Sg true d d' → Sg true n n' → Q (stage s.g a d n) → Q (stage s.g a' d' n') →
      Sg true (stage s.g a d n) (stage s.g a' d' n'))
    (q : Q (tick s x).1.s1 ∧ Q (tick s x).1.s2 ∧ Q (tick s x).1.s3 ∧ Q (tick s x).1.s4)
    (q' : Q (tick s' y).1.s1 ∧ Q (tick s' y).1.s2 ∧ Q (tick s' y).1.s3 ∧ Q (tick s' y).1.s4) :
    Mirror (tick s x).1 (tick s' y).1 ∧ Sg true (tick s x).2 (tick s' y).2 := by
  obtain ⟨⟨h1, h2, h3, h4, h5, h6⟩, ⟨a1, a2, a3, a4⟩, b0, b1, b2, b3⟩ := m
  have hx := PolarConv.conv (β := β) h
  have t0 := OddTanh.tanh (mul_left s.drive (sub hx (mul_left (lit 4 * s.gRes) (sub a4 (mul_left s.gComp hx)))))
  simp only [tick, h3, h4, h5, h6] at q q' ⊢
  have t1 := hst t0 b0 a1 q.1 q'.1
  have t2 := hst t1 b1 a2 q.2.1 q'.2.1
  have t3 := hst t2 b2 a3 q.2.2.1 q'.2.2.1
  have t4 := hst t3 b3 a4 q.2.2.2 q'.2.2.2
  exact ⟨⟨⟨h1, h2, rfl, rfl, rfl, rfl⟩, ⟨t1, t2, t3, t4⟩, t0, t1, t2, t3⟩, PolarConv.conv t4⟩

omit [Arith α] [Polar α] [Conv α β] [Conv β α] [PolarConv α β] [PolarConv β α] in
theorem sum_opposite (g : β) {a a' d d' n n' : β} (ha : Sg true a a') (hd : Sg true d d') (hn : Sg true n n') :
    Sg true (g * (lit 0.3 / lit 1.3 * a + lit 1 / lit 1.3 * d - n) + n) (g * (lit 0.3 / lit 1.3 * a' + lit 1 / lit 1.3 * d' - n') + n') :=
  add (mul_left _ (sub (add (mul_left _ ha) (mul_left _ hd)) hn)) hn

/-- **C102**, in exact arithmetic: the Krajeski ladder, with any settings. -/
theorem C102_polarity_exact (s : Ladder ℝ ℝ) (xs : List ℝ) :
    List.Forall₂ Opposite (process (reset s) xs).2 (process (reset s) (xs.map (-·))).2 := by
  refine forEach_opposite (R := Mirror) (fun s s' x y m h => tick_opposite h m (fun _ => True) ?_ ⟨trivial, trivial, trivial, trivial⟩
    ⟨trivial, trivial, trivial, trivial⟩) xs _ _ ⟨⟨rfl, rfl, rfl, rfl, rfl, rfl⟩, ⟨zero, zero, zero, zero⟩, zero, zero, zero, zero⟩
  intro a a' d d' n n' ha hd hn _ _
  have e := sum_opposite s.g ha hd hn
  simp only [stage]
  generalize s.g * (lit 0.3 / lit 1.3 * a + lit 1 / lit 1.3 * d - n) + n = u at e
  generalize s.g * (lit 0.3 / lit 1.3 * a' + lit 1 / lit 1.3 * d' - n') + n' = v at e
  have e : v = -u := e
  subst e
  show fclamp (-u) _ _ = -fclamp u _ _
  simp only [fclamp, cFmin, cFmax, real_arith]
  simp only [decide_true, Bool.not_true, Bool.false_eq_true, if_false]
  norm_num
  split_ifs <;> first | rfl | linarith

/-- A clamp to ±1e30 that ends below 8 has done nothing. -/
theorem fclamp_idle {u : F64} (h : (fclamp u (lit (-1e30)) (lit 1e30)).In (-8) 8) : fclamp u (lit (-1e30)) (lit 1e30) = u := by
  have l1 : ¬ (lit (-1e30) : F64).In (-8) 8 := by decide +kernel
  have l2 : ¬ (lit 1e30 : F64).In (-8) 8 := by decide +kernel
  have e1 : ((lit (-1e30) : F64) ==. lit (-1e30)) = true := by decide +kernel
  have e2 : ((lit 1e30 : F64) ==. lit 1e30) = true := by decide +kernel
  have e3 : ((lit 1e30 : F64) <. lit (-1e30)) = false := by decide +kernel
  by_cases hu : (u ==. u) = true
  · by_cases k : (u <. lit (-1e30)) = true
    · rw [show fclamp u (lit (-1e30)) (lit 1e30) = lit (-1e30) by simp [fclamp, cFmin, cFmax, hu, e1, e2, e3, k]] at h
      exact absurd h l1
    · by_cases k' : (lit 1e30 <. u) = true
      · rw [show fclamp u (lit (-1e30)) (lit 1e30) = lit 1e30 by simp [fclamp, cFmin, cFmax, hu, e1, e2, k, k']] at h
        exact absurd h l2
      · simp [fclamp, cFmin, cFmax, hu, e1, e2, k, k']
  · rw [show fclamp u (lit (-1e30)) (lit 1e30) = lit (-1e30) by simp [fclamp, cFmin, cFmax, hu, e1, e2, e3]] at h
    exact absurd h l1

/-- **C102**, in the program's arithmetic: the Krajeski ladder in any use with finite input samples and cutoffs up to half the sample rate. -/
theorem C102_polarity [Libm F64] [Libm64Spec] [Pow64Acc] [Tanh64Odd] (sr : F32) (hs : sr.In 2000 (2 ^ 20)) (s0 : Ladder F32 F64)
    (l : List (LadderCall F32)) (hl : ∀ a ∈ l, Fair sr (1 / 2) a) :
    List.Forall₂ Opposite (api.play (init sr s0) l) (api.play (init sr s0) (l.map LadderCall.flip)) := by
  have hs' : sr.In 100 (2 ^ 20) := hs.mono (by norm_num) le_rfl
  have K : (6.2832 * (1 / 2) + 1 / 2 ^ 40 : ℚ) ≤ 3.15 := by norm_num
  have hG : (3.15:ℚ) ≤ 1.89 ∧ (1:ℚ) ≤ 7 / 6 ∨ (3.15:ℚ) ≤ 3.15 ∧ (7 / 6 : ℚ) ≤ 7 / 6 := Or.inr ⟨le_rfl, le_rfl⟩
  have hi := init_fbdd wild_levels hs' (by norm_num) K hG (by have := hs.2.1; norm_num; linarith) s0
  have small : ∀ {s : Ladder F32 F64}, FBdd sr (7 / 6) wild s →
      s.s1.In (-8) 8 ∧ s.s2.In (-8) 8 ∧ s.s3.In (-8) 8 ∧ s.s4.In (-8) 8 := fun hb =>
    ⟨hb.s1.mono (by norm_num [wild]) (by norm_num [wild]), hb.s2.mono (by norm_num [wild]) (by norm_num [wild]),
     hb.s3.mono (by norm_num [wild]) (by norm_num [wild]), hb.s4.mono (by norm_num [wild]) (by norm_num [wild])⟩
  refine play_opposite api (R := fun s s' => FBdd sr (7 / 6) wild s ∧ FBdd sr (7 / 6) wild s' ∧ Mirror s s') (P := Fair sr (1 / 2))
    ?_ ?_ ?_ ?_ l hl _ _ ⟨hi, hi, ⟨rfl, rfl, rfl, rfl, rfl, rfl⟩, ⟨zero, zero, zero, zero⟩, zero, zero, zero, zero⟩
  · rintro c s s' hc ⟨b, b', ⟨h1, h2, h3, h4, h5, h6⟩, hm⟩
    refine ⟨setCutoff_fbdd hs' (by norm_num) K hG c s hc b, setCutoff_fbdd hs' (by norm_num) K hG c s' hc b', ⟨h1, ?_, ?_, h4, h5, h6⟩, hm⟩
    · simp only [api, setCutoff, h1]
    · simp only [api, setCutoff, h1]
  · rintro r s s' hr ⟨b, b', ⟨h1, h2, h3, h4, h5, h6⟩, hm⟩
    refine ⟨setResonance_fbdd r s hr b, setResonance_fbdd r s' hr b', ⟨h1, h2, h3, ?_, h5, h6⟩, hm⟩
    simp only [api, setResonance, h2]
  · rintro s s' ⟨b, b', hp, hm⟩
    exact ⟨reset_fbdd wild_levels s b, reset_fbdd wild_levels s' b', hp, ⟨zero, zero, zero, zero⟩, zero, zero, zero, zero⟩
  · rintro s s' x hx ⟨b, b', m⟩
    have hx' : (-x).isFin = true := by
      have hx : x.isFin = true := hx
      cases x <;> simp_all [Neg.neg, FP.neg, FP.isFin]
    have t := (tick_fbdd wild_levels s x hx b).1
    have t' := (tick_fbdd wild_levels s' (-x) hx' b').1
    have := tick_opposite (opp x) m (fun z => z.In (-8) 8) (fun ha hd hn q q' => by
      unfold stage at *
      rw [fclamp_idle q, fclamp_idle q']
      exact sum_opposite s.g ha hd hn) (small t) (small t')
    exact ⟨⟨t, t', this.1⟩, this.2⟩

/-- Non-trivial case: full resonance, the cutoff moved up to the Nyquist frequency, loud input. -/
example (s0 : Ladder F32 F64) (n : ℕ) : letI := idealLibm64
    List.Forall₂ Opposite
      (api.play (init (lit 48000) s0) ([.setCutoff (lit 24000), .setResonance (lit 1), .tick (lit 1e38)] ++ List.replicate n (.tick (lit 0.7))))
      (api.play (init (lit 48000) s0) (([.setCutoff (lit 24000), .setResonance (lit 1), .tick (lit 1e38)] ++
        List.replicate n (.tick (lit 0.7)) : List (LadderCall F32)).map LadderCall.flip)) := by
  let _ := idealLibm64
  have := idealLibm64_spec
  have := idealLibm64_pow
  have := idealLibm64_odd
  refine C102_polarity (lit 48000) (by decide +kernel) s0 _ (fun a ha => ?_)
  simp only [List.mem_append, List.mem_cons, List.not_mem_nil, or_false, List.mem_replicate] at ha
  rcases ha with (rfl | rfl | rfl) | ⟨-, rfl⟩ <;> decide +kernel

/-- A cleared Krajeski ladder with the coefficient 1 (a cutoff near 0.3 of the sample rate). -/
def plain : Ladder F32 F64 :=
  { sampleRate := lit 48000, cutoff := lit 14000, resonance := lit 0, s0 := lit 0, s1 := lit 0, s2 := lit 0, s3 := lit 0, s4 := lit 0, d0 := lit 0,
    d1 := lit 0, d2 := lit 0, d3 := lit 0, wc := lit 1.83, g := lit 1, gRes := lit 0, gComp := lit 1, drive := lit 1 }

/-- **C102**: finiteness cannot be dropped: a NaN makes the Krajeski ladder put out a large negative number in either polarity. -/
theorem C102_nan [Libm F64] (ht : Libm.tanh (.nan : F64) = .nan) :
    ¬ List.Forall₂ Opposite (process (reset plain) [.nan]).2 (process (reset plain) ([.nan].map (-·))).2 := by
  have e : ∀ x : F32, x = .nan → (tick (reset plain) x).2 = Conv.conv (stage (lit 1) (stage (lit 1) (stage (lit 1) (stage (lit 1) .nan (lit 0) (lit 0)) (lit 0) (lit 0))
      (lit 0) (lit 0)) (lit 0) (lit 0) : F64) := by
    rintro x rfl
    simp only [tick, reset, plain]
    rw [show (lit 1 * (Conv.conv (.nan : F32) - lit 4 * lit 0 * (lit 0 - lit 1 * Conv.conv (.nan : F32))) : F64) = .nan by decide +kernel, ht]
  simp only [process, forEach, List.map_cons, List.map_nil, List.forall₂_cons, e _ rfl, e (-FP.nan) rfl]
  rw [C102_opposite_float]
  rintro ⟨h, -⟩
  revert h
  decide +kernel

end Krajeski

namespace Tape

/-- **C102**: a bias breaks the symmetry from the first sample on (in exact arithmetic). -/
theorem C102_biased {sr b p x : ℝ} (hs : 0 < sr) (hb : b ≠ 0) (hp : p ≠ 0) (hx : x ≠ 0) :
    ¬ Opposite (tick (setPregain p (setBias b (init sr))) x).2 (tick (setPregain p (setBias b (init sr))) (-x)).2 := by
  rw [C102_opposite_real]
  have hxp : x * p ≠ 0 := mul_ne_zero hx hp
  have ha : Real.exp (-1 / (0.001 * sr)) < 1 := by
    rw [Real.exp_lt_one_iff]
    exact div_neg_of_neg_of_pos (by norm_num) (by positivity)
  simp only [tick, setPregain, setBias, init, TapeFollower.process, TapeFollower.init, TapeDcBlocker.process, TapeDcBlocker.init, real_arith]
  have h0 : (0:ℝ) < |x * p| := abs_pos.2 hxp
  simp only [neg_mul, abs_neg, Rat.cast_zero, h0, if_true, mul_zero, zero_add, sub_zero, add_zero, ← Real.tanh_neg]
  push_cast
  intro h
  have h := tanh_strictMono.injective (tanh_strictMono.injective h)
  have e : (1 - Real.exp (-1 / (0.001 * sr))) * |x * p| * b = 0 := by linarith
  rcases mul_eq_zero.1 e with e | e
  · rcases mul_eq_zero.1 e with e | e
    · linarith
    · exact hxp (abs_eq_zero.1 e)
  · exact hb e

end Tape

/-- Non-trivial cases of the unbiased theorems, in the program's arithmetic: what they say of two samples. -/
example (s : RKSimulation.Ladder F32 F64) : List.Forall₂ Opposite (RKSimulation.process (RKSimulation.reset s) [lit 0.5, lit 1e30]).2
    (RKSimulation.process (RKSimulation.reset s) [-lit 0.5, -lit 1e30]).2 := RKSimulation.C102_polarity s _

example (s : Improved.Ladder F32 F64) : letI := idealLibm64
    List.Forall₂ Opposite (Improved.process (Improved.reset s) [lit 0.5, .inf false, lit 1]).2
      (Improved.process (Improved.reset s) [-lit 0.5, .inf true, -lit 1]).2 := by
  let _ := idealLibm64
  have := idealLibm64_odd
  exact Improved.C102_polarity s [lit 0.5, .inf false, lit 1]

example : letI := idealLibm
    List.Forall₂ Opposite (Tape.process (Tape.reset (Tape.setPregain (lit 4) (Tape.init (lit 48000 : F32)))) [lit 0.5, lit (-0.25)]).2
      (Tape.process (Tape.reset (Tape.setPregain (lit 4) (Tape.init (lit 48000 : F32)))) [-lit 0.5, -lit (-0.25)]).2 := by
  let _ := idealLibm
  have := idealLibm_odd
  exact Tape.C102_polarity _ rfl [lit 0.5, lit (-0.25)]

end Verif
