import Mathlib.Analysis.SpecialFunctions.Pow.NNReal
import Mathlib.Algebra.Order.Floor.Ring

/-!
# What the modulation of the reverb's delays adds to its energy
-/

namespace Verif.FVerbDSP

/-- The width of the band in which a modulated delay moves, in samples: without modulation it stands still, and modulated by `± depth`
milliseconds it moves within `⌊2 depth rate / 1000⌋ + 1` samples. -/
noncomputable def band (rate depth : ℝ) : ℤ := if depth = 0 then 0 else ⌊2 * (depth / 1000) * rate⌋ + 1

/-- The width of that band in crossfades, which last `⌊rate / 100⌋` samples. -/
noncomputable def wobble (rate depth : ℝ) : ℝ := band rate depth / ⌊0.01 * rate⌋

/-- The gain of an allpass with coefficient at most `g` if its loop gives back `1 + η` times the energy put into it. -/
noncomputable def swell (η g : ℝ) : ℝ := Real.sqrt (1 + η / (1 - g * Real.sqrt (1 + η)) ^ 2)

end Verif.FVerbDSP
