import Verif.Arith
import Verif.Float.Convex
import Verif.Float.FP
import Verif.Float.IntConv
import Verif.Float.Lemmas
import Verif.Float.Lerp
import Verif.Float.LibmSpec
import Verif.Float.LibmSpec64
import Verif.Float.LogSpec
import Verif.Float.Mag
import Verif.Float.Near
import Verif.Float.Near64
import Verif.Float.Order
import Verif.Float.PowSpec
import Verif.Float.Round
import Verif.Float.Step64
import Verif.Lemmas.AllocInv
import Verif.Lemmas.AllocList
import Verif.Lemmas.AllocWorld
import Verif.Lemmas.Crossfade
import Verif.Lemmas.DelayLines
import Verif.Lemmas.Energy
import Verif.Lemmas.EnvInv
import Verif.Lemmas.EnvRange
import Verif.Lemmas.FVerbEnergy
import Verif.Lemmas.FVerbLinear
import Verif.Lemmas.FVerbModEnergy
import Verif.Lemmas.FVerbTail
import Verif.Lemmas.LadderQuiet
import Verif.Lemmas.LinearBlocks
import Verif.Lemmas.Loops
import Verif.Lemmas.Polarity
import Verif.Lemmas.RLPFEnergy
import Verif.Lemmas.RealArith
import Verif.Lemmas.RealAttr
import Verif.Lemmas.Settle
import Verif.Lemmas.SinValue
import Verif.Lemmas.Stream
import Verif.Lemmas.Tanh
import Verif.Lemmas.WeightedEnergy
import Verif.Model.AudioLoop
import Verif.Model.BasicExample
import Verif.Model.Blocks
import Verif.Model.BufRd
import Verif.Model.BufferAllocator
import Verif.Model.CombC
import Verif.Model.Downsampler
import Verif.Model.Envelopes
import Verif.Model.ExampleVoice
import Verif.Model.Examples
import Verif.Model.FVerb
import Verif.Model.FVerbDSP
import Verif.Model.Filters
import Verif.Model.Lines
import Verif.Model.Memory
import Verif.Model.MoogLadders
import Verif.Model.Oscillators
import Verif.Model.SuperSaw
import Verif.Model.Tape
import Verif.Model.Types
import Verif.Model.Utility
import Verif.Model.XPlay
import Verif.Props.Accuracy
import Verif.Props.Allocator
import Verif.Props.AudioLoop
import Verif.Props.AudioLoopTorn
import Verif.Props.BadSample
import Verif.Props.BasicExample
import Verif.Props.Blocks
import Verif.Props.BufRd
import Verif.Props.BufRdInterp
import Verif.Props.Buffer
import Verif.Props.CombC
import Verif.Props.CombFloat
import Verif.Props.CombLife
import Verif.Props.CombLine
import Verif.Props.CombMoving
import Verif.Props.CombMovingFloat
import Verif.Props.CombShort
import Verif.Props.CombStable
import Verif.Props.CombStableFloat
import Verif.Props.CombStableGain
import Verif.Props.CombStableWhole
import Verif.Props.CombSub
import Verif.Props.Controls
import Verif.Props.Decimation
import Verif.Props.Downsampler
import Verif.Props.EnvelopeClicks
import Verif.Props.EnvelopeDone
import Verif.Props.EnvelopeEnd
import Verif.Props.EnvelopeStall
import Verif.Props.EnvelopeTimes
import Verif.Props.Envelopes
import Verif.Props.ExamplePrograms
import Verif.Props.ExampleVoice
import Verif.Props.FVerb
import Verif.Props.FVerbBadSample
import Verif.Props.FVerbBlocks
import Verif.Props.FVerbDSP
import Verif.Props.FVerbEnergy
import Verif.Props.FVerbFade
import Verif.Props.FVerbLinear
import Verif.Props.FVerbLowRate
import Verif.Props.FVerbModEnergy
import Verif.Props.FVerbProgram
import Verif.Props.FVerbRun
import Verif.Props.FVerbSilence
import Verif.Props.FVerbTail
import Verif.Props.Filters
import Verif.Props.Fresh
import Verif.Props.ImprovedFloat
import Verif.Props.Interpolation
import Verif.Props.JackExample
import Verif.Props.JackPlayback
import Verif.Props.KrajeskiFloat
import Verif.Props.LadderBounds
import Verif.Props.LadderDC
import Verif.Props.LadderDivisors
import Verif.Props.LadderRest
import Verif.Props.LadderSetters
import Verif.Props.LadderSilence
import Verif.Props.Lag
import Verif.Props.LagFloat
import Verif.Props.Lines
import Verif.Props.MicrotrackerFloat
import Verif.Props.MicrotrackerRes
import Verif.Props.Noise
import Verif.Props.OberheimFloat
import Verif.Props.OberheimLoop
import Verif.Props.Oscillators
import Verif.Props.Panning
import Verif.Props.Parts
import Verif.Props.PitchAccuracy
import Verif.Props.Playback
import Verif.Props.Polarity
import Verif.Props.RKFloat
import Verif.Props.RKLadder
import Verif.Props.RLPF
import Verif.Props.RLPFFloat
import Verif.Props.RLPFGlide
import Verif.Props.RLPFGlideFloat
import Verif.Props.RLPFPlayed
import Verif.Props.Reset
import Verif.Props.Response
import Verif.Props.SawFloat
import Verif.Props.SawSweep
import Verif.Props.SetterRange
import Verif.Props.SlowRamps
import Verif.Props.SoundFile
import Verif.Props.Split
import Verif.Props.StaleHandle
import Verif.Props.Stilson
import Verif.Props.SuperSaw
import Verif.Props.SuperSawBound
import Verif.Props.SuperSawFloat
import Verif.Props.SuperSawProgram
import Verif.Props.SuperSawSound
import Verif.Props.Tape
import Verif.Props.Times
import Verif.Props.Utility
import Verif.Props.UtilityFloat
import Verif.Props.VoiceModulation
import Verif.Props.XPlay
import Verif.Props.XPlayFloat
import Verif.Props.XPlayGate
import Verif.Props.XPlayLoop
import Verif.Spec.Allocator
import Verif.Spec.Delay
import Verif.Spec.FVerb
import Verif.Spec.Linear
import Verif.Spec.ReverbEnergy
