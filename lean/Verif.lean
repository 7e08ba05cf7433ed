import Verif.Props.Windowed
import Verif.Props.Time
import Verif.Props.VariableRate
import Verif.Props.Growable
import Verif.Props.PopCount
import Verif.Props.HammingDb
import Verif.Props.Codes
import Verif.Props.Persist
import Verif.Props.Frequency
import Verif.Props.FreqAdaptive
import Verif.Props.DimCodec
import Verif.Props.HammingIndex
import Verif.Props.Loudness
import Verif.Props.Psychoacoustics
import Verif.Props.Midi
import Verif.Props.ContentRange
import Verif.Props.Buffer
import Verif.Props.OggVorbis
import Verif.Props.WebApp
import Verif.Props.Onset
import Verif.Props.Reservoir
import Verif.Props.Merge
import Verif.Props.Pipeline
import Verif.Props.Nd
import Verif.Props.Array
import Verif.Props.ArrayOps
import Verif.Props.Audio
import Verif.Props.Synth
import Verif.Props.WindowFunc
import Verif.Props.Learn
import Verif.Props.Ingest
import Verif.Props.Datasets
import Verif.Props.BruteForce
import Verif.Props.Mdct
import Verif.Props.Fft
import Verif.Props.Dct
import Verif.Props.Stretch
import Verif.Props.Decompose
import Verif.Props.Irfft
import Verif.Props.FaTransform
import Verif.Props.Tones
import Verif.Props.Descriptors
import Verif.Props.Weighting
import Verif.Props.ScaleApply
import Verif.Model.Resample
import Verif.Model.Conv
import Verif.Props.Resample
import Verif.Props.Conv
import Verif.Model.Loss
import Verif.Props.Loss
import Verif.Model.MetaData
import Verif.Props.MetaData
import Verif.Model.Square
import Verif.Props.Square
import Verif.Model.Correlogram
import Verif.Props.Correlogram
import Verif.Model.FilterBanks
import Verif.Props.FilterBanks
import Verif.Model.Rainbow
import Verif.Props.Rainbow
import Verif.Model.Repl
import Verif.Props.Repl
import Verif.Model.Codebook
import Verif.Props.Codebook
import Verif.Model.Ops
import Verif.Props.Ops
import Verif.Props.Networks
import Verif.Model.Archives
import Verif.Props.Archives
import Verif.Model.SoundNodes
import Verif.Props.SoundNodes
import Verif.Model.Training
import Verif.Props.Training
import Verif.Model.Rates
import Verif.Props.Rates
import Verif.Model.Monitor
import Verif.Props.Monitor
import Verif.Model.ArrayWrite
import Verif.Props.ArrayWrite
import Verif.Model.AudioIndex
import Verif.Props.AudioIndex
import Verif.Model.Stft
import Verif.Props.Stft
import Verif.Model.Arith
import Verif.Props.Arith
import Verif.Model.Fit
import Verif.Props.Fit
import Verif.Model.AudioGraph
import Verif.Props.AudioGraph
import Verif.Model.Blocks
import Verif.Props.Blocks
import Verif.Model.Forward
import Verif.Props.Forward
import Verif.Model.TimeRequest
import Verif.Props.TimeRequest
import Verif.Model.Experiment
import Verif.Props.Experiment
import Verif.Model.Search
import Verif.Props.Search
import Verif.Model.Threads
import Verif.Props.Threads
import Verif.Props.Exact
import Verif.Model.Resynth
import Verif.Props.Resynth
import Verif.Props.ExactTime
import Verif.Props.ExactDb
import Verif.Props.ExactStore
import Verif.Props.ExactFreq
import Verif.Props.ExactLearn
import Verif.Props.ExactSound
import Verif.Props.ExactWeb
import Verif.Props.ExactSpectral
import Verif.Props.ExactTones
import Verif.Props.ExactMisc
import Verif.Props.ExactThreads
import Verif.Props.ExactTraining
import Verif.Props.ExactMonitor
import Verif.Props.ExactArchives
import Verif.Props.ExactArith
import Verif.Props.ExactFit
import Verif.Props.ExactSearch
import Verif.Props.ExactLoss
import Verif.Props.ExactGraph
import Verif.Props.ExactIndex
import Verif.Model.MergeUnits
import Verif.Props.MergeUnits
import Verif.Props.SpectrumIndex
import Verif.Model.ComplexDomain
import Verif.Props.ComplexDomain
import Verif.Model.ScaleDefaults
import Verif.Props.ScaleDefaults
import Verif.Model.Onsets
import Verif.Props.Onsets
import Verif.Model.Sinc
import Verif.Props.Sinc
import Verif.Props.Overlap
import Verif.Model.UnitNorm
import Verif.Props.UnitNorm
import Verif.Model.DctAxis
import Verif.Props.DctAxis
import Verif.Model.PackBits
import Verif.Props.PackBits
import Verif.Model.Adaptive
import Verif.Props.Adaptive
import Verif.Model.Stored
import Verif.Props.Stored
import Verif.Model.AudioOps
import Verif.Props.AudioOps
import Verif.Model.Float64
import Verif.Props.Float64
import Verif.Props.FloatTones
import Verif.Model.FloatRange
import Verif.Props.FloatRange
import Verif.Model.FloatSizes
import Verif.Props.FloatSizes
import Verif.Model.Page
import Verif.Props.Page
import Verif.Model.Hertz
import Verif.Props.Hertz
import Verif.Model.PhaseBand
import Verif.Props.PhaseBand
import Verif.Model.BandLoss
import Verif.Props.BandLoss
import Verif.Model.Cut
import Verif.Props.Cut
import Verif.Model.Browser
import Verif.Props.Browser
import Verif.Model.Sketch
import Verif.Props.Sketch
import Verif.Model.Vq
import Verif.Props.Vq
import Verif.Model.Filter
import Verif.Props.Filter
import Verif.Props.SynthLinear
import Verif.Props.Energy
import Verif.Model.Analysis
import Verif.Props.Analysis
import Verif.Props.MdctBack
import Verif.Model.Duration
import Verif.Props.Duration
import Verif.Model.Shuffled
import Verif.Props.Shuffled
import Verif.Model.Sampler
import Verif.Props.Sampler
import Verif.Model.MuxThreads
import Verif.Props.MuxThreads
import Verif.Model.Memory
import Verif.Props.Memory
import Verif.Model.Desk
import Verif.Props.Desk
import Verif.Model.Bins
import Verif.Props.Bins
import Verif.Model.ToneFilter
import Verif.Props.ToneFilter
import Verif.Model.SineSpectrum
import Verif.Props.SineSpectrum
import Verif.Props.Padded
import Verif.Props.Periodic
import Verif.Props.SteadyStretch
import Verif.Props.ScaleSine
