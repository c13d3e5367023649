import Verif.Np
import Verif.Model.Engine
import Verif.Model.Time
import Verif.Model.Series
import Verif.Model.SeriesReal
import Verif.Lemmas.Engine
import Verif.Lemmas.Cross
import Verif.Lemmas.ListNp
import Verif.Props.Sort
import Verif.Props.Cross
import Verif.Props.CrossAlt
import Verif.Props.Wrappers
import Verif.Props.Waves
import Verif.Props.WaveSigns
import Verif.Props.SeriesInit
import Verif.Props.Scaling
import Verif.Props.Highest
import Verif.Props.WaveHeights
import Verif.Props.Engine
import Verif.NpFft
import Verif.Model.Spectral
import Verif.Lemmas.Fourier
import Verif.Lemmas.Spectral
import Verif.Props.Averaging
import Verif.Props.AveragingLaws
import Verif.Props.HeightLaws
import Verif.Props.Float64
import Verif.Props.FloatAxis
import Verif.Props.FloatCross
import Verif.Props.BGLaws
import Verif.Props.BGAccuracy
import Verif.Props.Fourier
import Verif.Props.Filter
import Verif.Props.Coherence
import Verif.Model.Synth
import Verif.Props.Synth
import Verif.Model.WaveFun
import Verif.Model.SpectrumObj
import Verif.Lemmas.Simpson
import Verif.Lemmas.Moments
import Verif.Lemmas.MomentWeights
import Verif.Lemmas.Periods
import Verif.Props.Moments
import Verif.Props.Quadrature
import Verif.Props.RecordHeight
import Verif.Props.Spectrum
import Verif.Props.SpectrumValues
import Verif.Props.SpectrumCache
import Verif.Props.Jonswap
import Verif.Props.Tps
import Verif.Props.Tpd
import Verif.Model.BG
import Verif.Lemmas.BG
import Verif.Props.BG
import Verif.Model.SeriesSig
import Verif.Props.Skewness
import Verif.Model.Welch
import Verif.Props.Welch
import Verif.Model.Dispersion
import Verif.Lemmas.Tanh
import Verif.Lemmas.DispGrid
import Verif.Props.Dispersion
import Verif.Props.DispersionLimit
import Verif.Model.Decomp
import Verif.Props.Decomp
import Verif.Props.DecompMore
import Verif.Model.SeriesHist
import Verif.Props.SeriesHist
import Verif.Props.SeriesStats
import Verif.Props.SeriesFilter
import Verif.Props.RoundTrip
import Verif.Model.Plots
import Verif.Props.Plots
import Verif.Props.Prefix
import Verif.Props.PlotsSpec
import Verif.Props.SpecScale
import Verif.Props.Bands
import Verif.Props.SpecUnits
import Verif.Props.SteepExact
import Verif.Model.Hist
import Verif.Props.WaveExact
import Verif.Props.RoundTripId
import Verif.Props.RawInvariance
import Verif.Props.DispersionPhysics
import Verif.Props.Superpose
import Verif.Props.TpsTotal
import Verif.Props.WelchTotal
import Verif.Props.SpectrumShapes
import Verif.Props.FilterExact
import Verif.Props.DecompLaws
import Verif.Props.DecompCases
import Verif.Props.JonswapLaws
import Verif.Props.CoherenceExact
import Verif.Props.Mixture
import Verif.Props.FilterAlgebra
import Verif.Props.AsymmetryPhase
import Verif.Props.NoiseWaves
import Verif.Props.RegularWave
import Verif.Props.Unfold
import Verif.Props.SeriesShape
import Verif.Props.FloatStat
import Verif.Props.FloatWaves
import Verif.Props.FloatSynth
import Verif.Props.FloatFreq
import Verif.Model.FloatSimpson
import Verif.Props.FloatSimpson
import Verif.Props.FloatMoments
import Verif.Props.FloatPeriods
import Verif.Model.IntInput
import Verif.Model.Memory
import Verif.Props.IntInput
import Verif.Props.Memory
import Verif.Props.MemorySeries
import Verif.Props.MemorySpectrum
import Verif.Props.FixedWidth
import Verif.Props.NaN
import Verif.Props.NaNSeries
import Verif.Model.NaNSpec
import Verif.Props.NaNMoments
import Verif.Props.NaNSpectrum
import Verif.Props.NaNPeak
import Verif.Props.NaNCutoff
import Verif.Props.NaNRefine
import Verif.Model.NaNSig
import Verif.Props.NaNFft
import Verif.Props.NaNFilter
import Verif.Props.NaNCutWaves
import Verif.Props.NaNRaw
import Verif.Props.NaNWelch
import Verif.Props.NaNValues
import Verif.Props.NaNTpd
import Verif.Props.JonswapPeak
import Verif.Props.Conformance
import Verif.Props.Ensemble
import Verif.Props.WelchSine
import Verif.Props.Describe
import Verif.Props.WelchSea
import Verif.Props.TpsWave
import Verif.Props.Sampled
import Verif.Props.SmoothSpectra
import Verif.Props.SampledSurface
import Verif.Props.NoiseSpectra
import Verif.Props.WelchWindows
import Verif.Props.DecompNoise
import Verif.Props.TimeReversal
import Verif.Props.ConformanceReal
import Verif.Props.JonswapLimit
import Verif.Props.WindowShapes
import Verif.Props.Directional
import Verif.Props.JonswapOdd
import Verif.Props.SampledPeak
import Verif.Props.DispersionOdd
import Verif.Props.SynthOdd
import Verif.Props.BGOdd
import Verif.Props.StillWater
import Verif.Props.FloatBands
import Verif.Props.WelchGaps
import Verif.Props.FloatDisp
import Verif.Props.FloatFftExists
import Verif.Props.FloatRound
import Verif.Props.FloatInterp
import Verif.Props.FloatSynthDraw
import Verif.Props.SynthSpectrum
import Verif.Props.FloatJonswap
import Verif.Props.FloatJonswapShape
import Verif.Props.FloatMomentTiny
import Verif.Props.FloatHeightTiny
