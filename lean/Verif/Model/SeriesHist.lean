import Verif.Model.Welch
import Verif.Model.Synth

/-! # A `Series` object under a sequence of method calls (series.py:301-626, with the methods inherited from `WaveHeights`) -/

namespace Verif

/-- The methods of `Series` that a caller can invoke, with their arguments; `waves` are the inherited ones. -/
inductive SeriesOp where
  | waves (op : WHOp ℝ)
  | getCrossing (typeCross : String)
  | getSkewness
  | getAsymmetry
  | getSpectrum (nperseg noverlap nfft : Int) (window : String) (dfDesired : ℝ) (useDf : Bool)
  | getSpectrumRaw (dfDesired : ℝ)
  | max
  | min
  | mean
  | var
  | getBandpassfilter (fmin fmax : ℝ)
  | getFourierComp
  | determineIndividualWaves (typeCross : String) (fcutoff minimumWave : ℝ)
  | plot (plotCrossing : Bool)

/-- The object after one method call, exceptions included.  The inherited methods change `hwave`/`twave` only (series.py:43-298);
`_determine_individual_waves` (series.py:525-596) assigns `tCross` and the wave attributes in its last lines, so a call that raises
changes nothing; every other method only reads. -/
noncomputable def SeriesObj.step (A : Argsort ℝ) (s : SeriesObj ℝ) : SeriesOp → SeriesObj ℝ
  | .waves op => { s with wh := s.wh.step A op }
  | .determineIndividualWaves ty fc m =>
    match s.individualWaves ty fc m with
    | .ok (_, _, s') => s'
    | .error _ => s
  | _ => s

/-- The object after a sequence of method calls. -/
noncomputable def SeriesObj.run (A : Argsort ℝ) (hist : List SeriesOp) (s : SeriesObj ℝ) : SeriesObj ℝ :=
  hist.foldl (fun s op => s.step A op) s

/-- spectrum.py:458-478 `create_series`: `spectrum2timeseries_object` with its default seed `-1` (core_spectral.py:712-750). -/
noncomputable def SpecObj.createSeries (R : Rng) (sp : SpecObj) (tstart tend dt : ℝ) (g : R.State) :
    Except PyErr (SeriesObj ℝ) × R.State :=
  spectrum2timeseriesObject R (vec sp.f) (.nd sp.sVarDens) tstart tend dt (-1) g

end Verif
