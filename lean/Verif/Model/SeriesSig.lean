import Verif.Model.SeriesReal
import Verif.Model.SpectrumObj

/-! # The methods of `Series` that use the spectral routines (series.py:375-523, 525-596)

Methods that return an error on a non-1D signal in Python, or work along its last axis, are `unmodelled` for such a signal. -/

namespace Verif
open Complex

/-- The signal as a list, for a 1D signal. -/
def SeriesObj.sig (s : SeriesObj ℝ) : Except PyErr (List ℝ) :=
  match s.xTime.shape with
  | [_] => .ok s.xTime.data
  | _ => .error .unmodelled

/-- `a / b ** 1.5`; NaN or infinite for `b = 0` (`b` is a mean of squares). -/
noncomputable def over15 (a b : ℝ) : Except PyErr ℝ := if b = 0 then .error .nonFinite else .ok (a / b ^ (3 / 2 : ℝ))

/-- The body of `get_skewness` (series.py:385-388) on the signal; the mean of an empty array is NaN. -/
noncomputable def skewnessL (x : List ℝ) : Except PyErr ℝ :=
  if x = [] then .error .nonFinite
  else over15 (mean (x.map fun v => (v - mean x) ^ 3)) (mean (x.map fun v => (v - mean x) ^ 2))

/-- The weights of `scipy.signal.hilbert`: 1 at zero (and at Nyquist for even `n`), 2 for positive frequencies, else 0. -/
def hilbertWeight (n k : Nat) : ℂ :=
  if k = 0 then 1
  else if n % 2 = 0 then (if k = n / 2 then 1 else if k < n / 2 then 2 else 0)
  else (if k < (n + 1) / 2 then 2 else 0)

/-- `scipy.signal.hilbert(x)`: the analytic signal. -/
noncomputable def hilbert (x : List ℝ) : List ℂ :=
  let X := npFft (x.map fun (v : ℝ) => (v : ℂ))
  npIfft ((List.range x.length).map fun k => X.getD k 0 * hilbertWeight x.length k)

/-- The body of `get_asymmetry` (series.py:401-403); `hilbert` of an empty array raises `ValueError`. -/
noncomputable def asymmetryL (x : List ℝ) : Except PyErr ℝ :=
  if x = [] then .error (.valueError "N must be positive.")
  else
    let H := (hilbert x).map Complex.im
    over15 (mean (H.map fun v => v ^ 3)) (mean (x.map fun v => (v - mean x) ^ 2))

/-- series.py:375-389 `get_skewness` (mean over all elements). -/
noncomputable def SeriesObj.getSkewness (s : SeriesObj ℝ) : Except PyErr ℝ := skewnessL s.xTime.data

/-- series.py:391-404 `get_asymmetry`. -/
noncomputable def SeriesObj.getAsymmetry (s : SeriesObj ℝ) : Except PyErr ℝ := do
  let x ← s.sig
  asymmetryL x

/-- series.py:472-473 `max`. -/
def SeriesObj.max {K : Type} [Field K] [LinearOrder K] (s : SeriesObj K) : Except PyErr K := pyMax s.xTime.data

/-- series.py:475-476 `min`. -/
def SeriesObj.min {K : Type} [Field K] [LinearOrder K] (s : SeriesObj K) : Except PyErr K := pyMin s.xTime.data

/-- series.py:478-479 `mean` (NaN for an empty array). -/
def SeriesObj.mean {K : Type} [Field K] [LinearOrder K] (s : SeriesObj K) : Except PyErr K :=
  if s.xTime.data = [] then .error .nonFinite else .ok (Verif.mean s.xTime.data)

/-- series.py:481-482 `var`. -/
def SeriesObj.var {K : Type} [Field K] [LinearOrder K] (s : SeriesObj K) : Except PyErr K :=
  if s.xTime.data = [] then .error .nonFinite else .ok (variance s.xTime.data)

/-- series.py:484-499 `get_bandpassfilter`. -/
noncomputable def SeriesObj.getBandpassfilter (s : SeriesObj ℝ) (fmin fmax : ℝ) : Except PyErr (SeriesObj ℝ) := do
  let y ← bandpassfilter (.nd s.time) (.nd s.xTime) fmin fmax
  SeriesObj.init (.nd s.time) (vec y)

/-- series.py:501-523 `get_fourier_comp`. -/
noncomputable def SeriesObj.getFourierComp (s : SeriesObj ℝ) : Except PyErr (List ℝ × List ℂ × Bool) :=
  time2freqNyquist (.nd s.time) (.nd s.xTime)

/-- series.py:452-470 `get_spectrum_raw`. -/
noncomputable def SeriesObj.getSpectrumRaw (s : SeriesObj ℝ) (dfDesired : ℝ) : Except PyErr SpecObj := do
  let (f, S) ← computeSpectrumTimeSeries (.nd s.time) (.nd s.xTime) dfDesired
  SpecObj.init (vec f) (vec S)

/-- series.py:525-596 `_determine_individual_waves` with its `fcutoff` argument: the crossings are those of the signal
minus its part below `fcutoff`, the wave parameters those of the signal itself. -/
noncomputable def SeriesObj.individualWaves (s : SeriesObj ℝ) (typeCross : String) (fcutoff minWave : ℝ) :
    Except PyErr (IndWaves ℝ × List ℝ × SeriesObj ℝ) := do
  if fcutoff ≠ 0 then
    let xlow ← bandpassfilter (.nd s.time) (.nd s.xTime) 0 fcutoff
    determineIndividualWaves s typeCross xlow minWave
  else determineIndividualWaves s typeCross (zerosLike s.xTime) minWave

end Verif
