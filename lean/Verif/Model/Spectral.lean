import Verif.Model.Engine
import Verif.NpFft

/-! # Model of deltares_wave_toolbox/cores/core_spectral.py

Every function takes its array arguments as `PyIn` and converts them as the code does.  The list-level functions
(suffix `L`) are the bodies after conversion. -/

namespace Verif

/-- The prefix of every function of core_spectral.py: `x, s = convert_to_vector(x)` and `if s[1] > 1: raise ValueError`
(e.g. core_spectral.py:63-67).  Arrays that are still not 1D afterwards (0-d, three or more dimensions, empty 2D) are
outside the model. -/
def vecIn {α : Type} (who : String) (x : PyIn α) : Except PyErr (List α) :=
  let r := toVector x
  if 1 < r.2.2 then .error (.valueError (who ++ ": Input error: input should be 1d arrays"))
  else
    match r.1.shape with
    | [_] => .ok r.1.data
    | _ => .error .unmodelled

section
variable {K : Type} [Field K] [LinearOrder K] [FloorRing K]

/-- core_spectral.py:71-77: the number of fine bins per coarse bin.  For `f[1] = f[0]` numpy's division gives `inf` or `-inf`
with a warning: `max(-inf, 1) = 1`, and `nFactor = inf` makes `nCoarse = floor(nFine / inf) = 0` (line 78) and is used nowhere
else, since the loop of line 85 is then empty; the model takes the first whole number with that effect, `nFine + 1`. -/
def nFactorOf (f : List K) (dfDesired : K) : Except PyErr Nat :=
  if dfDesired = 0 then .ok 1
  else
    match f with
    | f0 :: f1 :: _ =>
      if f1 - f0 = 0 then .ok (if 0 < dfDesired then f.length + 1 else 1)
      else .ok (max (roundHalfEven (dfDesired / (f1 - f0))) 1).toNat
    | _ => .error .indexError

/-- `np.mean` of a slice; the mean of an empty slice is NaN. -/
def meanE (l : List K) : Except PyErr K := if l = [] then .error .nonFinite else .ok (mean l)

/-- core_spectral.py:69-92, body of `frequency_averaging` on 1D float arrays (an integer-typed `sVarDens`, truncated by
`dtype=type(sVarDens[0])`, is in `Model/IntInput.lean`).  `sVarDens[0]` raises `IndexError` for an empty array. -/
def frequencyAveragingL (f S : List K) (dfDesired : K) : Except PyErr (List K × List K) := do
  let nFactor ← nFactorOf f dfDesired
  if S = [] then .error .indexError
  else
    let nCoarse := f.length / nFactor
    let fc ← (List.range nCoarse).mapM fun i => meanE (pySlice f (i * nFactor) ((i + 1) * nFactor))
    let sc ← (List.range nCoarse).mapM fun i => meanE (pySlice S (i * nFactor) ((i + 1) * nFactor))
    return (fc, sc)

/-- core_spectral.py:16-92 `frequency_averaging`. -/
def frequencyAveraging (f S : PyIn K) (dfDesired : K) : Except PyErr (List K × List K) := do
  let f ← vecIn "frequency_averaging" f
  let S ← vecIn "frequency_averaging" S
  frequencyAveragingL f S dfDesired

/-- core_spectral.py:841-846: index of the lower limit (`f0 = f[0]`, `fl = f[-1]`). -/
def bandLow (f : List K) (f0 fl flow : K) : Except PyErr Nat :=
  if flow ≤ f0 then .ok 1
  else if fl ≤ flow then .ok f.length
  else do
    let i ← lastE (whereIdx (fun v => decide (v < flow)) f)
    return i + 1

/-- core_spectral.py:849-854: index of the upper limit. -/
def bandHigh (f : List K) (f0 fl fhigh : K) : Except PyErr Nat :=
  if fhigh ≤ f0 then .ok 1
  else if fl ≤ fhigh then .ok f.length
  else lastE (whereIdx (fun v => decide (v < fhigh)) f)

/-- core_spectral.py:838-854: the half-open index range kept by `applybandfilter`.  Comparisons only, so a limit of
`inf` behaves like any limit at or above `f[-1]`. -/
def bandIndices (f : List K) (flow fhigh : K) : Except PyErr (Nat × Nat) := do
  let f0 ← getE f 0
  let fl ← lastE f
  let ilow ← bandLow f f0 fl flow
  let ihigh ← bandHigh f f0 fl fhigh
  return (ilow, ihigh)

/-- core_spectral.py:812-861 `applybandfilter` (called with 1D arrays of equal length): all components outside
`[ilow, ihigh)` are set to zero. -/
def applyBandFilter {R : Type} [Zero R] (f : List K) (X : List R) (flow fhigh : K) : Except PyErr (List R) := do
  let (ilow, ihigh) ← bandIndices f flow fhigh
  return X.zipIdx.map fun p => if ilow ≤ p.2 ∧ p.2 < ihigh then p.1 else 0

/-- `np.interp(x, xp, fp, left=0, right=0)` for increasing `xp`: zero outside, linear in between. -/
def npInterp (xp fp : List K) (x : K) : K :=
  match xp, fp with
  | x0 :: x1 :: xs, y0 :: y1 :: ys =>
    if x < x0 then 0
    else if x < x1 then (y1 - y0) / (x1 - x0) * (x - x0) + y0
    else npInterp (x1 :: xs) (y1 :: ys) x
  | [x0], [y0] => if x = x0 then y0 else 0
  | _, _ => 0

end

open Complex

/-- core_spectral.py:95-174, body of `unfold_spectrum`.  `isOdd` is 0 or 1.  `f[1]` raises `IndexError` for fewer than
two frequencies; assigning `xFreq[0:nF]` raises `ValueError` if `xFreq` is shorter than `f`, unless it has one element, which numpy
broadcasts; elements of `xFreq` beyond `nF` are not used. -/
noncomputable def unfoldSpectrumL (f : List ℝ) (X : List ℂ) (isOdd : Bool) : Except PyErr (List ℝ × List ℂ) :=
  match f with
  | f0 :: f1 :: _ =>
    let nF := f.length
    let nFTot := (nF - 1) * 2 + isOdd.toNat
    let df := f1 - f0
    let fTot := (List.range nFTot).map fun (i : Nat) => (i : ℝ) * df
    if X.length < nF ∧ X.length ≠ 1 then .error (.valueError "could not broadcast input array")
    else
      let tot0 := (if X.length < nF then List.replicate nF (X.getD 0 0) else X.take nF) ++ List.replicate (nFTot - nF) 0
      let tail := ((tot0.take nF).drop 1).map (starRingEnd ℂ) |>.reverse
      .ok (fTot, tot0.take (nF - 1 + isOdd.toNat) ++ tail)
  | _ => .error .indexError

/-- core_spectral.py:95-174 `unfold_spectrum`. -/
noncomputable def unfoldSpectrum (f : PyIn ℝ) (X : PyIn ℂ) (isOdd : Bool) : Except PyErr (List ℝ × List ℂ) := do
  let f ← vecIn "unfold_spectrum" f
  let X ← vecIn "unfold_spectrum" X
  unfoldSpectrumL f X isOdd

/-- `abs(a * np.conj(b))` for 1D arrays: an array of one element is broadcast, other lengths must be equal (`ValueError`). -/
noncomputable def absProd (a b : List ℂ) : Except PyErr (List ℝ) :=
  if a.length = b.length then .ok (List.zipWith (fun a b => ‖a * (starRingEnd ℂ) b‖) a b)
  else if a.length = 1 then .ok (b.map fun b => ‖a.getD 0 0 * (starRingEnd ℂ) b‖)
  else if b.length = 1 then .ok (a.map fun a => ‖a * (starRingEnd ℂ) (b.getD 0 0)‖)
  else .error (.valueError "operands could not be broadcast")

/-- core_spectral.py:177-239 `coherence`, on 1D arrays.  (Every result of `frequency_averaging` has as many elements as the coarse axis.) -/
noncomputable def coherence (f : List ℝ) (X1 X2 : List ℂ) (dfDesired : ℝ) : Except PyErr (List ℝ × List ℝ) := do
  let S11 ← absProd X1 X1
  let S22 ← absProd X2 X2
  let S12 ← absProd X1 X2
  let (_, S11b) ← frequencyAveragingL f S11 dfDesired
  let (_, S22b) ← frequencyAveragingL f S22 dfDesired
  let (fc, S12b) ← frequencyAveragingL f S12 dfDesired
  let small : ℝ := 1 / 10 ^ 10
  let S11b := S11b.map fun v => if v < small then small else v
  let S22b := S22b.map fun v => if v < small then small else v
  return (fc, List.zipWith (fun s12 d => s12 ^ 2 / d) S12b (List.zipWith (· * ·) S11b S22b))

/-- core_spectral.py:242-292 `freq2time`; an empty transform raises `ValueError` in `ifft`. -/
noncomputable def freq2time (X : PyIn ℂ) : Except PyErr (List ℝ) := do
  let X ← vecIn "freq2time" X
  if X = [] then .error (.valueError "Invalid number of FFT data points (0) specified.")
  else return (npIfft X).map Complex.re

/-- core_spectral.py:295-379 `time2freq`. -/
noncomputable def time2freq (t x : PyIn ℝ) : Except PyErr (List ℝ × List ℂ) := do
  let t ← vecIn "time2freq" t
  let x ← vecIn "time2freq" x
  let b ← monotonicIncreasingConstantStep t
  if b = false then .error (.valueError "time2freq: Input error: time input parameter must be monotonic with constant step size")
  else if t.length ≠ x.length then .error (.valueError "time2freq: Input error: array sizes differ in dimension")
  else
    let nT := t.length
    let dt := t.getD 1 0 - t.getD 0 0      -- both present: the monotonicity check raises for fewer than two elements
    let T := (nT : ℝ) * dt
    let df := 1 / T
    return ((List.range nT).map fun (i : Nat) => (i : ℝ) * df, npFft (x.map fun (v : ℝ) => (v : ℂ)))

/-- core_spectral.py:382-475 `time2freq_nyquist`. -/
noncomputable def time2freqNyquist (t x : PyIn ℝ) : Except PyErr (List ℝ × List ℂ × Bool) := do
  let t ← vecIn "time2freq_nyquist" t
  let x ← vecIn "time2freq_nyquist" x
  let b ← monotonicIncreasingConstantStep t
  if b = false then .error (.valueError "time2freq_nyquist: Input error: time input parameter must be monotonic with constant step size")
  else if t.length ≠ x.length then .error (.valueError "time2freq_nyquist: Input error: array sizes differ in dimension")
  else
    let (fTotal, xTotal) ← time2freq (vec t) (vec x)
    let nT := t.length
    let isOdd := decide (nT % 2 = 1)
    let iNyq := nT / 2 + 1
    return (fTotal.take iNyq, xTotal.take iNyq, isOdd)

/-- core_spectral.py:596-597 / 521-524: `real(2 X conj(X) / (df * Ntime * Ntime))`. -/
noncomputable def rawDensity (X : List ℂ) (df : ℝ) (Ntime : ℝ) : List ℝ :=
  X.map fun z => (2 * z * (starRingEnd ℂ) z / ((df * Ntime * Ntime : ℝ) : ℂ)).re

/-- core_spectral.py:478-529 `compute_spectrum_time_series` for 1D `t` (`Ntime = len(t)` is read off the unconverted
argument: a column vector has the same `len`). -/
noncomputable def computeSpectrumTimeSeries (t x : PyIn ℝ) (dfDesired : ℝ) : Except PyErr (List ℝ × List ℝ) := do
  let (f, X, _) ← time2freqNyquist t x
  let f0 ← getE f 0
  let f1 ← getE f 1
  let Ntime := (toArr t).len
  frequencyAveragingL f (rawDensity X (f1 - f0) Ntime) dfDesired

/-- core_spectral.py:532-602 `compute_spectrum_freq_series`; `Ntime = 0` divides by zero (`nonFinite`). -/
noncomputable def computeSpectrumFreqSeries (f : PyIn ℝ) (X : PyIn ℂ) (Ntime : Int) (dfDesired : ℝ) :
    Except PyErr (List ℝ × List ℝ) := do
  let f ← vecIn "compute_spectrum_freq_series" f
  let X ← vecIn "compute_spectrum_freq_series" X
  let b ← monotonicIncreasingConstantStep f
  if b = false then .error (.valueError "compute_spectrum_freq_series: Input error: frequency input parameter must be monotonic with constant step size")
  else if f.length ≠ X.length then .error (.valueError "compute_spectrum_freq_series: Input error: array sizes differ in dimension")
  else if Ntime = 0 then .error .nonFinite
  else
    let f0 ← getE f 0
    let f1 ← getE f 1
    frequencyAveragingL f (rawDensity X (f1 - f0) Ntime) dfDesired

/-- core_spectral.py:864-895 `bandpassfilter`. -/
noncomputable def bandpassfilter (t x : PyIn ℝ) (flow fhigh : ℝ) : Except PyErr (List ℝ) := do
  let (f, X, isOdd) ← time2freqNyquist t x
  let Z ← applyBandFilter f X flow fhigh
  let (_, ZU) ← unfoldSpectrum (vec f) (vec Z) isOdd
  freq2time (vec ZU)

end Verif
