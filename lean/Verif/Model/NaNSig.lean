import Verif.Model.NaNSpec

/-! # Missing values in spectral analysis (core_spectral.py and the methods of `Series` that use it)

A sample is a number or NaN (`none`); a complex number is a pair of a real and an imaginary part, each a number or NaN.  Time and
frequency axes are numbers (an axis with NaN is rejected, `nan_axis_rejected`, C136). -/

namespace Verif
open Complex

/-- A complex number of numpy: real and imaginary part. -/
abbrev NC := Option ℝ × Option ℝ

/-- A complex number without NaN. -/
def cnum (z : ℂ) : NC := (some z.re, some z.im)

/-- The assumed behaviour of `np.fft.fft` of a real 1D array and of `np.real(np.fft.ifft(X, len(X)))` with NaN.  Without NaN they are the
defining sums (`npFft`, `npIfft`).  A part of a result whose value depends on an operand that is NaN is NaN: sums and products of
IEEE arithmetic propagate NaN.  Which parts that do not depend on the NaN operand become NaN is a matter of the algorithm, and left open. -/
structure FftN where
  fwd : List (Option ℝ) → List NC
  bwd : List NC → List (Option ℝ)
  fwd_length : ∀ x, (fwd x).length = x.length
  bwd_length : ∀ X, (bwd X).length = X.length
  fwd_num : ∀ x : List ℝ, fwd (x.map some) = (npFft (x.map fun (v : ℝ) => (v : ℂ))).map cnum
  bwd_num : ∀ X : List ℂ, bwd (X.map cnum) = (npIfft X).map fun z => some z.re
  fwd_re : ∀ (x : List (Option ℝ)) (u v : List ℝ) (j k : Nat), u.length = x.length → v.length = x.length → x[j]? = some none →
    (∀ i, i ≠ j → u[i]? = v[i]?) →
    ((npFft (u.map fun (v : ℝ) => (v : ℂ))).getD k 0).re ≠ ((npFft (v.map fun (v : ℝ) => (v : ℂ))).getD k 0).re →
    ((fwd x)[k]?).map Prod.fst = some none
  fwd_im : ∀ (x : List (Option ℝ)) (u v : List ℝ) (j k : Nat), u.length = x.length → v.length = x.length → x[j]? = some none →
    (∀ i, i ≠ j → u[i]? = v[i]?) →
    ((npFft (u.map fun (v : ℝ) => (v : ℂ))).getD k 0).im ≠ ((npFft (v.map fun (v : ℝ) => (v : ℂ))).getD k 0).im →
    ((fwd x)[k]?).map Prod.snd = some none
  bwd_re : ∀ (X : List NC) (U V : List ℂ) (k n : Nat), U.length = X.length → V.length = X.length →
    (X[k]?).map Prod.fst = some none → (∀ i, i ≠ k → U[i]? = V[i]?) → (U.getD k 0).im = (V.getD k 0).im →
    ((npIfft U).getD n 0).re ≠ ((npIfft V).getD n 0).re → (bwd X)[n]? = some none
  bwd_im : ∀ (X : List NC) (U V : List ℂ) (k n : Nat), U.length = X.length → V.length = X.length →
    (X[k]?).map Prod.snd = some none → (∀ i, i ≠ k → U[i]? = V[i]?) → (U.getD k 0).re = (V.getD k 0).re →
    ((npIfft U).getD n 0).re ≠ ((npIfft V).getD n 0).re → (bwd X)[n]? = some none

section
variable {K : Type} [Field K] [LinearOrder K] [FloorRing K]

/-- `np.mean` of a slice; the mean of an empty slice is NaN. -/
def meanEN (l : List (Option K)) : Option K := if l = [] then none else nMean l

/-- core_spectral.py:69-92, body of `frequency_averaging` (see `frequencyAveragingL`). -/
def frequencyAveragingLN (f : List K) (S : List (Option K)) (dfDesired : K) : Except PyErr (List K × List (Option K)) := do
  let nFactor ← nFactorOf f dfDesired
  if S = [] then .error .indexError
  else
    let nCoarse := f.length / nFactor
    let fc ← (List.range nCoarse).mapM fun i => meanE (pySlice f (i * nFactor) ((i + 1) * nFactor))
    return (fc, (List.range nCoarse).map fun i => meanEN (pySlice S (i * nFactor) ((i + 1) * nFactor)))

/-- core_spectral.py:16-92 `frequency_averaging`. -/
def frequencyAveragingN (f : PyIn K) (S : PyIn (Option K)) (dfDesired : K) : Except PyErr (List K × List (Option K)) := do
  let f ← vecIn "frequency_averaging" f
  let S ← vecIn "frequency_averaging" S
  frequencyAveragingLN f S dfDesired

end

/-- core_spectral.py:382-475 `time2freq_nyquist` (and 295-379 `time2freq`, whose checks are the same). -/
noncomputable def time2freqNyquistN (A : FftN) (t : PyIn ℝ) (x : PyIn (Option ℝ)) : Except PyErr (List ℝ × List NC × Bool) := do
  let t ← vecIn "time2freq_nyquist" t
  let x ← vecIn "time2freq_nyquist" x
  let b ← monotonicIncreasingConstantStep t
  if b = false then .error (.valueError "time2freq_nyquist: Input error: time input parameter must be monotonic with constant step size")
  else if t.length ≠ x.length then .error (.valueError "time2freq_nyquist: Input error: array sizes differ in dimension")
  else
    let nT := t.length
    let dt := t.getD 1 0 - t.getD 0 0
    let df := 1 / ((nT : ℝ) * dt)
    let iNyq := nT / 2 + 1
    return (((List.range nT).map fun (i : Nat) => (i : ℝ) * df).take iNyq, (A.fwd x).take iNyq, decide (nT % 2 = 1))

/-- core_spectral.py:521-524: `real(2 X conj(X) / (df * Ntime * Ntime))`; NaN if a part of `X` is NaN. -/
noncomputable def densityN (df Ntime : ℝ) : NC → Option ℝ
  | (some a, some b) => some (2 * (a * a + b * b) / (df * Ntime * Ntime))
  | _ => none

/-- core_spectral.py:478-529 `compute_spectrum_time_series` (see `computeSpectrumTimeSeries`). -/
noncomputable def computeSpectrumTimeSeriesN (A : FftN) (t : PyIn ℝ) (x : PyIn (Option ℝ)) (dfDesired : ℝ) :
    Except PyErr (List ℝ × List (Option ℝ)) := do
  let (f, X, _) ← time2freqNyquistN A t x
  let f0 ← getE f 0
  let f1 ← getE f 1
  let Ntime := (toArr t).len
  frequencyAveragingLN f (X.map (densityN (f1 - f0) Ntime)) dfDesired

/-- `np.conj`. -/
def conjN (c : NC) : NC := (c.1, c.2.map fun b => -b)

/-- core_spectral.py:95-174 `unfold_spectrum` as `bandpassfilter` calls it: as many components as frequencies. -/
noncomputable def unfoldSpectrumN (X : List NC) (isOdd : Bool) : List NC :=
  X.take (X.length - 1 + isOdd.toNat) ++ ((X.drop 1).map conjN).reverse

/-- core_spectral.py:812-861 `applybandfilter`: the components outside the range are zero (not multiplied by zero). -/
noncomputable def applyBandFilterN (f : List ℝ) (X : List NC) (flow fhigh : ℝ) : Except PyErr (List NC) := do
  let (ilow, ihigh) ← bandIndices f flow fhigh
  return X.zipIdx.map fun p => if ilow ≤ p.2 ∧ p.2 < ihigh then p.1 else cnum 0

/-- core_spectral.py:864-895 `bandpassfilter`, with 242-292 `freq2time`.  `f[1]` in `unfold_spectrum` raises `IndexError` for fewer than
two frequencies. -/
noncomputable def bandpassfilterN (A : FftN) (t : PyIn ℝ) (x : PyIn (Option ℝ)) (flow fhigh : ℝ) : Except PyErr (List (Option ℝ)) := do
  let (f, X, isOdd) ← time2freqNyquistN A t x
  let Z ← applyBandFilterN f X flow fhigh
  let _ ← getE f 1
  return A.bwd (unfoldSpectrumN Z isOdd)

/-- `scipy.signal.welch`: one segment (see `segmentPsd`). -/
noncomputable def segmentPsdN (A : FftN) (fs : ℝ) (w : List ℝ) (nfft : Nat) (seg : List (Option ℝ)) : List (Option ℝ) :=
  let d := List.zipWith nScale w (seg.map fun v => nSub v (nMean seg))
  let X := A.fwd (d ++ List.replicate (nfft - d.length) (some 0))
  let scale := 1 / (fs * (w.map fun v => v * v).sum)
  (List.range (nfft / 2 + 1)).map fun k =>
    let p := match X.getD k (some 0, some 0) with
      | (some a, some b) => some ((a * a + b * b) * scale)
      | _ => none
    if k = 0 then p else if nfft % 2 = 0 ∧ k = nfft / 2 then p else nScale 2 p

/-- `scipy.signal.welch` (see `welch`). -/
noncomputable def welchN (A : FftN) (x : List (Option ℝ)) (fs : ℝ) (window : String) (nperseg noverlap nfft : Option Int) :
    Except PyErr (List ℝ × List (Option ℝ)) :=
  if x = [] then .ok ([], [])
  else if nperseg.getD 256 < 1 then .error (.valueError "nperseg must be a positive integer")
  else
    let nps := min (nperseg.getD 256).toNat x.length
    match getWindow window nps with
    | .error e => .error e
    | .ok w =>
      if nfft.getD nps < nps then .error (.valueError "nfft must be greater than or equal to nperseg.")
      else
        let nf := (nfft.getD nps).toNat
        let nov := noverlap.getD (nps / 2 : Nat)
        if (nps : Int) ≤ nov then .error (.valueError "noverlap must be less than nperseg.")
        else
          let nstep := ((nps : Int) - nov).toNat
          let segs := (List.range ((x.length - nps) / nstep + 1)).map fun i => pySlice x (i * nstep) (i * nstep + nps)
          let psds := segs.map (segmentPsdN A fs w nf)
          .ok ((List.range (nf / 2 + 1)).map fun (k : Nat) => (k : ℝ) / (nf * (1 / fs)),
               (List.range (nf / 2 + 1)).map fun k => nMean (psds.map fun p => p.getD k none))

/-- core_spectral.py:753-809 `compute_spectrum_welch_wrapper` (see `welchWrapper`). -/
noncomputable def welchWrapperN (A : FftN) (x : List (Option ℝ)) (dt : ℝ) (nperseg noverlap nfft : Int) (window : String) :
    Except PyErr (List ℝ × List (Option ℝ)) :=
  if dt = 0 then .error .unmodelled
  else
    let opt (n : Int) : Option Int := if n = 0 then none else some n
    welchN A x (1 / dt) window (opt nperseg) (opt noverlap) (opt nfft)

/-- A time axis as the numbers it consists of (a `Series` has no NaN in it: `nan_axis_rejected`). -/
def axisN (t : Arr (Option ℝ)) : Except PyErr (Arr ℝ) :=
  match allFinite t.data with
  | some l => .ok ⟨t.shape, l⟩
  | none => .error .unmodelled

/-- series.py:452-470 `get_spectrum_raw`. -/
noncomputable def SeriesN.getSpectrumRaw (A : FftN) (s : SeriesN ℝ) (dfDesired : ℝ) : Except PyErr SpecObjN := do
  let t ← axisN s.time
  let (f, S) ← computeSpectrumTimeSeriesN A (.nd t) (.nd s.xTime) dfDesired
  SpecObjN.init (vec f) (vec S)

/-- series.py:406-450 `get_spectrum` (see `SeriesObj.getSpectrum`), for a 1D signal. -/
noncomputable def SeriesN.getSpectrum (A : FftN) (s : SeriesN ℝ) (nperseg noverlap nfft : Int) (window : String) (dfDesired : ℝ)
    (useDf : Bool) : Except PyErr SpecObjN := do
  match s.xTime.shape, s.dt with
  | [_], some dt =>
    if useDf then
      if dfDesired = 0 ∨ dt = 0 then .error (if dt = 0 then .unmodelled else .valueError "nperseg must be a positive integer")
      else
        let nperseg := roundHalfEven (1 / dt / dfDesired)
        let noverlap := roundHalfEven ((nperseg : ℝ) / 2)
        let (f, S) ← welchWrapperN A s.xTime.data dt nperseg noverlap nfft window
        SpecObjN.init (vec f) (vec S)
    else
      let (f, S) ← welchWrapperN A s.xTime.data dt nperseg noverlap nfft window
      SpecObjN.init (vec f) (vec S)
  | _, _ => .error .unmodelled

/-- series.py:484-499 `get_bandpassfilter`. -/
noncomputable def SeriesN.getBandpassfilter (A : FftN) (s : SeriesN ℝ) (fmin fmax : ℝ) : Except PyErr (SeriesN ℝ) := do
  let t ← axisN s.time
  let y ← bandpassfilterN A (.nd t) (.nd s.xTime) fmin fmax
  SeriesN.init (.nd s.time) (vec y)

/-- series.py:525-596 `_determine_individual_waves` after the low-pass filter: `xlow` is the array subtracted from the signal
(`xTime - xtime_low`) before the crossings are determined. -/
def wavesFromN {K : Type} [Field K] [LinearOrder K] (s : SeriesN K) (typeCross : String) (xlow : List (Option K)) (minWave : K) :
    Except PyErr (IndWaves (Option K) × List (Option K) × SeriesN K) := do
  let xd : Arr (Option K) := ⟨s.xTime.shape, List.zipWith nSub s.xTime.data xlow⟩
  let (_, tCross) ← determineZeroCrossingN (.nd s.time) (.nd xd) typeCross
  let w ← determineParamsIndividualWavesN (vec tCross) (.nd s.time) (.nd s.xTime)
  let rm := whereIdx (fun v => nLt v (some minWave)) w.hWave
  let w' : IndWaves (Option K) :=
    { hWave := npDelete w.hWave rm, tWave := npDelete w.tWave rm, aCrest := npDelete w.aCrest rm,
      aTrough := npDelete w.aTrough rm, tCrest := npDelete w.tCrest rm, tTrough := npDelete w.tTrough rm }
  let wh ← WHN.init (vec w'.hWave) (vec w'.tWave)
  return (w', tCross, { s with tCross := npDelete tCross rm, wh := wh })

/-- series.py:525-596 `_determine_individual_waves` with its `fcutoff` argument. -/
noncomputable def SeriesN.individualWaves (A : FftN) (s : SeriesN ℝ) (typeCross : String) (fcutoff minWave : ℝ) :
    Except PyErr (IndWaves (Option ℝ) × List (Option ℝ) × SeriesN ℝ) := do
  if fcutoff ≠ 0 then
    let t ← axisN s.time
    let xlow ← bandpassfilterN A (.nd t) (.nd s.xTime) 0 fcutoff
    wavesFromN s typeCross xlow minWave
  else determineIndividualWavesN s typeCross minWave

/-- `np.maximum(a, b)`: NaN if one of them is. -/
def nMax {K : Type} [LinearOrder K] : Option K → Option K → Option K
  | some a, some b => some (max a b)
  | _, _ => none

/-- `np.minimum(a, b)`. -/
def nMin {K : Type} [LinearOrder K] : Option K → Option K → Option K
  | some a, some b => some (min a b)
  | _, _ => none

/-- series.py:472-473 `max`; `np.max` of an empty array raises `ValueError`. -/
def SeriesN.max {K : Type} [Field K] [LinearOrder K] (s : SeriesN K) : Except PyErr (Option K) :=
  match s.xTime.data with
  | [] => .error (.valueError "zero-size array to reduction operation maximum which has no identity")
  | a :: l => .ok (l.foldl nMax a)

/-- series.py:475-476 `min`. -/
def SeriesN.min {K : Type} [Field K] [LinearOrder K] (s : SeriesN K) : Except PyErr (Option K) :=
  match s.xTime.data with
  | [] => .error (.valueError "zero-size array to reduction operation minimum which has no identity")
  | a :: l => .ok (l.foldl nMin a)

/-- series.py:478-479 `mean` (NaN for an empty array). -/
def SeriesN.mean {K : Type} [Field K] [LinearOrder K] (s : SeriesN K) : Option K :=
  if s.xTime.data = [] then none else (s.xTime.data.foldl nAdd (some 0)).map fun v => v / (s.xTime.data.length : K)

/-- `np.mean((x - np.mean(x)) ** p)` for a non-empty signal. -/
def SeriesN.centralMean {K : Type} [Field K] [LinearOrder K] (s : SeriesN K) (p : Nat) : Option K :=
  ((s.xTime.data.map fun v => (nSub v s.mean).map fun d => d ^ p).foldl nAdd (some 0)).map fun v => v / (s.xTime.data.length : K)

/-- series.py:481-482 `var`. -/
def SeriesN.var {K : Type} [Field K] [LinearOrder K] (s : SeriesN K) : Option K :=
  if s.xTime.data = [] then none else s.centralMean 2

/-- `a / b ** 1.5` (`b` is a mean of squares; 0 / 0 is NaN, another division by zero infinite). -/
noncomputable def nOver15 : Option ℝ → Option ℝ → Except PyErr (Option ℝ)
  | some a, some b => if b = 0 then (if a = 0 then .ok none else .error .nonFinite) else .ok (some (a / b ^ (3 / 2 : ℝ)))
  | _, _ => .ok none

/-- series.py:375-389 `get_skewness`. -/
noncomputable def SeriesN.getSkewness (s : SeriesN ℝ) : Except PyErr (Option ℝ) :=
  if s.xTime.data = [] then .ok none else nOver15 (s.centralMean 3) (s.centralMean 2)

/-- `np.imag(scipy.signal.hilbert(x))` of a real 1D array: the one of the number model without NaN, open otherwise. -/
structure HilbertN where
  run : List (Option ℝ) → List (Option ℝ)
  run_num : ∀ x : List ℝ, run (x.map some) = (hilbert x).map fun z => some z.im

/-- series.py:391-404 `get_asymmetry`; `hilbert` of an empty array raises `ValueError`. -/
noncomputable def SeriesN.getAsymmetry (H : HilbertN) (s : SeriesN ℝ) : Except PyErr (Option ℝ) :=
  match s.xTime.shape with
  | [_] =>
    if s.xTime.data = [] then .error (.valueError "N must be positive.")
    else
      let h := H.run s.xTime.data
      nOver15 (meanEN (h.map fun v => v.map fun d => d ^ 3)) (s.centralMean 2)
  | _ => .error .unmodelled

end Verif
