import Verif.Model.FloatAxes
import Verif.Model.FloatStat
import Verif.Model.Spectral

/-! # Spectrum and band filter of a record in double precision

The Fourier transforms are arbitrary functions whose error, in the root-mean-square norm over all components, is at most `ε` times the size of the
result (`NpFftD`); everything else is rounded operation by operation.  A complex number is a pair of rationals.  No overflow. -/

namespace Verif
open Finset

/-- The complex number of two doubles. -/
noncomputable def cx (z : ℚ × ℚ) : ℂ := ⟨z.1, z.2⟩

/-- The sum of the squared moduli of `n` components. -/
noncomputable def energy (n : Nat) (X : Nat → ℂ) : ℝ := ∑ k ∈ range n, Complex.normSq (X k)

/-- `np.fft.fft` of a real array and `np.fft.ifft` in double precision, with a norm-wise relative error of at most `ε` (the addend, `2 ^ -300` per component,
stands for underflow). -/
structure NpFftD (ε : ℝ) where
  fft : List ℚ → List (ℚ × ℚ)
  ifft : List (ℚ × ℚ) → List (ℚ × ℚ)
  fft_length : ∀ x, (fft x).length = x.length
  ifft_length : ∀ X, (ifft X).length = X.length
  fft_spec : ∀ x, energy x.length (fun k => cx ((fft x).getD k 0) - (npFft (x.map fun (v : ℚ) => ((v : ℝ) : ℂ))).getD k 0)
    ≤ ε ^ 2 * (energy x.length (fun k => (npFft (x.map fun (v : ℚ) => ((v : ℝ) : ℂ))).getD k 0) + x.length * (1 / 2 ^ 100) ^ 3)
  ifft_spec : ∀ X, energy X.length (fun k => cx ((ifft X).getD k 0) - (npIfft (X.map cx)).getD k 0)
    ≤ ε ^ 2 * (energy X.length (fun k => (npIfft (X.map cx)).getD k 0) + X.length * (1 / 2 ^ 100) ^ 3)

variable {ε : ℝ}

/-- core_spectral.py:295-379 `time2freq` in double precision, for 1D arrays. -/
def time2freqF64 (F : NpFftD ε) (t x : List ℚ) : Except PyErr (List ℚ × List (ℚ × ℚ)) := do
  let b ← monotonicF64 t
  if b = false then .error (.valueError "time2freq: Input error: time input parameter must be monotonic with constant step size")
  else if t.length ≠ x.length then .error (.valueError "time2freq: Input error: array sizes differ in dimension")
  else return (fftAxisF64 t, F.fft x)

/-- core_spectral.py:242-292 `freq2time` in double precision, for 1D arrays: the real part of the inverse transform. -/
def freq2timeF64 (F : NpFftD ε) (X : List (ℚ × ℚ)) : Except PyErr (List ℚ) :=
  if X = [] then .error (.valueError "Invalid number of FFT data points (0) specified.")
  else .ok ((F.ifft X).map Prod.fst)

/-- core_spectral.py:382-475 `time2freq_nyquist` in double precision, for 1D arrays. -/
def time2freqNyquistF64 (F : NpFftD ε) (t x : List ℚ) : Except PyErr (List ℚ × List (ℚ × ℚ) × Bool) := do
  let b ← monotonicF64 t
  if b = false then .error (.valueError "time2freq_nyquist: Input error: time input parameter must be monotonic with constant step size")
  else if t.length ≠ x.length then .error (.valueError "time2freq_nyquist: Input error: array sizes differ in dimension")
  else return (nyquistAxisF64 t, (F.fft x).take (t.length / 2 + 1), decide (t.length % 2 = 1))

/-- core_spectral.py:523-524 in double precision: `2 * X` is exact, the real part of the product with the conjugate is the rounded sum of two rounded
products, and numpy divides a complex number by a real one by multiplying with the rounded reciprocal. -/
def rawDensityF64 (X : List (ℚ × ℚ)) (df N : ℚ) : List ℚ :=
  let r := f64 (1 / f64 (f64 (df * N) * N))
  X.map fun z => f64 (f64 (f64 (f64 (2 * z.1) * z.1) + f64 (f64 (2 * z.2) * z.2)) * r)

/-- core_spectral.py:69-92 `frequency_averaging` in double precision (`np.mean` adds in any order, `NpSum`); an empty slice cannot occur. -/
def frequencyAveragingF64 (R : NpSum) (f S : List ℚ) (dfDesired : ℚ) : List ℚ × List ℚ :=
  let m := (nFactorF64 f dfDesired).toNat
  let nCoarse := (nCoarseF64 f.length m).toNat
  ((List.range nCoarse).map fun i => meanD R (pySlice f (i * m) ((i + 1) * m)), (List.range nCoarse).map fun i => meanD R (pySlice S (i * m) ((i + 1) * m)))

/-- core_spectral.py:478-529 `compute_spectrum_time_series` in double precision, for 1D arrays. -/
def computeSpectrumTimeSeriesF64 (F : NpFftD ε) (R : NpSum) (t x : List ℚ) (dfDesired : ℚ) : Except PyErr (List ℚ × List ℚ) := do
  let (f, X, _) ← time2freqNyquistF64 F t x
  let df := f64 (f.getD 1 0 - f.getD 0 0)
  return frequencyAveragingF64 R f (rawDensityF64 X df t.length) dfDesired

/-- core_spectral.py:155-174 `unfold_spectrum` on the output of the filter (as many components as frequencies, at least two); conjugates are exact. -/
def unfoldF64 (X : List (ℚ × ℚ)) (isOdd : Bool) : List (ℚ × ℚ) :=
  X.take (X.length - 1 + isOdd.toNat) ++ ((X.drop 1).map fun z => (z.1, -z.2)).reverse

/-- core_spectral.py:864-895 `bandpassfilter` in double precision, for 1D arrays. -/
def bandpassfilterF64 (F : NpFftD ε) (t x : List ℚ) (flow fhigh : ℚ) : Except PyErr (List ℚ) := do
  let (f, X, isOdd) ← time2freqNyquistF64 F t x
  let Z ← applyBandFilter f X flow fhigh
  return (F.ifft (unfoldF64 Z isOdd)).map Prod.fst

end Verif
