import Verif.Model.Spectral
import Mathlib.Analysis.SpecialFunctions.Pow.Real
import Mathlib.Analysis.SpecialFunctions.Sqrt

/-! # Model of deltares_wave_toolbox/cores/core_wavefunctions.py (spectral moments, standard spectra, peak periods) -/

namespace Verif

/-- An upper frequency limit: a number or `np.inf`. -/
inductive FMax (K : Type) where
  | fin (x : K)
  | inf
  deriving DecidableEq, Repr

section
variable {K : Type} [Field K] [LinearOrder K]

/-- `x <= fmax`. -/
def FMax.ge (fmax : FMax K) (x : K) : Bool :=
  match fmax with
  | .fin F => decide (x ≤ F)
  | .inf => true

/-- scipy.integrate `_basic_simpson` on an odd number of points: one parabola per pair of intervals.  The guarded divisions
of scipy give 0 for a zero denominator, as `/` does in Lean. -/
def simpOdd : List K → List K → K
  | x0 :: x1 :: x2 :: xs, y0 :: y1 :: y2 :: ys =>
    let h0 := x1 - x0
    let h1 := x2 - x1
    let hsum := h0 + h1
    let hprod := h0 * h1
    let h0divh1 := h0 / h1
    hsum / 6 * (y0 * (2 - 1 / h0divh1) + y1 * (hsum * (hsum / hprod)) + y2 * (2 - h0divh1)) +
      simpOdd (x2 :: xs) (y2 :: ys)
  | _, _ => 0

/-- scipy.integrate.simpson: the correction for the last interval of an even number of points (at least four). -/
def simpLast (x y : List K) : K :=
  let n := x.length
  let h0 := x.getD (n - 2) 0 - x.getD (n - 3) 0
  let h1 := x.getD (n - 1) 0 - x.getD (n - 2) 0
  let alpha := (2 * h1 ^ 2 + 3 * h0 * h1) / (6 * (h1 + h0))
  let beta := (h1 ^ 2 + 3 * h0 * h1) / (6 * h0)
  let eta := 1 * h1 ^ 3 / (6 * h0 * (h0 + h1))
  alpha * y.getD (n - 1) 0 + beta * y.getD (n - 2) 0 - eta * y.getD (n - 3) 0

/-- `scipy.integrate.simpson(y, x=x)` (scipy 1.11 and later) for 1D arrays.  An empty array raises `ValueError`. -/
def simpson (x y : List K) : Except PyErr K :=
  if x.length ≠ y.length then .error (.valueError "If given, length of x along axis must be the same as y.")
  else if x = [] then .error (.valueError "cannot select an axis to squeeze out which has size not equal to one")
  else if x.length % 2 = 1 then .ok (simpOdd x y)
  else if x.length = 2 then .ok (1 / 2 * (x.getD 1 0 - x.getD 0 0) * (y.getD 1 0 + y.getD 0 0))
  else .ok (simpOdd x.dropLast y.dropLast + simpLast x y)

/-- core_wavefunctions.py:238, 242, 254, 260: Simpson integral of `freq ** m * spec`.  A zero frequency with `m < 0` makes
the integrand infinite (`nonFinite`). -/
def momentSum (m : Int) (freq spec : List K) : Except PyErr K :=
  if m < 0 ∧ 0 ∈ freq then .error .nonFinite
  else simpson freq (List.zipWith (fun a s => a ^ m * s) freq spec)

/-- core_wavefunctions.py:264-268: contribution of the `f^-5` tail between `fe = freq[-1]` and `fmax`.
`m = 4` divides by zero; `inf ** n` is 0 for `n < 0` and infinite for `n > 0`; `0 ** -n` is infinite. -/
def tailMoment (m : Int) (fe se : K) (fmax : FMax K) : Except PyErr K :=
  let power : Int := -5
  if m + power + 1 = 0 ∨ fe = 0 then .error .nonFinite
  else
    let C := se / fe ^ power
    match fmax with
    | .fin F =>
      if F = 0 ∧ m + power + 1 < 0 then .error .nonFinite
      else .ok (C / ((m + power + 1 : Int) : K) * (F ^ (m + power + 1) - fe ^ (m + power + 1)))
    | .inf =>
      if m + power + 1 < 0 then .ok (C / ((m + power + 1 : Int) : K) * (0 - fe ^ (m + power + 1)))
      else .error .nonFinite

/-- core_wavefunctions.py:252-254 / 258-260: the integral between the grid points nearest to `fminn` and `F`. -/
def momentBetween (m : Int) (freq spec : List K) (fminn F : K) : Except PyErr K := do
  let i ← approxArrayIndex freq fminn
  let j ← approxArrayIndex freq F
  momentSum m (pySlice freq i (j + 1)) (pySlice spec i (j + 1))

/-- core_wavefunctions.py:256-270: the integral up to `freq[-1]` plus the tail. -/
def momentWithTail (m : Int) (freq spec : List K) (fminn fe : K) (fmax : FMax K) : Except PyErr K := do
  let moment1 ← momentBetween m freq spec fminn fe
  let se ← lastE spec
  let moment2 ← tailMoment m fe se fmax
  return moment1 + moment2

/-- core_wavefunctions.py:228-271, the body of `compute_moment` after the input checks. -/
def computeMomentL (f S : List K) (m : Int) (fmin : K) (fmax : FMax K) : Except PyErr K := do
  let f0 ← getE f 0
  let drop0 := decide (m < 0 ∧ f0 = 0)
  let freq := if drop0 then f.drop 1 else f
  let spec := if drop0 then S.drop 1 else S
  if fmin = -1 ∨ fmax = .fin (-1) then momentSum m freq spec
  else
    let fminn := if drop0 then (if fmin = 0 then f.getD 1 0 else fmin) else fmin
    let fe ← lastE freq
    match fmax with
    | .fin F => if F ≤ fe then momentBetween m freq spec fminn F else momentWithTail m freq spec fminn fe (.fin F)
    | .inf => momentWithTail m freq spec fminn fe .inf

/-- core_wavefunctions.py:150-271 `compute_moment` (float arrays, integer order `m`). -/
def computeMoment (f S : PyIn K) (m : Int) (fmin : K) (fmax : FMax K) : Except PyErr K := do
  let f ← vecIn "compute_moment" f
  let S ← vecIn "compute_moment" S
  let b ← monotonicIncreasingConstantStep f
  if b = false then .error (.valueError "compute_moment: Input error: frequency input parameter must be monotonic with constant step size")
  else if f.length ≠ S.length then .error (.valueError "compute_moment: Input error: array sizes differ in dimension")
  else computeMomentL f S m fmin fmax

/-- `1 / x` where a division by zero gives an infinity. -/
def invE (x : K) : Except PyErr K := if x = 0 then .error .nonFinite else .ok (1 / x)

/-- `a / b` where a division by zero gives an infinity or NaN. -/
def divE (a b : K) : Except PyErr K := if b = 0 then .error .nonFinite else .ok (a / b)

/-- `np.polyfit(ff, ee, 2)[0:2]` for three points: the interpolating parabola, leading coefficient and linear
coefficient.  Coinciding abscissae (a rank-deficient fit) are outside the model. -/
def polyfit2 (x0 x1 x2 y0 y1 y2 : K) : Except PyErr (K × K) :=
  if x0 = x1 ∨ x1 = x2 ∨ x0 = x2 then .error .unmodelled
  else
    let d01 := (y1 - y0) / (x1 - x0)
    let d12 := (y2 - y1) / (x2 - x1)
    let a := (d12 - d01) / (x2 - x0)
    .ok (a, d01 - a * (x0 + x1))

/-- core_wavefunctions.py:666-672 / 697-703: parabola through the points `j-1, j, j+1`. -/
def fitAt (f S : List K) (j : Nat) : Except PyErr (K × K) := do
  let x0 ← getE f (j - 1)
  let x1 ← getE f j
  let x2 ← getE f (j + 1)
  let y0 ← getE S (j - 1)
  let y1 ← getE S j
  let y2 ← getE S (j + 1)
  polyfit2 x0 x1 x2 y0 y1 y2

/-- core_wavefunctions.py:592-724, body of `compute_tps` on 1D arrays of equal length (the monotonicity check in lines
637-640 can never fire, because it requires `fSize[1] > 1`, which has already raised). -/
def computeTpsL (f S : List K) : Except PyErr K := do
  let Smax ← pyMax S
  if Smax < 1 / 10 ^ 10 then return -999
  else
    let nF := f.length
    let imax := whereIdx (fun v => decide (v = Smax)) S
    let i0 ← getE imax 0
    if 2 < nF then
      match imax with
      | [i] =>
        let jmax := if i = 0 then 1 else if i = nF - 1 then nF - 2 else i
        let (a, b) ← fitAt f S jmax
        let Fps ← if a < 0 then .ok (-b / (2 * a)) else getE f i
        invE Fps
      | [i, j] =>
        if j - i = 1 then
          let kmax := if i = 0 then 1 else if j = nF - 1 then nF - 2 else i
          let (a, b) ← fitAt f S kmax
          let Fps ← divE (-b) (2 * a)
          invE Fps
        else do
          let fi ← getE f i
          invE fi
      | _ => do
        let i1 ← getE imax 1
        let fi ← getE f i1
        invE fi
    else if nF = 2 then
      if imax.length = 1 then do
        let fi ← getE f i0
        invE fi
      else invE (1 / 2 * (f.getD 0 0 + f.getD 1 0))
    else do
      let fi ← getE f 0
      invE fi

/-- core_wavefunctions.py:592-724 `compute_tps`. -/
def computeTps (f S : PyIn K) : Except PyErr K := do
  let f ← vecIn "compute_moment" f
  let S ← vecIn "compute_moment" S
  if f.length ≠ S.length then .error (.valueError "compute_moment: Input error: array sizes differ in dimension")
  else computeTpsL f S

/-- core_wavefunctions.py:556-589 `tpd`.  With `max(S) = 0` the ratios are NaN or `-inf`, no frequency is selected and
`min([])` raises `ValueError`. -/
def tpd (f S : PyIn K) : Except PyErr K := do
  let fs ← vecIn "tpd" f
  let Ss ← vecIn "tpd" S
  let mx ← pyMax Ss
  let maxSpectrum := mx * (8 / 10)
  let itemp := if maxSpectrum = 0 then [] else whereIdx (fun v => decide (8 / 10 ≤ v / maxSpectrum)) Ss
  let temp ← itemp.mapM (getE fs)
  let lo ← pyMin temp
  let hi ← pyMax temp
  let m0 ← computeMoment (vec fs) (vec Ss) 0 lo (.fin hi)
  let m1 ← computeMoment (vec fs) (vec Ss) 1 lo (.fin hi)
  divE m0 m1

/-- spectrum.py:189-192, 214-217 and core_wavefunctions.py:128-131: the part of the spectrum between `fmin` and `fmax`. -/
def bandSlice (f S : List K) (fmin : K) (fmax : FMax K) : Except PyErr (List K × List K) := do
  let i ← getE (whereIdx (fun v => decide (fmin ≤ v)) f) 0
  let j ← lastE (whereIdx (fun v => fmax.ge v) f)
  return (pySlice f i (j + 1), pySlice S i (j + 1))

/-- spectrum.py:219-228 and core_wavefunctions.py:134-143: inverse of the last frequency with the maximal density. -/
def peakPeriod (f S : List K) : Except PyErr K := do
  let Smax ← pyMax S
  let ifp ← lastE (whereIdx (fun v => decide (v = Smax)) S)
  let fp ← getE f ifp
  invE fp

end

/-- core_wavefunctions.py:370-392: the unscaled JONSWAP density at one frequency; `np.spacing(1)` is `2^-52`. -/
noncomputable def jonswapShape (fp gammaPeak fi : ℝ) : ℝ :=
  if fi > 1 / 2 ^ 52 then
    let nu := fi / fp
    let sigma : ℝ := if fi < fp then 7 / 100 else 9 / 100
    let A := Real.exp (-((nu - 1) ^ 2) / (2 * sigma ^ 2))
    let lambda := gammaPeak ^ A
    let C : ℝ := 1 * (981 / 100) ^ 2 * (2 * Real.pi) ^ (-4 : ℤ)
    C * fi ^ (-5 : ℤ) * Real.exp (-(125 / 100) * nu ^ (-4 : ℤ)) * lambda
  else 0

/-- core_wavefunctions.py:370-392 for `fp = 0`, for which the code raises nothing: `nu` is `inf` (a warning), so `nu ** (-4)` and `A` are 0
and the peak enhancement is `gammaPeak ** 0 = 1`. -/
noncomputable def jonswapShapeZero (fi : ℝ) : ℝ :=
  if fi > 1 / 2 ^ 52 then (1 * (981 / 100) ^ 2 * (2 * Real.pi) ^ (-4 : ℤ)) * fi ^ (-5 : ℤ) else 0

/-- core_wavefunctions.py:394-402: the unscaled densities `S` times the scale factor.  A non-positive `m0` makes the factor infinite or NaN
(`nonFinite`). -/
noncomputable def jonswapScaled (fs S : List ℝ) (hm0 : ℝ) (fmax : FMax ℝ) : Except PyErr (List ℝ) :=
  match computeMoment (vec fs) (vec S) 0 (fs.getD 0 0) fmax with
  | .error e => .error e
  | .ok m0 =>
    if m0 ≤ 0 then .error .nonFinite
    else
      let hm0NonScale := 4 * Real.sqrt m0
      .ok (S.map fun v => v * (hm0 / hm0NonScale) ^ 2)

/-- core_wavefunctions.py:332-349 for a frequency array that is not 1D: `nf = 0` for 0-d and empty arrays and for three or more dimensions;
with several columns the comparison in line 375 raises. -/
noncomputable def jonswapBadShape (e : PyErr) (lFmax : ℝ) : PyErr :=
  if e = .unmodelled then .valueError "create_spectrum_jonswap:Input error: Input array f is not 1D "
  else if lFmax ≠ 0 ∧ lFmax ≠ 1 then .valueError "create_spectrum_jonswap:Input error:Argument l_fmax must be either 0 or 1"
  else .valueError "The truth value of an array with more than one element is ambiguous"

/-- core_wavefunctions.py:274-402 `create_spectrum_jonswap`.  For `fp = 0` see `jonswapShapeZero`.  With `gammaPeak ≤ 0` (and `fp ≠ 0`) the
densities are zero (`0 ** A`) or NaN (a negative number to a fractional power), so that the scaled densities are NaN, unless an earlier check
of `compute_moment` raises; zeros represent them here. -/
noncomputable def createSpectrumJonswap (f : PyIn ℝ) (fp hm0 gammaPeak lFmax : ℝ) : Except PyErr (List ℝ) :=
  match vecIn "create_spectrum_jonswap" f with
  | .error e => .error (jonswapBadShape e lFmax)
  | .ok fs =>
    if fs = [] then .error (.valueError "create_spectrum_jonswap:Input error: Input array f is not 1D ")
    else if lFmax ≠ 0 ∧ lFmax ≠ 1 then
      .error (.valueError "create_spectrum_jonswap:Input error:Argument l_fmax must be either 0 or 1")
    else
      let fmax : FMax ℝ := if lFmax = 0 then .fin (fs.getD (fs.length - 1) 0) else .inf
      if fp = 0 then jonswapScaled fs (fs.map jonswapShapeZero) hm0 fmax
      else if gammaPeak ≤ 0 then jonswapScaled fs (fs.map fun _ => 0) hm0 fmax
      else jonswapScaled fs (fs.map (jonswapShape fp gammaPeak)) hm0 fmax

/-- core_wavefunctions.py:450-507 `create_spectrum_piersonmoskowitz` (default `gammaPeak = 1`). -/
noncomputable def createSpectrumPiersonMoskowitz (f : PyIn ℝ) (fp hm0 : ℝ) (gammaPeak : ℝ := 1) (lFmax : ℝ := 0) :
    Except PyErr (List ℝ) :=
  createSpectrumJonswap (.nd (toVector f).1) fp hm0 gammaPeak lFmax

end Verif
