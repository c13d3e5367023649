import Verif.Model.WaveFun
import Verif.Model.Spectral

/-! # Integer-typed inputs

`core_engine.convert_to_vector` keeps the element type: a list of Python integers becomes an `int64` array.  The other
model files take `float64` arrays.  This file models the three places where an integer array behaves differently:
the result array of `frequency_averaging` (allocated with the element type of the densities), and the negative integer
powers of an integer frequency axis in `compute_moment` and `create_spectrum_jonswap`, which numpy refuses. -/

namespace Verif

section
variable {K : Type} [Field K] [LinearOrder K] [FloorRing K]

/-- Assigning a float to an element of an `int64` array (core_spectral.py:90 with the array of line 82): truncation toward
zero.  (Simplification: no overflow.) -/
def truncInt (v : K) : Int := if 0 ≤ v then ⌊v⌋ else ⌈v⌉

/-- core_spectral.py:69-92, body of `frequency_averaging` for integer densities: `dtype=type(sVarDens[0])` (line 82) makes
the result an integer array, so line 90 truncates every block mean.  Storing the NaN mean of an empty slice raises
`ValueError`. -/
def frequencyAveragingIntL (f : List K) (S : List Int) (dfDesired : K) : Except PyErr (List K × List Int) := do
  let nFactor ← nFactorOf f dfDesired
  if S = [] then .error .indexError
  else
    let nCoarse := f.length / nFactor
    let fc ← (List.range nCoarse).mapM fun i => meanE (pySlice f (i * nFactor) ((i + 1) * nFactor))
    let sc ← (List.range nCoarse).mapM fun i =>
      match meanE ((pySlice S (i * nFactor) ((i + 1) * nFactor)).map fun z : Int => (z : K)) with
      | .ok v => .ok (truncInt v)
      | .error _ => .error (.valueError "cannot convert float NaN to integer")
    return (fc, sc)

/-- core_spectral.py:16-92 `frequency_averaging` called with integer densities. -/
def frequencyAveragingInt (f : PyIn K) (S : PyIn Int) (dfDesired : K) : Except PyErr (List K × List Int) := do
  let f ← vecIn "frequency_averaging" f
  let S ← vecIn "frequency_averaging" S
  frequencyAveragingIntL f S dfDesired

end

section
variable {K : Type} [Field K] [LinearOrder K]

/-- numpy's exception for `int_array ** negative_int` and `int64 ** negative_int`. -/
def negPowError : PyErr := .valueError "Integers to negative integer powers are not allowed."

/-- core_wavefunctions.py:228-271, the body of `compute_moment` for an integer frequency axis and an integer order: line 238
raises for `m < 0`; beyond the last frequency line 265 (`freq[-1] ** -5`) raises, after the integral of line 260. -/
def computeMomentIntL (f : List Int) (S : List K) (m : Int) (fmin : K) (fmax : FMax K) : Except PyErr K := do
  let f0 ← getE f 0
  let drop0 := decide (m < 0 ∧ f0 = 0)
  let freq := (if drop0 then f.drop 1 else f).map fun z : Int => (z : K)
  let spec := if drop0 then S.drop 1 else S
  if m < 0 ∧ freq ≠ [] then .error negPowError
  else if fmin = -1 ∨ fmax = .fin (-1) then momentSum m freq spec
  else
    let fe ← lastE freq
    match fmax with
    | .fin F =>
      if F ≤ fe then momentBetween m freq spec fmin F
      else do
        let _ ← momentBetween m freq spec fmin fe
        .error negPowError
    | .inf => do
      let _ ← momentBetween m freq spec fmin fe
      .error negPowError

/-- core_wavefunctions.py:150-271 `compute_moment` called with an integer frequency axis (the densities may have either type:
they only enter products with floats and sums). -/
def computeMomentInt (f : PyIn Int) (S : PyIn K) (m : Int) (fmin : K) (fmax : FMax K) : Except PyErr K := do
  let f ← vecIn "compute_moment" f
  let S ← vecIn "compute_moment" S
  let b ← monotonicIncreasingConstantStep (f.map fun z : Int => (z : K))
  if b = false then .error (.valueError "compute_moment: Input error: frequency input parameter must be monotonic with constant step size")
  else if f.length ≠ S.length then .error (.valueError "compute_moment: Input error: array sizes differ in dimension")
  else computeMomentIntL f S m fmin fmax

end

/-- core_wavefunctions.py:370-392 for an integer frequency: `f_i ** (-5)` raises for a positive one (`f_i > np.spacing(1)`),
the others keep the zero of line 366. -/
noncomputable def jonswapShapeInt (fi : Int) : Except PyErr ℝ :=
  if (fi : ℝ) > 1 / 2 ^ 52 then .error negPowError else .ok 0

/-- core_wavefunctions.py:274-402 `create_spectrum_jonswap` called with an integer frequency axis (the values of `fp` and
`gammaPeak` do not matter: their operations raise nothing). -/
noncomputable def createSpectrumJonswapInt (f : PyIn Int) (fp hm0 gammaPeak lFmax : ℝ) : Except PyErr (List ℝ) :=
  match vecIn "create_spectrum_jonswap" f with
  | .error e => .error (jonswapBadShape e lFmax)
  | .ok fs =>
    if fs = [] then .error (.valueError "create_spectrum_jonswap:Input error: Input array f is not 1D ")
    else if lFmax ≠ 0 ∧ lFmax ≠ 1 then
      .error (.valueError "create_spectrum_jonswap:Input error:Argument l_fmax must be either 0 or 1")
    else
      let fmax : FMax ℝ := if lFmax = 0 then .fin ((fs.getD (fs.length - 1) 0 : Int) : ℝ) else .inf
      match fs.mapM jonswapShapeInt with
      | .error e => .error e
      | .ok S =>
        match computeMomentInt f (vec S) 0 ((fs.getD 0 0 : Int) : ℝ) fmax with
        | .error e => .error e
        | .ok m0 =>
          if m0 ≤ 0 then .error .nonFinite
          else .ok (S.map fun v => v * (hm0 / (4 * Real.sqrt m0)) ^ 2)

end Verif
