import Verif.Model.Spectral
import Verif.Model.Series
import Mathlib.Analysis.SpecialFunctions.Sqrt

/-! # Model of the random-phase synthesis (core_spectral.py:605-750)

numpy's global random generator is an abstract state machine: nothing is assumed about its numbers except their count
and range. -/

namespace Verif

/-- numpy's global legacy generator: `np.random.seed(n)` replaces the whole state, `np.random.rand(1, n)` returns `n`
numbers in `[0, 1)` and a new state. -/
structure Rng where
  State : Type
  seed : Nat → State
  rand : State → Nat → List ℝ × State
  rand_length : ∀ s n, (rand s n).1.length = n
  rand_range : ∀ s n, ∀ u ∈ (rand s n).1, 0 ≤ u ∧ u < 1

/-- numpy slice assignment `l[a : a + len(v)] = v` (in range). -/
def setSlice {α : Type} (l : List α) (a : Nat) (v : List α) : List α := l.take a ++ v ++ l.drop (a + v.length)

/-- core_spectral.py:685: `np.interp(fGen, f, sVarDens, left=0, right=0)`.  `f` has been converted to 1D, `sVarDens` has
*not*: a column or a number raises `ValueError`; empty sample points raise `ValueError`.  A decreasing `f` is outside the model. -/
noncomputable def interpArg (fGen f : List ℝ) (sVarDens : PyIn ℝ) : Except PyErr (List ℝ) :=
  open Classical in
  match sVarDens with
  | .num _ => .error (.valueError "object of too small depth for desired array")
  | .list S => go S
  | .nd a => match a.shape with
    | [_] => go a.data
    | _ => .error (.valueError "object too deep for desired array")
where
  /-- the call on a 1D `fp` -/
  go (S : List ℝ) : Except PyErr (List ℝ) :=
    open Classical in
    if f = [] then .error (.valueError "array of sample points is empty")
    else if ¬ f.Pairwise (· ≤ ·) then .error .unmodelled
    else .ok (fGen.map (npInterp f S))

/-- core_spectral.py:690-691: `if seed >= 0: np.random.seed(seed)`; seeds above `2^32 - 1` raise `ValueError`. -/
def reseed (R : Rng) (seed : Int) (s : R.State) : Except PyErr R.State :=
  if 0 ≤ seed then
    if 2 ^ 32 ≤ seed then .error (.valueError "Seed must be between 0 and 2**32 - 1") else .ok (R.seed seed.toNat)
  else .ok s

/-- core_spectral.py:693: `2 * pi * np.random.rand(1, nF)`, and the generator state afterwards. -/
noncomputable def drawPhases (R : Rng) (s : R.State) (nF : Nat) : List ℝ × R.State :=
  let r := R.rand s nF
  (r.1.map fun u => 2 * Real.pi * u, r.2)

/-- core_spectral.py:700-702: the two-sided Fourier components from the amplitudes and phases. -/
noncomputable def fourierComponents (nTimeEven nF : Nat) (amplitude phase : List ℝ) : List ℂ :=
  let x0 : List ℂ := List.replicate nTimeEven 0
  let x1 := setSlice x0 1 (List.zipWith (fun (a p : ℝ) => (a : ℂ) / 2 * Complex.exp (Complex.I * (p : ℂ))) amplitude phase)
  setSlice x1 nF ((pySlice x1 1 (nF + 1)).map (starRingEnd ℂ)).reverse

/-- The generated frequency axis (core_spectral.py:669, 675-677), `nF` and `dfGen`.  `tDuration` is non-zero here. -/
noncomputable def genAxis (nTimeEven : Nat) (dt : ℝ) : List ℝ × ℝ :=
  let tDuration := (nTimeEven : ℝ) * dt
  let dfGen := 1 / tDuration
  let fNyq := 1 / (2 * dt)
  (arange dfGen (fNyq + dfGen / 2) dfGen, dfGen)

/-- core_spectral.py:605-709 `spectrum2timeseries`: the result and the state of the global generator afterwards.
`np.arange` with step zero divides Python numbers by zero, and so does line 675 for an empty time axis.  A negative `dt` runs through the same lines
with negative generated frequencies.  A negative product of interpolated density and `dfGen` makes `np.sqrt` NaN (`nonFinite`).
(`sqrt` is applied after the generator is advanced.) -/
noncomputable def spectrum2timeseries (R : Rng) (f sVarDens : PyIn ℝ) (tInit tEnd dt : ℝ) (seed : Int) (s : R.State) :
    Except PyErr (List ℝ × List ℝ) × R.State :=
  match vecIn "compute_spectrum_freq_series" f, vecIn "compute_spectrum_freq_series" sVarDens with
  | .error e, _ => (.error e, s)
  | .ok _, .error e => (.error e, s)
  | .ok fs, .ok Ss =>
    if fs.length ≠ Ss.length then
      (.error (.valueError "compute_spectrum_freq_series: Input error: array sizes differ in dimension"), s)
    else if dt = 0 then (.error .zeroDivisionError, s)
    else
      let t := arange tInit (tEnd + dt) dt
      let nTime := t.length
      let nTimeEven := 2 * ((nTime + 1) / 2)       -- int(2 * ceil(nTime / 2))
      if nTimeEven = 0 then (.error .zeroDivisionError, s)
      else
        let (fGen, dfGen) := genAxis nTimeEven dt
        let nF := fGen.length
        match interpArg fGen fs sVarDens with
        | .error e => (.error e, s)
        | .ok sGen =>
          match reseed R seed s with
          | .error e => (.error e, s)
          | .ok s1 =>
            let (phase, s2) := drawPhases R s1 nF
            if sGen.any (fun v => decide (2 * v * dfGen < 0)) then (.error .nonFinite, s2)
            else
              let amplitude := sGen.map fun v => Real.sqrt (2 * v * dfGen)
              let xFreq := fourierComponents nTimeEven nF amplitude phase
              let xTime := (npIfft xFreq).map fun z => (z * (nTimeEven : ℂ)).re
              (.ok (t, xTime.take nTime), s2)

/-- core_spectral.py:712-750 `spectrum2timeseries_object`, also spectrum.py `create_series`. -/
noncomputable def spectrum2timeseriesObject (R : Rng) (f sVarDens : PyIn ℝ) (tInit tEnd dt : ℝ) (seed : Int) (s : R.State) :
    Except PyErr (SeriesObj ℝ) × R.State :=
  match spectrum2timeseries R f sVarDens tInit tEnd dt seed s with
  | (.error e, s') => (.error e, s')
  | (.ok (t, x), s') => (SeriesObj.init (vec t) (vec x), s')

end Verif
