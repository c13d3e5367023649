import Verif.Model.Float64

/-! # Axes and counts in double precision

The expressions that fix the number of samples, of frequencies and of segments, with every operation rounded. -/

namespace Verif

/-- `len(np.arange(start, stop, step))` for doubles: `ceil((stop - start) / step)`, both operations rounded; 0 if negative.
(Simplification: numpy's special case of a quotient that underflows to zero is left out.) -/
def arangeLenF64 (start stop step : ℚ) : Nat := ⌈f64 (f64 (stop - start) / step)⌉.toNat

/-- `np.arange(start, stop, step)` for doubles: numpy stores `start` and `start + step` and fills the rest with `start + i * delta` where
`delta` is the difference of the first two elements. -/
def arangeF64 (start stop step : ℚ) : List ℚ :=
  let next := f64 (start + step)
  let delta := f64 (next - start)
  (List.range (arangeLenF64 start stop step)).map fun (i : Nat) =>
    if i = 0 then start else if i = 1 then next else f64 (start + f64 (i * delta))

/-- core_spectral.py:665 `t = np.arange(tInit, tEnd + dt, dt)`. -/
def synthTimeF64 (tInit tEnd dt : ℚ) : List ℚ := arangeF64 tInit (f64 (tEnd + dt)) dt

/-- core_spectral.py:667-668 `nTimeEven = int(2 * np.ceil(nTime / 2))`; exact for counts below `2 ^ 53`. -/
def nTimeEven (nTime : Nat) : Nat := 2 * ((nTime + 1) / 2)

/-- core_spectral.py:669, 675 `dfGen = 1 / (nTimeEven * dt)`. -/
def dfGenF64 (n : Nat) (dt : ℚ) : ℚ := f64 (1 / f64 ((n : ℚ) * dt))

/-- core_spectral.py:669-677: `fGen = np.arange(dfGen, fNyq + dfGen / 2, dfGen)`. -/
def genAxisF64 (n : Nat) (dt : ℚ) : List ℚ :=
  let dfGen := dfGenF64 n dt
  let fNyq := f64 (1 / f64 (2 * dt))
  arangeF64 dfGen (f64 (fNyq + f64 (dfGen / 2))) dfGen

/-- core_spectral.py:367-374: the frequency axis of `time2freq`, `np.arange(0, nT) * (1.0 / (nT * dt))`. -/
def fftAxisF64 (t : List ℚ) : List ℚ :=
  let dt := f64 (t.getD 1 0 - t.getD 0 0)
  let df := f64 (1 / f64 ((t.length : ℚ) * dt))
  (List.range t.length).map fun (i : Nat) => f64 ((i : ℚ) * df)

/-- core_spectral.py:462-470: the part up to the Nyquist frequency. -/
def nyquistAxisF64 (t : List ℚ) : List ℚ := (fftAxisF64 t).take (t.length / 2 + 1)

/-- core_spectral.py:159-166: the frequency axis of `unfold_spectrum`. -/
def unfoldAxisF64 (f : List ℚ) (isOdd : Bool) : List ℚ :=
  let df := f64 (f.getD 1 0 - f.getD 0 0)
  (List.range ((f.length - 1) * 2 + isOdd.toNat)).map fun (i : Nat) => f64 ((i : ℚ) * df)

/-- core_spectral.py:70-76: `nFactor = max(np.round(dfDesired / (f[1] - f[0])), 1)`. -/
def nFactorF64 (f : List ℚ) (dfDesired : ℚ) : Int :=
  max (if dfDesired = 0 then 1 else roundHalfEven (f64 (dfDesired / f64 (f.getD 1 0 - f.getD 0 0)))) 1

/-- series.py:439 `nperseg = np.round((1 / self.dt) / dfDesired).astype(int)`. -/
def npersegF64 (dt dfDesired : ℚ) : Int := roundHalfEven (f64 (f64 (1 / dt) / dfDesired))

/-- series.py:440 `noverlap = np.round(nperseg / 2).astype(int)`. -/
def noverlapF64 (nperseg : Int) : Int := roundHalfEven (f64 ((nperseg : ℚ) / 2))

/-- core_engine.py:111-128 `approx_array_index` in double precision: `np.argmin(np.abs(a - v))` with rounded differences. -/
def approxArrayIndexF64 (a : List ℚ) (v : ℚ) : Except PyErr Nat :=
  match a.map fun x => |f64 (x - v)| with
  | [] => .error (.valueError "attempt to get argmin of an empty sequence")
  | d :: ds => .ok (argminAux d 0 1 ds)

end Verif
