import Verif.Model.FloatFft
import Verif.Model.Synth

/-! # The random-phase synthesis in double precision

`np.sqrt` is correctly rounded (`NpSqrt`), the complex exponential is accurate to `2 ^ -50` on the phases that occur (`NpCexp`), the inverse transform as in
`NpFftD`.  The products and sums of `np.interp` are rounded one by one (no fused multiply-add).  No overflow. -/

namespace Verif

/-- `np.exp(1j * p)` in double precision for phases between 0 and 7. -/
structure NpCexp where
  exp : ℚ → ℚ × ℚ
  spec : ∀ p : ℚ, 0 ≤ p → p ≤ 7 → ‖cx (exp p) - Complex.exp (Complex.I * ((p : ℝ) : ℂ))‖ ≤ 1 / 2 ^ 50

/-- core_spectral.py:685 `np.interp(fGen, f, sVarDens, left=0, right=0)` in double precision, for one frequency and increasing sample points. -/
def npInterpF64 : List ℚ → List ℚ → ℚ → ℚ
  | x0 :: x1 :: xs, y0 :: y1 :: ys, x =>
    if x < x0 then 0
    else if x < x1 then
      if x = x0 then y0
      else
        let slope := f64 (f64 (y1 - y0) / f64 (x1 - x0))
        f64 (f64 (slope * f64 (x - x0)) + y0)
    else npInterpF64 (x1 :: xs) (y1 :: ys) x
  | [x0], [y0], x => if x = x0 then y0 else 0
  | _, _, _ => 0

/-- `2 * np.pi`: twice the double nearest to `π`. -/
def twoPiF64 : ℚ := 884279719003555 / 140737488355328

/-- core_spectral.py:693: `2 * np.pi * np.random.rand(1, nF)` for the numbers `u` drawn. -/
def phasesF64 (u : List ℚ) : List ℚ := u.map fun v => f64 (twoPiF64 * v)

/-- core_spectral.py:696: the argument of the square root, `2 * sVarDensGen * dfGen`. -/
def twiceDensF64 (df v : ℚ) : ℚ := f64 (f64 (2 * v) * df)

/-- core_spectral.py:701: one component, `amplitude / 2.0 * np.exp(1j * phase)`; a real factor multiplies both parts. -/
def componentF64 (E : NpCexp) (a p : ℚ) : ℚ × ℚ :=
  let h := f64 (a / 2)
  (f64 (h * (E.exp p).1), f64 (h * (E.exp p).2))

/-- core_spectral.py:700-702: the two-sided Fourier components. -/
def fourierComponentsF64 (E : NpCexp) (nTimeEven nF : Nat) (amplitude phase : List ℚ) : List (ℚ × ℚ) :=
  let x0 : List (ℚ × ℚ) := List.replicate nTimeEven 0
  let x1 := setSlice x0 1 (List.zipWith (componentF64 E) amplitude phase)
  setSlice x1 nF ((pySlice x1 1 (nF + 1)).map fun z => (z.1, -z.2)).reverse

/-- core_spectral.py:653-709 `spectrum2timeseries` in double precision, for 1D arrays with increasing frequencies; `u` are the numbers drawn (as many as
there are generated frequencies; other numbers are outside the model).  A negative argument of the square root gives NaN. -/
def synthF64 {ε : ℝ} (F : NpFftD ε) (Q : NpSqrt) (E : NpCexp) (f S : List ℚ) (tInit tEnd dt : ℚ) (u : List ℚ) : Except PyErr (List ℚ × List ℚ) :=
  if f.length ≠ S.length then .error (.valueError "compute_spectrum_freq_series: Input error: array sizes differ in dimension")
  else if dt = 0 then .error .zeroDivisionError
  else
    let t := synthTimeF64 tInit tEnd dt
    let n := nTimeEven t.length
    if n = 0 then .error .zeroDivisionError
    else if f = [] then .error (.valueError "array of sample points is empty")
    else if ¬ f.Pairwise (· ≤ ·) then .error .unmodelled
    else
      let fGen := genAxisF64 n dt
      let nF := fGen.length
      if u.length ≠ nF ∨ 2 * nF ≠ n then .error .unmodelled
      else
        let w := fGen.map fun x => twiceDensF64 (dfGenF64 n dt) (npInterpF64 f S x)
        if w.any (fun v => decide (v < 0)) then .error .nonFinite
        else
          let X := fourierComponentsF64 E n nF (w.map Q.sqrt) (phasesF64 u)
          let x := (F.ifft X).map fun z => f64 (z.1 * n)
          .ok (t, x.take t.length)

end Verif
