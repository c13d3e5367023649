import Verif.Model.FloatSimpson
import Verif.Model.FloatDisp
import Verif.Model.FloatSynthDraw

/-! # Creation of a JONSWAP spectrum in double precision

`create_spectrum_jonswap` with every operation rounded to binary64; the library functions are parameters: sums (`NpSum`), powers with an
integer exponent (`NpPow`), square root (`NpSqrt`), exponential and real powers (`NpElem`). -/

namespace Verif

/-- core_wavefunctions.py:360-361 in double precision: `C = alpha * g**2 * (2 * np.pi) ** (-4)`. -/
def jonswapConstF64 (P : NpPow) : ℚ := f64 (P.pow (f64 (981 / 100)) 2 * P.pow twoPiF64 (-4))

/-- core_wavefunctions.py:370-392 in double precision: the unscaled density at one frequency (`fp` and `gammaPeak` positive). -/
def jonswapShapeF64 (P : NpPow) (E : NpElem) (fp gammaPeak fi : ℚ) : ℚ :=
  if fi > 1 / 2 ^ 52 then
    let nu := f64 (fi / fp)
    let sigma : ℚ := if fi < fp then f64 (7 / 100) else f64 (9 / 100)
    let A := E.exp (f64 (-(P.pow (f64 (nu - 1)) 2) / f64 (2 * P.pow sigma 2)))
    let lambda := E.pow gammaPeak A
    f64 (f64 (f64 (jonswapConstF64 P * P.pow fi (-5)) * E.exp (f64 (f64 (-(125 / 100)) * P.pow nu (-4)))) * lambda)
  else 0

/-- core_wavefunctions.py:394-402 in double precision, for `l_fmax = 0`: the unscaled densities `S` times the scale factor.  (Simplification: the
tail of `l_fmax = 1` is outside this model.) -/
def jonswapScaledF64 (R : NpSum) (P : NpPow) (Q : NpSqrt) (fs S : List ℚ) (hm0 : ℚ) : Except PyErr (List ℚ) :=
  match computeMomentF64 R P fs S 0 (fs.getD 0 0) (fs.getD (fs.length - 1) 0) with
  | .error e => .error e
  | .ok m0 =>
    if m0 ≤ 0 then .error .nonFinite
    else
      let hm0NonScale := f64 (4 * Q.sqrt m0)
      let s := P.pow (f64 (hm0 / hm0NonScale)) 2
      .ok (S.map fun v => f64 (v * s))

/-- core_wavefunctions.py:274-402 `create_spectrum_jonswap` in double precision on a 1D array, for positive `fp` and `gammaPeak` and `l_fmax = 0`. -/
def createSpectrumJonswapF64 (R : NpSum) (P : NpPow) (Q : NpSqrt) (E : NpElem) (fs : List ℚ) (fp hm0 gammaPeak : ℚ) : Except PyErr (List ℚ) :=
  if fs = [] then .error (.valueError "create_spectrum_jonswap:Input error: Input array f is not 1D ")
  else jonswapScaledF64 R P Q fs (fs.map (jonswapShapeF64 P E fp gammaPeak)) hm0

end Verif
