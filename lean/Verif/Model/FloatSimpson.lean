import Verif.Model.FloatStat
import Verif.Model.FloatAxes
import Verif.Model.WaveFun

/-! # Spectral moments, wave height and mean periods in double precision

Every operation of `compute_moment`, of `scipy.integrate.simpson` and of the getters is rounded; the order of the additions in `np.sum`
is a parameter (`NpSum`), as are `x ** n` of a positive double (`NpPow`) and `np.sqrt` (`NpSqrt`). -/

namespace Verif

/-- `x ** n` of a double and a small integer: exactly 1 for `n = 0` and 0 for `0 ** n`, `n > 0`; otherwise a relative error of at most
`2 ^ -52` (the C library's `pow`), for sizes where nothing overflows or underflows. -/
structure NpPow where
  pow : ℚ → ℤ → ℚ
  double : ∀ x n, ∃ m e : ℤ, |m| ≤ 2 ^ 53 ∧ -1074 ≤ e ∧ pow x n = m * 2 ^ e
  one : ∀ x, pow x 0 = 1
  zero : ∀ n, 0 < n → pow 0 n = 0
  spec : ∀ x n, 1 / 2 ^ 200 ≤ x → x ≤ 2 ^ 200 → |n| ≤ 3 → |pow x n - x ^ n| ≤ x ^ n / 2 ^ 52

/-- scipy.integrate `_basic_simpson`: the contribution of one pair of intervals, as written there. -/
def simpTermF64 (x0 x1 x2 y0 y1 y2 : ℚ) : ℚ :=
  let h0 := f64 (x1 - x0)
  let h1 := f64 (x2 - x1)
  let hsum := f64 (h0 + h1)
  let hprod := f64 (h0 * h1)
  let h0divh1 := f64 (h0 / h1)
  f64 (f64 (hsum / 6) * f64 (f64 (f64 (y0 * f64 (2 - f64 (1 / h0divh1))) + f64 (y1 * f64 (hsum * f64 (hsum / hprod)))) +
    f64 (y2 * f64 (2 - h0divh1))))

/-- The array that `_basic_simpson` sums, on an odd number of points. -/
def simpTermsF64 : List ℚ → List ℚ → List ℚ
  | x0 :: x1 :: x2 :: xs, y0 :: y1 :: y2 :: ys => simpTermF64 x0 x1 x2 y0 y1 y2 :: simpTermsF64 (x2 :: xs) (y2 :: ys)
  | _, _ => []

/-- scipy.integrate.simpson: the correction for the last interval of an even number of points (at least four). -/
def simpLastF64 (P : NpPow) (x y : List ℚ) : ℚ :=
  let n := x.length
  let h0 := f64 (x.getD (n - 2) 0 - x.getD (n - 3) 0)
  let h1 := f64 (x.getD (n - 1) 0 - x.getD (n - 2) 0)
  let cross := f64 (f64 (3 * h0) * h1)
  let alpha := f64 (f64 (f64 (2 * P.pow h1 2) + cross) / f64 (6 * f64 (h1 + h0)))
  let beta := f64 (f64 (P.pow h1 2 + cross) / f64 (6 * h0))
  let eta := f64 (f64 (1 * P.pow h1 3) / f64 (f64 (6 * h0) * f64 (h0 + h1)))
  f64 (f64 (f64 (alpha * y.getD (n - 1) 0) + f64 (beta * y.getD (n - 2) 0)) - f64 (eta * y.getD (n - 3) 0))

/-- `scipy.integrate.simpson(y, x=x)` in double precision. -/
def simpsonF64 (R : NpSum) (P : NpPow) (x y : List ℚ) : Except PyErr ℚ :=
  if x.length ≠ y.length then .error (.valueError "If given, length of x along axis must be the same as y.")
  else if x = [] then .error (.valueError "cannot select an axis to squeeze out which has size not equal to one")
  else if x.length % 2 = 1 then .ok (R.sum (simpTermsF64 x y))
  else if x.length = 2 then .ok (f64 (f64 (1 / 2 * f64 (x.getD 1 0 - x.getD 0 0)) * f64 (y.getD 1 0 + y.getD 0 0)))
  else .ok (f64 (R.sum (simpTermsF64 x.dropLast y.dropLast) + simpLastF64 P x y))

/-- core_wavefunctions.py:238, 242, 254, 260: Simpson integral of `freq ** m * spec` in double precision.  A zero frequency with `m < 0`
makes the integrand infinite (`nonFinite`). -/
def momentSumF64 (R : NpSum) (P : NpPow) (m : Int) (freq spec : List ℚ) : Except PyErr ℚ :=
  if m < 0 ∧ 0 ∈ freq then .error .nonFinite
  else simpsonF64 R P freq (List.zipWith (fun a s => f64 (P.pow a m * s)) freq spec)

/-- core_wavefunctions.py:252-254: the integral between the grid points nearest to `fminn` and `F`. -/
def momentBetweenF64 (R : NpSum) (P : NpPow) (m : Int) (freq spec : List ℚ) (fminn F : ℚ) : Except PyErr ℚ := do
  let i ← approxArrayIndexF64 freq fminn
  let j ← approxArrayIndexF64 freq F
  momentSumF64 R P m (pySlice freq i (j + 1)) (pySlice spec i (j + 1))

/-- core_wavefunctions.py:228-271, the body of `compute_moment` after the input checks, in double precision.  (Simplification: the tail
beyond the last frequency, lines 256-270, is outside this model.) -/
def computeMomentLF64 (R : NpSum) (P : NpPow) (f S : List ℚ) (m : Int) (fmin fmax : ℚ) : Except PyErr ℚ := do
  let f0 ← getE f 0
  let drop0 := decide (m < 0 ∧ f0 = 0)
  let freq := if drop0 then f.drop 1 else f
  let spec := if drop0 then S.drop 1 else S
  if fmin = -1 ∨ fmax = -1 then momentSumF64 R P m freq spec
  else
    let fminn := if drop0 then (if fmin = 0 then f.getD 1 0 else fmin) else fmin
    let fe ← lastE freq
    if fmax ≤ fe then momentBetweenF64 R P m freq spec fminn fmax else .error .unmodelled

/-- core_wavefunctions.py:150-271 `compute_moment` on 1D arrays of doubles. -/
def computeMomentF64 (R : NpSum) (P : NpPow) (f S : List ℚ) (m : Int) (fmin fmax : ℚ) : Except PyErr ℚ := do
  let b ← monotonicF64 f
  if b = false then .error (.valueError "compute_moment: Input error: frequency input parameter must be monotonic with constant step size")
  else if f.length ≠ S.length then .error (.valueError "compute_moment: Input error: array sizes differ in dimension")
  else computeMomentLF64 R P f S m fmin fmax

/-- spectrum.py:64-78 `_set_flim`. -/
def setFlimF64 (f : List ℚ) (fmin fmax : ℚ) : ℚ × ℚ :=
  (if fmin = -1 then f.getD 0 0 else fmin, if fmax = -1 then f.getD (f.length - 1) 0 else fmax)

/-- A division of doubles; by zero it gives an infinity or NaN. -/
def divF64 (a b : ℚ) : Except PyErr ℚ := if b = 0 then .error .nonFinite else .ok (f64 (a / b))

/-- spectrum.py:96-98: `4 * np.sqrt(m0)`; a negative `m0` gives NaN. -/
def hm0F64 (R : NpSum) (P : NpPow) (Q : NpSqrt) (f S : List ℚ) (fmin fmax : ℚ) : Except PyErr ℚ := do
  let (lo, hi) := setFlimF64 f fmin fmax
  let m0 ← computeMomentF64 R P f S 0 lo hi
  if m0 < 0 then .error .nonFinite else .ok (f64 (4 * Q.sqrt m0))

/-- spectrum.py:246-249: `m_1 / m0`. -/
def tmm10F64 (R : NpSum) (P : NpPow) (f S : List ℚ) (fmin fmax : ℚ) : Except PyErr ℚ := do
  let (lo, hi) := setFlimF64 f fmin fmax
  let m1 ← computeMomentF64 R P f S (-1) lo hi
  let m0 ← computeMomentF64 R P f S 0 lo hi
  divF64 m1 m0

/-- spectrum.py:339-342: `m0 / m1`. -/
def tm01F64 (R : NpSum) (P : NpPow) (f S : List ℚ) (fmin fmax : ℚ) : Except PyErr ℚ := do
  let (lo, hi) := setFlimF64 f fmin fmax
  let m0 ← computeMomentF64 R P f S 0 lo hi
  let m1 ← computeMomentF64 R P f S 1 lo hi
  divF64 m0 m1

/-- spectrum.py:360-363: `sqrt(m0 / m2)`. -/
def tm02F64 (R : NpSum) (P : NpPow) (Q : NpSqrt) (f S : List ℚ) (fmin fmax : ℚ) : Except PyErr ℚ := do
  let (lo, hi) := setFlimF64 f fmin fmax
  let m0 ← computeMomentF64 R P f S 0 lo hi
  let m2 ← computeMomentF64 R P f S 2 lo hi
  let q ← divF64 m0 m2
  if q < 0 then .error .nonFinite else .ok (Q.sqrt q)

end Verif
