import Verif.Model.FloatStat
import Verif.Model.Dispersion

/-! # The wave-number solver in double precision

`disper` (core_dispersion.py) with every operation rounded to binary64.  The library functions `exp`, `tanh`, `**` with a fractional exponent are
arbitrary functions with a relative error of at most a few units in the last place (`NpElem`), `sqrt` is `NpSqrt`.  Values are rationals; overflow does not
occur in the range of the theorems. -/

namespace Verif

/-- numpy's `exp`, `tanh` and `**`: a relative error of at most `2 ^ -50` (four units in the last place) where nothing overflows; an exponential
may underflow. -/
structure NpElem where
  exp : ℚ → ℚ
  tanh : ℚ → ℚ
  pow : ℚ → ℚ → ℚ
  exp_spec : ∀ x : ℚ, x ≤ 0 → |(exp x : ℝ) - Real.exp x| ≤ Real.exp x / 2 ^ 50 + 1 / 2 ^ 200
  tanh_spec : ∀ x : ℚ, 1 / 2 ^ 200 ≤ x → |(tanh x : ℝ) - Real.tanh x| ≤ Real.tanh x / 2 ^ 50
  pow_spec : ∀ x p : ℚ, 1 / 2 ^ 200 ≤ x → x ≤ 2 ^ 200 → 0 ≤ p → p ≤ 2 → |(pow x p : ℝ) - (x : ℝ) ^ (p : ℝ)| ≤ (x : ℝ) ^ (p : ℝ) / 2 ^ 50

/-- core_dispersion.py:63-66 in double precision (`w**2` is `w * w`). -/
def dispW2F64 (w h g : ℚ) : ℚ :=
  let w2 := f64 (f64 (f64 (w * w) * h) / g)
  if w2 < f64 (1 / 10 ^ 8) then f64 (1 / 10 ^ 8) else w2

/-- core_dispersion.py:67 in double precision (5/4 is a double, 2/5 is rounded). -/
def dispStartF64 (E : NpElem) (w2 : ℚ) : ℚ := f64 (w2 / E.pow (f64 (1 - E.exp (-(E.pow w2 (5 / 4))))) (f64 (2 / 5)))

/-- core_dispersion.py:71-81 in double precision; `none` is NaN.  (`b` is positive in the range of the theorems; a division by zero would give an
infinity.) -/
def dispArgF64 (E : NpElem) (Q : NpSqrt) (w2 q : ℚ) : Option ℚ :=
  let thq := E.tanh q
  let thq2 := f64 (1 - f64 (thq * thq))
  let a := f64 (f64 (1 - f64 (q * thq)) * thq2)
  let b := f64 (thq + f64 (q * thq2))
  let c := f64 (f64 (q * thq) - w2)
  let arg : Option ℚ :=
    if a ≠ 0 then
      let disc := f64 (f64 (b * b) - f64 (f64 (4 * a) * c))
      if disc < 0 then none else some (f64 (f64 (-b + Q.sqrt disc) / f64 (2 * a)))
    else some 0
  if |f64 (a * c)| < f64 (f64 (1 / 10 ^ 8) * f64 (b * b)) then some (f64 (-c / b)) else arg

/-- core_dispersion.py:70-82 in double precision: one round of the loop. -/
def dispRoundF64 (E : NpElem) (Q : NpSqrt) (w2 q : ℚ) : Option ℚ := (dispArgF64 E Q w2 q).map fun s => f64 (q + s)

/-- core_dispersion.py:63-87 in double precision, for one frequency and a positive depth. -/
def disperElemF64 (E : NpElem) (Q : NpSqrt) (w h g : ℚ) : ℚ :=
  let w2 := dispW2F64 w h g
  let q : Option ℚ := (dispRoundF64 E Q w2 (dispStartF64 E w2)).bind (dispRoundF64 E Q w2)
  match q with
  | some q => f64 (f64 ((if 0 < w then 1 else if w < 0 then -1 else 0) * q) / h)
  | none => 0

/-- core_dispersion.py:9-89 `disper` in double precision for a list of frequencies and a positive depth. -/
def disperF64 (E : NpElem) (Q : NpSqrt) (ws : List ℚ) (h g : ℚ) : List ℚ := ws.map fun w => disperElemF64 E Q w h g

end Verif
