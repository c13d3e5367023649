import Verif.Model.Engine
import Mathlib.Analysis.SpecialFunctions.Pow.Real
import Mathlib.Analysis.SpecialFunctions.Trigonometric.DerivHyp

/-! # Model of deltares_wave_toolbox/cores/core_dispersion.py

The array operations of `disper` are element by element, so the model is a function of one frequency, mapped over the
array.  Exact real arithmetic; `none` is NaN. -/

namespace Verif

/-- The water depth: a number or an infinity. -/
inductive Depth where
  | fin (h : ℝ)
  | inf

/-- core_dispersion.py:63-66: `w2`, at least `1e-8`. -/
noncomputable def dispW2 (w h g : ℝ) : ℝ :=
  let w2 := w ^ 2 * h / g
  if w2 < 1 / 10 ^ 8 then 1 / 10 ^ 8 else w2

/-- core_dispersion.py:67: the first approximation of `k h`. -/
noncomputable def dispStart (w2 : ℝ) : ℝ := w2 / (1 - Real.exp (-(w2 ^ (5 / 4 : ℝ)))) ^ (2 / 5 : ℝ)

/-- core_dispersion.py:71-81: the increment `arg` of one round; NaN if the discriminant is negative (unless the last line overwrites
it). -/
noncomputable def dispArg (w2 q : ℝ) : Option ℝ :=
  let thq := Real.tanh q
  let thq2 := 1 - thq ^ 2
  let a := (1 - q * thq) * thq2
  let b := thq + q * thq2
  let c := q * thq - w2
  let arg : Option ℝ :=
    if a ≠ 0 then
      let disc := b ^ 2 - 4 * a * c
      if disc < 0 then none else some ((-b + Real.sqrt disc) / (2 * a))
    else some 0
  if |a * c| < 1 / 10 ^ 8 * b ^ 2 then some (-c / b) else arg

/-- core_dispersion.py:70-82: one round of the loop. -/
noncomputable def dispRound (w2 q : ℝ) : Option ℝ := (dispArg w2 q).map fun s => q + s

/-- core_dispersion.py:63-87 for one frequency and `h > 0`: two rounds, then `sign(w) * q / h`, and NaN becomes 0. -/
noncomputable def disperElem (w h g : ℝ) : ℝ :=
  let w2 := dispW2 w h g
  let q : Option ℝ := (dispRound w2 (dispStart w2)).bind (dispRound w2)
  match q with
  | some q => (SignType.sign w : ℝ) * q / h
  | none => 0

/-- core_dispersion.py:63-89 for a depth `h ≥ 0`.  With `g = 0` line 63 gives `inf` or NaN, every following value is NaN and lines 86-87 replace it by 0
(also for `h = 0`).  With `h = 0` all `w2` are `1e-8` and line 84 divides a positive `q` by zero: infinite for `w ≠ 0` (`nonFinite` here), NaN and so 0
for `w = 0`. -/
noncomputable def disperFinite (ws : List ℝ) (h g : ℝ) : Except PyErr (List ℝ) :=
  if g = 0 then .ok (ws.map fun _ => 0)
  else if h = 0 then if ∃ w ∈ ws, w ≠ 0 then .error .nonFinite else .ok (ws.map fun _ => 0)
  else .ok (ws.map fun w => disperElem w h g)

/-- core_dispersion.py:9-89 `disper` for a number, a list or a 1D array of frequencies.  In the branches for infinite and for negative
depth `q` is never assigned, and line 84 (outside the `if`) reads it.  Other shapes are outside the model. -/
noncomputable def disper (w : PyIn ℝ) (h : Depth) (g : ℝ := 981 / 100) : Except PyErr (List ℝ) :=
  match (toArr w).shape with
  | [_] =>
    match h with
    | .inf => .error (.unboundLocalError "q")
    | .fin h => if h < 0 then .error (.unboundLocalError "q") else disperFinite (toArr w).data h g
  | _ => .error .unmodelled

end Verif
