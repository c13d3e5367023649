import Verif.Np

/-! # Model of deltares_wave_toolbox/cores/core_engine.py -/

namespace Verif

/-- core_engine.py:10-27 `convert_to_array_type`. -/
def toArr {α : Type} : PyIn α → Arr α
  | .num x => ⟨[1], [x]⟩
  | .list xs => ⟨[xs.length], xs⟩
  | .nd a => a

/-- core_engine.py:76-88 `_size`. -/
def size2 {α : Type} (a : Arr α) : Nat × Nat :=
  if a.size ≠ 0 then
    match a.shape with
    | [n] => (n, 0)
    | [n, m] => (n, m)
    | _ => (0, 0)
  else (0, 0)

/-- core_engine.py:91-108 `is1darray`. -/
def isOneD {α : Type} (a : Arr α) : Bool :=
  let (dimx, dimy) := size2 a
  decide (dimx ≠ 0 ∧ dimy = 0)

/-- core_engine.py:30-53 `convert_to_vector`: returns the (possibly flattened) array and `_size` of the
*original* array. -/
def toVector {α : Type} (x : PyIn α) : Arr α × (Nat × Nat) :=
  let a := toArr x
  let s := size2 a
  if s.2 = 1 then (⟨[a.data.length], a.data⟩, s) else (a, s)

variable {K : Type} [Field K] [LinearOrder K]

/-- `1000000 * sys.float_info.epsilon` (core_engine.py:70), `eps = 2^-52`. -/
def stepTol : K := 1000000 / 2 ^ 52

/-- core_engine.py:56-73 `monotonic_increasing_constant_step`.  Note that line 70 has no absolute value.
`xDiff[0]` raises `IndexError` for fewer than two elements. -/
def monotonicIncreasingConstantStep (x : List K) : Except PyErr Bool :=
  match diff x with
  | [] => .error .indexError
  | d0 :: ds =>
    let isUniform := (d0 :: ds).all fun d => decide (d - d0 < stepTol)
    let xMonotonic := (d0 :: ds).all fun d => decide (0 < d)
    .ok (xMonotonic && isUniform)

/-- `np.argmin` of a non-empty list (first minimum), with `off` the index of the head. -/
def argminAux (best : K) (besti : Nat) (i : Nat) : List K → Nat
  | [] => besti
  | a :: l => if a < best then argminAux a i (i + 1) l else argminAux best besti (i + 1) l

/-- core_engine.py:111-128 `approx_array_index`; `argmin` raises `ValueError` on an empty array. -/
def approxArrayIndex (a : List K) (v : K) : Except PyErr Nat :=
  match a.map fun x => |x - v| with
  | [] => .error (.valueError "attempt to get argmin of an empty sequence")
  | d :: ds => .ok (argminAux d 0 1 ds)

end Verif
