import Mathlib.Algebra.Order.Field.Basic
import Mathlib.Algebra.Order.Floor.Ring
import Mathlib.Algebra.BigOperators.Group.List.Basic
import Mathlib.Data.List.Sort
import Mathlib.Data.Rat.Floor

/-!
# Python / numpy primitives used by deltares_wave_toolbox

The functions below are not code of /repo: they are the (assumed) behaviour of the Python and numpy 2.2 operations
that /repo calls, restricted to the way it calls them.  All arithmetic is exact (no float64 rounding).
-/

namespace Verif

/-- Python exceptions raised by the modelled code.  `nonFinite` and `unmodelled` are not exceptions:
`nonFinite` marks a result that is `inf`/`nan` in Python, `unmodelled` an input outside the model. -/
inductive PyErr where
  | valueError (msg : String)
  | indexError
  | assertionError (msg : String)
  | unboundLocalError (var : String)
  | zeroDivisionError
  | typeError
  | nonFinite
  | unmodelled
  deriving DecidableEq, Repr

/-- A float result that Python may return as an infinity or NaN. -/
inductive XF (K : Type) where
  | fin (x : K)
  | pinf
  | ninf
  | nan
  deriving DecidableEq, Repr

/-- numpy float division `a / b` (a warning, not an exception, for `b = 0`; zero is taken as `+0.0`). -/
def xdiv {K : Type} [Field K] [LinearOrder K] (a b : K) : XF K :=
  if b = 0 then (if a = 0 then .nan else if 0 < a then .pinf else .ninf) else .fin (a / b)

/-- An n-dimensional numpy array: its shape and its elements in C order. -/
structure Arr (α : Type) where
  shape : List Nat
  data : List α
  deriving DecidableEq, Repr

/-- What a caller may pass for an `ArrayLike` argument: a number, a flat Python list, or an ndarray of any shape. -/
inductive PyIn (α : Type) where
  | num (x : α)
  | list (xs : List α)
  | nd (a : Arr α)
  deriving DecidableEq, Repr

/-- A well-formed array has as many elements as its shape says. -/
def Arr.WF {α : Type} (a : Arr α) : Prop := a.data.length = a.shape.prod

/-- Well-formed inputs. -/
def PyIn.WF {α : Type} : PyIn α → Prop
  | .nd a => a.WF
  | _ => True

/-- The 1D ndarray with the given elements. -/
def vec {α : Type} (xs : List α) : PyIn α := .nd ⟨[xs.length], xs⟩

/-- `x.size`. -/
def Arr.size {α : Type} (a : Arr α) : Nat := a.shape.prod

/-- `len(x)` (dimension 0). -/
def Arr.len {α : Type} (a : Arr α) : Nat := a.shape.headD 0

section
variable {K : Type} [Field K] [LinearOrder K]

/-- `np.diff`. -/
def diff : List K → List K
  | a :: b :: l => (b - a) :: diff (b :: l)
  | _ => []

/-- `np.mean` of a non-empty array (the callers below guard the empty case explicitly). -/
def mean (l : List K) : K := l.sum / (l.length : K)

/-- `np.var` (population variance) of a non-empty array. -/
def variance (l : List K) : K := mean (l.map fun x => (x - mean l) ^ 2)

/-- `np.where(mask)[0]`: the increasing list of indices at which the predicate holds. -/
def whereIdx {α : Type} (p : α → Bool) (l : List α) : List Nat :=
  (List.range l.length).filter fun i => (l[i]?).any p

/-- Python slice `l[a:b]` with `0 ≤ a` and `0 ≤ b` (out-of-range bounds are clipped). -/
def pySlice {α : Type} (l : List α) (a b : Nat) : List α := (l.take b).drop a

/-- Python's `max(l)`; raises `ValueError` on an empty sequence. -/
def pyMax : List K → Except PyErr K
  | [] => .error (.valueError "max() arg is an empty sequence")
  | a :: l => .ok (l.foldl max a)

/-- Python's `min(l)`. -/
def pyMin : List K → Except PyErr K
  | [] => .error (.valueError "min() arg is an empty sequence")
  | a :: l => .ok (l.foldl min a)

/-- `l[i]` for a non-negative index. -/
def getE {α : Type} (l : List α) (i : Nat) : Except PyErr α :=
  match l[i]? with
  | some v => .ok v
  | none => .error .indexError

/-- `l[-1]`. -/
def lastE {α : Type} (l : List α) : Except PyErr α :=
  match l.getLast? with
  | some v => .ok v
  | none => .error .indexError

/-- `np.delete(l, idx)` for in-range indices. -/
def npDelete {α : Type} (l : List α) (idx : List Nat) : List α :=
  (l.zipIdx.filter fun p => !(idx.contains p.2)).map Prod.fst

/-- `np.round` to an integer: round half to even. -/
def roundHalfEven [FloorRing K] (x : K) : Int :=
  let n := ⌊x⌋
  let r := x - n
  if r < 1 / 2 then n else if 1 / 2 < r then n + 1 else if n % 2 = 0 then n else n + 1

/-- `np.arange(start, stop, step)` for `0 < step`: `ceil((stop - start)/step)` points. -/
def arange [FloorRing K] (start stop step : K) : List K :=
  (List.range (⌈(stop - start) / step⌉).toNat).map fun (i : Nat) => start + (i : K) * step

end

/-- The contract of `np.argsort` (default, unstable): *some* permutation of the indices that lists the values
in ascending order.  Nothing is assumed about the order of equal values. -/
structure Argsort (K : Type) [Field K] [LinearOrder K] where
  run : List K → List Nat
  perm : ∀ l, (run l).Perm (List.range l.length)
  sorted : ∀ l, ((run l).map fun i => l.getD i 0).Pairwise (· ≤ ·)

end Verif
