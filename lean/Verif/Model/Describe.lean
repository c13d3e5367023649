import Verif.Model.SeriesHist
import Verif.Model.BG

/-! # Printed descriptions, the direction array of a spectrum, and warnings (series.py, spectrum.py, core_wavefunctions.py)

Line numbers refer to /repo/deltares_wave_toolbox. -/

namespace Verif

/-- series.py:37-38 `WaveHeights.__str__`. -/
def WH.str {K : Type} (s : WH K) : String := "Series with " ++ toString s.nwave ++ " elements"

/-- series.py:40-41 `WaveHeights.__repr__` (of an object of this class itself). -/
def WH.repr {K : Type} (s : WH K) : String := "WaveHeights" ++ " (series  nt = " ++ toString s.nwave ++ ")"

/-- series.py:342-343 `Series.__str__`. -/
def SeriesObj.str {K : Type} (s : SeriesObj K) : String := "Series with " ++ toString s.nt ++ " elements"

/-- series.py:345-346 `Series.__repr__`. -/
def SeriesObj.repr {K : Type} (s : SeriesObj K) : String := "Series" ++ " (series  nt = " ++ toString s.nt ++ ")"

/-- A `Spectrum` with its direction array and the attribute `spec` (spectrum.py:47-56). -/
structure SpecD where
  base : SpecObj
  D : Arr ℝ
  spec : String

/-- spectrum.py:31-56 `Spectrum.__init__` with its third argument (an ndarray, by default `np.empty((0, 0))`). -/
noncomputable def SpecD.init (f S : PyIn ℝ) (D : Arr ℝ := ⟨[0, 0], []⟩) : Except PyErr SpecD := do
  let b ← SpecObj.init f S
  return ⟨b, D, if D.size = 0 then "1D" else "2D"⟩

/-- spectrum.py:64-456: no getter reads or assigns `D` or `spec`. -/
noncomputable def SpecD.call (s : SpecD) (op : SpecOp) : Except PyErr ℝ × SpecD :=
  let r := s.base.call op
  (r.1, { s with base := r.2 })

/-- The object after a history of calls. -/
noncomputable def SpecD.after (s : SpecD) (hist : List SpecOp) : SpecD := hist.foldl (fun t op => (t.call op).2) s

/-- spectrum.py:58-59 `__str__`. -/
def SpecD.str (s : SpecD) : String := s.spec ++ " wave spectrum with " ++ toString s.base.nf ++ " number of frequencies"

/-- spectrum.py:61-62 `__repr__`. -/
def SpecD.repr (s : SpecD) : String := "Spectrum" ++ " (spec = " ++ s.spec ++ ")"

/-! ## Warnings -/

/-- Whether a call left the method by an exception (a non-finite result is returned, not raised). -/
def raises (r : Except PyErr ℝ) : Bool :=
  match r with
  | .ok _ => false
  | .error .nonFinite => false
  | .error _ => true

/-- spectrum.py:122-130 (and 158-166, 272-280, 308-316): the warning follows the computation of the default cut-off, so an exception in
`get_Tmm10` prevents it.  Number of `UserWarning`s. -/
noncomputable def SpecObj.cutoffWarnings (s : SpecObj) : Nat :=
  match s.Tmm10 with
  | some _ => 1
  | none => if raises (s.getTmm10 (-1) (.fin (-1))).1 then 0 else 1

/-- spectrum.py:426-456 `get_smm10_HF`: the warnings of the two calls it makes for missing attributes. -/
noncomputable def SpecObj.smm10HFWarnings (s : SpecObj) (fmin : ℝ) (fmax : FMax ℝ) : Nat :=
  let own (t : SpecObj) : Nat := if fmin = -1 then t.cutoffWarnings else 0
  let second (t : SpecObj) : Nat := match t.Tmm10HF with
    | some _ => 0
    | none => own t
  match s.Hm0HF with
  | some _ => second s
  | none => own s + (if raises (s.getHm0HF fmin fmax).1 then 0 else second (s.getHm0HF fmin fmax).2)

/-- The number of `UserWarning`s a call on a `Spectrum` issues (spectrum.py; the other methods contain no `warnings.warn`). -/
noncomputable def SpecObj.warnings (s : SpecObj) : SpecOp → Nat
  | .getHm0HF fmin _ => if fmin = -1 then s.cutoffWarnings else 0
  | .getTmm10HF fmin _ => if fmin = -1 then s.cutoffWarnings else 0
  | .getHm0LF _ fmax => if fmax = .fin (-1) then s.cutoffWarnings else 0
  | .getTmm10LF _ fmax => if fmax = .fin (-1) then s.cutoffWarnings else 0
  | .getSmm10HF fmin fmax _ => s.smm10HFWarnings fmin fmax
  | _ => 0

/-- The two warnings of the Battjes-Groenendijk routine. -/
inductive BGWarning where
  | slope
  | rayleigh
  deriving DecidableEq

open Classical in
/-- core_wavefunctions.py:771-778 and 787-794: the warnings issued before the loop, in order (a zero cotangent raises after the first one). -/
noncomputable def bgWarnings (hm0 depth : ℝ) (cota : ℝ := 250) : List BGWarning :=
  (if cota < 20 ∨ 250 < cota then [.slope] else []) ++
    (if cota = 0 then [] else if bgRayleigh hm0 depth cota then [.rayleigh] else [])

end Verif
