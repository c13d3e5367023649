import Verif.Model.NaN
import Verif.Model.Welch

/-! # Missing values in spectra and in spectral analysis

Extends `Model/NaN.lean` to core_spectral.py, to the moments and peak periods of core_wavefunctions.py and to `Spectrum`: a signal
value, a density or a frequency limit may be NaN (`none`).  A frequency axis cannot contain NaN (`nan_axis_rejected`, C136).
`.error .nonFinite` is a result that is infinite (or not finite in a way that is not tracked further). -/

namespace Verif

section
variable {K : Type} [Field K] [LinearOrder K]

/-- `a + b`. -/
def nAdd : Option K → Option K → Option K
  | some a, some b => some (a + b)
  | _, _ => none

/-- `c * a` for a number `c` (0 times NaN is NaN). -/
def nScale (c : K) : Option K → Option K
  | some a => some (c * a)
  | none => none

/-- An upper frequency limit: NaN, a number or `np.inf`. -/
inductive FLim (K : Type) where
  | nan
  | fin (x : K)
  | inf
  deriving DecidableEq, Repr

/-- `x <= fmax`. -/
def FLim.ge (fmax : FLim K) (x : K) : Bool :=
  match fmax with
  | .nan => false
  | .fin F => decide (x ≤ F)
  | .inf => true

/-- core_engine.py:111-128 `approx_array_index`: for a NaN value all distances are NaN and `argmin` returns the first. -/
def approxArrayIndexN (a : List K) (v : Option K) : Except PyErr Nat :=
  match v with
  | some v => approxArrayIndex a v
  | none => if a = [] then .error (.valueError "attempt to get argmin of an empty sequence") else .ok 0

/-- scipy.integrate `_basic_simpson` (see `simpOdd`). -/
def simpOddN : List K → List (Option K) → Option K
  | x0 :: x1 :: x2 :: xs, y0 :: y1 :: y2 :: ys =>
    let h0 := x1 - x0
    let h1 := x2 - x1
    let hsum := h0 + h1
    let hprod := h0 * h1
    let h0divh1 := h0 / h1
    nAdd (nScale (hsum / 6) (nAdd (nAdd (nScale (2 - 1 / h0divh1) y0) (nScale (hsum * (hsum / hprod)) y1))
        (nScale (2 - h0divh1) y2)))
      (simpOddN (x2 :: xs) (y2 :: ys))
  | _, _ => some 0

/-- scipy.integrate.simpson: the correction for the last interval of an even number of points (see `simpLast`). -/
def simpLastN (x : List K) (y : List (Option K)) : Option K :=
  let n := x.length
  let h0 := x.getD (n - 2) 0 - x.getD (n - 3) 0
  let h1 := x.getD (n - 1) 0 - x.getD (n - 2) 0
  let alpha := (2 * h1 ^ 2 + 3 * h0 * h1) / (6 * (h1 + h0))
  let beta := (h1 ^ 2 + 3 * h0 * h1) / (6 * h0)
  let eta := 1 * h1 ^ 3 / (6 * h0 * (h0 + h1))
  nAdd (nAdd (nScale alpha (y.getD (n - 1) none)) (nScale beta (y.getD (n - 2) none))) (nScale (-eta) (y.getD (n - 3) none))

/-- `scipy.integrate.simpson(y, x=x)` (see `simpson`). -/
def simpsonN (x : List K) (y : List (Option K)) : Except PyErr (Option K) :=
  if x.length ≠ y.length then .error (.valueError "If given, length of x along axis must be the same as y.")
  else if x = [] then .error (.valueError "cannot select an axis to squeeze out which has size not equal to one")
  else if x.length % 2 = 1 then .ok (simpOddN x y)
  else if x.length = 2 then .ok (nScale (1 / 2 * (x.getD 1 0 - x.getD 0 0)) (nAdd (y.getD 1 none) (y.getD 0 none)))
  else .ok (nAdd (simpOddN x.dropLast y.dropLast) (simpLastN x y))

/-- core_wavefunctions.py:238, 242, 254, 260 (see `momentSum`). -/
def momentSumN (m : Int) (freq : List K) (spec : List (Option K)) : Except PyErr (Option K) :=
  if m < 0 ∧ 0 ∈ freq then .error .nonFinite
  else simpsonN freq (List.zipWith (fun a s => nScale (a ^ m) s) freq spec)

/-- core_wavefunctions.py:264-268 (see `tailMoment`); a power of NaN is NaN. -/
def tailMomentN (m : Int) (fe : K) (se : Option K) (fmax : FLim K) : Except PyErr (Option K) :=
  let power : Int := -5
  if m + power + 1 = 0 ∨ fe = 0 then .error .nonFinite
  else
    match fmax with
    | .nan => .ok none
    | .fin F =>
      if F = 0 ∧ m + power + 1 < 0 then .error .nonFinite
      else .ok (se.map fun se => se / fe ^ power / ((m + power + 1 : Int) : K) * (F ^ (m + power + 1) - fe ^ (m + power + 1)))
    | .inf =>
      if m + power + 1 < 0 then .ok (se.map fun se => se / fe ^ power / ((m + power + 1 : Int) : K) * (0 - fe ^ (m + power + 1)))
      else .error .nonFinite

/-- core_wavefunctions.py:252-254 / 258-260. -/
def momentBetweenN (m : Int) (freq : List K) (spec : List (Option K)) (fminn : Option K) (F : K) : Except PyErr (Option K) := do
  let i ← approxArrayIndexN freq fminn
  let j ← approxArrayIndex freq F
  momentSumN m (pySlice freq i (j + 1)) (pySlice spec i (j + 1))

/-- core_wavefunctions.py:256-270. -/
def momentWithTailN (m : Int) (freq : List K) (spec : List (Option K)) (fminn : Option K) (fe : K) (fmax : FLim K) :
    Except PyErr (Option K) := do
  let moment1 ← momentBetweenN m freq spec fminn fe
  let se ← lastE spec
  let moment2 ← tailMomentN m fe se fmax
  return nAdd moment1 moment2

/-- core_wavefunctions.py:228-271, the body of `compute_moment` after the input checks. -/
def computeMomentLN (f : List K) (S : List (Option K)) (m : Int) (fmin : Option K) (fmax : FLim K) : Except PyErr (Option K) := do
  let f0 ← getE f 0
  let drop0 := decide (m < 0 ∧ f0 = 0)
  let freq := if drop0 then f.drop 1 else f
  let spec := if drop0 then S.drop 1 else S
  if fmin = some (-1) ∨ fmax = .fin (-1) then momentSumN m freq spec
  else
    let fminn := if drop0 then (if fmin = some 0 then some (f.getD 1 0) else fmin) else fmin
    let fe ← lastE freq
    match fmax with
    | .fin F => if F ≤ fe then momentBetweenN m freq spec fminn F else momentWithTailN m freq spec fminn fe (.fin F)
    | lim => momentWithTailN m freq spec fminn fe lim

/-- core_wavefunctions.py:150-271 `compute_moment`. -/
def computeMomentN (f : PyIn K) (S : PyIn (Option K)) (m : Int) (fmin : Option K) (fmax : FLim K) : Except PyErr (Option K) := do
  let f ← vecIn "compute_moment" f
  let S ← vecIn "compute_moment" S
  let b ← monotonicIncreasingConstantStep f
  if b = false then .error (.valueError "compute_moment: Input error: frequency input parameter must be monotonic with constant step size")
  else if f.length ≠ S.length then .error (.valueError "compute_moment: Input error: array sizes differ in dimension")
  else computeMomentLN f S m fmin fmax

/-- `a / b`: `0 / 0` is NaN, any other division by zero infinite. -/
def nDiv : Option K → Option K → Except PyErr (Option K)
  | some a, some b => if b = 0 then (if a = 0 then .ok none else .error .nonFinite) else .ok (some (a / b))
  | _, _ => .ok none

/-- spectrum.py:189-192, 214-217 and core_wavefunctions.py:128-131 (see `bandSlice`). -/
def bandSliceN (f : List K) (S : List (Option K)) (fmin : Option K) (fmax : FLim K) : Except PyErr (List K × List (Option K)) := do
  let i ← getE (whereIdx (fun v => nLe fmin (some v)) f) 0
  let j ← lastE (whereIdx (fun v => fmax.ge v) f)
  return (pySlice f i (j + 1), pySlice S i (j + 1))

/-- spectrum.py:219-228 and core_wavefunctions.py:134-143: Python's `max` over the densities, then `max` over the indices with that
value, which raises `ValueError` if there are none. -/
def peakPeriodN (f : List K) (S : List (Option K)) : Except PyErr K := do
  let Smax ← pyMaxN S
  let imax := whereIdx (fun v => nEq v Smax) S
  if imax = [] then .error (.valueError "max() iterable argument is empty")
  else
    let ifp ← lastE imax
    let fp ← getE f ifp
    invE fp

/-- `np.polyfit(ff, ee, 2)[0:2]` for three points (see `polyfit2`): NaN coefficients if an ordinate is NaN. -/
def polyfit2N (x0 x1 x2 : K) : Option K → Option K → Option K → Except PyErr (Option (K × K))
  | some y0, some y1, some y2 => (polyfit2 x0 x1 x2 y0 y1 y2).map some
  | _, _, _ => .ok none

/-- core_wavefunctions.py:666-672 / 697-703 (see `fitAt`). -/
def fitAtN (f : List K) (S : List (Option K)) (j : Nat) : Except PyErr (Option (K × K)) := do
  let x0 ← getE f (j - 1)
  let x1 ← getE f j
  let x2 ← getE f (j + 1)
  let y0 ← getE S (j - 1)
  let y1 ← getE S j
  let y2 ← getE S (j + 1)
  polyfit2N x0 x1 x2 y0 y1 y2

/-- core_wavefunctions.py:645-724, body of `compute_tps`.  With NaN coefficients `a < 0` is False (lines 676-680) and `-b / (2 * a)`
is NaN (line 707). -/
def computeTpsLN (f : List K) (S : List (Option K)) : Except PyErr (Option K) := do
  let Smax ← pyMaxN S
  if nLt Smax (some (1 / 10 ^ 10)) then return some (-999)
  else
    let nF := f.length
    let imax := whereIdx (fun v => nEq v Smax) S
    if 2 < nF then
      match imax with
      | [i] =>
        let jmax := if i = 0 then 1 else if i = nF - 1 then nF - 2 else i
        let p ← fitAtN f S jmax
        match p with
        | some (a, b) =>
          let Fps ← if a < 0 then .ok (-b / (2 * a)) else getE f i
          (invE Fps).map some
        | none => do
          let fi ← getE f i
          (invE fi).map some
      | [i, j] =>
        if j - i = 1 then
          let kmax := if i = 0 then 1 else if j = nF - 1 then nF - 2 else i
          let p ← fitAtN f S kmax
          match p with
          | some (a, b) =>
            let Fps ← divE (-b) (2 * a)
            (invE Fps).map some
          | none => return none
        else do
          let fi ← getE f i
          (invE fi).map some
      | _ => do
        let i1 ← getE imax 1
        let fi ← getE f i1
        (invE fi).map some
    else if nF = 2 then
      match imax with
      | [i] => do
        let fi ← getE f i
        (invE fi).map some
      | _ => (invE (1 / 2 * (f.getD 0 0 + f.getD 1 0))).map some
    else do
      let fi ← getE f 0
      (invE fi).map some

/-- core_wavefunctions.py:592-724 `compute_tps`. -/
def computeTpsN (f : PyIn K) (S : PyIn (Option K)) : Except PyErr (Option K) := do
  let f ← vecIn "compute_moment" f
  let S ← vecIn "compute_moment" S
  if f.length ≠ S.length then .error (.valueError "compute_moment: Input error: array sizes differ in dimension")
  else computeTpsLN f S

/-- core_wavefunctions.py:556-589 `tpd`: a division by a NaN maximum selects no frequency. -/
def tpdN (f : PyIn K) (S : PyIn (Option K)) : Except PyErr (Option K) := do
  let fs ← vecIn "tpd" f
  let Ss ← vecIn "tpd" S
  let mx ← pyMaxN Ss
  let itemp :=
    match mx with
    | none => []
    | some mx =>
      let maxSpectrum := mx * (8 / 10)
      if maxSpectrum = 0 then []
      else whereIdx (fun v => match v with | some v => decide (8 / 10 ≤ v / maxSpectrum) | none => false) Ss
  let temp ← itemp.mapM (getE fs)
  let lo ← pyMin temp
  let hi ← pyMax temp
  let m0 ← computeMomentN (vec fs) (vec Ss) 0 (some lo) (.fin hi)
  let m1 ← computeMomentN (vec fs) (vec Ss) 1 (some lo) (.fin hi)
  nDiv m0 m1

end

/-! ## `Spectrum` with NaN densities -/

/-- A stored number: finite, NaN, or infinite (or not finite in a way that is not tracked). -/
inductive NVal where
  | num (v : ℝ)
  | nan
  | other

/-- A cached attribute, `none` when absent. -/
abbrev CacheN := Option NVal

/-- The value an assignment `self.attr = expr` leaves in the attribute. -/
def storeN (old : CacheN) (r : Except PyErr (Option ℝ)) : CacheN :=
  match r with
  | .ok (some v) => some (.num v)
  | .ok none => some .nan
  | .error .nonFinite => some .other
  | .error _ => old

/-- Attributes of a `Spectrum` (spectrum.py:47-50 and the caches written by the methods), with 1D densities. -/
structure SpecObjN where
  f : List ℝ
  sVarDens : List (Option ℝ)
  nf : Nat
  Hm0 : CacheN := none
  Hm0HF : CacheN := none
  Hm0LF : CacheN := none
  Tps : CacheN := none
  Tp : CacheN := none
  Tmm10 : CacheN := none
  Tmm10HF : CacheN := none
  Tmm10LF : CacheN := none
  Tm01 : CacheN := none
  Tm02 : CacheN := none
  s0p : CacheN := none
  smm10 : CacheN := none
  smm10HF : CacheN := none

/-- spectrum.py:31-56 `Spectrum.__init__`, for 1D (or single-column) frequencies and densities; the densities are not inspected. -/
noncomputable def SpecObjN.init (f : PyIn ℝ) (S : PyIn (Option ℝ)) : Except PyErr SpecObjN :=
  let (fa, fSize) := toVector f
  let (Sa, SSize) := toVector S
  match fa.shape, Sa.shape with
  | [_], [_] =>
    match monotonicIncreasingConstantStep fa.data with
    | .error e => .error e
    | .ok b =>
      if b = false then .error (.assertionError "compute_spectrum_params: Input error: frequency input parameter must be monotonic with constant step size")
      else if fSize.1 ≠ SSize.1 then .error (.assertionError "compute_spectrum_params: Input error: array sizes differ in dimension")
      else .ok { f := fa.data, sVarDens := Sa.data, nf := fa.len }
  | _, _ => .error .unmodelled

/-- spectrum.py:64-78 `_set_flim` (NaN is not equal to `-1.0`). -/
noncomputable def setFlimN (f : List ℝ) (fmin : Option ℝ) (fmax : FLim ℝ) : Option ℝ × FLim ℝ :=
  (if fmin = some (-1) then some (f.getD 0 0) else fmin, if fmax = .fin (-1) then .fin (f.getD (f.length - 1) 0) else fmax)

/-- `4 * np.sqrt(m0)`; NaN for NaN and for a negative `m0`. -/
noncomputable def heightOfN : Option ℝ → Option ℝ
  | some m0 => if m0 < 0 then none else some (4 * Real.sqrt m0)
  | none => none

/-- spectrum.py:96-98 (and 132-134, 168-170). -/
noncomputable def calcHm0N (f : List ℝ) (S : List (Option ℝ)) (fmin : Option ℝ) (fmax : FLim ℝ) : Except PyErr (Option ℝ) := do
  let (lo, hi) := setFlimN f fmin fmax
  let m0 ← computeMomentN (vec f) (vec S) 0 lo hi
  return heightOfN m0

/-- spectrum.py:246-249 (and 282-285, 318-321). -/
noncomputable def calcTmm10N (f : List ℝ) (S : List (Option ℝ)) (fmin : Option ℝ) (fmax : FLim ℝ) : Except PyErr (Option ℝ) := do
  let (lo, hi) := setFlimN f fmin fmax
  let m1 ← computeMomentN (vec f) (vec S) (-1) lo hi
  let m0 ← computeMomentN (vec f) (vec S) 0 lo hi
  nDiv m1 m0

/-- spectrum.py:339-342. -/
noncomputable def calcTm01N (f : List ℝ) (S : List (Option ℝ)) (fmin : Option ℝ) (fmax : FLim ℝ) : Except PyErr (Option ℝ) := do
  let (lo, hi) := setFlimN f fmin fmax
  let m0 ← computeMomentN (vec f) (vec S) 0 lo hi
  let m1 ← computeMomentN (vec f) (vec S) 1 lo hi
  nDiv m0 m1

/-- `np.sqrt(x)`. -/
noncomputable def nSqrt : Option ℝ → Option ℝ
  | some x => if x < 0 then none else some (Real.sqrt x)
  | none => none

/-- spectrum.py:360-363. -/
noncomputable def calcTm02N (f : List ℝ) (S : List (Option ℝ)) (fmin : Option ℝ) (fmax : FLim ℝ) : Except PyErr (Option ℝ) := do
  let (lo, hi) := setFlimN f fmin fmax
  let m0 ← computeMomentN (vec f) (vec S) 0 lo hi
  let m2 ← computeMomentN (vec f) (vec S) 2 lo hi
  let q ← nDiv m0 m2
  return nSqrt q

/-- spectrum.py:188-193. -/
noncomputable def calcTpsN (f : List ℝ) (S : List (Option ℝ)) (fmin : Option ℝ) (fmax : FLim ℝ) : Except PyErr (Option ℝ) := do
  let (lo, hi) := setFlimN f fmin fmax
  let (fm, Sm) ← bandSliceN f S lo hi
  computeTpsN (vec fm) (vec Sm)

/-- spectrum.py:212-229. -/
noncomputable def calcTpN (f : List ℝ) (S : List (Option ℝ)) (fmin : Option ℝ) (fmax : FLim ℝ) : Except PyErr (Option ℝ) := do
  let (lo, hi) := setFlimN f fmin fmax
  let (fm, Sm) ← bandSliceN f S lo hi
  (peakPeriodN fm Sm).map some

/-- spectrum.py:80-99 `get_Hm0`. -/
noncomputable def SpecObjN.getHm0 (s : SpecObjN) (fmin : Option ℝ) (fmax : FLim ℝ) : Except PyErr (Option ℝ) × SpecObjN :=
  let r := calcHm0N s.f s.sVarDens fmin fmax
  (r, { s with Hm0 := storeN s.Hm0 r })

/-- spectrum.py:173-194 `get_Tps`. -/
noncomputable def SpecObjN.getTps (s : SpecObjN) (fmin : Option ℝ) (fmax : FLim ℝ) : Except PyErr (Option ℝ) × SpecObjN :=
  let r := calcTpsN s.f s.sVarDens fmin fmax
  (r, { s with Tps := storeN s.Tps r })

/-- spectrum.py:196-229 `get_Tp`. -/
noncomputable def SpecObjN.getTp (s : SpecObjN) (fmin : Option ℝ) (fmax : FLim ℝ) : Except PyErr (Option ℝ) × SpecObjN :=
  let r := calcTpN s.f s.sVarDens fmin fmax
  (r, { s with Tp := storeN s.Tp r })

/-- spectrum.py:231-250 `get_Tmm10`. -/
noncomputable def SpecObjN.getTmm10 (s : SpecObjN) (fmin : Option ℝ) (fmax : FLim ℝ) : Except PyErr (Option ℝ) × SpecObjN :=
  let r := calcTmm10N s.f s.sVarDens fmin fmax
  (r, { s with Tmm10 := storeN s.Tmm10 r })

/-- spectrum.py:324-343 `get_Tm01`. -/
noncomputable def SpecObjN.getTm01 (s : SpecObjN) (fmin : Option ℝ) (fmax : FLim ℝ) : Except PyErr (Option ℝ) × SpecObjN :=
  let r := calcTm01N s.f s.sVarDens fmin fmax
  (r, { s with Tm01 := storeN s.Tm01 r })

/-- spectrum.py:345-364 `get_Tm02`. -/
noncomputable def SpecObjN.getTm02 (s : SpecObjN) (fmin : Option ℝ) (fmax : FLim ℝ) : Except PyErr (Option ℝ) × SpecObjN :=
  let r := calcTm02N s.f s.sVarDens fmin fmax
  (r, { s with Tm02 := storeN s.Tm02 r })

/-- spectrum.py:122-125 (and 158-161, 272-275, 308-311): the default cut-off `0.45 / self.Tmm10`, computed first if the
attribute is absent.  `0.45 / nan` is NaN; a zero or infinite period is outside the model. -/
noncomputable def SpecObjN.cutoff (s : SpecObjN) : Except PyErr (Option ℝ) × SpecObjN :=
  let (r, s') := match s.Tmm10 with
    | some _ => (Except.ok none, s)
    | none => s.getTmm10 (some (-1)) (.fin (-1))
  match r, s'.Tmm10 with
  | .error .nonFinite, _ => (.error .unmodelled, s')
  | .error e, _ => (.error e, s')
  | .ok _, some (.num T) => if T = 0 then (.error .unmodelled, s') else (.ok (some (45 / 100 / T)), s')
  | .ok _, some .nan => (.ok none, s')
  | .ok _, _ => (.error .unmodelled, s')

/-- An upper limit that is a number or NaN. -/
def FLim.ofOption : Option ℝ → FLim ℝ
  | some c => .fin c
  | none => .nan

/-- spectrum.py:101-135 `get_Hm0_HF`. -/
noncomputable def SpecObjN.getHm0HF (s : SpecObjN) (fmin : Option ℝ) (fmax : FLim ℝ) : Except PyErr (Option ℝ) × SpecObjN :=
  if fmin = some (-1) then
    match s.cutoff with
    | (.error e, s') => (.error e, s')
    | (.ok c, s') =>
      let r := calcHm0N s'.f s'.sVarDens c fmax
      (r, { s' with Hm0HF := storeN s'.Hm0HF r })
  else
    let r := calcHm0N s.f s.sVarDens fmin fmax
    (r, { s with Hm0HF := storeN s.Hm0HF r })

/-- spectrum.py:137-171 `get_Hm0_LF`. -/
noncomputable def SpecObjN.getHm0LF (s : SpecObjN) (fmin : Option ℝ) (fmax : FLim ℝ) : Except PyErr (Option ℝ) × SpecObjN :=
  if fmax = .fin (-1) then
    match s.cutoff with
    | (.error e, s') => (.error e, s')
    | (.ok c, s') =>
      let r := calcHm0N s'.f s'.sVarDens fmin (FLim.ofOption c)
      (r, { s' with Hm0LF := storeN s'.Hm0LF r })
  else
    let r := calcHm0N s.f s.sVarDens fmin fmax
    (r, { s with Hm0LF := storeN s.Hm0LF r })

/-- spectrum.py:252-286 `get_Tmm10_HF`. -/
noncomputable def SpecObjN.getTmm10HF (s : SpecObjN) (fmin : Option ℝ) (fmax : FLim ℝ) : Except PyErr (Option ℝ) × SpecObjN :=
  if fmin = some (-1) then
    match s.cutoff with
    | (.error e, s') => (.error e, s')
    | (.ok c, s') =>
      let r := calcTmm10N s'.f s'.sVarDens c fmax
      (r, { s' with Tmm10HF := storeN s'.Tmm10HF r })
  else
    let r := calcTmm10N s.f s.sVarDens fmin fmax
    (r, { s with Tmm10HF := storeN s.Tmm10HF r })

/-- spectrum.py:288-322 `get_Tmm10_LF`. -/
noncomputable def SpecObjN.getTmm10LF (s : SpecObjN) (fmin : Option ℝ) (fmax : FLim ℝ) : Except PyErr (Option ℝ) × SpecObjN :=
  if fmax = .fin (-1) then
    match s.cutoff with
    | (.error e, s') => (.error e, s')
    | (.ok c, s') =>
      let r := calcTmm10N s'.f s'.sVarDens fmin (FLim.ofOption c)
      (r, { s' with Tmm10LF := storeN s'.Tmm10LF r })
  else
    let r := calcTmm10N s.f s.sVarDens fmin fmax
    (r, { s with Tmm10LF := storeN s.Tmm10LF r })

/-- `2 * np.pi * H / (g * T**2)`; infinite operands are outside the model. -/
noncomputable def steepnessN (H T : CacheN) (g : ℝ) : Except PyErr (Option ℝ) :=
  match H, T with
  | some (.num H), some (.num T) => nDiv (some (2 * Real.pi * H)) (some (g * T ^ 2))
  | some .nan, some (.num _) => .ok none
  | some (.num _), some .nan => .ok none
  | some .nan, some .nan => .ok none
  | _, _ => .error .unmodelled

/-- `if not hasattr(self, attr): self.get()`; a raised exception leaves the method. -/
def ensureN (c : CacheN) (run : Except PyErr (Option ℝ) × SpecObjN) (s : SpecObjN) : Except PyErr Unit × SpecObjN :=
  match c with
  | some _ => (.ok (), s)
  | none =>
    match run with
    | (.ok _, s') => (.ok (), s')
    | (.error .nonFinite, s') => (.ok (), s')
    | (.error e, s') => (.error e, s')

/-- spectrum.py:366-393 `get_s0p`. -/
noncomputable def SpecObjN.getS0p (s : SpecObjN) (fmin : Option ℝ) (fmax : FLim ℝ) (g : ℝ) : Except PyErr (Option ℝ) × SpecObjN :=
  match ensureN s.Hm0 (s.getHm0 fmin fmax) s with
  | (.error e, s1) => (.error e, s1)
  | (.ok (), s1) =>
    match ensureN s1.Tps (s1.getTps fmin fmax) s1 with
    | (.error e, s2) => (.error e, s2)
    | (.ok (), s2) =>
      let r := steepnessN s2.Hm0 s2.Tps g
      (r, { s2 with s0p := storeN s2.s0p r })

/-- spectrum.py:395-424 `get_smm10`. -/
noncomputable def SpecObjN.getSmm10 (s : SpecObjN) (fmin : Option ℝ) (fmax : FLim ℝ) (g : ℝ) :
    Except PyErr (Option ℝ) × SpecObjN :=
  match ensureN s.Hm0 (s.getHm0 fmin fmax) s with
  | (.error e, s1) => (.error e, s1)
  | (.ok (), s1) =>
    match ensureN s1.Tmm10 (s1.getTmm10 fmin fmax) s1 with
    | (.error e, s2) => (.error e, s2)
    | (.ok (), s2) =>
      let r := steepnessN s2.Hm0 s2.Tmm10 g
      (r, { s2 with smm10 := storeN s2.smm10 r })

/-- spectrum.py:426-456 `get_smm10_HF`. -/
noncomputable def SpecObjN.getSmm10HF (s : SpecObjN) (fmin : Option ℝ) (fmax : FLim ℝ) (g : ℝ) :
    Except PyErr (Option ℝ) × SpecObjN :=
  match ensureN s.Hm0HF (s.getHm0HF fmin fmax) s with
  | (.error e, s1) => (.error e, s1)
  | (.ok (), s1) =>
    match ensureN s1.Tmm10HF (s1.getTmm10HF fmin fmax) s1 with
    | (.error e, s2) => (.error e, s2)
    | (.ok (), s2) =>
      let r := steepnessN s2.Hm0HF s2.Tmm10HF g
      (r, { s2 with smm10HF := storeN s2.smm10HF r })

/-- Dispatch of a call (see `SpecObj.call`; the limits of a `SpecOp` are numbers or `inf`). -/
noncomputable def SpecObjN.call (s : SpecObjN) : SpecOp → Except PyErr (Option ℝ) × SpecObjN
  | .getHm0 a b => s.getHm0 (some a) (lim b)
  | .getHm0HF a b => s.getHm0HF (some a) (lim b)
  | .getHm0LF a b => s.getHm0LF (some a) (lim b)
  | .getTps a b => s.getTps (some a) (lim b)
  | .getTp a b => s.getTp (some a) (lim b)
  | .getTmm10 a b => s.getTmm10 (some a) (lim b)
  | .getTmm10HF a b => s.getTmm10HF (some a) (lim b)
  | .getTmm10LF a b => s.getTmm10LF (some a) (lim b)
  | .getTm01 a b => s.getTm01 (some a) (lim b)
  | .getTm02 a b => s.getTm02 (some a) (lim b)
  | .getS0p a b g => s.getS0p (some a) (lim b) g
  | .getSmm10 a b g => s.getSmm10 (some a) (lim b) g
  | .getSmm10HF a b g => s.getSmm10HF (some a) (lim b) g
where
  /-- The limit as an `FLim`. -/
  lim : FMax ℝ → FLim ℝ
    | .fin x => .fin x
    | .inf => .inf

/-- The state after a history of calls. -/
noncomputable def SpecObjN.after (s : SpecObjN) (hist : List SpecOp) : SpecObjN := hist.foldl (fun t op => (t.call op).2) s

/-- core_wavefunctions.py:15-147 `compute_spectrum_params`.  An infinite moment is outside the model (`.error .nonFinite`). -/
noncomputable def computeSpectrumParamsN (f : PyIn ℝ) (S : PyIn (Option ℝ)) (fmin : ℝ) (fmax : FMax ℝ) :
    Except PyErr SpecParams := do
  let fs ← vecIn "compute_spectrum_params" f
  let Ss ← vecIn "compute_spectrum_params" S
  let b ← monotonicIncreasingConstantStep fs
  if b = false then .error (.valueError "compute_spectrum_params: Input error: frequency input parameter must be monotonic with constant step size")
  else if fs.length ≠ Ss.length then .error (.valueError "compute_spectrum_params: Input error: array sizes differ in dimension")
  else
    let lo : Option ℝ := some (if fmin = -1 then fs.getD 0 0 else fmin)
    let hi : FLim ℝ := if fmax = .fin (-1) then .fin (fs.getD (fs.length - 1) 0) else SpecObjN.call.lim fmax
    let m_1 ← computeMomentN (vec fs) (vec Ss) (-1) lo hi
    let m0 ← computeMomentN (vec fs) (vec Ss) 0 lo hi
    let m1 ← computeMomentN (vec fs) (vec Ss) 1 lo hi
    let m2 ← computeMomentN (vec fs) (vec Ss) 2 lo hi
    match heightOfN m0 with
    | none => return ⟨none, none, none, none, none, none⟩
    | some Hm0 =>
      if Hm0 < 1 / 10 ^ 6 then return ⟨none, none, none, none, none, none⟩
      else
        let Tmm10 ← valN (nDiv m_1 m0)
        let Tm01 ← valN (nDiv m0 m1)
        let Tm02 ← valN (do let q ← nDiv m0 m2; return nSqrt q)
        let (fm, Sm) ← bandSliceN fs Ss lo hi
        let Tp ← valN ((peakPeriodN fm Sm).map some)
        let Tps ← valN (computeTpsN (vec fm) (vec Sm))
        return ⟨some Hm0, Tp, Tps, Tmm10, Tm01, Tm02⟩
where
  /-- A returned number that may be NaN or infinite. -/
  valN (r : Except PyErr (Option ℝ)) : Except PyErr (Option ℝ) :=
    match r with
    | .ok v => .ok v
    | .error .nonFinite => .ok none
    | .error e => .error e

end Verif
