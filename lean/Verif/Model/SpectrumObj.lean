import Verif.Model.WaveFun

/-! # Model of deltares_wave_toolbox/spectrum.py and of `compute_spectrum_params`

`SpecObj` is the state of a `Spectrum` object; every method is a function from the state to (result, new state).  A
result `.error .nonFinite` stands for a returned `inf`/`nan` (which is also stored in the attribute); any other error is
a raised exception, after which the attribute keeps its old value.  Plots are in `Model/Plots.lean`, warnings and `D`/`spec` in
`Model/Describe.lean`. -/

namespace Verif

/-- A cached attribute: absent (`none`), a finite number, or a non-finite one (`some none`). -/
abbrev Cache := Option (Option ℝ)

/-- Attributes of a `Spectrum` (spectrum.py:47-50 and the caches written by the methods). -/
structure SpecObj where
  f : List ℝ
  sVarDens : Arr ℝ
  nf : Nat
  Hm0 : Cache := none
  Hm0HF : Cache := none
  Hm0LF : Cache := none
  Tps : Cache := none
  Tp : Cache := none
  Tmm10 : Cache := none
  Tmm10HF : Cache := none
  Tmm10LF : Cache := none
  Tm01 : Cache := none
  Tm02 : Cache := none
  s0p : Cache := none
  smm10 : Cache := none
  smm10HF : Cache := none

/-- spectrum.py:31-56 `Spectrum.__init__`.  A frequency array that is not 1D after conversion is outside the model; the
densities may have any shape (only the first dimension is compared). -/
noncomputable def SpecObj.init (f S : PyIn ℝ) : Except PyErr SpecObj :=
  let (fa, fSize) := toVector f
  let (Sa, SSize) := toVector S
  match fa.shape with
  | [_] =>
    match monotonicIncreasingConstantStep fa.data with
    | .error e => .error e
    | .ok b =>
      if b = false then .error (.assertionError "compute_spectrum_params: Input error: frequency input parameter must be monotonic with constant step size")
      else if fSize.1 ≠ SSize.1 then .error (.assertionError "compute_spectrum_params: Input error: array sizes differ in dimension")
      else .ok { f := fa.data, sVarDens := Sa, nf := fa.len }
  | _ => .error .unmodelled

/-- The value an assignment `self.attr = expr` leaves in the attribute. -/
def store (old : Cache) (r : Except PyErr ℝ) : Cache :=
  match r with
  | .ok v => some (some v)
  | .error .nonFinite => some none
  | .error _ => old

/-- spectrum.py:64-78 `_set_flim`. -/
noncomputable def setFlim (f : List ℝ) (fmin : ℝ) (fmax : FMax ℝ) : ℝ × FMax ℝ :=
  (if fmin = -1 then f.getD 0 0 else fmin, if fmax = .fin (-1) then .fin (f.getD (f.length - 1) 0) else fmax)

/-- `4 * np.sqrt(m0)`; a negative `m0` gives NaN. -/
noncomputable def heightOf (m0 : ℝ) : Except PyErr ℝ := if m0 < 0 then .error .nonFinite else .ok (4 * Real.sqrt m0)

/-- spectrum.py:96-98 (and 132-134, 168-170): `4 sqrt(m0)` between the given limits. -/
noncomputable def calcHm0 (f : List ℝ) (S : Arr ℝ) (fmin : ℝ) (fmax : FMax ℝ) : Except PyErr ℝ := do
  let (lo, hi) := setFlim f fmin fmax
  let m0 ← computeMoment (vec f) (.nd S) 0 lo hi
  heightOf m0

/-- spectrum.py:246-249 (and 282-285, 318-321): `m_1 / m0`. -/
noncomputable def calcTmm10 (f : List ℝ) (S : Arr ℝ) (fmin : ℝ) (fmax : FMax ℝ) : Except PyErr ℝ := do
  let (lo, hi) := setFlim f fmin fmax
  let m1 ← computeMoment (vec f) (.nd S) (-1) lo hi
  let m0 ← computeMoment (vec f) (.nd S) 0 lo hi
  divE m1 m0

/-- spectrum.py:339-342: `m0 / m1`. -/
noncomputable def calcTm01 (f : List ℝ) (S : Arr ℝ) (fmin : ℝ) (fmax : FMax ℝ) : Except PyErr ℝ := do
  let (lo, hi) := setFlim f fmin fmax
  let m0 ← computeMoment (vec f) (.nd S) 0 lo hi
  let m1 ← computeMoment (vec f) (.nd S) 1 lo hi
  divE m0 m1

/-- `np.sqrt(x)`; NaN for a negative argument. -/
noncomputable def sqrtE (x : ℝ) : Except PyErr ℝ := if x < 0 then .error .nonFinite else .ok (Real.sqrt x)

/-- spectrum.py:360-363: `sqrt(m0 / m2)`. -/
noncomputable def calcTm02 (f : List ℝ) (S : Arr ℝ) (fmin : ℝ) (fmax : FMax ℝ) : Except PyErr ℝ := do
  let (lo, hi) := setFlim f fmin fmax
  let m0 ← computeMoment (vec f) (.nd S) 0 lo hi
  let m2 ← computeMoment (vec f) (.nd S) 2 lo hi
  let q ← divE m0 m2
  sqrtE q

/-- spectrum.py:188-193 `get_Tps` for densities of several columns (one row per frequency, as the constructor ensures; a single column is
1D by then): the selected rows form a 2D array, which `compute_tps` rejects (core_wavefunctions.py:634-635), unless there are none, when
`max` fails (line 645).  Other shapes do not occur. -/
noncomputable def calcTps2 (f : List ℝ) (shape : List Nat) (lo : ℝ) (hi : FMax ℝ) : Except PyErr ℝ :=
  match shape with
  | [_, _] => do
    let (fm, _) ← bandSlice f f lo hi
    if fm = [] then .error (.valueError "max() arg is an empty sequence")
    else .error (.valueError "compute_moment: Input error: input should be 1d arrays")
  | _ => .error .unmodelled

/-- spectrum.py:188-193 `get_Tps`. -/
noncomputable def calcTps (f : List ℝ) (S : Arr ℝ) (fmin : ℝ) (fmax : FMax ℝ) : Except PyErr ℝ := do
  let (lo, hi) := setFlim f fmin fmax
  if S.shape.length ≠ 1 then calcTps2 f S.shape lo hi
  else
    let (fm, Sm) ← bandSlice f S.data lo hi
    computeTps (vec fm) (vec Sm)

/-- spectrum.py:212-229 `get_Tp` for densities of several columns: Python's `max` compares the selected rows (line 219), which raises
`ValueError` for two or more rows; a single row is its own maximum, so that `imax` (line 220) is zero for every column.  Other shapes do
not occur. -/
noncomputable def calcTp2 (f : List ℝ) (shape : List Nat) (lo : ℝ) (hi : FMax ℝ) : Except PyErr ℝ :=
  match shape with
  | [_, _] => do
    let (fm, _) ← bandSlice f f lo hi
    match fm with
    | [] => .error (.valueError "max() arg is an empty sequence")
    | [fp] => invE fp
    | _ => .error (.valueError "The truth value of an array with more than one element is ambiguous")
  | _ => .error .unmodelled

/-- spectrum.py:212-229 `get_Tp`. -/
noncomputable def calcTp (f : List ℝ) (S : Arr ℝ) (fmin : ℝ) (fmax : FMax ℝ) : Except PyErr ℝ := do
  let (lo, hi) := setFlim f fmin fmax
  if S.shape.length ≠ 1 then calcTp2 f S.shape lo hi
  else
    let (fm, Sm) ← bandSlice f S.data lo hi
    peakPeriod fm Sm

/-- spectrum.py:80-99 `get_Hm0`. -/
noncomputable def SpecObj.getHm0 (s : SpecObj) (fmin : ℝ) (fmax : FMax ℝ) : Except PyErr ℝ × SpecObj :=
  let r := calcHm0 s.f s.sVarDens fmin fmax
  (r, { s with Hm0 := store s.Hm0 r })

/-- spectrum.py:173-194 `get_Tps`. -/
noncomputable def SpecObj.getTps (s : SpecObj) (fmin : ℝ) (fmax : FMax ℝ) : Except PyErr ℝ × SpecObj :=
  let r := calcTps s.f s.sVarDens fmin fmax
  (r, { s with Tps := store s.Tps r })

/-- spectrum.py:196-229 `get_Tp`. -/
noncomputable def SpecObj.getTp (s : SpecObj) (fmin : ℝ) (fmax : FMax ℝ) : Except PyErr ℝ × SpecObj :=
  let r := calcTp s.f s.sVarDens fmin fmax
  (r, { s with Tp := store s.Tp r })

/-- spectrum.py:231-250 `get_Tmm10`. -/
noncomputable def SpecObj.getTmm10 (s : SpecObj) (fmin : ℝ) (fmax : FMax ℝ) : Except PyErr ℝ × SpecObj :=
  let r := calcTmm10 s.f s.sVarDens fmin fmax
  (r, { s with Tmm10 := store s.Tmm10 r })

/-- spectrum.py:324-343 `get_Tm01`. -/
noncomputable def SpecObj.getTm01 (s : SpecObj) (fmin : ℝ) (fmax : FMax ℝ) : Except PyErr ℝ × SpecObj :=
  let r := calcTm01 s.f s.sVarDens fmin fmax
  (r, { s with Tm01 := store s.Tm01 r })

/-- spectrum.py:345-364 `get_Tm02`. -/
noncomputable def SpecObj.getTm02 (s : SpecObj) (fmin : ℝ) (fmax : FMax ℝ) : Except PyErr ℝ × SpecObj :=
  let r := calcTm02 s.f s.sVarDens fmin fmax
  (r, { s with Tm02 := store s.Tm02 r })

/-- spectrum.py:122-125 (and 158-161, 272-275, 308-311): the default cut-off `0.45 / self.Tmm10`, computed first if the
attribute is absent.  A non-finite or zero cached period is outside the model. -/
noncomputable def SpecObj.cutoff (s : SpecObj) : Except PyErr ℝ × SpecObj :=
  let (r, s') := match s.Tmm10 with
    | some _ => (Except.ok 0, s)
    | none => s.getTmm10 (-1) (.fin (-1))
  match r, s'.Tmm10 with
  | .error .nonFinite, _ => (.error .unmodelled, s')
  | .error e, _ => (.error e, s')
  | .ok _, some (some T) => if T = 0 then (.error .unmodelled, s') else (.ok (45 / 100 / T), s')
  | .ok _, _ => (.error .unmodelled, s')

/-- spectrum.py:101-135 `get_Hm0_HF`. -/
noncomputable def SpecObj.getHm0HF (s : SpecObj) (fmin : ℝ) (fmax : FMax ℝ) : Except PyErr ℝ × SpecObj :=
  if fmin = -1 then
    match s.cutoff with
    | (.error e, s') => (.error e, s')
    | (.ok c, s') =>
      let r := calcHm0 s'.f s'.sVarDens c fmax
      (r, { s' with Hm0HF := store s'.Hm0HF r })
  else
    let r := calcHm0 s.f s.sVarDens fmin fmax
    (r, { s with Hm0HF := store s.Hm0HF r })

/-- spectrum.py:137-171 `get_Hm0_LF`. -/
noncomputable def SpecObj.getHm0LF (s : SpecObj) (fmin : ℝ) (fmax : FMax ℝ) : Except PyErr ℝ × SpecObj :=
  if fmax = .fin (-1) then
    match s.cutoff with
    | (.error e, s') => (.error e, s')
    | (.ok c, s') =>
      let r := calcHm0 s'.f s'.sVarDens fmin (.fin c)
      (r, { s' with Hm0LF := store s'.Hm0LF r })
  else
    let r := calcHm0 s.f s.sVarDens fmin fmax
    (r, { s with Hm0LF := store s.Hm0LF r })

/-- spectrum.py:252-286 `get_Tmm10_HF`. -/
noncomputable def SpecObj.getTmm10HF (s : SpecObj) (fmin : ℝ) (fmax : FMax ℝ) : Except PyErr ℝ × SpecObj :=
  if fmin = -1 then
    match s.cutoff with
    | (.error e, s') => (.error e, s')
    | (.ok c, s') =>
      let r := calcTmm10 s'.f s'.sVarDens c fmax
      (r, { s' with Tmm10HF := store s'.Tmm10HF r })
  else
    let r := calcTmm10 s.f s.sVarDens fmin fmax
    (r, { s with Tmm10HF := store s.Tmm10HF r })

/-- spectrum.py:288-322 `get_Tmm10_LF`. -/
noncomputable def SpecObj.getTmm10LF (s : SpecObj) (fmin : ℝ) (fmax : FMax ℝ) : Except PyErr ℝ × SpecObj :=
  if fmax = .fin (-1) then
    match s.cutoff with
    | (.error e, s') => (.error e, s')
    | (.ok c, s') =>
      let r := calcTmm10 s'.f s'.sVarDens fmin (.fin c)
      (r, { s' with Tmm10LF := store s'.Tmm10LF r })
  else
    let r := calcTmm10 s.f s.sVarDens fmin fmax
    (r, { s with Tmm10LF := store s.Tmm10LF r })

/-- `2 * np.pi * H / (g * T**2)`, with non-finite operands outside the model. -/
noncomputable def steepness (H T : Cache) (g : ℝ) : Except PyErr ℝ :=
  match H, T with
  | some (some H), some (some T) => divE (2 * Real.pi * H) (g * T ^ 2)
  | _, _ => .error .unmodelled

/-- `if not hasattr(self, attr): self.get()`; a raised exception leaves the method. -/
def ensure (c : Cache) (run : Except PyErr ℝ × SpecObj) (s : SpecObj) : Except PyErr Unit × SpecObj :=
  match c with
  | some _ => (.ok (), s)
  | none =>
    match run with
    | (.ok _, s') => (.ok (), s')
    | (.error .nonFinite, s') => (.ok (), s')
    | (.error e, s') => (.error e, s')

/-- spectrum.py:366-393 `get_s0p`. -/
noncomputable def SpecObj.getS0p (s : SpecObj) (fmin : ℝ) (fmax : FMax ℝ) (g : ℝ) : Except PyErr ℝ × SpecObj :=
  match ensure s.Hm0 (s.getHm0 fmin fmax) s with
  | (.error e, s1) => (.error e, s1)
  | (.ok (), s1) =>
    match ensure s1.Tps (s1.getTps fmin fmax) s1 with
    | (.error e, s2) => (.error e, s2)
    | (.ok (), s2) =>
      let r := steepness s2.Hm0 s2.Tps g
      (r, { s2 with s0p := store s2.s0p r })

/-- spectrum.py:395-424 `get_smm10`. -/
noncomputable def SpecObj.getSmm10 (s : SpecObj) (fmin : ℝ) (fmax : FMax ℝ) (g : ℝ) : Except PyErr ℝ × SpecObj :=
  match ensure s.Hm0 (s.getHm0 fmin fmax) s with
  | (.error e, s1) => (.error e, s1)
  | (.ok (), s1) =>
    match ensure s1.Tmm10 (s1.getTmm10 fmin fmax) s1 with
    | (.error e, s2) => (.error e, s2)
    | (.ok (), s2) =>
      let r := steepness s2.Hm0 s2.Tmm10 g
      (r, { s2 with smm10 := store s2.smm10 r })

/-- spectrum.py:426-456 `get_smm10_HF`. -/
noncomputable def SpecObj.getSmm10HF (s : SpecObj) (fmin : ℝ) (fmax : FMax ℝ) (g : ℝ) : Except PyErr ℝ × SpecObj :=
  match ensure s.Hm0HF (s.getHm0HF fmin fmax) s with
  | (.error e, s1) => (.error e, s1)
  | (.ok (), s1) =>
    match ensure s1.Tmm10HF (s1.getTmm10HF fmin fmax) s1 with
    | (.error e, s2) => (.error e, s2)
    | (.ok (), s2) =>
      let r := steepness s2.Hm0HF s2.Tmm10HF g
      (r, { s2 with smm10HF := store s2.smm10HF r })

/-- The calls a user can make on a `Spectrum`, with their arguments. -/
inductive SpecOp where
  | getHm0 (fmin : ℝ) (fmax : FMax ℝ)
  | getHm0HF (fmin : ℝ) (fmax : FMax ℝ)
  | getHm0LF (fmin : ℝ) (fmax : FMax ℝ)
  | getTps (fmin : ℝ) (fmax : FMax ℝ)
  | getTp (fmin : ℝ) (fmax : FMax ℝ)
  | getTmm10 (fmin : ℝ) (fmax : FMax ℝ)
  | getTmm10HF (fmin : ℝ) (fmax : FMax ℝ)
  | getTmm10LF (fmin : ℝ) (fmax : FMax ℝ)
  | getTm01 (fmin : ℝ) (fmax : FMax ℝ)
  | getTm02 (fmin : ℝ) (fmax : FMax ℝ)
  | getS0p (fmin : ℝ) (fmax : FMax ℝ) (g : ℝ)
  | getSmm10 (fmin : ℝ) (fmax : FMax ℝ) (g : ℝ)
  | getSmm10HF (fmin : ℝ) (fmax : FMax ℝ) (g : ℝ)

/-- Dispatch of a call (spectrum.py, the methods above). -/
noncomputable def SpecObj.call (s : SpecObj) : SpecOp → Except PyErr ℝ × SpecObj
  | .getHm0 a b => s.getHm0 a b
  | .getHm0HF a b => s.getHm0HF a b
  | .getHm0LF a b => s.getHm0LF a b
  | .getTps a b => s.getTps a b
  | .getTp a b => s.getTp a b
  | .getTmm10 a b => s.getTmm10 a b
  | .getTmm10HF a b => s.getTmm10HF a b
  | .getTmm10LF a b => s.getTmm10LF a b
  | .getTm01 a b => s.getTm01 a b
  | .getTm02 a b => s.getTm02 a b
  | .getS0p a b g => s.getS0p a b g
  | .getSmm10 a b g => s.getSmm10 a b g
  | .getSmm10HF a b g => s.getSmm10HF a b g

/-- The state after a history of calls (exceptions are caught by the caller). -/
noncomputable def SpecObj.after (s : SpecObj) (hist : List SpecOp) : SpecObj := hist.foldl (fun t op => (t.call op).2) s

/-- The six results of `compute_spectrum_params`; `none` is NaN or an infinity. -/
structure SpecParams where
  Hm0 : Option ℝ
  Tp : Option ℝ
  Tps : Option ℝ
  Tmm10 : Option ℝ
  Tm01 : Option ℝ
  Tm02 : Option ℝ

/-- A returned number that may be non-finite. -/
def valE (r : Except PyErr ℝ) : Except PyErr (Option ℝ) :=
  match r with
  | .ok v => .ok (some v)
  | .error .nonFinite => .ok none
  | .error e => .error e

/-- core_wavefunctions.py:15-147 `compute_spectrum_params`.  A non-finite `m0`, `m_1`, `m1` or `m2` is outside the
model. -/
noncomputable def computeSpectrumParams (f S : PyIn ℝ) (fmin : ℝ) (fmax : FMax ℝ) : Except PyErr SpecParams := do
  let fs ← vecIn "compute_spectrum_params" f
  let Ss ← vecIn "compute_spectrum_params" S
  let b ← monotonicIncreasingConstantStep fs
  if b = false then .error (.valueError "compute_spectrum_params: Input error: frequency input parameter must be monotonic with constant step size")
  else if fs.length ≠ Ss.length then .error (.valueError "compute_spectrum_params: Input error: array sizes differ in dimension")
  else
    let lo := if fmin = -1 then fs.getD 0 0 else fmin
    let hi := if fmax = .fin (-1) then .fin (fs.getD (fs.length - 1) 0) else fmax
    let m_1 ← computeMoment (vec fs) (vec Ss) (-1) lo hi
    let m0 ← computeMoment (vec fs) (vec Ss) 0 lo hi
    let m1 ← computeMoment (vec fs) (vec Ss) 1 lo hi
    let m2 ← computeMoment (vec fs) (vec Ss) 2 lo hi
    if m0 < 0 ∨ 4 * Real.sqrt m0 < 1 / 10 ^ 6 then return ⟨none, none, none, none, none, none⟩
    else
      let Hm0 := 4 * Real.sqrt m0
      let Tmm10 ← valE (divE m_1 m0)
      let Tm01 ← valE (divE m0 m1)
      let Tm02 ← valE (do let q ← divE m0 m2; sqrtE q)
      let (fm, Sm) ← bandSlice fs Ss lo hi
      let Tp ← valE (peakPeriod fm Sm)
      let Tps ← valE (computeTps (vec fm) (vec Sm))
      return ⟨some Hm0, Tp, Tps, Tmm10, Tm01, Tm02⟩

/-- core_wavefunctions.py:405-447 `create_spectrum_object_jonswap`. -/
noncomputable def createSpectrumObjectJonswap (f : PyIn ℝ) (fp hm0 : ℝ) (gammaPeak : ℝ := 33 / 10) (lFmax : ℝ := 0) :
    Except PyErr SpecObj := do
  let sVarDens ← createSpectrumJonswap f fp hm0 gammaPeak lFmax
  SpecObj.init f (vec sVarDens)

/-- core_wavefunctions.py:510-553 `create_spectrum_object_piersonmoskowitz`. -/
noncomputable def createSpectrumObjectPiersonMoskowitz (f : PyIn ℝ) (fp hm0 : ℝ) (gammaPeak : ℝ := 1) (lFmax : ℝ := 0) :
    Except PyErr SpecObj :=
  createSpectrumObjectJonswap f fp hm0 gammaPeak lFmax

end Verif
