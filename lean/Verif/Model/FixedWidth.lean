import Verif.Model.SeriesReal

/-! # Fixed-width integer arrays

`core_engine.convert_to_vector` keeps the element type, so a record stored as `int16` (raw readings, millimetres) stays one.
numpy's integer arithmetic on arrays and on array elements is modulo `2^w`.  This file models the places of series.py,
core_time.py and core_engine.py where such arithmetic happens before anything is converted to a float: the squares of
`get_Hrms`, the denominator of the interpolation of a zero-crossing and the differences of an axis. -/

namespace Verif

/-- The value of a signed `w`-bit integer after an arithmetic operation with exact result `z` (two's complement). -/
def wrapS (w : Nat) (z : Int) : Int := Int.bmod z (2 ^ w)

/-- The value of an unsigned `w`-bit integer after an arithmetic operation with exact result `z`. -/
def wrapU (w : Nat) (z : Int) : Int := z % 2 ^ w

/-- series.py:29-35 and 54-63: `WaveHeights(hwave, twave).get_Hrms()` for heights of a signed `w`-bit integer type.
`hwave**2` is an array of the same type; its mean is taken in floats; the root of a negative mean is NaN. -/
noncomputable def hrmsInt (w : Nat) (hwave : PyIn Int) : Except PyErr ℝ :=
  let h := (toVector hwave).1
  if h.shape = [] then .error .typeError
  else if h.data = [] then .error .nonFinite
  else
    let m := mean (h.data.map fun z : Int => ((wrapS w (z ^ 2) : Int) : ℝ))
    if m < 0 then .error .nonFinite else .ok (Real.sqrt m)

section
variable {K : Type} [Field K] [LinearOrder K]

/-- core_time.py:171-181 and 185-195 for a signal of a signed `w`-bit integer type and a float time axis: `dt * xTime[i]` is a
float, the difference `xTime[i] - xTime[i+1]` is an integer of the type of the signal. -/
def crossStepInt (w : Nat) (cond : Int → Int → Bool) (dt : K) (t : List K) (x : List Int) (st : Int × List K) (i : Nat) :
    Int × List K :=
  let xi := x.getD i 0
  let xj := x.getD (i + 1) 0
  if cond xi xj then (st.1 + 1, st.2 ++ [t.getD i 0 + dt * (xi : K) / ((wrapS w (xi - xj) : Int) : K)]) else st

/-- core_time.py:172 for integers. -/
def upCondInt (a b : Int) : Bool := decide (a ≤ 0) && decide (0 < b)

/-- core_time.py:186 for integers. -/
def downCondInt (a b : Int) : Bool := decide (0 ≤ a) && decide (b < 0)

/-- core_time.py:163-206 for an integer signal. -/
def crossLoopInt (w : Nat) (cond : Int → Int → Bool) (t : List K) (x : List Int) : Int × List K :=
  let dt := t.getD 1 0 - t.getD 0 0
  let r := (List.range (t.length - 1)).foldl (crossStepInt w cond dt t x) (-1, [])
  (if r.1 = -1 then 0 else r.1, r.2)

/-- core_time.py:97-206 `determine_zero_crossing` for an integer signal. -/
def determineZeroCrossingInt (w : Nat) (tIn : PyIn K) (xIn : PyIn Int) (typeCross : String := "down") :
    Except PyErr (Int × List K) :=
  let t := toArr tIn
  let x := toArr xIn
  if !isOneD t then .error (.valueError "determine_zero_crossing: t is not 1D")
  else if !isOneD x then .error (.valueError "determine_zero_crossing: x is not 1D")
  else if t.len ≠ x.len then .error (.valueError "determine_zero_crossing: different length")
  else if t.len < 2 then .error .indexError
  else if typeCross.toLower = "up" then .ok (crossLoopInt w upCondInt t.data x.data)
  else if typeCross.toLower = "down" then .ok (crossLoopInt w downCondInt t.data x.data)
  else .error (.valueError "determine_zero_crossing: wrong typeCross")

/-- The floats equal to the elements of an integer array. -/
def floatArr (a : Arr Int) : Arr K := ⟨a.shape, a.data.map fun z : Int => (z : K)⟩

/-- series.py:525-596 `_determine_individual_waves` with `fcutoff = 0` for an integer signal (`self.xTime - 0` keeps the type).
Everything after the crossings is stored in float arrays.  The object state holds the signal as floats (the rest of the
class only uses its values). -/
def determineIndividualWavesInt (w : Nat) (time : Arr K) (xTime : Arr Int) (s : SeriesObj K) (typeCross : String) (minWave : K) :
    Except PyErr (IndWaves K × List K × SeriesObj K) := do
  let (_, tCross) ← determineZeroCrossingInt w (.nd time) (.nd xTime) typeCross
  let v ← determineParamsIndividualWaves (vec tCross) (.nd time) (.nd (floatArr xTime))
  let rm := removeIndex v.hWave minWave
  let v' : IndWaves K :=
    { hWave := npDelete v.hWave rm, tWave := npDelete v.tWave rm, aCrest := npDelete v.aCrest rm,
      aTrough := npDelete v.aTrough rm, tCrest := npDelete v.tCrest rm, tTrough := npDelete v.tTrough rm }
  let wh ← WH.init (vec v'.hWave) (vec v'.tWave)
  return (v', tCross, { s with tCross := npDelete tCross rm, wh := wh })

/-- series.py:317-340 `Series.__init__` for an integer signal and a float time axis. -/
def SeriesObj.initInt (w : Nat) (time : PyIn K) (xTime : PyIn Int) : Except PyErr (SeriesObj K) := do
  let (t, tSize) := toVector time
  let (x, xSize) := toVector xTime
  if tSize.1 ≠ xSize.1 then .error (.assertionError "Input error: array sizes differ in dimension")
  else
    let d ← timeSteps t
    if d ≠ [] ∧ variance d < mean (d.map (· / 100)) then
      let s0 : SeriesObj K :=
        { time := t, xTime := floatArr x, nt := t.len, dt := mean d, tCross := [], wh := ⟨arr1 [], 0, arr1 []⟩ }
      let (v, _, s1) ← determineIndividualWavesInt w t x s0 "down" 0
      let wh ← WH.init (vec v.hWave) (vec v.tWave)
      return { s1 with wh := wh }
    else .error (.assertionError "Input error: time step is not equidistant")

/-- `np.diff` of a 1D array of an unsigned `w`-bit type. -/
def diffU (w : Nat) : List Int → List Int
  | a :: b :: l => wrapU w (b - a) :: diffU w (b :: l)
  | _ => []

/-- core_engine.py:56-73 `monotonic_increasing_constant_step` for a 1D axis of an unsigned `w`-bit type: `np.diff` and
`xDiff - xDiff[0]` stay in the type; the comparison with the tolerance is one of numbers. -/
def monotonicUInt (w : Nat) (x : List Int) : Except PyErr Bool :=
  match diffU w x with
  | [] => .error .indexError
  | d0 :: ds =>
    let isUniform := (d0 :: ds).all fun d => decide (((wrapU w (d - d0) : Int) : ℚ) < stepTol)
    let xMonotonic := (d0 :: ds).all fun d => decide (0 < d)
    .ok (xMonotonic && isUniform)

/-- series.py:322-329, the test of the time axis in `Series.__init__` and the time step, for a 1D axis of an unsigned `w`-bit
type: `np.diff` stays in the type, variance and mean are floats.  The result is `self.dt`. -/
def timeCheckUInt (w : Nat) (t : List Int) : Except PyErr ℚ :=
  let d := (diffU w t).map fun z : Int => (z : ℚ)
  if d ≠ [] ∧ variance d < mean (d.map (· / 100)) then .ok (mean d)
  else .error (.assertionError "Input error: time step is not equidistant")

end

end Verif
