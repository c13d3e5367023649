import Verif.Model.Time

/-! # Model of deltares_wave_toolbox/series.py

`WH` is the state of a `WaveHeights` object; every method is a function from the state to (result, new state).
Methods that need a square root or a logarithm are in `Model/SeriesReal.lean`.  Plots are represented by the
state change they cause. -/

namespace Verif

variable {K : Type} [Field K] [LinearOrder K]

/-- Attributes of `WaveHeights` (series.py:33-35). -/
structure WH (K : Type) where
  hwave : Arr K
  nwave : Nat
  twave : Arr K
  deriving DecidableEq, Repr

/-- The 1D ndarray with elements `l`. -/
def arr1 {α : Type} (l : List α) : Arr α := ⟨[l.length], l⟩

/-- series.py:29-35 `WaveHeights.__init__`.  `len()` of a 0-d array raises `TypeError`. -/
def WH.init (hwave twave : PyIn K) : Except PyErr (WH K) :=
  let h := (toVector hwave).1
  let t := (toVector twave).1
  if h.shape = [] then .error .typeError else .ok ⟨h, h.len, t⟩

/-- series.py:43-52 `sort`, also the first line of the getters: on an exception the attributes are unchanged. -/
def WH.sort (A : Argsort K) (s : WH K) : Except PyErr Unit × WH K :=
  match sortWaveParams A (.nd s.hwave) (.nd s.twave) with
  | .ok (h, t) => (.ok (), { s with hwave := arr1 h, twave := arr1 t })
  | .error e => (.error e, s)

/-- series.py:65-74 `get_Hmax`; `np.max` of an empty array raises `ValueError`. -/
def WH.getHmax (s : WH K) : Except PyErr K × WH K :=
  (match s.hwave.data with
   | [] => .error (.valueError "zero-size array to reduction operation maximum which has no identity")
   | a :: l => .ok (l.foldl max a), s)

/-- series.py:100-118 `get_exceedance_waveheight`. -/
def WH.getExceedance [FloorRing K] (A : Argsort K) (excPerc : K) (s : WH K) : Except PyErr K × WH K :=
  match s.sort A with
  | (.ok (), s') => (exceedanceWaveHeight (.nd s'.hwave) excPerc, s')
  | (.error e, s') => (.error e, s')

/-- series.py:120-145 `highest_waves`. -/
def WH.highestWaves [FloorRing K] (A : Argsort K) (fracP : K) (s : WH K) : Except PyErr (K × K) × WH K :=
  match s.sort A with
  | (.ok (), s') => (highestWavesParams (.nd s'.hwave) (.nd s'.twave) fracP, s')
  | (.error e, s') => (.error e, s')

/-- series.py:76-87 `get_Hs`. -/
def WH.getHs [FloorRing K] (A : Argsort K) (s : WH K) : Except PyErr (K × K) × WH K :=
  s.highestWaves A (1 / 3)

/-- The methods of `WaveHeights` that a caller can invoke, with their arguments. -/
inductive WHOp (K : Type) where
  | sort
  | getHrms
  | getHmax
  | getHs
  | getH2pRayleigh
  | getExceedance (excPerc : K)
  | highestWaves (fracP : K)
  | plotExceedance
  | plotExceedanceRayleigh (normalize : Bool)
  | plotHist

/-- The state after one method call (exceptions included).
series.py:54-63 (`get_Hrms`), 89-98 (`get_H2p_Rayleigh`, which calls `get_Hs`), 147-174 (`plot_exceedance_waveheight`,
sorts first), 176-272 (`plot_exceedance_waveheight_Rayleigh`: `get_Hs` if `normalize`, then `get_H2p_Rayleigh`,
then the sort; an exception stops the sequence), 274-298 (`plot_hist_waveheight`). -/
def WH.step [FloorRing K] (A : Argsort K) (op : WHOp K) (s : WH K) : WH K :=
  match op with
  | .sort => (s.sort A).2
  | .getHrms => s
  | .getHmax => s.getHmax.2
  | .getHs => (s.getHs A).2
  | .getH2pRayleigh => (s.getHs A).2
  | .getExceedance p => (s.getExceedance A p).2
  | .highestWaves p => (s.highestWaves A p).2
  | .plotExceedance => (s.sort A).2
  | .plotExceedanceRayleigh normalize =>
    let s1 := if normalize then s.getHs A else (.ok (0, 0), s)
    match s1 with
    | (.error _, s1) => s1
    | (.ok _, s1) =>
      match s1.getHs A with
      | (.error _, s2) => s2
      | (.ok _, s2) => (s2.sort A).2
  | .plotHist => s

/-- The state after a sequence of method calls. -/
def WH.run [FloorRing K] (A : Argsort K) (ops : List (WHOp K)) (s : WH K) : WH K :=
  ops.foldl (fun s op => s.step A op) s

/-- Attributes of a `Series` object (series.py:326-329, 587, 33-35). -/
structure SeriesObj (K : Type) where
  time : Arr K
  xTime : Arr K
  nt : Nat
  dt : K
  tCross : List K
  wh : WH K
  deriving DecidableEq, Repr

/-- `np.where(hWave < minimum_wave)[0]` (series.py:586). -/
def removeIndex (hWave : List K) (minWave : K) : List Nat := whereIdx (fun v => decide (v < minWave)) hWave

/-- series.py:525-596 `_determine_individual_waves`.  `xlow` is the array subtracted from the signal before the crossings
are determined: all zeros for `fcutoff = 0`, else the low-pass filtered signal (same length).
The result is the six (filtered) arrays and the unfiltered `tCross`; the new object state is returned as well. -/
def determineIndividualWaves (s : SeriesObj K) (typeCross : String) (xlow : List K) (minWave : K) :
    Except PyErr (IndWaves K × List K × SeriesObj K) := do
  let xd : Arr K := ⟨s.xTime.shape, List.zipWith (· - ·) s.xTime.data xlow⟩
  let (_, tCross) ← determineZeroCrossing (.nd s.time) (.nd xd) typeCross
  let w ← determineParamsIndividualWaves (vec tCross) (.nd s.time) (.nd s.xTime)
  let rm := removeIndex w.hWave minWave
  let w' : IndWaves K :=
    { hWave := npDelete w.hWave rm, tWave := npDelete w.tWave rm, aCrest := npDelete w.aCrest rm,
      aTrough := npDelete w.aTrough rm, tCrest := npDelete w.tCrest rm, tTrough := npDelete w.tTrough rm }
  let wh ← WH.init (vec w'.hWave) (vec w'.tWave)
  return (w', tCross, { s with tCross := npDelete tCross rm, wh := wh })

/-- `self.xTime * 0`: the array of zeros that `self.xTime - 0` subtracts. -/
def zerosLike (x : Arr K) : List K := x.data.map fun _ => 0

/-- `np.diff(time)`, the elements in C order: the differences along the last axis.  A 0-d array raises `ValueError`. -/
def timeSteps (t : Arr K) : Except PyErr (List K) :=
  match t.shape with
  | [] => .error (.valueError "diff requires input that is at least one dimensional")
  | [_] => .ok (diff t.data)
  | shape =>
    let m := shape.getLastD 0
    .ok ((List.range (t.data.length / m)).flatMap fun r => diff ((t.data.drop (r * m)).take m))

/-- series.py:317-340 `Series.__init__`, for inputs of any shape.  `np.var` of an empty difference array is NaN, so the assertion fails for
fewer than two samples. -/
def SeriesObj.init (time xTime : PyIn K) : Except PyErr (SeriesObj K) := do
  let (t, tSize) := toVector time
  let (x, xSize) := toVector xTime
  if tSize.1 ≠ xSize.1 then .error (.assertionError "Input error: array sizes differ in dimension")
  else
    let d ← timeSteps t
    if d ≠ [] ∧ variance d < mean (d.map (· / 100)) then
      let s0 : SeriesObj K :=
        { time := t, xTime := x, nt := t.len, dt := mean d, tCross := [], wh := ⟨arr1 [], 0, arr1 []⟩ }
      let (w, _, s1) ← determineIndividualWaves s0 "down" (zerosLike x) 0
      let wh ← WH.init (vec w.hWave) (vec w.tWave)
      return { s1 with wh := wh }
    else .error (.assertionError "Input error: time step is not equidistant")

/-- series.py:348-373 `get_crossing`. -/
def SeriesObj.getCrossing (s : SeriesObj K) (typeCross : String) : Except PyErr (Int × List K) :=
  determineZeroCrossing (.nd s.time) (.nd s.xTime) typeCross

end Verif
