import Verif.Model.Series

/-! # Missing values

Measured records contain NaN.  The other model files have no NaN; this file models `WaveHeights`, the zero-crossing analysis and
`Series.__init__` for arrays whose elements may be NaN: an element is `none` (NaN) or `some v`.  A comparison with NaN is
False, arithmetic with NaN is NaN. -/

namespace Verif

variable {K : Type} [Field K] [LinearOrder K]

/-- `a <= b` for floats that may be NaN. -/
def nLe : Option K → Option K → Bool
  | some a, some b => decide (a ≤ b)
  | _, _ => false

/-- `a < b` for floats that may be NaN. -/
def nLt : Option K → Option K → Bool
  | some a, some b => decide (a < b)
  | _, _ => false

/-- `a == b` for floats that may be NaN (NaN is not equal to NaN). -/
def nEq : Option K → Option K → Bool
  | some a, some b => decide (a = b)
  | _, _ => false

/-- `a - b`. -/
def nSub : Option K → Option K → Option K
  | some a, some b => some (a - b)
  | _, _ => none

/-- `t + dt * a / (a - b)` (core_time.py:178).  (A zero denominator, which the condition of the loop excludes, is NaN here.) -/
def nCrossTime : Option K → Option K → Option K → Option K → Option K
  | some t, some dt, some a, some b => if a - b = 0 then none else some (t + dt * a / (a - b))
  | _, _, _, _ => none

/-- The values of an array without NaN, `none` if there is a NaN. -/
def allFinite : List (Option K) → Option (List K)
  | [] => some []
  | none :: _ => none
  | some a :: l => (allFinite l).map (a :: ·)

/-- `np.mean` of a non-empty array. -/
def nMean (l : List (Option K)) : Option K := (allFinite l).map mean

/-- `np.diff` of a 1D array. -/
def nDiff : List (Option K) → List (Option K)
  | a :: b :: l => nSub b a :: nDiff (b :: l)
  | _ => []

/-- `np.sort`: NaN last. -/
def npSortN (l : List (Option K)) : List (Option K) :=
  ((l.filterMap id).insertionSort (· ≤ ·)).map some ++ (l.filter Option.isNone)

/-- The order of `np.sort` and `np.argsort`: NaN after every number. -/
def nanLast : Option K → Option K → Prop
  | some a, some b => a ≤ b
  | none, some _ => False
  | _, none => True

/-- The contract of `np.argsort` for arrays that may contain NaN: some permutation of the indices that lists the values in
ascending order, NaN last. -/
structure ArgsortN (K : Type) [Field K] [LinearOrder K] where
  run : List (Option K) → List Nat
  perm : ∀ l, (run l).Perm (List.range l.length)
  sorted : ∀ l, ((run l).map fun i => l.getD i none).Pairwise nanLast

/-- core_time.py:9-94 `sort_wave_params`. -/
def sortWaveParamsN (A : ArgsortN K) (hWave tWave : PyIn (Option K)) : Except PyErr (List (Option K) × List (Option K)) :=
  let h := toArr hWave
  let t := toArr tWave
  if !isOneD h then .error (.valueError "sort_wave_params: hWave is not 1D")
  else if !isOneD t then .error (.valueError "sort_wave_params: tWave is not 1D")
  else if h.len ≠ t.len then .error (.valueError "sort_wave_params: different length")
  else if h.len < 1 then .ok ([], [])
  else
    let iSorted := (A.run h.data).reverse
    .ok (iSorted.map fun i => h.data.getD i none, iSorted.map fun i => t.data.getD i none)

/-- core_time.py:299 and 375: `(h == np.sort(h)[::-1]).all()`. -/
def isSortedDescN (h : List (Option K)) : Bool := (List.zipWith nEq h (npSortN h).reverse).all id

/-- core_time.py:209-312 `highest_waves_params` (`fracP` a number). -/
def highestWavesParamsN [FloorRing K] (hWaveSorted tWaveSorted : PyIn (Option K)) (fracP : K) :
    Except PyErr (Option K × Option K) :=
  let h := toArr hWaveSorted
  let t := toArr tWaveSorted
  if !isOneD h then .error (.valueError "highest_waves_params: hWaveSorted is not 1D")
  else if !isOneD t then .error (.valueError "highest_waves_params: tWaveSorted is not 1D")
  else if t.len ≠ h.len then .error (.valueError "highest_waves_params: different length")
  else if fracP < 0 ∨ 1 < fracP then .error (.valueError "highest_waves_params: fracP")
  else if h.len < 1 then .ok (some 0, some 0)
  else if !isSortedDescN h.data then .error (.valueError "highest_waves_params: not sorted")
  else
    let nWaveP := ⌊(h.len : K) * fracP⌋
    if 0 < nWaveP then
      .ok (nMean (pySlice h.data 0 nWaveP.toNat), nMean (pySlice t.data 0 nWaveP.toNat))
    else .ok (some 0, some 0)

/-- core_time.py:315-389 `exceedance_wave_height` (`excPerc` a number). -/
def exceedanceWaveHeightN [FloorRing K] (hWaveSorted : PyIn (Option K)) (excPerc : K) : Except PyErr (Option K) :=
  let h := toArr hWaveSorted
  if !isOneD h then .error (.valueError "exceedance_wave_height: hWaveSorted is not 1D")
  else if 100 < excPerc ∨ excPerc < 0 then .error (.valueError "exceedance_wave_height: excPerc")
  else if h.len < 1 then .ok (some 0)
  else if !isSortedDescN h.data then .error (.valueError "exceedance_wave_height: not sorted")
  else
    let iWaveP := ⌊(h.len : K) * excPerc / 100⌋ - 1
    if ¬ (iWaveP < 0) then getE h.data iWaveP.toNat else .ok (some 0)

/-- Attributes of `WaveHeights` (series.py:33-35). -/
structure WHN (K : Type) where
  hwave : Arr (Option K)
  nwave : Nat
  twave : Arr (Option K)
  deriving DecidableEq, Repr

/-- series.py:29-35 `WaveHeights.__init__`. -/
def WHN.init (hwave twave : PyIn (Option K)) : Except PyErr (WHN K) :=
  let h := (toVector hwave).1
  let t := (toVector twave).1
  if h.shape = [] then .error .typeError else .ok ⟨h, h.len, t⟩

/-- series.py:43-52 `sort`. -/
def WHN.sort (A : ArgsortN K) (s : WHN K) : Except PyErr Unit × WHN K :=
  match sortWaveParamsN A (.nd s.hwave) (.nd s.twave) with
  | .ok (h, t) => (.ok (), { s with hwave := arr1 h, twave := arr1 t })
  | .error e => (.error e, s)

/-- series.py:65-74 `get_Hmax`: `np.max` returns NaN if there is one. -/
def WHN.getHmax (s : WHN K) : Except PyErr (Option K) × WHN K :=
  (match s.hwave.data with
   | [] => .error (.valueError "zero-size array to reduction operation maximum which has no identity")
   | a :: l => .ok ((allFinite (a :: l)).map fun v => v.tail.foldl max (v.headD 0)), s)

/-- series.py:100-118 `get_exceedance_waveheight`. -/
def WHN.getExceedance [FloorRing K] (A : ArgsortN K) (excPerc : K) (s : WHN K) : Except PyErr (Option K) × WHN K :=
  match s.sort A with
  | (.ok (), s') => (exceedanceWaveHeightN (.nd s'.hwave) excPerc, s')
  | (.error e, s') => (.error e, s')

/-- series.py:120-145 `highest_waves`. -/
def WHN.highestWaves [FloorRing K] (A : ArgsortN K) (fracP : K) (s : WHN K) :
    Except PyErr (Option K × Option K) × WHN K :=
  match s.sort A with
  | (.ok (), s') => (highestWavesParamsN (.nd s'.hwave) (.nd s'.twave) fracP, s')
  | (.error e, s') => (.error e, s')

/-- series.py:76-87 `get_Hs`. -/
def WHN.getHs [FloorRing K] (A : ArgsortN K) (s : WHN K) : Except PyErr (Option K × Option K) × WHN K :=
  s.highestWaves A (1 / 3)

/-- The state after one method call (see `WH.step`). -/
def WHN.step [FloorRing K] (A : ArgsortN K) (op : WHOp K) (s : WHN K) : WHN K :=
  match op with
  | .sort => (s.sort A).2
  | .getHrms => s
  | .getHmax => s.getHmax.2
  | .getHs => (s.getHs A).2
  | .getH2pRayleigh => (s.getHs A).2
  | .getExceedance p => (s.getExceedance A p).2
  | .highestWaves p => (s.highestWaves A p).2
  | .plotExceedance => (s.sort A).2
  | .plotExceedanceRayleigh normalize =>
    let s1 := if normalize then s.getHs A else (.ok (some 0, some 0), s)
    match s1 with
    | (.error _, s1) => s1
    | (.ok _, s1) =>
      match s1.getHs A with
      | (.error _, s2) => s2
      | (.ok _, s2) => (s2.sort A).2
  | .plotHist => s

/-- The state after a sequence of method calls. -/
def WHN.run [FloorRing K] (A : ArgsortN K) (ops : List (WHOp K)) (s : WHN K) : WHN K :=
  ops.foldl (fun s op => s.step A op) s

/-! ## Zero-crossing analysis -/

/-- Body of the loops at core_time.py:171-181 and 185-195. -/
def crossStepN (cond : Option K → Option K → Bool) (dt : Option K) (t x : List (Option K)) (st : Int × List (Option K)) (i : Nat) :
    Int × List (Option K) :=
  let xi := x.getD i none
  let xj := x.getD (i + 1) none
  if cond xi xj then (st.1 + 1, st.2 ++ [nCrossTime (t.getD i none) dt xi xj]) else st

/-- core_time.py:172. -/
def upCondN (a b : Option K) : Bool := nLe a (some 0) && nLt (some 0) b

/-- core_time.py:186. -/
def downCondN (a b : Option K) : Bool := nLe (some 0) a && nLt b (some 0)

/-- core_time.py:163-206. -/
def crossLoopN (cond : Option K → Option K → Bool) (t x : List (Option K)) : Int × List (Option K) :=
  let dt := nSub (t.getD 1 none) (t.getD 0 none)
  let r := (List.range (t.length - 1)).foldl (crossStepN cond dt t x) (-1, [])
  (if r.1 = -1 then 0 else r.1, r.2)

/-- core_time.py:97-206 `determine_zero_crossing`. -/
def determineZeroCrossingN (tIn xIn : PyIn (Option K)) (typeCross : String := "down") :
    Except PyErr (Int × List (Option K)) :=
  let t := toArr tIn
  let x := toArr xIn
  if !isOneD t then .error (.valueError "determine_zero_crossing: t is not 1D")
  else if !isOneD x then .error (.valueError "determine_zero_crossing: x is not 1D")
  else if t.len ≠ x.len then .error (.valueError "determine_zero_crossing: different length")
  else if t.len < 2 then .error .indexError
  else if typeCross.toLower = "up" then .ok (crossLoopN upCondN t.data x.data)
  else if typeCross.toLower = "down" then .ok (crossLoopN downCondN t.data x.data)
  else .error (.valueError "determine_zero_crossing: wrong typeCross")

/-- Python's `max(l)`: keep the first element and replace it by every element that is greater (`>` is False for NaN). -/
def pyMaxN : List (Option K) → Except PyErr (Option K)
  | [] => .error (.valueError "max() arg is an empty sequence")
  | a :: l => .ok (l.foldl (fun m v => if nLt m v then v else m) a)

/-- Python's `min(l)`. -/
def pyMinN : List (Option K) → Except PyErr (Option K)
  | [] => .error (.valueError "min() arg is an empty sequence")
  | a :: l => .ok (l.foldl (fun m v => if nLt v m then v else m) a)

/-- core_time.py:517-538: body of the loop over the waves. -/
def oneWaveN (tCross t x : List (Option K)) (iWave : Nat) : Except PyErr (WaveRec (Option K)) := do
  let tIni ← getE tCross iWave
  let tEnd ← getE tCross (iWave + 1)
  let iIni ← getE (whereIdx (fun v => nLe tIni v) t) 0
  let iEnd ← lastE (whereIdx (fun v => nLe v tEnd) t)
  let tI := pySlice t iIni (iEnd + 1)
  let xI := pySlice x iIni (iEnd + 1)
  let mx ← pyMaxN xI
  let iMax ← getE (whereIdx (fun v => nEq v mx) xI) 0
  let mn ← pyMinN xI
  let iMin ← getE (whereIdx (fun v => nEq v mn) xI) 0
  let crest ← getE xI iMax
  let trough ← getE xI iMin
  let tc ← getE tI iMax
  let tt ← getE tI iMin
  return { hWave := nSub crest trough, tWave := nSub tEnd tIni, aCrest := crest, aTrough := trough,
           tCrest := tc, tTrough := tt }

/-- core_time.py:392-540 `determine_params_individual_waves`. -/
def determineParamsIndividualWavesN (tCrossIn tIn xIn : PyIn (Option K)) : Except PyErr (IndWaves (Option K)) :=
  let tCross := toArr tCrossIn
  let t := toArr tIn
  let x := toArr xIn
  if tCross.size = 0 then .ok (IndWaves.ofRecs [])
  else if !isOneD tCross then .error (.valueError "determine_params_individual_waves: tCross is not 1D")
  else if !isOneD t then .error (.valueError "determine_params_individual_waves: t is not 1D")
  else if !isOneD x then .error (.valueError "determine_params_individual_waves: x is not 1D")
  else if t.len ≠ x.len then .error (.valueError "determine_params_individual_waves: different length")
  else do
    let recs ← (List.range (tCross.len - 1)).mapM (oneWaveN tCross.data t.data x.data)
    return IndWaves.ofRecs recs

/-- Attributes of a `Series` object. -/
structure SeriesN (K : Type) where
  time : Arr (Option K)
  xTime : Arr (Option K)
  nt : Nat
  dt : Option K
  tCross : List (Option K)
  wh : WHN K
  deriving DecidableEq, Repr

/-- series.py:525-596 `_determine_individual_waves` with `fcutoff = 0` (`self.xTime - 0`). -/
def determineIndividualWavesN (s : SeriesN K) (typeCross : String) (minWave : K) :
    Except PyErr (IndWaves (Option K) × List (Option K) × SeriesN K) := do
  let (_, tCross) ← determineZeroCrossingN (.nd s.time) (.nd s.xTime) typeCross
  let w ← determineParamsIndividualWavesN (vec tCross) (.nd s.time) (.nd s.xTime)
  let rm := whereIdx (fun v => nLt v (some minWave)) w.hWave
  let w' : IndWaves (Option K) :=
    { hWave := npDelete w.hWave rm, tWave := npDelete w.tWave rm, aCrest := npDelete w.aCrest rm,
      aTrough := npDelete w.aTrough rm, tCrest := npDelete w.tCrest rm, tTrough := npDelete w.tTrough rm }
  let wh ← WHN.init (vec w'.hWave) (vec w'.tWave)
  return (w', tCross, { s with tCross := npDelete tCross rm, wh := wh })

/-- The assertion of series.py:322-324 for the steps `d` of the time axis: the time step if it holds. -/
def timeCheckN (d : List (Option K)) : Option K :=
  match allFinite d with
  | none => none
  | some v => if v ≠ [] ∧ variance v < mean (v.map (· / 100)) then some (mean v) else none

/-- series.py:317-340 `Series.__init__`, for 1D (or single-column) time axes. -/
def SeriesN.init (time xTime : PyIn (Option K)) : Except PyErr (SeriesN K) := do
  let (t, tSize) := toVector time
  let (x, xSize) := toVector xTime
  if tSize.1 ≠ xSize.1 then .error (.assertionError "Input error: array sizes differ in dimension")
  else if t.shape.length ≠ 1 then .error .unmodelled
  else
    match timeCheckN (nDiff t.data) with
    | none => .error (.assertionError "Input error: time step is not equidistant")
    | some dt =>
      let s0 : SeriesN K :=
        { time := t, xTime := x, nt := t.len, dt := some dt, tCross := [], wh := ⟨arr1 [], 0, arr1 []⟩ }
      let (w, _, s1) ← determineIndividualWavesN s0 "down" 0
      let wh ← WHN.init (vec w.hWave) (vec w.tWave)
      return { s1 with wh := wh }

/-- core_engine.py:56-73 `monotonic_increasing_constant_step`. -/
def monotonicN (x : List (Option K)) : Except PyErr Bool :=
  match nDiff x with
  | [] => .error .indexError
  | d0 :: ds =>
    let isUniform := (d0 :: ds).all fun d => nLt (nSub d d0) (some stepTol)
    let xMonotonic := (d0 :: ds).all fun d => nLt (some 0) d
    .ok (xMonotonic && isUniform)

end Verif
