import Verif.Model.Engine

/-! # Model of deltares_wave_toolbox/cores/core_time.py -/

namespace Verif

variable {K : Type} [Field K] [LinearOrder K]

/-- core_time.py:9-94 `sort_wave_params`.  `A` is the (arbitrary) `np.argsort`.
Empty results have shape `(0,0)` in Python and are `[]` here. -/
def sortWaveParams (A : Argsort K) (hWave tWave : PyIn K) : Except PyErr (List K × List K) :=
  let h := toArr hWave
  let t := toArr tWave
  if !isOneD h then .error (.valueError "sort_wave_params: hWave is not 1D")
  else if !isOneD t then .error (.valueError "sort_wave_params: tWave is not 1D")
  else if h.len ≠ t.len then .error (.valueError "sort_wave_params: different length")
  else if h.len < 1 then .ok ([], [])
  else
    let iSorted := (A.run h.data).reverse
    .ok (iSorted.map fun i => h.data.getD i 0, iSorted.map fun i => t.data.getD i 0)

/-- Body of the loops at core_time.py:171-181 and 185-195; the state is `(nWave, tCross)`. -/
def crossStep (cond : K → K → Bool) (dt : K) (t x : List K) (st : Int × List K) (i : Nat) : Int × List K :=
  let xi := x.getD i 0
  let xj := x.getD (i + 1) 0
  if cond xi xj then (st.1 + 1, st.2 ++ [t.getD i 0 + dt * xi / (xi - xj)]) else st

/-- core_time.py:172: condition for an up-crossing. -/
def upCond (a b : K) : Bool := decide (a ≤ 0) && decide (0 < b)

/-- core_time.py:186: condition for a down-crossing. -/
def downCond (a b : K) : Bool := decide (0 ≤ a) && decide (b < 0)

/-- core_time.py:163-206: the loop over the time levels and the final correction of `nWave`. -/
def crossLoop (cond : K → K → Bool) (t x : List K) : Int × List K :=
  let dt := t.getD 1 0 - t.getD 0 0
  let r := (List.range (t.length - 1)).foldl (crossStep cond dt t x) (-1, [])
  (if r.1 = -1 then 0 else r.1, r.2)

/-- core_time.py:97-206 `determine_zero_crossing`.  `t[1]` (line 165) raises `IndexError` for a single sample,
before `typeCross` is looked at. -/
def determineZeroCrossing (tIn xIn : PyIn K) (typeCross : String := "down") :
    Except PyErr (Int × List K) :=
  let t := toArr tIn
  let x := toArr xIn
  if !isOneD t then .error (.valueError "determine_zero_crossing: t is not 1D")
  else if !isOneD x then .error (.valueError "determine_zero_crossing: x is not 1D")
  else if t.len ≠ x.len then .error (.valueError "determine_zero_crossing: different length")
  else if t.len < 2 then .error .indexError
  else if typeCross.toLower = "up" then .ok (crossLoop upCond t.data x.data)
  else if typeCross.toLower = "down" then .ok (crossLoop downCond t.data x.data)
  else .error (.valueError "determine_zero_crossing: wrong typeCross")

/-- core_time.py:299 and 375: `(h == np.sort(h)[::-1]).all()`. -/
def isSortedDesc (h : List K) : Bool :=
  decide (h = (h.insertionSort (· ≤ ·)).reverse)

/-- core_time.py:209-312 `highest_waves_params`. -/
def highestWavesParams [FloorRing K] (hWaveSorted tWaveSorted : PyIn K) (fracP : K) :
    Except PyErr (K × K) :=
  let h := toArr hWaveSorted
  let t := toArr tWaveSorted
  if !isOneD h then .error (.valueError "highest_waves_params: hWaveSorted is not 1D")
  else if !isOneD t then .error (.valueError "highest_waves_params: tWaveSorted is not 1D")
  else if t.len ≠ h.len then .error (.valueError "highest_waves_params: different length")
  else if fracP < 0 ∨ 1 < fracP then .error (.valueError "highest_waves_params: fracP")
  else if h.len < 1 then .ok (0, 0)
  else if !isSortedDesc h.data then .error (.valueError "highest_waves_params: not sorted")
  else
    let nWaveP := ⌊(h.len : K) * fracP⌋
    if 0 < nWaveP then
      .ok (mean (pySlice h.data 0 nWaveP.toNat), mean (pySlice t.data 0 nWaveP.toNat))
    else .ok (0, 0)

/-- core_time.py:315-389 `exceedance_wave_height`. -/
def exceedanceWaveHeight [FloorRing K] (hWaveSorted : PyIn K) (excPerc : K) : Except PyErr K :=
  let h := toArr hWaveSorted
  if !isOneD h then .error (.valueError "exceedance_wave_height: hWaveSorted is not 1D")
  else if 100 < excPerc ∨ excPerc < 0 then .error (.valueError "exceedance_wave_height: excPerc")
  else if h.len < 1 then .ok 0
  else if !isSortedDesc h.data then .error (.valueError "exceedance_wave_height: not sorted")
  else
    let iWaveP := ⌊(h.len : K) * excPerc / 100⌋ - 1
    if ¬ (iWaveP < 0) then getE h.data iWaveP.toNat else .ok 0

/-- One row of the result of `determine_params_individual_waves`. -/
structure WaveRec (K : Type) where
  hWave : K
  tWave : K
  aCrest : K
  aTrough : K
  tCrest : K
  tTrough : K
  deriving DecidableEq, Repr

/-- The six arrays returned by `determine_params_individual_waves`. -/
structure IndWaves (K : Type) where
  hWave : List K
  tWave : List K
  aCrest : List K
  aTrough : List K
  tCrest : List K
  tTrough : List K
  deriving DecidableEq, Repr

/-- The six arrays column by column (the loop at core_time.py:514-538 fills entry `iWave` of each). -/
def IndWaves.ofRecs (l : List (WaveRec K)) : IndWaves K :=
  { hWave := l.map (·.hWave), tWave := l.map (·.tWave), aCrest := l.map (·.aCrest),
    aTrough := l.map (·.aTrough), tCrest := l.map (·.tCrest), tTrough := l.map (·.tTrough) }

/-- core_time.py:517-538: body of the loop over the waves. -/
def oneWave (tCross t x : List K) (iWave : Nat) : Except PyErr (WaveRec K) := do
  let tIni ← getE tCross iWave
  let tEnd ← getE tCross (iWave + 1)
  let iIni ← getE (whereIdx (fun v => decide (tIni ≤ v)) t) 0
  let iEnd ← lastE (whereIdx (fun v => decide (v ≤ tEnd)) t)
  let tI := pySlice t iIni (iEnd + 1)
  let xI := pySlice x iIni (iEnd + 1)
  let mx ← pyMax xI
  let iMax ← getE (whereIdx (fun v => decide (v = mx)) xI) 0
  let mn ← pyMin xI
  let iMin ← getE (whereIdx (fun v => decide (v = mn)) xI) 0
  let crest ← getE xI iMax
  let trough ← getE xI iMin
  let tc ← getE tI iMax
  let tt ← getE tI iMin
  return { hWave := crest - trough, tWave := tEnd - tIni, aCrest := crest, aTrough := trough,
           tCrest := tc, tTrough := tt }

/-- core_time.py:392-540 `determine_params_individual_waves`. -/
def determineParamsIndividualWaves (tCrossIn tIn xIn : PyIn K) : Except PyErr (IndWaves K) :=
  let tCross := toArr tCrossIn
  let t := toArr tIn
  let x := toArr xIn
  if tCross.size = 0 then .ok (IndWaves.ofRecs [])
  else if !isOneD tCross then .error (.valueError "determine_params_individual_waves: tCross is not 1D")
  else if !isOneD t then .error (.valueError "determine_params_individual_waves: t is not 1D")
  else if !isOneD x then .error (.valueError "determine_params_individual_waves: x is not 1D")
  else if t.len ≠ x.len then .error (.valueError "determine_params_individual_waves: different length")
  else do
    let recs ← (List.range (tCross.len - 1)).mapM (oneWave tCross.data t.data x.data)
    return IndWaves.ofRecs recs

end Verif
