import Verif.Model.Series
import Mathlib.Data.Int.Log
import Mathlib.Data.Rat.Floor

/-! # IEEE-754 double precision where the code counts

The rest of the model is exact.  The number of waves or bins the code takes is the integer part of a *rounded* product or quotient, so a
rounding error there changes the result by a whole wave.  This file models those expressions in double precision; values are rationals
(every finite double is one).  Overflow does not occur in the range of the theorems; underflow to subnormals is included. -/

namespace Verif

/-- Round to nearest, ties to even, in binary64: the multiple of the unit in the last place `2 ^ max (E - 52) (-1074)` nearest to `x`, where
`2 ^ E ≤ |x| < 2 ^ (E + 1)`.  (Simplification: no overflow.) -/
def f64 (x : ℚ) : ℚ :=
  if x = 0 then 0
  else
    let q : ℚ := 2 ^ (max (Int.log 2 |x| - 52) (-1074))
    (roundHalfEven (x / q) : ℚ) * q

/-- core_time.py:307 `nWaveP = int(np.floor(nWave * fracP))` for a double `fracP`. -/
def nWavePF64 (nWave : Nat) (fracP : ℚ) : Int := ⌊f64 ((nWave : ℚ) * fracP)⌋

/-- core_time.py:383 `int(np.floor(nWave * excPerc / 100.0))`: two rounded operations. -/
def iWavePF64 (nWave : Nat) (excPerc : ℚ) : Int := ⌊f64 (f64 ((nWave : ℚ) * excPerc) / 100)⌋

/-- core_spectral.py:78 `nCoarse = math.floor(nFine / nFactor)`; `nFactor` is integer-valued. -/
def nCoarseF64 (nFine nFactor : Nat) : Int := ⌊f64 ((nFine : ℚ) / (nFactor : ℚ))⌋

/-- core_time.py:209-312 `highest_waves_params` with the count of waves in double precision.  (Simplification: the means stay exact.) -/
def highestWavesParamsF64 (hWaveSorted tWaveSorted : PyIn ℚ) (fracP : ℚ) : Except PyErr (ℚ × ℚ) :=
  let h := toArr hWaveSorted
  let t := toArr tWaveSorted
  if !isOneD h then .error (.valueError "highest_waves_params: hWaveSorted is not 1D")
  else if !isOneD t then .error (.valueError "highest_waves_params: tWaveSorted is not 1D")
  else if t.len ≠ h.len then .error (.valueError "highest_waves_params: different length")
  else if fracP < 0 ∨ 1 < fracP then .error (.valueError "highest_waves_params: fracP")
  else if h.len < 1 then .ok (0, 0)
  else if !isSortedDesc h.data then .error (.valueError "highest_waves_params: not sorted")
  else
    let nWaveP := nWavePF64 h.len fracP
    if 0 < nWaveP then
      .ok (mean (pySlice h.data 0 nWaveP.toNat), mean (pySlice t.data 0 nWaveP.toNat))
    else .ok (0, 0)

/-- core_time.py:315-389 `exceedance_wave_height` with the index in double precision. -/
def exceedanceWaveHeightF64 (hWaveSorted : PyIn ℚ) (excPerc : ℚ) : Except PyErr ℚ :=
  let h := toArr hWaveSorted
  if !isOneD h then .error (.valueError "exceedance_wave_height: hWaveSorted is not 1D")
  else if 100 < excPerc ∨ excPerc < 0 then .error (.valueError "exceedance_wave_height: excPerc")
  else if h.len < 1 then .ok 0
  else if !isSortedDesc h.data then .error (.valueError "exceedance_wave_height: not sorted")
  else
    let iWaveP := iWavePF64 h.len excPerc - 1
    if ¬ (iWaveP < 0) then getE h.data iWaveP.toNat else .ok 0

/-- series.py:120-145 `highest_waves`, count in double precision. -/
def WH.highestWavesF64 (A : Argsort ℚ) (fracP : ℚ) (s : WH ℚ) : Except PyErr (ℚ × ℚ) × WH ℚ :=
  match s.sort A with
  | (.ok (), s') => (highestWavesParamsF64 (.nd s'.hwave) (.nd s'.twave) fracP, s')
  | (.error e, s') => (.error e, s')

/-- series.py:76-87 `get_Hs`: the argument `1 / 3` is itself a rounded quotient. -/
def WH.getHsF64 (A : Argsort ℚ) (s : WH ℚ) : Except PyErr (ℚ × ℚ) × WH ℚ := s.highestWavesF64 A (f64 (1 / 3))

/-- series.py:100-118 `get_exceedance_waveheight`, index in double precision. -/
def WH.getExceedanceF64 (A : Argsort ℚ) (excPerc : ℚ) (s : WH ℚ) : Except PyErr ℚ × WH ℚ :=
  match s.sort A with
  | (.ok (), s') => (exceedanceWaveHeightF64 (.nd s'.hwave) excPerc, s')
  | (.error e, s') => (.error e, s')

/-- core_engine.py:56-73 `monotonic_increasing_constant_step` in double precision: the differences and `xDiff - xDiff[0]` are rounded;
`1000000 * eps` is a double. -/
def monotonicF64 (x : List ℚ) : Except PyErr Bool :=
  match (diff x).map f64 with
  | [] => .error .indexError
  | d0 :: ds =>
    let isUniform := (d0 :: ds).all fun d => decide (f64 (d - d0) < stepTol)
    let xMonotonic := (d0 :: ds).all fun d => decide (0 < d)
    .ok (xMonotonic && isUniform)

/-- Body of the loops at core_time.py:171-181 and 185-195 in double precision: `t + dt * xi / (xi - xj)` is four rounded operations; the
comparisons are exact. -/
def crossStepF64 (cond : ℚ → ℚ → Bool) (dt : ℚ) (t x : List ℚ) (st : Int × List ℚ) (i : Nat) : Int × List ℚ :=
  let xi := x.getD i 0
  let xj := x.getD (i + 1) 0
  if cond xi xj then (st.1 + 1, st.2 ++ [f64 (t.getD i 0 + f64 (f64 (dt * xi) / f64 (xi - xj)))]) else st

/-- core_time.py:163-206 in double precision; `dt = t[1] - t[0]` is rounded. -/
def crossLoopF64 (cond : ℚ → ℚ → Bool) (t x : List ℚ) : Int × List ℚ :=
  let dt := f64 (t.getD 1 0 - t.getD 0 0)
  let r := (List.range (t.length - 1)).foldl (crossStepF64 cond dt t x) (-1, [])
  (if r.1 = -1 then 0 else r.1, r.2)

/-- core_time.py:97-206 `determine_zero_crossing` in double precision. -/
def determineZeroCrossingF64 (tIn xIn : PyIn ℚ) (typeCross : String := "down") : Except PyErr (Int × List ℚ) :=
  let t := toArr tIn
  let x := toArr xIn
  if !isOneD t then .error (.valueError "determine_zero_crossing: t is not 1D")
  else if !isOneD x then .error (.valueError "determine_zero_crossing: x is not 1D")
  else if t.len ≠ x.len then .error (.valueError "determine_zero_crossing: different length")
  else if t.len < 2 then .error .indexError
  else if typeCross.toLower = "up" then .ok (crossLoopF64 upCond t.data x.data)
  else if typeCross.toLower = "down" then .ok (crossLoopF64 downCond t.data x.data)
  else .error (.valueError "determine_zero_crossing: wrong typeCross")

end Verif
