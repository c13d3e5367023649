import Verif.Model.Float64
import Verif.Model.SeriesReal

/-! # Averages in double precision

`np.mean` and `np.sum` add rounded partial sums in an order that numpy does not document (pairwise, unrolled, vectorised).  The order is a
parameter of the model: any binary tree of rounded additions whose leaves are the elements of the array (and any number of zeros, the
initial values of accumulators). -/

namespace Verif

/-- An order of addition. -/
inductive SumTree where
  | leaf (x : ℚ)
  | add (l r : SumTree)

/-- The numbers that are added. -/
def SumTree.leaves : SumTree → List ℚ
  | .leaf x => [x]
  | .add l r => l.leaves ++ r.leaves

/-- The double precision result: each addition is rounded. -/
def SumTree.eval : SumTree → ℚ
  | .leaf x => x
  | .add l r => f64 (l.eval + r.eval)

/-- `np.sum` of an array of doubles: for each array some order of addition. -/
structure NpSum where
  sum : List ℚ → ℚ
  spec : ∀ xs, ∃ T : SumTree, ∃ k, T.leaves.Perm (xs ++ List.replicate k 0) ∧ T.eval = sum xs

/-- `np.mean` of a non-empty array of doubles. -/
def meanD (R : NpSum) (l : List ℚ) : ℚ := f64 (R.sum l / (l.length : ℚ))

/-- `np.sqrt` of a non-negative double: relative error at most `2 ^ -53` (IEEE 754 requires the nearest double). -/
structure NpSqrt where
  sqrt : ℚ → ℚ
  spec : ∀ v, 0 ≤ v → ∃ δ : ℝ, |δ| ≤ 1 / 2 ^ 53 ∧ (sqrt v : ℝ) = Real.sqrt v * (1 + δ)

/-- core_time.py:209-312 `highest_waves_params` in double precision: count of waves and means. -/
def highestWavesParamsD (R : NpSum) (hWaveSorted tWaveSorted : PyIn ℚ) (fracP : ℚ) : Except PyErr (ℚ × ℚ) :=
  let h := toArr hWaveSorted
  let t := toArr tWaveSorted
  if !isOneD h then .error (.valueError "highest_waves_params: hWaveSorted is not 1D")
  else if !isOneD t then .error (.valueError "highest_waves_params: tWaveSorted is not 1D")
  else if t.len ≠ h.len then .error (.valueError "highest_waves_params: different length")
  else if fracP < 0 ∨ 1 < fracP then .error (.valueError "highest_waves_params: fracP")
  else if h.len < 1 then .ok (0, 0)
  else if !isSortedDesc h.data then .error (.valueError "highest_waves_params: not sorted")
  else
    let nWaveP := nWavePF64 h.len fracP
    if 0 < nWaveP then
      .ok (meanD R (pySlice h.data 0 nWaveP.toNat), meanD R (pySlice t.data 0 nWaveP.toNat))
    else .ok (0, 0)

/-- series.py:120-145 `highest_waves` in double precision. -/
def WH.highestWavesD (R : NpSum) (A : Argsort ℚ) (fracP : ℚ) (s : WH ℚ) : Except PyErr (ℚ × ℚ) × WH ℚ :=
  match s.sort A with
  | (.ok (), s') => (highestWavesParamsD R (.nd s'.hwave) (.nd s'.twave) fracP, s')
  | (.error e, s') => (.error e, s')

/-- series.py:76-87 `get_Hs` in double precision. -/
def WH.getHsD (R : NpSum) (A : Argsort ℚ) (s : WH ℚ) : Except PyErr (ℚ × ℚ) × WH ℚ := s.highestWavesD R A (f64 (1 / 3))

/-- series.py:54-63 `get_Hrms` in double precision: `np.sqrt(np.mean(self.hwave**2))`. -/
def WH.getHrmsD (R : NpSum) (Q : NpSqrt) (s : WH ℚ) : Except PyErr ℚ :=
  if s.hwave.data = [] then .error .nonFinite
  else .ok (Q.sqrt (meanD R (s.hwave.data.map fun v => f64 (v ^ 2))))

/-- core_time.py:392-540 `determine_params_individual_waves` in double precision: heights and periods are rounded differences; everything else
consists of comparisons and selections, which are exact. -/
def determineParamsIndividualWavesF64 (tCrossIn tIn xIn : PyIn ℚ) : Except PyErr (IndWaves ℚ) :=
  (determineParamsIndividualWaves tCrossIn tIn xIn).map fun w => { w with hWave := w.hWave.map f64, tWave := w.tWave.map f64 }

/-- series.py:575-596 in double precision: the crossings and the parameters of the waves between them (no low-frequency cut-off, no minimum
wave height). -/
def wavesF64 (t x : PyIn ℚ) (typeCross : String) : Except PyErr (List ℚ × IndWaves ℚ) := do
  let (_, tCross) ← determineZeroCrossingF64 t x typeCross
  let w ← determineParamsIndividualWavesF64 (vec tCross) t x
  return (tCross, w)

end Verif
