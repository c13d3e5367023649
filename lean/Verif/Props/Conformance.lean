import Verif.Props.Sort
import Verif.Props.Tps
import Verif.Props.Waves
import Verif.Model.FloatStat
import Verif.Props.Unfold
import Mathlib.Tactic.NormNum

/-! # The project's own unit tests, run on the model

These are checks of the model, not proofs of properties: the inputs and expected values of `/repo/tests` evaluated by the kernel on the
exact model (and, where the tests compare to four decimals, on the double-precision model as well).  They support the claim that
the model is a model of this code. -/

namespace Verif

/-- `|a - b| ≤ 1e-4` element by element, as `pytest.approx(..., abs=1e-4)`. -/
def approxL (a b : List ℚ) : Bool := a.length == b.length && (List.zipWith (fun x y => decide (|x - y| ≤ 1 / 10 ^ 4)) a b).all id

/-- A successful result that passes a check. -/
def okAnd {α : Type} (r : Except PyErr α) (p : α → Bool) : Bool := match r with
  | .ok a => p a
  | .error _ => false

/-- tests/core_time_test.py:6-25 `test_sort_wave_params` -/
example : sortWaveParams (K := ℚ) stableArgsort (.list [2, 4, 3]) (.list [6, 7, 8]) = .ok ([4, 3, 2], [7, 8, 6]) ∧
    sortWaveParams (K := ℚ) stableArgsort (.list [3.1, 2.2, 1.4, 5.8, 7.1, 4.4, 6.0]) (.list [2.0, 3.0, 1.1, 3.7, 5.1, 0.0, 3.2]) =
      .ok ([7.1, 6.0, 5.8, 4.4, 3.1, 2.2, 1.4], [5.1, 3.2, 3.7, 0.0, 2.0, 3.0, 1.1]) := by
  constructor <;> decide +kernel

/-- The time axis of the 'nasty' signal in tests/core_time_test.py. -/
abbrev testT : List ℚ := [0, 0.1, 0.2, 0.3, 0.4, 0.5, 0.6, 0.7, 0.8, 0.9, 1.0, 1.1, 1.2, 1.3, 1.4, 1.5]
/-- The 'nasty' signal of tests/core_time_test.py:47-64. -/
abbrev testX : List ℚ := [1.0, 0.0, -0.2, 0.3, -0.1, 0.0, 0.0, 0.0, -0.2, 0.0, 0.0, 0.0, 0.5, -0.2, 0.3, 0.0]
/-- The signal of tests/core_time_test.py:230-247. -/
abbrev testX2 : List ℚ := [1.0, 0.0, -0.2, 0.3, -0.2, 0.0, 0.0, 0.0, -0.2, 0.0, 0.0, 0.0, 0.5, -0.2, 0.3, 0.0]

/-- tests/core_time_test.py:28-160 `test_determine_zero_crossings`, first signal -/
example : okAnd (determineZeroCrossing (.list testT) (.list testX) "down") (fun r => r.1 == 3 && approxL r.2 [0.1, 0.375, 0.7, 1.2714]) = true ∧
    okAnd (determineZeroCrossing (.list testT) (.list testX) "up") (fun r => r.1 == 2 && approxL r.2 [0.24, 1.1, 1.34]) = true := by
  constructor <;> decide +kernel

/-- The same in double precision (the inputs are the doubles nearest to the decimals). -/
example : okAnd (determineZeroCrossingF64 (.list (testT.map f64)) (.list (testX.map f64)) "down")
      (fun r => r.1 == 3 && approxL r.2 [0.1, 0.375, 0.7, 1.2714]) = true ∧
    okAnd (determineZeroCrossingF64 (.list (testT.map f64)) (.list (testX.map f64)) "up") (fun r => r.1 == 2 && approxL r.2 [0.24, 1.1, 1.34]) = true := by
  constructor <;> decide +kernel

/-- Second and third signal. -/
example : determineZeroCrossing (.list testT) (.list (List.replicate 16 0)) "down" = .ok (0, []) ∧
    determineZeroCrossing (.list testT) (.list (List.replicate 16 0)) "up" = .ok (0, []) ∧
    determineZeroCrossing (K := ℚ) (.list [0.0, 0.1, 0.2, 0.3, 0.4, 0.5]) (.list [-1.0, -0.5, -0.1, 0.1, 0.3, 0.6]) "down" = .ok (0, []) ∧
    determineZeroCrossing (K := ℚ) (.list [0.0, 0.1, 0.2, 0.3, 0.4, 0.5]) (.list [-1.0, -0.5, -0.1, 0.1, 0.3, 0.6]) "up" = .ok (0, [0.25]) := by
  refine ⟨?_, ?_, ?_, ?_⟩ <;> decide +kernel

/-- tests/core_time_test.py:163-191 `test_highest_waves_params` -/
example : highestWavesParams (K := ℚ) (.list [7.1, 6.0, 5.8, 4.4, 3.1, 2.2, 1.4]) (.list [5.1, 3.2, 3.7, 0.0, 2.0, 3.0, 1.1]) (1 / 3) = .ok (6.55, 4.15) ∧
    highestWavesParams (K := ℚ) (.list [7.1, 6.0, 5.8, 4.4, 3.1, 2.2, 1.4]) (.list [5.1, 3.2, 3.7, 0.0, 2.0, 3.0, 1.1]) (1 / 8) = .ok (0, 0) := by
  constructor <;> decide +kernel

/-- tests/core_time_test.py:194-205 `test_exceedance_wave_height` -/
example : exceedanceWaveHeight (K := ℚ) (.list [7.1, 6.0, 5.8, 4.4, 3.1, 2.2, 1.4]) 33 = .ok 6 ∧
    exceedanceWaveHeight (K := ℚ) (.list [7.1, 6.0, 5.8, 4.4, 3.1, 2.2, 1.4]) 10 = .ok 0 := by
  constructor <;> decide +kernel

/-- tests/core_time_test.py:208-346 `test_determine_params_individual_waves`, upward crossings -/
example : determineParamsIndividualWaves (.list [0.24, 1.1, 1.34]) (.list testT) (.list testX2) =
    .ok ⟨[0.5, 0.7], [0.86, 0.24], [0.3, 0.5], [-0.2, -0.2], [0.3, 1.2], [0.4, 1.3]⟩ := by
  decide +kernel

/-- ... and downward crossings (with the four-decimal crossing times of the test). -/
example : determineParamsIndividualWaves (.list [0.1, 0.36, 0.7, 1.2714]) (.list testT) (.list testX2) =
    .ok ⟨[0.5, 0.2, 0.7], [0.26, 0.34, 0.5714], [0.3, 0, 0.5], [-0.2, -0.2, -0.2], [0.3, 0.5, 1.2], [0.2, 0.4, 0.8]⟩ := by
  decide +kernel

/-- ... and a single crossing. -/
example : determineParamsIndividualWaves (K := ℚ) (.list [0.25]) (.list [0.0, 0.1, 0.2, 0.3, 0.4, 0.5]) (.list [-1.0, -0.5, -0.1, 0.1, 0.3, 0.6]) =
    .ok ⟨[], [], [], [], [], []⟩ := by
  decide +kernel

/-- tests/core_wavefunctions_test.py:7-22 `test_compute_tps` -/
example : computeTps (K := ℚ) (.num 0.5) (.num 1) = .ok 2 ∧
    computeTps (K := ℚ) (.list [1, 2]) (.list [1, 1]) = .ok (1 / 1.5) ∧
    computeTps (K := ℚ) (.list [1, 2]) (.list [1, 2]) = .ok 0.5 ∧
    computeTps (K := ℚ) (.list [1, 2]) (.list [2, 1]) = .ok 1 ∧
    computeTps (K := ℚ) (.list [0.5, 0.55, 0.61]) (.list [1, 0.5, 0.7]) = .ok 2 ∧
    computeTps (K := ℚ) (.list [0.35, 0.45, 0.5]) (.list [0.7, 0.5, 1]) = .ok 2 ∧
    computeTps (K := ℚ) (.list [0.35, 0.4, 0.6]) (.list [2, 1, 2]) = .ok (1 / 0.35) ∧
    computeTps (K := ℚ) (.list [0.35, 0.45, 0.5]) (.list [1, 1, 1]) = .ok (1 / 0.45) := by
  refine ⟨?_, ?_, ?_, ?_, ?_, ?_, ?_, ?_⟩ <;> decide +kernel

/-- tests/core_spectral_test.py:7-76 `test_unfold_spectrum`, odd length (the fifth frequency, 1.62, is not on the grid: only the first two are
used).  The six Fourier coefficients are arbitrary here; in the test they are numbers. -/
example (a b c d e g : ℂ) :
    unfoldSpectrum (vec [0, 0.4, 0.8, 1.2, 1.62, 2.0]) (vec [a, b, c, d, e, g]) true =
      .ok ([0, 0.4, 0.8, 1.2, 1.6, 2.0, 2.4, 2.8, 3.2, 3.6, 4.0],
        [a, b, c, d, e, g, (starRingEnd ℂ) g, (starRingEnd ℂ) e, (starRingEnd ℂ) d, (starRingEnd ℂ) c, (starRingEnd ℂ) b]) := by
  have h : unfoldSpectrum (vec [0, 0.4, 0.8, 1.2, 1.62, 2.0]) (vec [a, b, c, d, e, g]) true = unfoldSpectrumL [0, 0.4, 0.8, 1.2, 1.62, 2.0] [a, b, c, d, e, g] true := rfl
  rw [h]
  simp [unfoldSpectrumL, List.range_succ]
  norm_num

/-- ... and even length. -/
example (a b c d e g : ℂ) :
    unfoldSpectrum (vec [0, 0.5, 1, 1.5, 2, 2.5]) (vec [a, b, c, d, e, g]) false =
      .ok ([0, 0.5, 1, 1.5, 2, 2.5, 3, 3.5, 4, 4.5],
        [a, b, c, d, e, (starRingEnd ℂ) g, (starRingEnd ℂ) e, (starRingEnd ℂ) d, (starRingEnd ℂ) c, (starRingEnd ℂ) b]) := by
  have h : unfoldSpectrum (vec [0, 0.5, 1, 1.5, 2, 2.5]) (vec [a, b, c, d, e, g]) false = unfoldSpectrumL [0, 0.5, 1, 1.5, 2, 2.5] [a, b, c, d, e, g] false := rfl
  rw [h]
  simp [unfoldSpectrumL, List.range_succ]
  norm_num

end Verif
