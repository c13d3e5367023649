import Verif.Model.Series
import Mathlib.Analysis.SpecialFunctions.Log.Basic
import Mathlib.Analysis.SpecialFunctions.Sqrt

/-! # The methods of `WaveHeights` that need square roots and logarithms (series.py) -/

namespace Verif

/-- series.py:54-63 `get_Hrms`; NaN (here `nonFinite`) for an empty array. -/
noncomputable def WH.getHrms (s : WH ℝ) : Except PyErr ℝ :=
  if s.hwave.data = [] then .error .nonFinite else .ok (Real.sqrt (mean (s.hwave.data.map (· ^ 2))))

/-- `scipy.stats.rayleigh.ppf(q, scale=scale)`. -/
noncomputable def rayleighPpf (q scale : ℝ) : ℝ := scale * Real.sqrt (-2 * Real.log (1 - q))

/-- series.py:89-98 `get_H2p_Rayleigh`. -/
noncomputable def WH.getH2pRayleigh (A : Argsort ℝ) (s : WH ℝ) : Except PyErr ℝ × WH ℝ :=
  match s.getHs A with
  | (.ok r, s') => (.ok (r.1 * rayleighPpf (98 / 100) (1 / Real.sqrt 2) / Real.sqrt 2), s')
  | (.error e, s') => (.error e, s')

end Verif
