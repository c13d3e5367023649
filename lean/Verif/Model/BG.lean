import Verif.Np
import Mathlib.Analysis.SpecialFunctions.Gamma.Basic
import Mathlib.Analysis.SpecialFunctions.Pow.Real

/-! # Model of compute_BattjesGroenendijk_wave_height_distribution (core_wavefunctions.py:727-841) -/

namespace Verif

/-- `scipy.special.gammainc(a, x)`: the regularised lower incomplete gamma function. -/
noncomputable def gammainc (a x : ℝ) : ℝ := (∫ t in (0 : ℝ)..x, t ^ (a - 1) * Real.exp (-t)) / Real.Gamma a

/-- `scipy.stats.exponweib.ppf(1 - 1/n, 1, 2, scale=s)`: the quantile of the Rayleigh distribution. -/
noncomputable def exponweibPpf (n : ℕ) (s : ℝ) : ℝ := s * Real.sqrt (-Real.log (1 / n))

/-- core_wavefunctions.py:801: the shape parameter `k1`. -/
noncomputable def bgK1 : ℝ := 2

/-- core_wavefunctions.py:802: the shape parameter `k2`. -/
noncomputable def bgK2 : ℝ := 36 / 10

/-- core_wavefunctions.py:799: the step `delta_H`. -/
noncomputable def bgDelta : ℝ := 1 / 100

/-- core_wavefunctions.py:805-807: `H_2_norm`. -/
noncomputable def bgH2 (Htr H1 : ℝ) : ℝ := Htr / (Htr / H1) ^ (bgK1 / bgK2)

/-- core_wavefunctions.py:808-815: `EST`. -/
noncomputable def bgEst (Htr H1 H2 : ℝ) : ℝ :=
  let A1 := 2 / bgK1 + 1
  let X := (Htr / H1) ^ bgK1
  let A2 := 2 / bgK2 + 1
  H1 ^ 2 * gammainc A1 X * Real.Gamma A1 + H2 ^ 2 * (Real.Gamma A2 - Real.Gamma A2 * gammainc A2 X)

/-- core_wavefunctions.py:804-816: the `while` loop from its body with the current `H_1_norm`; returns the final
`(H_1_norm, H_2_norm, EST)`.  The loop may run for ever in Python; `none` is "still running after `fuel` rounds".  A
non-positive `H_1_norm` (a fractional power of a non-positive number in Python) is outside the model. -/
noncomputable def bgLoop (tol Htr : ℝ) : Nat → ℝ → Option (Except PyErr (ℝ × ℝ × ℝ))
  | 0, _ => none
  | fuel + 1, H1 =>
    if H1 ≤ 0 then some (.error .unmodelled)
    else
      let H2 := bgH2 Htr H1
      let est := bgEst Htr H1 H2
      let H1' := H1 - bgDelta * (est - 1)
      if tol < |est - 1| then bgLoop tol Htr fuel H1' else some (.ok (H1', H2, est))

/-- What the function returns: wave heights and exceedance probabilities (two arrays of equal length). -/
structure BGResult where
  heights : List ℝ
  probs : List ℝ

/-- core_wavefunctions.py:780-781: `gamma_transition * water_depth`. -/
noncomputable def bgTransition (depth cota : ℝ) : ℝ := (35 / 100 + 58 / 10 * (1 / cota)) * depth

/-- core_wavefunctions.py:782-783: `H_rms` (`np.sqrt(np.power(hm0 / 4, 2))` twice). -/
noncomputable def bgHrms (hm0 depth : ℝ) : ℝ :=
  let m0 := (hm0 / 4) ^ 2
  Real.sqrt m0 * (269 / 100 + 324 / 100 * Real.sqrt m0 / depth)

/-- core_wavefunctions.py:818-841, after the loop. -/
noncomputable def bgFinish (hm0 : ℝ) (nwave : ℕ) (Htransition Hrms HtrNorm : ℝ) (r : ℝ × ℝ × ℝ) : BGResult :=
  let (H1', H2n, est) := r
  let H1n := H1' + bgDelta * (est - 1)
  let x1 := H1n * (Real.log nwave) ^ (1 / bgK1)
  let x2 := H2n * (Real.log nwave) ^ (1 / bgK2)
  let x := if x1 < HtrNorm then x1 else x2
  let x := x * Hrms
  let x := min x (exponweibPpf nwave (Real.sqrt 8) / 4 * hm0)
  let H1 := H1n * Hrms
  let H2 := H2n * Hrms
  let P := if hm0 < Htransition then Real.exp (-(Htransition / H1) ^ bgK1) else Real.exp (-(Htransition / H2) ^ bgK2)
  ⟨[0, Htransition, x], [1, P, 1 / nwave]⟩

/-- core_wavefunctions.py:785, 787: whether `H_transition / H_rms > 2.75`; numpy's quotient by a zero `H_rms` (that is, `hm0 = 0`, or a negative depth that
cancels the bracket) is infinite with the sign of `H_transition`, or NaN. -/
noncomputable def bgRayleigh (hm0 depth cota : ℝ) : Prop :=
  (bgHrms hm0 depth = 0 ∧ 0 < bgTransition depth cota) ∨ 275 / 100 < bgTransition depth cota / bgHrms hm0 depth

open Classical in
/-- core_wavefunctions.py:727-841 `compute_BattjesGroenendijk_wave_height_distribution`; `none` if the loop has not
stopped after `fuel` rounds.  Warnings: `Model/Describe.lean`.  Zero slope cotangent raises.  With a
tolerance of at least 9 the loop body never runs and `H_2_norm` is unbound.  A normalised transition height that is zero, negative or NaN (the
quotient below is then at most zero; depth zero gives `0 / inf` or NaN) makes `H_2_norm`, `EST` and all later numbers NaN (`nonFinite`).  Line 827
divides by the number of waves (a Python integer). -/
noncomputable def battjesGroenendijk (hm0 : ℝ) (nwave : ℕ) (depth : ℝ) (cota : ℝ := 250) (tol : ℝ := 1 / 10 ^ 5) (fuel : Nat) :
    Option (Except PyErr BGResult) :=
  if cota = 0 then some (.error .zeroDivisionError)
  else if bgRayleigh hm0 depth cota then some (.ok ⟨[], []⟩)
  else
    let Htransition := bgTransition depth cota
    let Hrms := bgHrms hm0 depth
    let HtrNorm := Htransition / Hrms
    if tol < |(10 : ℝ) - 1| then
      if HtrNorm ≤ 0 then some (.error (if nwave = 0 then .zeroDivisionError else .nonFinite))
      else
        match bgLoop tol HtrNorm fuel 100 with
        | none => none
        | some (.error e) => some (.error e)
        | some (.ok r) =>
          if nwave = 0 then some (.error .zeroDivisionError) else some (.ok (bgFinish hm0 nwave Htransition Hrms HtrNorm r))
    else some (.error (.unboundLocalError "H_2_norm"))

end Verif
