import Verif.Np
import Mathlib.Analysis.SpecialFunctions.Complex.Circle
import Mathlib.Analysis.SpecialFunctions.Trigonometric.Basic
import Mathlib.Algebra.BigOperators.Intervals

/-! # numpy.fft: the assumed behaviour of `np.fft.fft` and `np.fft.ifft` (the defining sums, exact arithmetic) -/

namespace Verif
open Finset Complex

/-- The root of unity `exp(2 pi i m / n)`. -/
noncomputable def twiddle (n : ℕ) (m : ℤ) : ℂ := Complex.exp (2 * Real.pi * Complex.I * m / n)

/-- Forward sum `sum_j x_j exp(-2 pi i j k/n)`. -/
noncomputable def fwd (n : ℕ) (x : ℕ → ℂ) (k : ℕ) : ℂ := ∑ j ∈ range n, x j * twiddle n (-((j : ℤ) * k))

/-- Inverse sum `1/n sum_k X_k exp(2 pi i j k/n)`. -/
noncomputable def inv (n : ℕ) (X : ℕ → ℂ) (j : ℕ) : ℂ := (∑ k ∈ range n, X k * twiddle n ((j : ℤ) * k)) / n

/-- `np.fft.fft(x)` of a non-empty 1D array. -/
noncomputable def npFft (x : List ℂ) : List ℂ := (List.range x.length).map (fwd x.length fun j => x.getD j 0)

/-- `np.fft.ifft(X, len(X))` of a non-empty 1D array. -/
noncomputable def npIfft (X : List ℂ) : List ℂ := (List.range X.length).map (inv X.length fun k => X.getD k 0)

end Verif
