import Verif.Model.Decomp
import Verif.Props.Filter
import Verif.Props.Averaging
import Verif.Props.Dispersion

/-! # C52–C54, C65, C66: separation of incident and reflected waves -/

set_option linter.unusedSectionVars false

namespace Verif
open Finset Complex

/-! ## Fourier coefficients of a real part -/

theorem fwd_conj_arg {n : ℕ} (hn : 0 < n) (x : ℕ → ℂ) {k : ℕ} (hk : k < n) :
    fwd n (fun j => (starRingEnd ℂ) (x j)) k = (starRingEnd ℂ) (fwd n x ((n - k) % n)) := by
  unfold fwd
  rw [map_sum]
  refine sum_congr rfl fun j _ => ?_
  rw [map_mul, conj_twiddle]
  congr 1
  rcases Nat.eq_zero_or_pos k with rfl | h
  · simp
  · rw [Nat.mod_eq_of_lt (by omega), neg_neg, Nat.cast_sub hk.le]
    have e : (j : ℤ) * ((n : ℤ) - k) = -((j : ℤ) * k) + n * (j : ℤ) := by ring
    rw [e, twiddle_add, twiddle_mul_self hn, mul_one]

/-- The Fourier coefficients of the real part of an inverse transform. -/
theorem coef_re_inv {n : ℕ} (hn : 0 < n) (G : ℕ → ℂ) {k : ℕ} (hk : k < n) :
    coef ((List.range n).map fun j => (inv n G j).re) k = (G k + (starRingEnd ℂ) (G ((n - k) % n))) / 2 := by
  unfold coef
  simp only [List.length_map, List.length_range]
  rw [fwd_congr (y := fun j => (1 / 2 : ℂ) * (inv n G j + (starRingEnd ℂ) (inv n G j)))]
  · rw [fwd_smul, fwd_add, fwd_inv hn _ hk, fwd_conj_arg hn _ hk, fwd_inv hn _ (Nat.mod_lt _ hn)]
    ring
  · intro j hj
    rw [getD_map_range _ _ _ _ hj, Complex.add_conj]
    push_cast
    ring

/-- Real signals whose coefficients agree up to the Nyquist frequency are equal. -/
theorem eq_of_coef_half {xs ys : List ℝ} (hl : xs.length = ys.length) (h : ∀ k ≤ xs.length / 2, coef xs k = coef ys k) : xs = ys := by
  refine eq_of_coef hl fun k hk => ?_
  rcases le_or_gt k (xs.length / 2) with h1 | h1
  · exact h k h1
  · have e1 := coef_conj xs (k := xs.length - k) (by omega) (by omega)
    have e2 := coef_conj ys (k := ys.length - k) (by omega) (by omega)
    rw [Nat.sub_sub_self (by omega)] at e1 e2
    rw [e1, e2, ← hl, h _ (by omega)]

/-- The coefficients of the signal made from a folded spectrum `Z`. -/
theorem coef_symExt {n : ℕ} (hn : 2 ≤ n) (Z : ℕ → ℂ) {k : ℕ} (hk : k ≤ n / 2) :
    coef ((List.range n).map fun j => (inv n (symExt n Z) j).re) k = if k = 0 ∨ 2 * k = n then (((Z k).re : ℝ) : ℂ) else Z k := by
  rw [coef_re_inv (by omega) _ (by omega)]
  unfold symExt
  split_ifs with h1 h2 h3 h4 h5 h6
  · rcases h3 with rfl | h3
    · simp only [Nat.sub_zero, Nat.mod_self, Complex.add_conj]; push_cast; ring
    · omega
  · rw [Nat.mod_eq_of_lt (by omega)] at h2; omega
  · rcases h4 with rfl | h4
    · simp at h2; omega
    · omega
  · rw [Nat.mod_eq_of_lt (by omega), Nat.sub_sub_self (by omega), Complex.conj_conj]; ring
  · rcases h6 with rfl | h6
    · omega
    · rw [Nat.mod_eq_of_lt (by omega)] at h5; omega
  · omega
  · rename_i h6
    rcases h6 with rfl | h6
    · omega
    · rw [Nat.mod_eq_of_lt (by omega), Nat.sub_sub_self (by omega), Complex.conj_conj,
        show n - k = k by omega, add_comm, Complex.add_conj]
      push_cast; ring
  · omega

/-! ## Specification -/

/-- Sample `j` of a long-crested wave field of `M` components at distance `d`: component `p` has `p` periods in the record of `n`
samples, amplitude `amp p`, phase `phase p` and wave number `kap p`; it travels in positive direction for `kap p > 0`, in negative
direction for `kap p < 0`. -/
noncomputable def waveField (n M : ℕ) (amp phase kap : ℕ → ℝ) (d : ℝ) (j : ℕ) : ℝ :=
  ∑ p ∈ Icc 1 M, amp p * Real.cos (2 * Real.pi * p * j / n - kap p * d + phase p)

/-- The scaled determinant: half the sum over all pairs of gauges of `w w' sin²(k (x - x'))`. -/
noncomputable def zsDet (w x : List ℝ) (k : ℝ) : ℝ :=
  1 / 2 * ∑ i ∈ range w.length, ∑ j ∈ range w.length, w.getD i 0 * w.getD j 0 * Real.sin (k * (x.getD i 0 - x.getD j 0)) ^ 2

/-- The gauge set-up passes the checks of the code. -/
structure GaugesOk (xLoc wLoc : List ℝ) : Prop where
  len : xLoc.length = wLoc.length
  two : 2 ≤ xLoc.length
  incr : ∀ i, i + 1 < xLoc.length → xLoc.getD i 0 < xLoc.getD (i + 1) 0
  weights : (∀ w ∈ wLoc, 0 < w) ∨ (∀ w ∈ wLoc, w ≤ 1)
  total : 1 < wLoc.sum

/-! ## Wave fields as inverse transforms -/

/-- The complex spectrum of a wave field. -/
noncomputable def fieldSpec (n M : ℕ) (amp phase kap : ℕ → ℝ) (d : ℝ) (p : ℕ) : ℂ :=
  if 1 ≤ p ∧ p ≤ M then (n : ℂ) * ((amp p : ℂ) * exp (I * ((phase p - kap p * d : ℝ) : ℂ))) else 0

theorem waveField_eq {n M : ℕ} (hM : 2 * M < n) (amp phase kap : ℕ → ℝ) (d : ℝ) (j : ℕ) :
    waveField n M amp phase kap d j = (inv n (fieldSpec n M amp phase kap d) j).re := by
  have hn : (n : ℝ) ≠ 0 := by
    have : n ≠ 0 := by omega
    exact_mod_cast this
  rw [re_inv]
  have e1 : ∑ k ∈ range n, (fieldSpec n M amp phase kap d k * twiddle n ((j : ℤ) * k)).re =
      ∑ p ∈ Icc 1 M, (fieldSpec n M amp phase kap d p * twiddle n ((j : ℤ) * p)).re := by
    symm
    apply sum_subset
    · intro p hp
      rw [mem_Icc] at hp
      rw [mem_range]; omega
    · intro p _ hp
      rw [mem_Icc] at hp
      unfold fieldSpec
      rw [if_neg hp]; simp
  rw [e1, sum_div]
  unfold waveField
  refine sum_congr rfl fun p hp => ?_
  rw [mem_Icc] at hp
  unfold fieldSpec twiddle
  rw [if_pos hp]
  have e2 : (n : ℂ) * ((amp p : ℂ) * exp (I * ((phase p - kap p * d : ℝ) : ℂ))) * exp (2 * Real.pi * I * (((j : ℤ) * p : ℤ) : ℂ) / n) =
      ((n * amp p : ℝ) : ℂ) * exp (((2 * Real.pi * p * j / n - kap p * d + phase p : ℝ) : ℂ) * I) := by
    rw [mul_assoc, mul_assoc, ← Complex.exp_add]
    push_cast
    rw [mul_assoc (n : ℂ) (amp p : ℂ)]
    congr 3
    ring
  rw [e2, Complex.re_ofReal_mul, Complex.exp_ofReal_mul_I_re]
  field_simp

/-- The coefficients of a wave field. -/
theorem coef_waveField {n M : ℕ} (hM : 2 * M < n) (amp phase kap : ℕ → ℝ) (d : ℝ) {k : ℕ} (hk : k ≤ n / 2) :
    coef ((List.range n).map fun j => waveField n M amp phase kap d j) k = fieldSpec n M amp phase kap d k / 2 := by
  have e : (List.range n).map (fun j => waveField n M amp phase kap d j) =
      (List.range n).map fun j => (inv n (fieldSpec n M amp phase kap d) j).re :=
    List.map_congr_left fun j _ => waveField_eq hM _ _ _ _ _
  rw [e, coef_re_inv (by omega) _ (by omega)]
  have : fieldSpec n M amp phase kap d ((n - k) % n) = 0 := by
    unfold fieldSpec
    rw [if_neg]
    rintro ⟨h1, h2⟩
    rcases Nat.eq_zero_or_pos k with rfl | h
    · simp at h1
    · rw [Nat.mod_eq_of_lt (by omega)] at h2; omega
  rw [this]; simp

/-! ## The 2 x 2 system -/

/-- The coefficient `Σ w exp(i s k d)` for `s = ±2`, and with the components of the gauges for `s = ±1`. -/
theorem sumExp_conj (w d : List ℝ) (k : ℝ) :
    (∑ i ∈ range w.length, ((w.getD i 0 : ℝ) : ℂ) * exp (I * 2 * (k : ℂ) * ((d.getD i 0 : ℝ) : ℂ))) =
      (starRingEnd ℂ) (∑ i ∈ range w.length, ((w.getD i 0 : ℝ) : ℂ) * exp (-I * 2 * (k : ℂ) * ((d.getD i 0 : ℝ) : ℂ))) := by
  rw [map_sum]
  refine sum_congr rfl fun i _ => ?_
  rw [map_mul, Complex.conj_ofReal, ← Complex.exp_conj]
  congr 2
  simp only [map_mul, map_neg, Complex.conj_I, Complex.conj_ofReal, Complex.conj_ofNat]
  ring

theorem list_sum_eq_range (w : List ℝ) : w.sum = ∑ i ∈ range w.length, w.getD i 0 := by
  conv_lhs => rw [list_eq_map_range w]
  rw [list_sum_map_range]

theorem sumExp_eq (w d : List ℝ) (k : ℝ) :
    (∑ i ∈ range w.length, ((w.getD i 0 : ℝ) : ℂ) * exp (-I * 2 * (k : ℂ) * ((d.getD i 0 : ℝ) : ℂ))) =
      ((∑ i ∈ range w.length, w.getD i 0 * Real.cos (2 * k * d.getD i 0) : ℝ) : ℂ) -
        ((∑ i ∈ range w.length, w.getD i 0 * Real.sin (2 * k * d.getD i 0) : ℝ) : ℂ) * I := by
  push_cast
  rw [sum_mul, ← sum_sub_distrib]
  refine sum_congr rfl fun i _ => ?_
  have e : -I * 2 * (k : ℂ) * ((d.getD i 0 : ℝ) : ℂ) = -(2 * (k : ℂ) * ((d.getD i 0 : ℝ) : ℂ)) * I := by ring
  rw [e, Complex.exp_mul_I, Complex.cos_neg, Complex.sin_neg]
  ring

/-- The determinant of the code is `-4` times the scaled determinant of the specification. -/
theorem det_eq {w d x : List ℝ} (hd : ∀ i < w.length, ∀ j < w.length, d.getD i 0 - d.getD j 0 = x.getD i 0 - x.getD j 0) (k : ℝ) :
    (∑ i ∈ range w.length, ((w.getD i 0 : ℝ) : ℂ) * exp (-I * 2 * (k : ℂ) * ((d.getD i 0 : ℝ) : ℂ))) *
      (∑ i ∈ range w.length, ((w.getD i 0 : ℝ) : ℂ) * exp (I * 2 * (k : ℂ) * ((d.getD i 0 : ℝ) : ℂ))) -
        ((w.sum : ℝ) : ℂ) * ((w.sum : ℝ) : ℂ) = ((-4 * zsDet w x k : ℝ) : ℂ) := by
  rw [sumExp_conj, sumExp_eq, map_sub, map_mul, Complex.conj_ofReal, Complex.conj_ofReal, Complex.conj_I]
  set C := ∑ i ∈ range w.length, w.getD i 0 * Real.cos (2 * k * d.getD i 0)
  set S := ∑ i ∈ range w.length, w.getD i 0 * Real.sin (2 * k * d.getD i 0)
  have e1 : ((C : ℂ) - (S : ℂ) * I) * ((C : ℂ) - (S : ℂ) * -I) - ((w.sum : ℝ) : ℂ) * ((w.sum : ℝ) : ℂ) =
      ((C * C + S * S - w.sum * w.sum : ℝ) : ℂ) := by
    push_cast
    ring_nf
    rw [Complex.I_sq]
    ring
  rw [e1]
  congr 1
  rw [list_sum_eq_range]
  simp only [C, S]
  rw [sum_mul_sum, sum_mul_sum, sum_mul_sum, ← sum_add_distrib, ← sum_sub_distrib]
  unfold zsDet
  rw [← mul_assoc, mul_sum]
  refine sum_congr rfl fun i hi => ?_
  rw [← sum_add_distrib, ← sum_sub_distrib, mul_sum]
  refine sum_congr rfl fun j hj => ?_
  rw [← hd i (mem_range.1 hi) j (mem_range.1 hj)]
  have h1 := Real.cos_sub (2 * k * d.getD i 0) (2 * k * d.getD j 0)
  have h2 := Real.cos_two_mul (k * (d.getD i 0 - d.getD j 0))
  have h3 := Real.sin_sq_add_cos_sq (k * (d.getD i 0 - d.getD j 0))
  rw [show 2 * (k * (d.getD i 0 - d.getD j 0)) = 2 * k * d.getD i 0 - 2 * k * d.getD j 0 by ring] at h2
  linear_combination (w.getD i 0 * w.getD j 0) * (-h1 + h2 + 2 * h3)

theorem scaled_det (w x : List ℝ) (k : ℝ) :
    ‖(-(1 / 4) : ℂ) * ((-4 * zsDet w x k : ℝ) : ℂ)‖ = |zsDet w x k| := by
  have : (-(1 / 4) : ℂ) * ((-4 * zsDet w x k : ℝ) : ℂ) = ((zsDet w x k : ℝ) : ℂ) := by push_cast; ring
  rw [this, Complex.norm_real, Real.norm_eq_abs]

/-- For `detLim ≥ 0` the system of one frequency never fails; its solution satisfies the two normal equations if the scaled determinant
exceeds `detLim`, and is zero otherwise. -/
theorem zsSolve_spec {w d x : List ℝ} (hd : ∀ i < w.length, ∀ j < w.length, d.getD i 0 - d.getD j 0 = x.getD i 0 - x.getD j 0)
    (X : List ℂ) (k : ℝ) {detLim : ℝ} (h0 : 0 ≤ detLim) :
    ∃ A B : ℂ, zsSolve w d X k detLim = .ok (A, B) ∧ (¬ detLim < |zsDet w x k| → A = 0 ∧ B = 0) ∧
      (detLim < |zsDet w x k| →
        (∑ i ∈ range w.length, ((w.getD i 0 : ℝ) : ℂ) * (X.getD i 0 - A * exp (-I * (k : ℂ) * ((d.getD i 0 : ℝ) : ℂ)) -
          B * exp (I * (k : ℂ) * ((d.getD i 0 : ℝ) : ℂ))) * exp (-I * (k : ℂ) * ((d.getD i 0 : ℝ) : ℂ))) = 0 ∧
        (∑ i ∈ range w.length, ((w.getD i 0 : ℝ) : ℂ) * (X.getD i 0 - A * exp (-I * (k : ℂ) * ((d.getD i 0 : ℝ) : ℂ)) -
          B * exp (I * (k : ℂ) * ((d.getD i 0 : ℝ) : ℂ))) * exp (I * (k : ℂ) * ((d.getD i 0 : ℝ) : ℂ))) = 0 ∧
        ∀ A' B' : ℂ, (∑ i ∈ range w.length, ((w.getD i 0 : ℝ) : ℂ) * (X.getD i 0 - A' * exp (-I * (k : ℂ) * ((d.getD i 0 : ℝ) : ℂ)) -
          B' * exp (I * (k : ℂ) * ((d.getD i 0 : ℝ) : ℂ))) * exp (-I * (k : ℂ) * ((d.getD i 0 : ℝ) : ℂ))) = 0 →
          (∑ i ∈ range w.length, ((w.getD i 0 : ℝ) : ℂ) * (X.getD i 0 - A' * exp (-I * (k : ℂ) * ((d.getD i 0 : ℝ) : ℂ)) -
          B' * exp (I * (k : ℂ) * ((d.getD i 0 : ℝ) : ℂ))) * exp (I * (k : ℂ) * ((d.getD i 0 : ℝ) : ℂ))) = 0 → A' = A ∧ B' = B) := by
  have hdet := det_eq hd k
  have hsc := scaled_det w x k
  -- the normal equations in terms of the sums of the code
  have n1 : ∀ A B : ℂ, (∑ i ∈ range w.length, ((w.getD i 0 : ℝ) : ℂ) * (X.getD i 0 - A * exp (-I * (k : ℂ) * ((d.getD i 0 : ℝ) : ℂ)) -
      B * exp (I * (k : ℂ) * ((d.getD i 0 : ℝ) : ℂ))) * exp (-I * (k : ℂ) * ((d.getD i 0 : ℝ) : ℂ))) =
      (∑ i ∈ range w.length, ((w.getD i 0 : ℝ) : ℂ) * X.getD i 0 * exp (-I * (k : ℂ) * ((d.getD i 0 : ℝ) : ℂ))) -
      A * (∑ i ∈ range w.length, ((w.getD i 0 : ℝ) : ℂ) * exp (-I * 2 * (k : ℂ) * ((d.getD i 0 : ℝ) : ℂ))) - B * ((w.sum : ℝ) : ℂ) := by
    intro A B
    rw [list_sum_eq_range]
    push_cast
    rw [mul_sum, mul_sum, ← sum_sub_distrib, ← sum_sub_distrib]
    refine sum_congr rfl fun i _ => ?_
    have e1 : exp (-I * 2 * (k : ℂ) * ((d.getD i 0 : ℝ) : ℂ)) =
        exp (-I * (k : ℂ) * ((d.getD i 0 : ℝ) : ℂ)) * exp (-I * (k : ℂ) * ((d.getD i 0 : ℝ) : ℂ)) := by
      rw [← Complex.exp_add]; congr 1; ring
    have e2 : exp (I * (k : ℂ) * ((d.getD i 0 : ℝ) : ℂ)) * exp (-I * (k : ℂ) * ((d.getD i 0 : ℝ) : ℂ)) = 1 := by
      rw [← Complex.exp_add, show I * (k : ℂ) * ((d.getD i 0 : ℝ) : ℂ) + -I * (k : ℂ) * ((d.getD i 0 : ℝ) : ℂ) = 0 by ring, Complex.exp_zero]
    rw [e1]
    linear_combination (-((w.getD i 0 : ℝ) : ℂ) * B) * e2
  have n2 : ∀ A B : ℂ, (∑ i ∈ range w.length, ((w.getD i 0 : ℝ) : ℂ) * (X.getD i 0 - A * exp (-I * (k : ℂ) * ((d.getD i 0 : ℝ) : ℂ)) -
      B * exp (I * (k : ℂ) * ((d.getD i 0 : ℝ) : ℂ))) * exp (I * (k : ℂ) * ((d.getD i 0 : ℝ) : ℂ))) =
      (∑ i ∈ range w.length, ((w.getD i 0 : ℝ) : ℂ) * X.getD i 0 * exp (I * (k : ℂ) * ((d.getD i 0 : ℝ) : ℂ))) -
      A * ((w.sum : ℝ) : ℂ) - B * (∑ i ∈ range w.length, ((w.getD i 0 : ℝ) : ℂ) * exp (I * 2 * (k : ℂ) * ((d.getD i 0 : ℝ) : ℂ))) := by
    intro A B
    rw [list_sum_eq_range]
    push_cast
    rw [mul_sum, mul_sum, ← sum_sub_distrib, ← sum_sub_distrib]
    refine sum_congr rfl fun i _ => ?_
    have e1 : exp (I * 2 * (k : ℂ) * ((d.getD i 0 : ℝ) : ℂ)) =
        exp (I * (k : ℂ) * ((d.getD i 0 : ℝ) : ℂ)) * exp (I * (k : ℂ) * ((d.getD i 0 : ℝ) : ℂ)) := by
      rw [← Complex.exp_add]; congr 1; ring
    have e2 : exp (I * (k : ℂ) * ((d.getD i 0 : ℝ) : ℂ)) * exp (-I * (k : ℂ) * ((d.getD i 0 : ℝ) : ℂ)) = 1 := by
      rw [← Complex.exp_add, show I * (k : ℂ) * ((d.getD i 0 : ℝ) : ℂ) + -I * (k : ℂ) * ((d.getD i 0 : ℝ) : ℂ) = 0 by ring, Complex.exp_zero]
    rw [e1]
    linear_combination (-((w.getD i 0 : ℝ) : ℂ) * A) * e2
  simp only [n1, n2]
  unfold zsSolve
  dsimp only
  rw [hdet, hsc]
  generalize (∑ i ∈ range w.length, ((w.getD i 0 : ℝ) : ℂ) * exp (-I * 2 * (k : ℂ) * ((d.getD i 0 : ℝ) : ℂ))) = a11 at *
  generalize (∑ i ∈ range w.length, ((w.getD i 0 : ℝ) : ℂ) * exp (I * 2 * (k : ℂ) * ((d.getD i 0 : ℝ) : ℂ))) = a22 at *
  generalize (∑ i ∈ range w.length, ((w.getD i 0 : ℝ) : ℂ) * X.getD i 0 * exp (-I * (k : ℂ) * ((d.getD i 0 : ℝ) : ℂ))) = b1 at *
  generalize (∑ i ∈ range w.length, ((w.getD i 0 : ℝ) : ℂ) * X.getD i 0 * exp (I * (k : ℂ) * ((d.getD i 0 : ℝ) : ℂ))) = b2 at *
  generalize ((w.sum : ℝ) : ℂ) = W at *
  by_cases hlt : detLim < |zsDet w x k|
  · have hne : ((-4 * zsDet w x k : ℝ) : ℂ) ≠ 0 := by
      have : zsDet w x k ≠ 0 := by
        intro h; rw [h, abs_zero] at hlt; linarith
      norm_cast
      simpa using this
    rw [if_pos hlt, if_neg hne]
    refine ⟨_, _, rfl, fun h => absurd hlt h, fun _ => ⟨?_, ?_, ?_⟩⟩
    · rw [div_mul_eq_mul_div, div_mul_eq_mul_div, sub_sub, ← add_div, sub_eq_zero, eq_div_iff hne]
      linear_combination -b1 * hdet
    · rw [div_mul_eq_mul_div, div_mul_eq_mul_div, sub_sub, ← add_div, sub_eq_zero, eq_div_iff hne]
      linear_combination -b2 * hdet
    · intro A' B' h1 h2
      rw [← hdet] at hne ⊢
      constructor
      · rw [eq_div_iff hne]; linear_combination -a22 * h1 + W * h2
      · rw [eq_div_iff hne]; linear_combination W * h1 - a11 * h2
  · rw [if_neg hlt]
    exact ⟨0, 0, rfl, fun _ => ⟨rfl, rfl⟩, fun h => absurd h hlt⟩

/-- Superpositions of an incident and a reflected component are separated exactly. -/
theorem zsSolve_recovers {w d x : List ℝ} (hd : ∀ i < w.length, ∀ j < w.length, d.getD i 0 - d.getD j 0 = x.getD i 0 - x.getD j 0)
    {X : List ℂ} {k : ℝ} {detLim : ℝ} (h0 : 0 ≤ detLim) {A B : ℂ}
    (hX : ∀ i < w.length, X.getD i 0 = A * exp (-I * (k : ℂ) * ((d.getD i 0 : ℝ) : ℂ)) + B * exp (I * (k : ℂ) * ((d.getD i 0 : ℝ) : ℂ))) :
    zsSolve w d X k detLim = .ok (if detLim < |zsDet w x k| then A else 0, if detLim < |zsDet w x k| then B else 0) := by
  obtain ⟨A', B', h1, h2, h3⟩ := zsSolve_spec hd X k h0
  rw [h1]
  by_cases hlt : detLim < |zsDet w x k|
  · obtain ⟨-, -, hu⟩ := h3 hlt
    obtain ⟨e1, e2⟩ := hu A B (sum_eq_zero fun i hi => by rw [hX i (mem_range.1 hi)]; ring)
      (sum_eq_zero fun i hi => by rw [hX i (mem_range.1 hi)]; ring)
    rw [if_pos hlt, if_pos hlt, e1, e2]
  · obtain ⟨e1, e2⟩ := h2 hlt
    rw [if_neg hlt, if_neg hlt, e1, e2]

/-- Weighted least squares: no other pair of amplitudes fits the gauges better. -/
theorem zsSolve_least_squares {w d x : List ℝ} (hd : ∀ i < w.length, ∀ j < w.length, d.getD i 0 - d.getD j 0 = x.getD i 0 - x.getD j 0)
    (hw : ∀ i < w.length, 0 ≤ w.getD i 0) (X : List ℂ) (k : ℝ) {detLim : ℝ} (h0 : 0 ≤ detLim) (hlt : detLim < |zsDet w x k|) :
    ∃ A B : ℂ, zsSolve w d X k detLim = .ok (A, B) ∧ ∀ A' B' : ℂ,
      ∑ i ∈ range w.length, w.getD i 0 * ‖X.getD i 0 - A * exp (-I * (k : ℂ) * ((d.getD i 0 : ℝ) : ℂ)) -
        B * exp (I * (k : ℂ) * ((d.getD i 0 : ℝ) : ℂ))‖ ^ 2 ≤
      ∑ i ∈ range w.length, w.getD i 0 * ‖X.getD i 0 - A' * exp (-I * (k : ℂ) * ((d.getD i 0 : ℝ) : ℂ)) -
        B' * exp (I * (k : ℂ) * ((d.getD i 0 : ℝ) : ℂ))‖ ^ 2 := by
  obtain ⟨A, B, h1, -, h3⟩ := zsSolve_spec hd X k h0
  obtain ⟨e1, e2, -⟩ := h3 hlt
  refine ⟨A, B, h1, fun A' B' => ?_⟩
  -- abbreviations
  set E : ℕ → ℂ := fun i => exp (-I * (k : ℂ) * ((d.getD i 0 : ℝ) : ℂ)) with hE
  set F : ℕ → ℂ := fun i => exp (I * (k : ℂ) * ((d.getD i 0 : ℝ) : ℂ)) with hF
  have hEF : ∀ i, (starRingEnd ℂ) (E i) = F i := by
    intro i
    simp only [hE, hF]
    rw [← Complex.exp_conj]
    congr 1
    simp only [map_mul, map_neg, Complex.conj_I, Complex.conj_ofReal]
    ring
  have hFE : ∀ i, (starRingEnd ℂ) (F i) = E i := by intro i; rw [← hEF, Complex.conj_conj]
  set r : ℕ → ℂ := fun i => X.getD i 0 - A * E i - B * F i with hr
  set u : ℕ → ℂ := fun i => (A - A') * E i + (B - B') * F i with hu
  have hsum : ∀ i, X.getD i 0 - A' * E i - B' * F i = r i + u i := by intro i; simp only [hr, hu]; ring
  have horth : (∑ i ∈ range w.length, w.getD i 0 * (r i * (starRingEnd ℂ) (u i)).re) = 0 := by
    have hc : (∑ i ∈ range w.length, ((w.getD i 0 : ℝ) : ℂ) * (r i * (starRingEnd ℂ) (u i))) = 0 := by
      have : (∑ i ∈ range w.length, ((w.getD i 0 : ℝ) : ℂ) * (r i * (starRingEnd ℂ) (u i))) =
          (starRingEnd ℂ) (A - A') * (∑ i ∈ range w.length, ((w.getD i 0 : ℝ) : ℂ) * r i * F i) +
          (starRingEnd ℂ) (B - B') * (∑ i ∈ range w.length, ((w.getD i 0 : ℝ) : ℂ) * r i * E i) := by
        rw [mul_sum, mul_sum, ← sum_add_distrib]
        refine sum_congr rfl fun i _ => ?_
        simp only [hu, map_add, map_mul, hEF, hFE]
        ring
      rw [this]
      have g1 : (∑ i ∈ range w.length, ((w.getD i 0 : ℝ) : ℂ) * r i * F i) = 0 := e2
      have g2 : (∑ i ∈ range w.length, ((w.getD i 0 : ℝ) : ℂ) * r i * E i) = 0 := e1
      rw [g1, g2]; ring
    have := congrArg Complex.re hc
    rw [Complex.re_sum] at this
    simpa only [Complex.re_ofReal_mul, Complex.zero_re] using this
  have hexp : ∀ i, ‖r i + u i‖ ^ 2 = ‖r i‖ ^ 2 + 2 * (r i * (starRingEnd ℂ) (u i)).re + ‖u i‖ ^ 2 := by
    intro i
    rw [← Complex.normSq_eq_norm_sq, ← Complex.normSq_eq_norm_sq, ← Complex.normSq_eq_norm_sq, Complex.normSq_add]
    ring
  calc ∑ i ∈ range w.length, w.getD i 0 * ‖r i‖ ^ 2
      ≤ ∑ i ∈ range w.length, w.getD i 0 * ‖r i‖ ^ 2 + ∑ i ∈ range w.length, w.getD i 0 * ‖u i‖ ^ 2 := by
        have : 0 ≤ ∑ i ∈ range w.length, w.getD i 0 * ‖u i‖ ^ 2 :=
          sum_nonneg fun i hi => mul_nonneg (hw i (mem_range.1 hi)) (by positivity)
        linarith
    _ = ∑ i ∈ range w.length, w.getD i 0 * ‖X.getD i 0 - A' * E i - B' * F i‖ ^ 2 := by
        have h4 : ∑ i ∈ range w.length, w.getD i 0 * ‖X.getD i 0 - A' * E i - B' * F i‖ ^ 2 =
            ∑ i ∈ range w.length, (w.getD i 0 * ‖r i‖ ^ 2 + 2 * (w.getD i 0 * (r i * (starRingEnd ℂ) (u i)).re) + w.getD i 0 * ‖u i‖ ^ 2) := by
          refine sum_congr rfl fun i _ => ?_
          rw [hsum, hexp]; ring
        rw [h4, sum_add_distrib, sum_add_distrib, ← mul_sum, horth]
        ring

/-! ## The computational core -/

/-- The wave number that the code uses for bin `k` of a record with `n` samples and time step `dt`. -/
noncomputable def binWaveNumber (ts : List ℝ) (h : ℝ) (k : ℕ) : ℝ := disperElem (2 * Real.pi * ((k : ℝ) * dfOf ts)) h (981 / 100)

theorem zsCore_eq {ts : List ℝ} (hm : AcceptedAxis ts) {cols : List (List ℝ)} (hc : cols ≠ []) (hcl : ∀ c ∈ cols, c.length = ts.length)
    {h : ℝ} (hh : 0 < h) (xLoc wLoc : List ℝ) (detLim : ℝ) (Zin Zre : ℕ → ℂ)
    (hZ : ∀ k ≤ ts.length / 2, zsSolve wLoc (xLoc.map fun x => x - xLoc.getD 0 0) (cols.map fun c => coef c k) (binWaveNumber ts h k) detLim =
      .ok (Zin k, Zre k)) :
    zsCore ts cols (.fin h) xLoc wLoc detLim =
      .ok ((List.range ts.length).map (fun j => (inv ts.length (symExt ts.length Zin) j).re),
        (List.range ts.length).map (fun j => (inv ts.length (symExt ts.length Zre) j).re)) := by
  have h2 : 2 ≤ ts.length := mono_two_le hm
  unfold zsCore
  have e1 : cols.mapM (fun c => time2freqNyquist (vec ts) (vec c)) = .ok (cols.map fun c =>
      (freqAxis (ts.length / 2 + 1) (dfOf ts), (List.range (ts.length / 2 + 1)).map (coef c), decide (ts.length % 2 = 1))) := by
    apply mapM_ok_of
    intro c hcm
    rw [time2freqNyquist_eq (isArr_vec ts) (isArr_vec c) hm (hcl c hcm).symm, hcl c hcm]
  simp only [e1, bind, Except.bind]
  obtain ⟨c0, cs, rfl⟩ := List.exists_cons_of_ne_nil hc
  simp only [List.map_cons, getE, List.getElem?_cons_zero]
  have e2 : disper (vec ((freqAxis (ts.length / 2 + 1) (dfOf ts)).map fun v => 2 * Real.pi * v)) (.fin h) (981 / 100) =
      .ok ((List.range (ts.length / 2 + 1)).map (binWaveNumber ts h)) := by
    unfold disper vec
    simp only [toArr]
    unfold disperFinite
    rw [if_neg (by linarith), if_neg (by norm_num), if_neg (by linarith)]
    unfold freqAxis binWaveNumber
    rw [List.map_map, List.map_map]
    rfl
  rw [e2]
  dsimp only
  have hfl : (freqAxis (ts.length / 2 + 1) (dfOf ts)).length = ts.length / 2 + 1 := by simp [freqAxis]
  rw [hfl]
  have e3 : (List.range (ts.length / 2 + 1)).mapM (fun i => zsSolve wLoc (xLoc.map fun x => x - xLoc.getD 0 0)
      (((List.range (ts.length / 2 + 1)).map (coef c0)).getD i 0 ::
        List.map (fun s : List ℝ × List ℂ × Bool => s.2.1.getD i 0) (cs.map fun c =>
          (freqAxis (ts.length / 2 + 1) (dfOf ts), (List.range (ts.length / 2 + 1)).map (coef c), decide (ts.length % 2 = 1))))
      (((List.range (ts.length / 2 + 1)).map (binWaveNumber ts h)).getD i 0) detLim) =
      .ok ((List.range (ts.length / 2 + 1)).map fun k => (Zin k, Zre k)) := by
    apply mapM_ok_of
    intro k hk
    have hk' := List.mem_range.1 hk
    rw [getD_map_range _ _ _ _ hk', getD_map_range _ _ _ _ hk', ← hZ k (by omega), List.map_map, List.map_cons]
    congr 2
    refine List.map_congr_left fun c _ => ?_
    simp only [Function.comp]
    rw [getD_map_range _ _ _ _ hk']
  rw [e3]
  dsimp only
  have huf : ∀ Z : ℕ → ℂ, unfoldSpectrum (.nd ⟨[ts.length / 2 + 1, 1], freqAxis (ts.length / 2 + 1) (dfOf ts)⟩)
      (.nd ⟨[ts.length / 2 + 1, 1], (List.range (ts.length / 2 + 1)).map Z⟩) (decide (ts.length % 2 = 1)) =
      .ok (freqAxis ts.length ((freqAxis (ts.length / 2 + 1) (dfOf ts)).getD 1 0 - (freqAxis (ts.length / 2 + 1) (dfOf ts)).getD 0 0),
        (List.range ts.length).map (symExt ts.length Z)) := by
    intro Z
    have a1 := vecIn_of_isArr (PyIn.IsArr.col (freqAxis (ts.length / 2 + 1) (dfOf ts)) (by
      intro h; rw [h] at hfl; simp at hfl)) "unfold_spectrum"
    have a2 := vecIn_of_isArr (PyIn.IsArr.col ((List.range (ts.length / 2 + 1)).map Z) (by simp)) "unfold_spectrum"
    rw [hfl] at a1
    simp only [List.length_map, List.length_range] at a2
    unfold unfoldSpectrum
    simp only [a1, a2, bind, Except.bind]
    rw [unfold_eq h2 hfl (by simp)]
    congr 2
    refine List.map_congr_left fun k hk => ?_
    have hk' := List.mem_range.1 hk
    exact symExt_congr (fun l hl => getD_map_range _ _ _ _ (by omega)) hk'
  have hm1 : ((List.range (ts.length / 2 + 1)).map fun k => (Zin k, Zre k)).map Prod.fst = (List.range (ts.length / 2 + 1)).map Zin := by
    rw [List.map_map]; rfl
  have hm2 : ((List.range (ts.length / 2 + 1)).map fun k => (Zin k, Zre k)).map Prod.snd = (List.range (ts.length / 2 + 1)).map Zre := by
    rw [List.map_map]; rfl
  rw [hm1, hm2, huf, huf]
  dsimp only
  rw [freq2time_range (by omega), freq2time_range (by omega)]
  rfl

/-! ## The input checks -/

theorem pyMin_diff_pos {x : List ℝ} (h2 : 2 ≤ x.length) :
    ∃ m, pyMin (diff x) = .ok m ∧ (0 < m ↔ ∀ i, i + 1 < x.length → x.getD i 0 < x.getD (i + 1) 0) := by
  have hmem : ∀ (x : List ℝ) (v : ℝ), v ∈ diff x ↔ ∃ i, i + 1 < x.length ∧ v = x.getD (i + 1) 0 - x.getD i 0 := by
    intro x
    induction x with
    | nil => intro v; simp [diff]
    | cons a l ih =>
      intro v
      cases l with
      | nil => simp [diff]
      | cons b l =>
        simp only [diff, List.mem_cons, ih]
        constructor
        · rintro (rfl | ⟨i, hi, rfl⟩)
          · exact ⟨0, by simp, rfl⟩
          · refine ⟨i + 1, by simpa using hi, rfl⟩
        · rintro ⟨i, hi, rfl⟩
          cases i with
          | zero => left; rfl
          | succ i => right; exact ⟨i, by simpa using hi, rfl⟩
  have hne : diff x ≠ [] := by
    intro h
    have := (hmem x (x.getD 1 0 - x.getD 0 0)).2 ⟨0, by omega, rfl⟩
    rw [h] at this
    simp at this
  obtain ⟨m, hmin⟩ := pyMin_exists hne
  obtain ⟨h3, h4⟩ := pyMin_spec hmin
  refine ⟨m, hmin, ⟨fun h0 i hi => ?_, fun hall => ?_⟩⟩
  · have := h4 _ ((hmem x _).2 ⟨i, hi, rfl⟩)
    linarith
  · obtain ⟨i, hi, rfl⟩ := (hmem x m).1 h3
    linarith [hall i hi]

theorem decomposeZS_ok {ts : List ℝ} {xTime : Arr ℝ} {xLoc wLoc : List ℝ} (hg : GaugesOk xLoc wLoc)
    (hs : xTime.shape = [ts.length, xLoc.length]) (h : Depth) (detLim : ℝ) :
    decomposeZS ts xTime h xLoc wLoc detLim =
      zsCore ts ((List.range xLoc.length).map fun i => column xTime ts.length xLoc.length i) h xLoc wLoc detLim := by
  have hwne : wLoc ≠ [] := by
    intro h
    have h1 := hg.len; have h2 := hg.two
    rw [h] at h1; simp at h1; rw [h1] at h2; simp at h2
  obtain ⟨a, ha⟩ := pyMin_exists hwne
  obtain ⟨b, hb⟩ := pyMax_exists hwne
  obtain ⟨m, hmin, hpos⟩ := pyMin_diff_pos hg.two
  unfold decomposeZS
  rw [hs]
  dsimp only
  rw [if_neg (by simp), if_neg (by simp [hg.len]), if_neg (by have := hg.two; omega), if_neg (by simp)]
  simp only [ha, hb, hmin, bind, Except.bind]
  rw [if_neg, if_neg (by simpa using hg.total), if_neg (by simpa using hpos.2 hg.incr)]
  push Not
  rcases hg.weights with hw | hw
  · exact .inl (hw a (pyMin_spec ha).1)
  · exact .inr (hw b (pyMax_spec hb).1)

/-! ## C52, C53, C65: the results -/

/-- `kap p` is the wave number returned by `disper` for the frequency of bin `p`: `p` periods in `n` time steps `dt`. -/
def BinWaveNumbers (ts : List ℝ) (h : ℝ) (kap : ℕ → ℝ) : Prop :=
  ∀ p : ℕ, disper (.list [2 * Real.pi * (p : ℝ) / (ts.length * (ts.getD 1 0 - ts.getD 0 0))]) (.fin h) (981 / 100) = .ok [kap p]

theorem binWaveNumbers_exist (ts : List ℝ) {h : ℝ} (hh : 0 < h) : ∃ kap, BinWaveNumbers ts h kap :=
  ⟨_, fun _ => disper_ok _ hh (by norm_num : (0 : ℝ) < 981 / 100)⟩

theorem BinWaveNumbers.eq {ts : List ℝ} {h : ℝ} {kap : ℕ → ℝ} (hh : 0 < h) (hk : BinWaveNumbers ts h kap) (p : ℕ) :
    binWaveNumber ts h p = kap p := by
  have := hk p
  rw [disper_ok _ hh (by norm_num)] at this
  simp only [List.map_cons, List.map_nil, Except.ok.injEq, List.cons.injEq, and_true] at this
  rw [← this]
  unfold binWaveNumber dfOf
  congr 1
  ring

theorem dist_getD (xLoc : List ℝ) {i : ℕ} (hi : i < xLoc.length) :
    (xLoc.map fun x => x - xLoc.getD 0 0).getD i 0 = xLoc.getD i 0 - xLoc.getD 0 0 := by
  rw [List.getD_eq_getElem _ _ (by simpa using hi), List.getElem_map, List.getD_eq_getElem _ _ hi]

theorem dist_sub {xLoc wLoc : List ℝ} (hl : xLoc.length = wLoc.length) : ∀ i < wLoc.length, ∀ j < wLoc.length,
    (xLoc.map fun x => x - xLoc.getD 0 0).getD i 0 - (xLoc.map fun x => x - xLoc.getD 0 0).getD j 0 = xLoc.getD i 0 - xLoc.getD j 0 := by
  intro i hi j hj
  rw [dist_getD xLoc (by omega), dist_getD xLoc (by omega)]; ring

theorem column_length (a : Arr ℝ) (n m i : ℕ) : (column a n m i).length = n := by simp [column]

theorem cols_getD (xTime : Arr ℝ) (n m k : ℕ) {i : ℕ} (hi : i < m) :
    (((List.range m).map fun i => column xTime n m i).map fun c => coef c k).getD i 0 = coef (column xTime n m i) k := by
  rw [List.map_map, getD_map_range _ _ _ _ hi]; rfl

/-- The Fourier coefficients of a gauge that records an incident and a reflected field. -/
theorem coef_gauge {n M m : ℕ} (hM : 2 * M < n) (ampI phI ampR phR kap : ℕ → ℝ) (xLoc : List ℝ) {xTime : Arr ℝ}
    (hsig : ∀ j < n, ∀ i < m, xTime.data.getD (j * m + i) 0 =
      waveField n M ampI phI kap (xLoc.getD i 0 - xLoc.getD 0 0) j + waveField n M ampR phR (fun p => - kap p) (xLoc.getD i 0 - xLoc.getD 0 0) j)
    {k : ℕ} (hk : k ≤ n / 2) {i : ℕ} (hi : i < m) : coef (column xTime n m i) k =
      (fieldSpec n M ampI phI kap 0 k / 2) * exp (-I * (kap k : ℂ) * ((xLoc.getD i 0 - xLoc.getD 0 0 : ℝ) : ℂ)) +
      (fieldSpec n M ampR phR (fun p => - kap p) 0 k / 2) * exp (I * (kap k : ℂ) * ((xLoc.getD i 0 - xLoc.getD 0 0 : ℝ) : ℂ)) := by
  have e : column xTime n m i = lincomb 1 1 ((List.range n).map fun j => waveField n M ampI phI kap (xLoc.getD i 0 - xLoc.getD 0 0) j)
      ((List.range n).map fun j => waveField n M ampR phR (fun p => - kap p) (xLoc.getD i 0 - xLoc.getD 0 0) j) := by
    unfold column lincomb
    apply List.ext_getElem
    · simp
    · intro j hj1 hj2
      have hj : j < n := by simpa using hj1
      simp only [List.getElem_map, List.getElem_range, List.getElem_zipWith, one_mul]
      exact hsig j hj i hi
  rw [e, coef_lincomb 1 1 (by simp), coef_waveField hM _ _ _ _ hk, coef_waveField hM _ _ _ _ hk]
  unfold fieldSpec
  split_ifs with hin
  · have e1 : exp (I * ((phI k - kap k * (xLoc.getD i 0 - xLoc.getD 0 0) : ℝ) : ℂ)) =
        exp (I * ((phI k - kap k * 0 : ℝ) : ℂ)) * exp (-I * (kap k : ℂ) * ((xLoc.getD i 0 - xLoc.getD 0 0 : ℝ) : ℂ)) := by
      rw [← Complex.exp_add]; congr 1; push_cast; ring
    have e2 : exp (I * ((phR k - -kap k * (xLoc.getD i 0 - xLoc.getD 0 0) : ℝ) : ℂ)) =
        exp (I * ((phR k - -kap k * 0 : ℝ) : ℂ)) * exp (I * (kap k : ℂ) * ((xLoc.getD i 0 - xLoc.getD 0 0 : ℝ) : ℂ)) := by
      rw [← Complex.exp_add]; congr 1; push_cast; ring
    rw [e1, e2]; push_cast; ring
  · simp

/-- **C52.**  If the signal of every gauge is the sum of an incident field (wave numbers `kap`) and a reflected field (wave numbers
`-kap`) with components below the Nyquist frequency, then the decomposition returns exactly the incident and the reflected signal at the
first gauge, restricted to the components whose scaled determinant exceeds `detLim`. -/
theorem decompose_recovers {ts : List ℝ} (hm : AcceptedAxis ts) {xTime : Arr ℝ} {xLoc wLoc : List ℝ} (hg : GaugesOk xLoc wLoc)
    (hs : xTime.shape = [ts.length, xLoc.length]) {h detLim : ℝ} (hh : 0 < h) (h0 : 0 ≤ detLim) {kap : ℕ → ℝ}
    (hkap : BinWaveNumbers ts h kap) {M : ℕ} (hM : 2 * M < ts.length) (ampI phI ampR phR : ℕ → ℝ)
    (hsig : ∀ j < ts.length, ∀ i < xLoc.length, xTime.data.getD (j * xLoc.length + i) 0 =
      waveField ts.length M ampI phI kap (xLoc.getD i 0 - xLoc.getD 0 0) j +
      waveField ts.length M ampR phR (fun p => - kap p) (xLoc.getD i 0 - xLoc.getD 0 0) j) :
    decomposeZS ts xTime (.fin h) xLoc wLoc detLim = .ok
      ((List.range ts.length).map (waveField ts.length M (fun p => if detLim < |zsDet wLoc xLoc (kap p)| then ampI p else 0) phI kap 0),
       (List.range ts.length).map (waveField ts.length M (fun p => if detLim < |zsDet wLoc xLoc (kap p)| then ampR p else 0) phR
         (fun p => - kap p) 0)) := by
  have h2 : 2 ≤ ts.length := mono_two_le hm
  rw [decomposeZS_ok hg hs]
  set n := ts.length with hn
  set m := xLoc.length with hmm
  have hmpos : 2 ≤ m := hg.two
  have hcoef := fun k (hk : k ≤ n / 2) i (hi : i < m) => coef_gauge hM ampI phI ampR phR kap xLoc hsig hk hi
  -- the spectra
  set good : ℕ → Prop := fun p => detLim < |zsDet wLoc xLoc (kap p)| with hgood
  have hcore := zsCore_eq hm (cols := (List.range m).map fun i => column xTime n m i) (by
      intro h; have := congrArg List.length h; simp at this; omega)
    (by intro c hc; obtain ⟨i, -, rfl⟩ := List.mem_map.1 hc; exact column_length _ _ _ _) hh xLoc wLoc detLim
    (fun k => if detLim < |zsDet wLoc xLoc (kap k)| then fieldSpec n M ampI phI kap 0 k / 2 else 0)
    (fun k => if detLim < |zsDet wLoc xLoc (kap k)| then fieldSpec n M ampR phR (fun p => - kap p) 0 k / 2 else 0) (by
      intro k hk
      rw [BinWaveNumbers.eq hh hkap]
      apply zsSolve_recovers (x := xLoc) (dist_sub hg.len) h0
      intro i hi
      have hi' : i < m := by have := hg.len; omega
      rw [cols_getD xTime n m k hi', hcoef k hk i hi', dist_getD xLoc hi'])
  rw [hcore]
  have key : ∀ (amp ph kp : ℕ → ℝ), ((List.range n).map fun j => (inv n (symExt n fun k =>
      if detLim < |zsDet wLoc xLoc (kap k)| then fieldSpec n M amp ph kp 0 k / 2 else 0) j).re) =
      (List.range n).map (waveField n M (fun p => if detLim < |zsDet wLoc xLoc (kap p)| then amp p else 0) ph kp 0) := by
    intro amp ph kp
    apply eq_of_coef_half (by simp)
    intro k hk
    simp only [List.length_map, List.length_range] at hk
    rw [coef_symExt h2 _ hk, show (List.range n).map (waveField n M (fun p => if detLim < |zsDet wLoc xLoc (kap p)| then amp p else 0) ph kp 0) =
      (List.range n).map fun j => waveField n M (fun p => if detLim < |zsDet wLoc xLoc (kap p)| then amp p else 0) ph kp 0 j from rfl,
      coef_waveField hM _ _ _ _ hk]
    by_cases hin : 1 ≤ k ∧ k ≤ M
    · rw [if_neg (by omega)]
      unfold fieldSpec
      rw [if_pos hin, if_pos hin]
      by_cases hgd : detLim < |zsDet wLoc xLoc (kap k)|
      · simp only [if_pos hgd]
      · simp only [if_neg hgd]; simp
    · unfold fieldSpec
      rw [if_neg hin, if_neg hin]
      simp
  rw [key, key]

/-- **C52 (pure incident waves).**  Without reflection the reflected signal is identically zero. -/
theorem decompose_no_reflection {ts : List ℝ} (hm : AcceptedAxis ts) {xTime : Arr ℝ} {xLoc wLoc : List ℝ} (hg : GaugesOk xLoc wLoc)
    (hs : xTime.shape = [ts.length, xLoc.length]) {h detLim : ℝ} (hh : 0 < h) (h0 : 0 ≤ detLim) {kap : ℕ → ℝ}
    (hkap : BinWaveNumbers ts h kap) {M : ℕ} (hM : 2 * M < ts.length) (amp ph : ℕ → ℝ)
    (hdet : ∀ p, 1 ≤ p → p ≤ M → detLim < |zsDet wLoc xLoc (kap p)|)
    (hsig : ∀ j < ts.length, ∀ i < xLoc.length, xTime.data.getD (j * xLoc.length + i) 0 =
      waveField ts.length M amp ph kap (xLoc.getD i 0 - xLoc.getD 0 0) j) :
    decomposeZS ts xTime (.fin h) xLoc wLoc detLim =
      .ok ((List.range ts.length).map (waveField ts.length M amp ph kap 0), (List.range ts.length).map fun _ => 0) := by
  have h1 := decompose_recovers hm hg hs hh h0 hkap hM amp ph (fun _ => 0) (fun _ => 0) (by
    intro j hj i hi
    rw [hsig j hj i hi]
    simp [waveField])
  rw [h1]
  congr 2
  · refine List.map_congr_left fun j _ => ?_
    unfold waveField
    refine sum_congr rfl fun p hp => ?_
    rw [mem_Icc] at hp
    dsimp only
    rw [if_pos (hdet p hp.1 hp.2)]
  · refine List.map_congr_left fun j _ => ?_
    simp [waveField]

/-- **C53, C65.**  For accepted gauges, any signals and `detLim ≥ 0` the decomposition succeeds; both results have the length of the
record and mean zero; a component whose scaled determinant does not exceed `detLim` is absent from both; every other component below the
Nyquist frequency is the weighted least-squares fit of an incident and a reflected wave to the gauges (non-negative weights). -/
theorem decompose_components {ts : List ℝ} (hm : AcceptedAxis ts) (xTime : Arr ℝ) {xLoc wLoc : List ℝ} (hg : GaugesOk xLoc wLoc)
    (hs : xTime.shape = [ts.length, xLoc.length]) {h detLim : ℝ} (hh : 0 < h) (h0 : 0 ≤ detLim) {kap : ℕ → ℝ}
    (hkap : BinWaveNumbers ts h kap) :
    ∃ xIn xRe, decomposeZS ts xTime (.fin h) xLoc wLoc detLim = .ok (xIn, xRe) ∧ xIn.length = ts.length ∧ xRe.length = ts.length ∧
      xIn.sum = 0 ∧ xRe.sum = 0 ∧
      ∀ k, 0 < k → 2 * k < ts.length →
        (¬ detLim < |zsDet wLoc xLoc (kap k)| → coef xIn k = 0 ∧ coef xRe k = 0) ∧
        (detLim < |zsDet wLoc xLoc (kap k)| → (∀ w ∈ wLoc, 0 ≤ w) → ∀ A B : ℂ,
          ∑ i ∈ range wLoc.length, wLoc.getD i 0 * ‖coef (column xTime ts.length xLoc.length i) k -
            coef xIn k * exp (-I * (kap k : ℂ) * ((xLoc.getD i 0 - xLoc.getD 0 0 : ℝ) : ℂ)) -
            coef xRe k * exp (I * (kap k : ℂ) * ((xLoc.getD i 0 - xLoc.getD 0 0 : ℝ) : ℂ))‖ ^ 2 ≤
          ∑ i ∈ range wLoc.length, wLoc.getD i 0 * ‖coef (column xTime ts.length xLoc.length i) k -
            A * exp (-I * (kap k : ℂ) * ((xLoc.getD i 0 - xLoc.getD 0 0 : ℝ) : ℂ)) -
            B * exp (I * (kap k : ℂ) * ((xLoc.getD i 0 - xLoc.getD 0 0 : ℝ) : ℂ))‖ ^ 2) := by
  have h2 : 2 ≤ ts.length := mono_two_le hm
  rw [decomposeZS_ok hg hs]
  set n := ts.length with hn
  set m := xLoc.length with hmm
  have hmpos : 2 ≤ m := hg.two
  have hex : ∀ k, ∃ Z : ℂ × ℂ, zsSolve wLoc (xLoc.map fun x => x - xLoc.getD 0 0)
      (((List.range m).map fun i => column xTime n m i).map fun c => coef c k) (kap k) detLim = .ok Z := by
    intro k
    obtain ⟨A, B, hz, -⟩ := zsSolve_spec (x := xLoc) (dist_sub hg.len) (((List.range m).map fun i => column xTime n m i).map fun c => coef c k) (kap k) h0
    exact ⟨(A, B), hz⟩
  choose Z hZ using hex
  have hcore := zsCore_eq hm (cols := (List.range m).map fun i => column xTime n m i) (by
      intro h; have := congrArg List.length h; simp at this; omega)
    (by intro c hc; obtain ⟨i, -, rfl⟩ := List.mem_map.1 hc; exact column_length _ _ _ _) hh xLoc wLoc detLim
    (fun k => (Z k).1) (fun k => (Z k).2) (by
      intro k _
      rw [BinWaveNumbers.eq hh hkap]
      exact hZ k)
  have hd0 : zsDet wLoc xLoc (kap 0) = 0 := by
    have e : kap 0 = 0 := by
      have h3 := hkap 0
      have h4 := disper_zero hh (by norm_num : (0 : ℝ) < 981 / 100)
      rw [show (2 * Real.pi * ((0 : ℕ) : ℝ) / (ts.length * (ts.getD 1 0 - ts.getD 0 0))) = 0 by simp, h4] at h3
      simp only [Except.ok.injEq, List.cons.injEq, and_true] at h3
      exact h3.symm
    unfold zsDet
    rw [e]; simp
  have hz0 : (Z 0).1 = 0 ∧ (Z 0).2 = 0 := by
    obtain ⟨A, B, hz, hzero, -⟩ := zsSolve_spec (x := xLoc) (dist_sub hg.len)
      (((List.range m).map fun i => column xTime n m i).map fun c => coef c 0) (kap 0) h0
    rw [hZ 0] at hz
    obtain ⟨rfl, rfl⟩ := hzero (by rw [hd0, abs_zero]; exact not_lt.2 h0)
    simp only [Except.ok.injEq] at hz
    rw [hz]; exact ⟨rfl, rfl⟩
  have hsum : ∀ W : ℕ → ℂ, W 0 = 0 → ((List.range n).map fun j => (inv n (symExt n W) j).re).sum = 0 := by
    intro W hW
    have h1 := coef_symExt h2 W (k := 0) (by omega)
    rw [coef_zero, if_pos (Or.inl rfl), hW] at h1
    exact_mod_cast h1
  refine ⟨_, _, hcore, by simp [hn], by simp [hn], hsum _ hz0.1, hsum _ hz0.2, fun k hk0 hk => ?_⟩
  rw [coef_symExt h2 _ (by omega), coef_symExt h2 _ (by omega), if_neg (by omega), if_neg (by omega)]
  constructor
  · intro hlt
    obtain ⟨A, B, hz, hzero, -⟩ := zsSolve_spec (x := xLoc) (dist_sub hg.len)
      (((List.range m).map fun i => column xTime n m i).map fun c => coef c k) (kap k) h0
    rw [hZ k] at hz
    obtain ⟨rfl, rfl⟩ := hzero hlt
    simp only [Except.ok.injEq] at hz
    rw [hz]; exact ⟨rfl, rfl⟩
  · intro hlt hw A' B'
    obtain ⟨A, B, hz, hls⟩ := zsSolve_least_squares (x := xLoc) (dist_sub hg.len) (by
        intro i hi
        apply hw
        rw [List.getD_eq_getElem _ _ hi]
        exact List.getElem_mem hi)
      (((List.range m).map fun i => column xTime n m i).map fun c => coef c k) (kap k) h0 hlt
    rw [hZ k] at hz
    simp only [Except.ok.injEq] at hz
    have h3 := hls A' B'
    rw [hz]
    have conv : ∀ P Q : ℂ, ∑ i ∈ range wLoc.length, wLoc.getD i 0 * ‖coef (column xTime n m i) k -
            P * exp (-I * (kap k : ℂ) * ((xLoc.getD i 0 - xLoc.getD 0 0 : ℝ) : ℂ)) -
            Q * exp (I * (kap k : ℂ) * ((xLoc.getD i 0 - xLoc.getD 0 0 : ℝ) : ℂ))‖ ^ 2 =
        ∑ i ∈ range wLoc.length, wLoc.getD i 0 * ‖(((List.range m).map fun i => column xTime n m i).map fun c => coef c k).getD i 0 -
            P * exp (-I * (kap k : ℂ) * (((xLoc.map fun x => x - xLoc.getD 0 0).getD i 0 : ℝ) : ℂ)) -
            Q * exp (I * (kap k : ℂ) * (((xLoc.map fun x => x - xLoc.getD 0 0).getD i 0 : ℝ) : ℂ))‖ ^ 2 := by
      intro P Q
      refine sum_congr rfl fun i hi => ?_
      have hi' : i < m := by have := hg.len; have := mem_range.1 hi; omega
      rw [cols_getD xTime n m k hi', dist_getD xLoc hi']
    rw [conv, conv]
    exact h3

end Verif
