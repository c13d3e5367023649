import Verif.NpFft
import Mathlib.Algebra.Field.GeomSum
import Mathlib.Algebra.BigOperators.Field
import Mathlib.RingTheory.RootsOfUnity.Complex
import Mathlib.Tactic.LinearCombination

/-! # Discrete Fourier sums: orthogonality, inversion, Parseval -/

set_option linter.unusedSectionVars false

namespace Verif
open Finset Complex

theorem twiddle_zero (n : ℕ) : twiddle n 0 = 1 := by simp [twiddle]

theorem twiddle_add (n : ℕ) (a b : ℤ) : twiddle n (a + b) = twiddle n a * twiddle n b := by
  unfold twiddle
  rw [← Complex.exp_add]
  congr 1
  push_cast
  ring

theorem twiddle_neg_mul (n : ℕ) (a : ℤ) : twiddle n (-a) * twiddle n a = 1 := by
  rw [← twiddle_add]; simp [twiddle_zero]

theorem twiddle_pow (n : ℕ) (a : ℤ) (j : ℕ) : twiddle n a ^ j = twiddle n (j * a) := by
  unfold twiddle
  rw [← Complex.exp_nat_mul]
  congr 1
  push_cast
  ring

theorem conj_twiddle (n : ℕ) (a : ℤ) : (starRingEnd ℂ) (twiddle n a) = twiddle n (-a) := by
  unfold twiddle
  rw [← Complex.exp_conj]
  congr 1
  simp [Complex.conj_ofReal, map_ofNat]

theorem norm_twiddle (n : ℕ) (a : ℤ) : ‖twiddle n a‖ = 1 := by
  unfold twiddle
  have : (2 * (Real.pi : ℂ) * Complex.I * a / n) = ((2 * Real.pi * a / n : ℝ) : ℂ) * Complex.I := by push_cast; ring
  rw [this, Complex.norm_exp_ofReal_mul_I]

theorem twiddle_eq_one_iff {n : ℕ} (hn : 0 < n) (a : ℤ) : twiddle n a = 1 ↔ (n : ℤ) ∣ a := by
  have hn' : (n : ℂ) ≠ 0 := by exact_mod_cast hn.ne'
  unfold twiddle
  rw [Complex.exp_eq_one_iff]
  have hpi : (2 * (Real.pi : ℂ) * Complex.I) ≠ 0 := Complex.two_pi_I_ne_zero
  constructor
  · rintro ⟨m, hm⟩
    refine ⟨m, ?_⟩
    have : (2 * (Real.pi : ℂ) * Complex.I) * a = (2 * (Real.pi : ℂ) * Complex.I) * (n * m) := by
      rw [div_eq_iff hn'] at hm
      rw [hm]; ring
    have := mul_left_cancel₀ hpi this
    exact_mod_cast this
  · rintro ⟨m, rfl⟩
    refine ⟨m, ?_⟩
    push_cast
    field_simp

theorem twiddle_mul_self {n : ℕ} (hn : 0 < n) (a : ℤ) : twiddle n (n * a) = 1 :=
  (twiddle_eq_one_iff hn _).2 (dvd_mul_right _ _)

theorem twiddle_half {n : ℕ} (hn : 0 < n) : twiddle (2 * n) n = -1 := by
  unfold twiddle
  have hn' : (n : ℂ) ≠ 0 := by exact_mod_cast hn.ne'
  have : (2 * (Real.pi : ℂ) * Complex.I * ((n : ℤ) : ℂ) / ((2 * n : ℕ) : ℂ)) = Real.pi * Complex.I := by
    push_cast; field_simp
  rw [this, Complex.exp_pi_mul_I]

/-- Orthogonality of the discrete exponentials. -/
theorem sum_twiddle {n : ℕ} (hn : 0 < n) (m : ℤ) :
    ∑ j ∈ range n, twiddle n (j * m) = if (n : ℤ) ∣ m then (n : ℂ) else 0 := by
  split_ifs with h
  · have : ∀ j ∈ range n, twiddle n (j * m) = 1 := by
      intro j _
      exact (twiddle_eq_one_iff hn _).2 (Dvd.dvd.mul_left h _)
    rw [sum_congr rfl this]; simp
  · have h1 : twiddle n m ≠ 1 := fun h' => h ((twiddle_eq_one_iff hn _).1 h')
    have : ∀ j ∈ range n, twiddle n (j * m) = twiddle n m ^ j := fun j _ => (twiddle_pow n m j).symm
    rw [sum_congr rfl this, geom_sum_eq h1, twiddle_pow, twiddle_mul_self hn, sub_self, zero_div]

theorem dvd_sub_iff_eq {n a b : ℕ} (ha : a < n) (hb : b < n) : ((n : ℤ) ∣ (a : ℤ) - b) ↔ a = b := by
  constructor
  · rintro ⟨m, hm⟩
    have h1 : (a : ℤ) - b < n := by omega
    have h2 : -(n : ℤ) < (a : ℤ) - b := by omega
    have hm0 : m = 0 := by
      by_contra hne
      rcases lt_or_gt_of_ne hne with h | h
      · have : (n : ℤ) * m ≤ n * (-1) := mul_le_mul_of_nonneg_left (by omega) (by omega)
        omega
      · have : (n : ℤ) * 1 ≤ n * m := mul_le_mul_of_nonneg_left (by omega) (by omega)
        omega
    subst hm0
    omega
  · rintro rfl; simp

theorem inv_fwd {n : ℕ} (hn : 0 < n) (x : ℕ → ℂ) {l : ℕ} (hl : l < n) : inv n (fwd n x) l = x l := by
  have hn' : (n : ℂ) ≠ 0 := by exact_mod_cast hn.ne'
  unfold inv fwd
  rw [div_eq_iff hn']
  simp_rw [sum_mul]
  rw [sum_comm]
  have : ∀ j ∈ range n, ∑ k ∈ range n, x j * twiddle n (-((j : ℤ) * k)) * twiddle n ((l : ℤ) * k)
      = if j = l then x l * n else 0 := by
    intro j hj
    have e : ∀ k ∈ range n, x j * twiddle n (-((j : ℤ) * k)) * twiddle n ((l : ℤ) * k)
        = x j * twiddle n ((k : ℤ) * ((l : ℤ) - j)) := by
      intro k _
      rw [mul_assoc, ← twiddle_add]
      congr 2; ring
    rw [sum_congr rfl e, ← mul_sum, sum_twiddle hn]
    simp only [dvd_sub_iff_eq hl (mem_range.1 hj)]
    by_cases h : j = l
    · subst h; simp
    · rw [if_neg (fun h' => h h'.symm), if_neg h, mul_zero]
  rw [sum_congr rfl this, sum_ite_eq' (range n) l]
  simp [hl]

theorem fwd_inv {n : ℕ} (hn : 0 < n) (X : ℕ → ℂ) {l : ℕ} (hl : l < n) : fwd n (inv n X) l = X l := by
  have hn' : (n : ℂ) ≠ 0 := by exact_mod_cast hn.ne'
  unfold inv fwd
  have e0 : ∀ j ∈ range n, (∑ k ∈ range n, X k * twiddle n ((j : ℤ) * k)) / (n : ℂ) * twiddle n (-((j : ℤ) * l))
      = (∑ k ∈ range n, X k * twiddle n ((j : ℤ) * k) * twiddle n (-((j : ℤ) * l))) / n := by
    intro j _
    rw [← sum_mul]; ring
  rw [sum_congr rfl e0, ← sum_div, div_eq_iff hn', sum_comm]
  have : ∀ k ∈ range n, ∑ j ∈ range n, X k * twiddle n ((j : ℤ) * k) * twiddle n (-((j : ℤ) * l))
      = if k = l then X l * n else 0 := by
    intro k hk
    have e : ∀ j ∈ range n, X k * twiddle n ((j : ℤ) * k) * twiddle n (-((j : ℤ) * l))
        = X k * twiddle n ((j : ℤ) * ((k : ℤ) - l)) := by
      intro j _
      rw [mul_assoc, ← twiddle_add]
      congr 2; ring
    rw [sum_congr rfl e, ← mul_sum, sum_twiddle hn]
    simp only [dvd_sub_iff_eq (mem_range.1 hk) hl]
    by_cases h : k = l
    · subst h; simp
    · rw [if_neg h, if_neg h, mul_zero]
  rw [sum_congr rfl this, sum_ite_eq' (range n) l]
  simp [hl]

theorem fwd_congr {n : ℕ} {x y : ℕ → ℂ} (h : ∀ j < n, x j = y j) (k : ℕ) : fwd n x k = fwd n y k :=
  sum_congr rfl fun j hj => by rw [h j (mem_range.1 hj)]

theorem inv_congr {n : ℕ} {x y : ℕ → ℂ} (h : ∀ j < n, x j = y j) (k : ℕ) : inv n x k = inv n y k := by
  unfold inv
  rw [sum_congr rfl fun j hj => by rw [h j (mem_range.1 hj)]]

theorem fwd_zero (n : ℕ) (x : ℕ → ℂ) : fwd n x 0 = ∑ j ∈ range n, x j := by
  unfold fwd; simp [twiddle_zero]

theorem fwd_add (n : ℕ) (x y : ℕ → ℂ) (k : ℕ) : fwd n (fun j => x j + y j) k = fwd n x k + fwd n y k := by
  unfold fwd; rw [← sum_add_distrib]; exact sum_congr rfl fun j _ => by ring

theorem fwd_smul (n : ℕ) (c : ℂ) (x : ℕ → ℂ) (k : ℕ) : fwd n (fun j => c * x j) k = c * fwd n x k := by
  unfold fwd; rw [mul_sum]; exact sum_congr rfl fun j _ => by ring

theorem inv_add (n : ℕ) (x y : ℕ → ℂ) (k : ℕ) : inv n (fun j => x j + y j) k = inv n x k + inv n y k := by
  unfold inv; rw [← add_div, ← sum_add_distrib]; congr 1; exact sum_congr rfl fun j _ => by ring

theorem inv_smul (n : ℕ) (c : ℂ) (x : ℕ → ℂ) (k : ℕ) : inv n (fun j => c * x j) k = c * inv n x k := by
  unfold inv; rw [← mul_div_assoc, mul_sum]; congr 1; exact sum_congr rfl fun j _ => by ring

/-- Parseval for the forward transform. -/
theorem parseval {n : ℕ} (hn : 0 < n) (x : ℕ → ℂ) :
    ∑ k ∈ range n, Complex.normSq (fwd n x k) = n * ∑ j ∈ range n, Complex.normSq (x j) := by
  have key : ∑ k ∈ range n, (fwd n x k) * (starRingEnd ℂ) (fwd n x k)
      = (n : ℂ) * ∑ j ∈ range n, x j * (starRingEnd ℂ) (x j) := by
    have hn' : (n : ℂ) ≠ 0 := by exact_mod_cast hn.ne'
    have e1 : ∀ k ∈ range n, fwd n x k * (starRingEnd ℂ) (fwd n x k)
        = ∑ j ∈ range n, fwd n x k * ((starRingEnd ℂ) (x j) * twiddle n ((j : ℤ) * k)) := by
      intro k _
      rw [← mul_sum]
      congr 1
      unfold fwd
      rw [map_sum]
      refine sum_congr rfl fun j _ => ?_
      rw [map_mul, conj_twiddle, neg_neg]
    rw [sum_congr rfl e1, sum_comm, mul_sum]
    refine sum_congr rfl fun j hj => ?_
    have h := inv_fwd hn x (mem_range.1 hj)
    unfold inv at h
    rw [div_eq_iff hn'] at h
    calc ∑ k ∈ range n, fwd n x k * ((starRingEnd ℂ) (x j) * twiddle n ((j : ℤ) * k))
        = (starRingEnd ℂ) (x j) * ∑ k ∈ range n, fwd n x k * twiddle n ((j : ℤ) * k) := by
          rw [mul_sum]; exact sum_congr rfl fun k _ => by ring
      _ = _ := by rw [h]; ring
  have h2 := congrArg Complex.re key
  simp only [Complex.mul_conj] at h2
  rw [← Complex.ofReal_sum, ← Complex.ofReal_sum] at h2
  rw [Complex.ofReal_re] at h2
  rw [h2]
  simp

/-- Parseval for the inverse transform. -/
theorem parseval_inv {n : ℕ} (hn : 0 < n) (X : ℕ → ℂ) :
    ∑ k ∈ range n, Complex.normSq (X k) = n * ∑ j ∈ range n, Complex.normSq (inv n X j) := by
  rw [← parseval hn]
  exact sum_congr rfl fun k hk => by rw [fwd_inv hn X (mem_range.1 hk)]

/-- The transform of a real signal is conjugate symmetric. -/
theorem fwd_conj {n : ℕ} (hn : 0 < n) {x : ℕ → ℂ} (hx : ∀ j < n, (starRingEnd ℂ) (x j) = x j) {k : ℕ} (hk : k ≤ n) :
    fwd n x (n - k) = (starRingEnd ℂ) (fwd n x k) := by
  unfold fwd
  rw [map_sum]
  refine sum_congr rfl fun j hj => ?_
  rw [map_mul, conj_twiddle, neg_neg, hx j (mem_range.1 hj)]
  congr 1
  have e : -((j : ℤ) * ((n - k : ℕ) : ℤ)) = (j : ℤ) * k + n * (-(j : ℤ)) := by
    rw [Nat.cast_sub hk]; ring
  rw [e, twiddle_add, twiddle_mul_self hn, mul_one]

/-- The inverse transform of a conjugate-symmetric spectrum is real. -/
theorem inv_real {n : ℕ} (hn : 0 < n) {X : ℕ → ℂ} (h0 : (starRingEnd ℂ) (X 0) = X 0)
    (hX : ∀ k, 0 < k → k < n → X (n - k) = (starRingEnd ℂ) (X k)) (j : ℕ) :
    (starRingEnd ℂ) (inv n X j) = inv n X j := by
  unfold inv
  rw [map_div₀, map_natCast]
  congr 1
  rw [map_sum]
  obtain ⟨m, rfl⟩ : ∃ m, n = m + 1 := ⟨n - 1, by omega⟩
  rw [sum_range_succ', sum_range_succ' (fun k => X k * _)]
  congr 1
  · rw [← sum_range_reflect]
    refine sum_congr rfl fun k hk => ?_
    have hk' := mem_range.1 hk
    have := hX (m - 1 - k + 1) (by omega) (by omega)
    rw [map_mul, conj_twiddle, ← this]
    have e1 : m + 1 - (m - 1 - k + 1) = k + 1 := by omega
    rw [e1]
    congr 1
    have e2 : ((m - 1 - k + 1 : ℕ) : ℤ) = (m + 1 : ℕ) - (k + 1 : ℕ) := by omega
    rw [e2]
    have e3 : -((j : ℤ) * (((m + 1 : ℕ) : ℤ) - ((k + 1 : ℕ) : ℤ))) = (j : ℤ) * ((k + 1 : ℕ) : ℤ) + ((m + 1 : ℕ) : ℤ) * (-(j : ℤ)) := by
      ring
    rw [e3, twiddle_add, twiddle_mul_self hn, mul_one]
  · simp [h0, twiddle_zero]

end Verif
