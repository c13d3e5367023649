import Verif.Props.SeriesInit
import Verif.Model.SeriesSig
import Verif.Props.Filter

/-! # C60: skewness and asymmetry of a signal -/

namespace Verif
open Finset Complex

/-! ## Lists -/

theorem mean_map_reverse (x : List ℝ) (g : ℝ → ℝ) : mean (x.reverse.map g) = mean (x.map g) := by
  unfold mean
  rw [List.map_reverse, List.sum_reverse, List.length_reverse]

theorem mean_reverse (x : List ℝ) : mean x.reverse = mean x := by
  unfold mean
  rw [List.sum_reverse, List.length_reverse]

theorem mean_map_mul (x : List ℝ) (c : ℝ) : mean (x.map fun v => c * v) = c * mean x := by
  unfold mean
  rw [List.sum_map_mul_left, List.length_map, mul_div_assoc]
  simp

theorem mean_map_add {x : List ℝ} (hx : x ≠ []) (c : ℝ) : mean (x.map fun v => v + c) = mean x + c := by
  have : (x.length : ℝ) ≠ 0 := by exact_mod_cast (List.length_pos_of_ne_nil hx).ne'
  unfold mean
  rw [List.sum_map_add, List.length_map, add_div]
  simp [this]

theorem mean_map_congr_mul {x : List ℝ} (g : ℝ → ℝ) (c : ℝ) : mean (x.map fun v => c * g v) = c * mean (x.map g) := by
  rw [← mean_map_mul, List.map_map]; rfl

/-- A mean of squares is zero exactly if all values are. -/
theorem msq_eq_zero {x : List ℝ} (hx : x ≠ []) (g : ℝ → ℝ) : mean (x.map fun v => g v ^ 2) = 0 ↔ ∀ v ∈ x, g v = 0 := by
  have hl : (0 : ℝ) < x.length := by exact_mod_cast List.length_pos_of_ne_nil hx
  unfold mean
  rw [List.length_map, div_eq_zero_iff, or_iff_left hl.ne']
  clear hx hl
  induction x with
  | nil => simp
  | cons a l ih =>
    rw [List.map_cons, List.sum_cons]
    have h1 : 0 ≤ (l.map fun v => g v ^ 2).sum := List.sum_nonneg (by
      intro y hy; obtain ⟨z, -, rfl⟩ := List.mem_map.1 hy; positivity)
    have h2 := sq_nonneg (g a)
    constructor
    · intro h v hv
      have e1 : g a ^ 2 = 0 := by linarith
      have e2 : (l.map fun v => g v ^ 2).sum = 0 := by linarith
      rcases List.mem_cons.1 hv with rfl | hv
      · exact pow_eq_zero_iff (two_ne_zero) |>.1 e1
      · exact ih.1 e2 v hv
    · intro h
      rw [h a (List.mem_cons_self ..), ih.2 (fun v hv => h v (List.mem_cons_of_mem _ hv))]
      ring

theorem msq_nonneg (x : List ℝ) (g : ℝ → ℝ) : 0 ≤ mean (x.map fun v => g v ^ 2) := by
  unfold mean
  apply div_nonneg _ (Nat.cast_nonneg _)
  exact List.sum_nonneg (by intro y hy; obtain ⟨z, -, rfl⟩ := List.mem_map.1 hy; positivity)

theorem over15_scale {c a b : ℝ} (hc : 0 < c) (hb : 0 ≤ b) : over15 (c ^ 3 * a) (c ^ 2 * b) = over15 a b := by
  unfold over15
  by_cases h : b = 0
  · rw [if_pos (by rw [h, mul_zero]), if_pos h]
  · rw [if_neg (by positivity), if_neg h, Real.mul_rpow (by positivity) hb]
    have : (c ^ 2) ^ (3 / 2 : ℝ) = c ^ 3 := by
      rw [← Real.rpow_natCast, ← Real.rpow_mul hc.le, ← Real.rpow_natCast]; norm_num
    rw [this, mul_div_mul_left _ _ (by positivity)]

theorem over15_neg (a b : ℝ) : over15 (-a) b = (over15 a b).map Neg.neg := by
  unfold over15
  split_ifs
  · rfl
  · simp only [Except.map]; rw [neg_div]

/-! ## Skewness -/

/-- **C60 (skewness: definition).**  The skewness is `Σ(x-x̄)³/n / (Σ(x-x̄)²/n)^1.5`, and it is defined for every signal that is not
constant. -/
theorem skewness_defined {x : List ℝ} (hx : ∃ a ∈ x, ∃ b ∈ x, a ≠ b) :
    skewnessL x = .ok (mean (x.map fun v => (v - mean x) ^ 3) / mean (x.map fun v => (v - mean x) ^ 2) ^ (1.5 : ℝ)) := by
  obtain ⟨a, ha, b, hb, hab⟩ := hx
  have hne : x ≠ [] := by rintro rfl; cases ha
  unfold skewnessL over15
  rw [if_neg hne, if_neg]
  · norm_num
  · intro h
    rw [msq_eq_zero hne (fun v => v - mean x)] at h
    exact hab (by linarith [h a ha, h b hb])

/-- **C60.**  Adding a constant does not change the skewness. -/
theorem skewness_shift (x : List ℝ) (c : ℝ) : skewnessL (x.map fun v => v + c) = skewnessL x := by
  by_cases hx : x = []
  · rw [hx]; rfl
  unfold skewnessL
  rw [if_neg (by simpa using hx), if_neg hx, mean_map_add hx, List.map_map, List.map_map]
  congr 2
  · apply List.map_congr_left; intro v _; simp only [Function.comp]; ring
  · apply List.map_congr_left; intro v _; simp only [Function.comp]; ring

/-- **C60.**  A positive factor does not change the skewness. -/
theorem skewness_scale (x : List ℝ) {c : ℝ} (hc : 0 < c) : skewnessL (x.map fun v => c * v) = skewnessL x := by
  by_cases hx : x = []
  · rw [hx]; rfl
  unfold skewnessL
  rw [if_neg (by simpa using hx), if_neg hx, mean_map_mul, List.map_map, List.map_map]
  rw [← over15_scale hc (msq_nonneg x fun v => v - mean x), ← mean_map_congr_mul, ← mean_map_congr_mul]
  congr 2
  · apply List.map_congr_left; intro v _; simp only [Function.comp]; ring
  · apply List.map_congr_left; intro v _; simp only [Function.comp]; ring

/-- **C60.**  Negating the signal negates the skewness. -/
theorem skewness_neg (x : List ℝ) : skewnessL (x.map Neg.neg) = (skewnessL x).map Neg.neg := by
  by_cases hx : x = []
  · rw [hx]; rfl
  have hm : mean (x.map Neg.neg) = -mean x := by
    rw [← neg_one_mul, ← mean_map_mul]; congr 1; apply List.map_congr_left; intro v _; ring
  unfold skewnessL
  rw [if_neg (by simpa using hx), if_neg hx, ← over15_neg, hm, List.map_map, List.map_map]
  congr 1
  · rw [show -mean (x.map fun v => (v - mean x) ^ 3) = (-1) * mean (x.map fun v => (v - mean x) ^ 3) by ring, ← mean_map_congr_mul]
    congr 1
    apply List.map_congr_left; intro v _; simp only [Function.comp]; ring
  · congr 1
    apply List.map_congr_left; intro v _; simp only [Function.comp]; ring

/-- **C60.**  Time reversal does not change the skewness. -/
theorem skewness_reverse (x : List ℝ) : skewnessL x.reverse = skewnessL x := by
  unfold skewnessL
  rw [mean_reverse, mean_map_reverse, mean_map_reverse]
  simp

/-! ## Asymmetry -/

/-- The analytic signal at time index `j`. -/
noncomputable def analytic (x : List ℝ) (j : Nat) : ℂ := inv x.length (fun k => coef x k * hilbertWeight x.length k) j

theorem hilbert_eq (x : List ℝ) : hilbert x = (List.range x.length).map (analytic x) := by
  unfold hilbert npIfft
  dsimp only
  rw [npFft_ofReal, List.length_map, List.length_range]
  apply List.map_congr_left
  intro j _
  unfold analytic
  apply inv_congr
  intro k hk
  rw [getD_map_range _ _ _ _ hk, getD_map_range _ _ _ _ hk]

theorem hilbertWeight_real (n k : Nat) : (starRingEnd ℂ) (hilbertWeight n k) = hilbertWeight n k := by
  unfold hilbertWeight
  split_ifs <;> first | exact map_one _ | exact map_ofNat _ 2 | exact map_zero _

/-- `(n - k) mod n`, the index of the negative frequency. -/
def negIdx (n k : Nat) : Nat := (n - k) % n

theorem negIdx_lt {n : Nat} (hn : 0 < n) (k : Nat) : negIdx n k < n := Nat.mod_lt _ hn

theorem negIdx_zero (n : Nat) : negIdx n 0 = 0 := by simp [negIdx]

theorem negIdx_pos {n k : Nat} (h0 : 0 < k) (hk : k < n) : negIdx n k = n - k := Nat.mod_eq_of_lt (by omega)

theorem negIdx_negIdx {n k : Nat} (hk : k < n) : negIdx n (negIdx n k) = k := by
  rcases Nat.eq_zero_or_pos k with rfl | h0
  · rw [negIdx_zero, negIdx_zero]
  · rw [negIdx_pos h0 hk, negIdx_pos (by omega) (by omega)]; omega

theorem sum_negIdx {n : Nat} (hn : 0 < n) (a : Nat → ℂ) : ∑ k ∈ range n, a (negIdx n k) = ∑ k ∈ range n, a k :=
  Finset.sum_nbij' (negIdx n) (negIdx n) (fun k _ => mem_range.2 (negIdx_lt hn k)) (fun k _ => mem_range.2 (negIdx_lt hn k))
    (fun k hk => negIdx_negIdx (mem_range.1 hk)) (fun k hk => negIdx_negIdx (mem_range.1 hk)) (fun _ _ => rfl)

theorem coef_negIdx (x : List ℝ) {k : Nat} (hk : k < x.length) : coef x (negIdx x.length k) = (starRingEnd ℂ) (coef x k) := by
  rcases Nat.eq_zero_or_pos k with rfl | h0
  · rw [negIdx_zero, coef_zero, Complex.conj_ofReal]
  · rw [negIdx_pos h0 hk, coef_conj x hk.le (by omega)]

theorem twiddle_negIdx {n k : Nat} (hk : k < n) (j : ℤ) : twiddle n (j * (negIdx n k : ℕ)) = twiddle n (-(j * k)) := by
  rcases Nat.eq_zero_or_pos k with rfl | h0
  · rw [negIdx_zero]; simp
  · rw [negIdx_pos h0 hk, Nat.cast_sub hk.le, mul_sub, sub_eq_add_neg, twiddle_add, mul_comm j (n : ℤ), twiddle_mul_self (by omega), one_mul]

theorem hilbertWeight_add {n k : Nat} (hk : k < n) : hilbertWeight n k + hilbertWeight n (negIdx n k) = 2 := by
  rcases Nat.eq_zero_or_pos k with rfl | h0
  · rw [negIdx_zero]; simp only [hilbertWeight, if_true]; norm_num
  · rw [negIdx_pos h0 hk]
    unfold hilbertWeight
    rw [if_neg (show ¬ k = 0 by omega), if_neg (show ¬ n - k = 0 by omega)]
    by_cases hp : n % 2 = 0
    · rw [if_pos hp, if_pos hp]
      rcases lt_trichotomy k (n / 2) with h | h | h
      · rw [if_neg (by omega), if_pos h, if_neg (by omega), if_neg (by omega)]; norm_num
      · rw [if_pos h, if_pos (by omega)]; norm_num
      · rw [if_neg (by omega), if_neg (by omega), if_neg (by omega), if_pos (by omega)]; norm_num
    · rw [if_neg hp, if_neg hp]
      by_cases h : k < (n + 1) / 2
      · rw [if_pos h, if_neg (by omega)]; norm_num
      · rw [if_neg h, if_pos (by omega)]; norm_num

/-- The conjugate of the analytic signal uses the weights of the negative frequencies. -/
theorem conj_analytic (x : List ℝ) (j : Nat) (hn : 0 < x.length) :
    (starRingEnd ℂ) (analytic x j) = inv x.length (fun k => coef x k * hilbertWeight x.length (negIdx x.length k)) j := by
  unfold analytic inv
  rw [map_div₀, map_sum, map_natCast,
    ← sum_negIdx hn (fun k => coef x k * hilbertWeight x.length (negIdx x.length k) * twiddle x.length ((j : ℤ) * k))]
  congr 1
  apply Finset.sum_congr rfl
  intro k hk
  rw [mem_range] at hk
  rw [map_mul, map_mul, hilbertWeight_real, conj_twiddle, coef_negIdx x hk, negIdx_negIdx hk, twiddle_negIdx hk]

/-- The real part of the analytic signal is the signal itself. -/
theorem hilbert_re (x : List ℝ) {j : Nat} (hj : j < x.length) : (analytic x j).re = x.getD j 0 := by
  have hn : 0 < x.length := by omega
  have key : analytic x j + (starRingEnd ℂ) (analytic x j) = 2 * ((x.getD j 0 : ℝ) : ℂ) := by
    rw [conj_analytic x j hn]
    unfold analytic
    rw [← inv_add]
    have : inv x.length (fun k => coef x k * hilbertWeight x.length k + coef x k * hilbertWeight x.length (negIdx x.length k)) j =
        inv x.length (fun k => 2 * coef x k) j := by
      apply inv_congr
      intro k hk
      rw [← mul_add, hilbertWeight_add hk]; ring
    rw [this, inv_smul]
    congr 1
    exact inv_fwd hn _ hj
  have := congrArg Complex.re key
  simp only [Complex.add_re, Complex.conj_re, Complex.mul_re, Complex.ofReal_re, Complex.ofReal_im, Complex.re_ofNat, Complex.im_ofNat] at this
  linarith

/-- The quadrature component (imaginary part of the analytic signal). -/
noncomputable def quadrature (x : List ℝ) : List ℝ := (List.range x.length).map fun j => (analytic x j).im

theorem asymmetryL_eq {x : List ℝ} (hx : x ≠ []) :
    asymmetryL x = over15 (mean ((quadrature x).map fun v => v ^ 3)) (mean (x.map fun v => (v - mean x) ^ 2)) := by
  unfold asymmetryL quadrature
  rw [if_neg hx, hilbert_eq, List.map_map]
  rfl

/-- **C60 (asymmetry: definition).**  The asymmetry is `Σ η³/n / (Σ(x-x̄)²/n)^1.5` with `η` the quadrature component of the
signal, and it is defined for every signal that is not constant. -/
theorem asymmetry_defined {x : List ℝ} (hx : ∃ a ∈ x, ∃ b ∈ x, a ≠ b) :
    asymmetryL x = .ok (mean ((quadrature x).map fun v => v ^ 3) / mean (x.map fun v => (v - mean x) ^ 2) ^ (1.5 : ℝ)) := by
  obtain ⟨a, ha, b, hb, hab⟩ := hx
  have hne : x ≠ [] := by rintro rfl; cases ha
  rw [asymmetryL_eq hne]
  unfold over15
  rw [if_neg]
  · norm_num
  · intro h
    rw [msq_eq_zero hne (fun v => v - mean x)] at h
    exact hab (by linarith [h a ha, h b hb])

theorem coef_mul (x : List ℝ) (c : ℝ) (k : Nat) : coef (x.map fun v => c * v) k = (c : ℂ) * coef x k := by
  unfold coef
  rw [List.length_map, ← fwd_smul]
  apply fwd_congr
  intro j hj
  rw [List.getD_eq_getElem _ _ (by simpa using hj), List.getD_eq_getElem _ _ hj, List.getElem_map]
  push_cast; ring

theorem analytic_mul (x : List ℝ) (c : ℝ) (j : Nat) : analytic (x.map fun v => c * v) j = (c : ℂ) * analytic x j := by
  unfold analytic
  rw [List.length_map, ← inv_smul]
  apply inv_congr
  intro k _
  rw [coef_mul]; ring

theorem quadrature_mul (x : List ℝ) (c : ℝ) : quadrature (x.map fun v => c * v) = (quadrature x).map fun v => c * v := by
  unfold quadrature
  rw [List.length_map, List.map_map]
  apply List.map_congr_left
  intro j _
  simp only [Function.comp]
  rw [analytic_mul, Complex.im_ofReal_mul]

/-- **C60.**  A positive factor does not change the asymmetry. -/
theorem asymmetry_scale (x : List ℝ) {c : ℝ} (hc : 0 < c) : asymmetryL (x.map fun v => c * v) = asymmetryL x := by
  by_cases hx : x = []
  · rw [hx]; rfl
  rw [asymmetryL_eq hx, asymmetryL_eq (by simpa using hx), quadrature_mul, mean_map_mul, List.map_map, List.map_map,
    ← over15_scale hc (msq_nonneg x fun v => v - mean x), ← mean_map_congr_mul, ← mean_map_congr_mul]
  congr 2
  · apply List.map_congr_left; intro v _; simp only [Function.comp]; ring
  · apply List.map_congr_left; intro v _; simp only [Function.comp]; ring

/-- **C60.**  Negating the signal negates the asymmetry. -/
theorem asymmetry_neg {x : List ℝ} (hx : x ≠ []) : asymmetryL (x.map Neg.neg) = (asymmetryL x).map Neg.neg := by
  have hn : x.map Neg.neg = x.map fun v => (-1) * v := List.map_congr_left fun v _ => by ring
  rw [asymmetryL_eq hx, asymmetryL_eq (by simpa using hx), ← over15_neg, hn, quadrature_mul, mean_map_mul, List.map_map, List.map_map]
  congr 1
  · rw [show -mean ((quadrature x).map fun v => v ^ 3) = (-1) * mean ((quadrature x).map fun v => v ^ 3) by ring, ← mean_map_congr_mul]
    congr 1
    apply List.map_congr_left; intro v _; simp only [Function.comp]; ring
  · congr 1
    apply List.map_congr_left; intro v _; simp only [Function.comp]; ring

theorem coef_reverse (x : List ℝ) (k : Nat) : coef x.reverse k = twiddle x.length k * (starRingEnd ℂ) (coef x k) := by
  unfold coef fwd
  rw [List.length_reverse, map_sum, Finset.mul_sum]
  conv_lhs => rw [← Finset.sum_range_reflect]
  apply Finset.sum_congr rfl
  intro j hj
  rw [mem_range] at hj
  have e1 : x.reverse.getD (x.length - 1 - j) 0 = x.getD j 0 := by
    have h1 : x.length - 1 - j < x.reverse.length := by rw [List.length_reverse]; omega
    rw [List.getD_eq_getElem _ _ h1, List.getElem_reverse, List.getD_eq_getElem _ _ hj]
    congr 1
    omega
  have e2 : -(((x.length - 1 - j : ℕ) : ℤ) * k) = ((k : ℤ) + -(-((j : ℤ) * k))) + x.length * (-(k : ℤ)) := by
    rw [Nat.cast_sub (by omega), Nat.cast_sub (by omega)]; push_cast; ring
  dsimp only
  rw [map_mul, Complex.conj_ofReal, conj_twiddle, e1, e2, twiddle_add _ _ ((x.length : ℤ) * (-(k : ℤ))), twiddle_mul_self (by omega), mul_one,
    twiddle_add]
  ring

/-- Time reversal conjugates and reverses the analytic signal. -/
theorem analytic_reverse (x : List ℝ) {j : Nat} (hj : j < x.length) :
    analytic x.reverse j = (starRingEnd ℂ) (analytic x (x.length - 1 - j)) := by
  unfold analytic inv
  rw [List.length_reverse, map_div₀, map_sum, map_natCast]
  congr 1
  apply Finset.sum_congr rfl
  intro k _
  dsimp only
  rw [coef_reverse, map_mul, map_mul, hilbertWeight_real, conj_twiddle]
  rw [show twiddle x.length k * (starRingEnd ℂ) (coef x k) * hilbertWeight x.length k * twiddle x.length ((j : ℤ) * k) =
    (starRingEnd ℂ) (coef x k) * hilbertWeight x.length k * (twiddle x.length k * twiddle x.length ((j : ℤ) * k)) by ring, ← twiddle_add]
  congr 1
  rw [Nat.cast_sub (by omega), Nat.cast_sub (by omega)]
  rw [show -(((x.length : ℤ) - (1 : ℕ) - j) * k) = ((k : ℤ) + (j : ℤ) * k) + x.length * (-(k : ℤ)) by push_cast; ring,
    twiddle_add _ _ ((x.length : ℤ) * (-(k : ℤ))), twiddle_mul_self (by omega), mul_one]

theorem quadrature_reverse (x : List ℝ) : quadrature x.reverse = ((quadrature x).map fun v => (-1) * v).reverse := by
  unfold quadrature
  rw [List.length_reverse]
  apply List.ext_getElem
  · simp
  intro j h1 h2
  have hj : j < x.length := by simpa using h1
  rw [List.getElem_map, List.getElem_range, List.getElem_reverse, List.getElem_map, List.getElem_map, List.getElem_range]
  rw [analytic_reverse x hj, Complex.conj_im]
  simp

/-- **C60.**  Time reversal negates the asymmetry. -/
theorem asymmetry_reverse {x : List ℝ} (hx : x ≠ []) : asymmetryL x.reverse = (asymmetryL x).map Neg.neg := by
  rw [asymmetryL_eq hx, asymmetryL_eq (by simpa using hx), ← over15_neg, quadrature_reverse, mean_reverse, mean_map_reverse,
    mean_map_reverse, List.map_map]
  congr 1
  rw [show -mean ((quadrature x).map fun v => v ^ 3) = (-1) * mean ((quadrature x).map fun v => v ^ 3) by ring, ← mean_map_congr_mul]
  congr 1
  apply List.map_congr_left; intro v _; simp only [Function.comp]; ring

/-- **C60.**  Adding a constant does not change the asymmetry. -/
theorem asymmetry_shift {x : List ℝ} (hx : x ≠ []) (c : ℝ) : asymmetryL (x.map fun v => v + c) = asymmetryL x := by
  have hn : 0 < x.length := List.length_pos_of_ne_nil hx
  have hq : quadrature (x.map fun v => v + c) = quadrature x := by
    unfold quadrature
    rw [List.length_map]
    apply List.map_congr_left
    intro j hj
    have e : analytic (x.map fun v => v + c) j = analytic x j + c := by
      have hc : ∀ k < x.length, coef (x.map fun v => v + c) k = coef x k + (if k = 0 then ((x.length : ℝ) * c : ℝ) else (0 : ℝ)) := by
        intro k hk
        have h1 : coef (x.map fun v => v + c) k = fwd x.length (fun j => ((x.getD j 0 : ℝ) : ℂ) + (c : ℂ) * 1) k := by
          unfold coef
          rw [List.length_map]
          apply fwd_congr
          intro i hi
          rw [List.getD_eq_getElem _ _ (by simpa using hi), List.getD_eq_getElem _ _ hi, List.getElem_map]
          push_cast; ring
        rw [h1, fwd_add x.length (fun j => ((x.getD j 0 : ℝ) : ℂ)) (fun _ => (c : ℂ) * 1), fwd_smul]
        congr 1
        unfold fwd
        simp only [one_mul]
        have h2 := sum_twiddle hn (-(k : ℤ))
        rw [show (∑ j ∈ range x.length, twiddle x.length (-((j : ℤ) * k))) = ∑ j ∈ range x.length, twiddle x.length ((j : ℤ) * -(k : ℤ)) from
          Finset.sum_congr rfl fun j _ => by rw [mul_neg], h2]
        split_ifs with h3 h4 h4
        · push_cast; ring
        · exfalso
          rw [dvd_neg] at h3
          have := Int.natCast_dvd_natCast.1 h3
          exact absurd (Nat.le_of_dvd (by omega) this) (by omega)
        · exfalso; apply h3; rw [h4]; simp
        · simp
      unfold analytic
      rw [List.length_map]
      rw [inv_congr (y := fun k => coef x k * hilbertWeight x.length k + (if k = 0 then ((x.length : ℝ) * c : ℝ) else (0 : ℝ)) ) (by
        intro k hk
        rw [hc k hk]
        by_cases h : k = 0
        · subst h; simp [hilbertWeight]
        · rw [if_neg h]; simp), inv_add]
      congr 1
      unfold inv
      rw [Finset.sum_eq_single 0]
      · have : (x.length : ℂ) ≠ 0 := by exact_mod_cast hn.ne'
        simp [twiddle_zero]
        field_simp
      · intro b _ hb; simp [hb]
      · intro h; exact absurd (mem_range.2 hn) h
    rw [e]; simp
  rw [asymmetryL_eq hx, asymmetryL_eq (by simpa using hx), hq, mean_map_add hx, List.map_map]
  congr 2
  apply List.map_congr_left; intro v _; simp only [Function.comp]; ring

/-! ## Stated for `Series` objects -/

/-- **C60 (for `Series`).**  A `Series` built on a valid time axis from a 1D signal (array or list) that is not constant reports
the skewness and the asymmetry of that signal. -/
theorem series_getters {pt px : PyIn ℝ} {t x : List ℝ} {dt : ℝ} (ht : pt.IsVec t)
    (hx : px.IsVec x) (h2 : 2 ≤ t.length) (hlen : t.length = x.length) (hu : UniformAxis t dt) (hc : ∃ a ∈ x, ∃ b ∈ x, a ≠ b) :
    ∃ s, SeriesObj.init pt px = .ok s ∧
      s.getSkewness = .ok (mean (x.map fun v => (v - mean x) ^ 3) / mean (x.map fun v => (v - mean x) ^ 2) ^ (1.5 : ℝ)) ∧
      s.getAsymmetry = .ok (mean ((quadrature x).map fun v => v ^ 3) / mean (x.map fun v => (v - mean x) ^ 2) ^ (1.5 : ℝ)) := by
  obtain ⟨s, -, -, -, h, -, hsx, -⟩ := series_never_fails ht hx h2 hlen hu
  refine ⟨s, h, ?_, ?_⟩
  · unfold SeriesObj.getSkewness
    rw [hsx]
    exact skewness_defined hc
  · unfold SeriesObj.getAsymmetry SeriesObj.sig
    rw [hsx]
    exact asymmetry_defined hc

/-- A skewed signal: the hypotheses are met and the value is positive. -/
example : ∃ v > 0, skewnessL [0, 0, 1] = .ok v := by
  refine ⟨_, ?_, skewness_defined ⟨0, by simp, 1, by simp, by norm_num⟩⟩
  have h1 : mean ([0, 0, 1] : List ℝ) = 1 / 3 := by norm_num [mean]
  rw [h1]
  apply div_pos
  · norm_num [mean]
  · apply Real.rpow_pos_of_pos; norm_num [mean]

example : ∃ v, asymmetryL [0, 1, 3] = .ok v :=
  ⟨_, asymmetry_defined ⟨0, by simp, 1, by simp, by norm_num⟩⟩

example : ∃ s v, SeriesObj.init (vec [0, 1, 2]) (vec [0, 0, (1 : ℝ)]) = .ok s ∧ s.getSkewness = .ok v := by
  obtain ⟨s, h1, h2, -⟩ := series_getters (isVec_vec ([0, 1, 2] : List ℝ)) (isVec_vec ([0, 0, 1] : List ℝ)) (dt := 1) (by simp) (by simp)
    ⟨by norm_num, fun i hi => by
      simp only [List.length_cons, List.length_nil] at hi; have : i < 2 := by omega
      interval_cases i <;> norm_num⟩ ⟨0, by simp, 1, by simp, by norm_num⟩
  exact ⟨s, _, h1, h2⟩

/-! ## Concrete cases: the hypotheses of the theorems above are met -/

example := skewness_scale [0, 0, 1] (c := 2) (by norm_num)
example := asymmetry_shift (x := [0, 1, 3]) (by simp) 5
example := asymmetry_scale [0, 1, 3] (c := 2) (by norm_num)
example := asymmetry_neg (x := [0, 1, 3]) (by simp)
example := asymmetry_reverse (x := [0, 1, 3]) (by simp)
example : (analytic [0, 1, 3] 2).re = 3 := hilbert_re [0, 1, 3] (j := 2) (by simp)

end Verif
