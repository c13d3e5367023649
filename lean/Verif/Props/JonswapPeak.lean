import Verif.Props.Jonswap

/-! # The peak of a created JONSWAP spectrum when the peak frequency is not on the grid

The density rises up to the peak frequency and falls beyond it, so the peak period that `get_Tp` reports belongs to one of the grid points
next to the requested peak frequency. -/

namespace Verif

open Finset

/-! ## The shape rises and falls -/

/-- The Pierson-Moskowitz factor, as the exponential of `-5 log ν - 5/4 ν^-4`. -/
theorem pm_exp {ν : ℝ} (hν : 0 < ν) :
    ν ^ (-5 : ℤ) * Real.exp (-(125 / 100) * ν ^ (-4 : ℤ)) = Real.exp (-5 * Real.log ν - 5 / 4 * ν ^ (-4 : ℤ)) := by
  rw [sub_eq_add_neg, Real.exp_add]
  congr 1
  · rw [← Real.rpow_intCast, Real.rpow_def_of_pos hν]
    congr 1; push_cast; ring
  · congr 1; ring

theorem log_fourth {a b : ℝ} (ha : 0 < a) (hb : 0 < b) : Real.log ((b / a) ^ 4) = 4 * (Real.log b - Real.log a) := by
  rw [Real.log_pow, Real.log_div hb.ne' ha.ne']; norm_num

theorem pm_rises {a b : ℝ} (ha : 0 < a) (hab : a < b) (hb : b ≤ 1) :
    a ^ (-5 : ℤ) * Real.exp (-(125 / 100) * a ^ (-4 : ℤ)) < b ^ (-5 : ℤ) * Real.exp (-(125 / 100) * b ^ (-4 : ℤ)) := by
  have hb0 : 0 < b := ha.trans hab
  rw [pm_exp ha, pm_exp hb0, Real.exp_lt_exp]
  have hr1 : 1 < (b / a) ^ 4 := one_lt_pow₀ ((one_lt_div ha).2 hab) (by norm_num)
  have hlog : Real.log ((b / a) ^ 4) < (b / a) ^ 4 - 1 := Real.log_lt_sub_one_of_pos (by linarith) hr1.ne'
  rw [log_fourth ha hb0] at hlog
  have e : a ^ (-4 : ℤ) - b ^ (-4 : ℤ) = b ^ (-4 : ℤ) * ((b / a) ^ 4 - 1) := by
    rw [zpow_neg, zpow_neg]; norm_cast; field_simp
  have hb4 : 1 ≤ b ^ (-4 : ℤ) := by
    rw [zpow_neg]; norm_cast
    exact (one_le_inv₀ (by positivity)).2 (pow_le_one₀ hb0.le hb)
  have : (b / a) ^ 4 - 1 ≤ b ^ (-4 : ℤ) * ((b / a) ^ 4 - 1) := le_mul_of_one_le_left (by linarith) hb4
  linarith

theorem pm_falls {a b : ℝ} (ha : 1 ≤ a) (hab : a < b) :
    b ^ (-5 : ℤ) * Real.exp (-(125 / 100) * b ^ (-4 : ℤ)) < a ^ (-5 : ℤ) * Real.exp (-(125 / 100) * a ^ (-4 : ℤ)) := by
  have ha0 : 0 < a := by linarith
  have hb0 : 0 < b := ha0.trans hab
  rw [pm_exp ha0, pm_exp hb0, Real.exp_lt_exp]
  have hr1 : 1 < (b / a) ^ 4 := one_lt_pow₀ ((one_lt_div ha0).2 hab) (by norm_num)
  have hr0 : 0 < (b / a) ^ 4 := by linarith
  have hlog : Real.log (((b / a) ^ 4)⁻¹) < ((b / a) ^ 4)⁻¹ - 1 :=
    Real.log_lt_sub_one_of_pos (inv_pos.2 hr0) (by intro h; rw [inv_eq_one] at h; exact hr1.ne' h)
  rw [Real.log_inv, log_fourth ha0 hb0] at hlog
  have e : a ^ (-4 : ℤ) - b ^ (-4 : ℤ) = a ^ (-4 : ℤ) * (1 - ((b / a) ^ 4)⁻¹) := by
    rw [zpow_neg, zpow_neg]; norm_cast; field_simp
  have ha4 : a ^ (-4 : ℤ) ≤ 1 := by
    rw [zpow_neg]; norm_cast
    exact inv_le_one_of_one_le₀ (one_le_pow₀ ha)
  have hpos : 0 ≤ 1 - ((b / a) ^ 4)⁻¹ := by
    have := inv_le_one_of_one_le₀ hr1.le
    linarith
  have : a ^ (-4 : ℤ) * (1 - ((b / a) ^ 4)⁻¹) ≤ 1 - ((b / a) ^ 4)⁻¹ := mul_le_of_le_one_left hpos ha4
  linarith

/-- Comparison of two densities through their two factors. -/
theorem jonswapShape_lt {fp γ x y A B : ℝ} (hfp : 0 < fp) (hγ : 1 ≤ γ) (hx : 1 / 2 ^ 52 < x) (hy : 1 / 2 ^ 52 < y)
    (hA : A = Real.exp (-((x / fp - 1) ^ 2) / (2 * (if x < fp then (7 / 100 : ℝ) else 9 / 100) ^ 2)))
    (hB : B = Real.exp (-((y / fp - 1) ^ 2) / (2 * (if y < fp then (7 / 100 : ℝ) else 9 / 100) ^ 2)))
    (hAB : A ≤ B)
    (hpm : (x / fp) ^ (-5 : ℤ) * Real.exp (-(125 / 100) * (x / fp) ^ (-4 : ℤ)) < (y / fp) ^ (-5 : ℤ) * Real.exp (-(125 / 100) * (y / fp) ^ (-4 : ℤ))) :
    jonswapShape fp γ x < jonswapShape fp γ y := by
  unfold jonswapShape
  rw [if_pos hx, if_pos hy]
  dsimp only
  rw [← hA, ← hB]
  have e : ∀ z : ℝ, z ^ (-5 : ℤ) = fp ^ (-5 : ℤ) * (z / fp) ^ (-5 : ℤ) := by
    intro z
    rw [← mul_zpow]; congr 1; field_simp
  rw [e x, e y]
  have h1 : γ ^ A ≤ γ ^ B := Real.rpow_le_rpow_of_exponent_le hγ hAB
  have hγ0 : 0 < γ := by linarith
  have hy0 : 0 < y / fp := div_pos (lt_trans (by positivity) hy) hfp
  calc 1 * (981 / 100) ^ 2 * (2 * Real.pi) ^ (-4 : ℤ) * (fp ^ (-5 : ℤ) * (x / fp) ^ (-5 : ℤ)) * Real.exp (-(125 / 100) * (x / fp) ^ (-4 : ℤ)) * γ ^ A
      = 1 * (981 / 100) ^ 2 * (2 * Real.pi) ^ (-4 : ℤ) * fp ^ (-5 : ℤ) * ((x / fp) ^ (-5 : ℤ) * Real.exp (-(125 / 100) * (x / fp) ^ (-4 : ℤ))) * γ ^ A := by ring
    _ < 1 * (981 / 100) ^ 2 * (2 * Real.pi) ^ (-4 : ℤ) * fp ^ (-5 : ℤ) * ((y / fp) ^ (-5 : ℤ) * Real.exp (-(125 / 100) * (y / fp) ^ (-4 : ℤ))) * γ ^ B := by
      apply mul_lt_mul _ h1 (by positivity) (by positivity)
      exact mul_lt_mul_of_pos_left hpm (by positivity)
    _ = _ := by ring

/-- **C148 (shape).** Below the peak frequency the density rises. -/
theorem jonswapShape_rises {fp γ x y : ℝ} (hfp : 0 < fp) (hγ : 1 ≤ γ) (hxy : x < y) (hy : 1 / 2 ^ 52 < y) (hyp : y ≤ fp) :
    jonswapShape fp γ x < jonswapShape fp γ y := by
  by_cases hx : 1 / 2 ^ 52 < x
  · have hx0 : 0 < x := lt_trans (by positivity) hx
    refine jonswapShape_lt hfp hγ hx hy rfl rfl ?_ (pm_rises (div_pos hx0 hfp) (div_lt_div_of_pos_right hxy hfp) ((div_le_one hfp).2 hyp))
    rw [Real.exp_le_exp, if_pos (lt_of_lt_of_le hxy hyp)]
    rcases hyp.lt_or_eq with h | h
    · rw [if_pos h]
      have h1 : x / fp < y / fp := div_lt_div_of_pos_right hxy hfp
      have h2 : y / fp < 1 := (div_lt_one hfp).2 h
      apply div_le_div_of_nonneg_right _ (by positivity)
      nlinarith
    · rw [h, div_self hfp.ne', sub_self, zero_pow two_ne_zero, neg_zero, zero_div]
      exact div_nonpos_of_nonpos_of_nonneg (by nlinarith [sq_nonneg (x / fp - 1)]) (by positivity)
  · rw [jonswapShape_zero (not_lt.1 hx)]
    exact jonswapShape_pos (by linarith) hy

/-- **C148 (shape).** Beyond the peak frequency the density falls. -/
theorem jonswapShape_falls {fp γ x y : ℝ} (hfp : 0 < fp) (hγ : 1 ≤ γ) (hxy : x < y) (hx : 1 / 2 ^ 52 < x) (hxp : fp ≤ x) :
    jonswapShape fp γ y < jonswapShape fp γ x := by
  have h1 : x / fp < y / fp := div_lt_div_of_pos_right hxy hfp
  have h2 : 1 ≤ x / fp := (one_le_div hfp).2 hxp
  refine jonswapShape_lt hfp hγ (hx.trans hxy) hx rfl rfl ?_ (pm_falls h2 h1)
  rw [Real.exp_le_exp, if_neg (not_lt.2 hxp), if_neg (not_lt.2 (hxp.trans hxy.le))]
  apply div_le_div_of_nonneg_right _ (by positivity)
  nlinarith

/-! ## The created spectrum -/

/-- A list has a largest value at a last position. -/
theorem exists_last_max {S : List ℝ} (hne : S ≠ []) : ∃ k < S.length, ∀ l < S.length, S.getD l 0 ≤ S.getD k 0 ∧ (k < l → S.getD l 0 < S.getD k 0) := by
  classical
  have h0 : (range S.length).Nonempty := by
    rw [nonempty_range_iff]; simpa using hne
  obtain ⟨q, hq, hqm⟩ := exists_max_image _ (fun l => S.getD l 0) h0
  have h1 : ((range S.length).filter fun l => S.getD l 0 = S.getD q 0).Nonempty := ⟨q, by simp [mem_range.1 hq]⟩
  obtain ⟨k, hk, hkm⟩ := exists_max_image _ (fun l : ℕ => l) h1
  rw [mem_filter, mem_range] at hk
  refine ⟨k, hk.1, fun l hl => ?_⟩
  have hle : S.getD l 0 ≤ S.getD k 0 := by rw [hk.2]; exact hqm l (mem_range.2 hl)
  refine ⟨hle, fun hkl => lt_of_le_of_ne hle fun e => ?_⟩
  have := hkm l (by rw [mem_filter, mem_range]; exact ⟨hl, e.trans hk.2⟩)
  omega

/-- **C148.**  On a uniform axis of step `h` the density of a created JONSWAP spectrum (peak factor at least 1, positive wave height)
rises strictly up to the peak frequency and falls strictly beyond it, and `get_Tp` returns the inverse of a grid frequency less than one
step away from the requested peak frequency - or of the first or last grid frequency if the peak lies outside the axis. -/
theorem jonswap_tp_near {pf : PyIn ℝ} {f : List ℝ} {h fp hm0 γ lF : ℝ} (hf : pf.IsArr f) (hu : UniformAxis f h) (h2 : 2 ≤ f.length)
    (h0 : 0 ≤ f.getD 0 0) (hlast : 1 / 2 ^ 52 < f.getD (f.length - 1) 0) (hfp : 1 / 2 ^ 52 < fp) (hγ : 1 ≤ γ) (hH : 0 < hm0)
    (hlF : lF = 0 ∨ lF = 1) : ∃ S s k, createSpectrumJonswap pf fp hm0 γ lF = .ok S ∧ createSpectrumObjectJonswap pf fp hm0 γ lF = .ok s ∧
      (∀ i j, i < j → j < f.length → 1 / 2 ^ 52 < f.getD j 0 → f.getD j 0 ≤ fp → S.getD i 0 < S.getD j 0) ∧
      (∀ i j, i < j → j < f.length → fp ≤ f.getD i 0 → S.getD j 0 < S.getD i 0) ∧
      k < f.length ∧ (s.getTp (-1) (.fin (-1))).1 = .ok (1 / f.getD k 0) ∧
      (f.getD 0 0 ≤ fp → fp ≤ f.getD (f.length - 1) 0 → |f.getD k 0 - fp| < h) ∧
      (fp ≤ f.getD 0 0 → k = 0) ∧ (f.getD (f.length - 1) 0 ≤ fp → k = f.length - 1) := by
  have hfp0 : 0 < fp := lt_trans (by positivity) hfp
  have hγ0 : 0 < γ := by linarith
  obtain ⟨S, c, s, hcr, hob, hsf, hsS, ⟨hl, hS⟩, hc0, hcp, -, -⟩ := jonswap_height hf hu h2 h0 hlast hfp0 hγ0 hH.le hlF
  have hval : ∀ k < f.length, S.getD k 0 = c * jonswapShape fp γ (f.getD k 0) := by
    intro k hk
    by_cases hx : 1 / 2 ^ 52 < f.getD k 0
    · rw [(hS k hk).1 hx, jonswapShape_eq_spec hfp0.ne' hx]
    · rw [(hS k hk).2 (not_lt.1 hx), jonswapShape_zero (not_lt.1 hx), mul_zero]
  have hcpos := hcp hH
  have hp := uniform_check_increasing (uniform_check_accepts_uniform h2 hu)
  have hinit : SpecObj.init pf (vec S) = .ok s := by
    unfold createSpectrumObjectJonswap at hob
    rw [hcr] at hob; exact hob
  have hrise : ∀ i j, i < j → j < f.length → 1 / 2 ^ 52 < f.getD j 0 → f.getD j 0 ≤ fp → S.getD i 0 < S.getD j 0 := by
    intro i j hij hj hj1 hj2
    rw [hval i (by omega), hval j hj]
    exact mul_lt_mul_of_pos_left (jonswapShape_rises hfp0 hγ (inc_lt hp hij hj) hj1 hj2) hcpos
  have hfall : ∀ i j, i < j → j < f.length → fp ≤ f.getD i 0 → S.getD j 0 < S.getD i 0 := by
    intro i j hij hj hi
    rw [hval i (by omega), hval j hj]
    exact mul_lt_mul_of_pos_left (jonswapShape_falls hfp0 hγ (inc_lt hp hij hj) (lt_of_lt_of_le hfp hi) hi) hcpos
  obtain ⟨k, hk, hbest⟩ := exists_last_max (S := S) (by intro e; rw [e] at hl; simp at hl; omega)
  rw [hl] at hk hbest
  have hkpos : 1 / 2 ^ 52 < f.getD k 0 := by
    by_contra hx
    have h1 := (hbest (f.length - 1) (by omega)).1
    rw [hval _ (by omega), hval k hk, jonswapShape_zero (not_lt.1 hx), mul_zero] at h1
    have := mul_pos hcpos (jonswapShape_pos (fp := fp) hγ0 hlast)
    linarith
  refine ⟨S, s, k, hcr, hob, hrise, hfall, hk, ?_, fun ha hb => ?_, fun ha => ?_, fun hb => ?_⟩
  · refine get_Tp_complete hf (isArr_vec S) hinit ⟨k, ⟨hk, Or.inl rfl, Or.inl rfl⟩, (lt_trans (by positivity) hkpos).ne', rfl, fun l hl' => hbest l hl'.1⟩
  · rw [abs_lt]
    constructor
    · by_contra hc
      have hlt : f.getD k 0 + h ≤ fp := by linarith
      have hk1 : k + 1 < f.length := by
        by_contra hk1
        obtain rfl : k = f.length - 1 := by omega
        linarith [hu.1]
      have e := hu.2 k hk1
      have := hrise k (k + 1) (by omega) hk1 (by rw [e]; linarith [hu.1]) (by rw [e]; exact hlt)
      linarith [(hbest (k + 1) hk1).1]
    · by_contra hc
      have hlt : fp + h ≤ f.getD k 0 := by linarith
      have hk1 : 0 < k := by
        by_contra hk1
        obtain rfl : k = 0 := by omega
        linarith [hu.1]
      obtain ⟨m, rfl⟩ : ∃ m, k = m + 1 := ⟨k - 1, by omega⟩
      have e := hu.2 m hk
      have := hfall m (m + 1) (by omega) hk (by linarith)
      linarith [(hbest m (by omega)).1]
  · by_contra hk0
    have := hfall 0 k (by omega) hk ha
    linarith [(hbest 0 (by omega)).1]
  · by_contra hk0
    have := hrise k (f.length - 1) (by omega) (by omega) hlast hb
    linarith [(hbest (f.length - 1) (by omega)).1]

/-! ## Concrete cases: the hypotheses of the theorems above are met -/

/-- A JONSWAP spectrum with peak frequency 0.12 Hz on the axis 0, 0.1, 0.2, 0.3 Hz: `get_Tp` gives 1/0.1 or 1/0.2. -/
example : ∃ s k, createSpectrumObjectJonswap (vec [0, 1 / 10, 2 / 10, 3 / 10]) (12 / 100) 2 (33 / 10) 0 = .ok s ∧ k < 4 ∧
    (s.getTp (-1) (.fin (-1))).1 = .ok (1 / ([0, 1 / 10, 2 / 10, 3 / 10] : List ℝ).getD k 0) ∧ |([0, 1 / 10, 2 / 10, 3 / 10] : List ℝ).getD k 0 - 12 / 100| < 1 / 10 := by
  have hu : UniformAxis ([0, 1 / 10, 2 / 10, 3 / 10] : List ℝ) (1 / 10) := by
    refine ⟨by norm_num, fun i hi => ?_⟩
    simp only [List.length_cons, List.length_nil] at hi
    have : i < 3 := by omega
    interval_cases i <;> norm_num
  obtain ⟨S, s, k, -, h1, -, -, h2, h3, h4, -⟩ := jonswap_tp_near (isArr_vec _) hu (by simp) (by norm_num) (by norm_num) (fp := 12 / 100) (by norm_num)
    (γ := 33 / 10) (by norm_num) (hm0 := 2) (by norm_num) (Or.inl rfl)
  exact ⟨s, k, h1, h2, h3, h4 (by norm_num) (by norm_num)⟩

end Verif
