import Verif.Model.BG
import Mathlib.Analysis.SpecialFunctions.Gamma.BohrMollerup
import Mathlib.Analysis.SpecialFunctions.Integrals.Basic
import Mathlib.MeasureTheory.Integral.IntegralEqImproper

/-! # Incomplete gamma functions and the second moment of the composite Weibull distribution -/

namespace Verif
open MeasureTheory Set

/-- The integrand of the gamma function. -/
noncomputable def gint (a t : ℝ) : ℝ := t ^ (a - 1) * Real.exp (-t)

/-- The lower incomplete gamma function. -/
noncomputable def gLow (a x : ℝ) : ℝ := ∫ t in (0 : ℝ)..x, gint a t

/-- The upper incomplete gamma function. -/
noncomputable def gUp (a x : ℝ) : ℝ := ∫ t in Ioi x, gint a t

theorem gint_continuous {a : ℝ} (ha : 1 ≤ a) : Continuous (gint a) := by
  unfold gint
  exact (continuous_id.rpow_const (fun _ => Or.inr (by linarith))).mul (Real.continuous_exp.comp continuous_neg)

theorem gint_nonneg {a t : ℝ} (ht : 0 ≤ t) : 0 ≤ gint a t := mul_nonneg (Real.rpow_nonneg ht _) (Real.exp_pos _).le

theorem gint_integrable {a : ℝ} (ha : 0 < a) : IntegrableOn (gint a) (Ioi 0) := by
  have := Real.GammaIntegral_convergent ha
  refine this.congr_fun (fun t _ => ?_) measurableSet_Ioi
  simp only [gint]; ring

theorem gLow_add_gUp {a x : ℝ} (ha : 1 ≤ a) (hx : 0 ≤ x) : gLow a x + gUp a x = Real.Gamma a := by
  unfold gLow gUp
  rw [intervalIntegral.integral_interval_add_Ioi (gint_integrable (by linarith)) ((gint_integrable (by linarith)).mono_set (Ioi_subset_Ioi hx)),
    Real.Gamma_eq_integral (by linarith)]
  apply setIntegral_congr_fun measurableSet_Ioi
  intro t _
  simp only [gint]; ring

theorem gUp_nonneg {a x : ℝ} (hx : 0 ≤ x) : 0 ≤ gUp a x :=
  setIntegral_nonneg measurableSet_Ioi fun t ht => gint_nonneg (hx.trans (le_of_lt ht))

theorem gLow_nonneg {a x : ℝ} (hx : 0 ≤ x) : 0 ≤ gLow a x :=
  intervalIntegral.integral_nonneg hx fun t ht => gint_nonneg ht.1

theorem gUp_pos {a x : ℝ} (ha : 1 ≤ a) (hx : 0 ≤ x) : 0 < gUp a x := by
  have h1 : gUp a x = (∫ t in x..(x + 1), gint a t) + gUp a (x + 1) := by
    unfold gUp
    rw [intervalIntegral.integral_interval_add_Ioi ((gint_integrable (by linarith)).mono_set (Ioi_subset_Ioi hx))
      ((gint_integrable (by linarith)).mono_set (Ioi_subset_Ioi (by linarith)))]
  have h2 : 0 < ∫ t in x..(x + 1), gint a t := by
    apply intervalIntegral.intervalIntegral_pos_of_pos_on ((gint_continuous ha).intervalIntegrable _ _) _ (by linarith)
    intro t ht
    exact mul_pos (Real.rpow_pos_of_pos (lt_of_le_of_lt hx ht.1) _) (Real.exp_pos _)
  have := gUp_nonneg (a := a) (show 0 ≤ x + 1 by linarith)
  linarith

/-- The part between `x` and `y`. -/
theorem gLow_sub {a x y : ℝ} (ha : 1 ≤ a) : gLow a y - gLow a x = ∫ t in x..y, gint a t := by
  unfold gLow
  exact intervalIntegral.integral_interval_sub_left ((gint_continuous ha).intervalIntegrable _ _) ((gint_continuous ha).intervalIntegrable _ _)

theorem gint_two_eq {t : ℝ} (ht : 0 ≤ t) : gint 2 t = t ^ (4 / 9 : ℝ) * gint (14 / 9) t := by
  unfold gint
  rw [← mul_assoc, ← Real.rpow_add_of_nonneg ht (by norm_num) (by norm_num)]
  norm_num

/-- Bounds on the mass between `x` and `y`. -/
theorem band_bounds {x y : ℝ} (hx : 0 ≤ x) (hxy : x ≤ y) :
    0 ≤ ∫ t in x..y, gint (14 / 9) t ∧
    x ^ (4 / 9 : ℝ) * (∫ t in x..y, gint (14 / 9) t) ≤ ∫ t in x..y, gint 2 t ∧
    (∫ t in x..y, gint 2 t) ≤ y ^ (4 / 9 : ℝ) * ∫ t in x..y, gint (14 / 9) t := by
  have c1 : IntervalIntegrable (gint (14 / 9)) volume x y := (gint_continuous (by norm_num)).intervalIntegrable _ _
  have c2 : IntervalIntegrable (gint 2) volume x y := (gint_continuous (by norm_num)).intervalIntegrable _ _
  refine ⟨intervalIntegral.integral_nonneg hxy fun t ht => gint_nonneg (hx.trans ht.1), ?_, ?_⟩
  · rw [← intervalIntegral.integral_const_mul]
    apply intervalIntegral.integral_mono_on hxy (c1.const_mul _) c2
    intro t ht
    have ht0 := hx.trans ht.1
    rw [gint_two_eq ht0]
    exact mul_le_mul_of_nonneg_right (Real.rpow_le_rpow hx ht.1 (by norm_num)) (gint_nonneg ht0)
  · rw [← intervalIntegral.integral_const_mul]
    apply intervalIntegral.integral_mono_on hxy c2 (c1.const_mul _)
    intro t ht
    have ht0 := hx.trans ht.1
    rw [gint_two_eq ht0]
    exact mul_le_mul_of_nonneg_right (Real.rpow_le_rpow ht0 ht.2 (by norm_num)) (gint_nonneg ht0)

theorem gUp_sub {a x y : ℝ} (ha : 1 ≤ a) (hx : 0 ≤ x) (hxy : x ≤ y) : gUp a x - gUp a y = ∫ t in x..y, gint a t := by
  have h1 := gLow_add_gUp ha hx
  have h2 := gLow_add_gUp ha (hx.trans hxy)
  rw [← gLow_sub ha]; linarith

/-- `EST / H1^2` as a function of `X` is increasing. -/
theorem est_ratio_mono {x y : ℝ} (hx : 0 ≤ x) (hxy : x ≤ y) :
    gLow 2 x + x ^ (4 / 9 : ℝ) * gUp (14 / 9) x ≤ gLow 2 y + y ^ (4 / 9 : ℝ) * gUp (14 / 9) y := by
  obtain ⟨b0, b1, b2⟩ := band_bounds hx hxy
  have e1 := gLow_sub (a := 2) (x := x) (y := y) (by norm_num)
  have e2 := gUp_sub (a := 14 / 9) (by norm_num) hx hxy
  have hp : x ^ (4 / 9 : ℝ) ≤ y ^ (4 / 9 : ℝ) := Real.rpow_le_rpow hx hxy (by norm_num)
  have hu := gUp_nonneg (a := 14 / 9) (hx.trans hxy)
  have k := mul_le_mul_of_nonneg_right hp hu
  have e1' : gLow 2 y = gLow 2 x + ∫ t in x..y, gint 2 t := by linarith
  have e2' : gUp (14 / 9) x = gUp (14 / 9) y + ∫ t in x..y, gint (14 / 9) t := by linarith
  rw [e1', e2']
  linarith

/-- `EST / H1` as a function of `X` is decreasing. -/
theorem est_ratio_anti {x y : ℝ} (hx : 0 < x) (hxy : x ≤ y) :
    y ^ (-(1 / 2) : ℝ) * gLow 2 y + y ^ (-(1 / 18) : ℝ) * gUp (14 / 9) y ≤
      x ^ (-(1 / 2) : ℝ) * gLow 2 x + x ^ (-(1 / 18) : ℝ) * gUp (14 / 9) x := by
  have hy : 0 < y := hx.trans_le hxy
  obtain ⟨b0, b1, b2⟩ := band_bounds hx.le hxy
  have e1 := gLow_sub (a := 2) (x := x) (y := y) (by norm_num)
  have e2 := gUp_sub (a := 14 / 9) (by norm_num) hx.le hxy
  have p1 : y ^ (-(1 / 2) : ℝ) ≤ x ^ (-(1 / 2) : ℝ) := Real.rpow_le_rpow_of_nonpos hx hxy (by norm_num)
  have p2 : y ^ (-(1 / 18) : ℝ) ≤ x ^ (-(1 / 18) : ℝ) := Real.rpow_le_rpow_of_nonpos hx hxy (by norm_num)
  have p3 : y ^ (-(1 / 2) : ℝ) * y ^ (4 / 9 : ℝ) = y ^ (-(1 / 18) : ℝ) := by
    rw [← Real.rpow_add hy]; norm_num
  have q1 : 0 ≤ y ^ (-(1 / 2) : ℝ) := Real.rpow_nonneg hy.le _
  have hu := gUp_nonneg (a := 14 / 9) hy.le
  have hlo := gLow_nonneg (a := 2) hx.le
  have k1 := mul_le_mul_of_nonneg_left b2 q1
  rw [← mul_assoc, p3] at k1
  have k2 := mul_le_mul_of_nonneg_right p2 b0
  have k3 := mul_le_mul_of_nonneg_right p1 hlo
  have k4 := mul_le_mul_of_nonneg_right p2 hu
  have e1' : gLow 2 y = gLow 2 x + ∫ t in x..y, gint 2 t := by linarith
  have e2' : gUp (14 / 9) x = gUp (14 / 9) y + ∫ t in x..y, gint (14 / 9) t := by linarith
  rw [e1', e2']
  linarith

theorem gUp_le_one {x : ℝ} (hx : 0 ≤ x) : gUp (14 / 9) x ≤ 1 := by
  have h1 := gLow_add_gUp (a := 14 / 9) (by norm_num) hx
  have h2 := gLow_nonneg (a := 14 / 9) hx
  have h3 : Real.Gamma (14 / 9) ≤ 1 := by
    have := Real.convexOn_Gamma.le_max_of_mem_Icc (x := 1) (y := 2) (z := 14 / 9) (by norm_num) (by norm_num) ⟨by norm_num, by norm_num⟩
    simpa using this
  linarith

theorem gLow_two_le {x : ℝ} (hx : 0 ≤ x) : gLow 2 x ≤ 1 ∧ gLow 2 x ≤ x := by
  constructor
  · have h1 := gLow_add_gUp (a := 2) (by norm_num) hx
    have h2 := gUp_nonneg (a := 2) hx
    rw [Real.Gamma_two] at h1
    linarith
  · have : gLow 2 x ≤ ∫ _t in (0 : ℝ)..x, (1 : ℝ) := by
      apply intervalIntegral.integral_mono_on hx ((gint_continuous (by norm_num)).intervalIntegrable _ _) (by simp)
      intro t ht
      unfold gint
      norm_num
      have := Real.add_one_le_exp t
      rw [Real.exp_neg, ← div_eq_mul_inv, div_le_one (Real.exp_pos _)]
      linarith
    simpa using this

theorem gLow_two_le_sqrt {x : ℝ} (hx : 0 ≤ x) : gLow 2 x ≤ Real.sqrt x := by
  obtain ⟨h1, h2⟩ := gLow_two_le hx
  by_cases h : x ≤ 1
  · exact h2.trans (Real.le_sqrt_of_sq_le (by nlinarith))
  · exact h1.trans (Real.one_le_sqrt.2 (by linarith))

/-! ## The model's estimate -/

theorem gammainc_mul {a x : ℝ} (ha : 1 ≤ a) : gammainc a x * Real.Gamma a = gLow a x := by
  unfold gammainc gLow gint
  exact div_mul_cancel₀ _ (Real.Gamma_pos_of_pos (by linarith)).ne'

theorem bgEst_eq {Htr H1 H2 : ℝ} :
    bgEst Htr H1 H2 = H1 ^ 2 * gLow 2 ((Htr / H1) ^ 2) + H2 ^ 2 * gUp (14 / 9) ((Htr / H1) ^ 2) := by
  unfold bgEst bgK1 bgK2
  dsimp only
  have a1 : (2 / 2 + 1 : ℝ) = 2 := by norm_num
  have a2 : (2 / (36 / 10) + 1 : ℝ) = 14 / 9 := by norm_num
  have hx : (Htr / H1) ^ (2 : ℝ) = (Htr / H1) ^ 2 := by norm_cast
  rw [a1, a2, hx, mul_assoc, gammainc_mul (by norm_num), mul_comm (Real.Gamma (14 / 9)) (gammainc _ _), gammainc_mul (by norm_num),
    ← gLow_add_gUp (a := 14 / 9) (x := (Htr / H1) ^ 2) (by norm_num) (by positivity)]
  ring

theorem bgH2_pos {Htr H1 : ℝ} (h : 0 < Htr) (h1 : 0 < H1) : 0 < bgH2 Htr H1 := by
  unfold bgH2
  exact div_pos h (Real.rpow_pos_of_pos (div_pos h h1) _)

/-- The two branches meet at the transition height. -/
theorem bgH2_transition {Htr H1 : ℝ} (h : 0 < Htr) (h1 : 0 < H1) :
    (Htr / bgH2 Htr H1) ^ (36 / 10 : ℝ) = (Htr / H1) ^ 2 := by
  unfold bgH2 bgK1 bgK2
  have hp : 0 < Htr / H1 := div_pos h h1
  rw [div_div_cancel₀ h.ne', ← Real.rpow_mul hp.le]
  norm_num

/-- `EST` for a given `H_1_norm`. -/
noncomputable def bgE (Htr H : ℝ) : ℝ := bgEst Htr H (bgH2 Htr H)

theorem bgH2_sq {Htr H : ℝ} (h : 0 < Htr) (h1 : 0 < H) : bgH2 Htr H ^ 2 = H ^ 2 * ((Htr / H) ^ 2) ^ (4 / 9 : ℝ) := by
  unfold bgH2 bgK1 bgK2
  have hp : 0 < Htr / H := div_pos h h1
  have e1 : ((Htr / H) ^ 2) ^ (4 / 9 : ℝ) = (Htr / H) ^ (8 / 9 : ℝ) := by
    rw [← Real.rpow_natCast, ← Real.rpow_mul hp.le]; norm_num
  have e2 : ((Htr / H) ^ (2 / (36 / 10) : ℝ)) ^ 2 = (Htr / H) ^ (10 / 9 : ℝ) := by
    rw [← Real.rpow_natCast, ← Real.rpow_mul hp.le]; norm_num
  rw [div_pow, e1, e2, div_eq_iff (Real.rpow_pos_of_pos hp _).ne', mul_assoc, ← Real.rpow_add hp]
  have : (8 / 9 + 10 / 9 : ℝ) = (2 : ℕ) := by norm_num
  rw [this, Real.rpow_natCast]
  field_simp

theorem bgE_sq {Htr H : ℝ} (h : 0 < Htr) (h1 : 0 < H) :
    bgE Htr H = H ^ 2 * (gLow 2 ((Htr / H) ^ 2) + ((Htr / H) ^ 2) ^ (4 / 9 : ℝ) * gUp (14 / 9) ((Htr / H) ^ 2)) := by
  unfold bgE
  rw [bgEst_eq, bgH2_sq h h1]; ring

theorem bgE_lin {Htr H : ℝ} (h : 0 < Htr) (h1 : 0 < H) :
    bgE Htr H = H * (Htr * (((Htr / H) ^ 2) ^ (-(1 / 2) : ℝ) * gLow 2 ((Htr / H) ^ 2) +
      ((Htr / H) ^ 2) ^ (-(1 / 18) : ℝ) * gUp (14 / 9) ((Htr / H) ^ 2))) := by
  have hp : 0 < (Htr / H) ^ 2 := pow_pos (div_pos h h1) _
  rw [bgE_sq h h1]
  have e1 : Htr * ((Htr / H) ^ 2) ^ (-(1 / 2) : ℝ) = H := by
    rw [← Real.rpow_natCast, ← Real.rpow_mul (div_pos h h1).le]
    norm_num
    rw [Real.rpow_neg_one]
    field_simp
  have e2 : ((Htr / H) ^ 2) ^ (-(1 / 18) : ℝ) = ((Htr / H) ^ 2) ^ (-(1 / 2) : ℝ) * ((Htr / H) ^ 2) ^ (4 / 9 : ℝ) := by
    rw [← Real.rpow_add hp]; norm_num
  rw [e2]
  calc _ = H * (H * gLow 2 ((Htr / H) ^ 2) + H * ((Htr / H) ^ 2) ^ (4 / 9 : ℝ) * gUp (14 / 9) ((Htr / H) ^ 2)) := by ring
    _ = H * ((Htr * ((Htr / H) ^ 2) ^ (-(1 / 2) : ℝ)) * gLow 2 ((Htr / H) ^ 2) +
      (Htr * ((Htr / H) ^ 2) ^ (-(1 / 2) : ℝ)) * ((Htr / H) ^ 2) ^ (4 / 9 : ℝ) * gUp (14 / 9) ((Htr / H) ^ 2)) := by rw [e1]
    _ = _ := by ring

theorem bgE_pos {Htr H : ℝ} (h : 0 < Htr) (h1 : 0 < H) : 0 < bgE Htr H := by
  unfold bgE
  rw [bgEst_eq]
  have := gLow_nonneg (a := 2) (x := (Htr / H) ^ 2) (by positivity)
  have := gUp_pos (a := 14 / 9) (x := (Htr / H) ^ 2) (by norm_num) (by positivity)
  have := bgH2_pos h h1
  positivity

theorem X_anti {Htr H H' : ℝ} (h : 0 < Htr) (h1 : 0 < H) (hh : H ≤ H') : (Htr / H') ^ 2 ≤ (Htr / H) ^ 2 := by
  have : 0 < H' := h1.trans_le hh
  apply pow_le_pow_left₀ (by positivity)
  exact div_le_div_of_nonneg_left h.le h1 hh

/-- The estimate grows at most quadratically in `H_1_norm` … -/
theorem bgE_le_sq {Htr H H' : ℝ} (h : 0 < Htr) (h1 : 0 < H) (hh : H ≤ H') : bgE Htr H' * H ^ 2 ≤ bgE Htr H * H' ^ 2 := by
  have h2 : 0 < H' := h1.trans_le hh
  rw [bgE_sq h h1, bgE_sq h h2]
  have := est_ratio_mono (x := (Htr / H') ^ 2) (y := (Htr / H) ^ 2) (by positivity) (X_anti h h1 hh)
  have := mul_le_mul_of_nonneg_left this (show 0 ≤ H ^ 2 * H' ^ 2 by positivity)
  linarith

/-- … and at least linearly. -/
theorem bgE_ge_lin {Htr H H' : ℝ} (h : 0 < Htr) (h1 : 0 < H) (hh : H ≤ H') : bgE Htr H * H' ≤ bgE Htr H' * H := by
  have h2 : 0 < H' := h1.trans_le hh
  rw [bgE_lin h h1, bgE_lin h h2]
  have := est_ratio_anti (x := (Htr / H') ^ 2) (y := (Htr / H) ^ 2) (by positivity) (X_anti h h1 hh)
  have := mul_le_mul_of_nonneg_left this (show 0 ≤ Htr * H * H' by positivity)
  linarith

/-- Below 100 the estimate is at most `8 H_1_norm`. -/
theorem bgE_le {Htr H : ℝ} (h : 0 < Htr) (hle : Htr ≤ 275 / 100) (h1 : 0 < H) (h100 : H ≤ 100) : bgE Htr H ≤ 16 * H := by
  have hp : 0 < Htr / H := div_pos h h1
  have hX : 0 ≤ (Htr / H) ^ 2 := by positivity
  unfold bgE
  rw [bgEst_eq]
  have a := gLow_two_le_sqrt hX
  rw [Real.sqrt_sq hp.le] at a
  have a' : H ^ 2 * gLow 2 ((Htr / H) ^ 2) ≤ H * Htr := by
    calc H ^ 2 * gLow 2 ((Htr / H) ^ 2) ≤ H ^ 2 * (Htr / H) := mul_le_mul_of_nonneg_left a (by positivity)
      _ = H * Htr := by field_simp
  have b := gUp_le_one hX
  have b' : bgH2 Htr H ^ 2 * gUp (14 / 9) ((Htr / H) ^ 2) ≤ bgH2 Htr H ^ 2 := by
    have := mul_le_mul_of_nonneg_left b (sq_nonneg (bgH2 Htr H)); linarith
  have c : bgH2 Htr H ^ 2 ≤ 10 * H := by
    rw [bgH2_sq h h1]
    -- `X^(4/9) = r^(8/9)`, at most `1 + r`
    have e1 : ((Htr / H) ^ 2) ^ (4 / 9 : ℝ) = (Htr / H) ^ (8 / 9 : ℝ) := by
      rw [← Real.rpow_natCast, ← Real.rpow_mul hp.le]; norm_num
    rw [e1]
    have e2 : H ^ 2 * (Htr / H) ^ (8 / 9 : ℝ) = H * (Htr ^ (8 / 9 : ℝ) * H ^ (1 / 9 : ℝ)) := by
      rw [Real.div_rpow h.le h1.le]
      have : H ^ 2 = H * (H ^ (1 / 9 : ℝ) * H ^ (8 / 9 : ℝ)) := by
        rw [← Real.rpow_add h1]; norm_num; ring
      rw [this]
      have := (Real.rpow_pos_of_pos h1 (8 / 9)).ne'
      field_simp
    rw [e2]
    have k1 : Htr ^ (8 / 9 : ℝ) ≤ 275 / 100 := by
      calc Htr ^ (8 / 9 : ℝ) ≤ (275 / 100 : ℝ) ^ (8 / 9 : ℝ) := Real.rpow_le_rpow h.le hle (by norm_num)
        _ ≤ (275 / 100 : ℝ) ^ (1 : ℝ) := Real.rpow_le_rpow_of_exponent_le (by norm_num) (by norm_num)
        _ = 275 / 100 := Real.rpow_one _
    have k2 : H ^ (1 / 9 : ℝ) ≤ 2 := by
      calc H ^ (1 / 9 : ℝ) ≤ (2 ^ 9 : ℝ) ^ (1 / 9 : ℝ) := Real.rpow_le_rpow h1.le (by linarith) (by norm_num)
        _ = 2 := by rw [← Real.rpow_natCast, ← Real.rpow_mul (by norm_num)]; norm_num
    have k3 : Htr ^ (8 / 9 : ℝ) * H ^ (1 / 9 : ℝ) ≤ 275 / 100 * 2 :=
      mul_le_mul k1 k2 (Real.rpow_nonneg h1.le _) (by norm_num)
    nlinarith
  nlinarith

/-- One round from above 1 stays above 1 and positive. -/
theorem bg_step_down {Htr H : ℝ} (h : 0 < Htr) (hle : Htr ≤ 275 / 100) (h1 : 0 < H) (h100 : H ≤ 100) (hE : 1 ≤ bgE Htr H) :
    0 < H - 1 / 100 * (bgE Htr H - 1) ∧ 1 ≤ bgE Htr (H - 1 / 100 * (bgE Htr H - 1)) := by
  have hb := bgE_le h hle h1 h100
  set g := bgE Htr H with hg
  have hpos : 0 < H - 1 / 100 * (g - 1) := by linarith
  refine ⟨hpos, ?_⟩
  have hh : H - 1 / 100 * (g - 1) ≤ H := by linarith
  have k := bgE_le_sq h hpos hh
  rw [← hg] at k
  set H' := H - 1 / 100 * (g - 1) with hH'
  have hH2 : 0 < H ^ 2 := by positivity
  -- `g H'^2 ≥ H^2`
  have key : H ^ 2 ≤ g * H' ^ 2 := by
    have e : g * H' ^ 2 - H ^ 2 = (g - 1) * (H ^ 2 - 2 / 100 * g * H + g * (g - 1) / 10000) := by rw [hH']; ring
    have : 0 ≤ (g - 1) * (H ^ 2 - 2 / 100 * g * H + g * (g - 1) / 10000) := by
      apply mul_nonneg (by linarith)
      have : 2 / 100 * g * H ≤ H ^ 2 := by nlinarith
      have : 0 ≤ g * (g - 1) := mul_nonneg (by linarith) (by linarith)
      linarith
    linarith
  by_contra hc
  push Not at hc
  have := mul_lt_mul_of_pos_right hc hH2
  linarith

/-- One round from below 1 (at or above 100) stays below 1. -/
theorem bg_step_up {Htr H : ℝ} (h : 0 < Htr) (h100 : 100 ≤ H) (hE : bgE Htr H ≤ 1) :
    H ≤ H - 1 / 100 * (bgE Htr H - 1) ∧ bgE Htr (H - 1 / 100 * (bgE Htr H - 1)) ≤ 1 := by
  have h1 : 0 < H := by linarith
  have hpos := bgE_pos h h1
  set g := bgE Htr H with hg
  have hh : H ≤ H - 1 / 100 * (g - 1) := by linarith
  refine ⟨hh, ?_⟩
  have k := bgE_le_sq h h1 hh
  rw [← hg] at k
  set H' := H - 1 / 100 * (g - 1) with hH'
  have hH2 : 0 < H ^ 2 := by positivity
  have key : g * H' ^ 2 ≤ H ^ 2 := by
    have e : H ^ 2 - g * H' ^ 2 = (1 - g) * (H ^ 2 - 2 / 100 * g * H - g * (1 - g) / 10000) := by rw [hH']; ring
    have : 0 ≤ (1 - g) * (H ^ 2 - 2 / 100 * g * H - g * (1 - g) / 10000) := by
      apply mul_nonneg (by linarith)
      have : 2 / 100 * g * H ≤ 1 * H := by nlinarith
      have : g * (1 - g) ≤ 1 := by nlinarith
      nlinarith
    linarith
  by_contra hc
  push Not at hc
  have := mul_lt_mul_of_pos_right hc hH2
  linarith

end Verif
