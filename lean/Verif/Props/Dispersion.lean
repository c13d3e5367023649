import Verif.Model.Dispersion
import Verif.Lemmas.Tanh
import Verif.Lemmas.DispGrid
import Mathlib.Analysis.Convex.SpecificFunctions.Basic
import Mathlib.Data.List.GetD

/-! # C49–C51, C63, C64: the dispersion solver -/

namespace Verif
open Real

/-! ## The exact wave number -/

/-- **C51 (the equation has one solution).**  For every `y > 0` there is exactly one `q > 0` with `q tanh q = y`. -/
theorem dispersion_unique {y : ℝ} (hy : 0 < y) : ∃! q : ℝ, 0 < q ∧ q * Real.tanh q = y := by
  have hcont : Continuous dispF := continuous_iff_continuousAt.2 fun q => (hasDerivAt_F q).continuousAt
  have hmono : ∀ p q : ℝ, 0 < p → p < q → dispF p < dispF q := by
    intro p q hp hpq
    unfold dispF
    have h1 := tanh_strictMono hpq
    have h2 := tanh_pos' hp
    nlinarith
  -- large argument
  have hbig : y ≤ dispF (y + 1) := by
    have h := tanh_ge (x := 1) zero_le_one
    have h1 := one_sub_tanh (y + 1)
    have h2 : 1 + 2 * (y + 1) + (2 * (y + 1)) ^ 2 / 2 ≤ Real.exp (2 * (y + 1)) := Real.quadratic_le_exp_of_nonneg (by linarith)
    have h3 : (y + 1) * (1 - Real.tanh (y + 1)) ≤ 1 := by
      rw [h1, mul_div_assoc', div_le_one (by positivity)]
      nlinarith
    unfold dispF
    linarith
  have hsmall : dispF 0 ≤ y := by simp [dispF, hy.le]
  obtain ⟨q, hq, hfq⟩ := intermediate_value_Icc (by linarith : (0 : ℝ) ≤ y + 1) hcont.continuousOn ⟨hsmall, hbig⟩
  have hq0 : 0 < q := by
    rcases hq.1.eq_or_lt with h | h
    · exfalso; rw [← h] at hfq; simp [dispF] at hfq; linarith
    · exact h
  refine ⟨q, ⟨hq0, hfq⟩, ?_⟩
  rintro p ⟨hp, hfp⟩
  rcases lt_trichotomy p q with h | h | h
  · have := hmono p q hp h
    unfold dispF at this hfq
    linarith
  · exact h
  · have := hmono q p hq0 h
    unfold dispF at this hfq
    linarith

/-- Relative accuracy of `q tanh q` carries over to `q`. -/
theorem relative_error {p q y r : ℝ} (hp : 0 < p) (hq : 0 < q) (hy : 0 < y) (hfp : p * Real.tanh p = y)
    (hfq : |q * Real.tanh q - y| ≤ r * y) : |q - p| ≤ r * p := by
  have htp := tanh_pos' hp
  have htq := tanh_pos' hq
  rw [abs_le] at hfq ⊢
  rcases le_total p q with h | h
  · have h1 : Real.tanh p ≤ Real.tanh q := tanh_strictMono.monotone h
    have h2 : (q - p) * Real.tanh p ≤ r * p * Real.tanh p := by
      have e1 : q * Real.tanh p ≤ q * Real.tanh q := mul_le_mul_of_nonneg_left h1 hq.le
      have e2 : r * p * Real.tanh p = r * y := by rw [← hfp]; ring
      rw [e2, sub_mul, hfp]; linarith [hfq.2]
    have h3 := le_of_mul_le_mul_right h2 htp
    constructor <;> linarith
  · have h1 : Real.tanh q ≤ Real.tanh p := tanh_strictMono.monotone h
    have h2 : (p - q) * Real.tanh p ≤ r * p * Real.tanh p := by
      have e1 : q * Real.tanh q ≤ q * Real.tanh p := mul_le_mul_of_nonneg_left h1 hq.le
      have e2 : r * p * Real.tanh p = r * y := by rw [← hfp]; ring
      rw [e2, sub_mul, hfp]; linarith [hfq.1]
    have h3 := le_of_mul_le_mul_right h2 htp
    constructor <;> linarith

/-! ## One round of the iteration -/

theorem b_pos {q : ℝ} (hq : 0 < q) : 0 < dispF1 q := by
  unfold dispF1
  have := tanh_pos' hq
  have := sech_pos q
  positivity

/-- **C51 (fixed points).**  An iterate is left unchanged by the iteration exactly if it solves the dispersion relation. -/
theorem disper_fixed_point {y q : ℝ} (hq : 0 < q) : dispRound y q = some q ↔ q * Real.tanh q = y := by
  have hb := b_pos hq
  unfold dispF1 at hb
  unfold dispRound dispArg
  dsimp only
  generalize Real.tanh q + q * (1 - Real.tanh q ^ 2) = b at *
  generalize (1 - q * Real.tanh q) * (1 - Real.tanh q ^ 2) = a at *
  constructor
  · intro h
    split_ifs at h with h1 h2 h3
    · simp only [Option.map_some, Option.some.injEq] at h
      have : -(q * Real.tanh q - y) / b = 0 := by linarith
      rw [div_eq_zero_iff] at this
      rcases this with h | h <;> linarith
    · simp at h
    · simp only [Option.map_some, Option.some.injEq] at h
      have h4 : (-b + Real.sqrt (b ^ 2 - 4 * a * (q * Real.tanh q - y))) / (2 * a) = 0 := by linarith
      rw [div_eq_zero_iff] at h4
      rcases h4 with h4 | h4
      · have h5 : Real.sqrt (b ^ 2 - 4 * a * (q * Real.tanh q - y)) = b := by linarith
        have h6 := Real.mul_self_sqrt (not_lt.1 h3)
        rw [h5] at h6
        have h7 : a * (q * Real.tanh q - y) = 0 := by nlinarith
        rcases mul_eq_zero.1 h7 with h8 | h8
        · exact absurd h8 h2
        · linarith
      · exfalso; apply h2; linarith
    · push Not at h2
      rw [h2] at h1
      exfalso; apply h1
      simp; positivity
  · intro h
    rw [h, sub_self, mul_zero, abs_zero, if_pos (by positivity)]
    simp

/-- `b ≥ 1` for `q ≥ 2/3`. -/
theorem b_ge_one {q : ℝ} (hq : 2 / 3 ≤ q) : 1 ≤ dispF1 q := by
  have h1 := one_sub_tanh q
  have h2 : 1 + 2 * q + (2 * q) ^ 2 / 2 ≤ Real.exp (2 * q) := Real.quadratic_le_exp_of_nonneg (by linarith)
  have hE : 3 ≤ Real.exp (2 * q) := by nlinarith
  unfold dispF1
  have e : Real.tanh q = 1 - 2 / (Real.exp (2 * q) + 1) := by linarith
  rw [e]
  generalize Real.exp (2 * q) = E at *
  have hE1 : (0 : ℝ) < E + 1 := by linarith
  have h3 : 1 - 2 / (E + 1) + q * (1 - (1 - 2 / (E + 1)) ^ 2) - 1 = (2 / (E + 1) ^ 2) * ((2 * q - 1) * E - 1) := by
    field_simp
    ring
  have h4 : 0 ≤ (2 * q - 1) * E - 1 := by nlinarith
  have h5 : 0 ≤ (2 / (E + 1) ^ 2) * ((2 * q - 1) * E - 1) := by positivity
  linarith

/-- `b ≥ 7/5 q` for `q ≤ 2/3`. -/
theorem b_ge_mul {q : ℝ} (hq : 0 < q) (h : q ≤ 2 / 3) : 7 / 5 * q ≤ dispF1 q := by
  have h1 := tanh_ge hq.le
  have h2 := tanh_le_self hq.le
  have h3 := tanh_pos' hq
  have h4 : 27 / 31 * q ≤ 3 * q / (3 + q ^ 2) := by
    rw [le_div_iff₀ (by positivity)]
    nlinarith [mul_nonneg hq.le hq.le]
  have h5 : 5 / 9 ≤ 1 - Real.tanh q ^ 2 := by nlinarith
  unfold dispF1
  nlinarith

/-- The size `min y 1` by which residuals are measured is at most `b^(3/2)` near the solution. -/
theorem scale_le {y q : ℝ} (hy : 0 < y) (hq : 0 < q) (hc : |q * Real.tanh q - y| ≤ 1 / 4 * min y 1) :
    min y 1 ^ 2 ≤ dispF1 q ^ 3 := by
  have hm0 : 0 < min y 1 := lt_min hy one_pos
  rcases le_total (2 / 3) q with h | h
  · have h1 := b_ge_one h
    have h2 : min y 1 ≤ 1 := min_le_right _ _
    have h3 : (1 : ℝ) ≤ dispF1 q ^ 3 := one_le_pow₀ h1
    nlinarith
  · have h1 := b_ge_mul hq h
    have h2 : min y 1 ≤ y := min_le_left _ _
    have h3 := (abs_le.1 hc).1
    have h4 := tanh_le_self hq.le
    have h5 : min y 1 ≤ 4 / 3 * q ^ 2 := by nlinarith
    have h6 : min y 1 ^ 2 ≤ (4 / 3 * q ^ 2) ^ 2 := pow_le_pow_left₀ hm0.le h5 2
    have h7 : (7 / 5 * q) ^ 3 ≤ dispF1 q ^ 3 := pow_le_pow_left₀ (by positivity) h1 3
    have h8 : (4 / 3 * q ^ 2) ^ 2 ≤ (7 / 5 * q) ^ 3 := by
      have : (4 / 3 * q ^ 2) ^ 2 = 16 / 9 * q * q ^ 3 := by ring
      rw [this]
      have h9 : (7 / 5 * q) ^ 3 = 343 / 125 * q ^ 3 := by ring
      rw [h9]
      have : 0 ≤ q ^ 3 := by positivity
      apply mul_le_mul_of_nonneg_right _ this
      linarith
    linarith

/-- The increment of a round near the solution: it exists, is small, keeps `q` positive and solves the quadratic up to `1e-8`. -/
theorem disp_step {y q : ℝ} (hy : 0 < y) (hq : 0 < q) (hc : |q * Real.tanh q - y| ≤ 1 / 4 * min y 1) :
    ∃ s, dispArg y q = some s ∧ 0 < q + s ∧ |s| * dispF1 q ≤ 134 / 125 * |q * Real.tanh q - y| ∧
      |dispF2 q / 2 * s ^ 2 + dispF1 q * s + (q * Real.tanh q - y)| ≤ 1 / 10 ^ 8 * |q * Real.tanh q - y| := by
  have hb := b_pos hq
  have hS := sech_pos q
  have ht := tanh_pos' hq
  have hbe : dispF1 q = Real.tanh q + q * (1 - Real.tanh q ^ 2) := rfl
  have ha : dispF2 q / 2 = (1 - q * Real.tanh q) * (1 - Real.tanh q ^ 2) := by unfold dispF2; ring
  have hm1 : min y 1 ≤ 1 := min_le_right _ _
  have hmy : min y 1 ≤ y := min_le_left _ _
  have hc2 := (abs_le.1 hc).2
  have hc1 := (abs_le.1 hc).1
  have hu : 0 < q * Real.tanh q := by positivity
  -- AM-GM
  have hamgm : 4 * (q * Real.tanh q) * (1 - Real.tanh q ^ 2) ≤ dispF1 q ^ 2 := by
    rw [hbe]; nlinarith [sq_nonneg (Real.tanh q - q * (1 - Real.tanh q ^ 2))]
  -- discriminant
  have hdisc : 4 * (dispF2 q / 2) * (q * Real.tanh q - y) ≤ 1 / 4 * dispF1 q ^ 2 := by
    rw [ha]
    rcases le_total (q * Real.tanh q) 1 with h1 | h1
    · rcases le_total (q * Real.tanh q - y) 0 with h2 | h2
      · have : (1 - q * Real.tanh q) * (1 - Real.tanh q ^ 2) * (q * Real.tanh q - y) ≤ 0 :=
          mul_nonpos_of_nonneg_of_nonpos (mul_nonneg (by linarith) hS.le) h2
        have := sq_nonneg (dispF1 q)
        linarith
      · have h3 : q * Real.tanh q - y ≤ q * Real.tanh q / 4 := by linarith
        have h4 : (1 - q * Real.tanh q) * (1 - Real.tanh q ^ 2) ≤ 1 - Real.tanh q ^ 2 := by nlinarith
        have h5 : (1 - q * Real.tanh q) * (1 - Real.tanh q ^ 2) * (q * Real.tanh q - y) ≤ (1 - Real.tanh q ^ 2) * (q * Real.tanh q / 4) := by
          apply mul_le_mul h4 h3 h2 hS.le
        linarith
    · have h3 : -(q * Real.tanh q - y) ≤ 1 / 4 := by linarith
      have h4 : 0 ≤ (q * Real.tanh q - 1) * (1 - Real.tanh q ^ 2) := mul_nonneg (by linarith) hS.le
      have h5 : (q * Real.tanh q - 1) * (1 - Real.tanh q ^ 2) * (-(q * Real.tanh q - y)) ≤ (q * Real.tanh q - 1) * (1 - Real.tanh q ^ 2) * (1 / 4) :=
        mul_le_mul_of_nonneg_left h3 h4
      have h6 : (q * Real.tanh q - 1) * (1 - Real.tanh q ^ 2) ≤ (q * Real.tanh q) * (1 - Real.tanh q ^ 2) := by nlinarith
      linarith
  -- positivity of q + s
  have hpos : ∀ s : ℝ, |s| * dispF1 q ≤ 134 / 125 * |q * Real.tanh q - y| → 0 < q + s := by
    intro s hs
    have h1 : |q * Real.tanh q - y| ≤ q * Real.tanh q / 3 := by
      rw [abs_le]; constructor <;> linarith
    have h2 : q * Real.tanh q ≤ q * dispF1 q := by
      apply mul_le_mul_of_nonneg_left _ hq.le
      rw [hbe]
      have : 0 < q * (1 - Real.tanh q ^ 2) := by positivity
      linarith
    have h3 : |s| * dispF1 q < q * dispF1 q := by linarith [mul_pos hq hb]
    have h4 := lt_of_mul_lt_mul_right h3 hb.le
    have := (abs_lt.1 h4).1
    linarith
  unfold dispArg
  dsimp only
  rw [← ha, ← hbe]
  set a := dispF2 q / 2
  set b := dispF1 q
  set c := q * Real.tanh q - y
  by_cases hn : |a * c| < 1 / 10 ^ 8 * b ^ 2
  · rw [if_pos hn]
    have hs : |(-c / b)| * b = |c| := by
      rw [abs_div, abs_neg, abs_of_pos hb, div_mul_cancel₀ _ hb.ne']
    have hle : |(-c / b)| * b ≤ 134 / 125 * |c| := by rw [hs]; linarith [abs_nonneg c]
    refine ⟨_, rfl, hpos _ hle, hle, ?_⟩
    have e : a * (-c / b) ^ 2 + b * (-c / b) + c = (a * c) * c / b ^ 2 := by field_simp; ring
    rw [e, abs_div, abs_mul, abs_of_pos (by positivity : 0 < b ^ 2), div_le_iff₀ (by positivity)]
    have := abs_nonneg c
    nlinarith
  · rw [if_neg hn]
    have ha0 : a ≠ 0 := by
      intro h
      rw [h] at hn
      apply hn
      simp
      positivity
    have hd : 3 / 4 * b ^ 2 ≤ b ^ 2 - 4 * a * c := by linarith
    have hd0 : ¬ (b ^ 2 - 4 * a * c < 0) := by
      have := sq_nonneg b
      push Not; linarith
    rw [if_pos ha0, if_neg hd0]
    set d := Real.sqrt (b ^ 2 - 4 * a * c)
    have hdd : d * d = b ^ 2 - 4 * a * c := Real.mul_self_sqrt (not_lt.1 hd0)
    have hdb : 433 / 500 * b ≤ d := by
      apply Real.le_sqrt_of_sq_le
      nlinarith [sq_nonneg b]
    have hroot : a * ((-b + d) / (2 * a)) ^ 2 + b * ((-b + d) / (2 * a)) + c = 0 := by
      field_simp
      nlinarith
    have hform : (-b + d) / (2 * a) * (b + d) = -2 * c := by
      field_simp
      nlinarith
    have hle : |(-b + d) / (2 * a)| * b ≤ 134 / 125 * |c| := by
      have h1 : |(-b + d) / (2 * a)| * (b + d) = 2 * |c| := by
        have h0 : |(-b + d) / (2 * a) * (b + d)| = |(-b + d) / (2 * a)| * (b + d) := by
          rw [abs_mul, abs_of_pos (by linarith : 0 < b + d)]
        rw [← h0, hform, abs_mul]; norm_num
      have h2 : 933 / 500 * b ≤ b + d := by linarith
      have h3 := mul_le_mul_of_nonneg_left h2 (abs_nonneg ((-b + d) / (2 * a)))
      have := abs_nonneg c
      nlinarith
    refine ⟨_, rfl, hpos _ hle, hle, ?_⟩
    rw [hroot, abs_zero]
    positivity

/-- **Convergence of a round.**  A residual of relative size `β ≤ 1/4` is reduced to `1e-8 β + 0.7 β³`. -/
theorem disp_round {y q β : ℝ} (hy : 0 < y) (hq : 0 < q) (hβ : β ≤ 1 / 4) (hc : |q * Real.tanh q - y| ≤ β * min y 1) :
    ∃ q', dispRound y q = some q' ∧ 0 < q' ∧ |q' * Real.tanh q' - y| ≤ (1 / 10 ^ 8 * β + 7 / 10 * β ^ 3) * min y 1 := by
  have hm0 : 0 < min y 1 := lt_min hy one_pos
  have hβ0 : 0 ≤ β := by
    by_contra h
    push Not at h
    have := abs_nonneg (q * Real.tanh q - y)
    nlinarith
  have hc' : |q * Real.tanh q - y| ≤ 1 / 4 * min y 1 := le_trans hc (mul_le_mul_of_nonneg_right hβ hm0.le)
  obtain ⟨s, hs, hpos, hle, hquad⟩ := disp_step hy hq hc'
  refine ⟨q + s, by unfold dispRound; rw [hs]; rfl, hpos, ?_⟩
  have hT := F_taylor hq.le hpos.le
  have hb := b_pos hq
  have hsc := scale_le hy hq hc'
  have e1 : dispF (q + s) = (q + s) * Real.tanh (q + s) := rfl
  have e2 : dispF q = q * Real.tanh q := rfl
  -- |s|^3 b^3 ≤ (134/125)^3 |c|^3 ≤ (134/125)^3 β^3 m^3 ≤ (134/125)^3 β^3 m b^3
  have hs3 : |s| ^ 3 ≤ (134 / 125) ^ 3 * β ^ 3 * min y 1 := by
    have h1 : (|s| * dispF1 q) ^ 3 ≤ (134 / 125 * (β * min y 1)) ^ 3 :=
      pow_le_pow_left₀ (by positivity) (le_trans hle (by linarith)) 3
    have h2 : (134 / 125 * (β * min y 1)) ^ 3 = (134 / 125) ^ 3 * β ^ 3 * min y 1 * min y 1 ^ 2 := by ring
    have h3 : (134 / 125) ^ 3 * β ^ 3 * min y 1 * min y 1 ^ 2 ≤ (134 / 125) ^ 3 * β ^ 3 * min y 1 * dispF1 q ^ 3 :=
      mul_le_mul_of_nonneg_left hsc (by positivity)
    have h4 : |s| ^ 3 * dispF1 q ^ 3 ≤ (134 / 125) ^ 3 * β ^ 3 * min y 1 * dispF1 q ^ 3 := by
      rw [← mul_pow]; linarith
    exact le_of_mul_le_mul_right h4 (by positivity)
  have hsplit : (q + s) * Real.tanh (q + s) - y = (dispF (q + s) - (dispF q + dispF1 q * s + dispF2 q / 2 * s ^ 2)) +
      (dispF2 q / 2 * s ^ 2 + dispF1 q * s + (q * Real.tanh q - y)) := by rw [e1, e2]; ring
  rw [hsplit]
  refine (abs_add_le _ _).trans ?_
  have h5 : 0 ≤ β ^ 3 * min y 1 := by positivity
  have h6 : 17 / 30 * |s| ^ 3 ≤ 7 / 10 * β ^ 3 * min y 1 := by nlinarith
  have h7 : 1 / 10 ^ 8 * |q * Real.tanh q - y| ≤ 1 / 10 ^ 8 * (β * min y 1) := by
    apply mul_le_mul_of_nonneg_left hc; norm_num
  linarith

/-! ## The first approximation -/

theorem one_sub_exp_neg_pos {z : ℝ} (hz : 0 < z) : 0 < 1 - Real.exp (-z) := by
  have : Real.exp (-z) < 1 := by rw [Real.exp_lt_one_iff]; linarith
  linarith

theorem dispStart_pos {y : ℝ} (hy : 0 < y) : 0 < dispStart y := by
  unfold dispStart
  have := one_sub_exp_neg_pos (Real.rpow_pos_of_pos hy (5 / 4 : ℝ))
  have := Real.rpow_pos_of_pos this (2 / 5 : ℝ)
  positivity

theorem dispStart_ge {y : ℝ} (hy : 0 < y) : y ≤ dispStart y := by
  unfold dispStart
  have h := one_sub_exp_neg_pos (Real.rpow_pos_of_pos hy (5 / 4 : ℝ))
  have h1 := Real.rpow_pos_of_pos h (2 / 5 : ℝ)
  have h2 : (1 - Real.exp (-(y ^ (5 / 4 : ℝ)))) ^ (2 / 5 : ℝ) ≤ 1 := by
    apply Real.rpow_le_one h.le _ (by norm_num)
    have := Real.exp_pos (-(y ^ (5 / 4 : ℝ)))
    linarith
  rw [le_div_iff₀ h1]
  nlinarith

/-- The square of the first approximation lies between `y` and `y (1 + 4/5 y^(5/4))`. -/
theorem dispStart_sq {y : ℝ} (hy : 0 < y) : y ≤ dispStart y ^ 2 ∧ dispStart y ^ 2 ≤ y * (1 + 4 / 5 * y ^ (5 / 4 : ℝ)) := by
  unfold dispStart
  have hz := Real.rpow_pos_of_pos hy (5 / 4 : ℝ)
  have hzy : (y ^ (5 / 4 : ℝ)) ^ (4 / 5 : ℝ) = y := by
    rw [← Real.rpow_mul hy.le]; norm_num
  generalize y ^ (5 / 4 : ℝ) = z at *
  have hE := one_sub_exp_neg_pos hz
  have hEz : 1 - Real.exp (-z) ≤ z := by
    have := Real.add_one_le_exp (-z)
    linarith
  have hEl : z / (1 + z) ≤ 1 - Real.exp (-z) := by
    have h2 : Real.exp (-z) ≤ 1 / (1 + z) := by
      rw [Real.exp_neg, ← one_div]
      apply one_div_le_one_div_of_le (by linarith)
      have := Real.add_one_le_exp z
      linarith
    have h3 : z / (1 + z) = 1 - 1 / (1 + z) := by field_simp; ring
    linarith
  generalize 1 - Real.exp (-z) = E at *
  have hv : (E ^ (2 / 5 : ℝ)) ^ 2 = E ^ (4 / 5 : ℝ) := by
    rw [← Real.rpow_natCast, ← Real.rpow_mul hE.le]; norm_num
  rw [div_pow, hv]
  have hvp := Real.rpow_pos_of_pos hE (4 / 5 : ℝ)
  have hvu : E ^ (4 / 5 : ℝ) ≤ y := by
    have := Real.rpow_le_rpow hE.le hEz (by norm_num : (0 : ℝ) ≤ 4 / 5)
    rwa [hzy] at this
  have hvl : y ≤ E ^ (4 / 5 : ℝ) * (1 + 4 / 5 * z) := by
    have h2 := Real.rpow_le_rpow (by positivity) hEl (by norm_num : (0 : ℝ) ≤ 4 / 5)
    rw [Real.div_rpow hz.le (by linarith), hzy, div_le_iff₀ (Real.rpow_pos_of_pos (by linarith) _)] at h2
    have h3 : (1 + z) ^ (4 / 5 : ℝ) ≤ 1 + 4 / 5 * z :=
      _root_.rpow_one_add_le_one_add_mul_self (by linarith) (by norm_num) (by norm_num)
    have h4 : E ^ (4 / 5 : ℝ) * (1 + z) ^ (4 / 5 : ℝ) ≤ E ^ (4 / 5 : ℝ) * (1 + 4 / 5 * z) :=
      mul_le_mul_of_nonneg_left (by linarith) hvp.le
    linarith
  constructor
  · rw [le_div_iff₀ hvp]; nlinarith
  · rw [div_le_iff₀ hvp]; nlinarith

/-- The first approximation exceeds `y` by at most `(2/5) y / (exp(y^(5/4)) - 1)`. -/
theorem dispStart_le {y : ℝ} (hy : 0 < y) : dispStart y ≤ y + 2 / 5 * y / (Real.exp (y ^ (5 / 4 : ℝ)) - 1) := by
  unfold dispStart
  have hz := Real.rpow_pos_of_pos hy (5 / 4 : ℝ)
  generalize y ^ (5 / 4 : ℝ) = z at *
  have hE := one_sub_exp_neg_pos hz
  have he1 : 0 < Real.exp z - 1 := by
    have := Real.add_one_le_exp z
    linarith
  have hinv : (1 - Real.exp (-z))⁻¹ = 1 + 1 / (Real.exp z - 1) := by
    rw [Real.exp_neg]
    have := Real.exp_pos z
    field_simp
    ring
  rw [div_eq_mul_inv, ← Real.inv_rpow hE.le, hinv]
  have h3 : (1 + 1 / (Real.exp z - 1)) ^ (2 / 5 : ℝ) ≤ 1 + 2 / 5 * (1 / (Real.exp z - 1)) :=
    _root_.rpow_one_add_le_one_add_mul_self (le_trans (by norm_num) (by positivity : 0 ≤ 1 / (Real.exp z - 1))) (by norm_num) (by norm_num)
  have h4 := mul_le_mul_of_nonneg_left h3 hy.le
  refine h4.trans (le_of_eq ?_)
  ring

/-- The first approximation as a function of `y^(1/4)`. -/
theorem dispStart_isStart : IsStart fun s => dispStart (s ^ 4) := by
  intro s hs
  refine ⟨dispStart_pos (by positivity), ?_⟩
  have e : (s ^ 4) ^ (5 / 4 : ℝ) = s ^ 5 := by
    rw [← Real.rpow_natCast, ← Real.rpow_mul hs.le, ← Real.rpow_natCast]
    norm_num
  unfold dispStart
  dsimp only
  rw [e]
  have hE := one_sub_exp_neg_pos (by positivity : 0 < s ^ 5)
  rw [show -s ^ 5 = -(s ^ 5) by ring]
  generalize 1 - Real.exp (-(s ^ 5)) = E at *
  have hv : (E ^ (2 / 5 : ℝ)) ^ 5 = E ^ 2 := by
    rw [← Real.rpow_natCast, ← Real.rpow_mul hE.le, ← Real.rpow_natCast]; norm_num
  rw [div_pow, hv]
  have : E ^ 2 ≠ 0 := by positivity
  field_simp

/-- `exp x ≥ 60` for `x ≥ 17/4`. -/
theorem exp_ge_60 : (60 : ℝ) ≤ Real.exp (17 / 4) := by
  have := Real.sum_le_exp_of_nonneg (by norm_num : (0 : ℝ) ≤ 17 / 4) 10
  refine le_trans ?_ this
  simp [Finset.sum_range_succ, Nat.factorial]
  norm_num

/-- The first approximation has a relative residual of at most `0.024`. -/
theorem dispStart_residual {y : ℝ} (hy : 0 < y) : |dispStart y * Real.tanh (dispStart y) - y| ≤ 3 / 125 * min y 1 := by
  have hq := dispStart_pos hy
  rcases le_total y (1 / 20) with h1 | h1
  · rw [min_eq_left (by linarith)]
    obtain ⟨hl, hu⟩ := dispStart_sq hy
    have hz : y ^ (5 / 4 : ℝ) ≤ 3 / 100 := by
      have h2 : (y ^ (5 / 4 : ℝ)) ^ 4 = y ^ 5 := by
        rw [← Real.rpow_natCast, ← Real.rpow_mul hy.le, ← Real.rpow_natCast]; norm_num
      have hz := Real.rpow_pos_of_pos hy (5 / 4 : ℝ)
      refine le_of_not_gt fun hlt => ?_
      have h3 := pow_lt_pow_left₀ hlt (by norm_num) (by norm_num : 4 ≠ 0)
      have h4 := pow_le_pow_left₀ hy.le h1 5
      rw [h2] at h3
      norm_num at h3 h4
      linarith
    have ht := tanh_ge hq.le
    have ht' := tanh_le_self hq.le
    generalize dispStart y = q at *
    rw [abs_le]
    constructor
    · have h2 : q * (3 * q / (3 + q ^ 2)) ≤ q * Real.tanh q := mul_le_mul_of_nonneg_left ht hq.le
      have h3 : 122 / 125 * y ≤ q * (3 * q / (3 + q ^ 2)) := by
        rw [mul_div_assoc', le_div_iff₀ (by positivity)]
        nlinarith
      linarith
    · have h2 : q * Real.tanh q ≤ q * q := mul_le_mul_of_nonneg_left ht' hq.le
      have h3 : y * (1 + 4 / 5 * y ^ (5 / 4 : ℝ)) ≤ y * (1 + 4 / 5 * (3 / 100)) :=
        mul_le_mul_of_nonneg_left (by linarith) hy.le
      nlinarith
  rcases le_total y (16 / 5) with h2 | h2
  · have e : (y ^ (1 / 4 : ℝ)) ^ 4 = y := by
      rw [← Real.rpow_natCast, ← Real.rpow_mul hy.le]; norm_num
    have := start_middle dispStart_isStart (s := y ^ (1 / 4 : ℝ)) (by rwa [e]) (by rwa [e]) (Real.rpow_pos_of_pos hy _)
    simpa only [e] using this
  · rw [min_eq_right (by linarith)]
    have hu := dispStart_le hy
    have hl := dispStart_ge hy
    have hz : 4 / 3 * y ≤ y ^ (5 / 4 : ℝ) := by
      have h3 : (y ^ (5 / 4 : ℝ)) ^ 4 = y ^ 5 := by
        rw [← Real.rpow_natCast, ← Real.rpow_mul hy.le, ← Real.rpow_natCast]; norm_num
      have hz := Real.rpow_pos_of_pos hy (5 / 4 : ℝ)
      refine le_of_not_gt fun hlt => ?_
      have h4 := pow_lt_pow_left₀ hlt hz.le (by norm_num : 4 ≠ 0)
      rw [h3] at h4
      have h5 : y ^ 5 = y * y ^ 4 := by ring
      have h6 : (4 / 3 * y) ^ 4 = 256 / 81 * y ^ 4 := by ring
      rw [h5, h6] at h4
      have h7 := lt_of_mul_lt_mul_right h4 (by positivity)
      linarith
    have hgrow : ∀ x : ℝ, 4 / 3 * y ≤ x → 60 * (1 + 4 / 3 * (y - 16 / 5)) ≤ Real.exp x := by
      intro x hx
      have h3 : Real.exp (17 / 4) * Real.exp (x - 17 / 4) = Real.exp x := by rw [← Real.exp_add]; congr 1; ring
      rw [← h3]
      have h4 := Real.add_one_le_exp (x - 17 / 4)
      exact mul_le_mul exp_ge_60 (by linarith) (by linarith) (Real.exp_pos _).le
    generalize dispStart y = q at *
    rw [abs_le]
    constructor
    · have h3 := dispF_mono hy.le hl
      have h4 := one_sub_tanh y
      have h6 : y * (1 - Real.tanh y) ≤ 3 / 125 := by
        have h7 := hgrow (4 / 3 * y) le_rfl
        have h8 := Real.quadratic_le_exp_of_nonneg (by linarith : 0 ≤ 2 / 3 * y)
        have h9 : Real.exp (4 / 3 * y) * Real.exp (2 / 3 * y) = Real.exp (2 * y) := by rw [← Real.exp_add]; congr 1; ring
        have h10 : 60 * (1 + 2 / 3 * y + (2 / 3 * y) ^ 2 / 2) ≤ Real.exp (2 * y) := by
          rw [← h9]
          exact mul_le_mul (by linarith) h8 (by positivity) (Real.exp_pos _).le
        rw [h4, mul_div_assoc', div_le_iff₀ (by positivity)]
        nlinarith [sq_nonneg (y - 13 / 8)]
      linarith
    · have h3 := tanh_lt_one' q
      have h4 := hgrow _ hz
      have h5 : 2 / 5 * y / (Real.exp (y ^ (5 / 4 : ℝ)) - 1) ≤ 3 / 125 := by
        rw [div_le_iff₀ (by linarith)]
        linarith
      nlinarith

/-- Two rounds from the first approximation: they exist, and the residual is at most `1e-13` of `min y 1`. -/
theorem disp_two_rounds {y : ℝ} (hy : 0 < y) : ∃ q, (dispRound y (dispStart y)).bind (dispRound y) = some q ∧ 0 < q ∧
    |q * Real.tanh q - y| ≤ 1 / 10 ^ 13 * min y 1 := by
  obtain ⟨q1, h1, hq1, hr1⟩ := disp_round hy (dispStart_pos hy) (by norm_num) (dispStart_residual hy)
  have hr1' : |q1 * Real.tanh q1 - y| ≤ 97 / 10000000 * min y 1 := by
    refine hr1.trans (mul_le_mul_of_nonneg_right ?_ (lt_min hy one_pos).le)
    norm_num
  obtain ⟨q2, h2, hq2, hr2⟩ := disp_round hy hq1 (by norm_num) hr1'
  refine ⟨q2, by rw [h1]; exact h2, hq2, hr2.trans (mul_le_mul_of_nonneg_right ?_ (lt_min hy one_pos).le)⟩
  norm_num

/-! ## The solver -/

/-- The linear dispersion relation, as in the documentation: `w^2 = g * k * tanh(k * h)`. -/
def SolvesDispersion (w h g k : ℝ) : Prop := w ^ 2 = g * k * Real.tanh (k * h)

theorem disperElem_eq {w h g : ℝ} : ∃ q, 0 < q ∧ |q * Real.tanh q - dispW2 w h g| ≤ 1 / 10 ^ 13 * min (dispW2 w h g) 1 ∧
    disperElem w h g = (SignType.sign w : ℝ) * q / h := by
  have hy : 0 < dispW2 w h g := by
    unfold dispW2
    dsimp only
    split_ifs with h1
    · norm_num
    · push Not at h1
      refine lt_of_lt_of_le (by norm_num) h1
  obtain ⟨q, h1, h2, h3⟩ := disp_two_rounds hy
  refine ⟨q, h2, h3, ?_⟩
  unfold disperElem
  dsimp only
  rw [h1]

/-- What `disper` returns for a list of frequencies and a positive depth. -/
theorem disper_ok (ws : List ℝ) {h g : ℝ} (hh : 0 < h) (hg : 0 < g) :
    disper (.list ws) (.fin h) g = .ok (ws.map fun w => disperElem w h g) := by
  unfold disper
  simp only [toArr]
  unfold disperFinite
  rw [if_neg (by linarith), if_neg (by linarith), if_neg (by linarith)]

/-- For every non-zero frequency, depth and gravity there is exactly one positive wave number. -/
theorem wave_number_unique {w h g : ℝ} (hw : w ≠ 0) (hh : 0 < h) (hg : 0 < g) :
    ∃! k, 0 < k ∧ SolvesDispersion w h g k := by
  have hy : 0 < w ^ 2 * h / g := by positivity
  obtain ⟨q, ⟨hq, hfq⟩, huniq⟩ := dispersion_unique hy
  refine ⟨q / h, ⟨by positivity, ?_⟩, ?_⟩
  · unfold SolvesDispersion
    rw [div_mul_cancel₀ _ hh.ne', show g * (q / h) * Real.tanh q = g * (q * Real.tanh q) / h by ring, hfq]
    field_simp
  · rintro k ⟨hk, hs⟩
    unfold SolvesDispersion at hs
    have := huniq (k * h) ⟨by positivity, by rw [hs]; field_simp⟩
    rw [← this]; field_simp

/-- **C63.**  For `w ≠ 0`, `h > 0`, `g > 0` and `w^2 h / g ≥ 1e-8` the returned value has the sign of `w`, and its size is the wave
number of the dispersion relation up to a relative error of `1e-13`. -/
theorem disper_accurate {w h g k : ℝ} (hh : 0 < h) (hg : 0 < g) (hw : w ≠ 0) (hy : 1 / 10 ^ 8 ≤ w ^ 2 * h / g)
    (hk : 0 < k) (hs : SolvesDispersion w h g k) :
    ∃ k', disper (.list [w]) (.fin h) g = .ok [SignType.sign w * k'] ∧ 0 < k' ∧ |k' - k| ≤ 1 / 10 ^ 13 * k := by
  rw [disper_ok _ hh hg]
  obtain ⟨q, hq, hr, he⟩ := disperElem_eq (w := w) (h := h) (g := g)
  refine ⟨q / h, by simp only [List.map_cons, List.map_nil]; rw [he, mul_div_assoc], by positivity, ?_⟩
  have e : dispW2 w h g = w ^ 2 * h / g := by
    unfold dispW2
    dsimp only
    rw [if_neg (not_lt.2 hy)]
  rw [e] at hr
  have hy0 : 0 < w ^ 2 * h / g := by positivity
  have hr' : |q * Real.tanh q - w ^ 2 * h / g| ≤ 1 / 10 ^ 13 * (w ^ 2 * h / g) :=
    hr.trans (mul_le_mul_of_nonneg_left (min_le_left _ _) (by norm_num))
  unfold SolvesDispersion at hs
  have h1 := relative_error (p := k * h) (by positivity) hq hy0 (by rw [hs]; field_simp) hr'
  rw [show q / h - k = (q - k * h) / h by field_simp, abs_div, abs_of_pos hh, div_le_iff₀ hh]
  linarith

/-- **C63 (default gravity).**  Without the third argument the gravitational acceleration is 9.81. -/
theorem disper_default_gravity {w h k : ℝ} (hh : 0 < h) (hw : w ≠ 0) (hy : 1 / 10 ^ 8 ≤ w ^ 2 * h / 9.81)
    (hk : 0 < k) (hs : SolvesDispersion w h 9.81 k) :
    ∃ k', disper (.list [w]) (.fin h) = .ok [SignType.sign w * k'] ∧ 0 < k' ∧ |k' - k| ≤ 1 / 10 ^ 13 * k := by
  have e : (9.81 : ℝ) = 981 / 100 := by norm_num
  rw [e] at hy hs
  exact disper_accurate hh (by norm_num) hw hy hk hs

/-- **C63 (lists).**  A list of frequencies is treated element by element, in order, and no value is lost. -/
theorem disper_elementwise (ws : List ℝ) {h g : ℝ} (hh : 0 < h) (hg : 0 < g) :
    ∃ ks, disper (.list ws) (.fin h) g = .ok ks ∧ ks.length = ws.length ∧
      ∀ i (hi : i < ws.length), disper (.list [ws[i]]) (.fin h) g = .ok [ks.getD i 0] := by
  refine ⟨_, disper_ok ws hh hg, by simp, fun i hi => ?_⟩
  rw [disper_ok _ hh hg, List.getD_eq_getElem _ _ (by simpa using hi)]
  simp

/-- **C63 (sign).**  The returned wave number has the sign of the frequency, for all frequencies. -/
theorem disper_sign (w : ℝ) {h g : ℝ} (hh : 0 < h) (hg : 0 < g) :
    ∃ k, disper (.list [w]) (.fin h) g = .ok [k] ∧ SignType.sign k = SignType.sign w := by
  rw [disper_ok _ hh hg]
  obtain ⟨q, hq, hr, he⟩ := disperElem_eq (w := w) (h := h) (g := g)
  refine ⟨_, rfl, ?_⟩
  dsimp only
  rw [he]
  rcases lt_trichotomy w 0 with h1 | h1 | h1
  · rw [sign_neg h1, sign_neg]
    simp only [SignType.coe_neg, SignType.coe_one]
    have : 0 < q / h := by positivity
    have e : -1 * q / h = -(q / h) := by ring
    rw [e]; linarith
  · subst h1; simp
  · rw [sign_pos h1, sign_pos]
    simp only [SignType.coe_one]
    positivity

/-- **C50 (odd).** -/
theorem disper_odd (ws : List ℝ) {h g : ℝ} (hh : 0 < h) (hg : 0 < g) :
    ∃ ks, disper (.list ws) (.fin h) g = .ok ks ∧ disper (.list (ws.map (- ·))) (.fin h) g = .ok (ks.map (- ·)) := by
  refine ⟨_, disper_ok ws hh hg, ?_⟩
  rw [disper_ok _ hh hg, List.map_map, List.map_map]
  congr 1
  apply List.map_congr_left
  intro w _
  have e : dispW2 (-w) h g = dispW2 w h g := by unfold dispW2; rw [neg_sq]
  simp only [Function.comp]
  unfold disperElem
  dsimp only
  rw [e]
  split
  · rw [Left.sign_neg, SignType.coe_neg]; ring
  · simp

/-- **C50 (zero frequency).** -/
theorem disper_zero {h g : ℝ} (hh : 0 < h) (hg : 0 < g) : disper (.list [0]) (.fin h) g = .ok [0] := by
  obtain ⟨k, h1, h2⟩ := disper_sign 0 hh hg
  rw [h1]
  rw [sign_zero, sign_eq_zero_iff] at h2
  rw [h2]

/-- **C50 (similarity).**  `k h` depends on `w`, `h`, `g` only through `w^2 h / g` and the sign of `w`. -/
theorem disper_similar {w w' h h' g g' : ℝ} (hh : 0 < h) (hg : 0 < g) (hh' : 0 < h') (hg' : 0 < g') (hs : SignType.sign w = SignType.sign w')
    (he : w ^ 2 * h / g = w' ^ 2 * h' / g') :
    ∃ k k', disper (.list [w]) (.fin h) g = .ok [k] ∧ disper (.list [w']) (.fin h') g' = .ok [k'] ∧ k * h = k' * h' := by
  refine ⟨_, _, disper_ok _ hh hg, disper_ok _ hh' hg', ?_⟩
  have e : dispW2 w h g = dispW2 w' h' g' := by unfold dispW2; rw [he]
  unfold disperElem
  dsimp only
  rw [e, hs]
  split
  · field_simp
  · simp

/-- **C49 (refuted): deep water.**  With infinite depth every call fails: the local variable `q` is read before assignment. -/
theorem disper_deep_fails (ws : List ℝ) (g : ℝ) : disper (.list ws) .inf g = .error (.unboundLocalError "q") := by
  unfold disper
  simp only [toArr]

/-- **C49 (refuted): shallow water.**  The same with a negative depth. -/
theorem disper_shallow_fails (ws : List ℝ) {h : ℝ} (hh : h < 0) (g : ℝ) :
    disper (.list ws) (.fin h) g = .error (.unboundLocalError "q") := by
  unfold disper
  simp only [toArr]
  rw [if_pos hh]

/-- **C64 (refuted): low frequencies.**  Below `w^2 h / g = 1e-8` the returned wave number no longer depends on the frequency. -/
theorem disper_clamped {h g : ℝ} (hh : 0 < h) (hg : 0 < g) :
    ∃ k, 0 < k ∧ ∀ w, 0 < w → w ^ 2 * h / g < 1 / 10 ^ 8 → disper (.list [w]) (.fin h) g = .ok [k] := by
  obtain ⟨q', hq', h1, -⟩ := disp_two_rounds (y := 1 / 10 ^ 8) (by norm_num)
  refine ⟨q' / h, by positivity, fun w hw hlt => ?_⟩
  rw [disper_ok _ hh hg]
  simp only [List.map_cons, List.map_nil]
  congr 2
  unfold disperElem
  have e : dispW2 w h g = 1 / 10 ^ 8 := by unfold dispW2; dsimp only; rw [if_pos hlt]
  dsimp only
  rw [e, hq', sign_pos hw]
  simp

/-- **C64 (refuted): no accuracy for low frequencies.**  For every factor `M`, depth and gravity there is a positive frequency for which
the returned wave number exceeds `M` times the solution of the dispersion relation. -/
theorem disper_inaccurate_low {M h g : ℝ} (hM : 0 ≤ M) (hh : 0 < h) (hg : 0 < g) :
    ∃ w k k', 0 < w ∧ 0 < k ∧ SolvesDispersion w h g k ∧ disper (.list [w]) (.fin h) g = .ok [k'] ∧ M * k < k' := by
  obtain ⟨Q, hround, hQ, hr⟩ := disp_two_rounds (y := 1 / 10 ^ 8) (by norm_num)
  rw [min_eq_left (by norm_num)] at hr
  have hr2 := (abs_le.1 hr).2
  set p := Q / (M + 2) with hp
  have hp0 : 0 < p := by positivity
  have hpQ : p ≤ Q / 2 := by
    rw [hp]; apply div_le_div_of_nonneg_left hQ.le (by norm_num) (by linarith)
  have htp := tanh_pos' hp0
  have hlt : p * Real.tanh p < 1 / 10 ^ 8 := by
    have h1 : Real.tanh p ≤ Real.tanh Q := tanh_strictMono.monotone (by linarith)
    have h2 : p * Real.tanh p ≤ Q / 2 * Real.tanh Q := mul_le_mul hpQ h1 htp.le (by linarith)
    norm_num at *
    linarith
  have hw0 : 0 < p * Real.tanh p * g / h := by positivity
  have hsq : Real.sqrt (p * Real.tanh p * g / h) ^ 2 = p * Real.tanh p * g / h := Real.sq_sqrt hw0.le
  refine ⟨Real.sqrt (p * Real.tanh p * g / h), p / h, Q / h, Real.sqrt_pos.2 hw0, by positivity, ?_, ?_, ?_⟩
  · unfold SolvesDispersion
    rw [hsq, div_mul_cancel₀ _ hh.ne']; ring
  · rw [disper_ok _ hh hg]
    simp only [List.map_cons, List.map_nil]
    congr 2
    unfold disperElem
    have e : dispW2 (Real.sqrt (p * Real.tanh p * g / h)) h g = 1 / 10 ^ 8 := by
      unfold dispW2; dsimp only
      rw [hsq, show p * Real.tanh p * g / h * h / g = p * Real.tanh p by field_simp, if_pos hlt]
    dsimp only
    rw [e, hround, sign_pos (Real.sqrt_pos.2 hw0)]
    simp
  · rw [mul_div_assoc', div_lt_div_iff_of_pos_right hh, hp, mul_div_assoc', div_lt_iff₀ (by positivity)]
    nlinarith

/-- A concrete case of `disper_accurate`: a 10 s wave-like frequency `w = 1` in 10 m of water. -/
example : ∃ k k', 0 < k ∧ SolvesDispersion 1 10 (981 / 100) k ∧ disper (.list [1]) (.fin 10) (981 / 100) = .ok [k'] ∧
    0 < k' ∧ |k' - k| ≤ 1 / 10 ^ 13 * k := by
  obtain ⟨k, ⟨hk, hs⟩, -⟩ := wave_number_unique (w := 1) (h := 10) (g := 981 / 100) one_ne_zero (by norm_num) (by norm_num)
  obtain ⟨k', h1, h2, h3⟩ := disper_accurate (by norm_num) (by norm_num) one_ne_zero (by norm_num) hk hs
  refine ⟨k, k', hk, hs, ?_, h2, h3⟩
  rw [h1, sign_pos one_pos]; simp

/-- A concrete case of `disper_similar`: four times the depth and half the frequency. -/
example : ∃ k k', disper (.list [2]) (.fin 1) (981 / 100) = .ok [k] ∧ disper (.list [1]) (.fin 4) (981 / 100) = .ok [k'] ∧
    k * 1 = k' * 4 :=
  disper_similar (by norm_num) (by norm_num) (by norm_num) (by norm_num) (by rw [sign_pos, sign_pos] <;> norm_num) (by norm_num)

/-! ## Concrete cases: the hypotheses of the theorems above are met -/

/-! Ten metres of water (and invalid depths). -/

example : disper (.list [1, 2]) .inf (981 / 100) = .error (.unboundLocalError "q") := disper_deep_fails _ _
example : disper (.list [1, 2]) (.fin (-10)) (981 / 100) = .error (.unboundLocalError "q") := disper_shallow_fails _ (by norm_num) _
example : ∃ ks, disper (.list [1, -2]) (.fin 10) (981 / 100) = .ok ks ∧ disper (.list [-1, 2]) (.fin 10) (981 / 100) = .ok (ks.map (- ·)) := by
  simpa using disper_odd [1, -2] (h := 10) (g := 981 / 100) (by norm_num) (by norm_num)
example : disper (.list [0]) (.fin 10) (981 / 100) = .ok [0] := disper_zero (by norm_num) (by norm_num)
example : ∃ q : ℝ, dispRound 3 q = some q := by
  obtain ⟨q, ⟨h0, h1⟩, -⟩ := dispersion_unique (y := 3) (by norm_num)
  exact ⟨q, (disper_fixed_point h0).2 h1⟩
example := disper_elementwise [1, 2, 1 / 2] (h := 10) (g := 981 / 100) (by norm_num) (by norm_num)
example := disper_sign (-2) (h := 10) (g := 981 / 100) (by norm_num) (by norm_num)
example := disp_two_rounds (y := 3) (by norm_num)
example : ∃ k k', 0 < k ∧ SolvesDispersion 1 10 9.81 k ∧ disper (.list [1]) (.fin 10) = .ok [SignType.sign (1 : ℝ) * k'] ∧
    |k' - k| ≤ 1 / 10 ^ 13 * k := by
  obtain ⟨k, ⟨hk, hs⟩, -⟩ := wave_number_unique (w := 1) (h := 10) (g := 9.81) one_ne_zero (by norm_num) (by norm_num)
  obtain ⟨k', a, -, b⟩ := disper_default_gravity (w := 1) (h := 10) (by norm_num) one_ne_zero (by norm_num) hk hs
  exact ⟨k, k', hk, hs, a, b⟩
/-- Periods of ten hours and of ten days get the same wave number. -/
example : ∃ k, 0 < k ∧ disper (.list [1 / 10 ^ 5]) (.fin 10) (981 / 100) = .ok [k] ∧ disper (.list [1 / 10 ^ 6]) (.fin 10) (981 / 100) = .ok [k] := by
  obtain ⟨k, h0, h⟩ := disper_clamped (h := 10) (g := 981 / 100) (by norm_num) (by norm_num)
  exact ⟨k, h0, h _ (by norm_num) (by norm_num), h _ (by norm_num) (by norm_num)⟩
example := disper_inaccurate_low (M := 1000) (h := 10) (g := 981 / 100) (by norm_num) (by norm_num) (by norm_num)

end Verif
