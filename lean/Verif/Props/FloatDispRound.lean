import Verif.Props.FloatDispStep

/-! # C175: the wave number in double precision: the residual after a round -/

set_option linter.unusedSectionVars false

namespace Verif

variable {Y q A B C : ℝ}

/-! ## One round -/

theorem RoundPoint.Y_le (h : RoundPoint Y q) : Y ≤ 2 ^ 17 * min Y 1 := by
  have h1 := h.hY1
  have h0 := h.hY
  rcases le_total Y 1 with h2 | h2
  · rw [min_eq_left h2]
    linarith
  · rw [min_eq_right h2]
    linarith

theorem b_le_two {q : ℝ} (hq : 0 < q) : dispF1 q ≤ 2 := by
  have h1 := q_sech_le hq.le
  have h2 := tanh_lt_one' q
  unfold dispF1
  linarith

theorem RoundPoint.C_le (h : RoundPoint Y q) (hC : |C - (q * Real.tanh q - Y)| ≤ 3 / 2 ^ 51 * (q * Real.tanh q)) {β : ℝ}
    (hβ : |q * Real.tanh q - Y| ≤ β * min Y 1) : |C| ≤ (β + 1 / 2 ^ 31) * min Y 1 := by
  have h1 := abs_sub_abs_le_abs_sub C (q * Real.tanh q - Y)
  have h2 := h.f_bounds.2
  have h3 := h.Y_le
  have h4 := h.m_pos
  norm_num at h1 hC h3 hβ ⊢
  linarith

theorem RoundPoint.quad (h : RoundPoint Y q) (hc : Coefs Y q A B C) : Quad (dispF2 q / 2) (dispF1 q) A B C := by
  have hq := h.hq
  have hf2 := h.f_bounds.2
  have hY1 := h.hY1
  have hm := h.m_le
  have hm0 := h.m_pos
  have hS := sech_pos q
  have ht := tanh_pos' hq
  have hf0 : 0 < q * Real.tanh q := by positivity
  have ha : dispF2 q / 2 = (1 - q * Real.tanh q) * (1 - Real.tanh q ^ 2) := by unfold dispF2; ring
  have hbe : dispF1 q = Real.tanh q + q * (1 - Real.tanh q ^ 2) := rfl
  have ha1 : |dispF2 q / 2| ≤ (1 + q * Real.tanh q) * (1 - Real.tanh q ^ 2) := by
    rw [ha, abs_mul, abs_of_pos hS]
    apply mul_le_mul_of_nonneg_right _ hS.le
    rw [abs_le]
    constructor <;> linarith
  have hamgm : 4 * (q * Real.tanh q) * (1 - Real.tanh q ^ 2) ≤ dispF1 q ^ 2 := by
    rw [hbe]; nlinarith [sq_nonneg (Real.tanh q - q * (1 - Real.tanh q ^ 2))]
  refine ⟨b_pos hq, b_le_two hq, ?_, ?_, hc.ha, hc.hb, ?_, ?_⟩
  · linarith
  · refine ha1.trans ?_
    have h1 : 1 - Real.tanh q ^ 2 ≤ 1 := by nlinarith
    have h2 : (1 + q * Real.tanh q) * (1 - Real.tanh q ^ 2) ≤ (1 + q * Real.tanh q) * 1 := mul_le_mul_of_nonneg_left h1 (by linarith)
    norm_num at hY1 ⊢
    linarith
  · have h1 := h.C_le hc.hc h.hc
    norm_num at h1 ⊢
    linarith
  · have h1 : |C| ≤ |q * Real.tanh q - Y| + 3 / 2 ^ 51 * (q * Real.tanh q) := by
      have := abs_sub_abs_le_abs_sub C (q * Real.tanh q - Y)
      linarith [hc.hc]
    have h2 := mul_le_mul_of_nonneg_left h1 (abs_nonneg (dispF2 q / 2))
    have h3 : |dispF2 q / 2| * (3 / 2 ^ 51 * (q * Real.tanh q)) ≤ 1 / 2 ^ 33 * dispF1 q ^ 2 := by
      have h4 : |dispF2 q / 2| * (q * Real.tanh q) ≤ (1 + q * Real.tanh q) * (1 - Real.tanh q ^ 2) * (q * Real.tanh q) :=
        mul_le_mul_of_nonneg_right ha1 hf0.le
      have h5 : (1 + q * Real.tanh q) * (1 - Real.tanh q ^ 2) * (q * Real.tanh q) ≤ 2 ^ 18 * (1 / 4 * dispF1 q ^ 2) := by
        rw [mul_assoc]
        refine mul_le_mul ?_ (by linarith) (by positivity) (by norm_num)
        norm_num at hY1 ⊢
        linarith
      have h6 := sq_nonneg (dispF1 q)
      norm_num at h5 ⊢
      linarith
    have h7 := h.ac_le
    have h8 := sq_nonneg (dispF1 q)
    norm_num at h2 h3 h7 ⊢
    linarith

theorem RoundPoint.of_residual (hq : 0 < q) (hY : 9 / 10 ^ 9 ≤ Y) (hY1 : Y ≤ 2 ^ 17) (hc : |q * Real.tanh q - Y| ≤ 1 / 20 * min Y 1) : RoundPoint Y q := by
  refine ⟨hq, ?_, hY, hY1, hc⟩
  rcases le_total q 1 with h | h
  · linarith
  · have h1 : (3 / 4 : ℝ) ≤ Real.tanh 1 := by
      have := tanh_ge (x := 1) (by norm_num)
      norm_num at this ⊢
      linarith
    have h2 := tanh_strictMono.monotone h
    have h3 : q * (3 / 4) ≤ q * Real.tanh q := mul_le_mul_of_nonneg_left (h1.trans h2) hq.le
    have h4 := (abs_le.1 hc).2
    have h5 : min Y 1 ≤ Y := min_le_left _ _
    norm_num at hY1 h4 ⊢
    linarith

/-- The residual after a round. -/
theorem round_residual (h : RoundPoint Y q) {β S q' : ℝ} (hβ0 : 0 ≤ β) (hβ : β ≤ 1 / 20) (hβc : |q * Real.tanh q - Y| ≤ β * min Y 1) (hc : Coefs Y q A B C)
    (hg : GoodStep (dispF2 q / 2) (dispF1 q) C S) (hr : Rd (q + S) q') :
    0 < q' ∧ |q' * Real.tanh q' - Y| ≤ (5 / 10 ^ 8 * (β + 1 / 2 ^ 31) + 3 / 4 * (β + 1 / 2 ^ 31) ^ 3) * min Y 1 + 3 / 2 ^ 50 * Y := by
  have hq := h.hq
  obtain ⟨hf1, hf2⟩ := h.f_bounds
  have hm0 := h.m_pos
  have hmY : min Y 1 ≤ Y := min_le_left _ _
  have hC := h.C_le hc.hc hβc
  have hb := b_pos hq
  obtain ⟨g1, g2⟩ := hg
  have hY := h.hY
  set m := min Y 1 with hm
  set γ := β + 1 / 2 ^ 31 with hγ
  have hγ0 : 1 / 2 ^ 31 ≤ γ := by rw [hγ]; linarith
  have hγ1 : γ ≤ 6 / 100 := by
    rw [hγ]
    norm_num at hβ ⊢
    linarith
  have hγm : 1 / 2 ^ 60 ≤ γ * m := by
    have h1 : (1 : ℝ) / 2 ^ 31 * (9 / 10 ^ 9) ≤ γ * m := mul_le_mul hγ0 hm0 (by positivity) (by linarith [show (0 : ℝ) ≤ 1 / 2 ^ 31 by positivity])
    refine le_trans ?_ h1
    norm_num
  have s1 : |S| * dispF1 q ≤ 109 / 100 * (γ * m) := by
    norm_num at g1 hγm ⊢
    linarith
  have htq := tanh_pos' hq
  have hfb : q * Real.tanh q ≤ q * dispF1 q := by
    apply mul_le_mul_of_nonneg_left _ hq.le
    unfold dispF1
    have : 0 < q * (1 - Real.tanh q ^ 2) := mul_pos hq (sech_pos q)
    linarith
  have s2 : |S| ≤ 8 / 100 * q := by
    have h1 : γ * m ≤ 6 / 100 * m := mul_le_mul_of_nonneg_right hγ1 (by linarith)
    have h2 : |S| * dispF1 q ≤ 8 / 100 * q * dispF1 q := by
      rw [mul_assoc]
      linarith
    exact le_of_mul_le_mul_right h2 hb
  have s3 := abs_le.1 s2
  have hqS : 92 / 100 * q ≤ q + S := by linarith [s3.1]
  have hqS0 : 0 < q + S := lt_of_lt_of_le (by positivity) hqS
  -- the cube of the step
  have s4 : |S| ^ 3 ≤ 13 / 10 * γ ^ 3 * m := by
    have h1 : (|S| * dispF1 q) ^ 3 ≤ (109 / 100 * (γ * m)) ^ 3 := pow_le_pow_left₀ (by positivity) s1 3
    have h2 : m ^ 2 ≤ dispF1 q ^ 3 := by
      refine scale_le (by linarith) hq (h.hc.trans ?_)
      exact mul_le_mul_of_nonneg_right (by norm_num) (by linarith)
    have h3 : |S| ^ 3 * dispF1 q ^ 3 ≤ 13 / 10 * γ ^ 3 * m * dispF1 q ^ 3 := by
      rw [← mul_pow]
      refine h1.trans ?_
      have h4 : 13 / 10 * γ ^ 3 * m * m ^ 2 ≤ 13 / 10 * γ ^ 3 * m * dispF1 q ^ 3 := by
        apply mul_le_mul_of_nonneg_left h2
        have : 0 ≤ γ := by linarith [show (0 : ℝ) ≤ 1 / 2 ^ 31 by positivity]
        have : 0 ≤ m := by linarith
        positivity
      have h5 : 0 ≤ γ ^ 3 * m ^ 3 := by
        have : 0 ≤ γ := by linarith [show (0 : ℝ) ≤ 1 / 2 ^ 31 by positivity]
        have : 0 ≤ m := by linarith
        positivity
      nlinarith
    exact le_of_mul_le_mul_right h3 (by positivity)
  have hT := F_taylor hq.le hqS0.le
  have r1 : |(q + S) * Real.tanh (q + S) - Y| ≤ (5 / 10 ^ 8 * γ + 3 / 4 * γ ^ 3) * m + 16 / 10 / 2 ^ 50 * Y := by
    have e : (q + S) * Real.tanh (q + S) - Y = (dispF (q + S) - (dispF q + dispF1 q * S + dispF2 q / 2 * S ^ 2))
        + ((dispF2 q / 2 * S ^ 2 + dispF1 q * S + C) - (C - (q * Real.tanh q - Y))) := by
      unfold dispF
      ring
    rw [e]
    refine (abs_add_le _ _).trans ((add_le_add hT (abs_sub _ _)).trans ?_)
    have h1 : 17 / 30 * |S| ^ 3 ≤ 3 / 4 * γ ^ 3 * m := by
      have : 0 ≤ γ ^ 3 * m := by
        have : 0 ≤ γ := by linarith [show (0 : ℝ) ≤ 1 / 2 ^ 31 by positivity]
        have : 0 ≤ m := by linarith
        positivity
      linarith
    have h2 := hc.hc
    norm_num at g2 h1 h2 hγm hC ⊢
    linarith
  have hF : (q + S) * Real.tanh (q + S) ≤ 11 / 10 * Y := by
    have h1 := (abs_le.1 r1).2
    have h2 : γ ^ 3 ≤ (6 / 100) ^ 3 := pow_le_pow_left₀ (by linarith [show (0 : ℝ) ≤ 1 / 2 ^ 31 by positivity]) hγ1 3
    have h3 : (5 / 10 ^ 8 * γ + 3 / 4 * γ ^ 3) * m ≤ (1 / 1000) * m := by
      apply mul_le_mul_of_nonneg_right _ (by linarith)
      norm_num at h2 ⊢
      linarith
    norm_num at h1 ⊢
    linarith
  have hq9 : 8 / 10 ^ 9 ≤ q := by
    have h1 : q * Real.tanh q ≤ q * 1 := mul_le_mul_of_nonneg_left (tanh_lt_one' q).le hq.le
    norm_num at hY ⊢
    linarith
  have hr' : |q' - (q + S)| ≤ 101 / 100 / 2 ^ 53 * (q + S) := by
    unfold Rd at hr
    rw [abs_of_pos hqS0] at hr
    refine hr.trans ?_
    have : (1 : ℝ) / 2 ^ 200 ≤ 1 / 2 ^ 150 * (7 / 10 ^ 9) := by norm_num
    norm_num at this hq9 ⊢
    linarith
  have hp := dispF_perturb hqS0 (by positivity) (by norm_num) hr'
  refine ⟨?_, ?_⟩
  · have h1 := (abs_le.1 hr').1
    norm_num at h1 ⊢
    linarith
  · have h1 := abs_sub_le (q' * Real.tanh q') ((q + S) * Real.tanh (q + S)) Y
    norm_num at h1 hp r1 ⊢
    linarith

end Verif
