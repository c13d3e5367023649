import Verif.Model.FloatDisp
import Verif.Props.Float64
import Verif.Props.Dispersion
import Verif.Props.DispersionPhysics

/-! # C175: the wave number in double precision: the coefficients of a round -/

set_option linter.unusedSectionVars false

namespace Verif

/-! ## Roundings -/

/-- `y` is a rounding of `x`: relative error `2 ^ -53`, or underflow. -/
def Rd (x y : ℝ) : Prop := |y - x| ≤ |x| / 2 ^ 53 + 1 / 2 ^ 200

theorem f64_rd (x : ℚ) : Rd (x : ℝ) (f64 x : ℝ) := by
  have h : |f64 x - x| ≤ |x| / 2 ^ 53 + 1 / 2 ^ 200 := by
    by_cases hx : 1 / 2 ^ 200 ≤ |x|
    · have := f64_error hx
      have : (0 : ℚ) < 1 / 2 ^ 200 := by positivity
      linarith
    · have h0 := f64_nearest x (y := 0) ⟨0, 0, by norm_num, by norm_num, by norm_num⟩
      rw [zero_sub, abs_neg] at h0
      have : 0 ≤ |x| / 2 ^ 53 := by positivity
      linarith [not_le.1 hx]
  unfold Rd
  have h2 : ((|f64 x - x| : ℚ) : ℝ) ≤ ((|x| / 2 ^ 53 + 1 / 2 ^ 200 : ℚ) : ℝ) := by exact_mod_cast h
  push_cast at h2
  exact h2

/-- Rounding an approximation. -/
theorem Rd.err {z Z w e : ℝ} (h : Rd z Z) (hz : |z - w| ≤ e) : |Z - w| ≤ e + (|w| + e) / 2 ^ 53 + 1 / 2 ^ 200 := by
  unfold Rd at h
  have h1 : |z| ≤ |w| + e := by
    have := abs_sub_abs_le_abs_sub z w
    linarith
  have h2 : |Z - w| ≤ |Z - z| + |z - w| := abs_sub_le Z z w
  have h3 : |z| / 2 ^ 53 ≤ (|w| + e) / 2 ^ 53 := by gcongr
  linarith

theorem mul_err {x y X Y ex ey : ℝ} (hx : |X - x| ≤ ex) (hy : |Y - y| ≤ ey) : |X * Y - x * y| ≤ ex * (|y| + ey) + |x| * ey := by
  have e : X * Y - x * y = (X - x) * Y + x * (Y - y) := by ring
  have hY : |Y| ≤ |y| + ey := by
    have := abs_sub_abs_le_abs_sub Y y
    linarith
  have hex := (abs_nonneg _).trans hx
  rw [e]
  refine (abs_add_le _ _).trans ?_
  rw [abs_mul, abs_mul]
  exact add_le_add (mul_le_mul hx hY (abs_nonneg _) hex) (mul_le_mul_of_nonneg_left hy (abs_nonneg _))

/-! ## The function `q tanh q` -/

/-- A relative perturbation of `q` perturbs `q tanh q` by at most three times as much. -/
theorem dispF_perturb {x x' e : ℝ} (hx : 0 < x) (he : 0 ≤ e) (he1 : e ≤ 1 / 2) (h : |x' - x| ≤ e * x) :
    |x' * Real.tanh x' - x * Real.tanh x| ≤ 3 * e * (x * Real.tanh x) := by
  have ht := tanh_pos' hx
  have hf : 0 < x * Real.tanh x := by positivity
  have hx'0 : 0 < x' := by nlinarith [(abs_le.1 h).1]
  have hmono : ∀ p q : ℝ, 0 < p → p ≤ q → p * Real.tanh p ≤ q * Real.tanh q := by
    intro p q hp hpq
    exact mul_le_mul hpq (tanh_strictMono.monotone hpq) (tanh_pos' hp).le (by linarith)
  have hup : x' * Real.tanh x' ≤ (1 + e) ^ 2 * (x * Real.tanh x) := by
    refine (hmono x' ((1 + e) * x) hx'0 (by nlinarith [(abs_le.1 h).2])).trans ?_
    have := tanh_mul_le (c := 1 + e) (x := x) (by linarith) hx.le
    have h2 : (1 + e) * x * Real.tanh ((1 + e) * x) ≤ (1 + e) * x * ((1 + e) * Real.tanh x) := mul_le_mul_of_nonneg_left this (by positivity)
    nlinarith
  have hlo : (1 - e) ^ 2 * (x * Real.tanh x) ≤ x' * Real.tanh x' := by
    have hx1 : 0 < (1 - e) * x := mul_pos (by linarith) hx
    refine le_trans ?_ (hmono ((1 - e) * x) x' hx1 (by nlinarith [(abs_le.1 h).1]))
    have he0 : 0 < 1 - e := by linarith
    have := tanh_mul_le (c := 1 / (1 - e)) (x := (1 - e) * x) (by rw [le_div_iff₀ he0]; linarith) hx1.le
    rw [show 1 / (1 - e) * ((1 - e) * x) = x by field_simp] at this
    have h3 : (1 - e) * Real.tanh x ≤ Real.tanh ((1 - e) * x) := by
      rw [div_mul_eq_mul_div, one_mul, le_div_iff₀ he0] at this
      linarith
    have h4 := mul_le_mul_of_nonneg_left h3 hx1.le
    nlinarith
  rw [abs_le]
  constructor <;> nlinarith

/-! ## Error of one round -/

/-- The exact quantities of a round, and bounds on them. -/
structure RoundPoint (Y q : ℝ) : Prop where
  hq : 0 < q
  hq1 : q ≤ 2 ^ 18
  hY : 9 / 10 ^ 9 ≤ Y
  hY1 : Y ≤ 2 ^ 17
  hc : |q * Real.tanh q - Y| ≤ 1 / 20 * min Y 1

variable {Y q : ℝ}

theorem RoundPoint.f_bounds (h : RoundPoint Y q) : 19 / 20 * Y ≤ q * Real.tanh q ∧ q * Real.tanh q ≤ 21 / 20 * Y := by
  have h1 := abs_le.1 h.hc
  have h2 : min Y 1 ≤ Y := min_le_left _ _
  constructor <;> linarith [h1.1, h1.2]

/-- The scale of the residuals is at most the square of the derivative. -/
theorem RoundPoint.m_le (h : RoundPoint Y q) : min Y 1 ≤ dispF1 q ^ 2 := by
  rcases le_total (2 / 3) q with h1 | h1
  · have h2 := b_ge_one h1
    have h3 : min Y 1 ≤ 1 := min_le_right _ _
    nlinarith
  · have h2 := b_ge_mul h.hq h1
    have h3 : min Y 1 ≤ Y := min_le_left _ _
    have h4 := tanh_le_self h.hq.le
    have h5 := h.f_bounds.1
    have h6 : q * Real.tanh q ≤ q * q := mul_le_mul_of_nonneg_left h4 h.hq.le
    have h7 : (7 / 5 * q) ^ 2 ≤ dispF1 q ^ 2 := pow_le_pow_left₀ (by have := h.hq; positivity) h2 2
    nlinarith

theorem RoundPoint.m_pos (h : RoundPoint Y q) : 9 / 10 ^ 9 ≤ min Y 1 := le_min h.hY (by norm_num)

theorem RoundPoint.q_le (h : RoundPoint Y q) : q ≤ (1 + q) * dispF1 q := by
  rcases le_total (2 / 3) q with h1 | h1
  · have h2 := b_ge_one h1
    have := h.hq
    nlinarith
  · have h2 := b_ge_mul h.hq h1
    have := h.hq
    nlinarith

/-- `|a c|` is a small part of `b^2`. -/
theorem RoundPoint.ac_le (h : RoundPoint Y q) : |dispF2 q / 2| * |q * Real.tanh q - Y| ≤ 1 / 76 * dispF1 q ^ 2 := by
  have hS := sech_pos q
  have ht := tanh_pos' h.hq
  have hq := h.hq
  have hbe : dispF1 q = Real.tanh q + q * (1 - Real.tanh q ^ 2) := rfl
  have ha : dispF2 q / 2 = (1 - q * Real.tanh q) * (1 - Real.tanh q ^ 2) := by unfold dispF2; ring
  have hamgm : 4 * (q * Real.tanh q) * (1 - Real.tanh q ^ 2) ≤ dispF1 q ^ 2 := by
    rw [hbe]; nlinarith [sq_nonneg (Real.tanh q - q * (1 - Real.tanh q ^ 2))]
  have hf : 0 < q * Real.tanh q := by positivity
  have hm1 : min Y 1 ≤ 1 := min_le_right _ _
  have hmy : min Y 1 ≤ Y := min_le_left _ _
  have hc := h.hc
  have hfb := h.f_bounds
  rw [ha, abs_mul, abs_of_pos hS]
  have h0 := abs_nonneg (q * Real.tanh q - Y)
  rcases le_total (q * Real.tanh q) 1 with h1 | h1
  · have e1 : |1 - q * Real.tanh q| ≤ 1 := by rw [abs_le]; constructor <;> linarith
    have e2 : |q * Real.tanh q - Y| ≤ q * Real.tanh q / 19 := by linarith
    have e3 : |1 - q * Real.tanh q| * (1 - Real.tanh q ^ 2) ≤ 1 * (1 - Real.tanh q ^ 2) := mul_le_mul_of_nonneg_right e1 hS.le
    have e4 := mul_le_mul e3 e2 h0 (by linarith)
    linarith
  · have e1 : |1 - q * Real.tanh q| ≤ q * Real.tanh q := by rw [abs_le]; constructor <;> linarith
    have e2 : |q * Real.tanh q - Y| ≤ 1 / 20 := by linarith
    have e3 : |1 - q * Real.tanh q| * (1 - Real.tanh q ^ 2) ≤ q * Real.tanh q * (1 - Real.tanh q ^ 2) := mul_le_mul_of_nonneg_right e1 hS.le
    have e4 := mul_le_mul e3 e2 h0 (mul_nonneg hf.le hS.le)
    have := sq_nonneg (dispF1 q)
    linarith

/-- The rounded coefficients of the quadratic. -/
structure Coefs (Y q A B C : ℝ) : Prop where
  ha : |A - dispF2 q / 2| ≤ 1 / 2 ^ 28
  hb : |B - dispF1 q| ≤ 1 / 2 ^ 28 * dispF1 q
  hc : |C - (q * Real.tanh q - Y)| ≤ 3 / 2 ^ 51 * (q * Real.tanh q)

/-- The rounded coefficients are accurate. -/
theorem coefs_accurate (h : RoundPoint Y q) {T M T2 P W A N B C : ℝ} (hT : |T - Real.tanh q| ≤ Real.tanh q / 2 ^ 50) (hM : Rd (T * T) M)
    (hT2 : Rd (1 - M) T2) (hP : Rd (q * T) P) (hW : Rd (1 - P) W) (hA : Rd (W * T2) A) (hN : Rd (q * T2) N) (hB : Rd (T + N) B) (hC : Rd (P - Y) C) :
    Coefs Y q A B C := by
  have hq := h.hq
  have hq1 := h.hq1
  have ht := tanh_pos' hq
  have ht1 := tanh_lt_one' q
  have htq := tanh_le_self hq.le
  have hS := sech_pos q
  obtain ⟨hf1, hf2⟩ := h.f_bounds
  have hY := h.hY
  have hqe := h.q_le
  have hc' := h.hc
  have hmy : min Y 1 ≤ Y := min_le_left _ _
  have ha : dispF2 q / 2 = (1 - q * Real.tanh q) * (1 - Real.tanh q ^ 2) := by unfold dispF2; ring
  have hbe : dispF1 q = Real.tanh q + q * (1 - Real.tanh q ^ 2) := rfl
  set t := Real.tanh q with htd
  set f := q * t with hfd
  have hfq : f ≤ q := by rw [hfd]; nlinarith
  have hf0 : 0 < f := by rw [hfd]; positivity
  have hs1 : 1 - t ^ 2 ≤ 1 := by nlinarith
  have hη : (1 : ℝ) / 2 ^ 200 ≤ 1 / 2 ^ 150 * f := by
    have : (1 : ℝ) / 2 ^ 200 ≤ 1 / 2 ^ 150 * (8 / 10 ^ 9) := by norm_num
    nlinarith
  have hη1 : (1 : ℝ) / 2 ^ 200 ≤ 1 / 2 ^ 100 := by norm_num
  -- T2
  have eM : |M - t * t| ≤ 3 / 2 ^ 50 := by
    have h1 := mul_err hT hT
    have h2 := hM.err h1
    rw [abs_of_pos ht, abs_of_pos (mul_pos ht ht)] at h2
    have h3 : t * t ≤ 1 := by nlinarith
    have h4 : t / 2 ^ 50 * (t + t / 2 ^ 50) + t * (t / 2 ^ 50) ≤ 1 / 2 ^ 50 * (1 + 1 / 2 ^ 50) + 1 * (1 / 2 ^ 50) := by gcongr
    refine h2.trans ?_
    have h5 : (t * t + (t / 2 ^ 50 * (t + t / 2 ^ 50) + t * (t / 2 ^ 50))) / 2 ^ 53 ≤ (1 + (1 / 2 ^ 50 * (1 + 1 / 2 ^ 50) + 1 * (1 / 2 ^ 50))) / 2 ^ 53 := by gcongr
    norm_num at h4 h5 hη1 ⊢
    linarith
  have eT2 : |T2 - (1 - t ^ 2)| ≤ 4 / 2 ^ 50 := by
    have h1 : |(1 - M) - (1 - t ^ 2)| ≤ 3 / 2 ^ 50 := by
      rw [show (1 - M) - (1 - t ^ 2) = -(M - t * t) by ring, abs_neg]; exact eM
    have h2 := hT2.err h1
    rw [abs_of_pos hS] at h2
    norm_num at h2 hη1 ⊢
    linarith
  -- P
  have eP : |P - f| ≤ 5 / 2 ^ 52 * f := by
    have h1 : |q * T - f| ≤ f / 2 ^ 50 := by
      rw [hfd, ← mul_sub, abs_mul, abs_of_pos hq]
      have := mul_le_mul_of_nonneg_left hT hq.le
      linarith
    have h2 := hP.err h1
    rw [abs_of_pos hf0] at h2
    norm_num at h2 hη ⊢
    linarith
  -- A
  have eW : |W - (1 - f)| ≤ 2 / 2 ^ 50 * (1 + f) := by
    have h1 : |(1 - P) - (1 - f)| ≤ 5 / 2 ^ 52 * f := by
      rw [show (1 - P) - (1 - f) = -(P - f) by ring, abs_neg]; exact eP
    have h2 := hW.err h1
    have h3 : |1 - f| ≤ 1 + f := by rw [abs_le]; constructor <;> linarith
    norm_num at h2 hη ⊢
    linarith
  have eA : |A - dispF2 q / 2| ≤ 7 / 2 ^ 50 * (1 + f) := by
    have h1 := mul_err eW eT2
    rw [abs_of_pos hS] at h1
    have h3 : |1 - f| ≤ 1 + f := by rw [abs_le]; constructor <;> linarith
    have h4 : |W * T2 - (1 - f) * (1 - t ^ 2)| ≤ 25 / 2 ^ 52 * (1 + f) := by
      have h5 : 2 / 2 ^ 50 * (1 + f) * (1 - t ^ 2 + 4 / 2 ^ 50) ≤ 2 / 2 ^ 50 * (1 + f) * (1 + 4 / 2 ^ 50) := by gcongr
      have h6 : |1 - f| * (4 / 2 ^ 50) ≤ (1 + f) * (4 / 2 ^ 50) := by gcongr
      norm_num at h1 h5 h6 ⊢
      linarith
    have h7 := hA.err h4
    have h8 : |(1 - f) * (1 - t ^ 2)| ≤ 1 + f := by
      rw [abs_mul, abs_of_pos hS]
      have : |1 - f| * (1 - t ^ 2) ≤ (1 + f) * 1 := mul_le_mul h3 hs1 hS.le (by linarith)
      linarith
    rw [ha]
    generalize |(1 - f) * (1 - t ^ 2)| = x8 at h7 h8
    norm_num at h7 hη ⊢
    linarith
  -- B
  have eB : |B - dispF1 q| ≤ 7 / 2 ^ 50 * q := by
    have h1 : |q * T2 - q * (1 - t ^ 2)| ≤ 4 / 2 ^ 50 * q := by
      rw [← mul_sub, abs_mul, abs_of_pos hq]
      have := mul_le_mul_of_nonneg_left eT2 hq.le
      linarith
    have h2 := hN.err h1
    have h3 : |q * (1 - t ^ 2)| ≤ q := by
      rw [abs_of_pos (mul_pos hq hS)]; nlinarith
    have h4 : |N - q * (1 - t ^ 2)| ≤ 5 / 2 ^ 50 * q := by
      generalize |q * (1 - t ^ 2)| = x8 at h2 h3
      norm_num at h2 hη ⊢
      linarith
    have h5 : |T + N - dispF1 q| ≤ 6 / 2 ^ 50 * q := by
      rw [hbe, show T + N - (t + q * (1 - t ^ 2)) = (T - t) + (N - q * (1 - t ^ 2)) by ring]
      refine (abs_add_le _ _).trans ?_
      norm_num at hT h4 ⊢
      linarith
    have h6 := hB.err h5
    have h7 : |dispF1 q| ≤ 2 * q := by
      rw [hbe, abs_of_pos (add_pos ht (mul_pos hq hS))]
      nlinarith
    norm_num at h6 hη ⊢
    linarith
  -- C
  have eC : |C - (f - Y)| ≤ 3 / 2 ^ 51 * f := by
    have h1 : |(P - Y) - (f - Y)| ≤ 5 / 2 ^ 52 * f := by
      rw [show (P - Y) - (f - Y) = P - f by ring]; exact eP
    have h2 := hC.err h1
    have h3 : |f - Y| ≤ f := by
      rw [abs_le]
      constructor <;> linarith [(abs_le.1 hc').1, (abs_le.1 hc').2]
    norm_num at h2 hη ⊢
    linarith
  refine ⟨eA.trans ?_, eB.trans ?_, eC⟩
  · norm_num at hq1 ⊢
    linarith
  · have hb := b_pos hq
    have h1 : (1 + q) * dispF1 q ≤ (1 + 2 ^ 18) * dispF1 q := by gcongr
    have h2 : (7 : ℝ) / 2 ^ 50 * q ≤ 7 / 2 ^ 50 * ((1 + 2 ^ 18) * dispF1 q) := by
      apply mul_le_mul_of_nonneg_left _ (by norm_num)
      linarith
    refine h2.trans ?_
    rw [← mul_assoc]
    gcongr
    norm_num


theorem Rd.abs_le {x y : ℝ} (h : Rd x y) : |y| ≤ |x| * (1 + 1 / 2 ^ 53) + 1 / 2 ^ 200 := by
  unfold Rd at h
  have := abs_sub_abs_le_abs_sub y x
  linarith

theorem Rd.le_abs {x y : ℝ} (h : Rd x y) : |x| * (1 - 1 / 2 ^ 53) - 1 / 2 ^ 200 ≤ |y| := by
  unfold Rd at h
  have := abs_sub_abs_le_abs_sub x y
  rw [abs_sub_comm] at this
  linarith

/-- The range of the coefficients of a round (`a`, `b` exact, `A`, `B`, `C` rounded). -/
structure Quad (a b A B C : ℝ) : Prop where
  hb : 0 < b
  hb1 : b ≤ 2
  hb2 : 8 / 10 ^ 9 ≤ b ^ 2
  ha : |a| ≤ 2 ^ 18
  hA : |A - a| ≤ 1 / 2 ^ 28
  hB : |B - b| ≤ 1 / 2 ^ 28 * b
  hC : |C| ≤ 6 / 100 * b ^ 2
  hac : |a| * |C| ≤ 1 / 75 * b ^ 2

/-- What an increment must satisfy: not too large, and a small value of the quadratic. -/
def GoodStep (a b C S : ℝ) : Prop :=
  |S| * b ≤ 27 / 25 * |C| + 1 / 2 ^ 150 ∧ |a * S ^ 2 + b * S + C| ≤ 4 / 10 ^ 8 * |C| + 1 / 2 ^ 150

variable {a b A B C : ℝ}

theorem Quad.B_bounds (h : Quad a b A B C) : (1 - 1 / 2 ^ 28) * b ≤ B ∧ B ≤ (1 + 1 / 2 ^ 28) * b := by
  have := abs_le.1 h.hB
  constructor <;> linarith [this.1, this.2]

theorem Quad.BB_bounds (h : Quad a b A B C) {BB : ℝ} (hBB : Rd (B * B) BB) : 99999 / 100000 * b ^ 2 ≤ BB ∧ BB ≤ 100001 / 100000 * b ^ 2 ∧
    |BB - B ^ 2| ≤ 101 / 100 / 2 ^ 53 * b ^ 2 := by
  obtain ⟨h1, h2⟩ := h.B_bounds
  have hb := h.hb
  have hb2 := h.hb2
  have h3 : B ^ 2 ≤ ((1 + 1 / 2 ^ 28) * b) ^ 2 := pow_le_pow_left₀ (le_trans (mul_nonneg (by norm_num) hb.le) h1) h2 2
  have h4 : ((1 - 1 / 2 ^ 28) * b) ^ 2 ≤ B ^ 2 := pow_le_pow_left₀ (mul_nonneg (by norm_num) hb.le) h1 2
  unfold Rd at hBB
  rw [abs_of_nonneg (mul_self_nonneg B), ← sq] at hBB
  have h5 := abs_le.1 hBB
  have hη : (1 : ℝ) / 2 ^ 200 ≤ 1 / 2 ^ 150 * b ^ 2 := by
    have : (1 : ℝ) / 2 ^ 200 ≤ 1 / 2 ^ 150 * (8 / 10 ^ 9) := by norm_num
    nlinarith
  rw [mul_pow] at h3 h4
  refine ⟨?_, ?_, ?_⟩
  · have := h5.1
    norm_num at h3 h4 this hη ⊢
    linarith
  · have := h5.2
    norm_num at h3 h4 this hη ⊢
    linarith
  · refine hBB.trans ?_
    norm_num at h3 h4 hη ⊢
    linarith

end Verif
