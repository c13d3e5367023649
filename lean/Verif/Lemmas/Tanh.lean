import Mathlib.Analysis.SpecialFunctions.Trigonometric.DerivHyp
import Mathlib.Analysis.SpecialFunctions.Pow.Deriv
import Mathlib.Analysis.Calculus.Deriv.MeanValue
import Mathlib.Analysis.Complex.Exponential
import Mathlib.Analysis.Convex.SpecificFunctions.Basic

/-! # Inequalities for `tanh` and the Taylor expansion of `q tanh q` -/

namespace Verif
open Real Set

/-! ## `tanh` -/

theorem hasDerivAt_tanh (x : ℝ) : HasDerivAt Real.tanh (1 - Real.tanh x ^ 2) x := by
  have h := (Real.hasDerivAt_sinh x).div (Real.hasDerivAt_cosh x) (Real.cosh_pos x).ne'
  have e : (fun y => Real.sinh y / Real.cosh y) = Real.tanh := by funext y; rw [Real.tanh_eq_sinh_div_cosh]
  have e2 : Real.sinh / Real.cosh = Real.tanh := e
  rw [e2] at h
  refine h.congr_deriv ?_
  rw [Real.tanh_eq_sinh_div_cosh]
  have := (Real.cosh_pos x).ne'
  field_simp

theorem one_sub_tanh_sq (x : ℝ) : 1 - Real.tanh x ^ 2 = 1 / Real.cosh x ^ 2 := by
  rw [Real.tanh_eq_sinh_div_cosh]
  have := (Real.cosh_pos x).ne'
  have h := Real.cosh_sq_sub_sinh_sq x
  field_simp
  linarith

theorem sech_pos (x : ℝ) : 0 < 1 - Real.tanh x ^ 2 := by
  rw [one_sub_tanh_sq]; have := Real.cosh_pos x; positivity

theorem tanh_pos' {x : ℝ} (hx : 0 < x) : 0 < Real.tanh x := by
  rw [Real.tanh_eq_sinh_div_cosh]
  exact div_pos (Real.sinh_pos_iff.2 hx) (Real.cosh_pos x)

theorem tanh_lt_one' (x : ℝ) : Real.tanh x < 1 := by
  have := sech_pos x
  by_contra h
  push Not at h
  nlinarith

/-- A function with non-negative derivative on the positive axis that vanishes at 0 is non-negative there. -/
theorem nonneg_of_deriv {f f' : ℝ → ℝ} (hd : ∀ x, HasDerivAt f (f' x) x) (h0 : f 0 = 0) {b : ℝ} (hf : ∀ x, 0 ≤ x → x ≤ b → 0 ≤ f' x) {x : ℝ}
    (hx : 0 ≤ x) (hb : x ≤ b) : 0 ≤ f x := by
  have hm : MonotoneOn f (Icc 0 b) := by
    apply monotoneOn_of_deriv_nonneg (convex_Icc 0 b)
    · exact fun y _ => (hd y).continuousAt.continuousWithinAt
    · exact fun y _ => (hd y).differentiableAt.differentiableWithinAt
    · intro y hy
      rw [interior_Icc] at hy
      rw [(hd y).deriv]
      exact hf y hy.1.le hy.2.le
  have := hm ⟨le_rfl, le_trans hx hb⟩ ⟨hx, hb⟩ hx
  rwa [h0] at this

/-- `sinh x ≤ x cosh x`. -/
theorem sinh_le_mul_cosh {x : ℝ} (hx : 0 ≤ x) : Real.sinh x ≤ x * Real.cosh x := by
  have := nonneg_of_deriv (f := fun x => x * Real.cosh x - Real.sinh x) (f' := fun x => x * Real.sinh x) (fun x => by
    have := ((hasDerivAt_id x).mul (Real.hasDerivAt_cosh x)).sub (Real.hasDerivAt_sinh x)
    refine this.congr_deriv ?_
    simp) (by simp) (b := x) (fun y hy _ => mul_nonneg hy (Real.sinh_nonneg_iff.2 hy)) hx le_rfl
  linarith

theorem tanh_le_self {x : ℝ} (hx : 0 ≤ x) : Real.tanh x ≤ x := by
  rw [Real.tanh_eq_sinh_div_cosh, div_le_iff₀ (Real.cosh_pos x)]
  exact sinh_le_mul_cosh hx

/-- `tanh x ≥ 3x / (3 + x²)`. -/
theorem tanh_lower {x : ℝ} (hx : 0 ≤ x) : 3 * x * Real.cosh x ≤ (3 + x ^ 2) * Real.sinh x := by
  have := nonneg_of_deriv (f := fun x => (3 + x ^ 2) * Real.sinh x - 3 * x * Real.cosh x) (f' := fun x => x * (x * Real.cosh x - Real.sinh x)) (fun x => by
    have h1 := ((((hasDerivAt_id x).pow 2).const_add 3).mul (Real.hasDerivAt_sinh x)).sub (((hasDerivAt_id x).const_mul 3).mul (Real.hasDerivAt_cosh x))
    refine h1.congr_deriv ?_
    simp
    ring) (by simp) (b := x) (fun y hy _ => mul_nonneg hy (by linarith [sinh_le_mul_cosh hy])) hx le_rfl
  linarith

/-- `tanh x ≤ 4x / (4 + x²)` for `x² ≤ 3`. -/
theorem tanh_upper {x : ℝ} (hx : 0 ≤ x) (h3 : x ^ 2 ≤ 3) : (4 + x ^ 2) * Real.sinh x ≤ 4 * x * Real.cosh x := by
  have := nonneg_of_deriv (f := fun x => 4 * x * Real.cosh x - (4 + x ^ 2) * Real.sinh x) (f' := fun x => x * (2 * Real.sinh x - x * Real.cosh x)) (fun x => by
    have h1 := (((hasDerivAt_id x).const_mul 4).mul (Real.hasDerivAt_cosh x)).sub ((((hasDerivAt_id x).pow 2).const_add 4).mul (Real.hasDerivAt_sinh x))
    refine h1.congr_deriv ?_
    simp
    ring) (by simp) (b := x) (fun y hy hyx => by
      apply mul_nonneg hy
      have h1 := tanh_lower hy
      have h2 : y ^ 2 ≤ 3 := le_trans (by nlinarith) h3
      have hc := Real.cosh_pos y
      have hs := Real.sinh_nonneg_iff.2 hy
      -- 3 y cosh ≤ (3+y²) sinh ≤ 6 sinh
      nlinarith) hx le_rfl
  linarith

theorem tanh_ge {x : ℝ} (hx : 0 ≤ x) : 3 * x / (3 + x ^ 2) ≤ Real.tanh x := by
  rw [Real.tanh_eq_sinh_div_cosh, div_le_div_iff₀ (by positivity) (Real.cosh_pos x)]
  linarith [tanh_lower hx]

theorem tanh_le {x : ℝ} (hx : 0 ≤ x) (h3 : x ^ 2 ≤ 3) : Real.tanh x ≤ 4 * x / (4 + x ^ 2) := by
  rw [Real.tanh_eq_sinh_div_cosh, div_le_div_iff₀ (Real.cosh_pos x) (by positivity)]
  linarith [tanh_upper hx h3]

theorem tanh_strictMono : StrictMono Real.tanh := by
  apply strictMono_of_deriv_pos
  intro x
  rw [(hasDerivAt_tanh x).deriv]
  exact sech_pos x

/-- `1 - tanh x = 2 / (exp (2x) + 1)`. -/
theorem one_sub_tanh (x : ℝ) : 1 - Real.tanh x = 2 / (Real.exp (2 * x) + 1) := by
  rw [Real.tanh_eq_sinh_div_cosh, Real.sinh_eq, Real.cosh_eq, show 2 * x = x + x by ring, Real.exp_add, Real.exp_neg]
  have := Real.exp_pos x
  field_simp
  ring

/-! ## The function `q tanh q` -/

/-- The left-hand side of the dispersion relation. -/
noncomputable def dispF (q : ℝ) : ℝ := q * Real.tanh q
/-- Its derivative. -/
noncomputable def dispF1 (q : ℝ) : ℝ := Real.tanh q + q * (1 - Real.tanh q ^ 2)
/-- Its second derivative. -/
noncomputable def dispF2 (q : ℝ) : ℝ := 2 * ((1 - q * Real.tanh q) * (1 - Real.tanh q ^ 2))
/-- Its third derivative. -/
noncomputable def dispF3 (q : ℝ) : ℝ := 2 * (1 - Real.tanh q ^ 2) * (3 * Real.tanh q * (q * Real.tanh q - 1) - q)

theorem hasDerivAt_F (q : ℝ) : HasDerivAt dispF (dispF1 q) q := by
  refine ((hasDerivAt_id q).mul (hasDerivAt_tanh q)).congr_deriv ?_
  simp [dispF1]

theorem hasDerivAt_F1 (q : ℝ) : HasDerivAt dispF1 (dispF2 q) q := by
  refine ((hasDerivAt_tanh q).add ((hasDerivAt_id q).mul (((hasDerivAt_tanh q).pow 2).const_sub 1))).congr_deriv ?_
  simp only [dispF2, id, Pi.pow_apply]
  push_cast
  ring

theorem hasDerivAt_F2 (q : ℝ) : HasDerivAt dispF2 (dispF3 q) q := by
  refine (((((hasDerivAt_id q).mul (hasDerivAt_tanh q)).const_sub 1).mul (((hasDerivAt_tanh q).pow 2).const_sub 1)).const_mul 2).congr_deriv ?_
  simp only [dispF3, id, Pi.mul_apply, Pi.pow_apply]
  push_cast
  ring

/-- `q sech² q ≤ 1/2`. -/
theorem q_sech_le {q : ℝ} (hq : 0 ≤ q) : q * (1 - Real.tanh q ^ 2) ≤ 1 / 2 := by
  rw [one_sub_tanh_sq]
  have hc := Real.cosh_pos q
  have h1 : q ≤ Real.sinh q := Real.self_le_sinh_iff.2 hq
  have h2 := Real.cosh_sq_sub_sinh_sq q
  rw [mul_one_div, div_le_div_iff₀ (by positivity) (by norm_num)]
  nlinarith [sq_nonneg (Real.sinh q - 1)]

theorem F3_bound {q : ℝ} (hq : 0 ≤ q) : |dispF3 q| ≤ 17 / 5 := by
  have ht0 : 0 ≤ Real.tanh q := by
    rcases hq.eq_or_lt with h | h
    · rw [← h]; simp
    · exact (tanh_pos' h).le
  have ht1 := tanh_lt_one' q
  have hS := sech_pos q
  have hqS := q_sech_le hq
  have htS : Real.tanh q * (1 - Real.tanh q ^ 2) ≤ 2 / 5 := by
    nlinarith [sq_nonneg (Real.tanh q - 577 / 1000), sq_nonneg (Real.tanh q)]
  unfold dispF3
  generalize Real.tanh q = t at *
  set S := 1 - t ^ 2
  rw [abs_le]
  have e : 2 * S * (3 * t * (q * t - 1) - q) = 6 * (q * S) * t ^ 2 - 6 * (t * S) - 2 * (q * S) := by ring
  rw [e]
  have hqS0 : 0 ≤ q * S := mul_nonneg hq hS.le
  have htS0 : 0 ≤ t * S := mul_nonneg ht0 hS.le
  have ht2 : t ^ 2 ≤ 1 := by nlinarith
  have h3 : 0 ≤ (q * S) * t ^ 2 := by positivity
  have h4 : (q * S) * t ^ 2 ≤ q * S := by nlinarith
  constructor <;> linarith

/-- Cubic Taylor bound on an interval: if `h`, `h'`, `h''` vanish at 0 and `|h'''| ≤ M` on `[0, b]` then `|h(s)| ≤ M s³/6`. -/
theorem cubic_bound {h h1 h2 h3 : ℝ → ℝ} (d0 : ∀ x, HasDerivAt h (h1 x) x) (d1 : ∀ x, HasDerivAt h1 (h2 x) x) (d2 : ∀ x, HasDerivAt h2 (h3 x) x)
    (z0 : h 0 = 0) (z1 : h1 0 = 0) (z2 : h2 0 = 0) {M b : ℝ} (hM : ∀ x, 0 ≤ x → x ≤ b → |h3 x| ≤ M) (hb : 0 ≤ b) : |h b| ≤ M / 6 * b ^ 3 := by
  have A : ∀ x, 0 ≤ x → x ≤ b → |h2 x| ≤ M * x := by
    intro x hx hxb
    rw [abs_le]
    have p := nonneg_of_deriv (f := fun x => M * x - h2 x) (f' := fun x => M - h3 x) (fun x => by
      exact (((hasDerivAt_id x).const_mul M).sub (d2 x)).congr_deriv (by simp)) (by simp [z2]) (b := b) (fun y hy hyb => by linarith [(abs_le.1 (hM y hy hyb)).2]) hx hxb
    have q := nonneg_of_deriv (f := fun x => M * x + h2 x) (f' := fun x => M + h3 x) (fun x => by
      exact (((hasDerivAt_id x).const_mul M).add (d2 x)).congr_deriv (by simp)) (by simp [z2]) (b := b) (fun y hy hyb => by linarith [(abs_le.1 (hM y hy hyb)).1]) hx hxb
    constructor <;> linarith
  have sqd : ∀ x, HasDerivAt (fun x : ℝ => M / 2 * x ^ 2) (M * x) x := fun x => by
    refine (((hasDerivAt_id x).pow 2).const_mul (M / 2)).congr_deriv ?_
    simp; ring
  have cbd : ∀ x, HasDerivAt (fun x : ℝ => M / 6 * x ^ 3) (M / 2 * x ^ 2) x := fun x => by
    refine (((hasDerivAt_id x).pow 3).const_mul (M / 6)).congr_deriv ?_
    simp; ring
  have B : ∀ x, 0 ≤ x → x ≤ b → |h1 x| ≤ M / 2 * x ^ 2 := by
    intro x hx hxb
    rw [abs_le]
    have p := nonneg_of_deriv (f := fun x => M / 2 * x ^ 2 - h1 x) (f' := fun x => M * x - h2 x) (fun x => (sqd x).sub (d1 x)) (by simp [z1])
      (b := b) (fun y hy hyb => by linarith [(abs_le.1 (A y hy hyb)).2]) hx hxb
    have q := nonneg_of_deriv (f := fun x => M / 2 * x ^ 2 + h1 x) (f' := fun x => M * x + h2 x) (fun x => (sqd x).add (d1 x)) (by simp [z1])
      (b := b) (fun y hy hyb => by linarith [(abs_le.1 (A y hy hyb)).1]) hx hxb
    constructor <;> linarith
  rw [abs_le]
  have p := nonneg_of_deriv (f := fun x => M / 6 * x ^ 3 - h x) (f' := fun x => M / 2 * x ^ 2 - h1 x) (fun x => (cbd x).sub (d0 x)) (by simp [z0])
    (b := b) (fun y hy hyb => by linarith [(abs_le.1 (B y hy hyb)).2]) hb le_rfl
  have q := nonneg_of_deriv (f := fun x => M / 6 * x ^ 3 + h x) (f' := fun x => M / 2 * x ^ 2 + h1 x) (fun x => (cbd x).add (d0 x)) (by simp [z0])
    (b := b) (fun y hy hyb => by linarith [(abs_le.1 (B y hy hyb)).1]) hb le_rfl
  constructor <;> linarith

/-- Taylor expansion of `q tanh q` to second order with a cubic error, between non-negative points. -/
theorem F_taylor {q s : ℝ} (hq : 0 ≤ q) (hqs : 0 ≤ q + s) :
    |dispF (q + s) - (dispF q + dispF1 q * s + dispF2 q / 2 * s ^ 2)| ≤ 17 / 30 * |s| ^ 3 := by
  rcases le_total 0 s with hs | hs
  · have := cubic_bound (h := fun x => dispF (q + x) - (dispF q + dispF1 q * x + dispF2 q / 2 * x ^ 2))
      (h1 := fun x => dispF1 (q + x) - (dispF1 q + dispF2 q * x)) (h2 := fun x => dispF2 (q + x) - dispF2 q) (h3 := fun x => dispF3 (q + x))
      (fun x => by
        have a := (hasDerivAt_F (q + x)).comp x ((hasDerivAt_id x).const_add q)
        have b := (((hasDerivAt_id x).const_mul (dispF1 q)).const_add (dispF q)).add (((hasDerivAt_id x).pow 2).const_mul (dispF2 q / 2))
        refine (a.sub b).congr_deriv ?_
        simp; ring)
      (fun x => by
        have a := (hasDerivAt_F1 (q + x)).comp x ((hasDerivAt_id x).const_add q)
        have b := (((hasDerivAt_id x).const_mul (dispF2 q)).const_add (dispF1 q))
        refine (a.sub b).congr_deriv ?_
        simp)
      (fun x => by
        have a := (hasDerivAt_F2 (q + x)).comp x ((hasDerivAt_id x).const_add q)
        refine (a.sub_const (dispF2 q)).congr_deriv ?_
        simp) (by simp) (by simp) (by simp) (M := 17 / 5) (fun x hx _ => F3_bound (by linarith)) hs
    rw [abs_of_nonneg hs]
    refine this.trans (le_of_eq (by ring))
  · have := cubic_bound (h := fun x => dispF (q - x) - (dispF q - dispF1 q * x + dispF2 q / 2 * x ^ 2))
      (h1 := fun x => -dispF1 (q - x) - (-dispF1 q + dispF2 q * x)) (h2 := fun x => dispF2 (q - x) - dispF2 q) (h3 := fun x => -dispF3 (q - x))
      (fun x => by
        have a := (hasDerivAt_F (q - x)).comp x ((hasDerivAt_id x).const_sub q)
        have b := (((hasDerivAt_id x).const_mul (dispF1 q)).const_sub (dispF q)).add (((hasDerivAt_id x).pow 2).const_mul (dispF2 q / 2))
        refine (a.sub b).congr_deriv ?_
        simp; ring)
      (fun x => by
        have a := ((hasDerivAt_F1 (q - x)).comp x ((hasDerivAt_id x).const_sub q)).neg
        have b := (((hasDerivAt_id x).const_mul (dispF2 q)).const_add (-dispF1 q))
        refine (a.sub b).congr_deriv ?_
        simp)
      (fun x => by
        have a := (hasDerivAt_F2 (q - x)).comp x ((hasDerivAt_id x).const_sub q)
        refine (a.sub_const (dispF2 q)).congr_deriv ?_
        simp) (by simp) (by simp) (by simp) (M := 17 / 5) (b := -s) (fun x _ hx => by rw [abs_neg]; exact F3_bound (by linarith)) (by linarith)
    rw [abs_of_nonpos hs]
    rw [sub_neg_eq_add] at this
    have e : dispF q - dispF1 q * -s + dispF2 q / 2 * (-s) ^ 2 = dispF q + dispF1 q * s + dispF2 q / 2 * s ^ 2 := by ring
    rw [e] at this
    refine this.trans (le_of_eq (by ring))

end Verif
