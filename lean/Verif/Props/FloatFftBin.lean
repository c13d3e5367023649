import Verif.Model.FloatFft
import Verif.Props.FloatDisp
import Verif.Props.FloatFreq
import Verif.Props.Fourier

/-! # One bin of the raw spectrum in double precision -/

namespace Verif
open Finset

/-- Adding an error `d` to a component changes the squared modulus by at most `δ |X|^2 + (1 + 1/δ) |d|^2`. -/
theorem normSq_perturb (X d : ℂ) {δ : ℝ} (h : 0 < δ) :
    |Complex.normSq (X + d) - Complex.normSq X| ≤ δ * Complex.normSq X + (1 + 1 / δ) * Complex.normSq d := by
  have key : ∀ a c : ℝ, 2 * (a * c) ≤ δ * a ^ 2 + c ^ 2 / δ := by
    intro a c
    have e : δ * a ^ 2 + c ^ 2 / δ = (δ ^ 2 * a ^ 2 + c ^ 2) / δ := by field_simp
    rw [e, le_div_iff₀ h]
    nlinarith [sq_nonneg (δ * a - c)]
  rw [Complex.normSq_apply, Complex.normSq_apply, Complex.normSq_apply, Complex.add_re, Complex.add_im]
  have k1 := key X.re d.re
  have k2 := key X.im d.im
  have k3 := key (-X.re) d.re
  have k4 := key (-X.im) d.im
  have e2 : (1 + 1 / δ) * (d.re * d.re + d.im * d.im) = d.re * d.re + d.im * d.im + (d.re ^ 2 / δ + d.im ^ 2 / δ) := by ring
  rw [e2, abs_le]
  generalize d.re ^ 2 / δ = u at *
  generalize d.im ^ 2 / δ = v at *
  constructor <;> nlinarith [sq_nonneg d.re, sq_nonneg d.im]

/-- The square of one part, doubled, in double precision. -/
theorem double_square (a : ℚ) :
    |(f64 (f64 (2 * a) * a) : ℝ) - 2 * (a : ℝ) ^ 2| ≤ 2 * (a : ℝ) ^ 2 * (203 / 100 / 2 ^ 53) + 201 / 100 / 2 ^ 200 := by
  have h1 := f64_rd (2 * a)
  have h2 := f64_rd (f64 (2 * a) * a)
  push_cast at h1 h2
  generalize (f64 (2 * a) : ℝ) = A at *
  generalize (a : ℝ) = x at *
  unfold Rd at h1
  have hx : |x| ≤ x ^ 2 + 1 := by
    rw [abs_le]; constructor <;> nlinarith [sq_nonneg (x - 1), sq_nonneg (x + 1)]
  have e1 : |A * x - 2 * x ^ 2| ≤ 2 * x ^ 2 * (101 / 100 / 2 ^ 53) + 1 / 2 ^ 200 := by
    rw [show A * x - 2 * x ^ 2 = (A - 2 * x) * x by ring, abs_mul]
    have h3 : |A - 2 * x| * |x| ≤ (|2 * x| / 2 ^ 53 + 1 / 2 ^ 200) * |x| := mul_le_mul_of_nonneg_right h1 (abs_nonneg x)
    have h4 : |2 * x| * |x| = 2 * x ^ 2 := by rw [← abs_mul, show 2 * x * x = 2 * x ^ 2 by ring, abs_of_nonneg (by positivity)]
    have h5 : (|2 * x| / 2 ^ 53 + 1 / 2 ^ 200) * |x| = |2 * x| * |x| / 2 ^ 53 + |x| / 2 ^ 200 := by ring
    rw [h5, h4] at h3
    have h6 : |x| / 2 ^ 200 ≤ (x ^ 2 + 1) / 2 ^ 200 := by gcongr
    generalize |A - 2 * x| * |x| = L at *
    have h7 := sq_nonneg x
    norm_num at h3 h6 h7 ⊢
    linarith
  have h3 := h2.err e1
  rw [abs_of_nonneg (by positivity : (0 : ℝ) ≤ 2 * x ^ 2)] at h3
  have h7 := sq_nonneg x
  norm_num at h3 h7 ⊢
  linarith

/-- One density in double precision against the exact density of the same component and factor. -/
theorem density_double (a b r : ℚ) (hr : 0 ≤ r) :
    |(f64 (f64 (f64 (f64 (2 * a) * a) + f64 (f64 (2 * b) * b)) * r) : ℝ) - 2 * ((a : ℝ) ^ 2 + (b : ℝ) ^ 2) * r| ≤
      2 * ((a : ℝ) ^ 2 + (b : ℝ) ^ 2) * r / 2 ^ 50 + (r + 1) / 2 ^ 197 := by
  have h1 := double_square a
  have h2 := double_square b
  have h3 := f64_rd (f64 (f64 (2 * a) * a) + f64 (f64 (2 * b) * b))
  have h4 := f64_rd (f64 (f64 (f64 (2 * a) * a) + f64 (f64 (2 * b) * b)) * r)
  have hr' : (0 : ℝ) ≤ r := by exact_mod_cast hr
  push_cast at h3 h4
  generalize f64 (f64 (f64 (2 * a) * a) + f64 (f64 (2 * b) * b)) = S at *
  generalize (f64 (f64 (2 * a) * a) : ℝ) = P at *
  generalize (f64 (f64 (2 * b) * b) : ℝ) = Q at *
  have hq : 0 ≤ (a : ℝ) ^ 2 + (b : ℝ) ^ 2 := by positivity
  have e1 : |P + Q - 2 * ((a : ℝ) ^ 2 + (b : ℝ) ^ 2)| ≤ 2 * ((a : ℝ) ^ 2 + (b : ℝ) ^ 2) * (203 / 100 / 2 ^ 53) + 402 / 100 / 2 ^ 200 := by
    have := abs_add_le (P - 2 * (a : ℝ) ^ 2) (Q - 2 * (b : ℝ) ^ 2)
    rw [show P - 2 * (a : ℝ) ^ 2 + (Q - 2 * (b : ℝ) ^ 2) = P + Q - 2 * ((a : ℝ) ^ 2 + (b : ℝ) ^ 2) by ring] at this
    linarith
  generalize (a : ℝ) ^ 2 + (b : ℝ) ^ 2 = q at *
  have e2 := h3.err e1
  rw [abs_of_nonneg (by positivity : (0 : ℝ) ≤ 2 * q)] at e2
  have e3 : |(S : ℝ) - 2 * q| ≤ 2 * q * (304 / 100 / 2 ^ 53) + 503 / 100 / 2 ^ 200 := by
    refine e2.trans ?_
    norm_num
    linarith
  have e4 : |(S : ℝ) * r - 2 * q * r| ≤ 2 * q * r * (304 / 100 / 2 ^ 53) + 503 / 100 / 2 ^ 200 * r := by
    rw [← sub_mul, abs_mul, abs_of_nonneg hr']
    exact (mul_le_mul_of_nonneg_right e3 hr').trans (le_of_eq (by ring))
  have e5 := h4.err e4
  have hqr : 0 ≤ q * r := mul_nonneg hq hr'
  rw [abs_of_nonneg (by nlinarith : (0 : ℝ) ≤ 2 * q * r)] at e5
  refine e5.trans ?_
  generalize hz : 2 * q * (r : ℝ) = z at *
  have hz0 : 0 ≤ z := by nlinarith
  norm_num
  linarith

theorem f64_nonneg' {x : ℚ} (h : 0 ≤ x) : 0 ≤ f64 x := f64_nonneg h

theorem density_nonneg (a b r : ℚ) (hr : 0 ≤ r) : 0 ≤ f64 (f64 (f64 (f64 (2 * a) * a) + f64 (f64 (2 * b) * b)) * r) := by
  have key : ∀ a : ℚ, 0 ≤ f64 (f64 (2 * a) * a) := by
    intro a
    apply f64_nonneg
    rcases le_total 0 a with h | h
    · exact mul_nonneg (f64_nonneg (by linarith)) h
    · have : f64 (2 * a) ≤ 0 := by
        have := f64_mono (show 2 * a ≤ 0 by linarith)
        rwa [f64_zero] at this
      exact mul_nonneg_of_nonpos_of_nonpos this h
  exact f64_nonneg (mul_nonneg (f64_nonneg (add_nonneg (key a) (key b))) hr)

/-- The factor of the densities in double precision: `dt / n` up to a relative error of `2 ^ -50`. -/
theorem density_factor {n : ℕ} {dt : ℚ} (hn : 1 ≤ n) (hn' : n ≤ 2 ^ 40) (hlo : 1 / 2 ^ 40 ≤ dt) (hhi : dt ≤ 2 ^ 40) :
    |f64 (1 / f64 (f64 (f64 (1 / f64 ((n : ℚ) * dt)) * n) * n)) - dt / n| ≤ dt / n / 2 ^ 50 := by
  have d0 : 0 < dt := lt_of_lt_of_le (by positivity) hlo
  have nq : (1 : ℚ) ≤ n := by exact_mod_cast hn
  have nq' : (n : ℚ) ≤ 2 ^ 40 := by exact_mod_cast hn'
  have n0 : (0 : ℚ) < n := by linarith
  obtain ⟨e, he, hD⟩ := recip_near (c := (n : ℚ)) (dt := dt) nq (by linarith) hlo hhi
  rw [hD]
  have he' := abs_le.1 he
  have k1 : 1 / (n * dt) * (1 + e) * n = 1 / dt * (1 + e) := by field_simp
  have l1 : (1 : ℚ) / 2 ^ 41 ≤ 1 / dt * (1 + e) := by
    have h1 : (1 : ℚ) / 2 ^ 40 ≤ 1 / dt := one_div_le_one_div_of_le d0 hhi
    have := mul_le_mul h1 (show (1 : ℚ) / 2 ≤ 1 + e by have := he'.1; norm_num at this ⊢; linarith) (by norm_num) (by positivity)
    refine le_trans ?_ this
    norm_num
  obtain ⟨δ1, d1, e1⟩ := f64_factor (x := 1 / dt * (1 + e)) (by
    rw [abs_of_nonneg (le_trans (by positivity) l1)]
    refine le_trans ?_ l1
    norm_num)
  have d1' := abs_le.1 d1
  have l2 : (1 : ℚ) / 2 ^ 42 ≤ f64 (1 / dt * (1 + e)) := by
    rw [e1]
    have := mul_le_mul l1 (show (1 : ℚ) / 2 ≤ 1 + δ1 by have := d1'.1; norm_num at this ⊢; linarith) (by norm_num) (le_trans (by positivity) l1)
    refine le_trans ?_ this
    norm_num
  have l3 : (1 : ℚ) / 2 ^ 42 ≤ f64 (1 / dt * (1 + e)) * n := by
    have := mul_le_mul l2 nq (by norm_num) (le_trans (by positivity) l2)
    linarith
  obtain ⟨δ2, d2, e2⟩ := f64_factor (x := f64 (1 / dt * (1 + e)) * n) (by
    rw [abs_of_nonneg (le_trans (by positivity) l3)]
    refine le_trans ?_ l3
    norm_num)
  have d2' := abs_le.1 d2
  rw [k1, e2, e1]
  have hp : 0 < 1 + e := by have := he'.1; norm_num at this ⊢; linarith
  have hp1 : 0 < 1 + δ1 := by have := d1'.1; norm_num at this ⊢; linarith
  have hp2 : 0 < 1 + δ2 := by have := d2'.1; norm_num at this ⊢; linarith
  have k2 : 1 / (1 / dt * (1 + e) * (1 + δ1) * n * (1 + δ2)) = dt / n * (1 / ((1 + e) * (1 + δ1) * (1 + δ2))) := by
    field_simp
  set π := (1 + e) * (1 + δ1) * (1 + δ2) with hπ
  have hπb : |π - 1| ≤ 605 / 100 / 2 ^ 53 := by
    have a1 : |(1 + e) * (1 + δ1) - 1| ≤ 501 / 100 / 2 ^ 53 := by
      rw [show (1 + e) * (1 + δ1) - 1 = e + δ1 + e * δ1 by ring]
      have b1 : |e * δ1| ≤ 1 / 2 ^ 51 * (1 / 2 ^ 53) := by rw [abs_mul]; exact mul_le_mul he d1 (abs_nonneg _) (by positivity)
      have b2 := abs_add_le (e + δ1) (e * δ1)
      have b3 := abs_add_le e δ1
      generalize |e * δ1| = z at *
      norm_num at he d1 b1 b2 b3 ⊢
      linarith
    rw [hπ, show (1 + e) * (1 + δ1) * (1 + δ2) - 1 = ((1 + e) * (1 + δ1) - 1) + δ2 + ((1 + e) * (1 + δ1) - 1) * δ2 by ring]
    generalize (1 + e) * (1 + δ1) - 1 = w at *
    have b1 : |w * δ2| ≤ 501 / 100 / 2 ^ 53 * (1 / 2 ^ 53) := by rw [abs_mul]; exact mul_le_mul a1 d2 (abs_nonneg _) (by positivity)
    have b2 := abs_add_le (w + δ2) (w * δ2)
    have b3 := abs_add_le w δ2
    generalize |w * δ2| = z at *
    norm_num at a1 d2 b1 b2 b3 ⊢
    linarith
  have π0 : 0 < π := by positivity
  clear_value π
  have hπb' := abs_le.1 hπb
  have hinv : |1 / π - 1| ≤ 61 / 10 / 2 ^ 53 := by
    rw [show 1 / π - 1 = (1 - π) / π by field_simp, abs_div, abs_of_pos π0, div_le_iff₀ π0, abs_sub_comm]
    have h1 := hπb'.1
    norm_num at h1 hπb ⊢
    linarith
  have hinv' := abs_le.1 hinv
  rw [k2]
  have y0 : (1 : ℚ) / 2 ^ 80 ≤ dt / n := by
    rw [le_div_iff₀ n0]
    refine le_trans ?_ hlo
    have : (1 : ℚ) / 2 ^ 80 * n ≤ 1 / 2 ^ 80 * 2 ^ 40 := mul_le_mul_of_nonneg_left nq' (by positivity)
    refine this.trans ?_
    norm_num
  have yp : 0 < dt / n := by positivity
  have ip : 0 < 1 / π := by positivity
  obtain ⟨δ3, d3, e3⟩ := f64_factor (x := dt / n * (1 / π)) (by
    rw [abs_of_pos (mul_pos yp ip)]
    have := mul_le_mul y0 (show (1 : ℚ) / 2 ≤ 1 / π by have := hinv'.1; norm_num at this ⊢; linarith) (by norm_num) yp.le
    refine le_trans ?_ this
    norm_num)
  have d3' := abs_le.1 d3
  rw [e3, show dt / n * (1 / π) * (1 + δ3) - dt / n = dt / n * ((1 / π - 1) + δ3 + (1 / π - 1) * δ3) by ring, abs_mul, abs_of_pos yp,
    show dt / n / 2 ^ 50 = dt / n * (1 / 2 ^ 50) by ring]
  refine mul_le_mul_of_nonneg_left ?_ yp.le
  generalize 1 / π - 1 = w at *
  have b1 : |w * δ3| ≤ 61 / 10 / 2 ^ 53 * (1 / 2 ^ 53) := by rw [abs_mul]; exact mul_le_mul hinv d3 (abs_nonneg _) (by positivity)
  have b2 := abs_add_le (w + δ3) (w * δ3)
  have b3 := abs_add_le w δ3
  generalize |w * δ3| = z at *
  norm_num at hinv d3 b1 b2 b3 ⊢
  linarith

/-- The mean of non-negative doubles, with underflow. -/
theorem mean_rd (R : NpSum) {l : List ℚ} (hne : l ≠ []) (hd : ∀ x ∈ l, IsDouble x) (h0 : ∀ x ∈ l, 0 ≤ x) (hn : l.length ≤ 2 ^ 50) :
    |meanD R l - mean l| ≤ (l.length : ℚ) / 2 ^ 52 * mean l + 1 / 2 ^ 200 := by
  have hs := R.error hd h0
  have lp : 0 < l.length := List.length_pos_of_ne_nil hne
  have lq : (1 : ℚ) ≤ l.length := by exact_mod_cast lp
  have ln : (l.length : ℚ) ≤ 2 ^ 50 := by exact_mod_cast hn
  have Sp : 0 ≤ l.sum := List.sum_nonneg h0
  have hg := growth (n := l.length - 1) (by omega)
  have hc : ((l.length - 1 : ℕ) : ℚ) = l.length - 1 := by
    rw [Nat.cast_sub lp]; simp
  rw [hc] at hg
  have h1 := hs.trans (mul_le_mul_of_nonneg_right hg Sp)
  have h2 : |R.sum l / l.length - l.sum / l.length| ≤ ((l.length : ℚ) - 1) / 2 ^ 52 * (l.sum / l.length) := by
    rw [← sub_div, abs_div, abs_of_pos (by linarith : (0 : ℚ) < l.length)]
    rw [mul_div_assoc']
    gcongr
  unfold meanD mean
  have h3 : |f64 (R.sum l / l.length) - R.sum l / l.length| ≤ |R.sum l / l.length| / 2 ^ 53 + 1 / 2 ^ 200 := by
    have := f64_rd (R.sum l / l.length)
    unfold Rd at this
    exact (Rat.cast_le (K := ℝ)).1 (by push_cast at this ⊢; exact this)
  have mp : 0 ≤ l.sum / (l.length : ℚ) := div_nonneg Sp (by linarith)
  generalize R.sum l / l.length = M at *
  generalize l.sum / l.length = m at *
  generalize (l.length : ℚ) = k at *
  have h4 : |M| ≤ m + |M - m| := by
    have := abs_add_le m (M - m)
    rw [add_sub_cancel, abs_of_nonneg mp] at this
    exact this
  have h5 := abs_add_le (f64 M - M) (M - m)
  rw [sub_add_sub_cancel] at h5
  have h6 : k / 2 ^ 52 * m = (k - 1) / 2 ^ 52 * m + m / 2 ^ 52 := by ring
  have h7 : (k - 1) / 2 ^ 52 * m ≤ 1 / 4 * m := by
    refine mul_le_mul_of_nonneg_right ?_ mp
    rw [div_le_iff₀ (by positivity)]
    norm_num at ln ⊢
    linarith
  rw [h6]
  generalize (k - 1) / 2 ^ 52 * m = B at *
  norm_num at h3 h4 h5 h7 ⊢
  linarith

end Verif
