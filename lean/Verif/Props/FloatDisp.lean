import Verif.Props.FloatDispRound
import Mathlib.Analysis.Complex.ExponentialBounds

/-! # C175: the wave number in double precision -/

set_option linter.unusedSectionVars false

namespace Verif

/-! ## The rounds of the model -/

/-- A round of the program does not give NaN, and reduces the residual. -/
theorem dispRoundF64_residual (E : NpElem) (Q : NpSqrt) {y x : ℚ} (h : RoundPoint (y : ℝ) (x : ℝ)) {β : ℝ} (hβ0 : 0 ≤ β) (hβ : β ≤ 1 / 20)
    (hβc : |(x : ℝ) * Real.tanh x - y| ≤ β * min (y : ℝ) 1) :
    ∃ x' : ℚ, dispRoundF64 E Q y x = some x' ∧ (0 : ℝ) < x' ∧
      |(x' : ℝ) * Real.tanh x' - y| ≤ (5 / 10 ^ 8 * (β + 1 / 2 ^ 31) + 3 / 4 * (β + 1 / 2 ^ 31) ^ 3) * min (y : ℝ) 1 + 3 / 2 ^ 50 * y := by
  have hx : (1 : ℚ) / 2 ^ 200 ≤ x := by
    have h1 := h.f_bounds.1
    have h2 := h.hY
    have h3 : (x : ℝ) * Real.tanh x ≤ x * 1 := mul_le_mul_of_nonneg_left (tanh_lt_one' _).le h.hq.le
    have h4 : ((1 / 2 ^ 200 : ℚ) : ℝ) ≤ x := by
      push_cast
      norm_num at h2 ⊢
      linarith
    exact_mod_cast h4
  have hT := E.tanh_spec x hx
  set T := E.tanh x with hTd
  have hM := f64_rd (T * T)
  set M := f64 (T * T) with hMd
  have hT2 := f64_rd (1 - M)
  set T2 := f64 (1 - M) with hT2d
  have hP := f64_rd (x * T)
  set P := f64 (x * T) with hPd
  have hW := f64_rd (1 - P)
  set W := f64 (1 - P) with hWd
  have hA := f64_rd (W * T2)
  set A := f64 (W * T2) with hAd
  have hN := f64_rd (x * T2)
  set N := f64 (x * T2) with hNd
  have hB := f64_rd (T + N)
  set B := f64 (T + N) with hBd
  have hC := f64_rd (P - y)
  set C := f64 (P - y) with hCd
  push_cast at hM hT2 hP hW hA hN hB hC
  have hco := coefs_accurate h hT hM hT2 hP hW hA hN hB hC
  have hqd := h.quad hco
  have hX := f64_rd (A * C)
  have hK := f64_rd (1 / 10 ^ 8)
  have hBB := f64_rd (B * B)
  have hNT := f64_rd (f64 (1 / 10 ^ 8) * f64 (B * B))
  push_cast at hX hK hBB hNT
  obtain ⟨t1, t2⟩ := hqd.threshold hX hK hBB hNT
  have key : ∀ S : ℚ, dispArgF64 E Q y x = some S → GoodStep (dispF2 x / 2) (dispF1 x) C S → ∃ x' : ℚ, dispRoundF64 E Q y x = some x' ∧ (0 : ℝ) < x' ∧
      |(x' : ℝ) * Real.tanh x' - y| ≤ (5 / 10 ^ 8 * (β + 1 / 2 ^ 31) + 3 / 4 * (β + 1 / 2 ^ 31) ^ 3) * min (y : ℝ) 1 + 3 / 2 ^ 50 * y := by
    intro S hS hg
    have hr := f64_rd (x + S)
    push_cast at hr
    exact ⟨f64 (x + S), by rw [dispRoundF64, hS]; rfl, round_residual h hβ0 hβ hβc hco hg hr⟩
  by_cases hlt : |f64 (A * C)| < f64 (f64 (1 / 10 ^ 8) * f64 (B * B))
  · apply key (f64 (-C / B))
    · unfold dispArgF64
      dsimp only
      rw [if_pos hlt]
    · apply hqd.linear (t1 (by exact_mod_cast hlt))
      have := f64_rd (-C / B)
      push_cast at this
      exact this
  · have hl := t2 (by exact_mod_cast not_lt.1 hlt)
    have hA0 : A ≠ 0 := by
      have h1 := hqd.A_ge hl
      intro h0
      rw [h0, Rat.cast_zero, abs_zero] at h1
      norm_num at h1
    have hF4 := f64_rd (4 * A)
    have hP4 := f64_rd (f64 (4 * A) * C)
    have hD := f64_rd (f64 (B * B) - f64 (f64 (4 * A) * C))
    push_cast at hF4 hP4 hD
    set D := f64 (f64 (B * B) - f64 (f64 (4 * A) * C)) with hDd
    obtain ⟨d1, d2, d3⟩ := hqd.disc hl hBB hF4 hP4 hD
    have hD0 : 0 ≤ D := by
      have h1 := (abs_le.1 d1).1
      have h2 := sq_nonneg (dispF1 x)
      have h3 : (0 : ℝ) ≤ D := by
        norm_num at h1 d2
        linarith
      exact_mod_cast h3
    obtain ⟨δ, hδ, hs⟩ := Q.spec D hD0
    have hV := f64_rd (-B + Q.sqrt D)
    have hG := f64_rd (2 * A)
    have hS := f64_rd (f64 (-B + Q.sqrt D) / f64 (2 * A))
    push_cast at hV hG hS
    rw [hs] at hV
    apply key (f64 (f64 (-B + Q.sqrt D) / f64 (2 * A)))
    · unfold dispArgF64
      dsimp only
      rw [if_neg hlt, if_pos hA0, if_neg (not_lt.2 hD0)]
    · exact hqd.root hl hBB hF4 hP4 hD hδ hV hG hS

/-! ## The first approximation -/

theorem abs_exp_neg_sub {u v : ℝ} (h : u ≤ v) : |Real.exp (-u) - Real.exp (-v)| ≤ (v - u) * Real.exp (-u) := by
  have e : Real.exp (-v) = Real.exp (-u) * Real.exp (-(v - u)) := by rw [← Real.exp_add]; ring_nf
  have h1 := Real.add_one_le_exp (-(v - u))
  have h2 : Real.exp (-(v - u)) ≤ 1 := Real.exp_le_one_iff.2 (by linarith)
  have h3 := Real.exp_pos (-u)
  rw [e, show Real.exp (-u) - Real.exp (-u) * Real.exp (-(v - u)) = Real.exp (-u) * (1 - Real.exp (-(v - u))) by ring,
    abs_of_nonneg (mul_nonneg h3.le (by linarith)), mul_comm]
  exact mul_le_mul_of_nonneg_right (by linarith) h3.le

theorem mul_exp_neg_le {x : ℝ} : x * Real.exp (-x) ≤ 1 := by
  have h1 := Real.add_one_le_exp x
  rw [Real.exp_neg, ← div_eq_mul_inv, div_le_one (Real.exp_pos x)]
  linarith

/-- The computed `1 - exp (-z)`. -/
theorem start_one_sub {z p x d : ℝ} (hz : 0 < z) (hp : |p - z| ≤ z / 2 ^ 50) (hx : |x - Real.exp (-p)| ≤ Real.exp (-p) / 2 ^ 50 + 1 / 2 ^ 200)
    (hd : Rd (1 - x) d) : |d - (1 - Real.exp (-z))| ≤ 22 / 10 / 2 ^ 50 := by
  have hp' := abs_le.1 hp
  have hp0 : 0 ≤ p := by
    have := hp'.1
    norm_num at this ⊢
    linarith
  have e1 : Real.exp (-p) ≤ 1 := Real.exp_le_one_iff.2 (by linarith)
  have e2 : |Real.exp (-p) - Real.exp (-z)| ≤ 101 / 100 / 2 ^ 50 := by
    rcases le_total p z with h | h
    · refine (abs_exp_neg_sub h).trans ?_
      have h1 := mul_exp_neg_le (x := p)
      have h2 : z ≤ 101 / 100 * p := by
        have := hp'.1
        norm_num at this ⊢
        linarith
      have h3 : z - p ≤ 101 / 100 / 2 ^ 50 * p := by
        have := hp'.1
        norm_num at this h2 ⊢
        linarith
      have h4 := mul_le_mul_of_nonneg_right h3 (Real.exp_pos (-p)).le
      norm_num at h4 ⊢
      linarith
    · rw [abs_sub_comm]
      refine (abs_exp_neg_sub h).trans ?_
      have h1 := mul_exp_neg_le (x := z)
      have h3 : p - z ≤ 1 / 2 ^ 50 * z := by linarith [hp'.2]
      have h4 := mul_le_mul_of_nonneg_right h3 (Real.exp_pos (-z)).le
      norm_num at h4 ⊢
      linarith
  have e3 : |x - Real.exp (-z)| ≤ 203 / 100 / 2 ^ 50 := by
    refine (abs_sub_le x (Real.exp (-p)) _).trans ?_
    norm_num at hx e2 ⊢
    linarith
  have e4 : |(1 - x) - (1 - Real.exp (-z))| ≤ 203 / 100 / 2 ^ 50 := by
    rw [show (1 - x) - (1 - Real.exp (-z)) = -(x - Real.exp (-z)) by ring, abs_neg]
    exact e3
  refine (hd.err e4).trans ?_
  have h0 : Real.exp (-z) ≤ 1 := Real.exp_le_one_iff.2 (by linarith)
  have h1 := Real.exp_pos (-z)
  rw [abs_of_nonneg (by linarith : 0 ≤ 1 - Real.exp (-z))]
  have : (1 : ℝ) / 2 ^ 200 ≤ 1 / 2 ^ 150 := by norm_num
  norm_num at this ⊢
  linarith

theorem rpow_ratio {ρ e p : ℝ} (he0 : 0 ≤ e) (he : e < 1) (hp0 : 0 ≤ p) (hp1 : p ≤ 1) (h : |ρ - 1| ≤ e) : |ρ ^ p - 1| ≤ e := by
  have h1 := abs_le.1 h
  have hρ : 0 < ρ := by linarith [h1.1]
  rcases le_total ρ 1 with h2 | h2
  · have h3 : ρ ^ p ≤ 1 := Real.rpow_le_one hρ.le h2 hp0
    have h4 : ρ ^ (1 : ℝ) ≤ ρ ^ p := Real.rpow_le_rpow_of_exponent_ge hρ h2 hp1
    rw [Real.rpow_one] at h4
    rw [abs_le]
    constructor <;> linarith [h1.1]
  · have h3 : 1 ≤ ρ ^ p := Real.one_le_rpow h2 hp0
    have h4 : ρ ^ p ≤ ρ ^ (1 : ℝ) := Real.rpow_le_rpow_of_exponent_le h2 hp1
    rw [Real.rpow_one] at h4
    rw [abs_le]
    constructor <;> linarith [h1.2]

/-- The computed power with exponent `2/5`. -/
theorem start_pow {D d p v e : ℝ} (hD : 7 / 10 ^ 11 ≤ D) (hD1 : D ≤ 1) (he : e ≤ 1 / 10 ^ 4) (he0 : 0 ≤ e) (hd : |d - D| ≤ e * D)
    (hp : |p - 2 / 5| ≤ 1 / 10 ^ 16) (hv : |v - d ^ p| ≤ d ^ p / 2 ^ 50) : |v - D ^ (2 / 5 : ℝ)| ≤ (101 / 100 * e + 3 / 10 ^ 14) * D ^ (2 / 5 : ℝ) := by
  have hD0 : 0 < D := lt_of_lt_of_le (by norm_num) hD
  have hd' := abs_le.1 hd
  have hd1 : 6 / 10 ^ 11 ≤ d := by
    have : e * D ≤ 1 / 10 ^ 4 * D := mul_le_mul_of_nonneg_right he hD0.le
    norm_num at hD this ⊢
    linarith [hd'.1]
  have hd2 : d ≤ 2 := by
    have : e * D ≤ 1 / 10 ^ 4 * D := mul_le_mul_of_nonneg_right he hD0.le
    norm_num at this ⊢
    linarith [hd'.2]
  have hd0 : 0 < d := lt_of_lt_of_le (by norm_num) hd1
  set F := D ^ (2 / 5 : ℝ) with hF
  have hF0 : 0 < F := Real.rpow_pos_of_pos hD0 _
  -- the base
  have e1 : |d ^ (2 / 5 : ℝ) - F| ≤ e * F := by
    have h1 : |d / D - 1| ≤ e := by
      rw [show d / D - 1 = (d - D) / D by field_simp, abs_div, abs_of_pos hD0, div_le_iff₀ hD0]
      exact hd
    have h2 := rpow_ratio he0 (by linarith) (by norm_num : (0 : ℝ) ≤ 2 / 5) (by norm_num) h1
    rw [Real.div_rpow hd0.le hD0.le, ← hF, show d ^ (2 / 5 : ℝ) / F - 1 = (d ^ (2 / 5 : ℝ) - F) / F by field_simp, abs_div, abs_of_pos hF0,
      div_le_iff₀ hF0] at h2
    exact h2
  -- the exponent
  have e2 : |d ^ p - d ^ (2 / 5 : ℝ)| ≤ 1 / 10 ^ 14 * d ^ (2 / 5 : ℝ) := by
    have h1 : d ^ p = d ^ (2 / 5 : ℝ) * Real.exp (Real.log d * (p - 2 / 5)) := by
      rw [← Real.rpow_def_of_pos hd0, ← Real.rpow_add hd0]
      ring_nf
    have h2 : |Real.log d| ≤ 40 := by
      rw [abs_le]
      constructor
      · rw [Real.le_log_iff_exp_le hd0]
        refine le_trans ?_ hd1
        have h3 : (27 / 10 : ℝ) ≤ Real.exp 1 := by
          have := Real.exp_one_gt_d9
          linarith
        have h4 : (27 / 10 : ℝ) ^ 40 ≤ Real.exp 1 ^ 40 := pow_le_pow_left₀ (by norm_num) h3 40
        rw [← Real.exp_nat_mul] at h4
        norm_num at h4
        rw [Real.exp_neg, inv_le_comm₀ (Real.exp_pos _) (by norm_num)]
        refine le_trans ?_ h4
        norm_num
      · have := Real.log_le_sub_one_of_pos hd0
        linarith
    have h3 : |Real.log d * (p - 2 / 5)| ≤ 40 * (1 / 10 ^ 16) := by
      rw [abs_mul]
      exact mul_le_mul h2 hp (abs_nonneg _) (by norm_num)
    have h4 := Real.abs_exp_sub_one_le (h3.trans (by norm_num))
    have h5 : 0 < d ^ (2 / 5 : ℝ) := Real.rpow_pos_of_pos hd0 _
    rw [h1, show d ^ (2 / 5 : ℝ) * Real.exp (Real.log d * (p - 2 / 5)) - d ^ (2 / 5 : ℝ)
      = (Real.exp (Real.log d * (p - 2 / 5)) - 1) * d ^ (2 / 5 : ℝ) by ring, abs_mul, abs_of_pos h5]
    apply mul_le_mul_of_nonneg_right _ h5.le
    refine h4.trans ?_
    norm_num at h3 ⊢
    linarith
  have q1 := abs_le.1 e1
  have q2 := abs_le.1 e2
  have he2 : e * F ≤ 1 / 10 ^ 4 * F := mul_le_mul_of_nonneg_right he hF0.le
  have e3 : |v - F| ≤ |v - d ^ p| + (|d ^ p - d ^ (2 / 5 : ℝ)| + |d ^ (2 / 5 : ℝ) - F|) :=
    (abs_sub_le v (d ^ p) F).trans (by linarith [abs_sub_le (d ^ p) (d ^ (2 / 5 : ℝ)) F])
  have he3 : 0 ≤ e * F := by positivity
  rw [add_mul, mul_assoc]
  have hm : 0 ≤ e * (F * (1 / 1000)) := by positivity
  norm_num at hv e1 e2 q1 q2 e3 he2 hm ⊢
  linarith

/-- The computed first approximation. -/
theorem start_quot {y F v x r : ℝ} (hy : 9 / 10 ^ 9 ≤ y) (hF : 0 < F) (hF1 : F ≤ 1) (hr : 0 ≤ r) (hr1 : r ≤ 1 / 10 ^ 3) (hv : |v - F| ≤ r * F)
    (hx : Rd (y / v) x) : |x - y / F| ≤ (101 / 100 * r + 1 / 10 ^ 15) * (y / F) := by
  have hv' := abs_le.1 hv
  have hrF : r * F ≤ 1 / 10 ^ 3 * F := mul_le_mul_of_nonneg_right hr1 hF.le
  have hv0 : 999 / 1000 * F ≤ v := by
    norm_num at hrF ⊢
    linarith [hv'.1]
  have hv1 : 0 < v := lt_of_lt_of_le (by positivity) hv0
  have hy0 : 0 < y := lt_of_lt_of_le (by norm_num) hy
  have hyF : 0 < y / F := by positivity
  have e1 : |y / v - y / F| ≤ 1002 / 1000 * r * (y / F) := by
    have e : y / v - y / F = (F - v) / v * (y / F) := by field_simp
    rw [e, abs_mul, abs_of_pos hyF]
    apply mul_le_mul_of_nonneg_right _ hyF.le
    rw [abs_div, abs_of_pos hv1, div_le_iff₀ hv1, abs_sub_comm]
    have : r * (999 / 1000 * F) ≤ r * v := mul_le_mul_of_nonneg_left hv0 hr
    linarith
  have h1 := hx.err e1
  rw [abs_of_pos hyF] at h1
  refine h1.trans ?_
  have h2 : y ≤ y / F := by
    rw [le_div_iff₀ hF]
    nlinarith
  have h3 : (1 : ℝ) / 2 ^ 200 ≤ 1 / 10 ^ 18 * (y / F) := by
    have : (1 : ℝ) / 2 ^ 200 ≤ 1 / 10 ^ 18 * (9 / 10 ^ 9) := by norm_num
    norm_num at this h2 hy ⊢
    linarith
  have h4 : 0 ≤ r * (y / F) := by positivity
  generalize y / F = t at *
  norm_num at h3 h4 ⊢
  linarith

theorem start_close (E : NpElem) {y : ℚ} (hy : (9 : ℚ) / 10 ^ 9 ≤ y) (hy1 : y ≤ 2 ^ 17) {e : ℝ} (he : e ≤ 1 / 10 ^ 4)
    (hD : 7 / 10 ^ 11 ≤ 1 - Real.exp (-((y : ℝ) ^ (5 / 4 : ℝ)))) (heD : 22 / 10 / 2 ^ 50 ≤ e * (1 - Real.exp (-((y : ℝ) ^ (5 / 4 : ℝ))))) :
    |(dispStartF64 E y : ℝ) - dispStart y| ≤ (103 / 100 * e + 4 / 10 ^ 14) * dispStart y := by
  have hyR : (9 : ℝ) / 10 ^ 9 ≤ y := by
    have := (Rat.cast_le (K := ℝ)).2 hy
    push_cast at this
    exact this
  have hy0 : (0 : ℝ) < y := lt_of_lt_of_le (by norm_num) hyR
  have hz := Real.rpow_pos_of_pos hy0 (5 / 4 : ℝ)
  have hpw := E.pow_spec y (5 / 4) (le_trans (by norm_num) hy) (hy1.trans (by norm_num)) (by norm_num) (by norm_num)
  have e54 : (((5 / 4 : ℚ)) : ℝ) = 5 / 4 := by norm_num
  rw [e54] at hpw
  have hpw0 : (0 : ℝ) ≤ (E.pow y (5 / 4) : ℚ) := by
    have := (abs_le.1 hpw).1
    norm_num at this
    linarith
  have hex := E.exp_spec (-(E.pow y (5 / 4))) (by rw [neg_nonpos]; exact_mod_cast hpw0)
  have hd := f64_rd (1 - E.exp (-(E.pow y (5 / 4))))
  unfold dispStartF64
  set p := E.pow y (5 / 4)
  set u := E.exp (-p)
  set d := f64 (1 - u)
  push_cast at hex hd
  have h1 := start_one_sub hz hpw hex hd
  unfold dispStart
  set D := 1 - Real.exp (-((y : ℝ) ^ (5 / 4 : ℝ))) with hDd
  have hD1 : D ≤ 1 := by
    have := Real.exp_pos (-((y : ℝ) ^ (5 / 4 : ℝ)))
    rw [hDd]
    linarith
  have hD0 : 0 < D := lt_of_lt_of_le (by norm_num) hD
  have he0 : 0 ≤ e := by
    by_contra h
    have : e * D < 0 := mul_neg_of_neg_of_pos (not_le.1 h) hD0
    have : (0 : ℝ) ≤ 22 / 10 / 2 ^ 50 := by positivity
    linarith
  have hdD := h1.trans heD
  have hd' := abs_le.1 hdD
  have heD' : e * D ≤ 1 / 10 ^ 4 * D := mul_le_mul_of_nonneg_right he hD0.le
  have hdlow : (1 : ℝ) / 10 ^ 11 ≤ d := by
    have := hd'.1
    norm_num at this heD' hD ⊢
    linarith
  have hdup : (d : ℝ) ≤ 2 := by
    have := hd'.2
    norm_num at this heD' ⊢
    linarith
  have hdlow' : (1 : ℚ) / 10 ^ 11 ≤ d := by
    rw [← Rat.cast_le (K := ℝ)]
    push_cast
    exact hdlow
  have hdup' : d ≤ 2 := by exact_mod_cast hdup
  have hexp := f64_error (x := 2 / 5) (by norm_num)
  rw [abs_of_pos (by norm_num : (0 : ℚ) < 2 / 5)] at hexp
  have hexpq : |f64 (2 / 5) - 2 / 5| ≤ 1 / 10 ^ 16 := hexp.trans (by norm_num)
  have hexp' := abs_le.1 hexpq
  have hv := E.pow_spec d (f64 (2 / 5)) (le_trans (by norm_num) hdlow') (hdup'.trans (by norm_num)) (by linarith [hexp'.1]) (by linarith [hexp'.2])
  have hexpR : |((f64 (2 / 5) : ℚ) : ℝ) - 2 / 5| ≤ 1 / 10 ^ 16 := by
    have : ((|f64 (2 / 5) - 2 / 5| : ℚ) : ℝ) ≤ ((1 / 10 ^ 16 : ℚ) : ℝ) := by exact_mod_cast hexpq
    push_cast at this
    exact this
  have hF := start_pow hD hD1 he he0 hdD hexpR hv
  have hF0 : 0 < D ^ (2 / 5 : ℝ) := Real.rpow_pos_of_pos hD0 _
  have hF1 : D ^ (2 / 5 : ℝ) ≤ 1 := Real.rpow_le_one hD0.le hD1 (by norm_num)
  have hx := f64_rd (y / E.pow d (f64 (2 / 5)))
  push_cast at hx
  refine (start_quot hyR hF0 hF1 (by positivity) (by norm_num at he ⊢; linarith) hF hx).trans ?_
  apply mul_le_mul_of_nonneg_right _ (by positivity)
  norm_num
  linarith

theorem start_exp_bound {y : ℝ} (hy : 9 / 10 ^ 9 ≤ y) : 75 / 10 ^ 12 ≤ 1 - Real.exp (-(y ^ (5 / 4 : ℝ))) := by
  have hy0 : 0 < y := lt_of_lt_of_le (by norm_num) hy
  have hz : 8 / 10 ^ 11 ≤ y ^ (5 / 4 : ℝ) := by
    have h2 : (y ^ (5 / 4 : ℝ)) ^ 4 = y ^ 5 := by
      rw [← Real.rpow_natCast, ← Real.rpow_mul hy0.le, ← Real.rpow_natCast]; norm_num
    have h3 : (8 / 10 ^ 11 : ℝ) ^ 4 ≤ (y ^ (5 / 4 : ℝ)) ^ 4 := by
      rw [h2]
      refine le_trans ?_ (pow_le_pow_left₀ (by norm_num) hy 5)
      norm_num
    exact le_of_pow_le_pow_left₀ (by norm_num) (Real.rpow_nonneg hy0.le _) h3
  have h1 : Real.exp (-(y ^ (5 / 4 : ℝ))) ≤ Real.exp (-(8 / 10 ^ 11)) := Real.exp_le_exp.2 (by linarith)
  have h2 := Real.add_one_le_exp (8 / 10 ^ 11 : ℝ)
  have h3 : Real.exp (-(8 / 10 ^ 11)) ≤ 1 - 75 / 10 ^ 12 := by
    rw [Real.exp_neg, inv_le_comm₀ (Real.exp_pos _) (by norm_num)]
    refine le_trans ?_ h2
    norm_num
  linarith

/-- The first approximation of the program. -/
theorem dispStartF64_residual (E : NpElem) {y : ℚ} (hy : (9 : ℚ) / 10 ^ 9 ≤ y) (hy1 : y ≤ 2 ^ 17) :
    (0 : ℝ) < (dispStartF64 E y : ℚ) ∧ |((dispStartF64 E y : ℚ) : ℝ) * Real.tanh (dispStartF64 E y : ℚ) - y| ≤ 25 / 1000 * min (y : ℝ) 1 := by
  have hyR : (9 : ℝ) / 10 ^ 9 ≤ y := by
    have := (Rat.cast_le (K := ℝ)).2 hy
    push_cast at this
    exact this
  have hy1R : (y : ℝ) ≤ 2 ^ 17 := by exact_mod_cast hy1
  have hy0 : (0 : ℝ) < y := lt_of_lt_of_le (by norm_num) hyR
  have hs := dispStart_pos hy0
  have hr := dispStart_residual hy0
  have hD := start_exp_bound hyR
  have hmY : min (y : ℝ) 1 ≤ y := min_le_left _ _
  have hm0 : 0 < min (y : ℝ) 1 := lt_min hy0 one_pos
  have hF : dispStart y * Real.tanh (dispStart y) ≤ 103 / 100 * y := by
    have := (abs_le.1 hr).2
    linarith
  have main : ∀ e : ℝ, e ≤ 1 / 10 ^ 4 → 22 / 10 / 2 ^ 50 ≤ e * (1 - Real.exp (-((y : ℝ) ^ (5 / 4 : ℝ)))) →
      (3 * (103 / 100 * e + 4 / 10 ^ 14)) * (103 / 100 * y) ≤ 1 / 1000 * min (y : ℝ) 1 →
      (0 : ℝ) < (dispStartF64 E y : ℚ) ∧ |((dispStartF64 E y : ℚ) : ℝ) * Real.tanh (dispStartF64 E y : ℚ) - y| ≤ 25 / 1000 * min (y : ℝ) 1 := by
    intro e he heD hm
    have hc := start_close E hy hy1 he (le_trans (by norm_num) hD) heD
    have he0 : 0 ≤ e := by
      by_contra h
      have : e * (1 - Real.exp (-((y : ℝ) ^ (5 / 4 : ℝ)))) < 0 := mul_neg_of_neg_of_pos (not_le.1 h) (lt_of_lt_of_le (by norm_num) hD)
      have : (0 : ℝ) ≤ 22 / 10 / 2 ^ 50 := by positivity
      linarith
    have hr0 : 0 ≤ 103 / 100 * e + 4 / 10 ^ 14 := by positivity
    have hr1 : 103 / 100 * e + 4 / 10 ^ 14 ≤ 1 / 2 := by
      norm_num at he ⊢
      linarith
    have hp := dispF_perturb hs hr0 hr1 hc
    refine ⟨?_, ?_⟩
    · have h1 := (abs_le.1 hc).1
      have h2 : (103 / 100 * e + 4 / 10 ^ 14) * dispStart y ≤ 1 / 2 * dispStart y := mul_le_mul_of_nonneg_right hr1 hs.le
      linarith
    · refine (abs_sub_le _ (dispStart y * Real.tanh (dispStart y)) _).trans ?_
      have h3 : 3 * (103 / 100 * e + 4 / 10 ^ 14) * (dispStart y * Real.tanh (dispStart y))
          ≤ 3 * (103 / 100 * e + 4 / 10 ^ 14) * (103 / 100 * y) := mul_le_mul_of_nonneg_left hF (by positivity)
      linarith
  rcases le_total (y : ℝ) 1 with h | h
  · apply main (3 / 10 ^ 5) (by norm_num)
    · have : (3 / 10 ^ 5 : ℝ) * (75 / 10 ^ 12) ≤ 3 / 10 ^ 5 * (1 - Real.exp (-((y : ℝ) ^ (5 / 4 : ℝ)))) := mul_le_mul_of_nonneg_left hD (by norm_num)
      refine le_trans ?_ this
      norm_num
    · rw [min_eq_left h]
      norm_num
      linarith
  · apply main (5 / 2 ^ 50) (by norm_num)
    · have hz : (1 : ℝ) ≤ (y : ℝ) ^ (5 / 4 : ℝ) := Real.one_le_rpow h (by norm_num)
      have h1 : Real.exp (-((y : ℝ) ^ (5 / 4 : ℝ))) ≤ Real.exp (-1) := Real.exp_le_exp.2 (by linarith)
      have h2 := Real.add_one_le_exp (1 : ℝ)
      have h3 : Real.exp (-1) ≤ 1 / 2 := by
        rw [Real.exp_neg, inv_le_comm₀ (Real.exp_pos _) (by norm_num)]
        refine le_trans ?_ h2
        norm_num
      have : (5 / 2 ^ 50 : ℝ) * (1 / 2) ≤ 5 / 2 ^ 50 * (1 - Real.exp (-((y : ℝ) ^ (5 / 4 : ℝ)))) := mul_le_mul_of_nonneg_left (by linarith) (by norm_num)
      refine le_trans ?_ this
      norm_num
    · rw [min_eq_right h]
      norm_num at hy1R ⊢
      linarith

/-! ## The solver -/

/-- The two rounds of the program. -/
theorem disp_two_rounds_double (E : NpElem) (Q : NpSqrt) {y : ℚ} (hy : (9 : ℚ) / 10 ^ 9 ≤ y) (hy1 : y ≤ 2 ^ 17) :
    ∃ x : ℚ, (dispRoundF64 E Q y (dispStartF64 E y)).bind (dispRoundF64 E Q y) = some x ∧ (0 : ℝ) < x ∧
      |(x : ℝ) * Real.tanh x - y| ≤ 60 / 10 ^ 14 * y := by
  have hyR : (9 : ℝ) / 10 ^ 9 ≤ y := by
    have := (Rat.cast_le (K := ℝ)).2 hy
    push_cast at this
    exact this
  have hy1R : (y : ℝ) ≤ 2 ^ 17 := by exact_mod_cast hy1
  have hm0 : 0 < min (y : ℝ) 1 := lt_min (lt_of_lt_of_le (by norm_num) hyR) one_pos
  have hmY : min (y : ℝ) 1 ≤ y := min_le_left _ _
  obtain ⟨s0, r0⟩ := dispStartF64_residual E hy hy1
  have p0 := RoundPoint.of_residual s0 hyR hy1R (r0.trans (mul_le_mul_of_nonneg_right (by norm_num) hm0.le))
  obtain ⟨x1, e1, s1, r1⟩ := dispRoundF64_residual E Q p0 (by norm_num) (by norm_num) r0
  have r1' : |(x1 : ℝ) * Real.tanh x1 - y| ≤ 1175 / 10 ^ 8 * min (y : ℝ) 1 := by
    refine r1.trans ?_
    have := p0.Y_le
    norm_num at this ⊢
    linarith
  have p1 := RoundPoint.of_residual s1 hyR hy1R (r1'.trans (mul_le_mul_of_nonneg_right (by norm_num) hm0.le))
  obtain ⟨x2, e2, s2, r2⟩ := dispRoundF64_residual E Q p1 (by norm_num) (by norm_num) r1'
  refine ⟨x2, by rw [e1]; exact e2, s2, r2.trans ?_⟩
  generalize min (y : ℝ) 1 = m at *
  norm_num at hmY ⊢
  linarith

theorem f64_factor {x : ℚ} (h : 1 / 2 ^ 200 ≤ |x|) : ∃ δ : ℚ, |δ| ≤ 1 / 2 ^ 53 ∧ f64 x = x * (1 + δ) := by
  have hx : x ≠ 0 := by
    intro h0
    rw [h0, abs_zero] at h
    norm_num at h
  refine ⟨(f64 x - x) / x, ?_, by field_simp; ring⟩
  rw [abs_div, div_le_iff₀ (abs_pos.2 hx)]
  linarith [f64_error h]

/-- The computed `w^2 h / g`. -/
theorem dispW2F64_close {w h g : ℚ} (hw : 1 / 2 ^ 60 ≤ |w|) (hh : 1 / 2 ^ 60 ≤ h) (hg : 0 < g) (hlo : 101 / 10 ^ 10 ≤ w ^ 2 * h / g) :
    |dispW2F64 w h g - w ^ 2 * h / g| ≤ 4 / 2 ^ 53 * (w ^ 2 * h / g) := by
  have hw2 : (1 : ℚ) / 2 ^ 120 ≤ w * w := by
    rw [← abs_mul_abs_self]
    have := mul_le_mul hw hw (by positivity) (abs_nonneg w)
    refine le_trans ?_ this
    norm_num
  have hh0 : 0 < h := lt_of_lt_of_le (by positivity) hh
  obtain ⟨δ1, d1, e1⟩ := f64_factor (x := w * w) (by
    rw [abs_of_nonneg (by positivity)]
    refine le_trans ?_ hw2
    norm_num)
  have d1' := abs_le.1 d1
  have hP : (1 : ℚ) / 2 ^ 121 ≤ f64 (w * w) := by
    rw [e1]
    have : (1 : ℚ) / 2 ^ 120 * (1 / 2) ≤ w * w * (1 + δ1) := by
      apply mul_le_mul hw2 _ (by norm_num) (by positivity)
      have := d1'.1
      norm_num at this ⊢
      linarith
    refine le_trans ?_ this
    norm_num
  have hPh : (1 : ℚ) / 2 ^ 181 ≤ f64 (w * w) * h := by
    have := mul_le_mul hP hh (by positivity) (le_trans (by positivity) hP)
    refine le_trans ?_ this
    norm_num
  obtain ⟨δ2, d2, e2⟩ := f64_factor (x := f64 (w * w) * h) (by
    rw [abs_of_nonneg (le_trans (by positivity) hPh)]
    refine le_trans ?_ hPh
    norm_num)
  have d2' := abs_le.1 d2
  set y0 := w ^ 2 * h / g with hy0
  have hy00 : 0 < y0 := lt_of_lt_of_le (by norm_num) hlo
  have e3 : f64 (f64 (w * w) * h) / g = y0 * ((1 + δ1) * (1 + δ2)) := by
    rw [e2, e1, hy0]
    field_simp
  have b12 : 1 - 201 / 100 / 2 ^ 53 ≤ (1 + δ1) * (1 + δ2) ∧ (1 + δ1) * (1 + δ2) ≤ 1 + 201 / 100 / 2 ^ 53 := by
    have h1 : |δ1 * δ2| ≤ 1 / 2 ^ 53 * (1 / 2 ^ 53) := by
      rw [abs_mul]
      exact mul_le_mul d1 d2 (abs_nonneg _) (by positivity)
    have h1' := abs_le.1 h1
    have e : (1 + δ1) * (1 + δ2) = 1 + δ1 + δ2 + δ1 * δ2 := by ring
    rw [e]
    constructor
    · have := h1'.1
      norm_num at this d1' d2' ⊢
      linarith [d1'.1, d2'.1]
    · have := h1'.2
      norm_num at this d1' d2' ⊢
      linarith [d1'.2, d2'.2]
  obtain ⟨δ3, d3, e4⟩ := f64_factor (x := f64 (f64 (w * w) * h) / g) (by
    have h1 : 0 ≤ (1 + δ1) * (1 + δ2) := le_trans (by norm_num) b12.1
    rw [e3, abs_of_nonneg (mul_nonneg hy00.le h1)]
    have h2 : (101 : ℚ) / 10 ^ 10 * (1 - 201 / 100 / 2 ^ 53) ≤ y0 * ((1 + δ1) * (1 + δ2)) := mul_le_mul hlo b12.1 (by norm_num) hy00.le
    refine le_trans ?_ h2
    norm_num)
  have d3' := abs_le.1 d3
  set π := (1 + δ1) * (1 + δ2) with hπ
  have b123 : |π * (1 + δ3) - 1| ≤ 4 / 2 ^ 53 := by
    have h1 : |π * δ3| ≤ 2 * (1 / 2 ^ 53) := by
      rw [abs_mul]
      apply mul_le_mul _ d3 (abs_nonneg _) (by norm_num)
      rw [abs_le]
      constructor
      · refine le_trans ?_ b12.1
        norm_num
      · refine b12.2.trans ?_
        norm_num
    have h2 : |(π - 1) * δ3| ≤ 201 / 100 / 2 ^ 53 * (1 / 2 ^ 53) := by
      rw [abs_mul]
      apply mul_le_mul _ d3 (abs_nonneg _) (by norm_num)
      rw [abs_le]
      constructor <;> linarith [b12.1, b12.2]
    have h2' := abs_le.1 h2
    rw [show π * (1 + δ3) - 1 = (π - 1) + δ3 + (π - 1) * δ3 by ring, abs_le]
    have u1 := b12.1
    have u2 := b12.2
    constructor
    · have := h2'.1
      norm_num at this d3' u1 ⊢
      linarith [d3'.1]
    · have := h2'.2
      norm_num at this d3' u2 ⊢
      linarith [d3'.2]
  have e5 : f64 (f64 (f64 (w * w) * h) / g) = y0 * (π * (1 + δ3)) := by
    rw [e4, e3]
    ring
  have b3' := abs_le.1 b123
  have hno : ¬ f64 (f64 (f64 (w * w) * h) / g) < f64 (1 / 10 ^ 8) := by
    rw [e5, not_lt]
    have h8 := f64_error (x := 1 / 10 ^ 8) (by rw [abs_of_pos (by positivity)]; norm_num)
    rw [abs_of_pos (by positivity : (0 : ℚ) < 1 / 10 ^ 8)] at h8
    have h8' := (abs_le.1 h8).2
    have h2 : (101 : ℚ) / 10 ^ 10 * (1 - 4 / 2 ^ 53) ≤ y0 * (π * (1 + δ3)) := by
      apply mul_le_mul hlo _ (by norm_num) hy00.le
      linarith [b3'.1]
    norm_num at h8' h2 ⊢
    linarith
  unfold dispW2F64
  dsimp only
  rw [if_neg hno, e5, show y0 * (π * (1 + δ3)) - y0 = (π * (1 + δ3) - 1) * y0 by ring, abs_mul, abs_of_pos hy00]
  exact mul_le_mul_of_nonneg_right b123 hy00.le

/-- The element computed from any `y0` between `0.95e-8` and 65536 to which the clamped `w^2 h / g` is close. -/
theorem disperElem_of_close (E : NpElem) (Q : NpSqrt) {w h g y0 : ℚ} (hw0 : w ≠ 0) (hh : 1 / 2 ^ 60 ≤ h) (hh1 : h ≤ 2 ^ 60)
    (hc : |dispW2F64 w h g - y0| ≤ 4 / 2 ^ 53 * y0) (hlo : 95 / 10 ^ 10 ≤ y0) (hhi : y0 ≤ 2 ^ 16) {k : ℝ} (hk : 0 < k)
    (hs : k * h * Real.tanh (k * h) = y0) : |(disperElemF64 E Q w h g : ℝ) - SignType.sign w * k| ≤ 1 / 10 ^ 12 * k := by
  have hc' := abs_le.1 hc
  set y := dispW2F64 w h g with hy
  have hh0 : 0 < h := lt_of_lt_of_le (by positivity) hh
  have y1 : (9 : ℚ) / 10 ^ 9 ≤ y := by
    have := hc'.1
    norm_num at this hlo ⊢
    linarith
  have y2 : y ≤ 2 ^ 17 := by
    have := hc'.2
    norm_num at this hhi ⊢
    linarith
  obtain ⟨x, ex, hx, hr⟩ := disp_two_rounds_double E Q y1 y2
  have hcR : |(y : ℝ) - y0| ≤ 4 / 2 ^ 53 * y0 := by
    have := (Rat.cast_le (K := ℝ)).2 hc
    push_cast at this
    exact this
  have hloR : (95 : ℝ) / 10 ^ 10 ≤ (y0 : ℝ) := by
    have := (Rat.cast_le (K := ℝ)).2 hlo
    push_cast at this
    exact this
  have hhR : (0 : ℝ) < h := by exact_mod_cast hh0
  have hy0p : (0 : ℝ) < y0 := lt_of_lt_of_le (by norm_num) hloR
  have hres : |(x : ℝ) * Real.tanh x - y0| ≤ 62 / 10 ^ 14 * y0 := by
    refine (abs_sub_le _ (y : ℝ) _).trans ?_
    have := (abs_le.1 hcR).2
    norm_num at hr hcR this ⊢
    linarith
  have h1 := relative_error (p := k * h) (by positivity) hx hy0p hs hres
  -- the result
  have hxlow : (9 : ℝ) / 10 ^ 9 ≤ x := by
    have h2 : (x : ℝ) * Real.tanh x ≤ x * 1 := mul_le_mul_of_nonneg_left (tanh_lt_one' _).le hx.le
    have h3 := (abs_le.1 hres).1
    norm_num at h3 hloR ⊢
    linarith
  have hh1R : (h : ℝ) ≤ 2 ^ 60 := by exact_mod_cast hh1
  have hxh : (1 : ℝ) / 2 ^ 90 ≤ x / h := by
    rw [le_div_iff₀ hhR]
    norm_num at hxlow hh1R ⊢
    linarith
  have hkx : |(x : ℝ) / h - k| ≤ 62 / 10 ^ 14 * k := by
    rw [show (x : ℝ) / h - k = (x - k * h) / h by field_simp, abs_div, abs_of_pos hhR, div_le_iff₀ hhR]
    linarith
  have fin : ∀ s : ℚ, |(s : ℝ)| = 1 → |((f64 (f64 (s * x) / h) : ℚ) : ℝ) - s * k| ≤ 1 / 10 ^ 12 * k := by
    intro s hs1
    have r1 := f64_rd (s * x)
    have r2 := f64_rd (f64 (s * x) / h)
    push_cast at r1 r2
    have a1 : |((f64 (s * x) : ℚ) : ℝ) / h - s * (x / h)| ≤ 101 / 100 / 2 ^ 53 * (x / h) := by
      unfold Rd at r1
      rw [abs_mul, hs1, one_mul, abs_of_pos hx] at r1
      rw [show ((f64 (s * x) : ℚ) : ℝ) / h - s * (x / h) = (((f64 (s * x) : ℚ) : ℝ) - s * x) / h by ring, abs_div, abs_of_pos hhR, div_le_iff₀ hhR,
        mul_assoc, div_mul_cancel₀ _ hhR.ne']
      refine r1.trans ?_
      have : (1 : ℝ) / 2 ^ 200 ≤ 1 / 2 ^ 150 * (9 / 10 ^ 9) := by norm_num
      norm_num at this hxlow ⊢
      linarith
    have a2 : |(s : ℝ) * (x / h) - s * k| ≤ 62 / 10 ^ 14 * k := by
      rw [← mul_sub, abs_mul, hs1, one_mul]
      exact hkx
    have hxk : (x : ℝ) / h ≤ 2 * k := by
      have := (abs_le.1 hkx).2
      norm_num at this ⊢
      linarith
    have a3 : |((f64 (s * x) : ℚ) : ℝ) / h - s * k| ≤ 65 / 10 ^ 14 * k := by
      refine (abs_sub_le _ ((s : ℝ) * (x / h)) _).trans ?_
      norm_num at a1 a2 ⊢
      linarith
    have a4 := r2.err a3
    have a5 : |(s : ℝ) * k| = k := by rw [abs_mul, hs1, one_mul, abs_of_pos hk]
    rw [a5] at a4
    refine a4.trans ?_
    have : (1 : ℝ) / 2 ^ 200 ≤ 1 / 2 ^ 100 * (1 / 2 ^ 90) := by norm_num
    norm_num at this hxh ⊢
    linarith
  unfold disperElemF64
  dsimp only
  rw [← hy, ex]
  dsimp only
  rcases lt_or_gt_of_ne hw0 with h2 | h2
  · rw [if_neg (not_lt.2 h2.le), if_pos h2, sign_neg h2]
    have := fin (-1) (by norm_num)
    push_cast at this ⊢
    exact this
  · rw [if_pos h2, sign_pos h2]
    have := fin 1 (by norm_num)
    push_cast at this ⊢
    exact this

/-- **C175 (one frequency).** -/
theorem disperElem_double (E : NpElem) (Q : NpSqrt) {w h g : ℚ} (hw : 1 / 2 ^ 60 ≤ |w|) (hh : 1 / 2 ^ 60 ≤ h) (hh1 : h ≤ 2 ^ 60) (hg : 0 < g)
    (hlo : 101 / 10 ^ 10 ≤ w ^ 2 * h / g) (hhi : w ^ 2 * h / g ≤ 2 ^ 16) {k : ℝ} (hk : 0 < k) (hs : SolvesDispersion w h g k) :
    |(disperElemF64 E Q w h g : ℝ) - SignType.sign w * k| ≤ 1 / 10 ^ 12 * k := by
  have hw0 : w ≠ 0 := by
    intro h0
    rw [h0, abs_zero] at hw
    norm_num at hw
  refine disperElem_of_close E Q hw0 hh hh1 (dispW2F64_close hw hh hg hlo) (le_trans (by norm_num) hlo) hhi hk ?_
  unfold SolvesDispersion at hs
  have hgR : (0 : ℝ) < g := by exact_mod_cast hg
  push_cast
  rw [hs]
  field_simp

/-- The computed `w^2 h / g`, clamped at `1e-8`. -/
theorem dispW2F64_clamped {w h g : ℚ} (hh : 0 ≤ h) (hh1 : h ≤ 2 ^ 50) (hg : 1 / 2 ^ 50 ≤ g) :
    |dispW2F64 w h g - max (w ^ 2 * h / g) (1 / 10 ^ 8)| ≤ 4 / 2 ^ 53 * max (w ^ 2 * h / g) (1 / 10 ^ 8) := by
  have hg0 : 0 < g := lt_of_lt_of_le (by positivity) hg
  have hgR : (0 : ℝ) < g := by exact_mod_cast hg0
  have hgR' : (1 : ℝ) / 2 ^ 50 ≤ g := by
    have := (Rat.cast_le (K := ℝ)).2 hg
    push_cast at this
    exact this
  have hhR : (0 : ℝ) ≤ h := by exact_mod_cast hh
  have hhR' : (h : ℝ) ≤ 2 ^ 50 := by exact_mod_cast hh1
  have r1 := f64_rd (w * w)
  have r2 := f64_rd (f64 (w * w) * h)
  have r3 := f64_rd (f64 (f64 (w * w) * h) / g)
  have r4 := f64_rd (1 / 10 ^ 8)
  have key : |((f64 (f64 (f64 (w * w) * h) / g) : ℚ) : ℝ) - (w : ℝ) ^ 2 * h / g| ≤ 7 / 2 / 2 ^ 53 * ((w : ℝ) ^ 2 * h / g) + 1 / 2 ^ 90 := by
    push_cast at r1 r2 r3
    unfold Rd at r1
    have p0 : (0 : ℝ) ≤ w * w := mul_self_nonneg _
    rw [abs_of_nonneg p0] at r1
    generalize ((f64 (w * w) : ℚ) : ℝ) = A at *
    have e1 : |A * h - w * w * h| ≤ w * w * h / 2 ^ 53 + 1 / 2 ^ 149 := by
      rw [← sub_mul, abs_mul, abs_of_nonneg hhR]
      have h1 := mul_le_mul_of_nonneg_right r1 hhR
      refine h1.trans ?_
      have h2 : (1 : ℝ) / 2 ^ 200 * h ≤ 1 / 2 ^ 149 := by norm_num at hhR' ⊢; linarith
      have e : ((w : ℝ) * w / 2 ^ 53 + 1 / 2 ^ 200) * h = w * w * h / 2 ^ 53 + 1 / 2 ^ 200 * h := by ring
      rw [e]
      linarith
    have e2 := r2.err e1
    have p1 : (0 : ℝ) ≤ w * w * h := mul_nonneg p0 hhR
    rw [abs_of_nonneg p1] at e2
    have e2' : |((f64 (f64 (w * w) * h) : ℚ) : ℝ) - w * w * h| ≤ 21 / 10 / 2 ^ 53 * (w * w * h) + 1 / 2 ^ 147 := by
      refine e2.trans ?_
      generalize (w : ℝ) * w * h = B at *
      norm_num at p1 ⊢
      linarith
    generalize ((f64 (f64 (w * w) * h) : ℚ) : ℝ) = C at *
    have e3 : |C / g - w * w * h / g| ≤ 21 / 10 / 2 ^ 53 * (w * w * h / g) + 1 / 2 ^ 97 := by
      rw [← sub_div, abs_div, abs_of_pos hgR, div_le_iff₀ hgR]
      refine e2'.trans ?_
      have h2 : (1 : ℝ) / 2 ^ 147 ≤ 1 / 2 ^ 97 * g := by
        refine le_trans ?_ (mul_le_mul_of_nonneg_left hgR' (by positivity))
        norm_num
      rw [show (21 / 10 / 2 ^ 53 * (w * w * h / g) + 1 / 2 ^ 97 : ℝ) * g = 21 / 10 / 2 ^ 53 * (w * w * h) + 1 / 2 ^ 97 * g by field_simp]
      linarith
    have e4 := r3.err e3
    have p2 : (0 : ℝ) ≤ w * w * h / g := div_nonneg p1 hgR.le
    rw [abs_of_nonneg p2] at e4
    rw [pow_two]
    refine e4.trans ?_
    generalize (w : ℝ) * w * h / g = B at *
    norm_num at p2 ⊢
    linarith
  have hcl : dispW2F64 w h g = max (f64 (f64 (f64 (w * w) * h) / g)) (f64 (1 / 10 ^ 8)) := by
    unfold dispW2F64
    dsimp only
    split_ifs with h1
    · rw [max_eq_right h1.le]
    · rw [max_eq_left (not_lt.1 h1)]
  rw [hcl]
  have hm := abs_max_sub_max_le_max (f64 (f64 (f64 (w * w) * h) / g)) (f64 (1 / 10 ^ 8)) (w ^ 2 * h / g) (1 / 10 ^ 8)
  refine hm.trans (max_le ?_ ?_)
  · have key' : |f64 (f64 (f64 (w * w) * h) / g) - w ^ 2 * h / g| ≤ 7 / 2 / 2 ^ 53 * (w ^ 2 * h / g) + 1 / 2 ^ 90 := by
      have : ((|f64 (f64 (f64 (w * w) * h) / g) - w ^ 2 * h / g| : ℚ) : ℝ) ≤ ((7 / 2 / 2 ^ 53 * (w ^ 2 * h / g) + 1 / 2 ^ 90 : ℚ) : ℝ) := by
        push_cast
        exact key
      exact_mod_cast this
    refine key'.trans ?_
    have h1 := le_max_left (w ^ 2 * h / g) (1 / 10 ^ 8)
    have h2 := le_max_right (w ^ 2 * h / g) (1 / 10 ^ 8)
    generalize max (w ^ 2 * h / g) (1 / 10 ^ 8) = m at *
    generalize w ^ 2 * h / g = v at *
    norm_num at h2 ⊢
    linarith
  · have h0 : |f64 (1 / 10 ^ 8) - 1 / 10 ^ 8| ≤ 1 / 10 ^ 8 / 2 ^ 53 + 1 / 2 ^ 200 := by
      have h1 : |((f64 (1 / 10 ^ 8) : ℚ) : ℝ) - ((1 / 10 ^ 8 : ℚ) : ℝ)| ≤ |((1 / 10 ^ 8 : ℚ) : ℝ)| / 2 ^ 53 + 1 / 2 ^ 200 := r4
      have h2 : ((|f64 (1 / 10 ^ 8) - 1 / 10 ^ 8| : ℚ) : ℝ) ≤ ((|1 / 10 ^ 8| / 2 ^ 53 + 1 / 2 ^ 200 : ℚ) : ℝ) := by
        push_cast at h1 ⊢
        exact h1
      have h3 : |f64 (1 / 10 ^ 8) - 1 / 10 ^ 8| ≤ |(1 : ℚ) / 10 ^ 8| / 2 ^ 53 + 1 / 2 ^ 200 := by exact_mod_cast h2
      rwa [abs_of_pos (by positivity : (0 : ℚ) < 1 / 10 ^ 8)] at h3
    refine h0.trans ?_
    have h2 := le_max_right (w ^ 2 * h / g) (1 / 10 ^ 8)
    generalize max (w ^ 2 * h / g) (1 / 10 ^ 8) = m at *
    norm_num at h2 ⊢
    linarith

/-- **C175 (all frequencies).**  For every frequency up to 65536, also below the clamp, the value computed in double precision is `sign w` times the
solution of `k h tanh (k h) = max (w^2 h / g) 1e-8`, with a relative error of at most `1e-12`. -/
theorem disperElem_double_all (E : NpElem) (Q : NpSqrt) {w h g : ℚ} (hw0 : w ≠ 0) (hh : 1 / 2 ^ 60 ≤ h) (hh1 : h ≤ 2 ^ 50) (hg : 1 / 2 ^ 50 ≤ g)
    (hhi : w ^ 2 * h / g ≤ 2 ^ 16) {k : ℝ} (hk : 0 < k) (hs : k * h * Real.tanh (k * h) = max ((w : ℝ) ^ 2 * h / g) (1 / 10 ^ 8)) :
    |(disperElemF64 E Q w h g : ℝ) - SignType.sign w * k| ≤ 1 / 10 ^ 12 * k := by
  refine disperElem_of_close E Q hw0 hh (hh1.trans (by norm_num)) (dispW2F64_clamped (le_trans (by positivity) hh) hh1 hg)
    (le_trans (by norm_num) (le_max_right _ _)) (max_le hhi (by norm_num)) hk ?_
  rw [hs, Rat.cast_max]
  push_cast
  rfl

/-- **C175 (below the clamp).**  All frequencies of one sign with `w^2 h / g ≤ 1e-8` get the same wave number, up to `2e-12` of it. -/
theorem disper_double_constant (E : NpElem) (Q : NpSqrt) {w w' h g : ℚ} (hw : 0 < w) (hw' : 0 < w') (hh : 1 / 2 ^ 60 ≤ h) (hh1 : h ≤ 2 ^ 50)
    (hg : 1 / 2 ^ 50 ≤ g) (hlo : w ^ 2 * h / g ≤ 1 / 10 ^ 8) (hlo' : w' ^ 2 * h / g ≤ 1 / 10 ^ 8) {k : ℝ} (hk : 0 < k)
    (hs : k * h * Real.tanh (k * h) = 1 / 10 ^ 8) :
    |(disperElemF64 E Q w h g : ℝ) - k| ≤ 1 / 10 ^ 12 * k ∧ |(disperElemF64 E Q w' h g : ℝ) - k| ≤ 1 / 10 ^ 12 * k := by
  have key : ∀ v : ℚ, 0 < v → v ^ 2 * h / g ≤ 1 / 10 ^ 8 → |(disperElemF64 E Q v h g : ℝ) - k| ≤ 1 / 10 ^ 12 * k := by
    intro v hv hl
    have hl' : (v : ℝ) ^ 2 * h / g ≤ 1 / 10 ^ 8 := by
      have := (Rat.cast_le (K := ℝ)).2 hl
      push_cast at this
      exact this
    have := disperElem_double_all E Q hv.ne' hh hh1 hg (hl.trans (by norm_num)) hk (by rw [hs, max_eq_right hl'])
    rw [sign_pos hv] at this
    simpa using this
  exact ⟨key w hw hlo, key w' hw' hlo'⟩

/-- **C175.**  In double precision, with library functions `exp`, `tanh` and `**` that are accurate to four units in the last place and a correctly rounded
square root, the wave numbers of a list of frequencies solve the dispersion relation `w^2 = g k tanh (k h)` with a relative error of at most `1e-12`, and
have the sign of the frequency, for all `w`, `h` and `g` with `1.01e-8 ≤ w^2 h / g ≤ 65536`.  No square root of a negative number is taken and no value
is lost. -/
theorem wave_numbers_double (E : NpElem) (Q : NpSqrt) (ws : List ℚ) {h g : ℚ} (hh : 1 / 2 ^ 60 ≤ h) (hh1 : h ≤ 2 ^ 60) (hg : 0 < g) :
    (disperF64 E Q ws h g).length = ws.length ∧
    ∀ i (hi : i < ws.length), 1 / 2 ^ 60 ≤ |ws[i]| → 101 / 10 ^ 10 ≤ ws[i] ^ 2 * h / g → ws[i] ^ 2 * h / g ≤ 2 ^ 16 →
      ∀ k : ℝ, 0 < k → SolvesDispersion ws[i] h g k → |((disperF64 E Q ws h g).getD i 0 : ℝ) - SignType.sign ws[i] * k| ≤ 1 / 10 ^ 12 * k := by
  refine ⟨by simp [disperF64], ?_⟩
  intro i hi h1 h2 h3 k hk hs
  have e : (disperF64 E Q ws h g).getD i 0 = disperElemF64 E Q ws[i] h g := by
    rw [List.getD_eq_getElem _ _ (by simpa [disperF64] using hi)]
    simp [disperF64]
  rw [e]
  exact disperElem_double E Q h1 hh hh1 hg h2 h3 hk hs

/-- **C175 (still water).**  The frequency zero gives exactly zero. -/
theorem wave_number_double_zero (E : NpElem) (Q : NpSqrt) (h g : ℚ) : disperElemF64 E Q 0 h g = 0 := by
  have e0 : f64 0 = 0 := f64_of_double ⟨0, 0, by norm_num, by norm_num, by norm_num⟩
  unfold disperElemF64
  dsimp only
  split
  · rw [if_neg (lt_irrefl _), if_neg (lt_irrefl _), zero_mul, e0, zero_div, e0]
  · rfl

/-! ## Concrete cases: the hypotheses of the theorems above are met -/

theorem exists_close {v : ℝ} (hv : 0 ≤ v) : ∃ r : ℚ, |(r : ℝ) - v| ≤ v / 2 ^ 50 := by
  rcases hv.eq_or_lt with h | h
  · exact ⟨0, by rw [← h]; simp⟩
  · obtain ⟨r, h1, h2⟩ := exists_rat_btwn (show v < v + v / 2 ^ 50 by linarith [show 0 < v / 2 ^ 50 by positivity])
    refine ⟨r, ?_⟩
    rw [abs_of_nonneg (by linarith)]
    linarith

/-- Functions that meet the specification of the library functions exist. -/
theorem npElem_exists : Nonempty NpElem := by
  have h : ∀ v : ℝ, ∃ r : ℚ, 0 ≤ v → |(r : ℝ) - v| ≤ v / 2 ^ 50 := by
    intro v
    by_cases hv : 0 ≤ v
    · obtain ⟨r, hr⟩ := exists_close hv
      exact ⟨r, fun _ => hr⟩
    · exact ⟨0, fun h0 => absurd h0 hv⟩
  choose f hf using h
  refine ⟨⟨fun x => f (Real.exp x), fun x => f (Real.tanh x), fun x p => f ((x : ℝ) ^ (p : ℝ)), ?_, ?_, ?_⟩⟩
  · intro x _
    have := hf _ (Real.exp_pos (x : ℝ)).le
    have h0 : (0 : ℝ) ≤ 1 / 2 ^ 200 := by positivity
    linarith
  · intro x hx
    have hx' : (0 : ℝ) < x := by exact_mod_cast lt_of_lt_of_le (by positivity) hx
    exact hf _ (tanh_pos' hx').le
  · intro x p hx _ _ _
    have hx' : (0 : ℝ) < x := by exact_mod_cast lt_of_lt_of_le (by positivity) hx
    exact hf _ (Real.rpow_pos_of_pos hx' _).le

/-- A frequency of -1 rad/s in a depth of 10 m: the result is within `1e-12` of minus the wave number, and there is one. -/
example (E : NpElem) (Q : NpSqrt) : ∃ k : ℝ, 0 < k ∧ SolvesDispersion (-1 : ℚ) (10 : ℚ) (981 / 100 : ℚ) k ∧
    |((disperF64 E Q [0, -1] 10 (981 / 100)).getD 1 0 : ℝ) - (-1) * k| ≤ 1 / 10 ^ 12 * k := by
  obtain ⟨k, ⟨hk, hs⟩, -⟩ := wave_number_unique (w := ((-1 : ℚ) : ℝ)) (h := ((10 : ℚ) : ℝ)) (g := ((981 / 100 : ℚ) : ℝ)) (by norm_num) (by norm_num) (by norm_num)
  refine ⟨k, hk, hs, ?_⟩
  have := (wave_numbers_double E Q [0, -1] (h := 10) (g := 981 / 100) (by norm_num) (by norm_num) (by norm_num)).2 1 (by simp) (by norm_num) (by norm_num)
    (by norm_num) k hk hs
  have e : ((SignType.sign ([(0 : ℚ), -1][1]) : SignType) : ℝ) = -1 := by
    rw [show [(0 : ℚ), -1][1] = -1 from rfl, sign_neg (by norm_num)]
    simp
  rw [e] at this
  exact this

/-- A start in shallow water. -/
example (E : NpElem) : (0 : ℝ) < (dispStartF64 E (1 / 100) : ℚ) := (dispStartF64_residual E (by norm_num) (by norm_num)).1

/-- The first two rounds in deep water. -/
example (E : NpElem) (Q : NpSqrt) : ∃ x : ℚ, (dispRoundF64 E Q 1000 (dispStartF64 E 1000)).bind (dispRoundF64 E Q 1000) = some x ∧ (0 : ℝ) < x ∧
    |(x : ℝ) * Real.tanh x - (1000 : ℚ)| ≤ 60 / 10 ^ 14 * (1000 : ℚ) := disp_two_rounds_double E Q (by norm_num) (by norm_num)

/-- Two very long waves in one metre of water, below the clamp: the same wave number. -/
example (E : NpElem) (Q : NpSqrt) : ∃ k : ℝ, 0 < k ∧ |(disperElemF64 E Q (1 / 20000) 1 (981 / 100) : ℝ) - k| ≤ 1 / 10 ^ 12 * k ∧
    |(disperElemF64 E Q (1 / 40000) 1 (981 / 100) : ℝ) - k| ≤ 1 / 10 ^ 12 * k := by
  obtain ⟨k, ⟨hk, hs⟩, -⟩ := wave_number_unique (w := 1 / 10 ^ 4) (h := 1) (g := 1) (by norm_num) (by norm_num) (by norm_num)
  unfold SolvesDispersion at hs
  rw [one_mul, mul_one] at hs
  have := disper_double_constant E Q (w := 1 / 20000) (w' := 1 / 40000) (h := 1) (g := 981 / 100) (by norm_num) (by norm_num) (by norm_num) (by norm_num)
    (by norm_num) (by norm_num) (by norm_num) hk (by rw [Rat.cast_one, mul_one, ← hs]; norm_num)
  exact ⟨k, hk, this⟩

end Verif
