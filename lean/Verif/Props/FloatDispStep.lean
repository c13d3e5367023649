import Verif.Props.FloatDispCoef

/-! # C175: the wave number in double precision: the increment of a round -/

set_option linter.unusedSectionVars false

namespace Verif

variable {a b A B C : ℝ}

/-- The threshold of the linear branch. -/
theorem Quad.threshold (h : Quad a b A B C) {X K BB N : ℝ} (hX : Rd (A * C) X) (hK : Rd (1 / 10 ^ 8) K) (hBB : Rd (B * B) BB) (hN : Rd (K * BB) N) :
    (|X| < N → |A| * |C| ≤ 101 / 100 / 10 ^ 8 * b ^ 2) ∧ (N ≤ |X| → 99 / 100 / 10 ^ 8 * b ^ 2 ≤ |A| * |C|) := by
  obtain ⟨h1, h2, -⟩ := h.BB_bounds hBB
  have hb2 := h.hb2
  have hη : (1 : ℝ) / 2 ^ 200 ≤ 1 / 2 ^ 150 * b ^ 2 := by
    have : (1 : ℝ) / 2 ^ 200 ≤ 1 / 2 ^ 150 * (8 / 10 ^ 9) := by norm_num
    nlinarith
  have hK' : 9999 / 10000 / 10 ^ 8 ≤ K ∧ K ≤ 10001 / 10000 / 10 ^ 8 := by
    unfold Rd at hK
    rw [abs_of_pos (by norm_num : (0 : ℝ) < 1 / 10 ^ 8)] at hK
    have := abs_le.1 hK
    constructor
    · have := this.1
      norm_num at this ⊢
      linarith
    · have := this.2
      norm_num at this ⊢
      linarith
  have hB0 : 0 ≤ BB := le_trans (by positivity) h1
  have hKB1 : K * BB ≤ 10001 / 10000 / 10 ^ 8 * (100001 / 100000 * b ^ 2) := mul_le_mul hK'.2 h2 hB0 (by norm_num)
  have hKB2 : 9999 / 10000 / 10 ^ 8 * (99999 / 100000 * b ^ 2) ≤ K * BB :=
    mul_le_mul hK'.1 h1 (by positivity) (le_trans (by norm_num) hK'.1)
  have hKB0 : 0 ≤ K * BB := le_trans (by positivity) hKB2
  unfold Rd at hN
  rw [abs_of_nonneg hKB0] at hN
  have hN' := abs_le.1 hN
  have x1 := hX.abs_le
  have x2 := hX.le_abs
  rw [abs_mul] at x1 x2
  constructor
  · intro hlt
    have := hN'.2
    norm_num at this hKB1 x2 hη ⊢
    linarith
  · intro hle
    have := hN'.1
    norm_num at this hKB2 x1 hη ⊢
    linarith

/-- The linear branch. -/
theorem Quad.linear (h : Quad a b A B C) {S : ℝ} (hl : |A| * |C| ≤ 101 / 100 / 10 ^ 8 * b ^ 2) (hS : Rd (-C / B) S) : GoodStep a b C S := by
  obtain ⟨h1, h2⟩ := h.B_bounds
  have hb := h.hb
  have hb1 := h.hb1
  have hB0 : 0 < B := lt_of_lt_of_le (mul_pos (by norm_num) hb) h1
  have hC0 := abs_nonneg C
  have hC := h.hC
  -- the exact quotient
  have e1 : |-C / B| * b ≤ 1001 / 1000 * |C| := by
    rw [abs_div, abs_neg, abs_of_pos hB0, div_mul_eq_mul_div, div_le_iff₀ hB0]
    have : b ≤ 1001 / 1000 * B := by
      norm_num at h1 ⊢
      linarith
    nlinarith
  have e2 : |b * (-C / B) + C| ≤ 376 / 100 / 10 ^ 9 * |C| := by
    rw [show b * (-C / B) + C = C * (B - b) / B by field_simp; ring, abs_div, abs_mul, abs_of_pos hB0, div_le_iff₀ hB0, mul_comm (376 / 100 / 10 ^ 9 : ℝ),
      mul_assoc]
    apply mul_le_mul_of_nonneg_left _ hC0
    have := h.hB
    norm_num at h1 this ⊢
    linarith
  have d : |S - -C / B| ≤ |-C / B| / 2 ^ 53 + 1 / 2 ^ 200 := hS
  have d1 : |S - -C / B| * b ≤ 1001 / 1000 * |C| / 2 ^ 53 + 2 / 2 ^ 200 := by
    have := mul_le_mul_of_nonneg_right d hb.le
    have h3 : (1 : ℝ) / 2 ^ 200 * b ≤ 1 / 2 ^ 200 * 2 := by gcongr
    have h4 : |-C / B| / 2 ^ 53 * b = |-C / B| * b / 2 ^ 53 := by ring
    have h5 : |-C / B| * b / 2 ^ 53 ≤ 1001 / 1000 * |C| / 2 ^ 53 := by gcongr
    linarith
  have s1 : |S| * b ≤ 1002 / 1000 * |C| + 2 / 2 ^ 200 := by
    have h3 : |S| ≤ |S - -C / B| + |-C / B| := by
      have := abs_sub_abs_le_abs_sub S (-C / B)
      linarith
    have h4 := mul_le_mul_of_nonneg_right h3 hb.le
    norm_num at d1 h4 e1 ⊢
    linarith
  refine ⟨s1.trans ?_, ?_⟩
  · norm_num
    linarith
  · have t1 : |b * S + C| ≤ 377 / 100 / 10 ^ 9 * |C| + 2 / 2 ^ 200 := by
      rw [show b * S + C = (S - -C / B) * b + (b * (-C / B) + C) by ring]
      refine (abs_add_le _ _).trans ?_
      rw [abs_mul, abs_of_pos hb]
      norm_num at d1 e2 ⊢
      linarith
    have haC : |a| * |C| ≤ 104 / 100 / 10 ^ 8 * b ^ 2 := by
      have h3 : |a| ≤ |A| + 1 / 2 ^ 28 := by
        have := abs_sub_abs_le_abs_sub a A
        rw [abs_sub_comm] at this
        linarith [h.hA]
      have h4 := mul_le_mul_of_nonneg_right h3 hC0
      norm_num at h4 hl hC ⊢
      linarith
    have ha := h.ha
    have hb2 := h.hb2
    have t2 : |a| * S ^ 2 ≤ 106 / 100 / 10 ^ 8 * |C| + 1 / 2 ^ 190 := by
      have hs0 : 0 ≤ |S| * b := mul_nonneg (abs_nonneg _) hb.le
      have h3 : (|S| * b) ^ 2 ≤ (1002 / 1000 * |C| + 2 / 2 ^ 200) ^ 2 := pow_le_pow_left₀ hs0 s1 2
      have h4 : |a| * (|S| * b) ^ 2 ≤ |a| * (1002 / 1000 * |C| + 2 / 2 ^ 200) ^ 2 := mul_le_mul_of_nonneg_left h3 (abs_nonneg a)
      have h5 : |a| * (|S| * b) ^ 2 = |a| * S ^ 2 * b ^ 2 := by rw [mul_pow, sq_abs]; ring
      have h6 : |a| * |C| * |C| ≤ 104 / 100 / 10 ^ 8 * b ^ 2 * |C| := mul_le_mul_of_nonneg_right haC hC0
      have h7 : |a| * (1002 / 1000 * |C| + 2 / 2 ^ 200) ^ 2
          = (1002 / 1000) ^ 2 * (|a| * |C| * |C|) + 4 * (1002 / 1000) / 2 ^ 200 * (|a| * |C|) + 4 / 2 ^ 200 / 2 ^ 200 * |a| := by ring
      have h8 : |a| * S ^ 2 * b ^ 2 ≤ (106 / 100 / 10 ^ 8 * |C| + 1 / 2 ^ 190) * b ^ 2 := by
        rw [← h5]
        refine h4.trans ?_
        rw [h7, show (106 / 100 / 10 ^ 8 * |C| + 1 / 2 ^ 190) * b ^ 2 = 106 / 104 * (104 / 100 / 10 ^ 8 * b ^ 2 * |C|) + 1 / 2 ^ 190 * b ^ 2 by ring]
        have h9 : 4 * (1002 / 1000) / 2 ^ 200 * (|a| * |C|) ≤ 4 * (1002 / 1000) / 2 ^ 200 * (104 / 100 / 10 ^ 8 * b ^ 2) := by gcongr
        have h10 : 4 / 2 ^ 200 / 2 ^ 200 * |a| ≤ 1 / 2 ^ 195 * b ^ 2 := by
          have h11 : 4 / 2 ^ 200 / 2 ^ 200 * |a| ≤ 4 / 2 ^ 200 / 2 ^ 200 * 2 ^ 18 := by gcongr
          have h12 : (4 : ℝ) / 2 ^ 200 / 2 ^ 200 * 2 ^ 18 ≤ 1 / 2 ^ 195 * (8 / 10 ^ 9) := by norm_num
          have h13 : (1 : ℝ) / 2 ^ 195 * (8 / 10 ^ 9) ≤ 1 / 2 ^ 195 * b ^ 2 := by gcongr
          linarith
        have h14 : 0 ≤ 104 / 100 / 10 ^ 8 * b ^ 2 * |C| := by positivity
        have h15 : 4 * (1002 / 1000) / 2 ^ 200 * (104 / 100 / 10 ^ 8 * b ^ 2) + 1 / 2 ^ 195 * b ^ 2 ≤ 1 / 2 ^ 190 * b ^ 2 := by
          rw [← mul_assoc, ← add_mul]
          gcongr
          norm_num
        have h16 : (1002 / 1000) ^ 2 * (|a| * |C| * |C|) ≤ 106 / 104 * (104 / 100 / 10 ^ 8 * b ^ 2 * |C|) :=
          mul_le_mul (by norm_num) h6 (by positivity) (by norm_num)
        linarith
      exact le_of_mul_le_mul_right h8 (by positivity)
    rw [show a * S ^ 2 + b * S + C = a * S ^ 2 + (b * S + C) by ring]
    refine (abs_add_le _ _).trans ?_
    rw [abs_mul, abs_of_nonneg (sq_nonneg S)]
    norm_num at t1 t2 ⊢
    linarith

theorem Quad.AC_le (h : Quad a b A B C) : |A| * |C| ≤ 1 / 74 * b ^ 2 := by
  have h3 : |A| ≤ |a| + 1 / 2 ^ 28 := by
    have := abs_sub_abs_le_abs_sub A a
    linarith [h.hA]
  have h4 := mul_le_mul_of_nonneg_right h3 (abs_nonneg C)
  have h5 := h.hac
  have h6 := h.hC
  have h7 := h.hb2
  norm_num at h4 h5 h6 ⊢
  linarith

theorem Quad.A_ge (h : Quad a b A B C) (hl : 99 / 100 / 10 ^ 8 * b ^ 2 ≤ |A| * |C|) : 1 / 10 ^ 7 ≤ |A| := by
  have h1 : |A| * |C| ≤ |A| * (6 / 100 * b ^ 2) := mul_le_mul_of_nonneg_left h.hC (abs_nonneg A)
  have hb := h.hb
  have h2 : 1 / 10 ^ 7 * b ^ 2 ≤ |A| * b ^ 2 := by
    have : 0 ≤ b ^ 2 := by positivity
    norm_num at hl h1 ⊢
    linarith
  exact le_of_mul_le_mul_right h2 (by positivity)

/-- The computed discriminant. -/
theorem Quad.disc (h : Quad a b A B C) (hl : 99 / 100 / 10 ^ 8 * b ^ 2 ≤ |A| * |C|) {BB F4 P4 D : ℝ} (hBB : Rd (B * B) BB) (hF4 : Rd (4 * A) F4)
    (hP4 : Rd (F4 * C) P4) (hD : Rd (BB - P4) D) :
    |D - (B ^ 2 - 4 * A * C)| ≤ 22 / 10 / 2 ^ 53 * b ^ 2 ∧ 945 / 1000 * b ^ 2 ≤ B ^ 2 - 4 * A * C ∧ B ^ 2 - 4 * A * C ≤ 106 / 100 * b ^ 2 := by
  obtain ⟨hB1, hB2⟩ := h.B_bounds
  obtain ⟨h1, h2, h3⟩ := h.BB_bounds hBB
  have hAC := h.AC_le
  have hA := h.A_ge hl
  have hb := h.hb
  have hb2 := h.hb2
  have hη : (1 : ℝ) / 2 ^ 200 ≤ 1 / 2 ^ 150 * b ^ 2 := by
    have : (1 : ℝ) / 2 ^ 200 ≤ 1 / 2 ^ 150 * (8 / 10 ^ 9) := by norm_num
    linarith
  have hηA : (1 : ℝ) / 2 ^ 200 ≤ 1 / 2 ^ 150 * |A| := by
    have : (1 : ℝ) / 2 ^ 200 ≤ 1 / 2 ^ 150 * (1 / 10 ^ 7) := by norm_num
    linarith
  have eF : |F4 - 4 * A| ≤ 401 / 100 / 2 ^ 53 * |A| := by
    have := hF4
    unfold Rd at this
    rw [abs_mul, abs_of_pos (by norm_num : (0 : ℝ) < 4)] at this
    refine this.trans ?_
    norm_num at hηA ⊢
    linarith
  have eF2 : |F4 * C - 4 * A * C| ≤ 401 / 100 / 2 ^ 53 * (|A| * |C|) := by
    rw [← sub_mul, abs_mul, ← mul_assoc]
    exact mul_le_mul_of_nonneg_right eF (abs_nonneg C)
  have e4 : |4 * A * C| = 4 * (|A| * |C|) := by
    rw [abs_mul, abs_mul, abs_of_pos (by norm_num : (0 : ℝ) < 4), mul_assoc]
  have eP : |P4 - 4 * A * C| ≤ 12 / 100 / 2 ^ 53 * b ^ 2 := by
    have := hP4.err eF2
    rw [e4] at this
    refine this.trans ?_
    norm_num at hη hAC ⊢
    linarith
  have hB0 : 0 ≤ B := le_trans (mul_nonneg (by norm_num) hb.le) hB1
  have q1 : B ^ 2 ≤ ((1 + 1 / 2 ^ 28) * b) ^ 2 := pow_le_pow_left₀ hB0 hB2 2
  have q2 : ((1 - 1 / 2 ^ 28) * b) ^ 2 ≤ B ^ 2 := pow_le_pow_left₀ (mul_nonneg (by norm_num) hb.le) hB1 2
  rw [mul_pow] at q1 q2
  have q3 := abs_le.1 (le_of_eq e4)
  have l1 : 945 / 1000 * b ^ 2 ≤ B ^ 2 - 4 * A * C := by
    have := q3.2
    norm_num at this q2 hAC ⊢
    linarith
  have l2 : B ^ 2 - 4 * A * C ≤ 106 / 100 * b ^ 2 := by
    have := q3.1
    norm_num at this q1 hAC ⊢
    linarith
  refine ⟨?_, l1, l2⟩
  have e5 : |BB - P4 - (B ^ 2 - 4 * A * C)| ≤ 113 / 100 / 2 ^ 53 * b ^ 2 := by
    rw [show BB - P4 - (B ^ 2 - 4 * A * C) = (BB - B ^ 2) - (P4 - 4 * A * C) by ring]
    refine (abs_sub _ _).trans ?_
    linarith
  have := hD.err e5
  rw [abs_of_nonneg (le_trans (by positivity) l1)] at this
  refine this.trans ?_
  norm_num at hη l2 ⊢
  linarith

set_option maxHeartbeats 1000000 in
/-- The branch with the square root. -/
theorem Quad.root (h : Quad a b A B C) (hl : 99 / 100 / 10 ^ 8 * b ^ 2 ≤ |A| * |C|) {BB F4 P4 D δ V G S : ℝ} (hBB : Rd (B * B) BB) (hF4 : Rd (4 * A) F4)
    (hP4 : Rd (F4 * C) P4) (hD : Rd (BB - P4) D) (hδ : |δ| ≤ 1 / 2 ^ 53) (hV : Rd (-B + Real.sqrt D * (1 + δ)) V) (hG : Rd (2 * A) G)
    (hS : Rd (V / G) S) : GoodStep a b C S := by
  obtain ⟨hB1, hB2⟩ := h.B_bounds
  obtain ⟨hDe, hΔ1, hΔ2⟩ := h.disc hl hBB hF4 hP4 hD
  have hAC := h.AC_le
  have hA := h.A_ge hl
  have hb := h.hb
  have hb1 := h.hb1
  have hb2 := h.hb2
  have hC := h.hC
  have hC0 := abs_nonneg C
  have hA0 : 0 < |A| := lt_of_lt_of_le (by norm_num) hA
  have hAne : A ≠ 0 := abs_pos.1 hA0
  have hB0 : 0 ≤ B := le_trans (mul_nonneg (by norm_num) hb.le) hB1
  have hη : (1 : ℝ) / 2 ^ 200 ≤ 1 / 2 ^ 150 * b := by
    have : (1 : ℝ) / 2 ^ 200 ≤ 1 / 2 ^ 151 * (8 / 10 ^ 9) := by norm_num
    nlinarith
  have hηA : (1 : ℝ) / 2 ^ 200 ≤ 1 / 2 ^ 150 * |A| := by
    have : (1 : ℝ) / 2 ^ 200 ≤ 1 / 2 ^ 150 * (1 / 10 ^ 7) := by norm_num
    linarith
  set Δ := B ^ 2 - 4 * A * C with hΔ
  have hΔ0 : 0 ≤ Δ := le_trans (by positivity) hΔ1
  set r := Real.sqrt Δ with hr
  have hrr : r * r = Δ := Real.mul_self_sqrt hΔ0
  have hr1 : 97 / 100 * b ≤ r := by
    apply Real.le_sqrt_of_sq_le
    rw [mul_pow]
    have : 0 ≤ b ^ 2 := by positivity
    norm_num
    linarith
  have hr2 : r ≤ 103 / 100 * b := by
    rw [hr, Real.sqrt_le_left (by positivity), mul_pow]
    have : 0 ≤ b ^ 2 := by positivity
    norm_num
    linarith
  have hr0 : 0 < r := lt_of_lt_of_le (by positivity) hr1
  have hD0 : 0 ≤ D := by
    have := (abs_le.1 hDe).1
    have : 0 ≤ b ^ 2 := by positivity
    norm_num at *
    linarith
  -- the root
  have eR : |Real.sqrt D - r| ≤ 227 / 100 / 2 ^ 53 * b := by
    have hs := Real.sqrt_nonneg D
    have e : (Real.sqrt D - r) * (Real.sqrt D + r) = D - Δ := by
      have := Real.mul_self_sqrt hD0
      linear_combination this - hrr
    have h1 : |Real.sqrt D - r| * (97 / 100 * b) ≤ |D - Δ| := by
      rw [← e, abs_mul, abs_of_pos (by linarith : 0 < Real.sqrt D + r)]
      exact mul_le_mul_of_nonneg_left (by linarith) (abs_nonneg _)
    have h2 : |Real.sqrt D - r| * (97 / 100 * b) ≤ 227 / 100 / 2 ^ 53 * b * (97 / 100 * b) := by
      refine (h1.trans hDe).trans ?_
      have : 0 ≤ b ^ 2 := by positivity
      rw [show 227 / 100 / 2 ^ 53 * b * (97 / 100 * b) = 227 / 100 / 2 ^ 53 * (97 / 100) * b ^ 2 by ring]
      apply mul_le_mul_of_nonneg_right _ this
      norm_num
    exact le_of_mul_le_mul_right h2 (by positivity)
  have eR2 : |Real.sqrt D * (1 + δ) - r| ≤ 331 / 100 / 2 ^ 53 * b := by
    have h1 : |Real.sqrt D * δ| ≤ 1035 / 1000 * b * (1 / 2 ^ 53) := by
      rw [abs_mul, abs_of_nonneg (Real.sqrt_nonneg D)]
      apply mul_le_mul _ hδ (abs_nonneg _) (by positivity)
      have := (abs_le.1 eR).2
      norm_num at this ⊢
      linarith
    rw [show Real.sqrt D * (1 + δ) - r = (Real.sqrt D - r) + Real.sqrt D * δ by ring]
    refine (abs_add_le _ _).trans ?_
    norm_num at eR h1 ⊢
    linarith
  set X := (-B + r) / (2 * A) with hX
  have hX2 : 2 * A * X = -B + r := by rw [hX]; field_simp
  have hXq : A * X ^ 2 + B * X + C = 0 := by
    have : 4 * A * (A * X ^ 2 + B * X + C) = 0 := by
      have e : 4 * A * (A * X ^ 2 + B * X + C) = (2 * A * X) ^ 2 + 2 * B * (2 * A * X) + 4 * A * C := by ring
      rw [e, hX2]
      rw [hΔ] at hrr
      linear_combination hrr
    rcases mul_eq_zero.1 this with h1 | h1
    · exact absurd h1 (by simpa using hAne)
    · exact h1
  have hXC : |X| * b ≤ 103 / 100 * |C| := by
    have e : X * (B + r) = -(2 * C) := by
      have e1 : 2 * A * (X * (B + r)) = 2 * A * (-(2 * C)) := by
        rw [← mul_assoc, hX2]
        rw [hΔ] at hrr
        linear_combination hrr
      exact mul_left_cancel₀ (by simpa using hAne) e1
    have h1 : |X| * (B + r) = 2 * |C| := by
      rw [← abs_of_pos (by linarith : 0 < B + r), ← abs_mul, e, abs_neg, abs_mul, abs_of_pos (by norm_num : (0 : ℝ) < 2)]
    have h2 : 196 / 100 * b ≤ B + r := by
      norm_num at hB1 ⊢
      linarith
    have h3 := mul_le_mul_of_nonneg_left h2 (abs_nonneg X)
    linarith
  clear hX
  clear_value X
  -- the numerator
  have hv : |-B + r| ≤ 28 / 1000 * b := by
    rw [← hX2, abs_mul, abs_mul, abs_of_pos (by norm_num : (0 : ℝ) < 2)]
    have h1 : 2 * |A| * |X| * b ≤ 28 / 1000 * b * b := by
      have := mul_le_mul_of_nonneg_left hXC (by positivity : 0 ≤ 2 * |A|)
      nlinarith
    exact le_of_mul_le_mul_right h1 hb
  have eV : |V - (-B + r)| ≤ 335 / 100 / 2 ^ 53 * b := by
    have h1 : |-B + Real.sqrt D * (1 + δ) - (-B + r)| ≤ 331 / 100 / 2 ^ 53 * b := by
      rw [show -B + Real.sqrt D * (1 + δ) - (-B + r) = Real.sqrt D * (1 + δ) - r by ring]
      exact eR2
    refine (hV.err h1).trans ?_
    norm_num at hη hv ⊢
    linarith
  have eG : |G - 2 * A| ≤ 201 / 100 / 2 ^ 53 * |A| := by
    have := hG
    unfold Rd at this
    rw [abs_mul, abs_of_pos (by norm_num : (0 : ℝ) < 2)] at this
    refine this.trans ?_
    norm_num at hηA ⊢
    linarith
  have hG1 : 1999 / 1000 * |A| ≤ |G| := by
    have h1 := abs_sub_abs_le_abs_sub (2 * A) G
    rw [abs_sub_comm, abs_mul, abs_of_pos (by norm_num : (0 : ℝ) < 2)] at h1
    norm_num at eG h1 ⊢
    linarith
  have hG0 : 0 < |G| := lt_of_lt_of_le (by positivity) hG1
  have hGne : G ≠ 0 := abs_pos.1 hG0
  have eX : |V / G - X| * b ≤ 189 / 100 / 10 ^ 8 * |C| := by
    have e : V / G - X = ((V - (-B + r)) - X * (G - 2 * A)) / G := by
      field_simp
      linear_combination -hX2
    have h1 : |V / G - X| * |G| ≤ 335 / 100 / 2 ^ 53 * b + |X| * (201 / 100 / 2 ^ 53 * |A|) := by
      rw [e, abs_div, div_mul_cancel₀ _ hG0.ne']
      refine (abs_sub _ _).trans ?_
      rw [abs_mul]
      exact add_le_add eV (mul_le_mul_of_nonneg_left eG (abs_nonneg _))
    have h2 : |V / G - X| * (1999 / 1000 * |A|) ≤ 335 / 100 / 2 ^ 53 * b + |X| * (201 / 100 / 2 ^ 53 * |A|) :=
      (mul_le_mul_of_nonneg_left hG1 (abs_nonneg _)).trans h1
    have h3 : |V / G - X| * b * |A| ≤ 189 / 100 / 10 ^ 8 * |C| * |A| := by
      have h4 := mul_le_mul_of_nonneg_right h2 hb.le
      have h5 : |X| * b * |A| ≤ 103 / 100 * |C| * |A| := mul_le_mul_of_nonneg_right hXC hA0.le
      norm_num at h4 hl ⊢
      nlinarith
    exact le_of_mul_le_mul_right h3 hA0
  have eS : |S - X| * b ≤ 19 / 10 / 10 ^ 8 * |C| + 2 / 2 ^ 200 := by
    have h0 : |V / G - X| ≤ |V / G - X| := le_rfl
    have h1 := mul_le_mul_of_nonneg_right (hS.err h0) hb.le
    have h3 : (1 : ℝ) / 2 ^ 200 * b ≤ 1 / 2 ^ 200 * 2 := by gcongr
    have e : (|V / G - X| + (|X| + |V / G - X|) / 2 ^ 53 + 1 / 2 ^ 200) * b
        = |V / G - X| * b + (|X| * b + |V / G - X| * b) / 2 ^ 53 + 1 / 2 ^ 200 * b := by ring
    rw [e] at h1
    norm_num at h1 h3 eX hXC ⊢
    linarith
  have hSb : |S| * b ≤ 104 / 100 * |C| + 2 / 2 ^ 200 := by
    have h3 : |S| ≤ |S - X| + |X| := by
      have := abs_sub_abs_le_abs_sub S X
      linarith
    have h4 := mul_le_mul_of_nonneg_right h3 hb.le
    norm_num at eS h4 hXC ⊢
    linarith
  refine ⟨hSb.trans ?_, ?_⟩
  · norm_num
    linarith
  -- the value of the exact quadratic
  have e : a * S ^ 2 + b * S + C = (a * ((S - X) * (S + X)) - (A - a) * X ^ 2) + ((S - X) * b - (B - b) * X) := by
    linear_combination hXq
  have ha := h.ha
  have hac := h.hac
  have t1 : |a| * (|S - X| * |S + X|) ≤ 6 / 10 ^ 10 * |C| + 1 / 2 ^ 190 := by
    have h1 : |S + X| * b ≤ 207 / 100 * |C| + 2 / 2 ^ 200 := by
      have := mul_le_mul_of_nonneg_right (abs_add_le S X) hb.le
      linarith
    have h2 : |S - X| * b * (|S + X| * b) ≤ (19 / 10 / 10 ^ 8 * |C| + 2 / 2 ^ 200) * (207 / 100 * |C| + 2 / 2 ^ 200) :=
      mul_le_mul eS h1 (by positivity) (by positivity)
    have h3 := mul_le_mul_of_nonneg_left h2 (abs_nonneg a)
    have h4 : |a| * (|S - X| * |S + X|) * b ^ 2 ≤ (6 / 10 ^ 10 * |C| + 1 / 2 ^ 190) * b ^ 2 := by
      rw [show |a| * (|S - X| * |S + X|) * b ^ 2 = |a| * (|S - X| * b * (|S + X| * b)) by ring]
      refine h3.trans ?_
      rw [show |a| * ((19 / 10 / 10 ^ 8 * |C| + 2 / 2 ^ 200) * (207 / 100 * |C| + 2 / 2 ^ 200))
        = 19 / 10 / 10 ^ 8 * (207 / 100) * (|a| * |C|) * |C| + (207 / 50 + 38 / 10 / 10 ^ 8) / 2 ^ 200 * (|a| * |C|) + 4 / 2 ^ 200 / 2 ^ 200 * |a| by ring]
      have h6 : |a| * |C| * |C| ≤ 1 / 75 * b ^ 2 * |C| := mul_le_mul_of_nonneg_right hac hC0
      have h7 : 19 / 10 / 10 ^ 8 * (207 / 100) * (|a| * |C|) * |C| ≤ 6 / 10 ^ 10 * |C| * b ^ 2 := by
        have : 0 ≤ b ^ 2 * |C| := by positivity
        norm_num at h6 ⊢
        linarith
      have h9 : (207 / 50 + 38 / 10 / 10 ^ 8) / 2 ^ 200 * (|a| * |C|) ≤ (207 / 50 + 38 / 10 / 10 ^ 8) / 2 ^ 200 * (1 / 75 * b ^ 2) := by gcongr
      have h10 : 4 / 2 ^ 200 / 2 ^ 200 * |a| ≤ 1 / 2 ^ 195 * b ^ 2 := by
        have h11 : 4 / 2 ^ 200 / 2 ^ 200 * |a| ≤ 4 / 2 ^ 200 / 2 ^ 200 * 2 ^ 18 := by gcongr
        have h12 : (4 : ℝ) / 2 ^ 200 / 2 ^ 200 * 2 ^ 18 ≤ 1 / 2 ^ 195 * (8 / 10 ^ 9) := by norm_num
        have h13 : (1 : ℝ) / 2 ^ 195 * (8 / 10 ^ 9) ≤ 1 / 2 ^ 195 * b ^ 2 := by gcongr
        linarith
      have h15 : (207 / 50 + 38 / 10 / 10 ^ 8) / 2 ^ 200 * (1 / 75 * b ^ 2) + 1 / 2 ^ 195 * b ^ 2 ≤ 1 / 2 ^ 190 * b ^ 2 := by
        rw [← mul_assoc, ← add_mul]
        gcongr
        norm_num
      rw [add_mul]
      linarith
    exact le_of_mul_le_mul_right h4 (by positivity)
  have t2 : |A - a| * X ^ 2 ≤ 3 / 10 ^ 10 * |C| := by
    have h1 : (|X| * b) ^ 2 ≤ (103 / 100 * |C|) ^ 2 := pow_le_pow_left₀ (by positivity) hXC 2
    have h2 : |A - a| * X ^ 2 ≤ 1 / 2 ^ 28 * X ^ 2 := mul_le_mul_of_nonneg_right h.hA (sq_nonneg _)
    have h3 : X ^ 2 * b ^ 2 = (|X| * b) ^ 2 := by rw [mul_pow, sq_abs]
    have h4 : |C| * |C| ≤ 6 / 100 * b ^ 2 * |C| := mul_le_mul_of_nonneg_right hC hC0
    have h5 : |A - a| * X ^ 2 * b ^ 2 ≤ 3 / 10 ^ 10 * |C| * b ^ 2 := by
      have h6 := mul_le_mul_of_nonneg_right h2 (by positivity : 0 ≤ b ^ 2)
      have h7 : 0 ≤ b ^ 2 * |C| := by positivity
      rw [mul_pow] at h1
      norm_num at h1 h4 h6 ⊢
      nlinarith
    exact le_of_mul_le_mul_right h5 (by positivity)
  have t3 : |B - b| * |X| ≤ 4 / 10 ^ 9 * |C| := by
    have h1 : |B - b| * |X| ≤ 1 / 2 ^ 28 * b * |X| := mul_le_mul_of_nonneg_right h.hB (abs_nonneg _)
    norm_num at h1 hXC ⊢
    linarith
  rw [e]
  refine (abs_add_le _ _).trans ?_
  refine (add_le_add (abs_sub _ _) (abs_sub _ _)).trans ?_
  rw [abs_mul a, abs_mul (S - X) (S + X), abs_mul (A - a), abs_of_nonneg (sq_nonneg X), abs_mul (S - X) b, abs_of_pos hb, abs_mul (B - b)]
  norm_num at t1 t2 t3 eS ⊢
  linarith

end Verif
