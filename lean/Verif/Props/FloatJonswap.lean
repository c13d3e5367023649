import Verif.Model.FloatJonswap
import Verif.Props.FloatPeriods

/-! # C182: a created JONSWAP spectrum has the prescribed wave height, in double precision -/

set_option linter.unusedSectionVars false

namespace Verif
open Finset

/-- Specification: unscaled densities that are doubles, zero or not below `2 ^ -300`. -/
def IsShape (s : ℚ) : Prop := IsDouble s ∧ (s = 0 ∨ 1 / 2 ^ 300 ≤ s)

theorem IsShape.isSize {s : ℚ} (h : IsShape s) : IsSize s :=
  ⟨h.1, h.2.imp_right fun h => (inv_pow_le (by norm_num)).trans h⟩

/-! ## The scale factor -/

/-- The square of a computed square root. -/
theorem sqrt_sq_double (Q : NpSqrt) {t v M : ℚ} (t1 : 1 / 2 ^ 44 ≤ t) (t2 : t ≤ 1 / 2 ^ 18) (hv : Near t v M) :
    0 ≤ Q.sqrt v ∧ |Q.sqrt v ^ 2 - M| ≤ 5 / 4 * t * M := by
  have sq := sqrt_double Q t1 t2 hv
  have M0 := hv.1
  have T1 : (1 : ℝ) / 2 ^ 44 ≤ t := by
    have := (Rat.cast_le (K := ℝ)).2 t1
    push_cast at this
    exact this
  have T2 : (t : ℝ) ≤ 1 / 2 ^ 18 := by
    have := (Rat.cast_le (K := ℝ)).2 t2
    push_cast at this
    exact this
  have b2 : Real.sqrt (M : ℝ) ^ 2 = M := Real.sq_sqrt (by exact_mod_cast M0)
  have b0 : 0 ≤ Real.sqrt (M : ℝ) := Real.sqrt_nonneg _
  generalize Real.sqrt (M : ℝ) = b at *
  have R : 0 ≤ ((Q.sqrt v : ℚ) : ℝ) ∧ |((Q.sqrt v : ℚ) : ℝ) ^ 2 - M| ≤ 5 / 4 * t * M := by
    generalize ((Q.sqrt v : ℚ) : ℝ) = r at *
    have tb : 0 ≤ t * b := mul_nonneg (by linarith) b0
    have tb' : t * b ≤ 1 / 2 ^ 18 * b := mul_le_mul_of_nonneg_right T2 b0
    obtain ⟨p1, p2⟩ := abs_le.1 sq
    have r0 : 0 ≤ r := by linarith
    refine ⟨r0, ?_⟩
    rw [← b2, show r ^ 2 - b ^ 2 = (r - b) * (r + b) by ring, abs_mul, abs_of_nonneg (by linarith : 0 ≤ r + b)]
    have rb : r + b ≤ 25 / 12 * b := by linarith
    calc |r - b| * (r + b) ≤ 3 / 5 * t * b * (25 / 12 * b) := mul_le_mul sq rb (by linarith) (by linarith)
      _ = 5 / 4 * t * b ^ 2 := by ring
  constructor
  · exact_mod_cast R.1
  · have := R.2
    rw [show ((Q.sqrt v : ℚ) : ℝ) ^ 2 - M = ((Q.sqrt v ^ 2 - M : ℚ) : ℝ) by push_cast; ring, ← Rat.cast_abs,
      show 5 / 4 * (t : ℝ) * M = ((5 / 4 * t * M : ℚ) : ℝ) by push_cast; ring] at this
    exact (Rat.cast_le (K := ℝ)).1 this

theorem factors_close {a b c : ℚ} (ha : |a| ≤ 1 / 2 ^ 53) (hb : |b| ≤ 1 / 2 ^ 53) (hc : |c| ≤ 1 / 2 ^ 52) :
    |(1 + b) ^ 2 * (1 + c) - (1 + a) ^ 2| ≤ 1 / 2 ^ 49 * (1 + a) ^ 2 := by
  obtain ⟨a1, a2⟩ := abs_le.1 ha
  obtain ⟨b1, b2⟩ := abs_le.1 hb
  obtain ⟨c1, c2⟩ := abs_le.1 hc
  have A1 : 1 - 1 / 2 ^ 51 ≤ (1 + a) ^ 2 := by nlinarith [sq_nonneg a]
  have A2 : (1 + a) ^ 2 ≤ 1 + 9 / 8 / 2 ^ 52 := by
    have : a ^ 2 ≤ 1 / 2 ^ 100 := by nlinarith
    nlinarith
  have B1 : 1 - 1 / 2 ^ 51 ≤ (1 + b) ^ 2 := by nlinarith [sq_nonneg b]
  have B2 : (1 + b) ^ 2 ≤ 1 + 9 / 8 / 2 ^ 52 := by
    have : b ^ 2 ≤ 1 / 2 ^ 100 := by nlinarith
    nlinarith
  generalize (1 + a) ^ 2 = x at *
  generalize (1 + b) ^ 2 = y at *
  have yc : |y * c| ≤ 9 / 8 / 2 ^ 52 := by
    rw [abs_mul, abs_of_nonneg (by linarith)]
    calc y * |c| ≤ (9 / 8) * (1 / 2 ^ 52) := mul_le_mul (by linarith) hc (abs_nonneg _) (by norm_num)
      _ = _ := by norm_num
  obtain ⟨y1, y2⟩ := abs_le.1 yc
  rw [abs_le]
  constructor
  · have : y * (1 + c) = y + y * c := by ring
    rw [this]; linarith
  · have : y * (1 + c) = y + y * c := by ring
    rw [this]; linarith

theorem combine_scale {t y z w : ℚ} (t1 : 1 / 2 ^ 44 ≤ t) (t2 : t ≤ 1 / 2 ^ 20) (hz : |z - w| ≤ 1 / 2 ^ 49 * w) (hy : |y - z| ≤ 5 / 4 * t * y)
    (y0 : 0 ≤ y) (w0 : 0 ≤ w) : |y - w| ≤ 4 / 3 * t * w := by
  obtain ⟨a1, a2⟩ := abs_le.1 hz
  obtain ⟨b1, b2⟩ := abs_le.1 hy
  have ty : t * y ≤ 1 / 2 ^ 20 * y := mul_le_mul_of_nonneg_right t2 y0
  have yw : y ≤ (1 + 1 / 2 ^ 18) * w := by norm_num at a2 b2 ty ⊢; linarith
  have tyw : t * y ≤ t * ((1 + 1 / 2 ^ 18) * w) := mul_le_mul_of_nonneg_left yw (by linarith [show (0 : ℚ) < 1 / 2 ^ 44 by positivity])
  have tw : 1 / 2 ^ 44 * w ≤ t * w := mul_le_mul_of_nonneg_right t1 w0
  have e : t * ((1 + 1 / 2 ^ 18) * w) = (1 + 1 / 2 ^ 18) * (t * w) := by ring
  rw [e] at tyw
  have e2 : 4 / 3 * t * w = 4 / 3 * (t * w) := by ring
  have e3 : 5 / 4 * t * y = 5 / 4 * (t * y) := by ring
  rw [e2]
  rw [e3] at b1 b2
  generalize t * w = p at *
  generalize t * y = u at *
  rw [abs_le]
  norm_num at *
  constructor <;> linarith

/-- The scale factor `s`: `16 M s` is the square of the prescribed height. -/
theorem scale_close (P : NpPow) (Q : NpSqrt) {t v M H : ℚ} (t1 : 1 / 2 ^ 44 ≤ t) (t2 : t ≤ 1 / 2 ^ 20) (hv : Near t v M)
    (M1 : 1 / 2 ^ 60 ≤ M) (M2 : M ≤ 2 ^ 40) (H1 : 1 / 2 ^ 20 ≤ H) (H2 : H ≤ 2 ^ 20) :
    let s := P.pow (f64 (H / f64 (4 * Q.sqrt v))) 2
    |16 * M * s - H ^ 2| ≤ 4 / 3 * t * H ^ 2 ∧ 1 / 2 ^ 91 ≤ s := by
  intro s
  have hs : s = P.pow (f64 (H / f64 (4 * Q.sqrt v))) 2 := rfl
  clear_value s
  obtain ⟨r0, rM⟩ := sqrt_sq_double Q t1 (t2.trans (by norm_num)) hv
  set r := Q.sqrt v with hr
  clear_value r
  have tM : t * M ≤ 1 / 2 ^ 20 * M := mul_le_mul_of_nonneg_right t2 hv.1
  obtain ⟨p1, p2⟩ := abs_le.1 rM
  have r1 : 1 / 2 ^ 31 ≤ r := by
    by_contra hc
    push Not at hc
    have : r ^ 2 < (1 / 2 ^ 31) ^ 2 := by
      apply pow_lt_pow_left₀ hc r0; norm_num
    norm_num at this M1 tM p1
    linarith
  have r2 : r ≤ 2 ^ 21 := by
    by_contra hc
    push Not at hc
    have : (2 ^ 21) ^ 2 < r ^ 2 := by
      apply pow_lt_pow_left₀ hc (by norm_num); norm_num
    norm_num at this M2 tM p2
    linarith
  obtain ⟨a, ha, ea⟩ := f64_rel (x := 4 * r) (by
    rw [abs_of_nonneg (by linarith)]
    have : (1 : ℚ) / 2 ^ 200 ≤ 1 / 2 ^ 31 := inv_pow_le (by norm_num)
    linarith)
  obtain ⟨a1, a2⟩ := abs_le.1 ha
  have ap : 0 < 1 + a := by norm_num at a1 ⊢; linarith
  have a3 : 1 + a ≤ 2 := by norm_num at a2 ⊢; linarith
  have rp : 0 < r := lt_of_lt_of_le (by positivity) r1
  have kp : 0 < 4 * r * (1 + a) := by positivity
  have k2 : 4 * r * (1 + a) ≤ 2 ^ 24 := by nlinarith
  have Hp : 0 < H := lt_of_lt_of_le (by positivity) H1
  have q1 : 1 / 2 ^ 44 ≤ H / (4 * r * (1 + a)) := by
    rw [le_div_iff₀ kp]
    calc 1 / 2 ^ 44 * (4 * r * (1 + a)) ≤ 1 / 2 ^ 44 * 2 ^ 24 := mul_le_mul_of_nonneg_left k2 (by positivity)
      _ = 1 / 2 ^ 20 := by norm_num
      _ ≤ H := H1
  have kl : 1 / 2 ^ 30 ≤ 4 * r * (1 + a) := by
    have a4 : 1 / 2 ≤ 1 + a := by norm_num at a1 ⊢; linarith
    calc (1 : ℚ) / 2 ^ 30 ≤ 4 * (1 / 2 ^ 31) * (1 / 2) := by norm_num
      _ ≤ _ := mul_le_mul (by linarith) a4 (by norm_num) (by linarith)
  have q2 : H / (4 * r * (1 + a)) ≤ 2 ^ 50 := by
    rw [div_le_iff₀ kp]
    calc H ≤ 2 ^ 50 * (1 / 2 ^ 30) := by norm_num at H2 ⊢; linarith
      _ ≤ _ := mul_le_mul_of_nonneg_left kl (by positivity)
  obtain ⟨b, hb, eb⟩ := f64_rel (x := H / (4 * r * (1 + a))) (by
    rw [abs_of_nonneg (by positivity)]
    exact le_trans (inv_pow_le (by norm_num)) q1)
  obtain ⟨b1, b2⟩ := abs_le.1 hb
  have bl : 1 / 2 ≤ 1 + b := by norm_num at b1 ⊢; linarith
  have bu : 1 + b ≤ 2 := by norm_num at b2 ⊢; linarith
  set q := f64 (H / f64 (4 * r)) with hq
  have eq : q = H / (4 * r * (1 + a)) * (1 + b) := by rw [hq, ea, eb]
  have Q1 : 1 / 2 ^ 45 ≤ q := by
    rw [eq]
    calc (1 : ℚ) / 2 ^ 45 = 1 / 2 ^ 44 * (1 / 2) := by norm_num
      _ ≤ _ := mul_le_mul q1 bl (by norm_num) (by positivity)
  have Q2 : q ≤ 2 ^ 51 := by
    rw [eq]
    calc _ ≤ (2 : ℚ) ^ 50 * 2 := mul_le_mul q2 bu (by linarith) (by positivity)
      _ = 2 ^ 51 := by norm_num
  have sp := P.spec q 2 (le_trans (inv_pow_le (by norm_num)) Q1) (Q2.trans (pow_le_pow_right₀ (by norm_num) (by norm_num))) (by norm_num)
  rw [← hs] at sp
  have z2 : q ^ (2 : ℤ) = q ^ 2 := by norm_cast
  rw [z2] at sp
  have qp : 0 < q ^ 2 := by
    have : 0 < q := lt_of_lt_of_le (by positivity) Q1
    positivity
  obtain ⟨c, hc, ec⟩ : ∃ c : ℚ, |c| ≤ 1 / 2 ^ 52 ∧ s = q ^ 2 * (1 + c) := by
    refine ⟨(s - q ^ 2) / q ^ 2, ?_, by field_simp; ring⟩
    rw [abs_div, abs_of_pos qp, div_le_iff₀ qp]
    linarith
  have cl : 1 / 2 ≤ 1 + c := by have := (abs_le.1 hc).1; norm_num at this ⊢; linarith
  have slo : 1 / 2 ^ 91 ≤ s := by
    have : (1 / 2 ^ 45) ^ 2 ≤ q ^ 2 := pow_le_pow_left₀ (by positivity) Q1 2
    rw [ec]
    calc (1 : ℚ) / 2 ^ 91 = (1 / 2 ^ 45) ^ 2 * (1 / 2) := by norm_num
      _ ≤ _ := mul_le_mul this cl (by norm_num) qp.le
  refine ⟨?_, slo⟩
  have s0 : 0 < s := lt_of_lt_of_le (by positivity) slo
  -- the factor with the computed root
  have fc := factors_close ha hb hc
  have key : (16 * r ^ 2 * s - H ^ 2) * (1 + a) ^ 2 = H ^ 2 * ((1 + b) ^ 2 * (1 + c) - (1 + a) ^ 2) := by
    rw [ec, eq]; field_simp; ring
  have za : 0 < (1 + a) ^ 2 := by positivity
  have z : |16 * r ^ 2 * s - H ^ 2| ≤ 1 / 2 ^ 49 * H ^ 2 := by
    refine le_of_mul_le_mul_right (a := (1 + a) ^ 2) ?_ za
    rw [← abs_of_pos za, ← abs_mul, key, abs_mul, abs_of_nonneg (sq_nonneg H), abs_of_pos za]
    calc H ^ 2 * _ ≤ H ^ 2 * (1 / 2 ^ 49 * (1 + a) ^ 2) := mul_le_mul_of_nonneg_left fc (sq_nonneg H)
      _ = _ := by ring
  have y : |16 * M * s - 16 * r ^ 2 * s| ≤ 5 / 4 * t * (16 * M * s) := by
    rw [show 16 * M * s - 16 * r ^ 2 * s = -((r ^ 2 - M) * (16 * s)) by ring, abs_neg, abs_mul, abs_of_pos (by linarith : 0 < 16 * s)]
    calc _ ≤ 5 / 4 * t * M * (16 * s) := mul_le_mul_of_nonneg_right rM (by linarith)
      _ = _ := by ring
  exact combine_scale t1 t2 z y (by have := hv.1; positivity) (sq_nonneg H)

/-! ## The scaled densities -/

theorem momentValue_zero (f0 h : ℚ) (S : List ℚ) :
    momentValue f0 h S 0 = h * ∑ k ∈ range S.length, simpsonWeight ℚ S.length k * S.getD k 0 := by
  unfold momentValue
  simp

/-- The moment of rounded multiples. -/
theorem moment_scaled {f0 h s : ℚ} (hh : 0 < h) {U S : List ℚ} (hl : S.length = U.length)
    (hc : ∀ i < U.length, |S.getD i 0 - s * U.getD i 0| ≤ s * U.getD i 0 / 2 ^ 53) :
    |momentValue f0 h S 0 - s * momentValue f0 h U 0| ≤ s * momentValue f0 h U 0 / 2 ^ 53 := by
  rw [momentValue_zero, momentValue_zero, hl]
  have e : h * ∑ k ∈ range U.length, simpsonWeight ℚ U.length k * S.getD k 0 - s * (h * ∑ k ∈ range U.length, simpsonWeight ℚ U.length k * U.getD k 0) =
      h * ∑ k ∈ range U.length, simpsonWeight ℚ U.length k * (S.getD k 0 - s * U.getD k 0) := by
    simp only [mul_sub, sum_sub_distrib]
    rw [mul_sum (s := range U.length) (a := h), mul_sum (s := range U.length) (a := h), mul_sum (s := range U.length) (a := s),
      mul_sum (s := range U.length) (a := h)]
    congr 1
    exact sum_congr rfl fun k _ => by ring
  rw [e, abs_mul, abs_of_pos hh]
  calc h * |∑ k ∈ range U.length, simpsonWeight ℚ U.length k * (S.getD k 0 - s * U.getD k 0)|
      ≤ h * ∑ k ∈ range U.length, simpsonWeight ℚ U.length k * (s * U.getD k 0 / 2 ^ 53) := by
        refine mul_le_mul_of_nonneg_left ((abs_sum_le_sum_abs _ _).trans (sum_le_sum fun k hk => ?_)) hh.le
        rw [abs_mul, abs_of_nonneg (weight_nonneg _ _)]
        exact mul_le_mul_of_nonneg_left (hc k (mem_range.1 hk)) (weight_nonneg _ _)
    _ = _ := by
        rw [mul_sum, mul_sum, mul_sum, sum_div]
        exact sum_congr rfl fun k _ => by ring

theorem isShape_getD {U : List ℚ} (hU : ∀ s ∈ U, IsShape s) (i : ℕ) : IsShape (U.getD i 0) := by
  by_cases hi : i < U.length
  · rw [List.getD_eq_getElem _ _ hi]; exact hU _ (List.getElem_mem hi)
  · rw [List.getD_eq_default _ _ (by omega)]; exact ⟨isDouble_zero, .inl rfl⟩

/-- One scaled density. -/
theorem scaled_one {u s : ℚ} (hu : IsShape u) (hs : 1 / 2 ^ 91 ≤ s) : IsSize (f64 (u * s)) ∧ |f64 (u * s) - s * u| ≤ s * u / 2 ^ 53 := by
  have s0 : 0 < s := lt_of_lt_of_le (by positivity) hs
  rcases hu.2 with rfl | hu
  · rw [zero_mul, f64_zero, mul_zero, sub_zero, abs_zero, zero_div]
    exact ⟨⟨isDouble_zero, .inl rfl⟩, le_rfl⟩
  have lo : 1 / 2 ^ 391 ≤ u * s := by
    calc (1 : ℚ) / 2 ^ 391 = 1 / 2 ^ (300 + 91) := by norm_num
      _ = 1 / 2 ^ 300 * (1 / 2 ^ 91) := inv_pow_add 300 91
      _ ≤ _ := mul_le_mul hu hs (by positivity) (le_trans (by positivity) hu)
  have p : 0 < u * s := lt_of_lt_of_le (by positivity) lo
  have er : |f64 (u * s) - u * s| ≤ |u * s| / 2 ^ 53 := by
    apply f64_error_normal
    rw [abs_of_pos p]
    refine le_trans ?_ lo
    rw [zpow_neg, ← one_div]
    exact one_div_le_one_div_of_le (by positivity) (by exact_mod_cast pow_le_pow_right₀ (by norm_num : (1 : ℚ) ≤ 2) (by norm_num : 391 ≤ 1022))
  rw [abs_of_pos p] at er
  refine ⟨⟨f64_double _, .inr ?_⟩, by rwa [mul_comm s u]⟩
  have := (abs_le.1 er).1
  have c : (1 : ℚ) / 2 ^ 400 ≤ 1 / 2 ^ 392 := inv_pow_le (by norm_num)
  have d : (1 : ℚ) / 2 ^ 392 = 1 / 2 ^ 391 * (1 / 2 ^ 1) := inv_pow_add 391 1
  have e : (u * s) / 2 ^ 53 ≤ (u * s) * (1 / 2 ^ 1) := by
    rw [div_eq_mul_one_div]
    exact mul_le_mul_of_nonneg_left (inv_pow_le (by norm_num)) p.le
  have g : 1 / 2 ^ 391 * (1 / 2 ^ 1) ≤ (u * s) * (1 / 2 ^ 1) := mul_le_mul_of_nonneg_right lo (by positivity)
  generalize u * s = w at *
  generalize f64 w = z at *
  generalize (1 : ℚ) / 2 ^ 391 = y at *
  generalize (1 : ℚ) / 2 ^ 392 = y' at *
  generalize (1 : ℚ) / 2 ^ 400 = y'' at *
  linarith

theorem height_close {t m w : ℚ} (t1 : 1 / 2 ^ 44 ≤ t) (t2 : t ≤ 1 / 2 ^ 20) (w0 : 0 ≤ w) {y : ℚ} (hy : |y - w| ≤ 4 / 3 * t * w)
    (hm : |16 * m - y| ≤ y / 2 ^ 53) : |16 * m - w| ≤ 3 / 2 * t * w := by
  obtain ⟨a1, a2⟩ := abs_le.1 hy
  obtain ⟨b1, b2⟩ := abs_le.1 hm
  have tw : 1 / 2 ^ 44 * w ≤ t * w := mul_le_mul_of_nonneg_right t1 w0
  have tw' : t * w ≤ 1 / 2 ^ 20 * w := mul_le_mul_of_nonneg_right t2 w0
  have e2 : 4 / 3 * t * w = 4 / 3 * (t * w) := by ring
  have e3 : 3 / 2 * t * w = 3 / 2 * (t * w) := by ring
  rw [e2] at a1 a2
  rw [e3]
  generalize t * w = p at *
  rw [abs_le]
  norm_num at *
  constructor <;> linarith

theorem height_close' {t m w v : ℚ} (t1 : 1 / 2 ^ 44 ≤ t) (t2 : t ≤ 1 / 2 ^ 20) (w0 : 0 ≤ w) (hm : |16 * m - w| ≤ 3 / 2 * t * w)
    (hv : |v - m| ≤ t * m) : |v - w / 16| ≤ 8 / 3 * t * (w / 16) := by
  obtain ⟨a1, a2⟩ := abs_le.1 hm
  obtain ⟨b1, b2⟩ := abs_le.1 hv
  have tw' : t * w ≤ 1 / 2 ^ 20 * w := mul_le_mul_of_nonneg_right t2 w0
  have t0 : 0 < t := lt_of_lt_of_le (by positivity) t1
  have tw0 : 0 ≤ t * w := mul_nonneg t0.le w0
  have e3 : 3 / 2 * t * w = 3 / 2 * (t * w) := by ring
  rw [e3] at a1 a2
  have mw : 16 * m ≤ (1 + 1 / 2 ^ 19) * w := by norm_num at *; linarith
  have tm : t * (16 * m) ≤ t * ((1 + 1 / 2 ^ 19) * w) := mul_le_mul_of_nonneg_left mw t0.le
  have e4 : t * ((1 + 1 / 2 ^ 19) * w) = (1 + 1 / 2 ^ 19) * (t * w) := by ring
  have e5 : t * (16 * m) = 16 * (t * m) := by ring
  rw [e4, e5] at tm
  have e6 : 8 / 3 * t * (w / 16) = 1 / 6 * (t * w) := by ring
  rw [e6]
  generalize t * w = p at *
  generalize t * m = q at *
  rw [abs_le]
  norm_num at *
  constructor <;> linarith

/-- The square root of a number near a square, in real arithmetic. -/
theorem real_sqrt_close {t m H : ℝ} (H0 : 0 < H) (m0 : 0 ≤ m) (hm : |16 * m - H ^ 2| ≤ 3 / 2 * t * H ^ 2) :
    |4 * Real.sqrt m - H| ≤ 3 / 2 * t * H := by
  have e : (4 * Real.sqrt m) ^ 2 = 16 * m := by rw [mul_pow, Real.sq_sqrt m0]; norm_num
  have n : 0 ≤ 4 * Real.sqrt m := mul_nonneg (by norm_num) (Real.sqrt_nonneg m)
  rw [← e] at hm
  generalize 4 * Real.sqrt m = x at *
  have f : |x ^ 2 - H ^ 2| = |x - H| * (x + H) := by
    rw [show x ^ 2 - H ^ 2 = (x - H) * (x + H) by ring, abs_mul, abs_of_nonneg (by linarith : 0 ≤ x + H)]
  refine le_of_mul_le_mul_right (a := H) ?_ H0
  calc |x - H| * H ≤ |x - H| * (x + H) := mul_le_mul_of_nonneg_left (by linarith) (abs_nonneg _)
    _ ≤ 3 / 2 * t * H ^ 2 := f ▸ hm
    _ = _ := by ring

theorem round_height {t H r : ℚ} (t1 : 1 / 2 ^ 44 ≤ t) (t2 : t ≤ 1 / 2 ^ 20) (H1 : 1 / 2 ^ 20 ≤ H)
    (hr : |r - H / 4| ≤ 3 / 5 * (8 / 3 * t) * (H / 4)) : |f64 (4 * r) - H| ≤ 2 * t * H := by
  have Hp : 0 < H := lt_of_lt_of_le (by positivity) H1
  have tH : t * H ≤ 1 / 2 ^ 20 * H := mul_le_mul_of_nonneg_right t2 Hp.le
  have tH' : 1 / 2 ^ 44 * H ≤ t * H := mul_le_mul_of_nonneg_right t1 Hp.le
  have e : 3 / 5 * (8 / 3 * t) * (H / 4) = 2 / 5 * (t * H) := by ring
  rw [e] at hr
  obtain ⟨a1, a2⟩ := abs_le.1 hr
  have r1 : H / 8 ≤ r := by norm_num at tH; linarith
  have er := f64_error (x := 4 * r) (by
    rw [abs_of_nonneg (by linarith)]
    have : (1 : ℚ) / 2 ^ 200 ≤ 1 / 2 ^ 22 := inv_pow_le (by norm_num)
    norm_num at H1 this ⊢
    linarith)
  rw [abs_of_nonneg (by linarith : 0 ≤ 4 * r)] at er
  obtain ⟨b1, b2⟩ := abs_le.1 er
  rw [show 2 * t * H = 2 * (t * H) by ring]
  generalize t * H = p at *
  rw [abs_le]
  norm_num at *
  constructor <;> linarith

/-! ## C182 -/

section
variable (R : NpSum) (P : NpPow) (Q : NpSqrt) {f U : List ℚ} {f0 h H M : ℚ} (A : AxisDouble f f0 h) (h2 : 2 ≤ f.length) (hl : f.length = U.length)
  (acc : monotonicF64 f = .ok true) (hU : ∀ s ∈ U, IsShape s)
  (hM : computeMoment (vec (exactAxis f0 h f.length)) (vec U) 0 (-1) (.fin (-1)) = .ok M) (M1 : 1 / 2 ^ 60 ≤ M) (M2 : M ≤ 2 ^ 40)
  (H1 : 1 / 2 ^ 20 ≤ H) (H2 : H ≤ 2 ^ 20)
include A h2 hl acc hU hM M1 M2 H1 H2

/-- **C182 (scaling).**  Whatever the unscaled densities `U` are (doubles, zero or at least `2 ^ -300`), the densities that
`create_spectrum_jonswap` returns are `U` times one positive factor, each up to one rounding, and their wave height — the exact one, and the one
that `get_Hm0` computes in double precision — is the prescribed one up to a relative error of `2 (f_max + h) / h / 2 ^ 44`: about `1.2e-13` times the
number of frequencies. -/
theorem scaled_double : ∃ S s, jonswapScaledF64 R P Q f U H = .ok S ∧ S.length = U.length ∧ (∀ v ∈ S, IsSize v) ∧ 0 < s ∧
    (∀ i < U.length, |S.getD i 0 - s * U.getD i 0| ≤ s * U.getD i 0 / 2 ^ 53) ∧
    (∃ Hc, hm0F64 R P Q f S (-1) (-1) = .ok Hc ∧ |Hc - H| ≤ 2 * ((f0 + f.length * h) / h / 2 ^ 44) * H) ∧
    ∃ Hx, calcHm0 (realList (exactAxis f0 h f.length)) ⟨[S.length], realList S⟩ (-1) (.fin (-1)) = .ok Hx ∧
      |Hx - H| ≤ 2 * (((f0 + f.length * h) / h / 2 ^ 44 : ℚ) : ℝ) * H := by
  obtain ⟨v, M', e1, dv, e2, M0, er⟩ := moment_double R P A h2 hl acc (fun s hs => (hU s hs).isSize) (m := 0) (by norm_num) (.inr ⟨rfl, rfl⟩)
  rw [hM] at e2
  obtain rfl := Except.ok.inj e2
  have hMv : M = momentValue f0 h U 0 := by
    rw [hl, momentValue_spec A.hpos A.f0_nonneg (by omega)] at hM
    exact (Except.ok.inj hM).symm
  obtain ⟨t1, t2⟩ := tol_range A h2
  have hh := A.hpos
  set t := (f0 + f.length * h) / h / 2 ^ 44 with ht
  have t0 : 0 < t := lt_of_lt_of_le (by positivity) t1
  have Mp : 0 < M := lt_of_lt_of_le (by positivity) M1
  have Hp : 0 < H := lt_of_lt_of_le (by positivity) H1
  have tM : t * M ≤ 1 / 2 ^ 20 * M := mul_le_mul_of_nonneg_right t2 M0
  have vp : 0 < v := by have := (abs_le.1 er).1; norm_num at tM; linarith
  obtain ⟨sc, s91⟩ := scale_close P Q t1 t2 ⟨M0, er⟩ M1 M2 H1 H2
  set s := P.pow (f64 (H / f64 (4 * Q.sqrt v))) 2 with hs
  have s0 : 0 < s := lt_of_lt_of_le (by positivity) s91
  have hS : jonswapScaledF64 R P Q f U H = .ok (U.map fun v => f64 (v * s)) := by
    unfold jonswapScaledF64
    rw [e1]
    simp only
    rw [if_neg (not_le.2 vp)]
  set S := U.map fun v => f64 (v * s) with hSd
  have Sl : S.length = U.length := by simp [hSd]
  have Sg : ∀ i < U.length, S.getD i 0 = f64 (U.getD i 0 * s) := fun i hi => by
    rw [List.getD_eq_getElem _ _ (by omega), List.getD_eq_getElem _ _ hi]
    simp [hSd]
  have Sc : ∀ i < U.length, |S.getD i 0 - s * U.getD i 0| ≤ s * U.getD i 0 / 2 ^ 53 := fun i hi => by
    rw [Sg i hi]; exact (scaled_one (isShape_getD hU i) s91).2
  have Ss : ∀ v ∈ S, IsSize v := by
    intro w hw
    obtain ⟨u, hu, rfl⟩ := List.mem_map.1 hw
    exact (scaled_one (hU u hu) s91).1
  -- the moment of the result
  have mS := moment_scaled (f0 := f0) hh Sl Sc
  rw [← hMv] at mS
  obtain ⟨v', M', e3, dv', e4, M0', er'⟩ := moment_double R P A h2 (hl.trans Sl.symm) acc Ss (m := 0) (by norm_num) (.inr ⟨rfl, rfl⟩)
  have hMv' : M' = momentValue f0 h S 0 := by
    rw [hl, ← Sl, momentValue_spec A.hpos A.f0_nonneg (by omega)] at e4
    exact (Except.ok.inj e4).symm
  rw [← hMv'] at mS
  rw [← ht] at er'
  have hc1 : |16 * M' - H ^ 2| ≤ 3 / 2 * t * H ^ 2 := by
    refine height_close t1 t2 (sq_nonneg H) sc ?_
    rw [show 16 * M' - 16 * M * s = 16 * (M' - s * M) by ring, abs_mul, abs_of_pos (by norm_num : (0 : ℚ) < 16)]
    calc (16 : ℚ) * |M' - s * M| ≤ 16 * (s * M / 2 ^ 53) := mul_le_mul_of_nonneg_left mS (by norm_num)
      _ = _ := by ring
  have hc2 := height_close' t1 t2 (sq_nonneg H) hc1 er'
  refine ⟨S, s, hS, Sl, Ss, s0, Sc, ?_, ?_⟩
  · have t83 : (1 : ℚ) / 2 ^ 44 ≤ 8 / 3 * t := by linarith
    have t83' : 8 / 3 * t ≤ (1 : ℚ) / 2 ^ 18 := by norm_num at t2 ⊢; linarith
    have sq := sqrt_double Q t83 t83' (v := v') (M := H ^ 2 / 16) ⟨by positivity, hc2⟩
    have rt : Real.sqrt ((H ^ 2 / 16 : ℚ) : ℝ) = H / 4 := by
      rw [show ((H ^ 2 / 16 : ℚ) : ℝ) = ((H : ℝ) / 4) ^ 2 by push_cast; ring]
      exact Real.sqrt_sq (by have : (0 : ℝ) < H := by exact_mod_cast Hp
                             positivity)
    rw [rt] at sq
    have sqq : |Q.sqrt v' - H / 4| ≤ 3 / 5 * (8 / 3 * t) * (H / 4) := by
      rw [show ((Q.sqrt v' : ℚ) : ℝ) - H / 4 = ((Q.sqrt v' - H / 4 : ℚ) : ℝ) by push_cast; ring, ← Rat.cast_abs,
        show 3 / 5 * ((8 / 3 * t : ℚ) : ℝ) * (H / 4) = ((3 / 5 * (8 / 3 * t) * (H / 4) : ℚ) : ℝ) by push_cast; ring] at sq
      exact (Rat.cast_le (K := ℝ)).1 sq
    have v'0 : 0 ≤ v' := by
      have := (abs_le.1 er').1
      have := mul_le_mul_of_nonneg_right t2 M0'
      norm_num at this
      linarith
    refine ⟨f64 (4 * Q.sqrt v'), ?_, ?_⟩
    · unfold hm0F64 setFlimF64
      simp only [if_true, e3, bind, Except.bind]
      rw [if_neg (not_lt.2 v'0)]
    · exact round_height t1 t2 H1 sqq
  · refine ⟨4 * Real.sqrt M', ?_, ?_⟩
    · have rm := real_moment A.hpos A.f0_nonneg (S := S) (by omega) 0
      rw [Sl, ← hl] at rm
      unfold calcHm0
      simp only [getD_default_limits, bind, Except.bind]
      rw [Sl, ← hl]
      simp only at rm
      rw [rm]
      simp only [← hMv']
      unfold heightOf
      rw [if_neg (not_lt.2 (by exact_mod_cast M0'))]
    · have := real_sqrt_close (t := (t : ℝ)) (m := (M' : ℝ)) (H := (H : ℝ)) (by exact_mod_cast Hp) (by exact_mod_cast M0') (by
        have := (Rat.cast_le (K := ℝ)).2 hc1
        push_cast at this
        exact this)
      refine this.trans ?_
      have : (0 : ℝ) ≤ t * H := by
        have := mul_pos t0 Hp
        exact_mod_cast this.le
      nlinarith

end

/-- The unscaled density at a frequency is a double. -/
theorem shape_isDouble (P : NpPow) (E : NpElem) (fp g fi : ℚ) : IsDouble (jonswapShapeF64 P E fp g fi) := by
  unfold jonswapShapeF64
  split
  · exact f64_double _
  · exact isDouble_zero

/-- **C182.**  `create_spectrum_jonswap` in double precision on an accepted axis: when none of its unscaled densities is tiny without being zero and their
exact zeroth moment is in range, it returns a spectrum whose wave height — exactly, and as `get_Hm0` computes it in double precision — is the
prescribed one up to the stated relative error, and the densities are the unscaled ones times one factor. -/
theorem jonswap_double (R : NpSum) (P : NpPow) (Q : NpSqrt) (E : NpElem) {f : List ℚ} {f0 h H M fp g : ℚ} (A : AxisDouble f f0 h) (h2 : 2 ≤ f.length)
    (acc : monotonicF64 f = .ok true)
    (hU : ∀ fi ∈ f, jonswapShapeF64 P E fp g fi = 0 ∨ 1 / 2 ^ 300 ≤ jonswapShapeF64 P E fp g fi)
    (hM : computeMoment (vec (exactAxis f0 h f.length)) (vec (f.map (jonswapShapeF64 P E fp g))) 0 (-1) (.fin (-1)) = .ok M)
    (M1 : 1 / 2 ^ 60 ≤ M) (M2 : M ≤ 2 ^ 40) (H1 : 1 / 2 ^ 20 ≤ H) (H2 : H ≤ 2 ^ 20) :
    ∃ S s, createSpectrumJonswapF64 R P Q E f fp H g = .ok S ∧ S.length = f.length ∧ 0 < s ∧
      (∀ i < f.length, |S.getD i 0 - s * jonswapShapeF64 P E fp g (f.getD i 0)| ≤ s * jonswapShapeF64 P E fp g (f.getD i 0) / 2 ^ 53) ∧
      (∃ Hc, hm0F64 R P Q f S (-1) (-1) = .ok Hc ∧ |Hc - H| ≤ 2 * ((f0 + f.length * h) / h / 2 ^ 44) * H) ∧
      ∃ Hx, calcHm0 (realList (exactAxis f0 h f.length)) ⟨[S.length], realList S⟩ (-1) (.fin (-1)) = .ok Hx ∧
        |Hx - H| ≤ 2 * (((f0 + f.length * h) / h / 2 ^ 44 : ℚ) : ℝ) * H := by
  have hU' : ∀ s ∈ f.map (jonswapShapeF64 P E fp g), IsShape s := by
    intro s hs
    obtain ⟨fi, hfi, rfl⟩ := List.mem_map.1 hs
    exact ⟨shape_isDouble P E fp g fi, hU fi hfi⟩
  obtain ⟨S, s, e, l, -, s0, c, r1, r2⟩ := scaled_double R P Q A h2 (by simp) acc hU' hM M1 M2 H1 H2
  refine ⟨S, s, ?_, by simpa using l, s0, fun i hi => ?_, r1, r2⟩
  · unfold createSpectrumJonswapF64
    rw [if_neg (by rintro rfl; simp at h2)]
    exact e
  · have := c i (by simpa using hi)
    rwa [List.getD_eq_getElem (f.map _) _ (by simpa using hi), List.getElem_map, ← List.getD_eq_getElem (d := 0)] at this

theorem shapes_four : ∀ s ∈ ([0, 1, 3, 2] : List ℚ), IsShape s := fun s hs => ⟨(densities_four s hs).1, by
  simp only [List.mem_cons, List.not_mem_nil, or_false] at hs
  have : (1 : ℚ) / 2 ^ 300 ≤ 1 / 2 ^ 0 := inv_pow_le (by omega)
  rcases hs with rfl | rfl | rfl | rfl
  · exact .inl rfl
  all_goals exact .inr (by linarith)⟩

/-- The scaling theorem on a small spectrum with prescribed height 2. -/
example (R : NpSum) (P : NpPow) (Q : NpSqrt) : ∃ S s, jonswapScaledF64 R P Q quarterAxis [0, 1, 3, 2] 2 = .ok S ∧ S.length = 4 ∧ (∀ v ∈ S, IsSize v) ∧ 0 < s ∧
    (∀ i < 4, |S.getD i 0 - s * ([0, 1, 3, 2] : List ℚ).getD i 0| ≤ s * ([0, 1, 3, 2] : List ℚ).getD i 0 / 2 ^ 53) ∧
    (∃ Hc, hm0F64 R P Q quarterAxis S (-1) (-1) = .ok Hc ∧ |Hc - 2| ≤ 2 * ((0 + (4 : ℕ) * (1 / 4)) / (1 / 4) / 2 ^ 44) * 2) ∧
    ∃ Hx, calcHm0 (realList (exactAxis 0 (1 / 4) 4)) ⟨[S.length], realList S⟩ (-1) (.fin (-1)) = .ok Hx ∧
      |Hx - (2 : ℚ)| ≤ 2 * (((0 + (4 : ℕ) * (1 / 4)) / (1 / 4) / 2 ^ 44 : ℚ) : ℝ) * (2 : ℚ) :=
  scaled_double R P Q quarterAxis_double (by simp) (U := [0, 1, 3, 2]) rfl quarterAxis_accepted shapes_four (M := 61 / 48)
    ((momentValue_spec (f0 := 0) (h := 1 / 4) (S := [0, 1, 3, 2]) (by norm_num) le_rfl (by simp) 0).trans (by rw [small_spectrum.1]))
    (by norm_num) (by norm_num) (by norm_num) (by norm_num)

end Verif
