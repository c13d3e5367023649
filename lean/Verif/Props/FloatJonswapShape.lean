import Verif.Props.FloatJonswap
import Verif.Props.FloatSynthDraw

/-! # C183: the shape of a JONSWAP spectrum in double precision -/

set_option linter.unusedSectionVars false

namespace Verif

/-! ## Relative errors in units of `2 ^ -53` -/

/-- Specification: `X` approximates `x` with a relative error of `k / 2 ^ 53`. -/
def RelErr (k X x : ℝ) : Prop := |X - x| ≤ k / 2 ^ 53 * x

theorem RelErr.mono {k l X x : ℝ} (h : RelErr k X x) (hx : 0 ≤ x) (hk : k ≤ l) : RelErr l X x :=
  h.trans (mul_le_mul_of_nonneg_right (div_le_div_of_nonneg_right hk (by positivity)) hx)

theorem RelErr.refl (x : ℝ) : RelErr 0 x x := by unfold RelErr; simp

theorem RelErr.upper {k X x : ℝ} (h : RelErr k X x) (hx : 0 ≤ x) (hk : k ≤ 2 ^ 20) : |X| ≤ (1 + 1 / 2 ^ 33) * x ∧ (1 - 1 / 2 ^ 33) * x ≤ X := by
  have h' := h.mono hx hk
  unfold RelErr at h'
  have e : (2 : ℝ) ^ 20 / 2 ^ 53 = 1 / 2 ^ 33 := by norm_num
  rw [e] at h'
  obtain ⟨a, b⟩ := abs_le.1 h'
  refine ⟨?_, by linarith⟩
  rw [abs_le]
  norm_num at *
  constructor <;> linarith

theorem RelErr.mul {k l X x Y y : ℝ} (h : RelErr k X x) (h' : RelErr l Y y) (hx : 0 ≤ x) (hy : 0 ≤ y) (_k0 : 0 ≤ k) (hk : k ≤ 2 ^ 20) (l0 : 0 ≤ l)
    (hl : l ≤ 2 ^ 20) : RelErr (k + l + 1) (X * Y) (x * y) := by
  have m := mul_err h h'
  rw [abs_of_nonneg hx, abs_of_nonneg hy] at m
  unfold RelErr
  refine m.trans ?_
  have kl : k * l ≤ 2 ^ 20 * 2 ^ 20 := mul_le_mul hk hl l0 (by positivity)
  have : k * l / 2 ^ 53 ≤ 1 := by rw [div_le_one (by positivity)]; norm_num at kl ⊢; linarith
  have xy : 0 ≤ x * y := mul_nonneg hx hy
  calc k / 2 ^ 53 * x * (y + l / 2 ^ 53 * y) + x * (l / 2 ^ 53 * y) = (k + l + k * l / 2 ^ 53) / 2 ^ 53 * (x * y) := by ring
    _ ≤ (k + l + 1) / 2 ^ 53 * (x * y) := by gcongr

theorem RelErr.inv {k X x : ℝ} (h : RelErr k X x) (hx : 0 < x) (k0 : 0 ≤ k) (hk : k ≤ 2 ^ 20) : RelErr (k + 1) X⁻¹ x⁻¹ := by
  have lo : (1 - k / 2 ^ 53) * x ≤ X := by
    have := (abs_le.1 h).1
    linarith
  have kk : k * (k + 1) ≤ 2 ^ 20 * (2 ^ 20 + 1) := mul_le_mul hk (by linarith) (by linarith) (by positivity)
  have k1 : k / 2 ^ 53 ≤ 1 / 2 := by rw [div_le_iff₀ (by positivity)]; norm_num at hk ⊢; linarith
  have X0 : 0 < X := lt_of_lt_of_le (mul_pos (by linarith) hx) lo
  unfold RelErr
  rw [inv_sub_inv X0.ne' hx.ne', abs_div, abs_of_pos (mul_pos X0 hx), div_le_iff₀ (mul_pos X0 hx), abs_sub_comm]
  have e : (k + 1) / 2 ^ 53 * x⁻¹ * (X * x) = (k + 1) / 2 ^ 53 * X := by field_simp
  rw [e]
  refine le_trans h ?_
  have g : k / 2 ^ 53 ≤ (k + 1) / 2 ^ 53 * (1 - k / 2 ^ 53) := by
    have e2 : (k + 1) / 2 ^ 53 * (1 - k / 2 ^ 53) - k / 2 ^ 53 = (1 - k * (k + 1) / 2 ^ 53) / 2 ^ 53 := by ring
    have : k * (k + 1) / 2 ^ 53 ≤ 1 := by rw [div_le_one (by positivity)]; norm_num at kk ⊢; linarith
    have : 0 ≤ (1 - k * (k + 1) / 2 ^ 53) / 2 ^ 53 := div_nonneg (by linarith) (by positivity)
    linarith
  calc k / 2 ^ 53 * x ≤ (k + 1) / 2 ^ 53 * (1 - k / 2 ^ 53) * x := mul_le_mul_of_nonneg_right g hx.le
    _ = (k + 1) / 2 ^ 53 * ((1 - k / 2 ^ 53) * x) := by ring
    _ ≤ _ := mul_le_mul_of_nonneg_left lo (by positivity)

theorem RelErr.round {k x : ℝ} {z : ℚ} (h : RelErr k z x) (hx : 1 / 2 ^ 190 ≤ x) (hk : k ≤ 2 ^ 20) : RelErr (k + 2) (f64 z : ℚ) x := by
  have x0 : 0 < x := lt_of_lt_of_le (by positivity) hx
  obtain ⟨u1, u2⟩ := h.upper x0.le hk
  have hz : (1 : ℚ) / 2 ^ 200 ≤ |z| := by
    have : (1 : ℝ) / 2 ^ 200 ≤ |(z : ℝ)| := by
      refine le_trans ?_ (u2.trans (le_abs_self _))
      have e : (1 : ℝ) / 2 ^ 200 = 1 / 2 ^ 190 * (1 / 2 ^ 10) := by rw [show (200 : ℕ) = 190 + 10 by norm_num, pow_add]; field_simp
      rw [e]
      norm_num at *
      linarith
    have e : (((1 : ℚ) / 2 ^ 200 : ℚ) : ℝ) = 1 / 2 ^ 200 := by push_cast; rfl
    rw [← e, ← Rat.cast_abs] at this
    exact (Rat.cast_le (K := ℝ)).1 this
  have er := (Rat.cast_le (K := ℝ)).2 (f64_error hz)
  push_cast at er
  unfold RelErr at *
  have t := abs_sub_le (f64 z : ℝ) z x
  have : |(z : ℝ)| / 2 ^ 53 ≤ (1 + 1 / 2 ^ 33) * x / 2 ^ 53 := div_le_div_of_nonneg_right u1 (by positivity)
  have e : (k + 2) / 2 ^ 53 * x = k / 2 ^ 53 * x + 2 * x / 2 ^ 53 := by ring
  rw [e]
  norm_num at *
  linarith

/-- A further relative error of `2 ^ -52`. -/
theorem RelErr.step {k X x Y : ℝ} (h : RelErr k X x) (hx : 0 ≤ x) (hk : k ≤ 2 ^ 20) (hY : |Y - X| ≤ X / 2 ^ 52) : RelErr (k + 3) Y x := by
  obtain ⟨u1, -⟩ := h.upper hx hk
  unfold RelErr at *
  have t := abs_sub_le Y X x
  have : X / 2 ^ 52 ≤ (1 + 1 / 2 ^ 33) * x / 2 ^ 52 := div_le_div_of_nonneg_right ((le_abs_self _).trans u1) (by positivity)
  have e : (k + 3) / 2 ^ 53 * x = k / 2 ^ 53 * x + 3 * x / 2 ^ 53 := by ring
  rw [e]
  norm_num at *
  linarith

theorem RelErr.sq {k X x : ℝ} (h : RelErr k X x) (hx : 0 ≤ x) (k0 : 0 ≤ k) (hk : k ≤ 2 ^ 20) : RelErr (2 * k + 1) (X ^ 2) (x ^ 2) := by
  have := h.mul h hx hx k0 hk k0 hk
  rw [← pow_two, ← pow_two] at this
  exact this.mono (sq_nonneg x) (by linarith)

/-- The inverse of a fourth power. -/
theorem RelErr.inv_four {k X x : ℝ} (h : RelErr k X x) (hx : 0 < x) (k0 : 0 ≤ k) (hk : k ≤ 2 ^ 10) :
    RelErr (4 * k + 7) (X ^ (-4 : ℤ)) (x ^ (-4 : ℤ)) := by
  have a := ((h.inv hx k0 (by linarith [show (2 : ℝ) ^ 10 ≤ 2 ^ 20 by norm_num])).sq (inv_pos.2 hx).le (by linarith) (by norm_num at *; linarith)).sq
    (sq_nonneg _) (by linarith) (by norm_num at *; linarith)
  have e : ∀ y : ℝ, (y⁻¹ ^ 2) ^ 2 = y ^ (-4 : ℤ) := fun y => by
    rw [← pow_mul, inv_pow, zpow_neg]
    rfl
  rw [e, e] at a
  exact a.mono (zpow_nonneg hx.le _) (by linarith)

/-! ## Library functions -/

/-- `x ** n` up to `|n| = 5`, and the square of a negative number.  (`NpPow` states the accuracy up to `|n| = 3` and for positive numbers.) -/
structure NpPow5 extends NpPow where
  spec5 : ∀ x n, 1 / 2 ^ 200 ≤ x → x ≤ 2 ^ 200 → |n| ≤ 5 → |pow x n - x ^ n| ≤ x ^ n / 2 ^ 52
  sq_neg : ∀ x, pow (-x) 2 = pow x 2

theorem pow_cast (P : NpPow5) {x : ℚ} {n : ℤ} (h1 : 1 / 2 ^ 200 ≤ x) (h2 : x ≤ 2 ^ 200) (hn : |n| ≤ 5) :
    |(P.pow x n : ℝ) - (x : ℝ) ^ n| ≤ (x : ℝ) ^ n / 2 ^ 52 := by
  have := (Rat.cast_le (K := ℝ)).2 (P.spec5 x n h1 h2 hn)
  push_cast at this
  exact this

/-- The exponential of a rounded number, absolutely. -/
theorem exp_close (E : NpElem) {Z : ℚ} {z k : ℝ} (hZ : Z ≤ 0) (k0 : 0 ≤ k) (hk : k ≤ 2 ^ 20) (h : |(Z : ℝ) - z| ≤ k / 2 ^ 53) :
    |(E.exp Z : ℝ) - Real.exp z| ≤ (k + 10) / 2 ^ 53 * Real.exp z + 1 / 2 ^ 200 := by
  have sp := E.exp_spec Z hZ
  have ez : Real.exp Z = Real.exp z * Real.exp (Z - z) := by rw [← Real.exp_add]; congr 1; ring
  have kk : k / 2 ^ 53 ≤ 1 / 2 ^ 33 := by rw [div_le_iff₀ (by positivity)]; norm_num at *; linarith
  have q := Real.abs_exp_sub_one_sub_id_le (x := (Z : ℝ) - z) (h.trans (kk.trans (by norm_num)))
  have sq : ((Z : ℝ) - z) ^ 2 ≤ k / 2 ^ 53 * (1 / 2 ^ 33) := by
    rw [← sq_abs, _root_.sq]
    exact mul_le_mul h (h.trans kk) (abs_nonneg _) (by positivity)
  have sq' : k / 2 ^ 53 * (1 / 2 ^ 33) ≤ 1 / 2 / 2 ^ 53 := by
    norm_num at *
    linarith
  have d : |Real.exp (Z - z) - 1| ≤ (k + 1 / 2) / 2 ^ 53 := by
    have t := abs_sub_le (Real.exp ((Z : ℝ) - z) - 1) ((Z : ℝ) - z) 0
    rw [sub_zero, sub_zero] at t
    have e : (k + 1 / 2) / 2 ^ 53 = k / 2 ^ 53 + 1 / 2 / 2 ^ 53 := by ring
    rw [e]
    linarith
  have ep := Real.exp_pos z
  have d2 : |Real.exp Z - Real.exp z| ≤ (k + 1 / 2) / 2 ^ 53 * Real.exp z := by
    rw [ez, show Real.exp z * Real.exp (Z - z) - Real.exp z = (Real.exp (Z - z) - 1) * Real.exp z by ring, abs_mul, abs_of_pos ep]
    exact mul_le_mul_of_nonneg_right d ep.le
  have up : Real.exp Z ≤ (1 + 1 / 16) * Real.exp z := by
    have a := (abs_le.1 d2).2
    have : (k + 1 / 2) / 2 ^ 53 * Real.exp z ≤ 1 / 16 * Real.exp z := by
      refine mul_le_mul_of_nonneg_right ?_ ep.le
      rw [div_le_iff₀ (by positivity)]
      norm_num at *
      linarith
    linarith
  have t := abs_sub_le (E.exp Z : ℝ) (Real.exp Z) (Real.exp z)
  have e : (k + 10) / 2 ^ 53 * Real.exp z = (k + 1 / 2) / 2 ^ 53 * Real.exp z + 19 / 2 / 2 ^ 53 * Real.exp z := by ring
  rw [e]
  have u2 : Real.exp Z / 2 ^ 50 ≤ (1 + 1 / 16) * Real.exp z / 2 ^ 50 := div_le_div_of_nonneg_right up (by positivity)
  have u3 : (1 + 1 / 16) * Real.exp z / 2 ^ 50 ≤ 19 / 2 / 2 ^ 53 * Real.exp z := by
    norm_num
    linarith
  linarith

theorem exp_lower {z : ℝ} (hz : -50 ≤ z) : 1 / 2 ^ 100 ≤ Real.exp z := by
  have h1 : Real.exp 1 ≤ 4 := by have := Real.exp_one_lt_d9; linarith
  have h2 : Real.exp 50 ≤ 2 ^ 100 := by
    have : Real.exp 50 = Real.exp 1 ^ 50 := by rw [← Real.exp_nat_mul]; norm_num
    rw [this]
    calc Real.exp 1 ^ 50 ≤ 4 ^ 50 := pow_le_pow_left₀ (Real.exp_pos _).le h1 _
      _ = 2 ^ 100 := by norm_num
  calc (1 : ℝ) / 2 ^ 100 ≤ 1 / Real.exp 50 := one_div_le_one_div_of_le (Real.exp_pos _) h2
    _ = Real.exp (-50) := by rw [Real.exp_neg, one_div]
    _ ≤ _ := Real.exp_le_exp.2 hz

/-- The exponential of a number that is not too negative, relatively. -/
theorem exp_close_rel (E : NpElem) {Z : ℚ} {z k : ℝ} (hZ : Z ≤ 0) (k0 : 0 ≤ k) (hk : k ≤ 2 ^ 20) (h : |(Z : ℝ) - z| ≤ k / 2 ^ 53) (hz : -50 ≤ z) :
    RelErr (k + 11) (E.exp Z : ℚ) (Real.exp z) := by
  have a := exp_close E hZ k0 hk h
  have l := exp_lower hz
  have : (1 : ℝ) / 2 ^ 200 ≤ 1 / 2 ^ 53 * Real.exp z := by
    calc (1 : ℝ) / 2 ^ 200 ≤ 1 / 2 ^ 53 * (1 / 2 ^ 100) := by norm_num
      _ ≤ _ := mul_le_mul_of_nonneg_left l (by positivity)
  unfold RelErr
  have e : (k + 11) / 2 ^ 53 * Real.exp z = (k + 10) / 2 ^ 53 * Real.exp z + 1 / 2 ^ 53 * Real.exp z := by ring
  rw [e]
  linarith

/-! ## The pieces of the density -/

/-- The scaling constant. -/
noncomputable def jonswapConst : ℝ := 1 * (981 / 100) ^ 2 * (2 * Real.pi) ^ (-4 : ℤ)

theorem relErr_self_round {z : ℚ} {x : ℝ} (e : (z : ℝ) = x) (hx : 1 / 2 ^ 190 ≤ x) : RelErr 2 (f64 z : ℚ) x := by
  have := RelErr.round (k := 0) (z := z) (x := x) (by rw [e]; exact RelErr.refl x) hx (by norm_num)
  rwa [zero_add] at this

theorem const_lower : (1 : ℝ) / 2 ^ 5 ≤ jonswapConst := by
  unfold jonswapConst
  have p2 := Real.pi_lt_d20
  have p0 := Real.pi_pos
  have h : (2 * Real.pi) ^ (4 : ℕ) ≤ (63 / 10) ^ 4 := pow_le_pow_left₀ (by positivity) (by norm_num at p2 ⊢; linarith) _
  have h0 : 0 < (2 * Real.pi) ^ (4 : ℕ) := by positivity
  rw [zpow_neg, show (2 * Real.pi) ^ (4 : ℤ) = (2 * Real.pi) ^ (4 : ℕ) from rfl, ← div_eq_mul_inv, le_div_iff₀ h0]
  refine (mul_le_mul_of_nonneg_left h (by positivity)).trans ?_
  norm_num

theorem const_close (P : NpPow5) : RelErr 25 (jonswapConstF64 P.toNpPow : ℚ) jonswapConst := by
  have hg : RelErr 2 (f64 (981 / 100) : ℚ) (981 / 100) := relErr_self_round (by norm_num) (by norm_num)
  have g1 : RelErr 5 ((f64 (981 / 100) : ℚ) ^ 2 : ℝ) ((981 / 100) ^ 2) := (hg.sq (by norm_num) (by norm_num) (by norm_num)).mono (by positivity) (by norm_num)
  have gr : (9 : ℚ) ≤ f64 (981 / 100) ∧ f64 (981 / 100) ≤ 10 :=
    ⟨(f64_mono_double (by exact_mod_cast isDouble_nat (n := 9) (by norm_num))).1 (by norm_num),
      (f64_mono_double (by exact_mod_cast isDouble_nat (n := 10) (by norm_num))).2 (by norm_num)⟩
  have g2 : RelErr 8 (P.pow (f64 (981 / 100)) 2 : ℚ) ((981 / 100) ^ 2) := by
    have := pow_cast P (x := f64 (981 / 100)) (n := 2) (le_trans (by norm_num) gr.1) (gr.2.trans (by norm_num)) (by norm_num)
    exact (g1.step (by positivity) (by norm_num) this).mono (by positivity) (by norm_num)
  have hpi : RelErr 1 (twoPiF64 : ℚ) (2 * Real.pi) := by
    have p1 := Real.pi_gt_d20
    have p2 := Real.pi_lt_d20
    unfold RelErr twoPiF64
    push_cast
    rw [abs_le]
    norm_num at p1 p2 ⊢
    constructor <;> linarith
  have p4 := (hpi.inv_four (by positivity) (by norm_num) (by norm_num)).mono (l := 11) (zpow_nonneg (by positivity) _) (by norm_num)
  have tp : (6 : ℚ) ≤ twoPiF64 ∧ twoPiF64 ≤ 7 := by norm_num [twoPiF64]
  have p5 : RelErr 14 (P.pow twoPiF64 (-4) : ℚ) ((2 * Real.pi) ^ (-4 : ℤ)) := by
    have := pow_cast P (x := twoPiF64) (n := -4) (le_trans (by norm_num) tp.1) (tp.2.trans (by norm_num)) (by norm_num)
    exact (p4.step (zpow_nonneg (by positivity) _) (by norm_num) this).mono (zpow_nonneg (by positivity) _) (by norm_num)
  have m := (g2.mul p5 (by positivity) (zpow_nonneg (by positivity) _) (by norm_num) (by norm_num) (by norm_num) (by norm_num))
  have e : (981 / 100 : ℝ) ^ 2 * (2 * Real.pi) ^ (-4 : ℤ) = jonswapConst := by unfold jonswapConst; ring
  rw [e] at m
  unfold jonswapConstF64
  have c := const_lower
  refine (RelErr.round (z := P.pow (f64 (981 / 100)) 2 * P.pow twoPiF64 (-4)) (by push_cast; exact m) (le_trans ?_ c) (by norm_num)).mono
    (le_trans (by positivity) c) (by norm_num)
  norm_num

/-- The ratio of the frequency to the peak frequency. -/
theorem ratio_close {fi fp : ℚ} {x : ℝ} (hx : x = (fi : ℝ) / fp) (x1 : 2 / 5 ≤ x) : RelErr 2 (f64 (fi / fp) : ℚ) x :=
  relErr_self_round (by push_cast; rw [hx]) (le_trans (by norm_num) x1)

/-- The exponential decay towards low frequencies. -/
theorem decay_close (P : NpPow5) (E : NpElem) {fi fp : ℚ} {x : ℝ} (hx : x = (fi : ℝ) / fp) (x1 : 2 / 5 ≤ x) (x2 : x ≤ 2 ^ 40) :
    RelErr 2000 (E.exp (f64 (f64 (-(125 / 100)) * P.pow (f64 (fi / fp)) (-4))) : ℚ) (Real.exp (-(125 / 100) * x ^ (-4 : ℤ))) := by
  have x0 : 0 < x := by linarith
  have r := ratio_close hx x1
  have hxq : ((fi / fp : ℚ) : ℝ) = x := by rw [hx]; push_cast; rfl
  have nu1 : (1 / 4 : ℚ) ≤ f64 (fi / fp) := (f64_mono_double ⟨1, -2, by norm_num, by norm_num, by norm_num⟩).1 (by
    have : ((1 / 4 : ℚ) : ℝ) ≤ ((fi / fp : ℚ) : ℝ) := by rw [hxq]; push_cast; linarith
    exact (Rat.cast_le (K := ℝ)).1 this)
  have nu2 : f64 (fi / fp) ≤ 2 ^ 40 := (f64_mono_double ⟨1, 40, by norm_num, by norm_num, by norm_num⟩).2 (by
    have : ((fi / fp : ℚ) : ℝ) ≤ ((2 ^ 40 : ℚ) : ℝ) := by rw [hxq]; push_cast; exact x2
    exact (Rat.cast_le (K := ℝ)).1 this)
  have p := (r.inv_four x0 (by norm_num) (by norm_num)).step (Y := (P.pow (f64 (fi / fp)) (-4) : ℚ)) (zpow_nonneg x0.le _) (by norm_num)
    (pow_cast P (le_trans (by norm_num) nu1) (nu2.trans (by norm_num)) (by norm_num))
  have e54 : f64 (-(125 / 100)) = -(5 / 4) := by
    rw [show -(125 / 100 : ℚ) = -(5 / 4) by norm_num]
    exact f64_of_double ⟨-5, -2, by norm_num, by norm_num, by norm_num⟩
  rw [e54]
  have y0 : 0 < x ^ (-4 : ℤ) := zpow_pos x0 _
  have y1 : x ^ (-4 : ℤ) ≤ 40 := by
    rw [zpow_neg, show x ^ (4 : ℤ) = x ^ (4 : ℕ) from rfl]
    have : (2 / 5 : ℝ) ^ 4 ≤ x ^ 4 := pow_le_pow_left₀ (by norm_num) x1 4
    calc (x ^ 4)⁻¹ ≤ ((2 / 5 : ℝ) ^ 4)⁻¹ := inv_anti₀ (by norm_num) this
      _ ≤ 40 := by norm_num
  set p4 := P.pow (f64 (fi / fp)) (-4) with hp4
  set y := x ^ (-4 : ℤ) with hy
  have p0 : (0 : ℝ) ≤ p4 := by
    have := (p.upper y0.le (by norm_num)).2
    refine le_trans ?_ this
    positivity
  have rd := f64_rd (-(5 / 4) * p4)
  push_cast at rd
  have nn : f64 (-(5 / 4) * p4) ≤ 0 := (f64_mono_double isDouble_zero).2 (by
    have : (0 : ℚ) ≤ p4 := by exact_mod_cast p0
    linarith)
  refine (exp_close_rel E (k := 1900) nn (by norm_num) (by norm_num) ?_ ?_).mono (Real.exp_pos _).le (by norm_num)
  · have z : |-(5 / 4) * (p4 : ℝ) - -(125 / 100) * y| ≤ 5 / 4 * (18 / 2 ^ 53 * 40) := by
      rw [show -(5 / 4) * (p4 : ℝ) - -(125 / 100) * y = -(5 / 4) * (p4 - y) by ring, abs_mul, abs_neg, abs_of_pos (by norm_num : (0 : ℝ) < 5 / 4)]
      refine mul_le_mul_of_nonneg_left ?_ (by norm_num)
      unfold RelErr at p
      refine p.trans ?_
      norm_num at *
      linarith
    have er := rd.err z
    have : |-(125 / 100) * y| ≤ 50 := by
      rw [abs_mul, abs_of_pos y0]
      norm_num
      linarith
    refine er.trans ?_
    norm_num at *
    linarith
  · norm_num
    linarith

/-! ## The peak enhancement -/

/-- A double between 1/4 and 8 is 1 or not closer to 1 than `2 ^ -60`. -/
theorem away_from_one {y : ℚ} (hd : IsDouble y) (h1 : 1 / 4 ≤ y) : y - 1 = 0 ∨ 1 / 2 ^ 60 ≤ |y - 1| := by
  obtain ⟨m, e, hm, -, rfl⟩ := hd
  have e0 : (0 : ℚ) < 2 ^ e := by positivity
  have he : -56 ≤ e := by
    by_contra hc
    have h3 : (2 : ℚ) ^ e ≤ 2 ^ (-57 : ℤ) := zpow_le_zpow_right₀ (by norm_num) (by omega)
    have hm' : (m : ℚ) ≤ 2 ^ 53 := by exact_mod_cast (le_abs_self m).trans hm
    have : (m : ℚ) * 2 ^ e ≤ 2 ^ 53 * 2 ^ (-57 : ℤ) :=
      (mul_le_mul_of_nonneg_right hm' e0.le).trans (mul_le_mul_of_nonneg_left h3 (by positivity))
    rw [show (2 : ℚ) ^ 53 * 2 ^ (-57 : ℤ) = 1 / 16 by norm_num] at this
    generalize (m : ℚ) * 2 ^ e = v at *
    norm_num at h1 this
    linarith
  obtain ⟨k, hk⟩ := Int.eq_ofNat_of_zero_le (by omega : 0 ≤ e + 56)
  have ee : (2 : ℚ) ^ e = 2 ^ k / 2 ^ 56 := by
    rw [show e = (k : ℤ) - 56 by omega, zpow_sub₀ (by norm_num), zpow_natCast]
    norm_num
  have key : (m : ℚ) * 2 ^ e - 1 = ((m * 2 ^ k - 2 ^ 56 : ℤ) : ℚ) / 2 ^ 56 := by
    rw [ee]; push_cast; field_simp; norm_num
  rw [key]
  rcases eq_or_ne (m * 2 ^ k - 2 ^ 56) 0 with z | z
  · left; rw [z]; simp
  · right
    rw [abs_div, abs_of_pos (by positivity : (0 : ℚ) < 2 ^ 56), div_le_div_iff₀ (by positivity) (by positivity)]
    have : (1 : ℚ) ≤ |((m * 2 ^ k - 2 ^ 56 : ℤ) : ℚ)| := by exact_mod_cast Int.one_le_abs z
    norm_num at *
    linarith

/-- The square of the rounded difference. -/
theorem square_close (P : NpPow5) {y : ℚ} (hd : IsDouble y) (h1 : 1 / 4 ≤ y) (h2 : y ≤ 2 ^ 40) :
    |(P.pow (f64 (y - 1)) 2 : ℝ) - ((f64 (y - 1) : ℚ) : ℝ) ^ 2| ≤ ((f64 (y - 1) : ℚ) : ℝ) ^ 2 / 2 ^ 52 := by
  have key : ∀ D : ℚ, D = 0 ∨ (1 / 2 ^ 200 ≤ |D| ∧ |D| ≤ 2 ^ 200) → |P.pow D 2 - D ^ 2| ≤ D ^ 2 / 2 ^ 52 := by
    rintro D (rfl | ⟨a, b⟩)
    · rw [P.zero 2 (by norm_num)]; norm_num
    · have hp := P.spec5 |D| 2 a b (by norm_num)
      have e : P.pow |D| 2 = P.pow D 2 := by
        rcases abs_choice D with h | h <;> rw [h]
        exact P.sq_neg D
      rw [e, zpow_ofNat, sq_abs] at hp
      exact hp
  have := key (f64 (y - 1)) ?_
  · have := (Rat.cast_le (K := ℝ)).2 this
    push_cast at this
    exact this
  · rcases away_from_one hd h1 with z | z
    · left; rw [z, f64_zero]
    · right
      have er := f64_error (x := y - 1) (le_trans (by norm_num) z)
      obtain ⟨a, b⟩ := abs_le.1 ((abs_abs_sub_abs_le_abs_sub _ _).trans er)
      have u : |y - 1| ≤ 2 ^ 41 := by
        rw [abs_le]
        norm_num at *
        constructor <;> linarith
      constructor
      · refine le_trans ?_ (by linarith : |y - 1| - |y - 1| / 2 ^ 53 ≤ |f64 (y - 1)|)
        norm_num at *
        linarith
      · refine (by linarith : |f64 (y - 1)| ≤ |y - 1| + |y - 1| / 2 ^ 53).trans ?_
        norm_num at *
        linarith

/-- Twice the squared width of the peak. -/
theorem width_close (P : NpPow5) {s : ℚ} (s1 : 1 / 16 ≤ s) (s2 : s ≤ 1) : RelErr 10 (f64 (2 * P.pow (f64 s) 2) : ℚ) (2 * (s : ℝ) ^ 2) := by
  have r1 : (1 / 16 : ℝ) ≤ s := by
    have := (Rat.cast_le (K := ℝ)).2 s1
    push_cast at this
    exact this
  have s0 : (0 : ℝ) ≤ s := le_trans (by norm_num) r1
  have h := relErr_self_round (z := s) (x := s) rfl (le_trans (by norm_num) r1)
  have b1 : (1 / 16 : ℚ) ≤ f64 s := (f64_mono_double ⟨1, -4, by norm_num, by norm_num, by norm_num⟩).1 s1
  have b2 : f64 s ≤ 1 := (f64_mono_double (by exact_mod_cast isDouble_nat (n := 1) (by norm_num))).2 s2
  have p := (h.sq s0 (by norm_num) (by norm_num)).step (Y := (P.pow (f64 s) 2 : ℚ)) (sq_nonneg _) (by norm_num)
    (pow_cast P (n := 2) (le_trans (by norm_num) b1) (b2.trans (by norm_num)) (by norm_num))
  have sq1 : (1 / 16 : ℝ) ^ 2 ≤ (s : ℝ) ^ 2 := pow_le_pow_left₀ (by norm_num) r1 2
  refine (RelErr.round (k := 8) (x := 2 * (s : ℝ) ^ 2) ?_ ?_ (by norm_num)).mono (by positivity) (by norm_num)
  · unfold RelErr at *
    push_cast
    rw [← mul_sub, abs_mul, abs_of_pos (by norm_num : (0 : ℝ) < 2)]
    norm_num at *
    linarith
  · norm_num at *
    linarith

theorem exp_tiny {z : ℝ} (hz : z ≤ -500) : Real.exp z ≤ 1 / 2 ^ 200 := by
  have h2 : (2 : ℝ) ^ 200 ≤ Real.exp 500 := by
    have e : Real.exp 500 = Real.exp 1 ^ 500 := by rw [← Real.exp_nat_mul]; norm_num
    have h1 : (2 : ℝ) ≤ Real.exp 1 := by have := Real.exp_one_gt_d9; linarith
    rw [e]
    calc (2 : ℝ) ^ 200 ≤ 2 ^ 500 := pow_le_pow_right₀ (by norm_num) (by norm_num)
      _ ≤ _ := pow_le_pow_left₀ (by norm_num) h1 _
  calc Real.exp z ≤ Real.exp (-500) := Real.exp_le_exp.2 hz
    _ = 1 / Real.exp 500 := by rw [Real.exp_neg, one_div]
    _ ≤ _ := one_div_le_one_div_of_le (by positivity) h2

/-- The exponent of the peak enhancement factor. -/
theorem peak_exponent_close (P : NpPow5) (E : NpElem) (hE : ∀ z, 0 ≤ E.exp z) {fi fp s : ℚ} {x : ℝ} (hx : x = (fi : ℝ) / fp) (x1 : 2 / 5 ≤ x)
    (x2 : x ≤ 2 ^ 40) (s1 : 7 / 100 ≤ s) (s2 : s ≤ 9 / 100) :
    |(E.exp (f64 (-(P.pow (f64 (f64 (fi / fp) - 1)) 2) / f64 (2 * P.pow (f64 s) 2))) : ℝ) - Real.exp (-((x - 1) ^ 2) / (2 * (s : ℝ) ^ 2))| ≤ 2 ^ 15 / 2 ^ 53 := by
  have x0 : 0 < x := by linarith
  have r := ratio_close hx x1
  have hxq : ((fi / fp : ℚ) : ℝ) = x := by rw [hx]; push_cast; rfl
  have nu1 : (1 / 4 : ℚ) ≤ f64 (fi / fp) := (f64_mono_double ⟨1, -2, by norm_num, by norm_num, by norm_num⟩).1 (by
    have : ((1 / 4 : ℚ) : ℝ) ≤ ((fi / fp : ℚ) : ℝ) := by rw [hxq]; push_cast; linarith
    exact (Rat.cast_le (K := ℝ)).1 this)
  have nu2 : f64 (fi / fp) ≤ 2 ^ 40 := (f64_mono_double ⟨1, 40, by norm_num, by norm_num, by norm_num⟩).2 (by
    have : ((fi / fp : ℚ) : ℝ) ≤ ((2 ^ 40 : ℚ) : ℝ) := by rw [hxq]; push_cast; exact x2
    exact (Rat.cast_le (K := ℝ)).1 this)
  have nu4 : 4 ≤ x → (3 : ℚ) ≤ f64 (f64 (fi / fp) - 1) := fun h => by
    refine (f64_mono_double (by exact_mod_cast isDouble_nat (n := 3) (by norm_num))).1 ?_
    have : (4 : ℚ) ≤ f64 (fi / fp) := (f64_mono_double (by exact_mod_cast isDouble_nat (n := 4) (by norm_num))).1 (by
      have : ((4 : ℚ) : ℝ) ≤ ((fi / fp : ℚ) : ℝ) := by rw [hxq]; push_cast; exact h
      exact (Rat.cast_le (K := ℝ)).1 this)
    linarith
  have sqc := square_close P (f64_double (fi / fp)) nu1 nu2
  have wc := width_close P (s := s) (by linarith) (by linarith)
  have rd := f64_rd (f64 (fi / fp) - 1)
  push_cast at rd
  set nu := f64 (fi / fp) with hnu
  set D := f64 (nu - 1) with hD
  set p := P.pow D 2 with hp
  set w' := f64 (2 * P.pow (f64 s) 2) with hw'
  have sr1 : (7 / 100 : ℝ) ≤ s := by
    have := (Rat.cast_le (K := ℝ)).2 s1
    push_cast at this
    exact this
  have sr2 : (s : ℝ) ≤ 9 / 100 := by
    have := (Rat.cast_le (K := ℝ)).2 s2
    push_cast at this
    exact this
  have w1 : (98 / 10000 : ℝ) ≤ 2 * (s : ℝ) ^ 2 := by
    have := pow_le_pow_left₀ (by norm_num) sr1 2
    norm_num at *
    linarith
  have w2 : 2 * (s : ℝ) ^ 2 ≤ 162 / 10000 := by
    have := pow_le_pow_left₀ (by linarith) sr2 2
    norm_num at *
    linarith
  set w := 2 * (s : ℝ) ^ 2 with hw
  have wp : 0 < w := lt_of_lt_of_le (by norm_num) w1
  obtain ⟨wu1, wu2⟩ := wc.upper wp.le (by norm_num)
  have w'p : (0 : ℝ) < w' := lt_of_lt_of_le (mul_pos (by norm_num) wp) wu2
  have w'q : (0 : ℚ) < w' := by exact_mod_cast w'p
  have p0 : (0 : ℝ) ≤ p := by
    have a := (abs_le.1 sqc).1
    have b : (0 : ℝ) ≤ (D : ℝ) ^ 2 := sq_nonneg _
    have c : (D : ℝ) ^ 2 / 2 ^ 52 ≤ (D : ℝ) ^ 2 := div_le_self b (by norm_num)
    linarith
  have p0q : (0 : ℚ) ≤ p := by exact_mod_cast p0
  have nn : f64 (-p / w') ≤ 0 := (f64_mono_double isDouble_zero).2 (div_nonpos_of_nonpos_of_nonneg (by linarith) w'q.le)
  have A0 : 0 < Real.exp (-((x - 1) ^ 2) / w) := Real.exp_pos _
  rcases le_total x 4 with h4 | h4
  · -- near the peak
    have d1 : |(D : ℝ) - (x - 1)| ≤ 12 / 2 ^ 53 := by
      have a : |((nu : ℝ) - 1) - (x - 1)| ≤ 8 / 2 ^ 53 := by
        rw [sub_sub_sub_cancel_right]
        unfold RelErr at r
        refine r.trans ?_
        norm_num at *
        linarith
      have b := rd.err a
      have c : |x - 1| ≤ 3 := by rw [abs_le]; constructor <;> linarith
      refine b.trans ?_
      norm_num at *
      linarith
    have hx3 : |x - 1| ≤ 3 := by rw [abs_le]; constructor <;> linarith
    have d2 := mul_err d1 d1
    rw [← pow_two, ← pow_two] at d2
    have d3 : |(D : ℝ) ^ 2 - (x - 1) ^ 2| ≤ 73 / 2 ^ 53 := by
      refine d2.trans ?_
      norm_num at *
      linarith
    have x9 : (x - 1) ^ 2 ≤ 9 := by
      rw [← sq_abs]
      calc |x - 1| ^ 2 ≤ 3 ^ 2 := pow_le_pow_left₀ (abs_nonneg _) hx3 2
        _ = 9 := by norm_num
    have d4 : |(p : ℝ) - (x - 1) ^ 2| ≤ 100 / 2 ^ 53 := by
      have t := abs_sub_le (p : ℝ) ((D : ℝ) ^ 2) ((x - 1) ^ 2)
      have := (abs_le.1 d3).2
      generalize (D : ℝ) ^ 2 = q at *
      norm_num at *
      linarith
    have iw := wc.inv wp (by norm_num) (by norm_num)
    have wi : w⁻¹ ≤ 103 := by
      rw [inv_le_comm₀ wp (by norm_num)]
      norm_num at *
      linarith
    have wi0 : 0 < w⁻¹ := inv_pos.2 wp
    have iw' : |(w' : ℝ)⁻¹ - w⁻¹| ≤ 1133 / 2 ^ 53 := by
      unfold RelErr at iw
      refine iw.trans ?_
      norm_num at *
      linarith
    have q := mul_err d4 iw'
    rw [abs_of_pos wi0, abs_of_nonneg (sq_nonneg (x - 1))] at q
    have q2 : |(p : ℝ) * (w' : ℝ)⁻¹ - (x - 1) ^ 2 * w⁻¹| ≤ 21000 / 2 ^ 53 := by
      refine q.trans ?_
      norm_num at *
      linarith
    have q3 : |(((-p / w' : ℚ)) : ℝ) - -((x - 1) ^ 2) / w| ≤ 21000 / 2 ^ 53 := by
      rw [← abs_neg]
      refine le_of_eq_of_le ?_ q2
      congr 1
      push_cast
      ring
    have q4 := (f64_rd (-p / w')).err q3
    have x9w : |-((x - 1) ^ 2) / w| ≤ 927 := by
      rw [neg_div, abs_neg, abs_of_nonneg (div_nonneg (sq_nonneg _) wp.le), div_eq_mul_inv]
      calc (x - 1) ^ 2 * w⁻¹ ≤ 9 * 103 := mul_le_mul x9 wi wi0.le (by norm_num)
        _ = 927 := by norm_num
    have q5 : |((f64 (-p / w') : ℚ) : ℝ) - -((x - 1) ^ 2) / w| ≤ 22000 / 2 ^ 53 := by
      refine q4.trans ?_
      norm_num at *
      linarith
    have fin := exp_close E nn (by norm_num) (by norm_num) q5
    refine fin.trans ?_
    have A1 : Real.exp (-((x - 1) ^ 2) / w) ≤ 1 := Real.exp_le_one_iff.2 (div_nonpos_of_nonpos_of_nonneg (by have := sq_nonneg (x - 1); linarith) wp.le)
    generalize Real.exp (-((x - 1) ^ 2) / w) = b at *
    norm_num at A1 ⊢
    linarith
  · -- far above the peak both are negligible
    have D3 : (3 : ℝ) ≤ D := by exact_mod_cast nu4 h4
    have p8 : (17 / 2 : ℝ) ≤ p := by
      have a := (abs_le.1 sqc).1
      have b : (3 : ℝ) ^ 2 ≤ (D : ℝ) ^ 2 := pow_le_pow_left₀ (by norm_num) D3 2
      have c : (D : ℝ) ^ 2 / 2 ^ 52 ≤ (D : ℝ) ^ 2 / 100 := div_le_div_of_nonneg_left (sq_nonneg _) (by norm_num) (by norm_num)
      linarith
    have w'2 : (w' : ℝ) ≤ 163 / 10000 := by
      have a := (le_abs_self _).trans wu1
      refine a.trans ?_
      norm_num at w2 ⊢
      linarith
    have A2 : Real.exp (-((x - 1) ^ 2) / w) ≤ 1 / 2 ^ 200 := by
      refine exp_tiny ?_
      rw [neg_div, neg_le_neg_iff, le_div_iff₀ wp]
      have : (3 : ℝ) ^ 2 ≤ (x - 1) ^ 2 := pow_le_pow_left₀ (by norm_num) (by linarith) 2
      linarith
    have argn : ((f64 (-p / w') : ℚ) : ℝ) ≤ -500 := by
      have : -p / w' ≤ -500 := by
        rw [neg_div, neg_le_neg_iff, le_div_iff₀ w'q]
        have : ((500 * w' : ℚ) : ℝ) ≤ p := by push_cast; linarith
        exact (Rat.cast_le (K := ℝ)).1 this
      have := (f64_mono_double (x := -p / w') (y := -500) ⟨-500, 0, by norm_num, by norm_num, by norm_num⟩).2 this
      have := (Rat.cast_le (K := ℝ)).2 this
      push_cast at this
      exact this
    have sp := (abs_le.1 (E.exp_spec _ nn)).2
    have e2 := exp_tiny argn
    have E0 : (0 : ℝ) ≤ E.exp (f64 (-p / w')) := by exact_mod_cast hE _
    rw [abs_le]
    have e0 := Real.exp_pos ((f64 (-p / w') : ℚ) : ℝ)
    generalize ((E.exp (f64 (-p / w')) : ℚ) : ℝ) = a at *
    generalize Real.exp ((f64 (-p / w') : ℚ) : ℝ) = b at *
    generalize Real.exp (-((x - 1) ^ 2) / w) = c at *
    norm_num at sp e2 A2 ⊢
    constructor <;> linarith

/-- A perturbed exponential. -/
theorem exp_perturb {Z z k : ℝ} (k0 : 0 ≤ k) (hk : k ≤ 2 ^ 20) (h : |Z - z| ≤ k / 2 ^ 53) : RelErr (k + 1) (Real.exp Z) (Real.exp z) := by
  have kk : k / 2 ^ 53 ≤ 1 / 2 ^ 33 := by rw [div_le_iff₀ (by positivity)]; norm_num at *; linarith
  have q := Real.abs_exp_sub_one_sub_id_le (x := Z - z) (h.trans (kk.trans (by norm_num)))
  have s : (Z - z) ^ 2 ≤ k / 2 ^ 53 * (1 / 2 ^ 33) := by
    rw [← sq_abs, _root_.sq]
    exact mul_le_mul h (h.trans kk) (abs_nonneg _) (by positivity)
  have s' : k / 2 ^ 53 * (1 / 2 ^ 33) ≤ 1 / 2 ^ 53 := by
    norm_num at *
    linarith
  have t := abs_sub_le (Real.exp (Z - z) - 1) (Z - z) 0
  rw [sub_zero, sub_zero] at t
  unfold RelErr
  have ep := Real.exp_pos z
  rw [show Real.exp Z = Real.exp z * Real.exp (Z - z) by rw [← Real.exp_add]; congr 1; ring,
    show Real.exp z * Real.exp (Z - z) - Real.exp z = (Real.exp (Z - z) - 1) * Real.exp z by ring, abs_mul, abs_of_pos ep]
  refine mul_le_mul_of_nonneg_right ?_ ep.le
  have e : (k + 1) / 2 ^ 53 = k / 2 ^ 53 + 1 / 2 ^ 53 := by ring
  rw [e]
  linarith

/-- A further relative error of `2 ^ -50`. -/
theorem RelErr.step' {k X x Y : ℝ} (h : RelErr k X x) (hx : 0 ≤ x) (hk : k ≤ 2 ^ 20) (hY : |Y - X| ≤ X / 2 ^ 50) : RelErr (k + 9) Y x := by
  obtain ⟨u1, -⟩ := h.upper hx hk
  unfold RelErr at *
  have t := abs_sub_le Y X x
  have : X / 2 ^ 50 ≤ (1 + 1 / 2 ^ 33) * x / 2 ^ 50 := div_le_div_of_nonneg_right ((le_abs_self _).trans u1) (by positivity)
  have e : (k + 9) / 2 ^ 53 * x = k / 2 ^ 53 * x + 9 * x / 2 ^ 53 := by ring
  rw [e]
  norm_num at *
  linarith

theorem log_twenty {g : ℝ} (h1 : 1 ≤ g) (h2 : g ≤ 20) : 0 ≤ Real.log g ∧ Real.log g ≤ 3 := by
  refine ⟨Real.log_nonneg h1, ?_⟩
  rw [Real.log_le_iff_le_exp (by linarith)]
  have e : Real.exp 3 = Real.exp 1 ^ 3 := by rw [← Real.exp_nat_mul]; norm_num
  have h : (27182818283 / 10000000000 : ℝ) ^ 3 ≤ Real.exp 1 ^ 3 := pow_le_pow_left₀ (by norm_num) (by have := Real.exp_one_gt_d9; norm_num at *; linarith) 3
  rw [e]
  norm_num at *
  linarith

/-- The peak enhancement. -/
theorem enhancement_close (E : NpElem) {g a : ℚ} {A : ℝ} (g1 : 1 ≤ g) (g2 : g ≤ 20) (a0 : 0 ≤ a) (A1 : A ≤ 1) (h : |(a : ℝ) - A| ≤ 2 ^ 15 / 2 ^ 53) :
    RelErr 100000 (E.pow g a : ℚ) ((g : ℝ) ^ A) := by
  have r1 : (1 : ℝ) ≤ g := by exact_mod_cast g1
  have r2 : (g : ℝ) ≤ 20 := by exact_mod_cast g2
  have g0 : (0 : ℝ) < g := by linarith
  obtain ⟨l0, l3⟩ := log_twenty r1 r2
  have a2 : a ≤ 2 := by
    have := (abs_le.1 h).2
    have : (a : ℝ) ≤ 2 := by norm_num at this; linarith
    exact_mod_cast this
  have sp := E.pow_spec g a (le_trans (by norm_num) g1) (g2.trans (by norm_num)) a0 a2
  have ep := exp_perturb (Z := Real.log g * a) (z := Real.log g * A) (k := 3 * 2 ^ 15) (by norm_num) (by norm_num) (by
    rw [← mul_sub, abs_mul, abs_of_nonneg l0, mul_div_assoc]
    exact mul_le_mul l3 h (abs_nonneg _) (by norm_num))
  rw [← Real.rpow_def_of_pos g0, ← Real.rpow_def_of_pos g0] at ep
  exact (ep.step' (Real.rpow_pos_of_pos g0 _).le (by norm_num) sp).mono (Real.rpow_pos_of_pos g0 _).le (by norm_num)

/-! ## C183 -/

/-- **C183.**  The unscaled density that `create_spectrum_jonswap` computes in double precision at a frequency of at least 2/5 of the peak frequency is
the exact one up to a relative error of `2 ^ -35`, about `3e-11`. -/
theorem shape_double (P : NpPow5) (E : NpElem) (hE : ∀ z, 0 ≤ E.exp z) {fp g fi : ℚ} (h1 : 1 / 2 ^ 20 ≤ fi) (h2 : fi ≤ 2 ^ 10) (hp : 0 < fp)
    (h3 : 2 / 5 * fp ≤ fi) (h4 : fi ≤ 2 ^ 40 * fp) (g1 : 1 ≤ g) (g2 : g ≤ 20) :
    0 < jonswapShape fp g fi ∧ 1 / 2 ^ 160 ≤ jonswapShape fp g fi ∧
      |(jonswapShapeF64 P.toNpPow E fp g fi : ℝ) - jonswapShape fp g fi| ≤ 1 / 2 ^ 35 * jonswapShape fp g fi := by
  have f0 : (0 : ℚ) < fi := lt_of_lt_of_le (by positivity) h1
  have fr0 : (0 : ℝ) < fi := by exact_mod_cast f0
  have pr0 : (0 : ℝ) < fp := by exact_mod_cast hp
  have c1 : (fi : ℚ) > 1 / 2 ^ 52 := lt_of_lt_of_le (by norm_num) h1
  have c2 : (fi : ℝ) > 1 / 2 ^ 52 := by
    have := (Rat.cast_lt (K := ℝ)).2 c1
    push_cast at this
    exact this
  have x1 : (2 / 5 : ℝ) ≤ (fi : ℝ) / fp := by
    rw [le_div_iff₀ pr0]
    have := (Rat.cast_le (K := ℝ)).2 h3
    push_cast at this
    exact this
  have x2 : (fi : ℝ) / fp ≤ 2 ^ 40 := by
    rw [div_le_iff₀ pr0]
    have := (Rat.cast_le (K := ℝ)).2 h4
    push_cast at this
    exact this
  set x := (fi : ℝ) / fp with hx
  have x0 : 0 < x := by linarith
  have fr2 : (fi : ℝ) ≤ 2 ^ 10 := by
    have := (Rat.cast_le (K := ℝ)).2 h2
    push_cast at this
    exact this
  -- the width of the peak
  obtain ⟨s, hs, s1, s2⟩ : ∃ s : ℚ, (if fi < fp then 7 / 100 else 9 / 100 : ℚ) = s ∧ 7 / 100 ≤ s ∧ s ≤ 9 / 100 := by
    refine ⟨_, rfl, ?_, ?_⟩ <;> split <;> norm_num
  have hs' : (if fi < fp then f64 (7 / 100) else f64 (9 / 100) : ℚ) = f64 s := by rw [← hs]; split <;> rfl
  have hsr : (if (fi : ℝ) < fp then 7 / 100 else 9 / 100 : ℝ) = s := by
    rw [← hs]
    by_cases hc : fi < fp
    · rw [if_pos hc, if_pos (by exact_mod_cast hc)]; push_cast; rfl
    · rw [if_neg hc, if_neg (by exact_mod_cast hc)]; push_cast; rfl
  have e1 : jonswapShape fp g fi = jonswapConst * (fi : ℝ) ^ (-5 : ℤ) * Real.exp (-(125 / 100) * x ^ (-4 : ℤ)) *
      (g : ℝ) ^ Real.exp (-((x - 1) ^ 2) / (2 * (s : ℝ) ^ 2)) := by
    unfold jonswapShape
    rw [if_pos c2]
    simp only [hsr, ← hx, jonswapConst]
  have e2 : jonswapShapeF64 P.toNpPow E fp g fi = f64 (f64 (f64 (jonswapConstF64 P.toNpPow * P.pow fi (-5)) *
      E.exp (f64 (f64 (-(125 / 100)) * P.pow (f64 (fi / fp)) (-4)))) *
        E.pow g (E.exp (f64 (-(P.pow (f64 (f64 (fi / fp) - 1)) 2) / f64 (2 * P.pow (f64 s) 2))))) := by
    unfold jonswapShapeF64
    rw [if_pos c1]
    simp only [hs']
  have A0 : -((x - 1) ^ 2) / (2 * (s : ℝ) ^ 2) ≤ 0 :=
    div_nonpos_of_nonpos_of_nonneg (by have := sq_nonneg (x - 1); linarith) (by positivity)
  have lam := enhancement_close E g1 g2 (hE _) (Real.exp_le_one_iff.2 A0) (peak_exponent_close P E hE hx x1 x2 s1 s2)
  have dec := decay_close P E hx x1 x2
  have pw : RelErr 3 (P.pow fi (-5) : ℚ) ((fi : ℝ) ^ (-5 : ℤ)) := by
    have := (RelErr.refl ((fi : ℝ) ^ (-5 : ℤ))).step (zpow_nonneg fr0.le _) (by norm_num)
      (pow_cast P (n := -5) (le_trans (by norm_num) h1) (h2.trans (by norm_num)) (by norm_num))
    rwa [zero_add] at this
  have pl : (1 : ℝ) / 2 ^ 50 ≤ (fi : ℝ) ^ (-5 : ℤ) := by
    rw [zpow_neg, ← one_div]
    refine one_div_le_one_div_of_le (zpow_pos fr0 _) ?_
    rw [show (fi : ℝ) ^ (5 : ℤ) = (fi : ℝ) ^ (5 : ℕ) from rfl]
    calc (fi : ℝ) ^ 5 ≤ (2 ^ 10) ^ 5 := pow_le_pow_left₀ fr0.le fr2 5
      _ = 2 ^ 50 := by norm_num
  have el : 1 / 2 ^ 100 ≤ Real.exp (-(125 / 100) * x ^ (-4 : ℤ)) := by
    refine exp_lower ?_
    have y1 : x ^ (-4 : ℤ) ≤ 40 := by
      rw [zpow_neg, show x ^ (4 : ℤ) = x ^ (4 : ℕ) from rfl]
      have : (2 / 5 : ℝ) ^ 4 ≤ x ^ 4 := pow_le_pow_left₀ (by norm_num) x1 4
      calc (x ^ 4)⁻¹ ≤ ((2 / 5 : ℝ) ^ 4)⁻¹ := inv_anti₀ (by norm_num) this
        _ ≤ 40 := by norm_num
    norm_num at *
    linarith
  have ll : 1 ≤ (g : ℝ) ^ Real.exp (-((x - 1) ^ 2) / (2 * (s : ℝ) ^ 2)) :=
    Real.one_le_rpow (by exact_mod_cast g1) (Real.exp_pos _).le
  rw [e1, e2]
  have cl := const_lower
  have cc := const_close P
  generalize Real.exp (-(125 / 100) * x ^ (-4 : ℤ)) = y2 at *
  generalize (g : ℝ) ^ Real.exp (-((x - 1) ^ 2) / (2 * (s : ℝ) ^ 2)) = y3 at *
  generalize (fi : ℝ) ^ (-5 : ℤ) = y1 at *
  generalize jonswapConst = y0 at *
  generalize E.exp (f64 (f64 (-(125 / 100)) * P.pow (f64 (fi / fp)) (-4))) = z2 at *
  generalize E.pow g (E.exp (f64 (-(P.pow (f64 (f64 (fi / fp) - 1)) 2) / f64 (2 * P.pow (f64 s) 2)))) = z3 at *
  generalize P.pow fi (-5) = z1 at *
  generalize jonswapConstF64 P.toNpPow = z0 at *
  have y0p : 0 < y0 := lt_of_lt_of_le (by positivity) cl
  have y1p : 0 < y1 := lt_of_lt_of_le (by positivity) pl
  have y2p : 0 < y2 := lt_of_lt_of_le (by positivity) el
  have y3p : 0 < y3 := lt_of_lt_of_le (by positivity) ll
  have b1 : 1 / 2 ^ 55 ≤ y0 * y1 := by
    have := mul_le_mul cl pl (by positivity) y0p.le
    refine le_trans ?_ this
    norm_num
  have b2 : 1 / 2 ^ 155 ≤ y0 * y1 * y2 := by
    have := mul_le_mul b1 el (by positivity) (by positivity)
    refine le_trans ?_ this
    norm_num
  have b3 : 1 / 2 ^ 155 ≤ y0 * y1 * y2 * y3 := b2.trans (le_mul_of_one_le_right (by positivity) ll)
  have m1 := (RelErr.mul cc pw y0p.le y1p.le (by norm_num) (by norm_num) (by norm_num) (by norm_num))
  have r1 : RelErr 31 (f64 (z0 * z1) : ℚ) (y0 * y1) :=
    (RelErr.round (z := z0 * z1) (by push_cast; exact m1) (le_trans (by norm_num) b1) (by norm_num)).mono (by positivity) (by norm_num)
  have m2 := r1.mul dec (by positivity) y2p.le (by norm_num) (by norm_num) (by norm_num) (by norm_num)
  have r2 : RelErr 2034 (f64 (f64 (z0 * z1) * z2) : ℚ) (y0 * y1 * y2) :=
    (RelErr.round (z := f64 (z0 * z1) * z2) (by push_cast; exact m2) (le_trans (by norm_num) b2) (by norm_num)).mono (by positivity) (by norm_num)
  have m3 := r2.mul lam (by positivity) y3p.le (by norm_num) (by norm_num) (by norm_num) (by norm_num)
  have r3 := (RelErr.round (z := f64 (f64 (z0 * z1) * z2) * z3) (by push_cast; exact m3) (le_trans (by norm_num) b3) (by norm_num)).mono
    (l := 2 ^ 18) (by positivity) (by norm_num)
  refine ⟨by positivity, le_trans (by norm_num) b3, ?_⟩
  unfold RelErr at r3
  norm_num at r3 ⊢
  exact r3

/-! ## The assumptions are satisfiable -/

/-- Correct rounding is a possible `x ** n`. -/
def roundPow5 : NpPow5 where
  toNpPow := roundPow
  sq_neg := fun x => by show f64 ((-x) ^ (2 : ℤ)) = f64 (x ^ (2 : ℤ)); rw [Even.neg_zpow (by decide)]
  spec5 := by
    intro x n h1 h2 hn
    have x0 : 0 < x := lt_of_lt_of_le (by positivity) h1
    have y0 : 0 < x ^ n := zpow_pos x0 n
    have lo : (2 : ℚ) ^ (-1022 : ℤ) ≤ x ^ n := by
      have ix : 1 / 2 ^ 200 ≤ 1 / x := one_div_le_one_div_of_le x0 h2
      have small : ∀ v : ℚ, 1 / 2 ^ 200 ≤ v → ∀ k : ℕ, k ≤ 5 → (2 : ℚ) ^ (-1022 : ℤ) ≤ v ^ k := by
        intro v hv k hk
        have a : (1 / 2 ^ 200 : ℚ) ^ 5 ≤ (1 / 2 ^ 200 : ℚ) ^ k := pow_le_pow_of_le_one (by positivity) (by
          rw [div_le_one (by positivity)]; exact one_le_pow₀ (by norm_num)) hk
        have b : (1 / 2 ^ 200 : ℚ) ^ k ≤ v ^ k := pow_le_pow_left₀ (by positivity) hv k
        have c : (2 : ℚ) ^ (-1022 : ℤ) ≤ (1 / 2 ^ 200 : ℚ) ^ 5 := by
          rw [zpow_neg, ← one_div, div_pow, one_pow, ← pow_mul]
          exact one_div_le_one_div_of_le (by positivity) (by exact_mod_cast pow_le_pow_right₀ (by norm_num : (1 : ℚ) ≤ 2) (by norm_num : 200 * 5 ≤ 1022))
        linarith
      have := abs_le.1 hn
      rcases le_total 0 n with h | h
      · obtain ⟨k, rfl⟩ := Int.eq_ofNat_of_zero_le h
        rw [zpow_natCast]
        exact small x h1 k (by omega)
      · obtain ⟨k, hk⟩ := Int.eq_ofNat_of_zero_le (by omega : 0 ≤ -n)
        have e : n = -(k : ℤ) := by omega
        rw [e, zpow_neg x, zpow_natCast x, ← inv_pow, ← one_div x]
        exact small (1 / x) ix k (by omega)
    have := f64_error_normal (x := x ^ n) (by rwa [abs_of_pos y0])
    rw [abs_of_pos y0] at this
    show |f64 (x ^ n) - x ^ n| ≤ x ^ n / 2 ^ 52
    linarith

/-- Library functions that meet the assumptions exist, with a non-negative exponential. -/
theorem npElem_nonneg_exists : ∃ E : NpElem, ∀ z, 0 ≤ E.exp z := by
  obtain ⟨E⟩ := npElem_exists
  refine ⟨⟨fun x => max (E.exp x) 0, E.tanh, E.pow, fun x hx => ?_, E.tanh_spec, E.pow_spec⟩, fun z => le_max_right _ _⟩
  have h := E.exp_spec x hx
  have p := Real.exp_pos (x : ℝ)
  rcases le_total (E.exp x) 0 with h0 | h0
  · rw [max_eq_right h0]
    have h0' : (E.exp x : ℝ) ≤ 0 := by exact_mod_cast h0
    rw [abs_of_nonpos (by linarith)] at h
    rw [Rat.cast_zero, zero_sub, abs_neg, abs_of_pos p]
    linarith
  · rwa [max_eq_left h0]

/-- A peak at 1/2 Hz: the densities at 1/4, 1/2 and 3/4 Hz. -/
example (P : NpPow5) (E : NpElem) (hE : ∀ z, 0 ≤ E.exp z) : ∀ fi ∈ [1 / 4, 1 / 2, (3 / 4 : ℚ)],
    |(jonswapShapeF64 P.toNpPow E (1 / 2) (33 / 10) fi : ℝ) - jonswapShape (1 / 2 : ℚ) (33 / 10 : ℚ) fi| ≤ 1 / 2 ^ 35 * jonswapShape (1 / 2 : ℚ) (33 / 10 : ℚ) fi := by
  intro fi hfi
  simp only [List.mem_cons, List.not_mem_nil, or_false] at hfi
  rcases hfi with rfl | rfl | rfl <;>
    exact (shape_double P E hE (by norm_num) (by norm_num) (by norm_num) (by norm_num) (by norm_num) (by norm_num) (by norm_num)).2.2

/-- The unscaled densities on `[0, 1/4, 1/2, 3/4]` for a peak at 1/2 Hz are in range, and so is their moment. -/
theorem quarter_jonswap (P : NpPow5) (E : NpElem) (hE : ∀ z, 0 ≤ E.exp z) :
    (∀ fi ∈ quarterAxis, jonswapShapeF64 P.toNpPow E (1 / 2) (33 / 10) fi = 0 ∨ 1 / 2 ^ 300 ≤ jonswapShapeF64 P.toNpPow E (1 / 2) (33 / 10) fi) ∧
    ∃ M, computeMoment (vec (exactAxis 0 (1 / 4) quarterAxis.length)) (vec (quarterAxis.map (jonswapShapeF64 P.toNpPow E (1 / 2) (33 / 10)))) 0 (-1)
      (.fin (-1)) = .ok M ∧ 1 / 2 ^ 60 ≤ M ∧ M ≤ 2 ^ 40 := by
  have sh : ∀ fi : ℚ, 1 / 4 ≤ fi → fi ≤ 3 / 4 → 1 / 2 ^ 161 ≤ jonswapShapeF64 P.toNpPow E (1 / 2) (33 / 10) fi := by
    intro fi a b
    obtain ⟨-, l, c⟩ := shape_double P E hE (fp := 1 / 2) (g := 33 / 10) (fi := fi) (le_trans (by norm_num) a) (b.trans (by norm_num)) (by norm_num)
      (le_trans (by norm_num) a) (b.trans (by norm_num)) (by norm_num) (by norm_num)
    have := (abs_le.1 c).1
    have : (1 : ℝ) / 2 ^ 161 ≤ (jonswapShapeF64 P.toNpPow E (1 / 2) (33 / 10) fi : ℝ) := by
      norm_num at l this ⊢
      linarith
    have e : (((1 : ℚ) / 2 ^ 161 : ℚ) : ℝ) = 1 / 2 ^ 161 := by push_cast; rfl
    rw [← e] at this
    exact (Rat.cast_le (K := ℝ)).1 this
  have z : jonswapShapeF64 P.toNpPow E (1 / 2) (33 / 10) 0 = 0 := by
    unfold jonswapShapeF64
    rw [if_neg (by norm_num)]
  have mid : ∀ fi : ℚ, 1 / 4 ≤ fi → fi ≤ 3 / 4 → jonswapShapeF64 P.toNpPow E (1 / 2) (33 / 10) fi ≤ 2 ^ 20 ∧
      (fi = 1 / 2 → 1 / 2 ^ 20 ≤ jonswapShapeF64 P.toNpPow E (1 / 2) (33 / 10) fi) := by
    intro fi a b
    obtain ⟨p0, -, c⟩ := shape_double P E hE (fp := 1 / 2) (g := 33 / 10) (fi := fi) (le_trans (by norm_num) a) (b.trans (by norm_num)) (by norm_num)
      (le_trans (by norm_num) a) (b.trans (by norm_num)) (by norm_num) (by norm_num)
    have ar : (1 / 4 : ℝ) ≤ fi := by
      have := (Rat.cast_le (K := ℝ)).2 a
      push_cast at this
      exact this
    have cf : (fi : ℝ) > 1 / 2 ^ 52 := lt_of_lt_of_le (by norm_num) ar
    have C1 : jonswapConst ≤ 1 := by
      unfold jonswapConst
      have p1 := Real.pi_gt_three
      have h : (6 : ℝ) ^ 4 ≤ (2 * Real.pi) ^ (4 : ℕ) := pow_le_pow_left₀ (by norm_num) (by linarith) _
      rw [zpow_neg, show (2 * Real.pi) ^ (4 : ℤ) = (2 * Real.pi) ^ (4 : ℕ) from rfl, ← div_eq_mul_inv, div_le_one (by positivity)]
      refine le_trans ?_ h
      norm_num
    have C0 : 0 < jonswapConst := lt_of_lt_of_le (by positivity) const_lower
    have up : jonswapShape ((1 / 2 : ℚ) : ℝ) ((33 / 10 : ℚ) : ℝ) fi ≤ 2 ^ 19 := by
      unfold jonswapShape
      rw [if_pos cf]
      dsimp only
      have f5 : (fi : ℝ) ^ (-5 : ℤ) ≤ 1024 := by
        rw [zpow_neg, show (fi : ℝ) ^ (5 : ℤ) = (fi : ℝ) ^ (5 : ℕ) from rfl]
        have : (1 / 4 : ℝ) ^ 5 ≤ (fi : ℝ) ^ 5 := pow_le_pow_left₀ (by norm_num) ar 5
        calc ((fi : ℝ) ^ 5)⁻¹ ≤ ((1 / 4 : ℝ) ^ 5)⁻¹ := inv_anti₀ (by norm_num) this
          _ = 1024 := by norm_num
      have f0 : 0 < (fi : ℝ) ^ (-5 : ℤ) := zpow_pos (by linarith) _
      have e1 : Real.exp (-(125 / 100) * ((fi : ℝ) / ((1 / 2 : ℚ) : ℝ)) ^ (-4 : ℤ)) ≤ 1 :=
        Real.exp_le_one_iff.2 (mul_nonpos_of_nonpos_of_nonneg (by norm_num) (zpow_nonneg (by push_cast; positivity) _))
      have l1 : (((33 / 10 : ℚ) : ℝ)) ^ Real.exp (-(((fi : ℝ) / ((1 / 2 : ℚ) : ℝ) - 1) ^ 2) /
          (2 * (if (fi : ℝ) < ((1 / 2 : ℚ) : ℝ) then 7 / 100 else 9 / 100 : ℝ) ^ 2)) ≤ 33 / 10 := by
        refine (Real.rpow_le_rpow_of_exponent_le (by push_cast; norm_num) (Real.exp_le_one_iff.2 (div_nonpos_of_nonpos_of_nonneg ?_ (by positivity)))).trans
          (by rw [Real.rpow_one]; push_cast; norm_num)
        exact neg_nonpos.2 (sq_nonneg _)
      have := mul_le_mul (mul_le_mul (mul_le_mul C1 f5 f0.le (by norm_num)) e1 (Real.exp_pos _).le (by norm_num)) l1
        (Real.rpow_nonneg (by push_cast; norm_num) _) (by norm_num)
      refine this.trans ?_
      norm_num
    refine ⟨?_, fun hf => ?_⟩
    · have := (abs_le.1 c).2
      have : (jonswapShapeF64 P.toNpPow E (1 / 2) (33 / 10) fi : ℝ) ≤ 2 ^ 20 := by
        norm_num at up this p0 ⊢
        linarith
      exact_mod_cast this
    · have lo : (1 : ℝ) / 2 ^ 10 ≤ jonswapShape ((1 / 2 : ℚ) : ℝ) ((33 / 10 : ℚ) : ℝ) fi := by
        unfold jonswapShape
        rw [if_pos cf]
        dsimp only
        have f5 : (1 : ℝ) ≤ (fi : ℝ) ^ (-5 : ℤ) := by
          rw [hf]; norm_num
        have e1 : (1 : ℝ) / 2 ^ 4 ≤ Real.exp (-(125 / 100) * ((fi : ℝ) / ((1 / 2 : ℚ) : ℝ)) ^ (-4 : ℤ)) := by
          have : -(125 / 100) * ((fi : ℝ) / ((1 / 2 : ℚ) : ℝ)) ^ (-4 : ℤ) = -(5 / 4) := by rw [hf]; norm_num
          rw [this, Real.exp_neg, ← one_div]
          refine one_div_le_one_div_of_le (Real.exp_pos _) ?_
          calc Real.exp (5 / 4) ≤ Real.exp 2 := Real.exp_le_exp.2 (by norm_num)
            _ = Real.exp 1 ^ 2 := by rw [← Real.exp_nat_mul]; norm_num
            _ ≤ 4 ^ 2 := pow_le_pow_left₀ (Real.exp_pos _).le (by have := Real.exp_one_lt_d9; linarith) 2
            _ = 2 ^ 4 := by norm_num
        have l1 : 1 ≤ (((33 / 10 : ℚ) : ℝ)) ^ Real.exp (-(((fi : ℝ) / ((1 / 2 : ℚ) : ℝ) - 1) ^ 2) /
            (2 * (if (fi : ℝ) < ((1 / 2 : ℚ) : ℝ) then 7 / 100 else 9 / 100 : ℝ) ^ 2)) :=
          Real.one_le_rpow (by push_cast; norm_num) (Real.exp_pos _).le
        have := mul_le_mul (mul_le_mul (mul_le_mul const_lower f5 (by norm_num) C0.le) e1 (by norm_num) (by positivity)) l1
          (by norm_num) (by positivity)
        refine le_trans ?_ this
        norm_num
      have := (abs_le.1 c).1
      have : (1 : ℝ) / 2 ^ 20 ≤ (jonswapShapeF64 P.toNpPow E (1 / 2) (33 / 10) fi : ℝ) := by
        norm_num at lo this ⊢
        linarith
      have e : (((1 : ℚ) / 2 ^ 20 : ℚ) : ℝ) = 1 / 2 ^ 20 := by push_cast; rfl
      rw [← e] at this
      exact (Rat.cast_le (K := ℝ)).1 this
  have big : (1 : ℚ) / 2 ^ 300 ≤ 1 / 2 ^ 161 := inv_pow_le (by norm_num)
  have a1 := sh (1 / 4) (by norm_num) (by norm_num)
  have a2 := sh (1 / 2) (by norm_num) (by norm_num)
  have a3 := sh (3 / 4) (by norm_num) (by norm_num)
  have b1 := (mid (1 / 4) (by norm_num) (by norm_num)).1
  have b2 := mid (1 / 2) (by norm_num) (by norm_num)
  have b3 := (mid (3 / 4) (by norm_num) (by norm_num)).1
  have c2 := b2.2 rfl
  have val : momentValue 0 (1 / 4) (quarterAxis.map (jonswapShapeF64 P.toNpPow E (1 / 2) (33 / 10))) 0 =
      1 / 4 * (5 / 4 * jonswapShapeF64 P.toNpPow E (1 / 2) (33 / 10) (1 / 4) + jonswapShapeF64 P.toNpPow E (1 / 2) (33 / 10) (1 / 2) +
        5 / 12 * jonswapShapeF64 P.toNpPow E (1 / 2) (33 / 10) (3 / 4)) := by
    norm_num [quarterAxis, momentValue, Finset.sum_range_succ, simpsonWeight]
    exact z
  have pos : (0 : ℚ) < 1 / 2 ^ 161 := by positivity
  refine ⟨fun fi hfi => ?_, _,
    (momentValue_spec (f0 := 0) (h := 1 / 4) (S := quarterAxis.map (jonswapShapeF64 P.toNpPow E (1 / 2) (33 / 10))) (by norm_num) le_rfl (by simp) 0).trans
      (by rw [val]), ?_, ?_⟩
  · simp only [List.mem_cons, List.not_mem_nil, or_false] at hfi
    rcases hfi with rfl | rfl | rfl | rfl
    · exact .inl z
    · exact .inr (big.trans a1)
    · exact .inr (big.trans a2)
    · exact .inr (big.trans a3)
  · generalize jonswapShapeF64 P.toNpPow E (1 / 2) (33 / 10) (1 / 4) = u1 at *
    generalize jonswapShapeF64 P.toNpPow E (1 / 2) (33 / 10) (1 / 2) = u2 at *
    generalize jonswapShapeF64 P.toNpPow E (1 / 2) (33 / 10) (3 / 4) = u3 at *
    have h1 := pos.trans_le a1
    have h3 := pos.trans_le a3
    norm_num at c2 ⊢
    linarith
  · have b2' := b2.1
    generalize jonswapShapeF64 P.toNpPow E (1 / 2) (33 / 10) (1 / 4) = u1 at *
    generalize jonswapShapeF64 P.toNpPow E (1 / 2) (33 / 10) (1 / 2) = u2 at *
    generalize jonswapShapeF64 P.toNpPow E (1 / 2) (33 / 10) (3 / 4) = u3 at *
    norm_num at b1 b2' b3 ⊢
    linarith

/-- The spectrum that `create_spectrum_jonswap` returns in double precision on `[0, 1/4, 1/2, 3/4]` for a peak at 1/2 Hz and a height of 2. -/
example (R : NpSum) (P : NpPow5) (Q : NpSqrt) (E : NpElem) (hE : ∀ z, 0 ≤ E.exp z) :
    ∃ S s, createSpectrumJonswapF64 R P.toNpPow Q E quarterAxis (1 / 2) 2 (33 / 10) = .ok S ∧ S.length = 4 ∧ 0 < s ∧
      |S.getD 2 0 - s * jonswapShapeF64 P.toNpPow E (1 / 2) (33 / 10) (1 / 2)| ≤ s * jonswapShapeF64 P.toNpPow E (1 / 2) (33 / 10) (1 / 2) / 2 ^ 53 ∧
      ∃ Hc, hm0F64 R P.toNpPow Q quarterAxis S (-1) (-1) = .ok Hc ∧ |Hc - 2| ≤ 2 * ((0 + (4 : ℕ) * (1 / 4)) / (1 / 4) / 2 ^ 44) * 2 := by
  obtain ⟨r, M, hM, M1, M2⟩ := quarter_jonswap P E hE
  obtain ⟨S, s, e, l, s0, c, hc, -⟩ := jonswap_double R P.toNpPow Q E (fp := 1 / 2) (g := 33 / 10) (H := 2) quarterAxis_double (by simp) quarterAxis_accepted
    r hM M1 M2 (by norm_num) (by norm_num)
  exact ⟨S, s, e, by simpa using l, s0, c 2 (by simp), hc⟩

end Verif
