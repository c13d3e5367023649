import Verif.Model.FloatSimpson
import Verif.Props.FloatStat
import Verif.Props.FloatFreq
import Verif.Props.Quadrature
import Mathlib.Tactic.GCongr

/-! # C124: spectral moments, wave height and mean periods in double precision -/

namespace Verif
open Finset

/-! ## Relative errors -/

/-- `x` approximates the non-negative number `a` with relative error at most `t`. -/
def Near (t x a : ℚ) : Prop := 0 ≤ a ∧ |x - a| ≤ t * a

/-- Zero or at least `2 ^ -n`. -/
def Ge (n : ℕ) (a : ℚ) : Prop := a = 0 ∨ 1 / 2 ^ n ≤ a

theorem Ge.nonneg {n : ℕ} {a : ℚ} (h : Ge n a) : 0 ≤ a := by
  rcases h with h | h
  · exact h.ge
  · exact le_trans (by positivity) h

theorem Ge.mono {n m : ℕ} {a : ℚ} (h : Ge n a) (hm : n ≤ m) : Ge m a := by
  rcases h with h | h
  · exact .inl h
  · exact .inr ((one_div_le_one_div_of_le (by positivity) (pow_le_pow_right₀ (by norm_num) hm)).trans h)

theorem Ge.mul {n m : ℕ} {a b : ℚ} (ha : Ge n a) (hb : Ge m b) : Ge (n + m) (a * b) := by
  rcases ha with rfl | ha
  · exact .inl (zero_mul _)
  rcases hb with rfl | hb
  · exact .inl (mul_zero _)
  refine .inr ?_
  calc (1 : ℚ) / 2 ^ (n + m) = 1 / 2 ^ n * (1 / 2 ^ m) := by rw [pow_add]; field_simp
    _ ≤ a * b := mul_le_mul ha hb (by positivity) (le_trans (by positivity) ha)

theorem Ge.add {n : ℕ} {a b : ℚ} (ha : Ge n a) (hb : Ge n b) : Ge n (a + b) := by
  rcases ha with rfl | ha
  · rw [zero_add]; exact hb
  · exact .inr (ha.trans (le_add_of_nonneg_right hb.nonneg))

section near
variable {e : ℚ} (he0 : 1 / 2 ^ 50 ≤ e) (he1 : e ≤ 1 / 2 ^ 20)
include he0 he1

theorem Near.rnd {k x a : ℚ} (h : Near (k * e) x a) (hk : k ≤ 32) (hg : Ge 1000 a) : Near ((k + 1 / 4) * e) (f64 x) a := by
  obtain ⟨a0, h⟩ := h
  refine ⟨a0, ?_⟩
  rcases hg with rfl | hg
  · rw [mul_zero, sub_zero] at h
    have : x = 0 := abs_eq_zero.1 (le_antisymm h (abs_nonneg _))
    rw [this, f64_zero]; simp
  · have e0 : 0 < e := lt_of_lt_of_le (by positivity) he0
    have ke : k * e ≤ 1 / 2 := by nlinarith
    have hx : |x - a| ≤ 1 / 2 * a := h.trans (mul_le_mul_of_nonneg_right ke a0)
    obtain ⟨p, q⟩ := abs_le.1 hx
    have xp : 0 ≤ x := by linarith
    have := f64_error_normal (x := x) (by
      rw [abs_of_nonneg xp]
      have : (2 : ℚ) ^ (-1022 : ℤ) ≤ 1 / 2 * (1 / 2 ^ 1000) := by
        rw [zpow_neg, ← one_div, show (1 : ℚ) / 2 * (1 / 2 ^ 1000) = 1 / 2 ^ 1001 by rw [div_mul_div_comm, one_mul, ← pow_succ']]
        exact one_div_le_one_div_of_le (by positivity) (by exact_mod_cast pow_le_pow_right₀ (by norm_num : (1 : ℚ) ≤ 2) (by norm_num : 1001 ≤ 1022))
      linarith)
    rw [abs_of_nonneg xp] at this
    have t := abs_sub_le (f64 x) x a
    have : x / 2 ^ 53 ≤ 1 / 4 * e * a := by
      have : a / 2 ^ 52 ≤ 1 / 4 * e * a := by nlinarith
      linarith
    linarith

theorem Near.mul {k l x y a b : ℚ} (h : Near (k * e) x a) (h' : Near (l * e) y b) (hk0 : 0 ≤ k) (hl0 : 0 ≤ l) (hk : k ≤ 32) (hl : l ≤ 32) :
    Near ((k + l + 1 / 16) * e) (x * y) (a * b) := by
  obtain ⟨a0, h⟩ := h
  obtain ⟨b0, h'⟩ := h'
  have e0 : 0 < e := lt_of_lt_of_le (by positivity) he0
  refine ⟨mul_nonneg a0 b0, ?_⟩
  have id : x * y - a * b = (x - a) * b + a * (y - b) + (x - a) * (y - b) := by ring
  have t1 := abs_add_le ((x - a) * b + a * (y - b)) ((x - a) * (y - b))
  have t2 := abs_add_le ((x - a) * b) (a * (y - b))
  rw [abs_mul, abs_mul] at t2
  rw [abs_mul (x - a)] at t1
  rw [abs_of_nonneg a0, abs_of_nonneg b0] at t2
  have u1 : |x - a| * b ≤ k * e * a * b := mul_le_mul_of_nonneg_right h b0
  have u2 : a * |y - b| ≤ a * (l * e * b) := mul_le_mul_of_nonneg_left h' a0
  have u3 : |x - a| * |y - b| ≤ (k * e * a) * (l * e * b) := mul_le_mul h h' (abs_nonneg _) (by positivity)
  have u4 : (k * e * a) * (l * e * b) ≤ 1 / 16 * e * (a * b) := by
    have : k * l * e ≤ 1 / 16 := by
      have : k * l ≤ 32 * 32 := mul_le_mul hk hl hl0 (by norm_num)
      calc k * l * e ≤ (32 * 32) * (1 / 2 ^ 20) := mul_le_mul this he1 e0.le (by norm_num)
        _ ≤ 1 / 16 := by norm_num
    calc (k * e * a) * (l * e * b) = k * l * e * (e * (a * b)) := by ring
      _ ≤ 1 / 16 * (e * (a * b)) := mul_le_mul_of_nonneg_right this (by positivity)
      _ = _ := by ring
  rw [id]
  calc _ ≤ k * e * a * b + a * (l * e * b) + 1 / 16 * e * (a * b) := by linarith
    _ = _ := by ring

theorem Near.inv {l y b : ℚ} (h' : Near (l * e) y b) (hb : 0 < b) (hl0 : 0 ≤ l) (hl : l ≤ 31) :
    Near ((l + 1 / 32) * e) (1 / y) (1 / b) := by
  obtain ⟨b0, h'⟩ := h'
  have e0 : 0 < e := lt_of_lt_of_le (by positivity) he0
  refine ⟨by positivity, ?_⟩
  have le : l * e ≤ 1 / 2 ^ 15 := by
    calc l * e ≤ 32 * (1 / 2 ^ 20) := mul_le_mul (by linarith) he1 e0.le (by norm_num)
      _ = _ := by norm_num
  obtain ⟨p, q⟩ := abs_le.1 h'
  have yp : b * (1 - 1 / 2 ^ 15) ≤ y := by nlinarith
  have y0 : 0 < y := lt_of_lt_of_le (by positivity) yp
  have id : 1 / y - 1 / b = (b - y) / (y * b) := by field_simp
  rw [id, abs_div, abs_of_pos (mul_pos y0 hb), abs_sub_comm, div_le_iff₀ (mul_pos y0 hb)]
  refine h'.trans ?_
  have : (l + 1 / 32) * e * (1 / b) * (y * b) = (l + 1 / 32) * e * y := by field_simp
  rw [this]
  have : (l + 1 / 32) * e * (b * (1 - 1 / 2 ^ 15)) ≤ (l + 1 / 32) * e * y := mul_le_mul_of_nonneg_left yp (by positivity)
  have : l * e * b ≤ (l + 1 / 32) * e * (b * (1 - 1 / 2 ^ 15)) := by
    have : l ≤ (l + 1 / 32) * (1 - 1 / 2 ^ 15) := by linarith
    calc l * e * b = l * (e * b) := by ring
      _ ≤ (l + 1 / 32) * (1 - 1 / 2 ^ 15) * (e * b) := mul_le_mul_of_nonneg_right this (by positivity)
      _ = _ := by ring
  linarith

omit he0 he1 in
theorem Near.add {k x y a b : ℚ} (h : Near (k * e) x a) (h' : Near (k * e) y b) : Near (k * e) (x + y) (a + b) := by
  refine ⟨add_nonneg h.1 h'.1, ?_⟩
  have := abs_add_le (x - a) (y - b)
  rw [show x + y - (a + b) = (x - a) + (y - b) by ring, mul_add]
  exact this.trans (add_le_add h.2 h'.2)

theorem Near.le {k l x a : ℚ} (h : Near (k * e) x a) (hkl : k ≤ l) : Near (l * e) x a := by
  have e0 : 0 < e := lt_of_lt_of_le (by positivity) he0
  exact ⟨h.1, h.2.trans (mul_le_mul_of_nonneg_right (mul_le_mul_of_nonneg_right hkl e0.le) h.1)⟩

theorem Near.exact {a : ℚ} (h : 0 ≤ a) : Near (0 * e) a a := ⟨h, by simp⟩

omit he0 he1 in
theorem Near.two_sub {k x : ℚ} (h : Near (k * e) x 1) : Near (k * e) (2 - x) 1 := by
  refine ⟨zero_le_one, ?_⟩
  rw [show 2 - x - 1 = -(x - 1) by ring, abs_neg]
  exact h.2

/-- A rounded product. -/
theorem Near.fmul {k l x y a b : ℚ} (h : Near (k * e) x a) (h' : Near (l * e) y b) (hk0 : 0 ≤ k) (hl0 : 0 ≤ l) (hk : k ≤ 15) (hl : l ≤ 15)
    (hg : Ge 1000 (a * b)) {c : ℚ} (hc : k + l + 3 / 8 ≤ c) : Near (c * e) (f64 (x * y)) (a * b) :=
  (Near.le he0 he1 (Near.rnd he0 he1 (Near.mul he0 he1 h h' hk0 hl0 (by linarith) (by linarith)) (by linarith) hg) (by linarith))

/-- A rounded quotient. -/
theorem Near.fdiv {k l x y a b : ℚ} (h : Near (k * e) x a) (h' : Near (l * e) y b) (hb : 0 < b) (hk0 : 0 ≤ k) (hl0 : 0 ≤ l) (hk : k ≤ 15)
    (hl : l ≤ 14) (hg : Ge 1000 (a / b)) {c : ℚ} (hc : k + l + 3 / 8 ≤ c) : Near (c * e) (f64 (x / y)) (a / b) := by
  have h1 := Near.mul he0 he1 h (Near.inv he0 he1 h' hb hl0 (by linarith)) hk0 (by linarith) (by linarith) (by linarith)
  rw [mul_one_div, mul_one_div] at h1
  exact (Near.le he0 he1 (Near.rnd he0 he1 h1 (by linarith) hg) (by linarith))

/-- A rounded sum. -/
theorem Near.fadd {k l x y a b : ℚ} (h : Near (k * e) x a) (h' : Near (l * e) y b) {c : ℚ} (hk : k + 1 / 4 ≤ c) (hl : l + 1 / 4 ≤ c) (hc : c ≤ 32)
    (hg : Ge 1000 (a + b)) : Near (c * e) (f64 (x + y)) (a + b) := by
  have := Near.rnd he0 he1 (k := c - 1 / 4) (Near.add (Near.le he0 he1 h (by linarith)) (Near.le he0 he1 h' (by linarith))) (by linarith) hg
  rwa [sub_add_cancel] at this

/-- A rounded `2 - x` with `x` near 1. -/
theorem Near.ftwo_sub {k x : ℚ} (h : Near (k * e) x 1) {c : ℚ} (hk : k + 1 / 4 ≤ c) (hc : c ≤ 32) : Near (c * e) (f64 (2 - x)) 1 :=
  Near.le he0 he1 (Near.rnd he0 he1 (Near.two_sub h) (by linarith) (Ge.mono (n := 0) (.inr (by norm_num)) (by norm_num))) hk

/-- Numbers near sizes in range are in range. -/
theorem Near.pos {k x a : ℚ} (h : Near (k * e) x a) (hk : k ≤ 32) : a / 2 ≤ x ∧ x ≤ 2 * a := by
  obtain ⟨a0, h⟩ := h
  have e0 : 0 < e := lt_of_lt_of_le (by positivity) he0
  have ke : k * e ≤ 1 / 2 := by nlinarith
  have hx : |x - a| ≤ 1 / 2 * a := h.trans (mul_le_mul_of_nonneg_right ke a0)
  obtain ⟨p, q⟩ := abs_le.1 hx
  constructor <;> linarith

/-! ## One panel -/

variable {h : ℚ} (hlo : 1 / 2 ^ 100 ≤ h) (hhi : h ≤ 2 ^ 100)
include hlo hhi

omit he0 he1 in
theorem ge_inv : Ge 100 (1 / h) := .inr (one_div_le_one_div_of_le (lt_of_lt_of_le (by positivity) hlo) hhi)

theorem panel_double {x0 x1 x2 y0 y1 y2 : ℚ} (h1 : |f64 (x1 - x0) - h| ≤ e * h) (h2 : |f64 (x2 - x1) - h| ≤ e * h)
    (g0 : Ge 700 y0) (g1 : Ge 700 y1) (g2 : Ge 700 y2) :
    Near (9 * e) (simpTermF64 x0 x1 x2 y0 y1 y2) (h / 3 * (y0 + 4 * y1 + y2)) := by
  have h0 : 0 < h := lt_of_lt_of_le (by positivity) hlo
  have gh : Ge 100 h := .inr hlo
  have gi : Ge 100 (1 / h) := ge_inv hlo hhi
  have gc : ∀ c : ℚ, 1 / 16 ≤ c → Ge 4 c := fun c hc => .inr (by norm_num at hc ⊢; exact hc)
  have a1 : Near (1 * e) (f64 (x1 - x0)) h := ⟨h0.le, by rwa [one_mul]⟩
  have a2 : Near (1 * e) (f64 (x2 - x1)) h := ⟨h0.le, by rwa [one_mul]⟩
  unfold simpTermF64
  simp only []
  set H0 := f64 (x1 - x0)
  set H1 := f64 (x2 - x1)
  have s : Near (5 / 4 * e) (f64 (H0 + H1)) (h + h) :=
    Near.fadd he0 he1 a1 a2 (by norm_num) (by norm_num) (by norm_num) ((gh.add gh).mono (by norm_num))
  have p : Near (19 / 8 * e) (f64 (H0 * H1)) (h * h) :=
    Near.fmul he0 he1 a1 a2 (by norm_num) (by norm_num) (by norm_num) (by norm_num) ((gh.mul gh).mono (by norm_num)) (by norm_num)
  have r : Near (19 / 8 * e) (f64 (H0 / H1)) (h / h) :=
    Near.fdiv he0 he1 a1 a2 h0 (by norm_num) (by norm_num) (by norm_num) (by norm_num) (by rw [div_self h0.ne']; exact (gc 1 (by norm_num)).mono (by norm_num)) (by norm_num)
  rw [div_self h0.ne'] at r
  have ri : Near (11 / 4 * e) (f64 (1 / f64 (H0 / H1))) (1 / 1) :=
    Near.fdiv he0 he1 (Near.exact he0 he1 zero_le_one) r one_pos (by norm_num) (by norm_num) (by norm_num) (by norm_num)
      (by rw [div_one]; exact (gc 1 (by norm_num)).mono (by norm_num)) (by norm_num)
  rw [div_one] at ri
  have c0 : Near (3 * e) _ 1 := Near.ftwo_sub he0 he1 ri (c := 3) (by norm_num) (by norm_num)
  have c2 : Near (21 / 8 * e) _ 1 := Near.ftwo_sub he0 he1 r (c := 21 / 8) (by norm_num) (by norm_num)
  have q : Near (4 * e) (f64 (f64 (H0 + H1) / f64 (H0 * H1))) ((h + h) / (h * h)) :=
    Near.fdiv he0 he1 s p (mul_pos h0 h0) (by norm_num) (by norm_num) (by norm_num) (by norm_num)
      (by rw [show (h + h) / (h * h) = 2 * (1 / h) by field_simp; ring]; exact ((gc 2 (by norm_num)).mul gi).mono (by norm_num)) (by norm_num)
  have c1 : Near (45 / 8 * e) (f64 (f64 (H0 + H1) * f64 (f64 (H0 + H1) / f64 (H0 * H1)))) ((h + h) * ((h + h) / (h * h))) :=
    Near.fmul he0 he1 s q (by norm_num) (by norm_num) (by norm_num) (by norm_num)
      (by rw [show (h + h) * ((h + h) / (h * h)) = 4 by field_simp; ring]; exact (gc 4 (by norm_num)).mono (by norm_num)) (by norm_num)
  rw [show (h + h) * ((h + h) / (h * h)) = 4 by field_simp; ring] at c1
  have t0 := Near.fmul he0 he1 (Near.exact he0 he1 g0.nonneg) c0 (by norm_num) (by norm_num) (by norm_num) (by norm_num)
    ((g0.mul (gc 1 (by norm_num))).mono (by norm_num)) (c := 27 / 8) (by norm_num)
  have t1 := Near.fmul he0 he1 (Near.exact he0 he1 g1.nonneg) c1 (by norm_num) (by norm_num) (by norm_num) (by norm_num)
    ((g1.mul (gc 4 (by norm_num))).mono (by norm_num)) (c := 6) (by norm_num)
  have t2 := Near.fmul he0 he1 (Near.exact he0 he1 g2.nonneg) c2 (by norm_num) (by norm_num) (by norm_num) (by norm_num)
    ((g2.mul (gc 1 (by norm_num))).mono (by norm_num)) (c := 3) (by norm_num)
  have s1 := Near.fadd he0 he1 t0 t1 (c := 25 / 4) (by norm_num) (by norm_num) (by norm_num)
    (((g0.mul (gc 1 (by norm_num))).add (g1.mul (gc 4 (by norm_num)))).mono (by norm_num))
  have s2 := Near.fadd he0 he1 s1 t2 (c := 13 / 2) (by norm_num) (by norm_num) (by norm_num)
    ((((g0.mul (gc 1 (by norm_num))).add (g1.mul (gc 4 (by norm_num)))).add (g2.mul (gc 1 (by norm_num)))).mono (by norm_num))
  have d : Near (13 / 8 * e) (f64 (f64 (H0 + H1) / 6)) ((h + h) / 6) :=
    Near.fdiv he0 he1 s (Near.exact he0 he1 (by norm_num : (0 : ℚ) ≤ 6)) (by norm_num) (by norm_num) (by norm_num) (by norm_num) (by norm_num)
      (by rw [show (h + h) / 6 = h * (1 / 3) by ring]; exact (gh.mul (gc (1 / 3) (by norm_num))).mono (by norm_num)) (by norm_num)
  have fin := Near.fmul he0 he1 d s2 (by norm_num) (by norm_num) (by norm_num) (by norm_num) (by
    rw [show (h + h) / 6 = h * (1 / 3) by ring]
    exact ((gh.mul (gc (1 / 3) (by norm_num))).mul (((g0.mul (gc 1 (by norm_num))).add (g1.mul (gc 4 (by norm_num)))).add (g2.mul (gc 1 (by norm_num))))).mono (by norm_num))
    (c := 9) (by norm_num)
  rw [show (h + h) / 6 * (y0 * 1 + y1 * 4 + y2 * 1) = h / 3 * (y0 + 4 * y1 + y2) by ring] at fin
  exact fin

end near

/-! ## The composite rule on an odd number of points -/

/-- The exact panels. -/
def panels (h : ℚ) : List ℚ → List ℚ
  | y0 :: y1 :: y2 :: ys => h / 3 * (y0 + 4 * y1 + y2) :: panels h (y2 :: ys)
  | _ => []

/-- The computed steps of the axis are `h` up to a relative error `e`. -/
def StepsNear (e h : ℚ) (x : List ℚ) : Prop := ∀ i, i + 1 < x.length → |f64 (x.getD (i + 1) 0 - x.getD i 0) - h| ≤ e * h

theorem StepsNear.tail2 {e h a b : ℚ} {l : List ℚ} (hs : StepsNear e h (a :: b :: l)) : StepsNear e h l := by
  intro i hi
  have := hs (i + 2) (by simp; omega)
  simpa using this

theorem StepsNear.dropLast {e h : ℚ} {x : List ℚ} (hs : StepsNear e h x) : StepsNear e h x.dropLast := by
  intro i hi
  rw [List.length_dropLast] at hi
  have g : ∀ j, j < x.length - 1 → x.dropLast.getD j 0 = x.getD j 0 := by
    intro j hj
    rw [List.getD_eq_getElem _ _ (by rw [List.length_dropLast]; exact hj), List.getElem_dropLast, List.getD_eq_getElem _ _ (by omega)]
  rw [g _ hi, g _ (by omega)]
  exact hs i (by omega)

theorem panels_length (h : ℚ) : ∀ y : List ℚ, (panels h y).length ≤ y.length / 2
  | y0 :: y1 :: y2 :: ys => by
    have := panels_length h (y2 :: ys)
    rw [panels, List.length_cons]
    simp only [List.length_cons] at this ⊢
    omega
  | [] => by simp [panels]
  | [_] => by simp [panels]
  | [_, _] => by simp [panels]

theorem panels_nonneg {h : ℚ} (hh : 0 ≤ h) : ∀ {y : List ℚ}, (∀ v ∈ y, 0 ≤ v) → ∀ v ∈ panels h y, 0 ≤ v
  | y0 :: y1 :: y2 :: ys => by
    intro hy v hv
    rw [panels, List.mem_cons] at hv
    have h0 := hy y0 (by simp)
    have h1 := hy y1 (by simp)
    have h2 := hy y2 (by simp)
    rcases hv with rfl | hv
    · positivity
    · exact panels_nonneg hh (fun v hv => hy v (by simp at hv ⊢; tauto)) v hv
  | [] => by simp [panels]
  | [_] => by simp [panels]
  | [_, _] => by simp [panels]

section
variable {e : ℚ} (he0 : 1 / 2 ^ 50 ≤ e) (he1 : e ≤ 1 / 2 ^ 20) {h : ℚ} (hlo : 1 / 2 ^ 100 ≤ h) (hhi : h ≤ 2 ^ 100)
include he0 he1 hlo hhi

theorem terms_near : ∀ {x y : List ℚ}, x.length = y.length → StepsNear e h x → (∀ v ∈ y, Ge 700 v) →
    List.Forall₂ (Near (9 * e)) (simpTermsF64 x y) (panels h y)
  | x0 :: x1 :: x2 :: xs, y0 :: y1 :: y2 :: ys => by
    intro hl hs hg
    rw [simpTermsF64, panels]
    refine .cons ?_ (terms_near (by simpa using hl) hs.tail2 fun v hv => hg v (by simp at hv ⊢; tauto))
    have s0 := hs 0 (by simp)
    have s1 := hs 1 (by simp)
    exact panel_double he0 he1 hlo hhi (by simpa using s0) (by simpa using s1) (hg y0 (by simp)) (hg y1 (by simp)) (hg y2 (by simp))
  | [], [] => fun _ _ _ => by simp [simpTermsF64, panels]
  | [_], [_] => fun _ _ _ => by simp [simpTermsF64, panels]
  | [_, _], [_, _] => fun _ _ _ => by simp [simpTermsF64, panels]
  | [], _ :: _ => fun hl => by simp at hl
  | [_], [] => fun hl => by simp at hl
  | [_], _ :: _ :: _ => fun hl => by simp at hl
  | [_, _], [] => fun hl => by simp at hl
  | [_, _], [_] => fun hl => by simp at hl
  | [_, _], _ :: _ :: _ :: _ => fun hl => by simp at hl
  | _ :: _ :: _ :: _, [] => fun hl => by simp at hl
  | _ :: _ :: _ :: _, [_] => fun hl => by simp at hl
  | _ :: _ :: _ :: _, [_, _] => fun hl => by simp at hl

omit he0 he1 hlo hhi in
theorem terms_double : ∀ (x y : List ℚ), ∀ v ∈ simpTermsF64 x y, IsDouble v := by
  intro x y
  induction x, y using simpTermsF64.induct with
  | case1 x0 x1 x2 xs y0 y1 y2 ys ih =>
    intro v hv
    rw [simpTermsF64, List.mem_cons] at hv
    rcases hv with rfl | hv
    · exact f64_double _
    · exact ih v hv
  | case2 x y hne =>
    intro v hv
    rw [simpTermsF64] at hv
    · simp at hv
    · exact hne

omit he0 he1 hlo hhi in
theorem near_sum {t : ℚ} {l m : List ℚ} (hf : List.Forall₂ (Near t) l m) : Near t l.sum m.sum := by
  induction hf with
  | nil => exact ⟨le_rfl, by simp⟩
  | cons h1 _ ih =>
    refine ⟨by rw [List.sum_cons]; exact add_nonneg h1.1 ih.1, ?_⟩
    rw [List.sum_cons, List.sum_cons, mul_add]
    rw [add_sub_add_comm]
    exact (abs_add_le _ _).trans (add_le_add h1.2 ih.2)

/-- The sum of the panels. -/
theorem odd_double (R : NpSum) {x y : List ℚ} (hl : x.length = y.length) (hn : x.length ≤ 2 ^ 40) (hs : StepsNear e h x)
    (hg : ∀ v ∈ y, Ge 700 v) :
    |R.sum (simpTermsF64 x y) - (panels h y).sum| ≤ (9 * e + (x.length : ℚ) / 2 ^ 52) * (panels h y).sum ∧ IsDouble (R.sum (simpTermsF64 x y)) := by
  have hf := terms_near he0 he1 hlo hhi hl hs hg
  have ns := near_sum hf
  have len : (simpTermsF64 x y).length ≤ x.length / 2 := by
    rw [hf.length_eq, hl]; exact panels_length h y
  have nn : ∀ v ∈ simpTermsF64 x y, 0 ≤ v := by
    intro v hv
    obtain ⟨i, hi, rfl⟩ := List.getElem_of_mem hv
    have := (List.forall₂_iff_get.1 hf).2 i hi (by rw [← hf.length_eq]; exact hi)
    have := (Near.pos he0 he1 this (by norm_num)).1
    have h0 := ((List.forall₂_iff_get.1 hf).2 i hi (by rw [← hf.length_eq]; exact hi)).1
    simp only [List.get_eq_getElem] at this h0
    linarith
  have er := R.error (terms_double x y) nn
  have gr := growth (n := (simpTermsF64 x y).length - 1) (by omega)
  have sp := (Near.pos he0 he1 ns (by norm_num)).2
  have s0 := ns.1
  set S := (panels h y).sum
  set T := (simpTermsF64 x y).sum
  have T0 : 0 ≤ T := List.sum_nonneg nn
  have cl : (((simpTermsF64 x y).length - 1 : ℕ) : ℚ) ≤ (x.length : ℚ) / 2 := by
    have : ((simpTermsF64 x y).length - 1) * 2 ≤ x.length := by omega
    have : (((simpTermsF64 x y).length - 1 : ℕ) : ℚ) * 2 ≤ x.length := by exact_mod_cast this
    linarith
  refine ⟨?_, ?_⟩
  · have t := abs_sub_le (R.sum (simpTermsF64 x y)) T S
    have u : |R.sum (simpTermsF64 x y) - T| ≤ (x.length : ℚ) / 2 ^ 52 * S := by
      calc _ ≤ ((1 + unitRound) ^ ((simpTermsF64 x y).length - 1) - 1) * T := er
        _ ≤ ((x.length : ℚ) / 2 / 2 ^ 52) * T := mul_le_mul_of_nonneg_right (gr.trans (by linarith)) T0
        _ ≤ ((x.length : ℚ) / 2 / 2 ^ 52) * (2 * S) := mul_le_mul_of_nonneg_left sp (by positivity)
        _ = _ := by ring
    have := ns.2
    linarith
  · obtain ⟨T', k, hp, hT⟩ := R.spec (simpTermsF64 x y)
    rw [← hT]
    apply SumTree.eval_double
    intro v hv
    rcases List.mem_append.1 (hp.mem_iff.1 hv) with hv | hv
    · exact terms_double x y v hv
    · rw [List.eq_of_mem_replicate hv]; exact isDouble_zero

/-! ## The last interval of an even number of points -/

theorem last_double (P : NpPow) {x y : List ℚ} (h4 : 3 ≤ x.length) (hl : x.length = y.length) (hs : StepsNear e h x) (hg : ∀ v ∈ y, Ge 700 v) :
    |simpLastF64 P x y - (h * (5 / 12 * y.getD (x.length - 1) 0 + 2 / 3 * y.getD (x.length - 2) 0) - h * (1 / 12 * y.getD (x.length - 3) 0))| ≤
      9 * e * (h * (5 / 12 * y.getD (x.length - 1) 0 + 2 / 3 * y.getD (x.length - 2) 0) + h * (1 / 12 * y.getD (x.length - 3) 0)) ∧
    IsDouble (simpLastF64 P x y) := by
  have h0 : 0 < h := lt_of_lt_of_le (by positivity) hlo
  have e0 : 0 < e := lt_of_lt_of_le (by positivity) he0
  have gh : Ge 100 h := .inr hlo
  have gc : ∀ c : ℚ, 1 / 16 ≤ c → Ge 4 c := fun c hc => .inr (by norm_num at hc ⊢; exact hc)
  have gy : ∀ i, i < x.length → Ge 700 (y.getD i 0) := by
    intro i hi
    rw [List.getD_eq_getElem _ _ (by omega)]
    exact hg _ (List.getElem_mem _)
  have a0 : Near (1 * e) (f64 (x.getD (x.length - 2) 0 - x.getD (x.length - 3) 0)) h := ⟨h0.le, by
    have := hs (x.length - 3) (by omega)
    rwa [show x.length - 3 + 1 = x.length - 2 by omega, ← one_mul e] at this⟩
  have a1 : Near (1 * e) (f64 (x.getD (x.length - 1) 0 - x.getD (x.length - 2) 0)) h := ⟨h0.le, by
    have := hs (x.length - 2) (by omega)
    rwa [show x.length - 2 + 1 = x.length - 1 by omega, ← one_mul e] at this⟩
  have g2 := gy (x.length - 1) (by omega)
  have g1 := gy (x.length - 2) (by omega)
  have g0 := gy (x.length - 3) (by omega)
  unfold simpLastF64
  simp only []
  set H0 := f64 (x.getD (x.length - 2) 0 - x.getD (x.length - 3) 0)
  set H1 := f64 (x.getD (x.length - 1) 0 - x.getD (x.length - 2) 0)
  set y2 := y.getD (x.length - 1) 0
  set y1 := y.getD (x.length - 2) 0
  set y0 := y.getD (x.length - 3) 0
  have powN : ∀ n : ℕ, (n = 2 ∨ n = 3) → Near (((n : ℚ) + 1) * e) (P.pow H1 n) (h ^ n) := by
    intro n hn
    obtain ⟨p, q⟩ := Near.pos he0 he1 a1 (by norm_num)
    have H1p : 0 < H1 := by linarith
    have sp := P.spec H1 n (by
        have : (1 : ℚ) / 2 ^ 200 ≤ 1 / 2 ^ 100 / 2 := by norm_num
        linarith) (by
        have : (2 : ℚ) * 2 ^ 100 ≤ 2 ^ 200 := by norm_num
        linarith) (by rcases hn with rfl | rfl <;> norm_num)
    rw [zpow_natCast] at sp
    have pw : Near (((n : ℚ) + 1 / 4) * e) (H1 ^ n) (h ^ n) := by
      have m2 := Near.mul he0 he1 a1 a1 (by norm_num) (by norm_num) (by norm_num) (by norm_num)
      rcases hn with rfl | rfl
      · rw [← pow_two, ← pow_two] at m2
        exact Near.le he0 he1 m2 (by norm_num)
      · have m3 := Near.mul he0 he1 m2 a1 (by norm_num) (by norm_num) (by norm_num) (by norm_num)
        rw [show H1 * H1 * H1 = H1 ^ 3 by ring, show h * h * h = h ^ 3 by ring] at m3
        exact Near.le he0 he1 m3 (by norm_num)
    refine ⟨pw.1, ?_⟩
    have t := abs_sub_le (P.pow H1 n) (H1 ^ n) (h ^ n)
    have b := (Near.pos he0 he1 pw (by rcases hn with rfl | rfl <;> norm_num)).2
    have : H1 ^ n / 2 ^ 52 ≤ 1 / 2 * e * h ^ n := by
      have : h ^ n / 2 ^ 51 ≤ 1 / 2 * e * h ^ n := by
        have := mul_le_mul_of_nonneg_right (show (1 : ℚ) / 2 ^ 51 ≤ 1 / 2 * e by linarith) pw.1
        calc _ = 1 / 2 ^ 51 * h ^ n := by ring
          _ ≤ _ := this
      linarith
    have := pw.2
    have q : 0 ≤ e * h ^ n := mul_nonneg e0.le pw.1
    calc _ ≤ 1 / 2 * e * h ^ n + ((n : ℚ) + 1 / 4) * e * h ^ n := by linarith
      _ ≤ _ := by linarith
  have p2 := powN 2 (.inl rfl)
  have p3 := powN 3 (.inr rfl)
  have gh2 : Ge 200 (h ^ 2) := by rw [pow_two]; exact gh.mul gh
  have gh3 : Ge 300 (h ^ 3) := by rw [pow_succ]; exact gh2.mul gh
  have E : ∀ c : ℚ, 0 ≤ c → Near (0 * e) c c := fun c hc => Near.exact he0 he1 hc
  have cr1 := Near.fmul he0 he1 (E 3 (by norm_num)) a0 (by norm_num) (by norm_num) (by norm_num) (by norm_num)
    (((gc 3 (by norm_num)).mul gh).mono (by norm_num)) (c := 11 / 8) (by norm_num)
  have cr := Near.fmul he0 he1 cr1 a1 (by norm_num) (by norm_num) (by norm_num) (by norm_num)
    ((((gc 3 (by norm_num)).mul gh).mul gh).mono (by norm_num)) (c := 11 / 4) (by norm_num)
  rw [show (3 : ℚ) * h * h = 3 * h ^ 2 by ring] at cr
  have d2 := Near.fmul he0 he1 (E 2 (by norm_num)) p2 (by norm_num) (by norm_num) (by norm_num) (by norm_num)
    (((gc 2 (by norm_num)).mul gh2).mono (by norm_num)) (c := 27 / 8) (by norm_num)
  have nA := Near.fadd he0 he1 d2 cr (c := 29 / 8) (by norm_num) (by norm_num) (by norm_num)
    ((((gc 2 (by norm_num)).mul gh2).add ((gc 3 (by norm_num)).mul gh2)).mono (by norm_num))
  have sA := Near.fadd he0 he1 a1 a0 (c := 5 / 4) (by norm_num) (by norm_num) (by norm_num) ((gh.add gh).mono (by norm_num))
  have dA := Near.fmul he0 he1 (E 6 (by norm_num)) sA (by norm_num) (by norm_num) (by norm_num) (by norm_num)
    (((gc 6 (by norm_num)).mul (gh.add gh)).mono (by norm_num)) (c := 13 / 8) (by norm_num)
  have A := Near.fdiv he0 he1 nA dA (by positivity) (by norm_num) (by norm_num) (by norm_num) (by norm_num)
    (by rw [show (2 * h ^ 2 + 3 * h ^ 2) / (6 * (h + h)) = 5 / 12 * h by field_simp; ring]; exact ((gc _ (by norm_num)).mul gh).mono (by norm_num))
    (c := 45 / 8) (by norm_num)
  rw [show (2 * h ^ 2 + 3 * h ^ 2) / (6 * (h + h)) = 5 / 12 * h by field_simp; ring] at A
  have nB := Near.fadd he0 he1 p2 cr (c := 13 / 4) (by norm_num) (by norm_num) (by norm_num)
    ((gh2.mono (by norm_num : 200 ≤ 204)).add ((gc 3 (by norm_num)).mul gh2) |>.mono (by norm_num))
  have dB := Near.fmul he0 he1 (E 6 (by norm_num)) a0 (by norm_num) (by norm_num) (by norm_num) (by norm_num)
    (((gc 6 (by norm_num)).mul gh).mono (by norm_num)) (c := 11 / 8) (by norm_num)
  have B := Near.fdiv he0 he1 nB dB (by positivity) (by norm_num) (by norm_num) (by norm_num) (by norm_num)
    (by rw [show (h ^ 2 + 3 * h ^ 2) / (6 * h) = 2 / 3 * h by field_simp; ring]; exact ((gc _ (by norm_num)).mul gh).mono (by norm_num))
    (c := 5) (by norm_num)
  rw [show (h ^ 2 + 3 * h ^ 2) / (6 * h) = 2 / 3 * h by field_simp; ring] at B
  have nE := Near.fmul he0 he1 (E 1 (by norm_num)) p3 (by norm_num) (by norm_num) (by norm_num) (by norm_num)
    (((gc 1 (by norm_num)).mul gh3).mono (by norm_num)) (c := 35 / 8) (by norm_num)
  have sE := Near.fadd he0 he1 a0 a1 (c := 5 / 4) (by norm_num) (by norm_num) (by norm_num) ((gh.add gh).mono (by norm_num))
  have dE := Near.fmul he0 he1 dB sE (by norm_num) (by norm_num) (by norm_num) (by norm_num)
    ((((gc 6 (by norm_num)).mul gh).mul (gh.add gh)).mono (by norm_num)) (c := 3) (by norm_num)
  have H := Near.fdiv he0 he1 nE dE (by positivity) (by norm_num) (by norm_num) (by norm_num) (by norm_num)
    (by rw [show 1 * h ^ 3 / (6 * h * (h + h)) = 1 / 12 * h by field_simp; ring]; exact ((gc _ (by norm_num)).mul gh).mono (by norm_num))
    (c := 31 / 4) (by norm_num)
  rw [show 1 * h ^ 3 / (6 * h * (h + h)) = 1 / 12 * h by field_simp; ring] at H
  have tA := Near.fmul he0 he1 A (E y2 g2.nonneg) (by norm_num) (by norm_num) (by norm_num) (by norm_num)
    ((((gc _ (by norm_num)).mul gh).mul g2).mono (by norm_num)) (c := 6) (by norm_num)
  have tB := Near.fmul he0 he1 B (E y1 g1.nonneg) (by norm_num) (by norm_num) (by norm_num) (by norm_num)
    ((((gc _ (by norm_num)).mul gh).mul g1).mono (by norm_num)) (c := 6) (by norm_num)
  have tH := Near.fmul he0 he1 H (E y0 g0.nonneg) (by norm_num) (by norm_num) (by norm_num) (by norm_num)
    ((((gc _ (by norm_num)).mul gh).mul g0).mono (by norm_num)) (c := 65 / 8) (by norm_num)
  have sAB := Near.fadd he0 he1 tA tB (c := 25 / 4) (by norm_num) (by norm_num) (by norm_num)
    ((((gc _ (by norm_num)).mul gh).mul g2).add (((gc _ (by norm_num)).mul gh).mul g1) |>.mono (by norm_num))
  rw [show 5 / 12 * h * y2 + 2 / 3 * h * y1 = h * (5 / 12 * y2 + 2 / 3 * y1) by ring] at sAB
  rw [show 1 / 12 * h * y0 = h * (1 / 12 * y0) by ring] at tH
  set X := f64 (f64 (f64 (f64 (f64 (2 * P.pow H1 2) + f64 (f64 (3 * H0) * H1)) / f64 (6 * f64 (H1 + H0))) * y2) +
    f64 (f64 (f64 (P.pow H1 2 + f64 (f64 (3 * H0) * H1)) / f64 (6 * H0)) * y1)) with hX
  set Y := f64 (f64 (f64 (1 * P.pow H1 3) / f64 (f64 (6 * H0) * f64 (H0 + H1))) * y0) with hY
  set S1 := h * (5 / 12 * y2 + 2 / 3 * y1)
  set S2 := h * (1 / 12 * y0)
  have dX : IsDouble X := f64_double _
  have dY : IsDouble (-Y) := by
    obtain ⟨m, k, hm, hk, hv⟩ := f64_double (f64 (f64 (1 * P.pow H1 3) / f64 (f64 (6 * H0) * f64 (H0 + H1))) * y0)
    exact ⟨-m, k, by rwa [abs_neg], hk, by rw [hY, hv]; push_cast; ring⟩
  have er := f64_add_error dX dY
  rw [← sub_eq_add_neg] at er
  refine ⟨?_, f64_double _⟩
  have S10 : 0 ≤ S1 := sAB.1
  have S20 : 0 ≤ S2 := tH.1
  have X2 := Near.pos he0 he1 sAB (by norm_num)
  have Y2 := Near.pos he0 he1 tH (by norm_num)
  have eX := sAB.2
  have eY := tH.2
  have aXY : |X - Y| ≤ 2 * (S1 + S2) := by rw [abs_le]; constructor <;> linarith
  have r : |X - Y| / 2 ^ 53 ≤ 1 / 4 * e * (S1 + S2) := by
    have : (S1 + S2) / 2 ^ 52 ≤ 1 / 4 * e * (S1 + S2) := by nlinarith
    linarith
  have t := abs_sub_le (f64 (X - Y)) (X - Y) (S1 - S2)
  have t' : |X - Y - (S1 - S2)| ≤ 25 / 4 * e * S1 + 65 / 8 * e * S2 := by
    rw [show X - Y - (S1 - S2) = (X - S1) + -(Y - S2) by ring]
    refine (abs_add_le _ _).trans ?_
    rw [abs_neg]
    exact add_le_add eX eY
  have z1 : 0 ≤ e * S1 := mul_nonneg e0.le S10
  have z2 : 0 ≤ e * S2 := mul_nonneg e0.le S20
  calc _ ≤ 1 / 4 * e * (S1 + S2) + (25 / 4 * e * S1 + 65 / 8 * e * S2) := by linarith
    _ ≤ _ := by linarith
end

/-! ## The whole rule -/

theorem simpOdd_panels {h : ℚ} (hh : h ≠ 0) : ∀ {x y : List ℚ}, x.length = y.length →
    (∀ i, i + 1 < x.length → x.getD (i + 1) 0 = x.getD i 0 + h) → simpOdd x y = (panels h y).sum
  | x0 :: x1 :: x2 :: xs, y0 :: y1 :: y2 :: ys => by
    intro hl hs
    rw [simpOdd, panels, List.sum_cons, simpOdd_panels hh (x := x2 :: xs) (y := y2 :: ys) (by simpa using hl) (fun i hi => by
      have := hs (i + 2) (by simp at hi ⊢; omega)
      simpa using this)]
    have s0 : x1 = x0 + h := by simpa using hs 0 (by simp)
    have s1 : x2 = x1 + h := by simpa using hs 1 (by simp)
    have e1 : x1 - x0 = h := by rw [s0]; ring
    have e2 : x2 - x1 = h := by rw [s1]; ring
    simp only [e1, e2]
    congr 1
    field_simp
    ring
  | [], [] => fun _ _ => by simp [simpOdd, panels]
  | [_], [_] => fun _ _ => by simp [simpOdd, panels]
  | [_, _], [_, _] => fun _ _ => by simp [simpOdd, panels]
  | [], _ :: _ => fun hl => by simp at hl
  | [_], [] => fun hl => by simp at hl
  | [_], _ :: _ :: _ => fun hl => by simp at hl
  | [_, _], [] => fun hl => by simp at hl
  | [_, _], [_] => fun hl => by simp at hl
  | [_, _], _ :: _ :: _ :: _ => fun hl => by simp at hl
  | _ :: _ :: _ :: _, [] => fun hl => by simp at hl
  | _ :: _ :: _ :: _, [_] => fun hl => by simp at hl
  | _ :: _ :: _ :: _, [_, _] => fun hl => by simp at hl

/-- The exact axis with step `h` and `n` points. -/
theorem ideal_axis {h : ℚ} (hh : 0 < h) (n : ℕ) : UniformAxis ((List.range n).map fun i : ℕ => (i : ℚ) * h) h := by
  refine ⟨hh, fun i hi => ?_⟩
  have hi' : i + 1 < n := by simpa using hi
  rw [map_range_getD hi', map_range_getD (by omega)]
  push_cast; ring

/-- The exact rule on an even number (at least four) of points, split in the panels and the last interval. -/
theorem weights_even {h : ℚ} (hh : 0 < h) {y : List ℚ} (h4 : 4 ≤ y.length) (he : y.length % 2 = 0) :
    h * ∑ k ∈ range y.length, simpsonWeight ℚ y.length k * y.getD k 0 = (panels h y.dropLast).sum +
      (h * (5 / 12 * y.getD (y.length - 1) 0 + 2 / 3 * y.getD (y.length - 2) 0) - h * (1 / 12 * y.getD (y.length - 3) 0)) := by
  set x := (List.range y.length).map fun i : ℕ => (i : ℚ) * h with hx
  have xl : x.length = y.length := by simp [hx]
  have hu := ideal_axis hh y.length
  rw [← hx] at hu
  have ne : x ≠ [] := by intro h; rw [h] at xl; simp at xl; omega
  have e1 := simpson_exact_weights hu ne xl.symm
  unfold simpson at e1
  rw [if_neg (by simpa using xl), if_neg ne, if_neg (by omega), if_neg (by omega), xl] at e1
  have e2 := Except.ok.inj e1
  rw [← e2, simpOdd_panels hh.ne' (by simp [xl]) (by
    intro i hi
    rw [List.length_dropLast] at hi
    have g : ∀ j, j < x.length - 1 → x.dropLast.getD j 0 = x.getD j 0 := by
      intro j hj
      rw [List.getD_eq_getElem _ _ (by rw [List.length_dropLast]; exact hj), List.getElem_dropLast, List.getD_eq_getElem _ _ (by omega)]
    rw [g _ hi, g _ (by omega)]
    exact hu.2 i (by omega))]
  congr 1
  unfold simpLast
  simp only []
  rw [xl]
  have d0 : x.getD (y.length - 2) 0 - x.getD (y.length - 3) 0 = h := by
    have := hu.2 (y.length - 3) (by omega)
    rw [show y.length - 3 + 1 = y.length - 2 by omega] at this
    rw [this]; ring
  have d1 : x.getD (y.length - 1) 0 - x.getD (y.length - 2) 0 = h := by
    have := hu.2 (y.length - 2) (by omega)
    rw [show y.length - 2 + 1 = y.length - 1 by omega] at this
    rw [this]; ring
  rw [d0, d1]
  field_simp
  ring

theorem weights_odd {h : ℚ} (hh : 0 < h) {y : List ℚ} (ho : y.length % 2 = 1) :
    h * ∑ k ∈ range y.length, simpsonWeight ℚ y.length k * y.getD k 0 = (panels h y).sum := by
  set x := (List.range y.length).map fun i : ℕ => (i : ℚ) * h with hx
  have xl : x.length = y.length := by simp [hx]
  have hu := ideal_axis hh y.length
  rw [← hx] at hu
  have ne : x ≠ [] := by intro h; rw [h] at xl; simp at xl; omega
  have e1 := simpson_exact_weights hu ne xl.symm
  unfold simpson at e1
  rw [if_neg (by simpa using xl), if_neg ne, if_pos (by omega), xl] at e1
  have e2 := Except.ok.inj e1
  rw [← e2, simpOdd_panels hh.ne' xl (fun i hi => hu.2 i hi)]

theorem weight_nonneg (n k : ℕ) : (0 : ℚ) ≤ simpsonWeight ℚ n k := by
  unfold simpsonWeight
  split_ifs <;> norm_num

/-- **C124 (the rule).**  `scipy.integrate.simpson` in double precision, with any order of the additions, on an axis whose computed steps are
`h` up to a relative error `e`: the result is that of the exact rule up to a relative error `11 e + N / 2 ^ 51`. -/
theorem simpson_double (R : NpSum) (P : NpPow) {e h : ℚ} (he0 : 1 / 2 ^ 50 ≤ e) (he1 : e ≤ 1 / 2 ^ 20) (hlo : 1 / 2 ^ 100 ≤ h) (hhi : h ≤ 2 ^ 100)
    {x y : List ℚ} (hne : x ≠ []) (hl : x.length = y.length) (hn : x.length ≤ 2 ^ 40) (hs : StepsNear e h x) (hg : ∀ v ∈ y, Ge 700 v) :
    ∃ v, simpsonF64 R P x y = .ok v ∧ IsDouble v ∧
      |v - h * ∑ k ∈ range y.length, simpsonWeight ℚ y.length k * y.getD k 0| ≤
        (11 * e + (y.length : ℚ) / 2 ^ 51) * (h * ∑ k ∈ range y.length, simpsonWeight ℚ y.length k * y.getD k 0) := by
  have h0 : 0 < h := lt_of_lt_of_le (by positivity) hlo
  have e0 : 0 < e := lt_of_lt_of_le (by positivity) he0
  have pos := List.length_pos_iff.2 hne
  have gy : ∀ i, i < y.length → Ge 700 (y.getD i 0) := by
    intro i hi
    rw [List.getD_eq_getElem _ _ (by omega)]
    exact hg _ (List.getElem_mem _)
  have Q0 : 0 ≤ h * ∑ k ∈ range y.length, simpsonWeight ℚ y.length k * y.getD k 0 :=
    mul_nonneg h0.le (sum_nonneg fun k hk => mul_nonneg (weight_nonneg _ _) (gy k (mem_range.1 hk)).nonneg)
  unfold simpsonF64
  rw [if_neg (by simpa using hl), if_neg hne]
  by_cases ho : x.length % 2 = 1
  · rw [if_pos ho]
    obtain ⟨a, b⟩ := odd_double he0 he1 hlo hhi R hl hn hs hg
    refine ⟨_, rfl, b, ?_⟩
    rw [weights_odd h0 (by omega)] at Q0 ⊢
    rw [hl] at a
    refine a.trans (mul_le_mul_of_nonneg_right ?_ Q0)
    have : (0 : ℚ) ≤ y.length := by positivity
    have : (y.length : ℚ) / 2 ^ 52 ≤ (y.length : ℚ) / 2 ^ 51 := by linarith
    linarith
  rw [if_neg ho]
  by_cases h2 : x.length = 2
  · rw [if_pos h2]
    refine ⟨_, rfl, f64_double _, ?_⟩
    have s := hs 0 (by omega)
    rw [zero_add] at s
    have gh : Ge 100 h := .inr hlo
    have g0 := gy 0 (by omega)
    have g1 := gy 1 (by omega)
    have ga : Ge 4 (1 / 2 : ℚ) := .inr (by norm_num)
    have a : Near (1 * e) (f64 (x.getD 1 0 - x.getD 0 0)) h := ⟨h0.le, by rwa [one_mul]⟩
    have b := Near.fmul he0 he1 (Near.exact he0 he1 (by norm_num : (0 : ℚ) ≤ 1 / 2)) a (by norm_num) (by norm_num) (by norm_num) (by norm_num)
      ((ga.mul gh).mono (by norm_num)) (c := 2) (by norm_num)
    have c := Near.fadd he0 he1 (Near.exact he0 he1 g1.nonneg) (Near.exact he0 he1 g0.nonneg) (c := 1) (by norm_num) (by norm_num) (by norm_num)
      ((g1.add g0).mono (by norm_num))
    have d := Near.fmul he0 he1 b c (by norm_num) (by norm_num) (by norm_num) (by norm_num) (((ga.mul gh).mul (g1.add g0)).mono (by norm_num))
      (c := 11) (by norm_num)
    have w : h * ∑ k ∈ range y.length, simpsonWeight ℚ y.length k * y.getD k 0 = 1 / 2 * h * (y.getD 1 0 + y.getD 0 0) := by
      rw [← hl, h2, sum_range_succ, sum_range_succ, range_zero, sum_empty]
      simp only [simpsonWeight]
      norm_num
      ring
    rw [w] at Q0 ⊢
    refine d.2.trans (mul_le_mul_of_nonneg_right ?_ Q0)
    have : (0 : ℚ) ≤ (y.length : ℚ) / 2 ^ 51 := by positivity
    linarith
  rw [if_neg h2]
  refine ⟨_, rfl, f64_double _, ?_⟩
  have dl : x.dropLast.length = y.dropLast.length := by simp [hl]
  obtain ⟨a, da⟩ := odd_double he0 he1 hlo hhi R dl (by rw [List.length_dropLast]; omega) hs.dropLast (fun v hv => hg v (List.mem_of_mem_dropLast hv))
  obtain ⟨b, db⟩ := last_double he0 he1 hlo hhi P (by omega) hl hs hg
  have er := f64_add_error da db
  rw [hl] at b
  have single : h * (5 / 4 * y.getD (y.length - 3) 0) ≤ h * ∑ k ∈ range y.length, simpsonWeight ℚ y.length k * y.getD k 0 := by
    refine mul_le_mul_of_nonneg_left ?_ h0.le
    have w : simpsonWeight ℚ y.length (y.length - 3) = 5 / 4 := by
      unfold simpsonWeight
      rw [if_neg (by omega), if_neg (by omega), if_neg (by omega), if_neg (by omega), if_pos (by omega)]
    have := single_le_sum (f := fun k => simpsonWeight ℚ y.length k * y.getD k 0) (s := range y.length)
      (fun k hk => mul_nonneg (weight_nonneg _ _) (gy k (mem_range.1 hk)).nonneg) (mem_range.2 (by omega : y.length - 3 < y.length))
    simp only [w] at this
    exact this
  have wq := weights_even h0 (y := y) (by omega) (by omega)
  set Q := h * ∑ k ∈ range y.length, simpsonWeight ℚ y.length k * y.getD k 0
  have z0 := (gy (y.length - 3) (by omega)).nonneg
  have z1 := (gy (y.length - 2) (by omega)).nonneg
  have z2 := (gy (y.length - 1) (by omega)).nonneg
  set S1 := h * (5 / 12 * y.getD (y.length - 1) 0 + 2 / 3 * y.getD (y.length - 2) 0)
  set S2 := h * (1 / 12 * y.getD (y.length - 3) 0)
  have S10 : 0 ≤ S1 := by positivity
  have S20 : 0 ≤ S2 := by positivity
  have S2Q : 15 * S2 ≤ Q := by
    refine le_trans (le_of_eq ?_) single
    simp only [S2]; ring
  set O := (panels h y.dropLast).sum
  have O0 : 0 ≤ O := List.sum_nonneg (panels_nonneg h0.le fun v hv => (hg v (List.mem_of_mem_dropLast hv)).nonneg)
  set u := R.sum (simpTermsF64 x.dropLast y.dropLast)
  set v := simpLastF64 P x y
  have N0 : (0 : ℚ) ≤ y.length := by positivity
  have Nl : (x.dropLast.length : ℚ) / 2 ^ 52 ≤ (y.length : ℚ) / 2 ^ 52 := by
    have : x.dropLast.length ≤ y.length := by rw [List.length_dropLast]; omega
    have : (x.dropLast.length : ℚ) ≤ y.length := by exact_mod_cast this
    linarith
  have N1 : (y.length : ℚ) / 2 ^ 52 ≤ 1 / 2 ^ 12 := by
    have : (y.length : ℚ) ≤ 2 ^ 40 := by rw [← hl]; exact_mod_cast hn
    linarith
  set ν := (y.length : ℚ) / 2 ^ 52 with hν
  have ν0 : 0 ≤ ν := by positivity
  have a' : |u - O| ≤ (9 * e + ν) * O := a.trans (mul_le_mul_of_nonneg_right (by linarith) O0)
  have tot : |u + v - Q| ≤ (9 * e + ν) * (O + S1 + S2) := by
    rw [wq, show u + v - (O + (S1 - S2)) = (u - O) + (v - (S1 - S2)) by ring]
    have : 9 * e * (S1 + S2) ≤ (9 * e + ν) * (S1 + S2) := mul_le_mul_of_nonneg_right (by linarith) (by linarith)
    calc _ ≤ |u - O| + |v - (S1 - S2)| := abs_add_le _ _
      _ ≤ (9 * e + ν) * O + (9 * e + ν) * (S1 + S2) := by linarith
      _ = _ := by ring
  have W : O + S1 + S2 ≤ 17 / 15 * Q := by linarith
  have tot' : |u + v - Q| ≤ (9 * e + ν) * (17 / 15 * Q) := tot.trans (mul_le_mul_of_nonneg_left W (by linarith))
  have small : (9 * e + ν) * (17 / 15 * Q) ≤ Q := by
    have : (9 * e + ν) * (17 / 15) ≤ 1 := by linarith
    nlinarith
  have uv : |u + v| ≤ 2 * Q := by
    have := abs_sub_abs_le_abs_sub (u + v) Q
    rw [abs_of_nonneg Q0] at this
    linarith
  have r : |u + v| / 2 ^ 53 ≤ 1 / 4 * e * Q := by
    have : Q / 2 ^ 52 ≤ 1 / 4 * e * Q := by nlinarith
    linarith
  have t := abs_sub_le (f64 (u + v)) (u + v) Q
  have e2 : (y.length : ℚ) / 2 ^ 51 = 2 * ν := by rw [hν]; ring
  rw [e2]
  have z : 0 ≤ e * Q := mul_nonneg e0.le Q0
  have z' : 0 ≤ ν * Q := mul_nonneg ν0 Q0
  calc _ ≤ 1 / 4 * e * Q + (9 * e + ν) * (17 / 15 * Q) := by linarith
    _ ≤ _ := by linarith

/-! ## Concrete cases: the hypotheses of the theorems above are met -/

example (R : NpSum) (P : NpPow) : ∃ v, simpsonF64 R P [0, 1, 2, 3] [0, 1, 3, 2] = .ok v ∧ IsDouble v := by
  obtain ⟨v, a, b, -⟩ := simpson_double R P (e := 1 / 2 ^ 50) (h := 1) le_rfl (by norm_num) (by norm_num) (by norm_num) (x := [0, 1, 2, 3]) (y := [0, 1, 3, 2])
    (by simp) rfl (by simp) (by
      intro i hi
      obtain rfl | rfl | rfl : i = 0 ∨ i = 1 ∨ i = 2 := by simp only [List.length_cons, List.length_nil] at hi; omega
      all_goals decide +kernel) (by
      intro v hv
      simp only [List.mem_cons, List.not_mem_nil, or_false] at hv
      have h1 : (1 : ℚ) / 2 ^ 700 ≤ 1 := by
        rw [div_le_one (by positivity)]
        exact one_le_pow₀ (by norm_num)
      rcases hv with rfl | rfl | rfl | rfl
      · exact .inl rfl
      · exact .inr h1
      · exact .inr (h1.trans (by norm_num))
      · exact .inr (h1.trans (by norm_num)))
  exact ⟨v, a, b⟩

end Verif
