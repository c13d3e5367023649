import Mathlib.Data.Rat.Cast.Order
import Mathlib.Analysis.Convex.SpecificFunctions.Basic
import Verif.Lemmas.Tanh

/-! # A verified enclosure of the residual of the first approximation of the dispersion solver

The first approximation `Q` of the solver satisfies `Q^5 (1 - exp(-s^5))^2 = s^20` with `s = (w^2 h / g)^(1/4)`.  It is increasing in `s`,
and so is `q tanh q`, so bounds at the points of a grid give bounds on the whole interval covered by the grid.  The bounds at the grid
points are rational (Taylor sums of `exp` with error terms) and are checked by kernel computation. -/

namespace Verif
open Real

/-! ## Rational bounds of `exp` -/

/-- The Taylor sum of `exp x` with `n` terms, and the next term. -/
def expSum (x : ℚ) : Nat → ℚ × ℚ
  | 0 => (0, 1)
  | n + 1 => let p := expSum x n; (p.1 + p.2, p.2 * x / (n + 1))
def expLo (x : ℚ) : ℚ := (expSum x 28).1
def expUp (x : ℚ) : ℚ := (expSum x 28).1 + 2 * (expSum x 28).2

theorem expSum_eq (x : ℚ) (n : Nat) : ((expSum x n).1 : ℝ) = ∑ i ∈ Finset.range n, (x : ℝ) ^ i / (i.factorial : ℝ) ∧
    ((expSum x n).2 : ℝ) = (x : ℝ) ^ n / (n.factorial : ℝ) := by
  induction n with
  | zero => simp [expSum]
  | succ n ih =>
    obtain ⟨h1, h2⟩ := ih
    constructor
    · rw [Finset.sum_range_succ, ← h1, ← h2]; simp [expSum]
    · simp only [expSum]
      push_cast
      rw [h2, Nat.factorial_succ]
      push_cast
      have : (n.factorial : ℝ) ≠ 0 := by positivity
      have : (n : ℝ) + 1 ≠ 0 := by positivity
      field_simp
      ring

theorem expLo_le {x : ℚ} (hx : 0 ≤ x) : (expLo x : ℝ) ≤ Real.exp x := by
  unfold expLo
  rw [(expSum_eq x 28).1]
  exact Real.sum_le_exp_of_nonneg (by exact_mod_cast hx) 28

theorem le_expUp {x : ℚ} (hx : 0 ≤ x) (h : x ≤ 14) : Real.exp x ≤ (expUp x : ℝ) := by
  unfold expUp
  push_cast
  rw [(expSum_eq x 28).1, (expSum_eq x 28).2]
  have hx' : (0 : ℝ) ≤ x := by exact_mod_cast hx
  have h' : (x : ℝ) ≤ 14 := by exact_mod_cast h
  have hb := Complex.exp_bound' (x := ((x : ℝ) : ℂ)) (n := 28) (by
    rw [Complex.norm_real, Real.norm_eq_abs, abs_of_nonneg hx', div_le_iff₀ (by norm_num)]
    norm_num
    linarith)
  rw [Complex.norm_real, Real.norm_eq_abs, abs_of_nonneg hx'] at hb
  have e : Complex.exp ((x : ℝ) : ℂ) - ∑ m ∈ Finset.range 28, ((x : ℝ) : ℂ) ^ m / (m.factorial : ℂ) =
      ((Real.exp x - ∑ m ∈ Finset.range 28, (x : ℝ) ^ m / (m.factorial : ℝ) : ℝ) : ℂ) := by
    push_cast; rfl
  rw [e, Complex.norm_real, Real.norm_eq_abs] at hb
  have := (abs_le.1 hb).2
  linarith

/-! ## Monotonicity -/

theorem dispF_mono {p q : ℝ} (hp : 0 ≤ p) (h : p ≤ q) : p * Real.tanh p ≤ q * Real.tanh q := by
  have h1 := tanh_strictMono.monotone h
  have h0 : 0 ≤ Real.tanh p := by
    have := tanh_strictMono.monotone hp
    rwa [Real.tanh_zero] at this
  exact mul_le_mul h h1 h0 (hp.trans h)

/-- `(1 - exp(-z)) / z` decreases. -/
theorem one_sub_exp_div {a b : ℝ} (ha : 0 ≤ a) (hb : 0 < b) (h : a ≤ b) : (1 - Real.exp (-b)) * a ≤ (1 - Real.exp (-a)) * b := by
  have h1 := convexOn_exp.2 (Set.mem_univ (0 : ℝ)) (Set.mem_univ (-b)) (sub_nonneg.2 ((div_le_one hb).2 h)) (div_nonneg ha hb.le) (by ring)
  simp only [smul_eq_mul, mul_zero, zero_add, Real.exp_zero, mul_one] at h1
  have e : a / b * -b = -a := by field_simp
  rw [e] at h1
  have h2 := mul_le_mul_of_nonneg_right h1 hb.le
  have e2 : (1 - a / b + a / b * Real.exp (-b)) * b = b - a + a * Real.exp (-b) := by field_simp
  rw [e2] at h2
  linarith

/-- What the first approximation satisfies, as a function of `s = y^(1/4)`. -/
def IsStart (Q : ℝ → ℝ) : Prop := ∀ s, 0 < s → 0 < Q s ∧ Q s ^ 5 * (1 - Real.exp (-s ^ 5)) ^ 2 = s ^ 20

theorem one_sub_exp_pos {z : ℝ} (hz : 0 < z) : 0 < 1 - Real.exp (-z) := by
  have : Real.exp (-z) < Real.exp 0 := Real.exp_lt_exp.2 (by linarith)
  rw [Real.exp_zero] at this
  linarith

theorem IsStart.mono {Q : ℝ → ℝ} (hQ : IsStart Q) {s s' : ℝ} (hs : 0 < s) (h : s ≤ s') : Q s ≤ Q s' := by
  have hs' : 0 < s' := hs.trans_le h
  obtain ⟨h1, e1⟩ := hQ s hs
  obtain ⟨h2, e2⟩ := hQ s' hs'
  have hz : 0 < s ^ 5 := by positivity
  have hz' : 0 < s' ^ 5 := by positivity
  have hzz : s ^ 5 ≤ s' ^ 5 := pow_le_pow_left₀ hs.le h 5
  have hE := one_sub_exp_pos hz
  have hE' := one_sub_exp_pos hz'
  have hd := one_sub_exp_div hz.le hz' hzz
  have e20 : s ^ 20 = (s ^ 5) ^ 4 := by ring
  have e20' : s' ^ 20 = (s' ^ 5) ^ 4 := by ring
  rw [e20] at e1
  rw [e20'] at e2
  rw [show -s ^ 5 = -(s ^ 5) by ring] at e1
  rw [show -s' ^ 5 = -(s' ^ 5) by ring] at e2
  generalize s ^ 5 = z at *
  generalize s' ^ 5 = z' at *
  generalize 1 - Real.exp (-z) = E at *
  generalize 1 - Real.exp (-z') = E' at *
  refine le_of_not_gt fun hlt => ?_
  have h5 : Q s' ^ 5 < Q s ^ 5 := pow_lt_pow_left₀ hlt h2.le (by norm_num)
  -- z^2 E' ≤ z'^2 E
  have h6 : z ^ 2 * E' ≤ z' ^ 2 * E := by
    have a1 := mul_le_mul_of_nonneg_left hd hz.le
    have a2 := mul_le_mul_of_nonneg_right hzz (by positivity : 0 ≤ E * z')
    nlinarith
  have h7 : (z ^ 2 * E') ^ 2 ≤ (z' ^ 2 * E) ^ 2 := pow_le_pow_left₀ (by positivity) h6 2
  have h8 : Q s ^ 5 * (E ^ 2 * E' ^ 2) ≤ Q s' ^ 5 * (E ^ 2 * E' ^ 2) := by
    have a1 : Q s ^ 5 * (E ^ 2 * E' ^ 2) = (z ^ 2 * E') ^ 2 := by
      rw [← mul_assoc, e1]; ring
    have a2 : Q s' ^ 5 * (E ^ 2 * E' ^ 2) = (z' ^ 2 * E) ^ 2 := by
      rw [mul_comm (E ^ 2), ← mul_assoc, e2]; ring
    rw [a1, a2]; exact h7
  have h9 := le_of_mul_le_mul_right h8 (by positivity)
  linarith

/-! ## The grid -/

/-- A grid point is `s` in units of `10⁻⁴` and the first approximation there in units of `10⁻⁵`. -/
def gs (k : Nat) : ℚ := k / 10000
def gzl (k : Nat) : ℚ := ((k ^ 5 / 10 ^ 14 : Nat) : ℚ) / 10 ^ 6
def gzu (k : Nat) : ℚ := ((k ^ 5 / 10 ^ 14 + 1 : Nat) : ℚ) / 10 ^ 6
def ql (q : Nat) : ℚ := ((q - 1 : Nat) : ℚ) / 10 ^ 5
def qu (q : Nat) : ℚ := ((q + 1 : Nat) : ℚ) / 10 ^ 5
/-- The first approximation at a grid point is what the grid says, up to a unit. -/
def okPoint (p : Nat × Nat) : Bool :=
  decide (0 < p.1 ∧ gzu p.1 ≤ 14 ∧ qu p.2 ≤ 7 ∧ 0 < gzl p.1 ∧ ql p.2 ^ 5 * (1 - 1 / expUp (gzu p.1)) ^ 2 ≤ gs p.1 ^ 20 ∧
    gs p.1 ^ 20 ≤ qu p.2 ^ 5 * (1 - 1 / expLo (gzl p.1)) ^ 2)
/-- Bounds of `q tanh q` at a grid point. -/
def gridLo (p : Nat × Nat) : ℚ := ql p.2 * (1 - 2 / (expLo (2 * ql p.2) + 1))
def gridUp (p : Nat × Nat) : ℚ := qu p.2 * (1 - 2 / (expUp (2 * qu p.2) + 1))
/-- The residual between two neighbouring grid points is small. -/
def okStep (p r : Nat × Nat) : Bool :=
  decide (gridUp r - gs p.1 ^ 4 ≤ 3 / 125 * min (gs p.1 ^ 4) 1 ∧ gs r.1 ^ 4 - gridLo p ≤ 3 / 125 * min (gs p.1 ^ 4) 1)
def okGrid : List (Nat × Nat) → Bool
  | [] => true
  | [p] => okPoint p
  | p :: r :: l => okPoint p && okStep p r && okGrid (r :: l)

theorem gs_cast (k : Nat) : ((gs k : ℚ) : ℝ) = k / 10000 := by simp [gs]

theorem gz_bounds (k : Nat) : ((gzl k : ℚ) : ℝ) ≤ (k / 10000 : ℝ) ^ 5 ∧ (k / 10000 : ℝ) ^ 5 ≤ ((gzu k : ℚ) : ℝ) := by
  have e : (k / 10000 : ℝ) ^ 5 = ((k ^ 5 : Nat) : ℝ) / 10 ^ 20 := by push_cast; ring
  rw [e]
  unfold gzl gzu
  have h1 : k ^ 5 / 10 ^ 14 * 10 ^ 14 ≤ k ^ 5 := Nat.div_mul_le_self _ _
  have h2 : k ^ 5 ≤ (k ^ 5 / 10 ^ 14 + 1) * 10 ^ 14 := by
    have := Nat.div_add_mod (k ^ 5) (10 ^ 14)
    have h3 := Nat.mod_lt (k ^ 5) (by norm_num : 0 < 10 ^ 14)
    linarith
  generalize k ^ 5 / 10 ^ 14 = m at *
  have h1' : (m : ℝ) * 10 ^ 14 ≤ ((k ^ 5 : Nat) : ℝ) := by exact_mod_cast h1
  have h2' : ((k ^ 5 : Nat) : ℝ) ≤ ((m : ℝ) + 1) * 10 ^ 14 := by exact_mod_cast h2
  generalize ((k ^ 5 : Nat) : ℝ) = n at *
  push_cast
  constructor
  · rw [div_le_div_iff₀ (by positivity) (by positivity)]; nlinarith
  · rw [div_le_div_iff₀ (by positivity) (by positivity)]; nlinarith

theorem okPoint_sound {Q : ℝ → ℝ} (hQ : IsStart Q) {p : Nat × Nat} (h : okPoint p = true) :
    0 < p.1 ∧ qu p.2 ≤ 7 ∧ ((ql p.2 : ℚ) : ℝ) ≤ Q (p.1 / 10000) ∧ Q (p.1 / 10000) ≤ ((qu p.2 : ℚ) : ℝ) := by
  unfold okPoint at h
  obtain ⟨h0, hz14, hq7, hzl, hl, hu⟩ := of_decide_eq_true h
  refine ⟨h0, hq7, ?_⟩
  have hs : (0 : ℝ) < p.1 / 10000 := by positivity
  obtain ⟨hp, he⟩ := hQ _ hs
  obtain ⟨hb1, hb2⟩ := gz_bounds p.1
  have hl' : ((ql p.2 : ℚ) : ℝ) ^ 5 * (1 - 1 / ((expUp (gzu p.1) : ℚ) : ℝ)) ^ 2 ≤ (p.1 / 10000 : ℝ) ^ 20 := by
    rw [← gs_cast]; exact_mod_cast hl
  have hu' : (p.1 / 10000 : ℝ) ^ 20 ≤ ((qu p.2 : ℚ) : ℝ) ^ 5 * (1 - 1 / ((expLo (gzl p.1) : ℚ) : ℝ)) ^ 2 := by
    rw [← gs_cast]; exact_mod_cast hu
  have hql0 : (0 : ℝ) ≤ ((ql p.2 : ℚ) : ℝ) := by unfold ql; positivity
  have hqu0 : (0 : ℝ) ≤ ((qu p.2 : ℚ) : ℝ) := by unfold qu; positivity
  have hzu0 : (0 : ℚ) ≤ gzu p.1 := by unfold gzu; positivity
  have hup := le_expUp hzu0 hz14
  have hlo := expLo_le hzl.le
  generalize (p.1 / 10000 : ℝ) = s at *
  have hz : 0 < s ^ 5 := by positivity
  have hE := one_sub_exp_pos hz
  rw [show -s ^ 5 = -(s ^ 5) by ring] at he
  have hE1 : 1 - Real.exp (-(s ^ 5)) ≤ 1 - 1 / ((expUp (gzu p.1) : ℚ) : ℝ) := by
    rw [Real.exp_neg, ← one_div]
    have h1 : Real.exp (s ^ 5) ≤ ((expUp (gzu p.1) : ℚ) : ℝ) := (Real.exp_le_exp.2 hb2).trans hup
    have := one_div_le_one_div_of_le (Real.exp_pos _) h1
    linarith
  have hlo1 : (1 : ℝ) ≤ ((expLo (gzl p.1) : ℚ) : ℝ) := by
    unfold expLo
    rw [(expSum_eq _ 28).1]
    have hz' : (0 : ℝ) ≤ ((gzl p.1 : ℚ) : ℝ) := by exact_mod_cast hzl.le
    have := Finset.single_le_sum (f := fun i => ((gzl p.1 : ℚ) : ℝ) ^ i / (i.factorial : ℝ)) (s := Finset.range 28)
      (fun i _ => by positivity) (Finset.mem_range.2 (by norm_num : 0 < 28))
    simpa using this
  have hE2 : 1 - 1 / ((expLo (gzl p.1) : ℚ) : ℝ) ≤ 1 - Real.exp (-(s ^ 5)) := by
    rw [Real.exp_neg, ← one_div]
    have h1 : ((expLo (gzl p.1) : ℚ) : ℝ) ≤ Real.exp (s ^ 5) := hlo.trans (Real.exp_le_exp.2 hb1)
    have := one_div_le_one_div_of_le (by linarith) h1
    linarith
  have hE20 : 0 ≤ 1 - 1 / ((expLo (gzl p.1) : ℚ) : ℝ) := by
    have := (div_le_one (by linarith : (0 : ℝ) < ((expLo (gzl p.1) : ℚ) : ℝ))).2 hlo1
    linarith
  generalize 1 - Real.exp (-(s ^ 5)) = E at *
  constructor
  · refine le_of_not_gt fun hlt => ?_
    have h5 : Q s ^ 5 < ((ql p.2 : ℚ) : ℝ) ^ 5 := pow_lt_pow_left₀ hlt hp.le (by norm_num)
    have h6 : ((ql p.2 : ℚ) : ℝ) ^ 5 * E ^ 2 ≤ s ^ 20 :=
      (mul_le_mul_of_nonneg_left (pow_le_pow_left₀ hE.le hE1 2) (by positivity)).trans hl'
    have h7 := mul_lt_mul_of_pos_right h5 (by positivity : 0 < E ^ 2)
    linarith
  · refine le_of_not_gt fun hlt => ?_
    have h5 : ((qu p.2 : ℚ) : ℝ) ^ 5 < Q s ^ 5 := pow_lt_pow_left₀ hlt hqu0 (by norm_num)
    have h6 : s ^ 20 ≤ ((qu p.2 : ℚ) : ℝ) ^ 5 * E ^ 2 :=
      hu'.trans (mul_le_mul_of_nonneg_left (pow_le_pow_left₀ hE20 hE2 2) (by positivity))
    have h7 := mul_lt_mul_of_pos_right h5 (by positivity : 0 < E ^ 2)
    linarith

theorem tanh_eq (x : ℝ) : Real.tanh x = 1 - 2 / (Real.exp (2 * x) + 1) := by
  have := one_sub_tanh x
  linarith

theorem gridLo_le (p : Nat × Nat) : ((gridLo p : ℚ) : ℝ) ≤ ((ql p.2 : ℚ) : ℝ) * Real.tanh ((ql p.2 : ℚ) : ℝ) := by
  have h0 : (0 : ℚ) ≤ ql p.2 := by unfold ql; positivity
  have h := expLo_le (x := 2 * ql p.2) (by positivity)
  have hp : (0 : ℝ) ≤ ((expLo (2 * ql p.2) : ℚ) : ℝ) := by
    unfold expLo
    rw [(expSum_eq _ 28).1]
    have hz' : (0 : ℝ) ≤ ((2 * ql p.2 : ℚ) : ℝ) := by exact_mod_cast (by positivity : (0:ℚ) ≤ 2 * ql p.2)
    exact Finset.sum_nonneg fun i _ => by positivity
  unfold gridLo
  push_cast at h ⊢
  rw [tanh_eq]
  apply mul_le_mul_of_nonneg_left _ (by exact_mod_cast h0)
  have : 2 / (Real.exp (2 * ((ql p.2 : ℚ) : ℝ)) + 1) ≤ 2 / (((expLo (2 * ql p.2) : ℚ) : ℝ) + 1) :=
    div_le_div_of_nonneg_left (by norm_num) (by linarith) (by linarith)
  linarith

theorem le_gridUp (p : Nat × Nat) (h7 : qu p.2 ≤ 7) : ((qu p.2 : ℚ) : ℝ) * Real.tanh ((qu p.2 : ℚ) : ℝ) ≤ ((gridUp p : ℚ) : ℝ) := by
  have h0 : (0 : ℚ) ≤ qu p.2 := by unfold qu; positivity
  have h := le_expUp (x := 2 * qu p.2) (by positivity) (by linarith)
  unfold gridUp
  push_cast at h ⊢
  rw [tanh_eq]
  apply mul_le_mul_of_nonneg_left _ (by exact_mod_cast h0)
  have := Real.exp_pos (2 * ((qu p.2 : ℚ) : ℝ))
  have : 2 / (((expUp (2 * qu p.2) : ℚ) : ℝ) + 1) ≤ 2 / (Real.exp (2 * ((qu p.2 : ℚ) : ℝ)) + 1) :=
    div_le_div_of_nonneg_left (by norm_num) (by linarith) (by linarith)
  linarith

/-- Between two neighbouring grid points the residual is at most `3/125`. -/
theorem okStep_sound {Q : ℝ → ℝ} (hQ : IsStart Q) {p r : Nat × Nat} (hp : okPoint p = true) (hr : okPoint r = true)
    (hs : okStep p r = true) {s : ℝ} (h1 : (p.1 / 10000 : ℝ) ≤ s) (h2 : s ≤ r.1 / 10000) :
    |Q s * Real.tanh (Q s) - s ^ 4| ≤ 3 / 125 * min (s ^ 4) 1 := by
  obtain ⟨hp0, -, hpl, -⟩ := okPoint_sound hQ hp
  obtain ⟨-, hr7, -, hru⟩ := okPoint_sound hQ hr
  have hpp : (0 : ℝ) < p.1 / 10000 := by positivity
  have hs0 : 0 < s := hpp.trans_le h1
  have m1 := hQ.mono hpp h1
  have m2 := hQ.mono hs0 h2
  have hql0 : (0 : ℝ) ≤ ((ql p.2 : ℚ) : ℝ) := by unfold ql; positivity
  have f1 := (gridLo_le p).trans (dispF_mono hql0 (hpl.trans m1))
  have f2 := (dispF_mono (hQ s hs0).1.le (m2.trans hru)).trans (le_gridUp r hr7)
  unfold okStep at hs
  obtain ⟨c1, c2⟩ := of_decide_eq_true hs
  have c1' : ((gridUp r : ℚ) : ℝ) - (p.1 / 10000 : ℝ) ^ 4 ≤ 3 / 125 * min ((p.1 / 10000 : ℝ) ^ 4) 1 := by
    rw [← gs_cast]
    have := (Rat.cast_le (K := ℝ)).2 c1
    push_cast at this
    exact this
  have c2' : (r.1 / 10000 : ℝ) ^ 4 - ((gridLo p : ℚ) : ℝ) ≤ 3 / 125 * min ((p.1 / 10000 : ℝ) ^ 4) 1 := by
    rw [← gs_cast, ← gs_cast]
    have := (Rat.cast_le (K := ℝ)).2 c2
    push_cast at this
    exact this
  have d1 : (p.1 / 10000 : ℝ) ^ 4 ≤ s ^ 4 := pow_le_pow_left₀ hpp.le h1 4
  have d2 : s ^ 4 ≤ (r.1 / 10000 : ℝ) ^ 4 := pow_le_pow_left₀ hs0.le h2 4
  have d3 : min ((p.1 / 10000 : ℝ) ^ 4) 1 ≤ min (s ^ 4) 1 := min_le_min_right _ d1
  rw [abs_le]
  constructor <;> linarith

/-- A correct grid bounds the residual on the whole interval between its end points. -/
theorem okGrid_sound {Q : ℝ → ℝ} (hQ : IsStart Q) : ∀ (p : Nat × Nat) (l : List (Nat × Nat)), okGrid (p :: l) = true →
    ∀ s : ℝ, (p.1 / 10000 : ℝ) ≤ s → s ≤ ((p :: l).getLast (List.cons_ne_nil _ _)).1 / 10000 → l ≠ [] →
    |Q s * Real.tanh (Q s) - s ^ 4| ≤ 3 / 125 * min (s ^ 4) 1
  | p, [], _, s, _, _, hne => absurd rfl hne
  | p, [r], h, s, h1, h2, _ => by
    simp only [okGrid, Bool.and_eq_true] at h
    exact okStep_sound hQ h.1.1 h.2 h.1.2 h1 (by simpa using h2)
  | p, r :: r' :: l, h, s, h1, h2, _ => by
    rw [okGrid, Bool.and_eq_true, Bool.and_eq_true] at h
    rcases le_total s (r.1 / 10000 : ℝ) with hc | hc
    · have hr : okPoint r = true := by
        have := h.2
        rw [okGrid, Bool.and_eq_true, Bool.and_eq_true] at this
        exact this.1.1
      exact okStep_sound hQ h.1.1 hr h.1.2 h1 hc
    · exact okGrid_sound hQ r (r' :: l) h.2 s hc (by simpa using h2) (by simp)

/-- The grid, `0.4728 ≤ s ≤ 1.3375`. -/
def dispGrid : List (Nat × Nat) := [
  (4728, 22460), (4746, 22633), (4764, 22807), (4782, 22982), (4800, 23157), (4818, 23334), (4836, 23511), (4854, 23688), (4872, 23867), (4890, 24046),
  (4908, 24226), (4926, 24406), (4944, 24588), (4962, 24770), (4980, 24952), (4998, 25136), (5016, 25320), (5034, 25505), (5052, 25691), (5070, 25877),
  (5088, 26064), (5106, 26252), (5124, 26441), (5142, 26630), (5160, 26821), (5178, 27011), (5196, 27203), (5214, 27395), (5232, 27589), (5250, 27783),
  (5268, 27977), (5286, 28173), (5304, 28369), (5322, 28566), (5340, 28763), (5358, 28962), (5375, 29150), (5392, 29339), (5409, 29528), (5426, 29719),
  (5443, 29910), (5460, 30101), (5477, 30293), (5494, 30486), (5511, 30680), (5528, 30875), (5545, 31070), (5562, 31265), (5579, 31462), (5596, 31659),
  (5613, 31857), (5630, 32056), (5647, 32255), (5664, 32455), (5681, 32656), (5698, 32858), (5715, 33060), (5732, 33263), (5749, 33467), (5766, 33671),
  (5783, 33876), (5800, 34082), (5817, 34289), (5834, 34496), (5851, 34704), (5868, 34913), (5885, 35123), (5902, 35333), (5919, 35544), (5936, 35756),
  (5952, 35956), (5968, 36157), (5984, 36358), (6000, 36561), (6016, 36763), (6032, 36967), (6048, 37171), (6064, 37376), (6080, 37581), (6096, 37788),
  (6112, 37995), (6128, 38202), (6144, 38411), (6160, 38620), (6176, 38829), (6192, 39040), (6208, 39251), (6224, 39463), (6240, 39675), (6256, 39889),
  (6272, 40103), (6288, 40317), (6304, 40533), (6320, 40749), (6336, 40966), (6352, 41184), (6368, 41402), (6384, 41621), (6400, 41841), (6416, 42062),
  (6432, 42283), (6448, 42505), (6464, 42728), (6480, 42952), (6496, 43176), (6512, 43401), (6528, 43627), (6544, 43854), (6560, 44081), (6576, 44309),
  (6592, 44538), (6608, 44768), (6624, 44999), (6640, 45230), (6656, 45462), (6672, 45695), (6688, 45929), (6704, 46163), (6720, 46399), (6736, 46635),
  (6752, 46872), (6768, 47110), (6784, 47348), (6800, 47588), (6816, 47828), (6832, 48069), (6848, 48311), (6864, 48554), (6880, 48797), (6896, 49042),
  (6912, 49287), (6928, 49533), (6944, 49780), (6960, 50028), (6976, 50277), (6992, 50526), (7008, 50777), (7024, 51028), (7040, 51280), (7056, 51533),
  (7072, 51787), (7088, 52042), (7104, 52298), (7120, 52555), (7136, 52812), (7152, 53071), (7168, 53330), (7184, 53591), (7200, 53852), (7216, 54114),
  (7232, 54377), (7248, 54641), (7265, 54923), (7282, 55206), (7299, 55489), (7316, 55774), (7333, 56060), (7350, 56347), (7367, 56636), (7384, 56925),
  (7401, 57215), (7418, 57507), (7435, 57799), (7452, 58093), (7469, 58388), (7487, 58702), (7505, 59016), (7523, 59332), (7541, 59650), (7559, 59969),
  (7577, 60289), (7595, 60610), (7613, 60933), (7631, 61257), (7650, 61600), (7669, 61946), (7688, 62292), (7707, 62640), (7726, 62990), (7745, 63341),
  (7764, 63694), (7784, 64067), (7804, 64442), (7824, 64819), (7844, 65197), (7864, 65578), (7884, 65960), (7905, 66363), (7926, 66768), (7947, 67176),
  (7968, 67585), (7990, 68016), (8012, 68449), (8034, 68885), (8056, 69323), (8079, 69784), (8102, 70247), (8125, 70713), (8148, 71181), (8172, 71672),
  (8196, 72167), (8220, 72664), (8245, 73186), (8270, 73711), (8295, 74238), (8321, 74791), (8347, 75347), (8373, 75907), (8400, 76493), (8427, 77082),
  (8455, 77698), (8483, 78318), (8512, 78965), (8541, 79616), (8571, 80296), (8601, 80981), (8632, 81694), (8663, 82413), (8695, 83162), (8727, 83917),
  (8760, 84702), (8794, 85518), (8828, 86342), (8863, 87198), (8899, 88086), (8935, 88984), (8972, 89916), (9010, 90882), (9049, 91885), (9089, 92925),
  (9130, 94003), (9172, 95120), (9215, 96277), (9259, 97476), (9304, 98717), (9350, 100003), (9397, 101334), (9445, 102712), (9494, 104138), (9545, 105645),
  (9597, 107204), (9650, 108818), (9705, 110520), (9761, 112281), (9817, 114072), (9872, 115860), (9926, 117645), (9980, 119459), (10033, 121268), (10084, 123037),
  (10134, 124798), (10182, 126514), (10228, 128182), (10273, 129838), (10316, 131441), (10358, 133028), (10398, 134558), (10437, 136069), (10475, 137558), (10511, 138986),
  (10546, 140389), (10580, 141768), (10613, 143119), (10645, 144443), (10677, 145781), (10708, 147089), (10738, 148368), (10767, 149615), (10795, 150830), (10823, 152056),
  (10850, 153249), (10876, 154407), (10902, 155574), (10927, 156706), (10951, 157801), (10975, 158904), (10998, 159969), (11021, 161042), (11043, 162075), (11065, 163116),
  (11087, 164164), (11108, 165171), (11129, 166185), (11149, 167156), (11169, 168134), (11189, 169118), (11208, 170059), (11227, 171005), (11246, 171957), (11264, 172864),
  (11282, 173777), (11300, 174694), (11317, 175565), (11334, 176441), (11351, 177322), (11368, 178207), (11385, 179097), (11401, 179939), (11417, 180786), (11433, 181636),
  (11449, 182491), (11464, 183296), (11479, 184105), (11494, 184918), (11509, 185735), (11524, 186556), (11539, 187380), (11554, 188208), (11568, 188985), (11582, 189765),
  (11596, 190548), (11610, 191335), (11624, 192125), (11638, 192919), (11652, 193716), (11666, 194517), (11679, 195263), (11692, 196013), (11705, 196765), (11718, 197521),
  (11731, 198280), (11744, 199041), (11757, 199806), (11770, 200574), (11783, 201345), (11796, 202119), (11809, 202896), (11822, 203676), (11834, 204399), (11846, 205125),
  (11858, 205853), (11870, 206584), (11882, 207318), (11894, 208054), (11906, 208793), (11918, 209535), (11930, 210280), (11942, 211027), (11954, 211777), (11966, 212530),
  (11978, 213285), (11990, 214044), (12002, 214805), (12014, 215568), (12026, 216335), (12038, 217104), (12050, 217876), (12062, 218651), (12074, 219429), (12086, 220210),
  (12098, 220993), (12110, 221779), (12122, 222568), (12134, 223360), (12146, 224155), (12158, 224953), (12170, 225753), (12182, 226557), (12194, 227363), (12206, 228172),
  (12218, 228984), (12230, 229799), (12242, 230617), (12254, 231438), (12266, 232261), (12278, 233088), (12290, 233917), (12302, 234750), (12314, 235585), (12326, 236424),
  (12338, 237265), (12350, 238109), (12362, 238957), (12374, 239807), (12386, 240660), (12398, 241516), (12410, 242376), (12422, 243238), (12434, 244103), (12446, 244971),
  (12458, 245843), (12471, 246790), (12484, 247741), (12497, 248695), (12510, 249653), (12523, 250615), (12536, 251580), (12549, 252549), (12562, 253522), (12575, 254498),
  (12588, 255477), (12601, 256461), (12614, 257448), (12627, 258438), (12640, 259433), (12653, 260431), (12666, 261432), (12679, 262438), (12692, 263446), (12705, 264459),
  (12719, 265554), (12733, 266653), (12747, 267756), (12761, 268864), (12775, 269976), (12789, 271092), (12803, 272213), (12817, 273338), (12831, 274467), (12845, 275601),
  (12859, 276739), (12873, 277881), (12887, 279028), (12901, 280179), (12916, 281418), (12931, 282661), (12946, 283910), (12961, 285163), (12976, 286422), (12991, 287686),
  (13006, 288955), (13021, 290229), (13036, 291508), (13051, 292793), (13066, 294082), (13081, 295377), (13096, 296677), (13111, 297982), (13127, 299379), (13143, 300783),
  (13159, 302193), (13175, 303608), (13191, 305030), (13207, 306457), (13223, 307891), (13239, 309330), (13255, 310775), (13271, 312227), (13287, 313684), (13303, 315147),
  (13319, 316617), (13335, 318092), (13352, 319667), (13369, 321248), (13386, 322836)
]

/-- The check of the grid, by kernel computation. -/
theorem dispGrid_ok : okGrid dispGrid = true := by decide +kernel

/-- The residual of the first approximation for `0.05 ≤ y ≤ 3.2`, where `y = s^4`. -/
theorem start_middle {Q : ℝ → ℝ} (hQ : IsStart Q) {s : ℝ} (h1 : 1 / 20 ≤ s ^ 4) (h2 : s ^ 4 ≤ 16 / 5) (hs : 0 < s) :
    |Q s * Real.tanh (Q s) - s ^ 4| ≤ 3 / 125 * min (s ^ 4) 1 := by
  have hg := dispGrid_ok
  have hl : (4728 / 10000 : ℝ) ≤ s := by
    refine le_of_not_gt fun hlt => ?_
    have := pow_lt_pow_left₀ hlt hs.le (by norm_num : 4 ≠ 0)
    norm_num at this
    linarith
  have hu : s ≤ 13375 / 10000 := by
    refine le_of_not_gt fun hlt => ?_
    have := pow_lt_pow_left₀ hlt (by norm_num) (by norm_num : 4 ≠ 0)
    norm_num at this
    linarith
  have := okGrid_sound hQ (4728, 22460) dispGrid.tail hg s (by norm_num; linarith)
  refine this ?_ (by decide)
  have e : (((4728, 22460) :: dispGrid.tail).getLast (List.cons_ne_nil _ _)) = dispGrid.getLast (by decide) := rfl
  rw [e]
  have e2 : 13375 ≤ (dispGrid.getLast (by decide)).1 := by decide
  have e3 : (13375 : ℝ) ≤ ((dispGrid.getLast (by decide)).1 : ℝ) := by exact_mod_cast e2
  exact hu.trans (div_le_div_of_nonneg_right e3 (by norm_num))

end Verif
