import Verif.Props.Dispersion

/-! # C63: the accuracy stated in the documentation is not reached

`core_dispersion.py` states that the relative error of `k h` is below `2.5e-16` for all `k h`.  In exact arithmetic it is not: the second
round falls back on a first-order step as soon as `|a c| < 1e-8 b^2`, and for `w = 0.714025` rad/s in `9.81` m of water this leaves a
relative error of `3.4e-16` at least. -/

namespace Verif
open Real

/-! ## Enclosures -/

/-- `tanh` between two rational points. -/
theorem tanh_encl {L U tl tu : ℚ} (hL : 0 ≤ L) (hU : 0 ≤ U ∧ U ≤ 7) (h1 : tl ≤ 1 - 2 / (expLo (2 * L) + 1)) (h2 : 1 - 2 / (expUp (2 * U) + 1) ≤ tu)
    {q : ℝ} (hq1 : (L : ℝ) ≤ q) (hq2 : q ≤ (U : ℝ)) : (tl : ℝ) ≤ Real.tanh q ∧ Real.tanh q ≤ (tu : ℝ) := by
  constructor
  · have h := expLo_le (x := 2 * L) (by positivity)
    have hp : (0 : ℝ) ≤ ((expLo (2 * L) : ℚ) : ℝ) := by
      unfold expLo
      rw [(expSum_eq _ 28).1]
      have hz' : (0 : ℝ) ≤ ((2 * L : ℚ) : ℝ) := by exact_mod_cast (by positivity : (0:ℚ) ≤ 2 * L)
      exact Finset.sum_nonneg fun i _ => by positivity
    have h1' : (tl : ℝ) ≤ 1 - 2 / (((expLo (2 * L) : ℚ) : ℝ) + 1) := by exact_mod_cast h1
    refine le_trans ?_ (tanh_strictMono.monotone hq1)
    rw [tanh_eq]
    push_cast at h
    have : 2 / (Real.exp (2 * (L : ℝ)) + 1) ≤ 2 / (((expLo (2 * L) : ℚ) : ℝ) + 1) :=
      div_le_div_of_nonneg_left (by norm_num) (by linarith) (by linarith)
    linarith
  · have h := le_expUp (x := 2 * U) (by linarith [hU.1]) (by linarith [hU.2])
    have h2' : 1 - 2 / (((expUp (2 * U) : ℚ) : ℝ) + 1) ≤ (tu : ℝ) := by exact_mod_cast h2
    refine le_trans (tanh_strictMono.monotone hq2) ?_
    rw [tanh_eq]
    push_cast at h
    have := Real.exp_pos (2 * (U : ℝ))
    have : 2 / (((expUp (2 * U) : ℚ) : ℝ) + 1) ≤ 2 / (Real.exp (2 * (U : ℝ)) + 1) :=
      div_le_div_of_nonneg_left (by norm_num) (by linarith) (by linarith)
    linarith

/-- The first approximation at a rational point. -/
theorem start_encl {Q : ℝ → ℝ} (hQ : IsStart Q) {s lo hi : ℚ} (hs : 0 < s) (hs' : s ^ 5 ≤ 14) (hlo : 0 ≤ lo) (hhi : 0 ≤ hi)
    (hl : lo ^ 5 * (1 - 1 / expUp (s ^ 5)) ^ 2 ≤ s ^ 20) (h1 : 1 ≤ expLo (s ^ 5))
    (hu : s ^ 20 ≤ hi ^ 5 * (1 - 1 / expLo (s ^ 5)) ^ 2) : (lo : ℝ) ≤ Q s ∧ Q s ≤ (hi : ℝ) := by
  have hs0 : (0 : ℝ) < (s : ℝ) := by exact_mod_cast hs
  obtain ⟨hp, he⟩ := hQ _ hs0
  have hl' : (lo : ℝ) ^ 5 * (1 - 1 / ((expUp (s ^ 5) : ℚ) : ℝ)) ^ 2 ≤ (s : ℝ) ^ 20 := by exact_mod_cast hl
  have hu' : (s : ℝ) ^ 20 ≤ (hi : ℝ) ^ 5 * (1 - 1 / ((expLo (s ^ 5) : ℚ) : ℝ)) ^ 2 := by exact_mod_cast hu
  have hlo0 : (0 : ℝ) ≤ (lo : ℝ) := by exact_mod_cast hlo
  have hhi0 : (0 : ℝ) ≤ (hi : ℝ) := by exact_mod_cast hhi
  have hlo1 : (1 : ℝ) ≤ ((expLo (s ^ 5) : ℚ) : ℝ) := by exact_mod_cast h1
  have hup := le_expUp (x := s ^ 5) (by positivity) hs'
  have hlow := expLo_le (x := s ^ 5) (by positivity)
  push_cast at hup hlow
  have hz : 0 < (s : ℝ) ^ 5 := by positivity
  have hE := one_sub_exp_pos hz
  rw [show -(s : ℝ) ^ 5 = -((s : ℝ) ^ 5) by ring] at he
  have hE1 : 1 - Real.exp (-((s : ℝ) ^ 5)) ≤ 1 - 1 / ((expUp (s ^ 5) : ℚ) : ℝ) := by
    rw [Real.exp_neg, ← one_div]
    have := one_div_le_one_div_of_le (Real.exp_pos _) hup
    linarith
  have hE2 : 1 - 1 / ((expLo (s ^ 5) : ℚ) : ℝ) ≤ 1 - Real.exp (-((s : ℝ) ^ 5)) := by
    rw [Real.exp_neg, ← one_div]
    have := one_div_le_one_div_of_le (by linarith) hlow
    linarith
  have hE20 : 0 ≤ 1 - 1 / ((expLo (s ^ 5) : ℚ) : ℝ) := by
    have := (div_le_one (by linarith : (0 : ℝ) < ((expLo (s ^ 5) : ℚ) : ℝ))).2 hlo1
    linarith
  generalize 1 - Real.exp (-((s : ℝ) ^ 5)) = E at *
  constructor
  · refine le_of_not_gt fun hlt => ?_
    have h5 : Q s ^ 5 < (lo : ℝ) ^ 5 := pow_lt_pow_left₀ hlt hp.le (by norm_num)
    have h6 : (lo : ℝ) ^ 5 * E ^ 2 ≤ (s : ℝ) ^ 20 :=
      (mul_le_mul_of_nonneg_left (pow_le_pow_left₀ hE.le hE1 2) (by positivity)).trans hl'
    have h7 := mul_lt_mul_of_pos_right h5 (by positivity : 0 < E ^ 2)
    linarith
  · refine le_of_not_gt fun hlt => ?_
    have h5 : (hi : ℝ) ^ 5 < Q s ^ 5 := pow_lt_pow_left₀ hlt hhi0 (by norm_num)
    have h6 : (s : ℝ) ^ 20 ≤ (hi : ℝ) ^ 5 * E ^ 2 :=
      hu'.trans (mul_le_mul_of_nonneg_left (pow_le_pow_left₀ hE20 hE2 2) (by positivity))
    have h7 := mul_lt_mul_of_pos_right h5 (by positivity : 0 < E ^ 2)
    linarith

/-- The value of `w^2 h / g` in the counterexample. -/
noncomputable def yBad : ℝ := (169 / 200) ^ 4

theorem start_bad : 775874 / 10 ^ 6 ≤ dispStart yBad ∧ dispStart yBad ≤ 775876 / 10 ^ 6 := by
  have h := start_encl dispStart_isStart (s := 169 / 200) (lo := 775874 / 10 ^ 6) (hi := 775876 / 10 ^ 6)
    (by decide +kernel) (by decide +kernel) (by decide +kernel) (by decide +kernel) (by decide +kernel) (by decide +kernel) (by decide +kernel)
  unfold yBad
  push_cast at h
  exact h

/-- `tanh`, and the derivatives of `q tanh q`, on the interval in which the computation takes place. -/
theorem bad_region {q : ℝ} (h1 : 7758 / 10000 ≤ q) (h2 : q ≤ 7808 / 10000) :
    (10949 / 10000 ≤ dispF1 q ∧ dispF1 q ≤ 11040 / 10000) ∧ (2809 / 10000 ≤ dispF2 q / 2 ∧ dispF2 q / 2 ≤ 2861 / 10000) ∧
      |dispF3 q - (-20040 / 10000)| ≤ 190 / 10000 := by
  have ht := tanh_encl (L := 7758 / 10000) (U := 7808 / 10000) (tl := 6502 / 10000) (tu := 6532 / 10000) (by decide +kernel) (by decide +kernel)
    (by decide +kernel) (by decide +kernel) (q := q) (by push_cast; exact h1) (by push_cast; exact h2)
  push_cast at ht
  obtain ⟨t1, t2⟩ := ht
  unfold dispF1 dispF2 dispF3
  generalize Real.tanh q = t at *
  have s1 : 57332 / 100000 ≤ 1 - t ^ 2 := by nlinarith
  have s2 : 1 - t ^ 2 ≤ 57725 / 100000 := by nlinarith
  generalize 1 - t ^ 2 = S at *
  have u1 : 50442 / 100000 ≤ q * t := by nlinarith
  have u2 : q * t ≤ 51003 / 100000 := by nlinarith
  have v1 : 7758 / 10000 * (57332 / 100000) ≤ q * S := by nlinarith
  have v2 : q * S ≤ 7808 / 10000 * (57725 / 100000) := by nlinarith
  generalize q * t = u at *
  have w1 : (1 - 51003 / 100000) * (57332 / 100000) ≤ (1 - u) * S := by nlinarith
  have w2 : (1 - u) * S ≤ (1 - 50442 / 100000) * (57725 / 100000) := by nlinarith
  have x1 : 6502 / 10000 * (1 - 51003 / 100000) ≤ t * (1 - u) := by nlinarith
  have x2 : t * (1 - u) ≤ 6532 / 10000 * (1 - 50442 / 100000) := by nlinarith
  refine ⟨⟨by linarith, by linarith⟩, ⟨by linarith, by linarith⟩, ?_⟩
  have e : 2 * S * (3 * t * (u - 1) - q) = -(2 * (S * (3 * (t * (1 - u)) + q))) := by ring
  rw [e]
  generalize t * (1 - u) = r at *
  have y1 : 57332 / 100000 * (3 * (6502 / 10000 * (1 - 51003 / 100000)) + 7758 / 10000) ≤ S * (3 * r + q) := by nlinarith
  have y2 : S * (3 * r + q) ≤ 57725 / 100000 * (3 * (6532 / 10000 * (1 - 50442 / 100000)) + 7808 / 10000) := by
    apply mul_le_mul s2 (by linarith) (by linarith) (by norm_num)
  rw [abs_le]
  constructor <;> linarith

/-- The exact solution in the counterexample. -/
theorem solution_bad {p : ℝ} (hp : 0 < p) (h : p * Real.tanh p = yBad) : 780654 / 10 ^ 6 ≤ p ∧ p ≤ 780656 / 10 ^ 6 := by
  have hl := tanh_encl (L := 780654 / 10 ^ 6) (U := 780654 / 10 ^ 6) (tl := 0) (tu := (169 / 200) ^ 4 / (780654 / 10 ^ 6)) (by decide +kernel) (by decide +kernel)
    (by decide +kernel) (by decide +kernel) (q := 780654 / 10 ^ 6) (by push_cast; exact le_rfl) (by push_cast; exact le_rfl)
  have hu := tanh_encl (L := 780656 / 10 ^ 6) (U := 780656 / 10 ^ 6) (tl := (169 / 200) ^ 4 / (780656 / 10 ^ 6)) (tu := 1) (by decide +kernel) (by decide +kernel)
    (by decide +kernel) (by decide +kernel) (q := 780656 / 10 ^ 6) (by push_cast; exact le_rfl) (by push_cast; exact le_rfl)
  have hl2 := hl.2
  have hu1 := hu.1
  push_cast at hl2 hu1
  rw [le_div_iff₀ (by norm_num)] at hl2
  rw [div_le_iff₀ (by norm_num)] at hu1
  have key : ∀ a b : ℝ, 0 < a → a < b → a * Real.tanh a < b * Real.tanh b := fun a b ha hab =>
    mul_lt_mul'' hab (tanh_strictMono hab) ha.le (tanh_pos' ha).le
  constructor
  · refine le_of_not_gt fun hlt => ?_
    have := key _ _ hp hlt
    rw [h] at this
    unfold yBad at this
    linarith
  · refine le_of_not_gt fun hlt => ?_
    have := key _ _ (by norm_num) hlt
    rw [h] at this
    unfold yBad at this
    linarith

/-- Third-order Taylor expansion with an enclosure of the third derivative. -/
theorem F_taylor_centred {q x c r : ℝ} (hx : 0 ≤ x) (hr : ∀ v, q ≤ v → v ≤ q + x → |dispF3 v - c| ≤ r) :
    |dispF (q + x) - (dispF q + dispF1 q * x + dispF2 q / 2 * x ^ 2) - c / 6 * x ^ 3| ≤ r / 6 * x ^ 3 := by
  exact cubic_bound (h := fun x => dispF (q + x) - (dispF q + dispF1 q * x + dispF2 q / 2 * x ^ 2) - c / 6 * x ^ 3)
      (h1 := fun x => dispF1 (q + x) - (dispF1 q + dispF2 q * x) - c / 2 * x ^ 2) (h2 := fun x => dispF2 (q + x) - dispF2 q - c * x)
      (h3 := fun x => dispF3 (q + x) - c)
      (fun x => by
        have a := (hasDerivAt_F (q + x)).comp x ((hasDerivAt_id x).const_add q)
        have b := (((hasDerivAt_id x).const_mul (dispF1 q)).const_add (dispF q)).add (((hasDerivAt_id x).pow 2).const_mul (dispF2 q / 2))
        have d := (((hasDerivAt_id x).pow 3).const_mul (c / 6))
        refine ((a.sub b).sub d).congr_deriv ?_
        simp; ring)
      (fun x => by
        have a := (hasDerivAt_F1 (q + x)).comp x ((hasDerivAt_id x).const_add q)
        have b := (((hasDerivAt_id x).const_mul (dispF2 q)).const_add (dispF1 q))
        have d := (((hasDerivAt_id x).pow 2).const_mul (c / 2))
        refine ((a.sub b).sub d).congr_deriv ?_
        simp; ring)
      (fun x => by
        have a := (hasDerivAt_F2 (q + x)).comp x ((hasDerivAt_id x).const_add q)
        refine ((a.sub_const (dispF2 q)).sub ((hasDerivAt_id x).const_mul c)).congr_deriv ?_
        simp) (by simp) (by simp) (by simp) (M := r) (fun y hy hyx => hr _ (by linarith) (by linarith)) hx

/-- First-order expansion, with a lower bound of the second derivative. -/
theorem F_convex {q x m : ℝ} (hx : 0 ≤ x) (hm : ∀ v, q ≤ v → v ≤ q + x → m ≤ dispF2 v / 2) :
    dispF q + dispF1 q * x + m * x ^ 2 ≤ dispF (q + x) := by
  have A : ∀ y, 0 ≤ y → y ≤ x → 0 ≤ dispF1 (q + y) - dispF1 q - 2 * m * y := by
    intro y hy hyx
    exact nonneg_of_deriv (f := fun y => dispF1 (q + y) - dispF1 q - 2 * m * y) (f' := fun y => dispF2 (q + y) - 2 * m) (fun y => by
      have a := (hasDerivAt_F1 (q + y)).comp y ((hasDerivAt_id y).const_add q)
      refine ((a.sub_const (dispF1 q)).sub ((hasDerivAt_id y).const_mul (2 * m))).congr_deriv ?_
      simp) (by simp) (b := x) (fun v hv hvx => by
        have := hm (q + v) (by linarith) (by linarith)
        linarith) hy hyx
  have := nonneg_of_deriv (f := fun y => dispF (q + y) - (dispF q + dispF1 q * y) - m * y ^ 2)
    (f' := fun y => dispF1 (q + y) - dispF1 q - 2 * m * y) (fun y => by
      have a := (hasDerivAt_F (q + y)).comp y ((hasDerivAt_id y).const_add q)
      have b := (((hasDerivAt_id y).const_mul (dispF1 q)).const_add (dispF q))
      refine ((a.sub b).sub (((hasDerivAt_id y).pow 2).const_mul m)).congr_deriv ?_
      simp; ring) (by simp) (b := x) (fun v hv hvx => A v hv hvx) hx le_rfl
  linarith

/-- Mean value bounds of `q tanh q`. -/
theorem F_lip {q x m M : ℝ} (hx : 0 ≤ x) (hm : ∀ v, q ≤ v → v ≤ q + x → m ≤ dispF1 v ∧ dispF1 v ≤ M) :
    m * x ≤ dispF (q + x) - dispF q ∧ dispF (q + x) - dispF q ≤ M * x := by
  constructor
  · have := nonneg_of_deriv (f := fun y => dispF (q + y) - dispF q - m * y) (f' := fun y => dispF1 (q + y) - m) (fun y => by
      have a := (hasDerivAt_F (q + y)).comp y ((hasDerivAt_id y).const_add q)
      refine ((a.sub_const (dispF q)).sub ((hasDerivAt_id y).const_mul m)).congr_deriv ?_
      simp) (by simp) (b := x) (fun v hv hvx => by
        have := (hm (q + v) (by linarith) (by linarith)).1
        linarith) hx le_rfl
    linarith
  · have := nonneg_of_deriv (f := fun y => M * y - (dispF (q + y) - dispF q)) (f' := fun y => M - dispF1 (q + y)) (fun y => by
      have a := (hasDerivAt_F (q + y)).comp y ((hasDerivAt_id y).const_add q)
      refine (((hasDerivAt_id y).const_mul M).sub (a.sub_const (dispF q))).congr_deriv ?_
      simp) (by simp) (b := x) (fun v hv hvx => by
        have := (hm (q + v) (by linarith) (by linarith)).2
        linarith) hx le_rfl
    linarith

/-- The error after the first round in the counterexample. -/
theorem bad_round_one {p : ℝ} (hp : 0 < p) (h : p * Real.tanh p = yBad) : ∃ q1, dispRound yBad (dispStart yBad) = some q1 ∧
    325 / 10 ^ 10 ≤ p - q1 ∧ p - q1 ≤ 339 / 10 ^ 10 := by
  have hy : 0 < yBad := by unfold yBad; norm_num
  obtain ⟨hq1, hq2⟩ := start_bad
  obtain ⟨hp1, hp2⟩ := solution_bad hp h
  have hq0 := dispStart_pos hy
  obtain ⟨s, hs, -, hsb, hsq⟩ := disp_step hy hq0 ((dispStart_residual hy).trans
    (mul_le_mul_of_nonneg_right (by norm_num) (lt_min hy one_pos).le))
  refine ⟨dispStart yBad + s, by unfold dispRound; rw [hs]; rfl, ?_⟩
  generalize dispStart yBad = q at *
  obtain ⟨x, rfl⟩ : ∃ x, p = q + x := ⟨p - q, by ring⟩
  have hx1 : 4778 / 10 ^ 6 ≤ x := by linarith
  have hx2 : x ≤ 4782 / 10 ^ 6 := by linarith
  have hreg := bad_region (q := q) (by linarith) (by linarith)
  obtain ⟨⟨b1, b2⟩, ⟨a1, a2⟩, -⟩ := hreg
  have hT := F_taylor_centred (q := q) (x := x) (c := -20040 / 10000) (r := 190 / 10000) (by linarith)
    (fun v hv hv' => (bad_region (by linarith) (by linarith)).2.2)
  have hL := F_lip (q := q) (x := x) (m := 10949 / 10000) (M := 11040 / 10000) (by linarith)
    (fun v hv hv' => (bad_region (by linarith) (by linarith)).1)
  have e1 : dispF (q + x) = yBad := h
  have e2 : dispF q = q * Real.tanh q := rfl
  rw [e1, e2] at hT hL
  have hc : |q * Real.tanh q - yBad| ≤ 53 / 10000 := by
    rw [abs_le]; constructor <;> nlinarith
  have hsb' : |s| ≤ 53 / 10000 := by
    have h1 : |s| * (10949 / 10000) ≤ 134 / 125 * (53 / 10000) :=
      (mul_le_mul_of_nonneg_left b1 (abs_nonneg s)).trans (hsb.trans (by linarith))
    linarith
  have hsq' : |dispF2 q / 2 * s ^ 2 + dispF1 q * s + (q * Real.tanh q - yBad)| ≤ 53 / 10 ^ 12 := hsq.trans (by linarith)
  have hx3l : (4778 / 10 ^ 6) ^ 3 ≤ x ^ 3 := pow_le_pow_left₀ (by norm_num) hx1 3
  have hx3u : x ^ 3 ≤ (4782 / 10 ^ 6) ^ 3 := pow_le_pow_left₀ (by linarith) hx2 3
  have hs1 := (abs_le.1 hsb').1
  have hs2 := (abs_le.1 hsb').2
  -- (x - s) (b + a (x + s)) = -R + small
  have hD1 : 10947 / 10000 ≤ dispF1 q + dispF2 q / 2 * (x + s) := by nlinarith
  have hD2 : dispF1 q + dispF2 q / 2 * (x + s) ≤ 11069 / 10000 := by nlinarith
  have hk : (x - s) * (dispF1 q + dispF2 q / 2 * (x + s)) =
      (dispF1 q * x + dispF2 q / 2 * x ^ 2 + (q * Real.tanh q - yBad)) - (dispF2 q / 2 * s ^ 2 + dispF1 q * s + (q * Real.tanh q - yBad)) := by ring
  obtain ⟨g1, g2⟩ := abs_le.1 hT
  obtain ⟨g3, g4⟩ := abs_le.1 hsq'
  generalize dispF1 q + dispF2 q / 2 * (x + s) = D at *
  generalize dispF2 q / 2 * s ^ 2 + dispF1 q * s + (q * Real.tanh q - yBad) = G at *
  have hR1 : 3603 / 10 ^ 11 ≤ (x - s) * D := by
    rw [hk]
    clear hk hsq hsb hL hD1 hD2 hT
    linarith
  have hR2 : (x - s) * D ≤ 3697 / 10 ^ 11 := by
    rw [hk]
    clear hk hsq hsb hL hD1 hD2 hT hR1
    linarith
  have e3 : q + x - (q + s) = x - s := by ring
  rw [e3]
  have hxs : 0 < x - s := by
    refine pos_of_mul_pos_left (b := D) ?_ (by linarith)
    linarith
  have z1 := mul_le_mul_of_nonneg_left hD1 hxs.le
  have z2 := mul_le_mul_of_nonneg_left hD2 hxs.le
  clear hk hT hsq hsq' hsb hL g1 g2 g3 g4
  constructor
  · linarith
  · linarith

/-- The error after the second round in the counterexample. -/
theorem bad_round_two {p : ℝ} (hp : 0 < p) (h : p * Real.tanh p = yBad) :
    ∃ q, (dispRound yBad (dispStart yBad)).bind (dispRound yBad) = some q ∧ 34 / 10 ^ 17 * p < |q - p| := by
  obtain ⟨q1, h1, hl, hu⟩ := bad_round_one hp h
  obtain ⟨hp1, hp2⟩ := solution_bad hp h
  obtain ⟨x, rfl⟩ : ∃ x, p = q1 + x := ⟨p - q1, by ring⟩
  have hx1 : 325 / 10 ^ 10 ≤ x := by linarith
  have hx2 : x ≤ 339 / 10 ^ 10 := by linarith
  have hx0 : 0 ≤ x := by linarith
  obtain ⟨⟨b1, b2⟩, ⟨a1, a2⟩, -⟩ := bad_region (q := q1) (by norm_num at *; linarith) (by norm_num at *; linarith)
  have hL := F_lip (q := q1) (x := x) (m := 10949 / 10000) (M := 11040 / 10000) hx0
    (fun v hv hv' => (bad_region (by norm_num at *; linarith) (by norm_num at *; linarith)).1)
  have hC := F_convex (q := q1) (x := x) (m := 2809 / 10000) hx0
    (fun v hv hv' => (bad_region (by norm_num at *; linarith) (by norm_num at *; linarith)).2.1.1)
  have e1 : dispF (q1 + x) = yBad := h
  have e2 : dispF q1 = q1 * Real.tanh q1 := rfl
  rw [e1, e2] at hL hC
  have ha : dispF2 q1 / 2 = (1 - q1 * Real.tanh q1) * (1 - Real.tanh q1 ^ 2) := by unfold dispF2; ring
  have hbe : dispF1 q1 = Real.tanh q1 + q1 * (1 - Real.tanh q1 ^ 2) := rfl
  have hN : |dispF2 q1 / 2 * (q1 * Real.tanh q1 - yBad)| < 1 / 10 ^ 8 * dispF1 q1 ^ 2 := by
    have hb2 : (10949 / 10000) ^ 2 ≤ dispF1 q1 ^ 2 := pow_le_pow_left₀ (by norm_num) b1 2
    rw [abs_mul, abs_of_nonneg (by linarith : 0 ≤ dispF2 q1 / 2)]
    have hc : |q1 * Real.tanh q1 - yBad| ≤ 375 / 10 ^ 10 := by
      rw [abs_le]; constructor <;> norm_num at * <;> linarith
    have := mul_le_mul a2 hc (abs_nonneg _) (by norm_num)
    norm_num at *
    linarith
  refine ⟨q1 + -(q1 * Real.tanh q1 - yBad) / dispF1 q1, ?_, ?_⟩
  · rw [h1]
    show dispRound yBad q1 = _
    unfold dispRound dispArg
    dsimp only
    rw [← ha, ← hbe, if_pos hN]
    rfl
  · have hb : 0 < dispF1 q1 := by linarith
    have e3 : |q1 + -(q1 * Real.tanh q1 - yBad) / dispF1 q1 - (q1 + x)| =
        |(yBad - q1 * Real.tanh q1 - dispF1 q1 * x) / dispF1 q1| := by
      congr 1
      field_simp
      ring
    rw [e3]
    refine lt_of_lt_of_le ?_ (le_abs_self _)
    rw [lt_div_iff₀ hb]
    have hx3 : (325 / 10 ^ 10) ^ 2 ≤ x ^ 2 := pow_le_pow_left₀ (by norm_num) hx1 2
    have hpb : (q1 + x) * dispF1 q1 ≤ 780656 / 10 ^ 6 * (11040 / 10000) := mul_le_mul hp2 b2 hb.le (by norm_num)
    norm_num at *
    linarith

/-- **C63 (refuted): the documented accuracy.**  For `w = 0.714025` rad/s, `h = 9.81` m and the default gravity the returned wave number
differs from the exact one by more than `2.5e-16` times the exact one (by `3.4e-16` at least), before any rounding. -/
theorem disper_documented_accuracy_false : ∃ w h k k', 0 < w ∧ 0 < h ∧ 1 / 10 ^ 8 ≤ w ^ 2 * h / 9.81 ∧ 0 < k ∧ SolvesDispersion w h 9.81 k ∧
    disper (.list [w]) (.fin h) = .ok [k'] ∧ 2.5 / 10 ^ 16 * k < |k' - k| := by
  have e981 : (9.81 : ℝ) = 981 / 100 := by norm_num
  have hw : (0 : ℝ) < 28561 / 40000 := by norm_num
  have hh : (0 : ℝ) < 981 / 100 := by norm_num
  obtain ⟨k, ⟨hk, hs⟩, -⟩ := wave_number_unique (w := 28561 / 40000) (h := 981 / 100) (g := 981 / 100) hw.ne' hh hh
  have hs' := hs
  unfold SolvesDispersion at hs'
  have hp : k * (981 / 100) * Real.tanh (k * (981 / 100)) = yBad := by
    unfold yBad
    rw [show (169 / 200 : ℝ) ^ 4 = (28561 / 40000) ^ 2 by norm_num, hs']
    ring
  obtain ⟨q, hr, hq⟩ := bad_round_two (by positivity) hp
  refine ⟨28561 / 40000, 981 / 100, k, q / (981 / 100), hw, hh, by norm_num, hk, by rw [e981]; exact hs, ?_, ?_⟩
  · rw [disper_ok _ hh hh]
    simp only [List.map_cons, List.map_nil]
    congr 2
    have e : dispW2 (28561 / 40000) (981 / 100) (981 / 100) = yBad := by
      unfold dispW2 yBad
      norm_num
    unfold disperElem
    dsimp only
    rw [e, hr, sign_pos hw]
    simp
  · rw [show q / (981 / 100) - k = (q - k * (981 / 100)) / (981 / 100) by field_simp, abs_div, abs_of_pos hh, lt_div_iff₀ hh]
    refine lt_of_le_of_lt ?_ hq
    norm_num
    nlinarith

end Verif
