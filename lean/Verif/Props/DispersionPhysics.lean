import Verif.Props.Dispersion

/-! # C93: physical bounds and monotonicity of the wave number returned by `disper` -/

namespace Verif
open Real

theorem tanh_mul_le {c x : ℝ} (hc : 1 ≤ c) (hx : 0 ≤ x) : Real.tanh (c * x) ≤ c * Real.tanh x := by
  have := nonneg_of_deriv (f := fun x => c * Real.tanh x - Real.tanh (c * x))
    (f' := fun x => c * (1 - Real.tanh x ^ 2) - (1 - Real.tanh (c * x) ^ 2) * c) (fun x => by
      have a := (hasDerivAt_tanh x).const_mul c
      have b := (hasDerivAt_tanh (c * x)).comp x ((hasDerivAt_id x).const_mul c)
      refine (a.sub b).congr_deriv ?_
      simp) (by simp) (b := x) (fun y hy _ => by
        have h0 : y ≤ c * y := by nlinarith
        have h1 := tanh_strictMono.monotone h0
        have h2 : 0 ≤ Real.tanh y := by
          have := tanh_strictMono.monotone hy
          rwa [Real.tanh_zero] at this
        have h3 : Real.tanh y ^ 2 ≤ Real.tanh (c * y) ^ 2 := by nlinarith
        nlinarith) hx le_rfl
  linarith

/-- `tanh² p ≥ p² / (1 + p²)`. -/
theorem tanh_sq_ge {p : ℝ} (hp : 0 ≤ p) : p ^ 2 ≤ Real.tanh p ^ 2 * (1 + p ^ 2) := by
  have h1 : p ≤ Real.sinh p := Real.self_le_sinh_iff.2 hp
  have h2 : p ^ 2 ≤ Real.sinh p ^ 2 := by nlinarith
  have h3 := Real.cosh_sq p
  have hc := Real.cosh_pos p
  rw [Real.tanh_eq_sinh_div_cosh, div_pow, div_mul_eq_mul_div, le_div_iff₀ (by positivity), h3]
  nlinarith

/-- Bounds of the exact solution. -/
theorem solution_bounds {p y : ℝ} (hp : 0 < p) (hy : 0 < y) (h : p * Real.tanh p = y) :
    y ≤ p ∧ y ≤ p ^ 2 ∧ p ^ 2 ≤ y ^ 2 + y := by
  have h1 := tanh_lt_one' p
  have h2 := tanh_le_self hp.le
  have h3 := tanh_pos' hp
  have h4 := tanh_sq_ge hp.le
  refine ⟨by nlinarith, by nlinarith, ?_⟩
  have h5 : p ^ 4 ≤ y ^ 2 * (1 + p ^ 2) := by
    rw [← h]
    nlinarith [mul_nonneg (sq_nonneg p) (sub_nonneg.2 h4)]
  by_contra hc
  push Not at hc
  nlinarith [mul_pos hy hy]

/-- **C93 (bounds of the exact wave number).** With `k_deep = w²/g` and `k_shallow = w/√(g h)`, the solution of the dispersion relation is
at least as large as both, and its square at most the sum of their squares. -/
theorem wave_number_bounds {w h g k : ℝ} (hh : 0 < h) (hg : 0 < g) (hw : w ≠ 0) (hk : 0 < k) (hs : SolvesDispersion w h g k) :
    w ^ 2 / g ≤ k ∧ |w| / √(g * h) ≤ k ∧ k ^ 2 ≤ (w ^ 2 / g) ^ 2 + (|w| / √(g * h)) ^ 2 := by
  unfold SolvesDispersion at hs
  have hy : 0 < w ^ 2 * h / g := by positivity
  have hp : 0 < k * h := by positivity
  obtain ⟨b1, b2, b3⟩ := solution_bounds hp hy (by rw [hs]; field_simp)
  have hgh : 0 < g * h := by positivity
  have e1 : w ^ 2 * h / g = (w ^ 2 / g) * h := by ring
  have e2 : (|w| / √(g * h)) ^ 2 = w ^ 2 / (g * h) := by rw [div_pow, sq_abs, Real.sq_sqrt hgh.le]
  have e3 : w ^ 2 * h / g = w ^ 2 / (g * h) * h ^ 2 := by field_simp
  refine ⟨?_, ?_, ?_⟩
  · rw [e1] at b1
    exact le_of_mul_le_mul_right b1 hh
  · rw [e3, mul_pow] at b2
    have := le_of_mul_le_mul_right b2 (by positivity)
    rw [← e2] at this
    exact (sq_le_sq₀ (by positivity) hk.le).1 this
  · rw [e2]
    have : k ^ 2 * h ^ 2 ≤ ((w ^ 2 / g) ^ 2 + w ^ 2 / (g * h)) * h ^ 2 := by
      calc k ^ 2 * h ^ 2 = (k * h) ^ 2 := by ring
        _ ≤ (w ^ 2 * h / g) ^ 2 + w ^ 2 * h / g := b3
        _ = _ := by rw [add_mul, ← e3]; ring
    exact le_of_mul_le_mul_right this (by positivity)

/-- The exact wave number grows at least proportionally with the frequency. -/
theorem wave_number_growth {w w' h g k k' : ℝ} (hh : 0 < h) (hg : 0 < g) (hw : 0 < w) (hww : w ≤ w') (hk : 0 < k) (hk' : 0 < k')
    (hs : SolvesDispersion w h g k) (hs' : SolvesDispersion w' h g k') : w' / w * k ≤ k' := by
  unfold SolvesDispersion at hs hs'
  set c := w' / w with hc
  have hc1 : 1 ≤ c := by rw [hc, le_div_iff₀ hw]; linarith
  have e : w' = c * w := by rw [hc]; field_simp
  by_contra hlt
  push Not at hlt
  have h1 := tanh_mul_le hc1 (x := k * h) (by positivity)
  have h2 : Real.tanh (k' * h) ≤ Real.tanh (c * (k * h)) := tanh_strictMono.monotone (by nlinarith)
  have h3 := tanh_pos' (x := k' * h) (by positivity)
  have h4 : k' * Real.tanh (k' * h) < c * k * (c * Real.tanh (k * h)) := by
    calc k' * Real.tanh (k' * h) < c * k * Real.tanh (k' * h) := by nlinarith
      _ ≤ c * k * (c * Real.tanh (k * h)) := mul_le_mul_of_nonneg_left (h2.trans h1) (by positivity)
  have h5 : w' ^ 2 = c ^ 2 * (g * k * Real.tanh (k * h)) := by rw [← hs, e]; ring
  rw [h5] at hs'
  have h6 := mul_lt_mul_of_pos_left h4 hg
  nlinarith

/-- The exact wave number does not increase with the depth. -/
theorem wave_number_depth {w h h' g k k' : ℝ} (hh : 0 < h) (hhh : h ≤ h') (hg : 0 < g) (hk : 0 < k) (hk' : 0 < k')
    (hs : SolvesDispersion w h g k) (hs' : SolvesDispersion w h' g k') : k' ≤ k := by
  unfold SolvesDispersion at hs hs'
  by_contra hlt
  push Not at hlt
  have h2 : Real.tanh (k * h) ≤ Real.tanh (k' * h') := tanh_strictMono.monotone (by nlinarith)
  have h3 := tanh_pos' (x := k * h) (by positivity)
  have h4 : k * Real.tanh (k * h) < k' * Real.tanh (k' * h') := by nlinarith
  have := mul_lt_mul_of_pos_left h4 hg
  nlinarith

/-- **C93 (bounds).** For `w > 0` above the threshold the value returned by `disper` is, up to a relative error of `1e-13`, at least the
deep-water value `w²/g` and at least the shallow-water value `w/√(g h)`, and its square at most the sum of their squares. -/
theorem disper_bounds {w h g : ℝ} (hh : 0 < h) (hg : 0 < g) (hw : 0 < w) (hy : 1 / 10 ^ 8 ≤ w ^ 2 * h / g) :
    ∃ k, disper (.list [w]) (.fin h) g = .ok [k] ∧ (1 - 1 / 10 ^ 13) * max (w ^ 2 / g) (w / √(g * h)) ≤ k ∧
      k ^ 2 ≤ (1 + 1 / 10 ^ 13) ^ 2 * ((w ^ 2 / g) ^ 2 + (w / √(g * h)) ^ 2) := by
  obtain ⟨κ, ⟨hκ, hs⟩, -⟩ := wave_number_unique hw.ne' hh hg
  obtain ⟨k, hd, hk, ha⟩ := disper_accurate hh hg hw.ne' hy hκ hs
  obtain ⟨b1, b2, b3⟩ := wave_number_bounds hh hg hw.ne' hκ hs
  rw [abs_of_pos hw] at b2 b3
  rw [sign_pos hw] at hd
  simp only [SignType.coe_one, one_mul] at hd
  obtain ⟨a1, a2⟩ := abs_le.1 ha
  refine ⟨k, hd, ?_, ?_⟩
  · have := max_le b1 b2
    nlinarith
  · have h1 : k ≤ (1 + 1 / 10 ^ 13) * κ := by linarith
    calc k ^ 2 ≤ ((1 + 1 / 10 ^ 13) * κ) ^ 2 := by nlinarith
      _ = (1 + 1 / 10 ^ 13) ^ 2 * κ ^ 2 := by ring
      _ ≤ _ := mul_le_mul_of_nonneg_left b3 (by positivity)

/-- **C93 (frequency).** Of two frequencies that differ by a factor of at least `1 + 3e-13`, the larger one gets the larger wave number. -/
theorem disper_increasing {w w' h g : ℝ} (hh : 0 < h) (hg : 0 < g) (hw : 0 < w) (hy : 1 / 10 ^ 8 ≤ w ^ 2 * h / g)
    (hww : (1 + 3 / 10 ^ 13) * w ≤ w') :
    ∃ k k', disper (.list [w, w']) (.fin h) g = .ok [k, k'] ∧ k < k' := by
  have hle : w ≤ w' := by nlinarith
  have hw' : 0 < w' := by linarith
  have hy' : 1 / 10 ^ 8 ≤ w' ^ 2 * h / g := hy.trans (by
    rw [div_le_div_iff_of_pos_right hg]
    exact mul_le_mul_of_nonneg_right (by nlinarith) hh.le)
  obtain ⟨κ, ⟨hκ, hs⟩, -⟩ := wave_number_unique hw.ne' hh hg
  obtain ⟨κ', ⟨hκ', hs'⟩, -⟩ := wave_number_unique hw'.ne' hh hg
  obtain ⟨k, hd, hk, ha⟩ := disper_accurate hh hg hw.ne' hy hκ hs
  obtain ⟨k', hd', hk', ha'⟩ := disper_accurate hh hg hw'.ne' hy' hκ' hs'
  have hgr := wave_number_growth hh hg hw hle hκ hκ' hs hs'
  rw [sign_pos hw] at hd
  rw [sign_pos hw'] at hd'
  simp only [SignType.coe_one, one_mul] at hd hd'
  rw [disper_ok _ hh hg] at hd hd'
  simp only [List.map_cons, List.map_nil, Except.ok.injEq, List.cons.injEq, and_true] at hd hd'
  refine ⟨k, k', by rw [disper_ok _ hh hg]; simp only [List.map_cons, List.map_nil, hd, hd'], ?_⟩
  obtain ⟨a1, a2⟩ := abs_le.1 ha
  obtain ⟨a1', a2'⟩ := abs_le.1 ha'
  have hc : 1 + 3 / 10 ^ 13 ≤ w' / w := by rw [le_div_iff₀ hw]; exact hww
  have h1 : (1 + 3 / 10 ^ 13) * κ ≤ κ' := (mul_le_mul_of_nonneg_right hc hκ.le).trans hgr
  have h2 : k ≤ (1 + 1 / 10 ^ 13) * κ := by linarith
  have h3 : (1 - 1 / 10 ^ 13) * κ' ≤ k' := by linarith
  have h4 : (1 + 1 / 10 ^ 13) * κ < (1 - 1 / 10 ^ 13) * ((1 + 3 / 10 ^ 13) * κ) := by
    rw [← mul_assoc]
    exact mul_lt_mul_of_pos_right (by norm_num) hκ
  nlinarith

/-- **C93 (depth).** The wave number does not increase with the depth, up to a relative error of `3e-13`. -/
theorem disper_depth {w h h' g : ℝ} (hh : 0 < h) (hhh : h ≤ h') (hg : 0 < g) (hw : 0 < w) (hy : 1 / 10 ^ 8 ≤ w ^ 2 * h / g) :
    ∃ k k', disper (.list [w]) (.fin h) g = .ok [k] ∧ disper (.list [w]) (.fin h') g = .ok [k'] ∧ k' ≤ (1 + 3 / 10 ^ 13) * k := by
  have hh' : 0 < h' := by linarith
  have hy' : 1 / 10 ^ 8 ≤ w ^ 2 * h' / g := hy.trans (by
    rw [div_le_div_iff_of_pos_right hg]
    exact mul_le_mul_of_nonneg_left hhh (sq_nonneg w))
  obtain ⟨κ, ⟨hκ, hs⟩, -⟩ := wave_number_unique hw.ne' hh hg
  obtain ⟨κ', ⟨hκ', hs'⟩, -⟩ := wave_number_unique hw.ne' hh' hg
  obtain ⟨k, hd, hk, ha⟩ := disper_accurate hh hg hw.ne' hy hκ hs
  obtain ⟨k', hd', hk', ha'⟩ := disper_accurate hh' hg hw.ne' hy' hκ' hs'
  have hgr := wave_number_depth hh hhh hg hκ hκ' hs hs'
  rw [sign_pos hw] at hd hd'
  simp only [SignType.coe_one, one_mul] at hd hd'
  refine ⟨k, k', hd, hd', ?_⟩
  obtain ⟨a1, a2⟩ := abs_le.1 ha
  obtain ⟨a1', a2'⟩ := abs_le.1 ha'
  have h2 : k' ≤ (1 + 1 / 10 ^ 13) * κ' := by linarith
  have h3 : (1 - 1 / 10 ^ 13) * κ ≤ k := by linarith
  have h4 : (1 + 1 / 10 ^ 13) * κ ≤ (1 + 3 / 10 ^ 13) * ((1 - 1 / 10 ^ 13) * κ) := by
    rw [← mul_assoc]
    exact mul_le_mul_of_nonneg_right (by norm_num) hκ.le
  nlinarith

/-- Non-vacuity of `disper_bounds`: 1 rad/s in 10 m of water. -/
example : ∃ k : ℝ, disper (.list [1]) (.fin 10) (981 / 100) = .ok [k] ∧
    (1 - 1 / 10 ^ 13) * max (1 ^ 2 / (981 / 100)) (1 / √(981 / 100 * 10)) ≤ k ∧
    k ^ 2 ≤ (1 + 1 / 10 ^ 13) ^ 2 * ((1 ^ 2 / (981 / 100)) ^ 2 + (1 / √(981 / 100 * 10)) ^ 2) :=
  disper_bounds (by norm_num) (by norm_num) one_pos (by norm_num)

/-- Non-vacuity: 1 rad/s in 10 m and in 20 m of water, and 1.001 rad/s. -/
example : ∃ k k' : ℝ, disper (.list [1, 1001 / 1000]) (.fin 10) (981 / 100) = .ok [k, k'] ∧ k < k' :=
  disper_increasing (by norm_num) (by norm_num) one_pos (by norm_num) (by norm_num)

example : ∃ k k' : ℝ, disper (.list [1]) (.fin 10) (981 / 100) = .ok [k] ∧ disper (.list [1]) (.fin 20) (981 / 100) = .ok [k'] ∧
    k' ≤ (1 + 3 / 10 ^ 13) * k :=
  disper_depth (by norm_num) (by norm_num) (by norm_num) one_pos (by norm_num)

/-! ## Concrete cases: the hypotheses of the theorems above are met -/

example : ∃ k k', 0 < k ∧ SolvesDispersion 1 10 (981 / 100) k ∧ 0 < k' ∧ SolvesDispersion 2 10 (981 / 100) k' ∧
    1 ^ 2 / (981 / 100) ≤ k ∧ 2 / 1 * k ≤ k' := by
  obtain ⟨k, ⟨hk, hs⟩, -⟩ := wave_number_unique (w := 1) (h := 10) (g := 981 / 100) one_ne_zero (by norm_num) (by norm_num)
  obtain ⟨k', ⟨hk', hs'⟩, -⟩ := wave_number_unique (w := 2) (h := 10) (g := 981 / 100) two_ne_zero (by norm_num) (by norm_num)
  exact ⟨k, k', hk, hs, hk', hs', (wave_number_bounds (by norm_num) (by norm_num) one_ne_zero hk hs).1,
    wave_number_growth (by norm_num) (by norm_num) one_pos (by norm_num) hk hk' hs hs'⟩

example : ∃ k k', 0 < k ∧ SolvesDispersion 1 10 (981 / 100) k ∧ 0 < k' ∧ SolvesDispersion 1 20 (981 / 100) k' ∧ k' ≤ k := by
  obtain ⟨k, ⟨hk, hs⟩, -⟩ := wave_number_unique (w := 1) (h := 10) (g := 981 / 100) one_ne_zero (by norm_num) (by norm_num)
  obtain ⟨k', ⟨hk', hs'⟩, -⟩ := wave_number_unique (w := 1) (h := 20) (g := 981 / 100) one_ne_zero (by norm_num) (by norm_num)
  exact ⟨k, k', hk, hs, hk', hs', wave_number_depth (by norm_num) (by norm_num) (by norm_num) hk hk' hs hs'⟩

end Verif
