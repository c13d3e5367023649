import Verif.Props.FloatBand

/-! # Transforms that meet the assumption exist; concrete cases -/

namespace Verif
open Finset

/-- Every real number has a double near it. -/
theorem exists_double_close (v : ℝ) : ∃ r : ℚ, IsDouble r ∧ ((r : ℝ) - v) ^ 2 ≤ v ^ 2 / 2 ^ 104 + 1 / 2 ^ 395 := by
  obtain ⟨q, h1, h2⟩ := exists_rat_btwn (show v < v + 1 / 2 ^ 201 by linarith [show (0 : ℝ) < 1 / 2 ^ 201 by positivity])
  refine ⟨f64 q, f64_double _, ?_⟩
  have h := f64_rd q
  have h3 := h.err (w := v) (e := 1 / 2 ^ 201) (by rw [abs_of_nonneg (by linarith)]; linarith)
  have h4 : |(f64 q : ℝ) - v| ≤ |v| / 2 ^ 53 + 1 / 2 ^ 199 := by
    refine h3.trans ?_
    norm_num
    linarith
  rw [← sq_abs ((f64 q : ℝ) - v), ← sq_abs v]
  have h5 := abs_nonneg ((f64 q : ℝ) - v)
  generalize |(f64 q : ℝ) - v| = a at *
  have h6 := abs_nonneg v
  generalize |v| = b at *
  have h7 : a ^ 2 ≤ (b / 2 ^ 53 + 1 / 2 ^ 199) ^ 2 := pow_le_pow_left₀ h5 h4 2
  refine h7.trans ?_
  have h8 : (b / 2 ^ 53 + 1 / 2 ^ 199) ^ 2 ≤ 2 * (b / 2 ^ 53) ^ 2 + 2 * (1 / 2 ^ 199) ^ 2 := by
    nlinarith [sq_nonneg (b / 2 ^ 53 - 1 / 2 ^ 199)]
  refine h8.trans ?_
  have h9 : 2 * (b / 2 ^ 53) ^ 2 = b ^ 2 / 2 ^ 105 := by ring
  rw [h9]
  have h10 : b ^ 2 / 2 ^ 105 ≤ b ^ 2 / 2 ^ 104 := by
    apply div_le_div_of_nonneg_left (by positivity) (by positivity)
    norm_num
  have h11 : 2 * (1 / 2 ^ 199 : ℝ) ^ 2 ≤ 1 / 2 ^ 395 := by
    rw [show 2 * (1 / 2 ^ 199 : ℝ) ^ 2 = 1 / 2 ^ 397 by
      rw [div_pow, one_pow, ← pow_mul, show (397 : ℕ) = 199 * 2 - 1 by norm_num, mul_one_div, div_eq_div_iff (by positivity) (by positivity), ← pow_succ', one_mul]]
    exact one_div_le_one_div_of_le (by positivity) (pow_le_pow_right₀ (by norm_num) (by norm_num))
  linarith

theorem exists_cx_close (c : ℂ) : ∃ z : ℚ × ℚ, (IsDouble z.1 ∧ IsDouble z.2) ∧
    Complex.normSq (cx z - c) ≤ 1 / 2 ^ 104 * Complex.normSq c + 1 / 2 ^ 394 := by
  obtain ⟨a, ha, ha'⟩ := exists_double_close c.re
  obtain ⟨b, hb, hb'⟩ := exists_double_close c.im
  refine ⟨(a, b), ⟨ha, hb⟩, ?_⟩
  rw [Complex.normSq_apply, Complex.normSq_apply, Complex.sub_re, Complex.sub_im]
  unfold cx
  beta_reduce
  have e : (1 : ℝ) / 2 ^ 394 = 1 / 2 ^ 395 + 1 / 2 ^ 395 := by
    rw [show (395 : ℕ) = 394 + 1 by norm_num, pow_succ]; field_simp; rw [one_add_one_eq_two]; exact pow_succ (2 : ℝ) 394
  rw [e]
  nlinarith

/-- Transforms with double components that meet the assumption exist for every `ε` from `2 ^ -45` on. -/
theorem npFftD_exists {ε : ℝ} (hε : 1 / 2 ^ 45 ≤ ε) : ∃ F : NpFftD ε,
    (∀ x, ∀ z ∈ F.fft x, IsDouble z.1 ∧ IsDouble z.2) ∧ ∀ X, ∀ z ∈ F.ifft X, IsDouble z.1 ∧ IsDouble z.2 := by
  choose g hd hg using exists_cx_close
  have q1 : (1 : ℝ) / 2 ^ 90 ≤ ε ^ 2 := by
    have := pow_le_pow_left₀ (by positivity) hε 2
    refine le_trans (le_of_eq ?_) this
    ring
  have key : ∀ X : List ℂ, ∀ n, n = X.length → energy n (fun k => cx ((X.map g).getD k 0) - X.getD k 0) ≤
      ε ^ 2 * (energy n (fun k => X.getD k 0) + n * (1 / 2 ^ 100) ^ 3) := by
    intro X n hn
    unfold energy
    have h1 : ∑ k ∈ range n, Complex.normSq (cx ((X.map g).getD k 0) - X.getD k 0) ≤
        ∑ k ∈ range n, (1 / 2 ^ 104 * Complex.normSq (X.getD k 0) + 1 / 2 ^ 394) := by
      refine sum_le_sum fun k hk => ?_
      have hk' : k < X.length := hn ▸ mem_range.1 hk
      rw [List.getD_eq_getElem _ _ (by simpa using hk'), List.getD_eq_getElem _ _ hk', List.getElem_map]
      exact hg _
    refine h1.trans ?_
    rw [sum_add_distrib, ← mul_sum, sum_const, card_range, nsmul_eq_mul, mul_add]
    have e0 : 0 ≤ ∑ k ∈ range n, Complex.normSq (X.getD k 0) := sum_nonneg fun k _ => Complex.normSq_nonneg _
    refine add_le_add (mul_le_mul_of_nonneg_right (le_trans ?_ q1) e0) ?_
    · exact one_div_le_one_div_of_le (by positivity) (pow_le_pow_right₀ (by norm_num) (by norm_num))
    · have h2 : (1 : ℝ) / 2 ^ 394 ≤ ε ^ 2 * (1 / 2 ^ 100) ^ 3 := by
        have h3 := mul_le_mul_of_nonneg_right q1 (by positivity : (0 : ℝ) ≤ (1 / 2 ^ 100) ^ 3)
        refine le_trans ?_ h3
        rw [show (1 : ℝ) / 2 ^ 90 * (1 / 2 ^ 100) ^ 3 = 1 / 2 ^ 390 by
          rw [div_pow, one_pow, ← pow_mul, one_div_mul_one_div, ← pow_add]]
        exact one_div_le_one_div_of_le (by positivity) (pow_le_pow_right₀ (by norm_num) (by norm_num))
      calc (n : ℝ) * (1 / 2 ^ 394) ≤ n * (ε ^ 2 * (1 / 2 ^ 100) ^ 3) := mul_le_mul_of_nonneg_left h2 (Nat.cast_nonneg _)
        _ = _ := by ring
  refine ⟨⟨fun x => (npFft (x.map fun (v : ℚ) => ((v : ℝ) : ℂ))).map g, fun X => (npIfft (X.map cx)).map g, ?_, ?_, ?_, ?_⟩, ?_, ?_⟩
  · intro x; simp [npFft]
  · intro X; simp [npIfft]
  · intro x
    exact key _ _ (by simp [npFft])
  · intro X
    exact key _ _ (by simp [npIfft])
  · intro x z hz
    obtain ⟨c, -, rfl⟩ := List.mem_map.1 hz
    exact hd c
  · intro X z hz
    obtain ⟨c, -, rfl⟩ := List.mem_map.1 hz
    exact hd c

/-- The axis of the concrete cases is accepted. -/
theorem eightSeconds_accepted : monotonicF64 eightSeconds = .ok true := by
  refine axis_noise_accepted (by simp) (t0 := 0) (h := 1) (by norm_num) (by norm_num) fun i hi => ?_
  have hi : i < 8 := by simpa using hi
  interval_cases i <;> norm_num

/-- Eight samples, averaged two by two: two bins, total error of the energy at most `5 ε` times the mean square. -/
example (F : NpFftD (1 / 2 ^ 40)) (R : NpSum) : ∃ f S f' S', computeSpectrumTimeSeriesF64 F R eightSeconds [1, 0, -1, 2, 0, 1, 3, -2] (1 / 4) = .ok (f, S) ∧
    computeSpectrumTimeSeries (vec (realAxis 8 (1 : ℚ))) (vec (realVals [1, 0, -1, 2, 0, 1, 3, -2])) ((1 / 4 : ℚ) : ℝ) = .ok (f', S') ∧ f.length = 2 := by
  obtain ⟨f, S, f', S', a, b, c, -⟩ := spectrum_double F R (by norm_num) (by norm_num) eightSeconds_step eightSeconds_accepted
    (x := [1, 0, -1, 2, 0, 1, 3, -2]) (by simp) (by simp) (by simp) (by norm_num) (by norm_num) (df := 1 / 4) (m := 2)
    (.inr ⟨by norm_num, by norm_num, by norm_num, by norm_num⟩)
  exact ⟨f, S, f', S', a, b, c⟩

/-- The energy of eight samples in double precision. -/
example (F : NpFftD (1 / 2 ^ 40)) (R : NpSum) : ∃ f S, computeSpectrumTimeSeriesF64 F R eightSeconds [1, 0, -1, 2, 0, 1, 3, -2] 0 = .ok (f, S) ∧ S.length = 5 := by
  obtain ⟨f, S, a, -, b, -⟩ := raw_energy_double F R (by norm_num) (by norm_num) eightSeconds_step eightSeconds_accepted
    (x := [1, 0, -1, 2, 0, 1, 3, -2]) (by simp) (by simp) (by simp) (by norm_num) (by norm_num)
  exact ⟨f, S, a, by rw [b]; simp⟩

/-- The filter on eight samples. -/
example (F : NpFftD (1 / 2 ^ 40)) : ∃ y, bandpassfilterF64 F eightSeconds [1, 0, -1, 2, 0, 1, 3, -2] (3 / 16) 1 = .ok y ∧ y.length = 8 := by
  have h : ∀ lim : ℚ, lim = 3 / 16 ∨ lim = 1 → ClearOf 8 1 lim := by
    intro lim hl i h1 h2
    have : i = 1 ∨ i = 2 ∨ i = 3 ∨ i = 4 := by omega
    rcases hl with rfl | rfl <;> rcases this with rfl | rfl | rfl | rfl <;> (unfold harmonic; norm_num [abs_lt, lt_abs])
  obtain ⟨y, z, a, -, b, -⟩ := bandpass_double F (by norm_num) (by norm_num) eightSeconds_step eightSeconds_accepted
    (x := [1, 0, -1, 2, 0, 1, 3, -2]) (by simp) (by simp) (by simp) (by norm_num) (by norm_num) (h _ (.inl rfl)) (h _ (.inr rfl))
  exact ⟨y, a, b⟩

end Verif
