import Verif.Props.JonswapPeak
import Verif.Props.Dispersion
import Verif.Props.Fourier

/-! # More of the project's own unit tests, on the model over the reals

Like `Props/Conformance.lean` these statements check the *model* against the values which the tests in `/repo/tests` require of the code; no claim rests on
them.  Inputs are the exact decimal numbers, tolerances those of the tests. -/

namespace Verif

/-! ## spectrum_test.py -/

/-- conftest.py:24 `np.linspace(0.01, 2, 1000)`. -/
noncomputable def linspaceF : List ℝ := (List.range 1000).map fun (i : Nat) => 1 / 100 + (i : ℝ) * (199 / 99900)

theorem linspaceF_getD {i : Nat} (hi : i < 1000) : linspaceF.getD i 0 = 1 / 100 + (i : ℝ) * (199 / 99900) := getD_map_range _ _ _ _ hi

theorem linspaceF_length : linspaceF.length = 1000 := by simp [linspaceF]

theorem linspaceF_uniform : UniformAxis linspaceF (199 / 99900) := by
  refine ⟨by norm_num, fun i hi => ?_⟩
  rw [linspaceF_length] at hi
  rw [linspaceF_getD hi, linspaceF_getD (by omega)]
  push_cast
  ring

theorem linspaceF_last : linspaceF.getD (linspaceF.length - 1) 0 = 2 := by
  rw [linspaceF_length, linspaceF_getD (by norm_num)]; norm_num

/-- spectrum_test.py:4-5 `test_get_Hm0`: exactly `2`. -/
theorem test_get_Hm0 : ∃ s, createSpectrumObjectJonswap (vec linspaceF) (1 / 10) 2 = .ok s ∧ (s.getHm0 (-1) (.fin (-1))).1 = .ok 2 := by
  obtain ⟨S, c, s, -, hs, -, -, -, -, -, h, -⟩ := jonswap_height (isArr_vec linspaceF) linspaceF_uniform (by rw [linspaceF_length]; norm_num)
    (by rw [linspaceF_getD (by norm_num)]; norm_num) (by rw [linspaceF_last]; norm_num) (fp := 1 / 10) (hm0 := 2) (γ := 33 / 10) (lF := 0)
    (by norm_num) (by norm_num) (by norm_num) (Or.inl rfl)
  exact ⟨s, hs, h rfl⟩

/-- Of the two grid frequencies next to the peak, the lower one has the higher density. -/
theorem grid_peak : specJonswap (1 / 10) (33 / 10) (1 / 100 + (46 : ℝ) * (199 / 99900)) < specJonswap (1 / 10) (33 / 10) (1 / 100 + (45 : ℝ) * (199 / 99900)) := by
  have e45 : (1 / 100 + (45 : ℝ) * (199 / 99900)) = 1106 / 11100 := by norm_num
  have e46 : (1 / 100 + (46 : ℝ) * (199 / 99900)) = 10153 / 99900 := by norm_num
  rw [e45, e46]
  unfold specJonswap specSigma
  have pi := Real.pi_pos
  have h1 : Real.exp (-(5 / 4) * (1 / 10 / (10153 / 99900 : ℝ)) ^ 4) / (10153 / 99900 : ℝ) ^ 5 <
      Real.exp (-(5 / 4) * (1 / 10 / (1106 / 11100 : ℝ)) ^ 4) / (1106 / 11100 : ℝ) ^ 5 := by
    have hd : -(5 / 4) * (1 / 10 / (10153 / 99900 : ℝ)) ^ 4 = -(5 / 4) * (1 / 10 / (1106 / 11100 : ℝ)) ^ 4 +
        (5 / 4) * ((1 / 10 / (1106 / 11100 : ℝ)) ^ 4 - (1 / 10 / (10153 / 99900 : ℝ)) ^ 4) := by ring
    rw [hd, Real.exp_add]
    have hb := Real.exp_bound' (x := (5 / 4) * ((1 / 10 / (1106 / 11100 : ℝ)) ^ 4 - (1 / 10 / (10153 / 99900 : ℝ)) ^ 4)) (by norm_num) (by norm_num)
      (n := 4) (by norm_num)
    have hb' : Real.exp ((5 / 4) * ((1 / 10 / (1106 / 11100 : ℝ)) ^ 4 - (1 / 10 / (10153 / 99900 : ℝ)) ^ 4)) < (10153 / 99900 : ℝ) ^ 5 / (1106 / 11100 : ℝ) ^ 5 := by
      refine lt_of_le_of_lt hb ?_
      simp only [Finset.sum_range_succ, Finset.sum_range_zero, Nat.factorial]
      norm_num
    rw [div_lt_div_iff₀ (by positivity) (by positivity), mul_assoc]
    refine mul_lt_mul_of_pos_left ?_ (Real.exp_pos _)
    rwa [lt_div_iff₀ (by positivity)] at hb'
  have h2 : Real.exp (-(10153 / 99900 - 1 / 10 : ℝ) ^ 2 / (2 * (9 / 100 : ℝ) ^ 2 * (1 / 10) ^ 2)) ≤
      Real.exp (-(1106 / 11100 - 1 / 10 : ℝ) ^ 2 / (2 * (7 / 100 : ℝ) ^ 2 * (1 / 10) ^ 2)) := Real.exp_le_exp.2 (by norm_num)
  have h3 := Real.rpow_le_rpow_of_exponent_le (show (1 : ℝ) ≤ 33 / 10 by norm_num) h2
  have s1 : (if (10153 / 99900 : ℝ) < 1 / 10 then (7 / 100 : ℝ) else 9 / 100) = 9 / 100 := if_neg (by norm_num)
  have s2 : (if (1106 / 11100 : ℝ) < 1 / 10 then (7 / 100 : ℝ) else 9 / 100) = 7 / 100 := if_pos (by norm_num)
  rw [show (0.07 : ℝ) = 7 / 100 by norm_num, show (0.09 : ℝ) = 9 / 100 by norm_num] at *
  rw [s1, s2]
  have c : (0 : ℝ) < 9.81 ^ 2 / (2 * Real.pi) ^ 4 := by positivity
  have := mul_lt_mul h1 h3 (Real.rpow_pos_of_pos (by norm_num) _) (by positivity)
  calc _ = 9.81 ^ 2 / (2 * Real.pi) ^ 4 * (Real.exp (-(5 / 4) * (1 / 10 / (10153 / 99900 : ℝ)) ^ 4) / (10153 / 99900 : ℝ) ^ 5 * _) := by ring
    _ < 9.81 ^ 2 / (2 * Real.pi) ^ 4 * _ := mul_lt_mul_of_pos_left this c
    _ = _ := by ring

theorem init_of_jonswap {pf : PyIn ℝ} {fp hm0 γ lF : ℝ} {S : List ℝ} {s : SpecObj} (h : createSpectrumJonswap pf fp hm0 γ lF = .ok S)
    (hs : createSpectrumObjectJonswap pf fp hm0 γ lF = .ok s) : SpecObj.init pf (vec S) = .ok s := by
  unfold createSpectrumObjectJonswap at hs
  rw [h] at hs; exact hs

/-- spectrum_test.py:9-10 `test_get_Tp`: within 1% of `10`. -/
theorem test_get_Tp : ∃ s T, createSpectrumObjectJonswap (vec linspaceF) (1 / 10) 2 = .ok s ∧ (s.getTp (-1) (.fin (-1))).1 = .ok T ∧
    |T - 10| ≤ 1 / 100 * 10 := by
  have hl := linspaceF_length
  have h0 : linspaceF.getD 0 0 = 1 / 100 := by rw [linspaceF_getD (by norm_num)]; norm_num
  obtain ⟨S, s, k, hcr, hob, hr, hf, hk, hT, hnear, -, -⟩ := jonswap_tp_near (isArr_vec linspaceF) linspaceF_uniform (by rw [hl]; norm_num)
    (by rw [h0]; norm_num) (by rw [linspaceF_last]; norm_num) (fp := 1 / 10) (hm0 := 2) (γ := 33 / 10) (lF := 0)
    (by norm_num) (by norm_num) (by norm_num) (Or.inl rfl)
  have hd := hnear (by rw [h0]; norm_num) (by rw [linspaceF_last]; norm_num)
  rw [hl] at hk
  refine ⟨s, _, hob, hT, ?_⟩
  rw [linspaceF_getD hk, abs_lt] at hd
  have k1 : (44 : ℝ) < k := by linarith [hd.1]
  have k2 : (k : ℝ) < 47 := by linarith [hd.2]
  have k1' : 44 < k := by exact_mod_cast k1
  have k2' : k < 47 := by exact_mod_cast k2
  have hk45 : k = 45 := by
    by_contra hne
    have e : k = 46 := by omega
    obtain ⟨S₂, c, s', hcr', hob', -, -, hsc, -, hc, -, -⟩ := jonswap_height (isArr_vec linspaceF) linspaceF_uniform (by rw [hl]; norm_num)
      (by rw [h0]; norm_num) (by rw [linspaceF_last]; norm_num) (fp := 1 / 10) (hm0 := 2) (γ := 33 / 10) (lF := 0)
      (by norm_num) (by norm_num) (by norm_num) (Or.inl rfl)
    have eS : Except.ok S = Except.ok S₂ := hcr.symm.trans hcr'
    obtain rfl := Except.ok.inj eS
    have hinit := init_of_jonswap hcr hob
    obtain ⟨k', hin, hne0, hT', hmax⟩ := get_Tp_spec (isArr_vec linspaceF) (isArr_vec S) hinit hT
    have ek : k' = k := by
      have hk' : k' < linspaceF.length := by
        by_contra hc'
        exact hne0 (List.getD_eq_default _ _ (not_lt.1 hc'))
      rw [hl] at hk'
      have hT2 : (linspaceF.getD k 0)⁻¹ = (linspaceF.getD k' 0)⁻¹ := by rw [← one_div, ← one_div]; exact hT'
      have := inv_injective hT2
      rw [linspaceF_getD hk, linspaceF_getD hk'] at this
      have : (k : ℝ) = k' := by linarith
      exact_mod_cast this.symm
    subst ek
    have h45 := (hmax 45 ?_).1
    · subst e
      rw [(hsc.2 45 (by rw [hl]; norm_num)).1 (by rw [linspaceF_getD (by norm_num)]; norm_num),
        (hsc.2 46 (by rw [hl]; norm_num)).1 (by rw [linspaceF_getD (by norm_num)]; norm_num), linspaceF_getD (by norm_num), linspaceF_getD (by norm_num)] at h45
      have h2 := le_of_mul_le_mul_left h45 (hc (by norm_num))
      exact absurd h2 (not_le.2 (by exact_mod_cast grid_peak))
    · exact ⟨by rw [hl]; norm_num, Or.inl rfl, Or.inl rfl⟩
  rw [linspaceF_getD hk, hk45, abs_le]
  norm_num

/-! ## core_dispersion_test.py -/

theorem exp_bracket {x : ℝ} (h0 : 0 ≤ x) (h1 : x ≤ 1) : 1 + x + x ^ 2 / 2 + x ^ 3 / 6 + x ^ 4 / 24 + x ^ 5 / 120 ≤ Real.exp x ∧
    Real.exp x ≤ 1 + x + x ^ 2 / 2 + x ^ 3 / 6 + x ^ 4 / 24 + x ^ 5 / 120 + x ^ 6 * (7 / 4320) := by
  have a := Real.sum_le_exp_of_nonneg h0 6
  have b := Real.exp_bound' h0 h1 (n := 6) (by norm_num)
  simp only [Finset.sum_range_succ, Finset.sum_range_zero, Nat.factorial] at a b
  constructor
  · refine le_trans (le_of_eq ?_) a; norm_num
  · refine le_trans b (le_of_eq ?_); norm_num; ring

/-- The number returned lies between `a` and `b` if the dispersion relation says so. -/
theorem disper_bracket {w h a b : ℝ} (hw : 0 < w) (hh : 0 < h) (ha : 0 ≤ a) (hb : 0 ≤ b) (ha1 : a * h ≤ 1) (hb1 : b * h ≤ 1)
    (hy : 1 / 10 ^ 8 ≤ w ^ 2 * h / (981 / 100))
    (hlo : a * h * (1 - 2 / ((1 + a * h + (a * h) ^ 2 / 2 + (a * h) ^ 3 / 6 + (a * h) ^ 4 / 24 + (a * h) ^ 5 / 120 + (a * h) ^ 6 * (7 / 4320)) ^ 2 + 1)) <
      w ^ 2 * h / (981 / 100) - 1 / 10 ^ 13)
    (hup : w ^ 2 * h / (981 / 100) + 1 / 10 ^ 13 <
      b * h * (1 - 2 / ((1 + b * h + (b * h) ^ 2 / 2 + (b * h) ^ 3 / 6 + (b * h) ^ 4 / 24 + (b * h) ^ 5 / 120) ^ 2 + 1))) :
    a ≤ disperElem w h (981 / 100) ∧ disperElem w h (981 / 100) ≤ b := by
  obtain ⟨q, hq, hacc, he⟩ := disperElem_eq (w := w) (h := h) (g := 981 / 100)
  have hW : dispW2 w h (981 / 100) = w ^ 2 * h / (981 / 100) := by
    unfold dispW2
    dsimp only
    rw [if_neg (not_lt.2 hy)]
  rw [hW] at hacc
  have hacc' := abs_le.1 (hacc.trans (mul_le_mul_of_nonneg_left (min_le_right _ _) (by norm_num)))
  rw [he, sign_pos hw]
  have dbl : ∀ x : ℝ, Real.exp (2 * x) = Real.exp x ^ 2 := fun x => by rw [two_mul, Real.exp_add, sq]
  have p1 : 0 ≤ a * h := by positivity
  have p2 : 0 ≤ b * h := by positivity
  constructor
  · rw [le_div_iff₀ hh]
    by_contra hc
    simp only [SignType.coe_one, one_mul] at hc
    have hc' := dispF_mono hq.le (not_le.1 hc).le
    have ht : Real.tanh (a * h) ≤ _ := (tanh_eq _).le
    rw [dbl] at ht
    have hE : Real.exp (a * h) ^ 2 ≤ _ := pow_le_pow_left₀ (Real.exp_pos _).le (exp_bracket p1 ha1).2 2
    have hdiv := div_le_div_of_nonneg_left (show (0 : ℝ) ≤ 2 by norm_num) (by positivity) (add_le_add_left hE 1)
    have := mul_le_mul_of_nonneg_left (ht.trans (sub_le_sub_left hdiv 1)) p1
    linarith [hacc'.1]
  · rw [div_le_iff₀ hh]
    by_contra hc
    simp only [SignType.coe_one, one_mul] at hc
    have hc' := dispF_mono p2 (not_le.1 hc).le
    have ht : _ ≤ Real.tanh (b * h) := (tanh_eq _).ge
    rw [dbl] at ht
    have hE : _ ≤ Real.exp (b * h) ^ 2 := pow_le_pow_left₀ (by positivity) (exp_bracket p2 hb1).1 2
    have hdiv := div_le_div_of_nonneg_left (show (0 : ℝ) ≤ 2 by norm_num) (by positivity) (add_le_add_left hE 1)
    have := mul_le_mul_of_nonneg_left ((sub_le_sub_left hdiv 1).trans ht) p2
    linarith [hacc'.2]

/-- core_dispersion_test.py:6-16, depth 20: to `1e-4`. -/
theorem test_dispersion_20 : ∃ k, disper (.list [1 / 5, 3 / 10, 2 / 5, 1 / 2]) (.fin 20) = .ok k ∧
    List.Forall₂ (fun k c => |k - c| ≤ 1 / 10 ^ 4) k [145 / 10000, 221 / 10000, 302 / 10000, 390 / 10000] := by
  refine ⟨_, disper_ok _ (by norm_num) (by norm_num), ?_⟩
  have key : ∀ {w c : ℝ}, c - 1 / 10 ^ 4 ≤ disperElem w 20 (981 / 100) ∧ disperElem w 20 (981 / 100) ≤ c + 1 / 10 ^ 4 →
      |disperElem w 20 (981 / 100) - c| ≤ 1 / 10 ^ 4 := fun h => abs_le.2 ⟨by linarith [h.1], by linarith [h.2]⟩
  refine .cons (key (disper_bracket ?_ ?_ ?_ ?_ ?_ ?_ ?_ ?_ ?_)) (.cons (key (disper_bracket ?_ ?_ ?_ ?_ ?_ ?_ ?_ ?_ ?_))
    (.cons (key (disper_bracket ?_ ?_ ?_ ?_ ?_ ?_ ?_ ?_ ?_)) (.cons (key (disper_bracket ?_ ?_ ?_ ?_ ?_ ?_ ?_ ?_ ?_)) .nil)))
  all_goals norm_num

/-- core_dispersion_test.py:6-16, depth 10: to `1e-4`. -/
theorem test_dispersion_10 : ∃ k, disper (.list [1 / 5, 3 / 10, 2 / 5, 1 / 2]) (.fin 10) = .ok k ∧
    List.Forall₂ (fun k c => |k - c| ≤ 1 / 10 ^ 4) k [203 / 10000, 308 / 10000, 415 / 10000, 527 / 10000] := by
  refine ⟨_, disper_ok _ (by norm_num) (by norm_num), ?_⟩
  have key : ∀ {w c : ℝ}, c - 1 / 10 ^ 4 ≤ disperElem w 10 (981 / 100) ∧ disperElem w 10 (981 / 100) ≤ c + 1 / 10 ^ 4 →
      |disperElem w 10 (981 / 100) - c| ≤ 1 / 10 ^ 4 := fun h => abs_le.2 ⟨by linarith [h.1], by linarith [h.2]⟩
  refine .cons (key (disper_bracket ?_ ?_ ?_ ?_ ?_ ?_ ?_ ?_ ?_)) (.cons (key (disper_bracket ?_ ?_ ?_ ?_ ?_ ?_ ?_ ?_ ?_))
    (.cons (key (disper_bracket ?_ ?_ ?_ ?_ ?_ ?_ ?_ ?_ ?_)) (.cons (key (disper_bracket ?_ ?_ ?_ ?_ ?_ ?_ ?_ ?_ ?_)) .nil)))
  all_goals norm_num

/-! ## core_spectral_test.py -/

/-- core_spectral_test.py:84-99 `test_freq2time`, for every signal: the record comes back exactly. -/
theorem test_freq2time (y : ℝ → ℝ) : ∃ f X, time2freq (vec ((List.range 100).map fun (i : Nat) => (i : ℝ) * (1 / 10)))
    (vec ((List.range 100).map fun (i : Nat) => y ((i : ℝ) * (1 / 10)))) = .ok (f, X) ∧
    freq2time (vec X) = .ok ((List.range 100).map fun (i : Nat) => y ((i : ℝ) * (1 / 10))) :=
  fourier_round_trip (isArr_vec _) (isArr_vec _) (uniform_check_accepts_uniform (x := (List.range 100).map fun (i : Nat) => (i : ℝ) * (1 / 10)) (dx := 1 / 10)
    (by simp) ⟨by norm_num, fun i hi => by
      simp only [List.length_map, List.length_range] at hi
      rw [getD_map_range _ _ _ _ hi, getD_map_range _ _ _ _ (by omega)]; push_cast; ring⟩) (by simp)

end Verif
