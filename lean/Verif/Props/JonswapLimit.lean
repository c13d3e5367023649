import Verif.Props.Sampled
import Verif.Props.JonswapPeak
import Verif.Props.SpecScale

/-! # C162: created JONSWAP and Pierson-Moskowitz spectra as the frequency axis is refined

`create_spectrum_jonswap` scales sampled values of the JONSWAP formula to the prescribed wave height with a quadrature on the same axis, so that every
density it returns depends on the axis.  On finer and finer axes from `a` to `b` the densities tend, uniformly, to the formula scaled with the exact
integral, and the mean periods and the peak period of the created spectrum tend to those of the formula. -/

open Filter Topology

namespace Verif

/-! ## The formula -/

theorem specJonswap_pos {fp γ x : ℝ} (hγ : 0 < γ) (hx : 0 < x) : 0 < specJonswap fp γ x := by
  unfold specJonswap
  have := Real.pi_pos
  have := Real.rpow_pos_of_pos hγ (Real.exp (-(x - fp) ^ 2 / (2 * specSigma fp x ^ 2 * fp ^ 2)))
  positivity

/-- The width jumps at the peak, the formula does not. -/
theorem specJonswap_continuousOn {fp γ : ℝ} (hγ : 0 < γ) : ContinuousOn (specJonswap fp γ) (Set.Ioi 0) := by
  have hE : Continuous fun x : ℝ => Real.exp (-(x - fp) ^ 2 / (2 * specSigma fp x ^ 2 * fp ^ 2)) := by
    have e : (fun x : ℝ => Real.exp (-(x - fp) ^ 2 / (2 * specSigma fp x ^ 2 * fp ^ 2))) = fun x : ℝ =>
        if fp ≤ x then Real.exp (-(x - fp) ^ 2 / (2 * 0.09 ^ 2 * fp ^ 2)) else Real.exp (-(x - fp) ^ 2 / (2 * 0.07 ^ 2 * fp ^ 2)) := by
      funext x
      unfold specSigma
      by_cases h : x < fp
      · rw [if_pos h, if_neg (not_le.2 h)]
      · rw [if_neg h, if_pos (not_lt.1 h)]
    rw [e]
    refine Continuous.if_le (by fun_prop) (by fun_prop) continuous_const continuous_id ?_
    intro x hx
    have hx' : fp = x := hx
    subst hx'
    simp
  have hG : Continuous fun x : ℝ => γ ^ Real.exp (-(x - fp) ^ 2 / (2 * specSigma fp x ^ 2 * fp ^ 2)) :=
    continuous_const.rpow hE fun _ => Or.inl hγ.ne'
  unfold specJonswap
  refine ContinuousOn.mul (ContinuousOn.mul ?_ ?_) hG.continuousOn
  · exact continuousOn_const.div (by fun_prop) fun x hx => pow_ne_zero _ (ne_of_gt hx)
  · refine Real.continuous_exp.comp_continuousOn (continuousOn_const.mul (ContinuousOn.pow ?_ 4))
    exact continuousOn_const.div continuousOn_id fun x hx => ne_of_gt hx

/-! ## C162 -/

/-- The formula scaled to the wave height `hm0` with its exact integral over the axis. -/
noncomputable def exactDensity (a b fp hm0 γ u : ℝ) : ℝ := hm0 ^ 2 / 16 * (specJonswap fp γ u / ∫ v in a..b, specJonswap fp γ v)

theorem axisOf_getD {a b : ℝ} {n k : Nat} (hk : k < n + 2) : (axisOf a b n).getD k 0 = a + k * ((b - a) / (n + 1)) := by
  unfold axisOf; rw [gridFrom_getD hk]

theorem axisOf_mem {a b : ℝ} (hab : a < b) {n k : Nat} (hk : k < n + 2) : (axisOf a b n).getD k 0 ∈ Set.Icc a b := by
  rw [axisOf_getD hk]
  have hn : (0 : ℝ) < n + 1 := by positivity
  have hk' : (k : ℝ) ≤ n + 1 := by exact_mod_cast Nat.le_of_lt_succ hk
  constructor
  · have : 0 ≤ (k : ℝ) * ((b - a) / (n + 1)) := mul_nonneg (Nat.cast_nonneg k) (div_nonneg (by linarith) hn.le)
    linarith
  · have : (k : ℝ) * ((b - a) / (n + 1)) ≤ (n + 1) * ((b - a) / (n + 1)) := mul_le_mul_of_nonneg_right hk' (div_nonneg (by linarith) hn.le)
    rw [mul_div_cancel₀ _ hn.ne'] at this
    linarith

/-- **C162.**  On axes of `n + 2` frequencies from `a > 2⁻⁵²` to `b`, for every `fp`, `γ`, `hm0 > 0`: the spectrum is created and has exactly the
prescribed wave height; as `n` grows its densities tend uniformly to the JONSWAP formula scaled with the exact integral, and `Tmm10`, `Tm01` and `Tm02`
tend to the quotients of the exact moments of the formula. -/
theorem jonswap_limit {a b fp hm0 γ : ℝ} (ha : 1 / 2 ^ 52 < a) (hab : a < b) (hfp : 0 < fp) (hγ : 0 < γ) (hH : 0 < hm0) :
    ∃ (S : ℕ → List ℝ) (T₁ T₂ T₃ : ℕ → ℝ),
      (∀ n, createSpectrumJonswap (vec (axisOf a b n)) fp hm0 γ 0 = .ok (S n)) ∧
      (∀ᶠ n in atTop, ∃ s, createSpectrumObjectJonswap (vec (axisOf a b n)) fp hm0 γ 0 = .ok s ∧ (s.getHm0 (-1) (.fin (-1))).1 = .ok hm0 ∧
        (s.getTmm10 (-1) (.fin (-1))).1 = .ok (T₁ n) ∧ (s.getTm01 (-1) (.fin (-1))).1 = .ok (T₂ n) ∧ (s.getTm02 (-1) (.fin (-1))).1 = .ok (T₃ n)) ∧
      (∀ ε, 0 < ε → ∀ᶠ n in atTop, (S n).length = n + 2 ∧ ∀ k < n + 2, |(S n).getD k 0 - exactDensity a b fp hm0 γ ((axisOf a b n).getD k 0)| ≤ ε) ∧
      Tendsto T₁ atTop (𝓝 ((∫ u in a..b, specJonswap fp γ u / u) / ∫ u in a..b, specJonswap fp γ u)) ∧
      Tendsto T₂ atTop (𝓝 ((∫ u in a..b, specJonswap fp γ u) / ∫ u in a..b, u * specJonswap fp γ u)) ∧
      Tendsto T₃ atTop (𝓝 √((∫ u in a..b, specJonswap fp γ u) / ∫ u in a..b, u ^ 2 * specJonswap fp γ u)) := by
  have ha0 : 0 < a := lt_trans (by positivity) ha
  have hsub : Set.Icc a b ⊆ Set.Ioi 0 := fun u hu => lt_of_lt_of_le ha0 hu.1
  have hc : ContinuousOn (specJonswap fp γ) (Set.Icc a b) := (specJonswap_continuousOn hγ).mono hsub
  have hma : a ∈ Set.Icc a b := ⟨le_rfl, hab.le⟩
  obtain ⟨H, T₁, T₂, T₃, hev, tH, t1, t2, t3⟩ := sampled_parameters (S := specJonswap fp γ) (G := fun u => specJonswap fp γ u / u) (c := a) ha0.le hab hc
    (fun u hu => (specJonswap_pos hγ (hsub hu)).le) hma ha0 (specJonswap_pos hγ ha0) (hc.div continuousOn_id fun u hu => (hsub hu).ne') (fun u _ _ => rfl)
  have hI : 0 < ∫ u in a..b, specJonswap fp γ u :=
    intervalIntegral.integral_pos hab hc (fun u hu => (specJonswap_pos hγ (hsub ⟨hu.1.le, hu.2⟩)).le) ⟨a, hma, specJonswap_pos hγ ha0⟩
  have hj : ∀ n, _ := fun n => jonswap_height (isArr_vec (axisOf a b n)) (axisOf_uniform hab n) (by rw [axisOf_length]; omega)
    (by rw [axisOf_first]; exact ha0.le) (by rw [axisOf_last]; linarith) hfp hγ hH.le (Or.inl rfl)
  choose S c s hS hs hsf hsS hsc hc0 hcp h0 _ using hj
  have hval : ∀ n, S n = ((axisOf a b n).map (specJonswap fp γ)).map (c n * ·) := by
    intro n
    refine List.ext_getElem (by simp [(hsc n).1]) fun k h1 h2 => ?_
    have hk : k < (axisOf a b n).length := by rw [← (hsc n).1]; exact h1
    have hm := axisOf_mem hab (n := n) (k := k) (by rwa [axisOf_length] at hk)
    have := ((hsc n).2 k hk).1 (lt_of_lt_of_le ha hm.1)
    rw [List.getD_eq_getElem _ _ h1, List.getD_eq_getElem _ _ hk] at this
    rw [this]
    simp
  have hinit : ∀ n, SpecObj.init (vec (axisOf a b n)) (vec (S n)) = .ok (s n) := by
    intro n
    have := hs n
    unfold createSpectrumObjectJonswap at this
    rw [hS n] at this; exact this
  have hcall : ∀ n s0, sampledSpectrum (specJonswap fp γ) a b n = .ok s0 → ∀ op : SpecOp, ¬ op.usesTps →
      ((s n).call op).1 = (s0.call op).1.map (op.energyFactor (c n) * ·) := by
    intro n s0 h op hop
    obtain ⟨s', e, hh⟩ := spectrum_energy_scaling (c := c n) (isArr_vec (axisOf a b n)) (isArr_vec ((axisOf a b n).map (specJonswap fp γ)))
      (isArr_vec (((axisOf a b n).map (specJonswap fp γ)).map (c n * ·))) (hcp n hH) h
    rw [← hval n, hinit n] at e
    obtain rfl := Except.ok.inj e
    exact hh [] op hop
  have hone : ∀ v : ℝ, (Except.ok v : Except PyErr ℝ).map (1 * ·) = .ok v := fun v => by
    show Except.ok (1 * v) = _
    rw [one_mul]
  have hcval : ∀ᶠ n in atTop, c n = (hm0 / H n) ^ 2 := by
    filter_upwards [hev, tH.eventually_const_lt (show 0 < 4 * √(∫ u in a..b, specJonswap fp γ u) by positivity)] with n hn hpos
    obtain ⟨s0, e0, e1, -⟩ := hn
    have := hcall n s0 e0 (.getHm0 (-1) (.fin (-1))) (fun h => h)
    have e2 : ((s n).call (.getHm0 (-1) (.fin (-1)))).1 = .ok hm0 := h0 n rfl
    have e3 : (s0.call (.getHm0 (-1) (.fin (-1)))).1 = .ok (H n) := e1
    rw [e2, e3] at this
    have e4 : hm0 = √(c n) * H n := Except.ok.inj this
    rw [e4, mul_div_assoc, div_self hpos.ne', mul_one, Real.sq_sqrt (hc0 n)]
  have tc : Tendsto c atTop (𝓝 (hm0 ^ 2 / 16 / ∫ u in a..b, specJonswap fp γ u)) := by
    have t := ((tendsto_const_nhds (x := hm0)).div tH (by positivity)).pow 2
    have e : (hm0 / (4 * √(∫ u in a..b, specJonswap fp γ u))) ^ 2 = hm0 ^ 2 / 16 / ∫ u in a..b, specJonswap fp γ u := by
      rw [div_pow, mul_pow, Real.sq_sqrt hI.le, div_div]; norm_num
    rw [e] at t
    exact t.congr' (hcval.mono fun n hn => hn.symm)
  refine ⟨S, T₁, T₂, T₃, hS, ?_, ?_, t1, t2, t3⟩
  · filter_upwards [hev] with n hn
    obtain ⟨s0, e0, -, e1, e2, e3⟩ := hn
    have r1 := hcall n s0 e0 (.getTmm10 (-1) (.fin (-1))) (fun h => h)
    have r2 := hcall n s0 e0 (.getTm01 (-1) (.fin (-1))) (fun h => h)
    have r3 := hcall n s0 e0 (.getTm02 (-1) (.fin (-1))) (fun h => h)
    refine ⟨s n, hs n, h0 n rfl, ?_, ?_, ?_⟩
    · exact r1.trans ((congrArg _ e1).trans (hone _))
    · exact r2.trans ((congrArg _ e2).trans (hone _))
    · exact r3.trans ((congrArg _ e3).trans (hone _))
  · intro ε hε
    obtain ⟨M, hM⟩ := isCompact_Icc.exists_bound_of_continuousOn hc
    have hM0 : 0 ≤ M := (norm_nonneg _).trans (hM a hma)
    have := Metric.tendsto_atTop.1 tc (ε / (M + 1)) (by positivity)
    obtain ⟨N, hN⟩ := this
    filter_upwards [eventually_ge_atTop N] with n hn
    refine ⟨by rw [hval n]; simp [axisOf_length], fun k hk => ?_⟩
    have hd := hN n hn
    rw [Real.dist_eq] at hd
    have hm := axisOf_mem hab (n := n) hk
    have hv := ((hsc n).2 k (by rw [axisOf_length]; exact hk)).1 (lt_of_lt_of_le ha hm.1)
    rw [hv]
    unfold exactDensity
    rw [show c n * specJonswap fp γ ((axisOf a b n).getD k 0) -
        hm0 ^ 2 / 16 * (specJonswap fp γ ((axisOf a b n).getD k 0) / ∫ v in a..b, specJonswap fp γ v) =
        (c n - hm0 ^ 2 / 16 / ∫ v in a..b, specJonswap fp γ v) * specJonswap fp γ ((axisOf a b n).getD k 0) by ring, abs_mul]
    have hb := hM _ hm
    rw [Real.norm_eq_abs] at hb
    calc _ ≤ ε / (M + 1) * M := mul_le_mul hd.le hb (abs_nonneg _) (by positivity)
      _ ≤ ε / (M + 1) * (M + 1) := mul_le_mul_of_nonneg_left (by linarith) (by positivity)
      _ = ε := div_mul_cancel₀ _ (by positivity)

/-- **C162 (peak period).**  If the peak frequency lies on the axis (`γ ≥ 1`), the peak period of the created spectrum tends to `1 / fp`. -/
theorem jonswap_limit_peak {a b fp hm0 γ : ℝ} (ha : 1 / 2 ^ 52 < a) (hab : a < b) (hfa : a ≤ fp) (hfb : fp ≤ b) (hγ : 1 ≤ γ) (hH : 0 < hm0) :
    ∃ T : ℕ → ℝ, (∀ n, ∃ s, createSpectrumObjectJonswap (vec (axisOf a b n)) fp hm0 γ 0 = .ok s ∧ (s.getTp (-1) (.fin (-1))).1 = .ok (T n)) ∧
      Tendsto T atTop (𝓝 (1 / fp)) := by
  have ha0 : 0 < a := lt_trans (by positivity) ha
  have hj : ∀ n, _ := fun n => jonswap_tp_near (isArr_vec (axisOf a b n)) (axisOf_uniform hab n) (by rw [axisOf_length]; omega)
    (by rw [axisOf_first]; exact ha0.le) (by rw [axisOf_last]; linarith) (lt_of_lt_of_le ha hfa) hγ hH (lF := 0) (Or.inl rfl)
  choose S s k _ hs _ _ hk hT hnear _ _ using hj
  refine ⟨_, fun n => ⟨s n, hs n, hT n⟩, ?_⟩
  have tf : Tendsto (fun n => (axisOf a b n).getD (k n) 0) atTop (𝓝 fp) := by
    have th : Tendsto (fun n : ℕ => (b - a) * (1 / ((n : ℝ) + 1))) atTop (𝓝 ((b - a) * 0)) := tendsto_one_div_add_atTop_nhds_zero_nat.const_mul _
    rw [mul_zero] at th
    rw [tendsto_iff_dist_tendsto_zero]
    refine squeeze_zero (fun _ => dist_nonneg) (fun n => ?_) th
    have := hnear n (by rw [axisOf_first]; exact hfa) (by rw [axisOf_last]; exact hfb)
    rw [Real.dist_eq, mul_one_div]
    exact this.le
  exact (tendsto_const_nhds).div tf (by linarith : fp ≠ 0)

/-! ## Pierson-Moskowitz -/

/-- The Pierson-Moskowitz formula in terms of wave height and peak frequency, cut off at `a` and `b`:
`5/16 Hm0² fp⁴ f⁻⁵ exp(-5/4 (fp/f)⁴)` over `exp(-5/4 (fp/b)⁴) - exp(-5/4 (fp/a)⁴)`. -/
noncomputable def moskowitz (a b fp hm0 u : ℝ) : ℝ :=
  5 / 16 * hm0 ^ 2 * fp ^ 4 / u ^ 5 * Real.exp (-(5 / 4) * (fp / u) ^ 4) / (Real.exp (-(5 / 4) * (fp / b) ^ 4) - Real.exp (-(5 / 4) * (fp / a) ^ 4))

theorem moskowitz_integral {a b fp : ℝ} (ha : 0 < a) (hab : a < b) (hfp : 0 < fp) : ∫ u in a..b, specJonswap fp 1 u =
    9.81 ^ 2 / (2 * Real.pi) ^ 4 / (5 * fp ^ 4) * (Real.exp (-(5 / 4) * (fp / b) ^ 4) - Real.exp (-(5 / 4) * (fp / a) ^ 4)) := by
  have hder : ∀ u ∈ Set.uIcc a b, HasDerivAt (fun u => 9.81 ^ 2 / (2 * Real.pi) ^ 4 / (5 * fp ^ 4) * Real.exp (-(5 / 4) * (fp / u) ^ 4))
      (specJonswap fp 1 u) u := by
    intro u hu
    rw [Set.uIcc_of_le hab.le] at hu
    have hu0 : u ≠ 0 := (lt_of_lt_of_le ha hu.1).ne'
    have h1 : HasDerivAt (fun u : ℝ => fp / u) (-fp / u ^ 2) u := by
      have h := (hasDerivAt_inv hu0).const_mul fp
      have h' : HasDerivAt (fun u : ℝ => fp / u) (fp * -(u ^ 2)⁻¹) u := by simpa only [div_eq_mul_inv] using h
      exact h'.congr_deriv (by rw [neg_div, div_eq_mul_inv]; ring)
    have h2 := (((h1.pow 4).const_mul (-(5 / 4))).exp).const_mul (9.81 ^ 2 / (2 * Real.pi) ^ 4 / (5 * fp ^ 4))
    refine h2.congr_deriv ?_
    unfold specJonswap
    rw [Real.one_rpow, Pi.pow_apply]
    have := Real.pi_pos.ne'
    have := hfp.ne'
    generalize Real.exp (-(5 / 4) * (fp / u) ^ 4) = E
    norm_num
    field_simp
  have hc : ContinuousOn (specJonswap fp 1) (Set.uIcc a b) := (specJonswap_continuousOn one_pos).mono fun u hu => by
    rw [Set.uIcc_of_le hab.le] at hu; exact lt_of_lt_of_le ha hu.1
  rw [intervalIntegral.integral_eq_sub_of_hasDerivAt hder hc.intervalIntegrable]
  ring

/-- **C162 (Pierson-Moskowitz).**  The densities of `create_spectrum_piersonmoskowitz` tend uniformly to the Pierson-Moskowitz formula in terms of wave
height and peak frequency. -/
theorem moskowitz_limit {a b fp hm0 : ℝ} (ha : 1 / 2 ^ 52 < a) (hab : a < b) (hfp : 0 < fp) (hH : 0 < hm0) :
    ∃ S : ℕ → List ℝ, (∀ n, createSpectrumPiersonMoskowitz (vec (axisOf a b n)) fp hm0 = .ok (S n)) ∧
      ∀ ε, 0 < ε → ∀ᶠ n in atTop, (S n).length = n + 2 ∧ ∀ k < n + 2, |(S n).getD k 0 - moskowitz a b fp hm0 ((axisOf a b n).getD k 0)| ≤ ε := by
  have ha0 : 0 < a := lt_trans (by positivity) ha
  obtain ⟨S, -, -, -, hS, -, hlim, -⟩ := jonswap_limit ha hab hfp one_pos hH
  refine ⟨S, fun n => (piersonMoskowitz_is_jonswap (isArr_vec _) fp hm0 0).1.trans (hS n), fun ε hε => ?_⟩
  filter_upwards [hlim ε hε] with n hn
  refine ⟨hn.1, fun k hk => ?_⟩
  have := hn.2 k hk
  have e : exactDensity a b fp hm0 1 ((axisOf a b n).getD k 0) = moskowitz a b fp hm0 ((axisOf a b n).getD k 0) := by
    unfold exactDensity
    rw [moskowitz_integral ha0 hab hfp]
    unfold moskowitz specJonswap
    rw [Real.one_rpow]
    have := Real.pi_pos.ne'
    have := hfp.ne'
    field_simp
  rw [e] at this
  exact this

/-! The fixture of the project's tests: 0.01 to 2 Hz, peak at 0.1 Hz, 2 m. -/

example : ∃ T : ℕ → ℝ, (∀ n, ∃ s, createSpectrumObjectJonswap (vec (axisOf (1 / 100) 2 n)) (1 / 10) 2 3.3 0 = .ok s ∧
    (s.getTp (-1) (.fin (-1))).1 = .ok (T n)) ∧ Tendsto T atTop (𝓝 (1 / (1 / 10))) :=
  jonswap_limit_peak (by norm_num) (by norm_num) (by norm_num) (by norm_num) (by norm_num) (by norm_num)

example : ∃ S : ℕ → List ℝ, (∀ n, createSpectrumJonswap (vec (axisOf (1 / 100) 2 n)) (1 / 10) 2 3.3 0 = .ok (S n)) ∧
    ∀ ε, 0 < ε → ∀ᶠ n in atTop, (S n).length = n + 2 ∧
      ∀ k < n + 2, |(S n).getD k 0 - exactDensity (1 / 100) 2 (1 / 10) 2 3.3 ((axisOf (1 / 100) 2 n).getD k 0)| ≤ ε := by
  obtain ⟨S, -, -, -, h1, -, h2, -⟩ := jonswap_limit (a := 1 / 100) (b := 2) (fp := 1 / 10) (hm0 := 2) (γ := 3.3) (by norm_num) (by norm_num) (by norm_num)
    (by norm_num) (by norm_num)
  exact ⟨S, h1, h2⟩

example : ∃ S : ℕ → List ℝ, (∀ n, createSpectrumPiersonMoskowitz (vec (axisOf (1 / 100) 2 n)) (1 / 10) 2 = .ok (S n)) ∧
    ∀ ε, 0 < ε → ∀ᶠ n in atTop, (S n).length = n + 2 ∧
      ∀ k < n + 2, |(S n).getD k 0 - moskowitz (1 / 100) 2 (1 / 10) 2 ((axisOf (1 / 100) 2 n).getD k 0)| ≤ ε :=
  moskowitz_limit (by norm_num) (by norm_num) (by norm_num) (by norm_num)

end Verif
