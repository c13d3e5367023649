import Verif.Lemmas.BG

/-! # C48: the Battjes–Groenendijk wave height distribution -/

namespace Verif
open MeasureTheory Set

/-! ## Specification: the composite Weibull distribution -/

/-- Weibull exceedance probability with scale `H` and shape `k`. -/
noncomputable def weibullExc (H k h : ℝ) : ℝ := Real.exp (-(h / H) ^ k)

/-- Weibull probability density with scale `H` and shape `k`. -/
noncomputable def weibullPdf (H k h : ℝ) : ℝ := k / H * (h / H) ^ (k - 1) * Real.exp (-(h / H) ^ k)

/-- The composite distribution: shape 2 up to the transition height, shape 3.6 above it. -/
noncomputable def compositeExc (H1 H2 Htr h : ℝ) : ℝ := if h < Htr then weibullExc H1 2 h else weibullExc H2 (36 / 10) h

/-- The second moment `E[H^2]` of the composite distribution. -/
noncomputable def compositeSecondMoment (H1 H2 Htr : ℝ) : ℝ :=
  (∫ h in (0 : ℝ)..Htr, h ^ 2 * weibullPdf H1 2 h) + ∫ h in Ioi Htr, h ^ 2 * weibullPdf H2 (36 / 10) h

/-- The density is minus the derivative of the exceedance probability. -/
theorem weibull_deriv {H k h : ℝ} (hH : 0 < H) (hh : 0 < h) : HasDerivAt (weibullExc H k) (-weibullPdf H k h) h := by
  unfold weibullExc weibullPdf
  have h1 : HasDerivAt (fun h : ℝ => h / H) (1 / H) h := (hasDerivAt_id h).div_const H
  have h2 := (h1.rpow_const (p := k) (Or.inl (div_pos hh hH).ne')).neg.exp
  have e : Real.exp ((-fun y => (y / H) ^ k) h) * -(1 / H * k * (h / H) ^ (k - 1)) =
      -(k / H * (h / H) ^ (k - 1) * Real.exp (-(h / H) ^ k)) := by
    simp only [Pi.neg_apply]; ring
  rw [e] at h2
  exact h2

/-- `E[H^2]` above a height `a`, as an upper incomplete gamma function. -/
theorem second_moment_above {H k a : ℝ} (hH : 0 < H) (hk : 0 < k) (ha : 0 ≤ a) :
    (∫ h in Ioi a, h ^ 2 * weibullPdf H k h) = H ^ 2 * gUp (2 / k + 1) ((a / H) ^ k) := by
  have e1 : (∫ h in Ioi a, h ^ 2 * weibullPdf H k h) =
      ∫ h in Ioi a, (fun u => H * ((k * u ^ (k - 1)) • (u ^ 2 * Real.exp (-u ^ k)))) (H⁻¹ * h) := by
    apply setIntegral_congr_fun measurableSet_Ioi
    intro h _
    simp only [weibullPdf, smul_eq_mul]
    rw [show H⁻¹ * h = h / H by field_simp, div_pow]
    field_simp
  rw [e1, integral_comp_mul_left_Ioi (fun u => H * ((k * u ^ (k - 1)) • (u ^ 2 * Real.exp (-u ^ k)))) a (inv_pos.2 hH), inv_inv, smul_eq_mul,
    integral_const_mul]
  have ha' : 0 ≤ a / H := div_nonneg ha hH.le
  have e2 : (∫ u in Ioi (H⁻¹ * a), (k * u ^ (k - 1)) • (u ^ 2 * Real.exp (-u ^ k))) =
      ∫ u in Ioi (((a / H) ^ k) ^ k⁻¹), (k * u ^ (k - 1)) • gint (2 / k + 1) (u ^ k) := by
    rw [← Real.rpow_mul ha', mul_inv_cancel₀ hk.ne', Real.rpow_one, show H⁻¹ * a = a / H by field_simp]
    apply setIntegral_congr_fun measurableSet_Ioi
    intro u hu
    have hu0 : 0 ≤ u := ha'.trans (le_of_lt hu)
    simp only [gint, smul_eq_mul]
    have : (u ^ k) ^ (2 / k + 1 - 1) = u ^ 2 := by
      rw [← Real.rpow_mul hu0, show k * (2 / k + 1 - 1) = ((2 : ℕ) : ℝ) by field_simp; norm_num, Real.rpow_natCast]
    rw [this]
  rw [e2, integral_comp_rpow_Ioi_of_pos' hk (Real.rpow_nonneg ha' _)]
  unfold gUp
  ring

/-- `E[H^2]` below the transition height. -/
theorem second_moment_below {H b : ℝ} (hH : 0 < H) : (∫ h in (0 : ℝ)..b, h ^ 2 * weibullPdf H 2 h) = H ^ 2 * gLow 2 ((b / H) ^ 2) := by
  have h1 : ∀ x ∈ uIcc 0 b, HasDerivAt (fun h : ℝ => (h / H) ^ 2) (2 * x / H ^ 2) x := by
    intro x _
    have h1 : HasDerivAt (fun h : ℝ => h / H) (1 / H) x := (hasDerivAt_id x).div_const H
    have h3 := h1.pow 2
    have e : ((2 : ℕ) : ℝ) * (x / H) ^ (2 - 1) * (1 / H) = 2 * x / H ^ 2 := by
      norm_num; field_simp
    rw [e] at h3
    exact h3
  have h2 := intervalIntegral.integral_comp_mul_deriv (g := gint 2) h1 (by fun_prop) (gint_continuous (by norm_num))
  have e : (∫ h in (0 : ℝ)..b, h ^ 2 * weibullPdf H 2 h) = H ^ 2 * ∫ h in (0 : ℝ)..b, (gint 2 ∘ fun h : ℝ => (h / H) ^ 2) h * (2 * h / H ^ 2) := by
    rw [← intervalIntegral.integral_const_mul]
    apply intervalIntegral.integral_congr
    intro h _
    simp only [weibullPdf, gint, Function.comp]
    norm_num
    field_simp
  rw [e, h2]
  unfold gLow
  norm_num

/-- The model's `EST` is the second moment of the composite distribution. -/
theorem bgE_eq_second_moment {Htr H : ℝ} (h : 0 < Htr) (h1 : 0 < H) : bgE Htr H = compositeSecondMoment H (bgH2 Htr H) Htr := by
  unfold bgE compositeSecondMoment
  rw [bgEst_eq, second_moment_below h1, second_moment_above (bgH2_pos h h1) (by norm_num) h.le, bgH2_transition h h1]
  norm_num

/-! ## The loop -/

theorem bgLoop_spec {tol Htr : ℝ} : ∀ {fuel : Nat} {H : ℝ} {r : ℝ × ℝ × ℝ}, bgLoop tol Htr fuel H = some (.ok r) →
    ∃ Hf, 0 < Hf ∧ r.1 + bgDelta * (r.2.2 - 1) = Hf ∧ r.2.1 = bgH2 Htr Hf ∧ |bgE Htr Hf - 1| ≤ tol
  | 0, H, r, h => by cases h
  | fuel + 1, H, r, h => by
    unfold bgLoop at h
    split_ifs at h with h0
    · cases h
    · dsimp only at h
      split_ifs at h with h1
      · exact bgLoop_spec h
      · cases h
        exact ⟨H, not_le.1 h0, by ring, rfl, not_lt.1 h1⟩

/-- More rounds do not change the answer. -/
theorem bgLoop_mono {tol Htr : ℝ} : ∀ {fuel n : Nat} {H : ℝ} {v : Except PyErr (ℝ × ℝ × ℝ)}, bgLoop tol Htr fuel H = some v → fuel ≤ n →
    bgLoop tol Htr n H = some v
  | 0, n, H, v, h, _ => by cases h
  | fuel + 1, n, H, v, h, hn => by
    obtain ⟨m, rfl⟩ : ∃ m, n = m + 1 := ⟨n - 1, by omega⟩
    unfold bgLoop at h ⊢
    split_ifs at h ⊢ with h0
    · exact h
    · dsimp only at h ⊢
      split_ifs at h ⊢ with h1
      · exact bgLoop_mono h (by omega)
      · exact h

theorem bgLoop_down {tol Htr : ℝ} (ht : 0 < tol) (h : 0 < Htr) (hle : Htr ≤ 275 / 100) : ∀ (n : Nat) {H : ℝ}, 0 < H → H ≤ 100 →
    1 ≤ bgE Htr H → H ≤ n * (tol / 100) → ∃ r, bgLoop tol Htr (n + 1) H = some (.ok r)
  | 0, H, h1, _, _, hn => by norm_num at hn; linarith
  | n + 1, H, h1, h100, hE, hn => by
    unfold bgLoop
    rw [if_neg (not_le.2 h1)]
    dsimp only
    split_ifs with hs
    · obtain ⟨a, b⟩ := bg_step_down h hle h1 h100 hE
      change tol < |bgE Htr H - 1| at hs
      rw [abs_of_nonneg (by linarith)] at hs
      apply bgLoop_down ht h hle n a _ b
      · push_cast at hn
        change H - bgDelta * (bgE Htr H - 1) ≤ _
        unfold bgDelta
        linarith
      · change H - bgDelta * (bgE Htr H - 1) ≤ _
        unfold bgDelta
        linarith
    · exact ⟨_, rfl⟩

theorem bgLoop_up {tol Htr : ℝ} (ht : 0 < tol) (h : 0 < Htr) : ∀ (n : Nat) {H : ℝ}, 100 ≤ H →
    bgE Htr H ≤ 1 → 100 / bgE Htr 100 - H ≤ n * (tol / 100) → ∃ r, bgLoop tol Htr (n + 1) H = some (.ok r)
  | n, H, h100, hE, hn => by
    unfold bgLoop
    rw [if_neg (by linarith)]
    dsimp only
    split_ifs with hs
    · change tol < |bgE Htr H - 1| at hs
      rw [abs_of_nonpos (by linarith)] at hs
      obtain ⟨a, b⟩ := bg_step_up h h100 hE
      match n with
      | 0 =>
        have k := bgE_ge_lin h (by norm_num : (0 : ℝ) < 100) h100
        have p := bgE_pos h (by norm_num : (0 : ℝ) < 100)
        have : 100 / bgE Htr 100 ≤ H := by simpa using hn
        rw [div_le_iff₀ p] at this
        linarith
      | n + 1 =>
        apply bgLoop_up ht h n (h100.trans a) b
        push_cast at hn
        change 100 / bgE Htr 100 - (H - bgDelta * (bgE Htr H - 1)) ≤ _
        unfold bgDelta
        linarith
    · exact ⟨_, rfl⟩

/-- The iteration stops for every transition height that reaches it and every positive tolerance. -/
theorem bgLoop_terminates {tol Htr : ℝ} (ht : 0 < tol) (h : 0 < Htr) (hle : Htr ≤ 275 / 100) :
    ∃ fuel r, bgLoop tol Htr fuel 100 = some (.ok r) := by
  have htt : 0 < tol / 100 := by positivity
  rcases le_total 1 (bgE Htr 100) with hE | hE
  · obtain ⟨n, hn⟩ := exists_nat_ge (100 / (tol / 100))
    rw [div_le_iff₀ htt] at hn
    obtain ⟨r, hr⟩ := bgLoop_down ht h hle n (by norm_num) (le_refl _) hE hn
    exact ⟨_, r, hr⟩
  · obtain ⟨n, hn⟩ := exists_nat_ge ((100 / bgE Htr 100 - 100) / (tol / 100))
    rw [div_le_iff₀ htt] at hn
    obtain ⟨r, hr⟩ := bgLoop_up ht h n (le_refl _) hE hn
    exact ⟨_, r, hr⟩

/-! ## The function -/

/-- The height exceeded with probability `1/n` (normalised): the function's `x_1` or `x_2`. -/
theorem composite_quantile {Htr H1 : ℝ} {n : ℕ} (h : 0 < Htr) (h1 : 0 < H1) (hn : 1 ≤ n) :
    compositeExc H1 (bgH2 Htr H1) Htr
      (if H1 * (Real.log n) ^ (1 / bgK1) < Htr then H1 * (Real.log n) ^ (1 / bgK1) else bgH2 Htr H1 * (Real.log n) ^ (1 / bgK2)) = 1 / n := by
  have hl : 0 ≤ Real.log n := Real.log_natCast_nonneg n
  have h2 := bgH2_pos h h1
  have hn0 : (0 : ℝ) < n := by exact_mod_cast hn
  have fin : Real.exp (-Real.log n) = 1 / n := by rw [Real.exp_neg, Real.exp_log hn0, one_div]
  have tr := bgH2_transition h h1
  unfold bgK1 bgK2
  split_ifs with hc
  · unfold compositeExc weibullExc
    rw [if_pos hc, mul_div_cancel_left₀ _ h1.ne', ← Real.rpow_mul hl]
    norm_num
    rw [Real.exp_neg, Real.exp_log hn0]
  · have hge : Htr ≤ bgH2 Htr H1 * (Real.log n) ^ (1 / (36 / 10) : ℝ) := by
      rw [← div_le_iff₀' h2]
      have hx : 0 ≤ Htr / bgH2 Htr H1 := (div_pos h h2).le
      have h3 : Htr / H1 ≤ (Real.log n) ^ (1 / 2 : ℝ) := by rw [div_le_iff₀' h1]; exact not_lt.1 hc
      have h4 : (Htr / H1) ^ 2 ≤ Real.log n := by
        have := pow_le_pow_left₀ (div_pos h h1).le h3 2
        rwa [← Real.rpow_natCast ((Real.log n) ^ (1 / 2 : ℝ)), ← Real.rpow_mul hl, show (1 / 2 * ((2 : ℕ) : ℝ)) = 1 by norm_num, Real.rpow_one] at this
      rw [← tr] at h4
      have := Real.rpow_le_rpow (by positivity) h4 (show (0 : ℝ) ≤ 1 / (36 / 10) by norm_num)
      rwa [← Real.rpow_mul hx, show (36 / 10 * (1 / (36 / 10)) : ℝ) = 1 by norm_num, Real.rpow_one] at this
    unfold compositeExc weibullExc
    rw [if_neg (not_lt.2 hge), mul_div_cancel_left₀ _ h2.ne', ← Real.rpow_mul hl, show (1 / (36 / 10) * (36 / 10) : ℝ) = 1 by norm_num,
      Real.rpow_one, fin]

/-- The Rayleigh quantile used as an upper bound. -/
theorem rayleigh_quantile {hm0 : ℝ} {n : ℕ} (h : hm0 ≠ 0) (hn : 1 ≤ n) :
    Real.exp (-2 * (exponweibPpf n (Real.sqrt 8) / 4 * hm0 / hm0) ^ 2) = 1 / n := by
  have hn0 : (0 : ℝ) < n := by exact_mod_cast hn
  have hl : 0 ≤ Real.log n := Real.log_natCast_nonneg n
  unfold exponweibPpf
  rw [mul_div_cancel_right₀ _ h, div_pow, mul_pow, Real.sq_sqrt (by norm_num), one_div, Real.log_inv, neg_neg, Real.sq_sqrt hl]
  rw [show -2 * (8 * Real.log n / 4 ^ 2) = -Real.log n by ring, Real.exp_neg, Real.exp_log hn0]

/-- The normalised transition height: `(0.35 + 5.8 tan α) d / H_rms` with `H_rms = √m0 (2.69 + 3.24 √m0 / d)`. -/
noncomputable def bgSpecHrms (hm0 depth : ℝ) : ℝ := |hm0| / 4 * (2.69 + 3.24 * (|hm0| / 4) / depth)

theorem bgHrms_eq (hm0 depth : ℝ) : bgHrms hm0 depth = bgSpecHrms hm0 depth := by
  unfold bgHrms bgSpecHrms
  dsimp only
  rw [Real.sqrt_sq_eq_abs, abs_div]
  norm_num

/-- The regular case: positive depth and slope, wave height not zero and at least one wave. -/
theorem bg_regular {hm0 depth cota : ℝ} (tol : ℝ) {nwave : ℕ} (fuel : ℕ) (hh : hm0 ≠ 0) (hn : nwave ≠ 0) (hd : 0 < depth) (hc : cota ≠ 0)
    (htr : 0 < bgTransition depth cota) : battjesGroenendijk hm0 nwave depth cota tol fuel =
      if 275 / 100 < bgTransition depth cota / bgHrms hm0 depth then some (.ok ⟨[], []⟩)
      else if tol < 9 then
        match bgLoop tol (bgTransition depth cota / bgHrms hm0 depth) fuel 100 with
        | none => none
        | some (.error e) => some (.error e)
        | some (.ok r) => some (.ok (bgFinish hm0 nwave (bgTransition depth cota) (bgHrms hm0 depth) (bgTransition depth cota / bgHrms hm0 depth) r))
      else some (.error (.unboundLocalError "H_2_norm")) := by
  have hrms : 0 < bgHrms hm0 depth := by
    rw [bgHrms_eq]
    unfold bgSpecHrms
    have : 0 < |hm0| := abs_pos.2 hh
    positivity
  have e9 : |(10 : ℝ) - 1| = 9 := by norm_num
  have er : bgRayleigh hm0 depth cota ↔ 275 / 100 < bgTransition depth cota / bgHrms hm0 depth := by
    unfold bgRayleigh
    constructor
    · rintro (⟨h, -⟩ | h)
      · exact absurd h hrms.ne'
      · exact h
    · exact Or.inr
  unfold battjesGroenendijk
  dsimp only
  rw [if_neg hc, e9]
  by_cases h : 275 / 100 < bgTransition depth cota / bgHrms hm0 depth
  · rw [if_pos h, if_pos (er.2 h)]
  · rw [if_neg h, if_neg (fun hx => h (er.1 hx))]
    by_cases h9 : tol < 9
    · rw [if_pos h9, if_pos h9, if_neg (not_le.2 (div_pos htr hrms))]
      rcases bgLoop tol (bgTransition depth cota / bgHrms hm0 depth) fuel 100 with _ | e | r
      · rfl
      · rfl
      · dsimp only
        rw [if_neg hn]
    · rw [if_neg h9, if_neg h9]

/-- With a positive depth the function returns a (non-empty) distribution only if the wave height is not zero, the transition height is positive
and there is a wave. -/
theorem bg_regular_of_result {hm0 depth cota tol : ℝ} {nwave fuel : ℕ} {R : BGResult} (hd : 0 < depth)
    (hR : battjesGroenendijk hm0 nwave depth cota tol fuel = some (.ok R)) (hne : R.heights ≠ []) :
    cota ≠ 0 ∧ hm0 ≠ 0 ∧ nwave ≠ 0 ∧ 0 < bgTransition depth cota := by
  unfold battjesGroenendijk at hR
  by_cases h0 : cota = 0
  · rw [if_pos h0] at hR; cases hR
  rw [if_neg h0] at hR
  by_cases h1 : bgRayleigh hm0 depth cota
  · rw [if_pos h1] at hR; cases hR; exact absurd rfl hne
  rw [if_neg h1] at hR
  dsimp only at hR
  by_cases h2 : tol < |(10 : ℝ) - 1|
  swap
  · rw [if_neg h2] at hR; cases hR
  rw [if_pos h2] at hR
  by_cases h3 : bgTransition depth cota / bgHrms hm0 depth ≤ 0
  · rw [if_pos h3] at hR; cases hR
  rw [if_neg h3] at hR
  push Not at h3
  have hrms : 0 ≤ bgHrms hm0 depth := by rw [bgHrms_eq]; unfold bgSpecHrms; positivity
  refine ⟨h0, ?_, ?_, ?_⟩
  · rintro rfl
    have : bgHrms 0 depth = 0 := by rw [bgHrms_eq]; unfold bgSpecHrms; simp
    rw [this, div_zero] at h3
    exact lt_irrefl _ h3
  · rintro rfl
    split at hR
    · cases hR
    · cases hR
    · rw [if_pos rfl] at hR; cases hR
  · by_contra hc
    exact absurd h3 (not_lt.2 (div_nonpos_of_nonpos_of_nonneg (not_lt.1 hc) hrms))

/-- **C48.**  When the function returns a distribution, there are scale parameters `H1`, `H2` (normalised by `H_rms`) such
that the second moment of the composite Weibull distribution is within the tolerance of 1, the two branches give the same
exceedance probability at the transition height, and the returned points are `(0, 1)`, the transition height with the
exceedance probability of the distribution, and a height with probability `1/nwave`.  That height is the one the
distribution exceeds with probability `1/nwave`, unless it is larger than the height the Rayleigh distribution exceeds with
probability `1/nwave`, which is then returned. -/
theorem bg_consistent {hm0 depth cota tol : ℝ} {nwave fuel : ℕ} {R : BGResult} (hd : 0 < depth)
    (hR : battjesGroenendijk hm0 nwave depth cota tol fuel = some (.ok R)) (hne : R.heights ≠ []) :
    ∃ H1 H2 Htr Hrms x xR : ℝ, 0 < H1 ∧ 0 < H2 ∧ 0 < Htr ∧ 0 < Hrms ∧
      Htr = (0.35 + 5.8 / cota) * depth ∧ Hrms = bgSpecHrms hm0 depth ∧
      |compositeSecondMoment H1 H2 (Htr / Hrms) - 1| ≤ tol ∧
      weibullExc H1 2 (Htr / Hrms) = weibullExc H2 (36 / 10) (Htr / Hrms) ∧
      0 ≤ x ∧ compositeExc H1 H2 (Htr / Hrms) (x / Hrms) = 1 / nwave ∧
      0 ≤ xR / hm0 ∧ Real.exp (-2 * (xR / hm0) ^ 2) = 1 / nwave ∧
      R.heights = [0, Htr, min x xR] ∧
      R.probs = [compositeExc H1 H2 (Htr / Hrms) 0, compositeExc H1 H2 (Htr / Hrms) (Htr / Hrms), 1 / nwave] ∧
      compositeExc H1 H2 (Htr / Hrms) 0 = 1 := by
  obtain ⟨h0, h2, hn, htr⟩ := bg_regular_of_result hd hR hne
  rw [bg_regular tol fuel h2 hn hd h0 htr] at hR
  have h1 : ¬ (depth ≤ 0 ∨ bgTransition depth cota ≤ 0 ∨ nwave = 0) := by
    push Not
    exact ⟨hd, htr, hn⟩
  · split_ifs at hR with h3 h4
    · cases hR; exact absurd rfl hne
    · cases hL : bgLoop tol (bgTransition depth cota / bgHrms hm0 depth) fuel 100 with
      | none => rw [hL] at hR; cases hR
      | some v =>
        rw [hL] at hR
        rcases v with e | r
        · cases hR
        · cases hR
          push Not at h1
          obtain ⟨hd, ht, hn⟩ := h1
          have hrms : 0 < bgHrms hm0 depth := by
            rw [bgHrms_eq]
            unfold bgSpecHrms
            have : 0 < |hm0| := abs_pos.2 h2
            positivity
          obtain ⟨Hf, hf, e1, e2, hE⟩ := bgLoop_spec hL
          have htr : 0 < bgTransition depth cota / bgHrms hm0 depth := div_pos ht hrms
          have hH2 := bgH2_pos htr hf
          have tr := bgH2_transition htr hf
          have same : weibullExc Hf 2 (bgTransition depth cota / bgHrms hm0 depth) =
              weibullExc (bgH2 (bgTransition depth cota / bgHrms hm0 depth) Hf) (36 / 10) (bgTransition depth cota / bgHrms hm0 depth) := by
            unfold weibullExc
            rw [tr]
            norm_num
          have zero : compositeExc Hf (bgH2 (bgTransition depth cota / bgHrms hm0 depth) Hf) (bgTransition depth cota / bgHrms hm0 depth) 0 = 1 := by
            unfold compositeExc weibullExc
            rw [if_pos htr]
            norm_num
          refine ⟨Hf, bgH2 (bgTransition depth cota / bgHrms hm0 depth) Hf, bgTransition depth cota, bgHrms hm0 depth,
            (if Hf * (Real.log nwave) ^ (1 / bgK1) < bgTransition depth cota / bgHrms hm0 depth then Hf * (Real.log nwave) ^ (1 / bgK1)
              else bgH2 (bgTransition depth cota / bgHrms hm0 depth) Hf * (Real.log nwave) ^ (1 / bgK2)) * bgHrms hm0 depth,
            exponweibPpf nwave (Real.sqrt 8) / 4 * hm0, hf, hH2, ht, hrms, ?_, bgHrms_eq _ _, ?_, same, ?_, ?_, ?_, ?_, ?_, ?_, zero⟩
          · unfold bgTransition; norm_num; left; ring
          · rw [← bgE_eq_second_moment htr hf]; exact hE
          · have hl : 0 ≤ Real.log nwave := Real.log_natCast_nonneg nwave
            refine mul_nonneg ?_ hrms.le
            split_ifs
            · exact mul_nonneg hf.le (Real.rpow_nonneg hl _)
            · exact mul_nonneg hH2.le (Real.rpow_nonneg hl _)
          · rw [mul_div_cancel_right₀ _ hrms.ne']
            exact composite_quantile htr hf (by omega)
          · rw [mul_div_cancel_right₀ _ h2]
            unfold exponweibPpf
            positivity
          · exact rayleigh_quantile h2 (by omega)
          · obtain ⟨r1, r2, r3⟩ := r
            dsimp only at e1 e2
            unfold bgFinish
            dsimp only
            rw [e1, e2]
          · rw [zero]
            obtain ⟨r1, r2, r3⟩ := r
            dsimp only at e1 e2
            unfold bgFinish
            dsimp only
            rw [e1, e2]
            have c : compositeExc Hf (bgH2 (bgTransition depth cota / bgHrms hm0 depth) Hf) (bgTransition depth cota / bgHrms hm0 depth)
                (bgTransition depth cota / bgHrms hm0 depth) =
                weibullExc (bgH2 (bgTransition depth cota / bgHrms hm0 depth) Hf) (36 / 10) (bgTransition depth cota / bgHrms hm0 depth) := by
              unfold compositeExc; rw [if_neg (lt_irrefl _)]
            rw [c]
            congr 1
            congr 1
            split_ifs with hc
            · rw [← same]
              unfold weibullExc bgK1
              congr 3
              field_simp
            · unfold weibullExc bgK2
              congr 3
              field_simp
    · cases hR

/-- **C48 (termination).**  For positive depth, slope, wave height and wave count and any tolerance between 0 and 9 the function
returns: the empty arrays if the normalised transition height exceeds 2.75, else a distribution. -/
theorem bg_returns {hm0 depth cota tol : ℝ} {nwave : ℕ} (hh : hm0 ≠ 0) (hn : 1 ≤ nwave) (hd : 0 < depth) (hc : 0 < cota)
    (ht : 0 < tol) (ht9 : tol < 9) : ∃ fuel R, battjesGroenendijk hm0 nwave depth cota tol fuel = some (.ok R) ∧
      (R.heights = [] ↔ 2.75 < (0.35 + 5.8 / cota) * depth / bgSpecHrms hm0 depth) := by
  have htr : 0 < bgTransition depth cota := by unfold bgTransition; positivity
  have hrms : 0 < bgHrms hm0 depth := by
    rw [bgHrms_eq]
    unfold bgSpecHrms
    have : 0 < |hm0| := abs_pos.2 hh
    positivity
  have e : (0.35 + 5.8 / cota) * depth / bgSpecHrms hm0 depth = bgTransition depth cota / bgHrms hm0 depth := by
    rw [bgHrms_eq]; unfold bgTransition; norm_num; ring
  have e275 : (2.75 : ℝ) = 275 / 100 := by norm_num
  rw [e, e275]
  have pre : ∀ fuel, battjesGroenendijk hm0 nwave depth cota tol fuel =
      if 275 / 100 < bgTransition depth cota / bgHrms hm0 depth then some (.ok ⟨[], []⟩) else
        match bgLoop tol (bgTransition depth cota / bgHrms hm0 depth) fuel 100 with
        | none => none
        | some (.error e) => some (.error e)
        | some (.ok r) => some (.ok (bgFinish hm0 nwave (bgTransition depth cota) (bgHrms hm0 depth) (bgTransition depth cota / bgHrms hm0 depth) r)) := by
    intro fuel
    rw [bg_regular tol fuel hh (by omega) hd hc.ne' htr, if_pos ht9]
  by_cases h : 275 / 100 < bgTransition depth cota / bgHrms hm0 depth
  · exact ⟨0, ⟨[], []⟩, by rw [pre, if_pos h], by simp [h]⟩
  · obtain ⟨fuel, r, hr⟩ := bgLoop_terminates ht (div_pos htr hrms) (not_lt.1 h)
    refine ⟨fuel, bgFinish hm0 nwave (bgTransition depth cota) (bgHrms hm0 depth) (bgTransition depth cota / bgHrms hm0 depth) r,
      by rw [pre, if_neg h, hr], ?_⟩
    obtain ⟨r1, r2, r3⟩ := r
    simp only [bgFinish]
    constructor
    · intro h; cases h
    · intro h'; exact absurd h' h

/-- If the heights are empty, so are the probabilities. -/
theorem bg_empty {hm0 depth cota tol : ℝ} {nwave fuel : ℕ} {R : BGResult}
    (hR : battjesGroenendijk hm0 nwave depth cota tol fuel = some (.ok R)) (hne : R.heights = []) : R = ⟨[], []⟩ := by
  unfold battjesGroenendijk at hR
  dsimp only at hR
  split_ifs at hR
  all_goals try (cases hR; done)
  · cases hR; rfl
  · split at hR <;> cases hR
  · split at hR
    · cases hR
    · cases hR
    · cases hR; cases hne

/-- **C48 (defaults).**  Called without slope and tolerance, the function uses a slope of 1:250 and a tolerance of `1e-5`. -/
theorem bg_defaults {hm0 depth : ℝ} {nwave fuel : ℕ} {R : BGResult} (hd : 0 < depth)
    (hR : battjesGroenendijk hm0 nwave depth (fuel := fuel) = some (.ok R)) (hne : R.heights ≠ []) :
    ∃ H1 H2 Htr Hrms x : ℝ, 0 < H1 ∧ 0 < H2 ∧ Htr = (0.35 + 5.8 / 250) * depth ∧ Hrms = bgSpecHrms hm0 depth ∧
      |compositeSecondMoment H1 H2 (Htr / Hrms) - 1| ≤ 1e-5 ∧ R.heights = [0, Htr, x] := by
  obtain ⟨H1, H2, Htr, Hrms, x, xR, a1, a2, -, -, a5, a6, a7, -, -, -, -, -, b1, -, -⟩ := bg_consistent hd hR hne
  exact ⟨H1, H2, Htr, Hrms, min x xR, a1, a2, a5, a6, by convert a7 using 1; norm_num, b1⟩

/-- **C48 (the answer is unique).**  The result does not depend on the number of rounds allowed. -/
theorem bg_fuel_independent {hm0 depth cota tol : ℝ} {nwave fuel n : ℕ} {v : Except PyErr BGResult}
    (h : battjesGroenendijk hm0 nwave depth cota tol fuel = some v) (hn : fuel ≤ n) : battjesGroenendijk hm0 nwave depth cota tol n = some v := by
  unfold battjesGroenendijk at h ⊢
  by_cases h0 : cota = 0
  · rw [if_pos h0] at h ⊢; exact h
  rw [if_neg h0] at h ⊢
  by_cases h1 : bgRayleigh hm0 depth cota
  · rw [if_pos h1] at h ⊢; exact h
  rw [if_neg h1] at h ⊢
  dsimp only at h ⊢
  by_cases h2 : tol < |(10 : ℝ) - 1|
  swap
  · rw [if_neg h2] at h ⊢; exact h
  rw [if_pos h2] at h ⊢
  by_cases h3 : bgTransition depth cota / bgHrms hm0 depth ≤ 0
  · rw [if_pos h3] at h ⊢; exact h
  rw [if_neg h3] at h ⊢
  cases hL : bgLoop tol (bgTransition depth cota / bgHrms hm0 depth) fuel 100 with
  | none => rw [hL] at h; cases h
  | some w => rw [bgLoop_mono hL hn]; rw [hL] at h; exact h

/-- **C48 (finding).**  A tolerance of 9 or more makes the function fail with an unbound local variable. -/
theorem bg_large_tolerance {hm0 depth cota tol : ℝ} {nwave fuel : ℕ} (hh : hm0 ≠ 0) (hn : 1 ≤ nwave) (hd : 0 < depth) (hc : 0 < cota)
    (ht9 : 9 ≤ tol) (hs : bgTransition depth cota / bgHrms hm0 depth ≤ 275 / 100) :
    battjesGroenendijk hm0 nwave depth cota tol fuel = some (.error (.unboundLocalError "H_2_norm")) := by
  have htr : 0 < bgTransition depth cota := by unfold bgTransition; positivity
  rw [bg_regular tol fuel hh (by omega) hd hc.ne' htr, if_neg (not_lt.2 hs), if_neg (not_lt.2 ht9)]

/-- The documented example (Hm0 = 2 m, 700 waves, depth 4.5 m, slope 1:50) returns a distribution. -/
example : ∃ fuel R, battjesGroenendijk 2 700 4.5 50 (1 / 10 ^ 5) fuel = some (.ok R) ∧ R.heights ≠ [] := by
  obtain ⟨fuel, R, h, hiff⟩ := bg_returns (hm0 := 2) (depth := 4.5) (cota := 50) (tol := 1 / 10 ^ 5) (nwave := 700) (by norm_num) (by norm_num)
    (by norm_num) (by norm_num) (by norm_num) (by norm_num)
  refine ⟨fuel, R, h, fun hc => ?_⟩
  have := hiff.1 hc
  unfold bgSpecHrms at this
  norm_num at this

/-! ## Concrete cases: the hypotheses of the theorems above are met -/

/-- The case of the example above, with the facts `bg_consistent` gives about its result; `bg_fuel_independent` for a longer search. -/
example : ∃ fuel R H1 H2, battjesGroenendijk 2 700 4.5 50 (1 / 10 ^ 5) (fuel + 5) = some (.ok R) ∧ 0 < H1 ∧ 0 < H2 ∧
    |compositeSecondMoment H1 H2 ((0.35 + 5.8 / 50) * 4.5 / bgSpecHrms 2 4.5) - 1| ≤ 1 / 10 ^ 5 := by
  obtain ⟨fuel, R, h, hiff⟩ := bg_returns (hm0 := 2) (depth := 4.5) (cota := 50) (tol := 1 / 10 ^ 5) (nwave := 700) (by norm_num) (by norm_num)
    (by norm_num) (by norm_num) (by norm_num) (by norm_num)
  have hne : R.heights ≠ [] := by
    intro hc
    have := hiff.1 hc
    unfold bgSpecHrms at this
    norm_num at this
  obtain ⟨H1, H2, Htr, Hrms, x, xR, p1, p2, -, -, e1, e2, e3, -⟩ := bg_consistent (by norm_num) h hne
  exact ⟨fuel, R, H1, H2, bg_fuel_independent h (Nat.le_add_right _ _), p1, p2, by rw [← e1, ← e2]; exact e3⟩

/-- The default slope and tolerance. -/
example : ∃ fuel R H1 H2 Htr Hrms x : _, battjesGroenendijk 2 700 4.5 (fuel := fuel) = some (.ok R) ∧ 0 < H1 ∧ 0 < H2 ∧
    |compositeSecondMoment H1 H2 (Htr / Hrms) - 1| ≤ 1e-5 ∧ R.heights = [0, Htr, x] := by
  obtain ⟨fuel, R, h, hiff⟩ := bg_returns (hm0 := 2) (depth := 4.5) (cota := 250) (tol := 1e-5) (nwave := 700) (by norm_num) (by norm_num)
    (by norm_num) (by norm_num) (by norm_num) (by norm_num)
  have hne : R.heights ≠ [] := by
    intro hc
    have := hiff.1 hc
    unfold bgSpecHrms at this
    norm_num at this
  have h' : battjesGroenendijk 2 700 4.5 (fuel := fuel) = some (.ok R) := by
    rw [← h]; norm_num
  obtain ⟨H1, H2, Htr, Hrms, x, p1, p2, -, -, e3, e4⟩ := bg_defaults (by norm_num) h' hne
  exact ⟨fuel, R, H1, H2, Htr, Hrms, x, h', p1, p2, e3, e4⟩

/-- Deep water: no composite distribution. -/
example : ∃ fuel, battjesGroenendijk 1 700 100 50 (1 / 10 ^ 5) fuel = some (.ok ⟨[], []⟩) := by
  obtain ⟨fuel, R, h, hiff⟩ := bg_returns (hm0 := 1) (depth := 100) (cota := 50) (tol := 1 / 10 ^ 5) (nwave := 700) (by norm_num) (by norm_num)
    (by norm_num) (by norm_num) (by norm_num) (by norm_num)
  have he : R.heights = [] := by
    rw [hiff]
    unfold bgSpecHrms
    norm_num
  exact ⟨fuel, by rw [h, bg_empty h he]⟩

example := bgE_eq_second_moment (Htr := 3 / 2) (H := 2) (by norm_num) (by norm_num)
example := weibull_deriv (H := 2) (k := 36 / 10) (h := 1) (by norm_num) (by norm_num)

/-- A tolerance of ten. -/
example : battjesGroenendijk 2 700 4.5 50 10 0 = some (.error (.unboundLocalError "H_2_norm")) :=
  bg_large_tolerance (by norm_num) (by norm_num) (by norm_num) (by norm_num) (by norm_num) (by
    have h2 : √(4 : ℝ) = 2 := by rw [show (4 : ℝ) = 2 ^ 2 by norm_num]; exact Real.sqrt_sq (by norm_num)
    unfold bgTransition bgHrms; norm_num [h2])

end Verif
