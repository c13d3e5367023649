import Verif.Props.SpectrumValues

/-! # C42, C43: JONSWAP and Pierson-Moskowitz spectra -/

set_option linter.unusedSectionVars false

namespace Verif

/-! ## Specification: the JONSWAP formula (Hasselmann 1973) without its scale factor -/

/-- Peak width. -/
noncomputable def specSigma (fp x : ℝ) : ℝ := if x < fp then 0.07 else 0.09

/-- `g² (2π)⁻⁴ f⁻⁵ exp(-5/4 (fp/f)⁴) γ^exp(-(f - fp)²/(2 σ² fp²))`. -/
noncomputable def specJonswap (fp γ x : ℝ) : ℝ :=
  9.81 ^ 2 / (2 * Real.pi) ^ 4 / x ^ 5 * Real.exp (-(5 / 4) * (fp / x) ^ 4) *
    γ ^ Real.exp (-(x - fp) ^ 2 / (2 * specSigma fp x ^ 2 * fp ^ 2))

/-! ## The shape -/

theorem jonswapShape_eq_spec {fp γ x : ℝ} (hfp : fp ≠ 0) (hx : 1 / 2 ^ 52 < x) : jonswapShape fp γ x = specJonswap fp γ x := by
  have hx0 : 0 < x := lt_trans (by positivity) hx
  unfold jonswapShape specJonswap
  rw [if_pos hx]
  dsimp only
  have e1 : -((x / fp - 1) ^ 2) / (2 * (if x < fp then (7 / 100 : ℝ) else 9 / 100) ^ 2) =
      -(x - fp) ^ 2 / (2 * specSigma fp x ^ 2 * fp ^ 2) := by
    unfold specSigma
    split_ifs <;> (norm_num; field_simp)
  have e2 : (x / fp) ^ (-4 : ℤ) = (fp / x) ^ 4 := by
    rw [zpow_neg, ← inv_zpow, inv_div]; rfl
  rw [e1, e2, zpow_neg, zpow_neg]
  have e3 : (2 * Real.pi) ^ (4 : ℤ) = (2 * Real.pi) ^ 4 := by norm_cast
  have e4 : x ^ (5 : ℤ) = x ^ 5 := by norm_cast
  rw [e3, e4]
  norm_num [div_eq_mul_inv]

theorem jonswapShape_nonneg {fp γ : ℝ} (hγ : 0 < γ) (x : ℝ) : 0 ≤ jonswapShape fp γ x := by
  unfold jonswapShape
  by_cases h : x > 1 / 2 ^ 52
  · rw [if_pos h]
    have hx : 0 < x := lt_trans (show (0 : ℝ) < 1 / 2 ^ 52 by positivity) (gt_iff_lt.1 h)
    dsimp only
    positivity
  · rw [if_neg h]

theorem jonswapShape_pos {fp γ x : ℝ} (hγ : 0 < γ) (h : 1 / 2 ^ 52 < x) : 0 < jonswapShape fp γ x := by
  unfold jonswapShape
  rw [if_pos h]
  have hx : 0 < x := lt_trans (by positivity) h
  dsimp only
  positivity

theorem jonswapShape_zero {fp γ x : ℝ} (h : x ≤ 1 / 2 ^ 52) : jonswapShape fp γ x = 0 := by
  unfold jonswapShape
  rw [if_neg (not_lt.2 h)]

/-- `ν^-5 exp(-1.25 ν^-4)` is largest at `ν = 1`, and only there. -/
theorem pm_max {ν : ℝ} (hν : 0 < ν) (h1' : ν ≠ 1) : ν ^ (-5 : ℤ) * Real.exp (-(125 / 100) * ν ^ (-4 : ℤ)) < Real.exp (-(125 / 100)) := by
  have h1 : ν ^ (-5 : ℤ) = Real.exp (-5 * Real.log ν) := by
    rw [← Real.rpow_intCast, Real.rpow_def_of_pos hν]
    congr 1
    push_cast; ring
  have h2 : ν ^ (-4 : ℤ) = Real.exp (-4 * Real.log ν) := by
    rw [← Real.rpow_intCast, Real.rpow_def_of_pos hν]
    congr 1
    push_cast; ring
  rw [h1, h2, ← Real.exp_add]
  apply Real.exp_lt_exp.2
  have hlog : Real.log ν ≠ 0 := Real.log_ne_zero_of_pos_of_ne_one hν h1'
  have := Real.add_one_lt_exp (x := -4 * Real.log ν) (by simpa using hlog)
  nlinarith

/-- **C43 (shape).**  For `γ ≥ 1` the density is largest at the peak frequency, and only there. -/
theorem jonswapShape_max {fp γ x : ℝ} (hfp : 1 / 2 ^ 52 < fp) (hγ : 1 ≤ γ) (hne : x ≠ fp) :
    jonswapShape fp γ x < jonswapShape fp γ fp := by
  have hfp0 : 0 < fp := lt_trans (by positivity) hfp
  by_cases hx : 1 / 2 ^ 52 < x
  · have hx0 : 0 < x := lt_trans (by positivity) hx
    unfold jonswapShape
    rw [if_pos hx, if_pos hfp]
    dsimp only
    rw [div_self hfp0.ne', one_zpow, mul_one, sub_self]
    set A := Real.exp (-((x / fp - 1) ^ 2) / (2 * (if x < fp then (7 / 100 : ℝ) else 9 / 100) ^ 2)) with hA
    have hA1 : A ≤ 1 := by
      rw [hA, Real.exp_le_one_iff]
      apply div_nonpos_of_nonpos_of_nonneg
      · nlinarith [sq_nonneg (x / fp - 1)]
      · positivity
    have hγA : γ ^ A ≤ γ := by
      calc γ ^ A ≤ γ ^ (1 : ℝ) := Real.rpow_le_rpow_of_exponent_le hγ hA1
        _ = γ := Real.rpow_one γ
    have hpm := pm_max (ν := x / fp) (by positivity) (by
      intro h; rw [div_eq_one_iff_eq hfp0.ne'] at h; exact hne h)
    have e : γ ^ Real.exp (-(0 ^ 2) / (2 * (if fp < fp then (7 / 100 : ℝ) else 9 / 100) ^ 2)) = γ := by
      rw [show (-(0 : ℝ) ^ 2) / (2 * (if fp < fp then (7 / 100 : ℝ) else 9 / 100) ^ 2) = 0 by simp, Real.exp_zero, Real.rpow_one]
    rw [e]
    have hxe : x ^ (-5 : ℤ) = fp ^ (-5 : ℤ) * (x / fp) ^ (-5 : ℤ) := by
      rw [← mul_zpow]; congr 1; field_simp
    rw [hxe]
    have hγp : 0 < γ ^ A := by positivity
    calc 1 * (981 / 100) ^ 2 * (2 * Real.pi) ^ (-4 : ℤ) * (fp ^ (-5 : ℤ) * (x / fp) ^ (-5 : ℤ)) * Real.exp (-(125 / 100) * (x / fp) ^ (-4 : ℤ)) * γ ^ A
        = 1 * (981 / 100) ^ 2 * (2 * Real.pi) ^ (-4 : ℤ) * fp ^ (-5 : ℤ) * ((x / fp) ^ (-5 : ℤ) * Real.exp (-(125 / 100) * (x / fp) ^ (-4 : ℤ))) * γ ^ A := by ring
      _ < 1 * (981 / 100) ^ 2 * (2 * Real.pi) ^ (-4 : ℤ) * fp ^ (-5 : ℤ) * Real.exp (-(125 / 100)) * γ := by
        apply mul_lt_mul _ hγA hγp (by positivity)
        exact mul_lt_mul_of_pos_left hpm (by positivity)
  · rw [jonswapShape_zero (not_lt.1 hx)]
    exact jonswapShape_pos (by linarith) hfp

/-! ## The created spectrum -/

theorem specComb_scale (q : ℝ) (S : List ℝ) : specComb q 0 S S = S.map fun v => v * q := by
  unfold specComb
  induction S with
  | nil => rfl
  | cons a l ih => rw [List.zipWith_cons_cons, List.map_cons, ih, zero_mul, add_zero, mul_comm]

/-- What a created spectrum should look like: the JONSWAP formula times one factor, zero at non-positive frequencies (below
the spacing of floats at 1). -/
def IsScaledJonswap (f S : List ℝ) (fp γ c : ℝ) : Prop :=
  S.length = f.length ∧ ∀ k < f.length,
    (1 / 2 ^ 52 < f.getD k 0 → S.getD k 0 = c * specJonswap fp γ (f.getD k 0)) ∧ (f.getD k 0 ≤ 1 / 2 ^ 52 → S.getD k 0 = 0)

/-- **C42.**  On a uniform axis of non-negative frequencies with a positive frequency, `create_spectrum_jonswap` returns a
multiple of the JONSWAP formula, and the `Spectrum` of the result has exactly the prescribed wave height: over the axis
for `l_fmax = 0`, up to infinity for `l_fmax = 1`. -/
theorem jonswap_height {pf : PyIn ℝ} {f : List ℝ} {h fp hm0 γ lF : ℝ} (hf : pf.IsArr f) (hu : UniformAxis f h) (h2 : 2 ≤ f.length)
    (h0 : 0 ≤ f.getD 0 0) (hlast : 1 / 2 ^ 52 < f.getD (f.length - 1) 0) (hfp : 0 < fp) (hγ : 0 < γ) (hH : 0 ≤ hm0)
    (hlF : lF = 0 ∨ lF = 1) : ∃ S c s, createSpectrumJonswap pf fp hm0 γ lF = .ok S ∧
      createSpectrumObjectJonswap pf fp hm0 γ lF = .ok s ∧ s.f = f ∧ s.sVarDens = ⟨[S.length], S⟩ ∧
      IsScaledJonswap f S fp γ c ∧ 0 ≤ c ∧ (0 < hm0 → 0 < c) ∧
      (lF = 0 → (s.getHm0 (-1) (.fin (-1))).1 = .ok hm0) ∧ (lF = 1 → (s.getHm0 (-1) .inf).1 = .ok hm0) := by
  have hm : monotonicIncreasingConstantStep f = .ok true := uniform_check_accepts_uniform h2 hu
  have hp := uniform_check_increasing hm
  have hne : f ≠ [] := by intro e; rw [e] at h2; simp at h2
  set shape := f.map (jonswapShape fp γ) with hshape
  have hlen : shape.length = f.length := by simp [hshape]
  have hget : ∀ k < f.length, shape.getD k 0 = jonswapShape fp γ (f.getD k 0) := by
    intro k hk
    rw [List.getD_eq_getElem _ _ (by omega), List.getD_eq_getElem _ _ hk]
    simp [hshape]
  set fmax : FMax ℝ := if lF = 0 then .fin (f.getD (f.length - 1) 0) else .inf with hfmax
  have hnn : ∀ v ∈ shape, 0 ≤ v := by
    intro v hv
    rw [hshape, List.mem_map] at hv
    obtain ⟨x, -, rfl⟩ := hv
    exact jonswapShape_nonneg hγ x
  have hl01 := inc_lt hp (show 0 < f.length - 1 by omega) (by omega)
  have hab : fmax.above (f.getD 0 0) := by
    rw [hfmax]; split_ifs
    · exact hl01.le
    · trivial
  obtain ⟨m0, em0, hm00⟩ := moment_defined (m := 0) (fmin := f.getD 0 0) (fmax := fmax) (isArr_vec f) (isArr_vec shape) hu h2 hlen.symm h0
    hnn (Or.inl hab) (Or.inl (by norm_num))
  have fu : firstUsable f 0 = 0 := by simp [firstUsable]
  have hsel : SelectedRange f 0 (f.getD 0 0) fmax 0 (f.length - 1) := by
    refine ⟨by rw [fu]; exact isNearest_self hp (le_refl _) (by omega), ?_⟩
    rw [hfmax]
    by_cases hl : lF = 0
    · rw [if_pos hl, fu]; exact isNearest_self hp (Nat.zero_le _) (by omega)
    · rw [if_neg hl]
  have hmaxne : fmax ≠ .fin (-1) := by
    rw [hfmax]
    split_ifs
    · intro e
      have e := FMax.fin.inj e
      linarith
    · intro e; cases e
  obtain ⟨t, hr⟩ := momentRange_of_selected hm (by linarith) hmaxne hsel
  have hm0pos : 0 < m0 := by
    refine moment_pos (isArr_vec f) (isArr_vec shape) hu h0 hnn hr (by omega) (Nat.zero_le _) (le_refl _) (Or.inr rfl) ?_ em0
    rw [hget _ (by omega)]
    exact jonswapShape_pos hγ hlast
  set c := (hm0 / (4 * Real.sqrt m0)) ^ 2 with hc
  set S := shape.map fun v => v * c with hSdef
  have hSl : S.length = f.length := by simp [hSdef, hlen]
  have hcr : createSpectrumJonswap pf fp hm0 γ lF = .ok S := by
    unfold createSpectrumJonswap
    rw [vecIn_of_isArr hf]
    dsimp only
    rw [if_neg hne, if_neg (by tauto), if_neg (show ¬ fp = 0 by intro e; linarith), if_neg (by intro e; linarith), ← hshape, ← hfmax]
    unfold jonswapScaled
    rw [em0]
    dsimp only
    rw [if_neg (not_le.2 hm0pos)]
  obtain ⟨s, hs⟩ : ∃ s : SpecObj, s = { f := f, sVarDens := ⟨[S.length], S⟩, nf := f.length } := ⟨_, rfl⟩
  have hinit : SpecObj.init pf (vec S) = .ok s := (spectrum_init_iff_partial hf (isArr_vec S)).2 ⟨hm, hSl.symm, hs⟩
  have hnew : computeMoment (vec f) (vec S) 0 (f.getD 0 0) fmax = .ok (hm0 ^ 2 / 16) := by
    have := moment_linear (p := vec S) c 0 (isArr_vec f) (isArr_vec shape) (isArr_vec shape)
      (by rw [specComb_scale]; exact isArr_vec S) em0 em0
    rw [this]
    congr 1
    rw [hc, div_pow, mul_pow, Real.sq_sqrt hm00]
    field_simp
    ring
  have hheight : heightOf (hm0 ^ 2 / 16) = .ok hm0 := by
    unfold heightOf
    rw [if_neg (not_lt.2 (by positivity)), show hm0 ^ 2 / 16 = (hm0 / 4) ^ 2 by ring, Real.sqrt_sq (by positivity)]
    congr 1; ring
  refine ⟨S, c, s, hcr, ?_, by rw [hs], by rw [hs], ⟨hSl, fun k hk => ?_⟩, by positivity, fun hpos => ?_, fun e => ?_, fun e => ?_⟩
  · unfold createSpectrumObjectJonswap
    rw [hcr]; exact hinit
  · have e : S.getD k 0 = jonswapShape fp γ (f.getD k 0) * c := by
      rw [← hget k hk, hSdef, List.getD_eq_getElem _ _ (by simp [hlen, hk]), List.getD_eq_getElem _ _ (by omega), List.getElem_map]
    exact ⟨fun hx => by rw [e, jonswapShape_eq_spec hfp.ne' hx, mul_comm], fun hx => by rw [e, jonswapShape_zero hx, zero_mul]⟩
  · rw [hc]
    have := Real.sqrt_pos.2 hm0pos
    positivity
  · rw [hfmax, if_pos e] at hnew
    rw [hs]
    simp only [SpecObj.getHm0, calcHm0, setFlim, if_true]
    rw [show (PyIn.nd (⟨[S.length], S⟩ : Arr ℝ)) = vec S from rfl, hnew]
    exact hheight
  · rw [hfmax, if_neg (by rw [e]; norm_num)] at hnew
    rw [hs]
    simp only [SpecObj.getHm0, calcHm0, setFlim, if_true]
    rw [if_neg (by simp), show (PyIn.nd (⟨[S.length], S⟩ : Arr ℝ)) = vec S from rfl, hnew]
    exact hheight

/-- **C42 (documented remark).**  With `l_fmax = 1` the wave height over the axis alone is smaller than the prescribed one. -/
theorem jonswap_height_axis_smaller {pf : PyIn ℝ} {f : List ℝ} {h fp hm0 γ : ℝ} (hf : pf.IsArr f) (hu : UniformAxis f h)
    (h2 : 2 ≤ f.length) (h0 : 0 ≤ f.getD 0 0) (hlast : 1 / 2 ^ 52 < f.getD (f.length - 1) 0) (hfp : 0 < fp) (hγ : 0 < γ) (hH : 0 < hm0) :
    ∃ s H, createSpectrumObjectJonswap pf fp hm0 γ 1 = .ok s ∧ (s.getHm0 (-1) (.fin (-1))).1 = .ok H ∧ H < hm0 := by
  obtain ⟨S, c, s, hcr, hob, hsf, hsS, ⟨hl, hS⟩, hc0, hcp, -, h1⟩ := jonswap_height hf hu h2 h0 hlast hfp hγ hH.le (Or.inr rfl)
  have hm : monotonicIncreasingConstantStep f = .ok true := uniform_check_accepts_uniform h2 hu
  have hp := uniform_check_increasing hm
  have hl01 := inc_lt hp (show 0 < f.length - 1 by omega) (by omega)
  have hcpos := hcp hH
  have hval : ∀ k < f.length, S.getD k 0 = c * jonswapShape fp γ (f.getD k 0) := by
    intro k hk
    by_cases hx : 1 / 2 ^ 52 < f.getD k 0
    · rw [(hS k hk).1 hx, jonswapShape_eq_spec hfp.ne' hx]
    · rw [(hS k hk).2 (not_lt.1 hx), jonswapShape_zero (not_lt.1 hx), mul_zero]
  have hnn : ∀ v ∈ S, 0 ≤ v := by
    intro v hv
    obtain ⟨k, hk, rfl⟩ := List.getElem_of_mem hv
    rw [← List.getD_eq_getElem _ 0 hk, hval k (by omega)]
    exact mul_nonneg hc0 (jonswapShape_nonneg hγ _)
  obtain ⟨v, ev, hv0⟩ := moment_defined (m := 0) (fmin := f.getD 0 0) (fmax := .fin (f.getD (f.length - 1) 0)) (isArr_vec f)
    (isArr_vec S) hu h2 hl.symm h0 hnn (Or.inl hl01.le) (Or.inl (by norm_num))
  set fe := f.getD (f.length - 1) 0 with hfe
  set se := S.getD (f.length - 1) 0 with hse
  have hfe0 : 0 < fe := lt_of_le_of_lt h0 hl01
  have hse0 : 0 < se := by
    rw [hse, hval _ (by omega)]
    exact mul_pos hcpos (jonswapShape_pos hγ hlast)
  have lastD : ∀ l : List ℝ, l ≠ [] → l.getLast? = some (l.getD (l.length - 1) 0) := by
    intro l hne
    rw [List.getLast?_eq_getElem?]
    have : l.length - 1 < l.length := by have := List.length_pos_iff.2 hne; omega
    rw [List.getD_eq_getElem _ _ this, List.getElem?_eq_getElem this]
  have ht := (moment_tail (m := 0) (F := fe + 1) (fe := fe) (se := se) (isArr_vec f) (isArr_vec S) (by norm_num)
    (show f.getD 0 0 ≠ -1 by linarith) (lastD f (by intro e; rw [e] at h2; simp at h2))
    (by rw [lastD S (by intro e; rw [e] at hl; simp at hl; omega), hl]) hfe0 (by linarith) ev).2
  have htail : 0 < ∫ x in Set.Ioi fe, se * (x / fe) ^ (-5 : ℤ) * x ^ (0 : ℤ) := by
    have a := tail_integral_inf (m := 0) (fe := fe) (se := se) (by norm_num) hfe0
    have b : tailMoment 0 fe se .inf = .ok (se / fe ^ (-5 : ℤ) / ((0 + -5 + 1 : ℤ) : ℝ) * (0 - fe ^ (0 + -5 + 1 : ℤ))) := by
      unfold tailMoment
      dsimp only
      rw [if_neg (by rintro (h | h); · norm_num at h
                     · exact hfe0.ne' h), if_pos (by norm_num)]
    rw [b] at a
    rw [← Except.ok.inj a]
    have : (0 : ℝ) < se / fe ^ (-5 : ℤ) * fe ^ (-4 : ℤ) := by positivity
    norm_num at this ⊢
    nlinarith
  have h1 := h1 rfl
  simp only [SpecObj.getHm0, calcHm0, setFlim, if_true, hsf, hsS] at h1
  rw [if_neg (by simp), show (PyIn.nd (⟨[S.length], S⟩ : Arr ℝ)) = vec S from rfl, ht] at h1
  have h1 : heightOf (v + ∫ x in Set.Ioi fe, se * (x / fe) ^ (-5 : ℤ) * x ^ (0 : ℤ)) = .ok hm0 := h1
  unfold heightOf at h1
  rw [if_neg (not_lt.2 (by linarith))] at h1
  refine ⟨s, 4 * Real.sqrt v, hob, ?_, ?_⟩
  · simp only [SpecObj.getHm0, calcHm0, setFlim, if_true, hsf, hsS]
    rw [show (PyIn.nd (⟨[S.length], S⟩ : Arr ℝ)) = vec S from rfl, ev]
    show heightOf v = _
    unfold heightOf
    rw [if_neg (not_lt.2 hv0)]
  · rw [← Except.ok.inj h1]
    have := Real.sqrt_lt_sqrt hv0 (lt_add_of_pos_right v htail)
    linarith

/-- **C43.**  The created densities are non-negative and zero at non-positive frequencies; for `γ ≥ 1` none exceeds the value
at the peak frequency, so that, if `fp` is on the grid and `hm0 > 0`, `get_Tp` returns `1/fp`. -/
theorem jonswap_peak {pf : PyIn ℝ} {f : List ℝ} {h fp hm0 γ lF : ℝ} (hf : pf.IsArr f) (hu : UniformAxis f h) (h2 : 2 ≤ f.length)
    (h0 : 0 ≤ f.getD 0 0) (hlast : 1 / 2 ^ 52 < f.getD (f.length - 1) 0) (hfp : 1 / 2 ^ 52 < fp) (hγ : 1 ≤ γ) (hH : 0 < hm0)
    (hlF : lF = 0 ∨ lF = 1) : ∃ S c s, createSpectrumJonswap pf fp hm0 γ lF = .ok S ∧
      createSpectrumObjectJonswap pf fp hm0 γ lF = .ok s ∧ (∀ v ∈ S, 0 ≤ v) ∧
      (∀ k < f.length, f.getD k 0 ≤ 0 → S.getD k 0 = 0) ∧ 0 < c ∧ (∀ v ∈ S, v ≤ c * specJonswap fp γ fp) ∧
      ∀ k < f.length, f.getD k 0 = fp →
        (∀ l < f.length, l ≠ k → S.getD l 0 < S.getD k 0) ∧ (s.getTp (-1) (.fin (-1))).1 = .ok (1 / fp) := by
  have hfp0 : 0 < fp := lt_trans (by positivity) hfp
  have hγ0 : 0 < γ := by linarith
  obtain ⟨S, c, s, hcr, hob, hsf, hsS, ⟨hl, hS⟩, hc0, hcp, -, -⟩ := jonswap_height hf hu h2 h0 hlast hfp0 hγ0 hH.le hlF
  have hval : ∀ k < f.length, S.getD k 0 = c * jonswapShape fp γ (f.getD k 0) := by
    intro k hk
    by_cases hx : 1 / 2 ^ 52 < f.getD k 0
    · rw [(hS k hk).1 hx, jonswapShape_eq_spec hfp0.ne' hx]
    · rw [(hS k hk).2 (not_lt.1 hx), jonswapShape_zero (not_lt.1 hx), mul_zero]
  have hcpos := hcp hH
  have hmem : ∀ v ∈ S, ∃ k < f.length, v = c * jonswapShape fp γ (f.getD k 0) := by
    intro v hv
    obtain ⟨k, hk, rfl⟩ := List.getElem_of_mem hv
    refine ⟨k, by omega, ?_⟩
    rw [← hval k (by omega), List.getD_eq_getElem _ _ hk]
  have hinit : SpecObj.init pf (vec S) = .ok s := by
    unfold createSpectrumObjectJonswap at hob
    rw [hcr] at hob; exact hob
  have hstrict : ∀ k < f.length, f.getD k 0 = fp → ∀ l < f.length, l ≠ k → S.getD l 0 < S.getD k 0 := by
    intro k hk e l hl' hne
    rw [hval k hk, hval l hl', e]
    apply mul_lt_mul_of_pos_left _ hcpos
    apply jonswapShape_max hfp hγ
    rw [← e]
    have hp := uniform_check_increasing (uniform_check_accepts_uniform h2 hu)
    rcases lt_or_gt_of_ne hne with hlt | hlt
    · exact (inc_lt hp hlt hk).ne
    · exact (inc_lt hp hlt hl').ne'
  refine ⟨S, c, s, hcr, hob, ?_, fun k hk hx => (hS k hk).2 (le_trans hx (by positivity)), hcpos, ?_, fun k hk e => ⟨hstrict k hk e, ?_⟩⟩
  · intro v hv
    obtain ⟨k, -, rfl⟩ := hmem v hv
    exact mul_nonneg hc0 (jonswapShape_nonneg hγ0 _)
  · intro v hv
    obtain ⟨k, -, rfl⟩ := hmem v hv
    rw [← jonswapShape_eq_spec hfp0.ne' hfp]
    apply mul_le_mul_of_nonneg_left _ hc0
    by_cases hx : f.getD k 0 = fp
    · rw [hx]
    · exact (jonswapShape_max hfp hγ hx).le
  · have hp := uniform_check_increasing (uniform_check_accepts_uniform h2 hu)
    have hspec : IsPeakPeriod f S (-1) (.fin (-1)) (1 / fp) := by
      refine ⟨k, ⟨hk, Or.inl rfl, Or.inl rfl⟩, by rw [e]; exact hfp0.ne', by rw [e], fun l hl' => ?_⟩
      by_cases hlk : l = k
      · subst hlk; exact ⟨le_refl _, fun h => absurd h (lt_irrefl _)⟩
      · have := hstrict k hk e l hl'.1 hlk
        exact ⟨this.le, fun _ => this⟩
    exact get_Tp_complete hf (isArr_vec S) hinit hspec

/-- **C43 (defaults).**  Without a peak factor `create_spectrum_object_jonswap` uses 3.3 and no truncation. -/
theorem jonswap_defaults (pf : PyIn ℝ) (fp hm0 : ℝ) :
    createSpectrumObjectJonswap pf fp hm0 = createSpectrumObjectJonswap pf fp hm0 (33 / 10) 0 := rfl

/-- **C43.**  Pierson-Moskowitz is JONSWAP with peak factor 1, as an array and as an object. -/
theorem piersonMoskowitz_is_jonswap {pf : PyIn ℝ} {f : List ℝ} (hf : pf.IsArr f) (fp hm0 lF : ℝ) :
    createSpectrumPiersonMoskowitz pf fp hm0 (lFmax := lF) = createSpectrumJonswap pf fp hm0 1 lF ∧
    createSpectrumObjectPiersonMoskowitz pf fp hm0 (lFmax := lF) = createSpectrumObjectJonswap pf fp hm0 1 lF := by
  refine ⟨?_, rfl⟩
  unfold createSpectrumPiersonMoskowitz
  rw [(toVector_of_isArr hf).1]
  unfold createSpectrumJonswap
  rw [vecIn_of_isArr hf, show (PyIn.nd ⟨[f.length], f⟩ : PyIn ℝ) = vec f from rfl, vecIn_of_isArr (isArr_vec f)]

/-- Non-vacuity of C42 and C43: the axis 0, 0.1, 0.2, 0.3 Hz with the peak on the grid. -/
example : ∃ (S : List ℝ) (c : ℝ) (s : SpecObj), createSpectrumJonswap (vec [0, 1 / 10, 2 / 10, 3 / 10]) (1 / 10) 2 (33 / 10) 0 = .ok S ∧
      createSpectrumObjectJonswap (vec [0, 1 / 10, 2 / 10, 3 / 10]) (1 / 10) 2 (33 / 10) 0 = .ok s ∧ (∀ v ∈ S, 0 ≤ v) ∧
      S.getD 0 0 = 0 ∧ 0 < c ∧ S.getD 2 0 < S.getD 1 0 ∧ (s.getTp (-1) (.fin (-1))).1 = .ok (1 / (1 / 10)) ∧
      (s.getHm0 (-1) (.fin (-1))).1 = .ok 2 := by
  have hu : UniformAxis ([0, 1 / 10, 2 / 10, 3 / 10] : List ℝ) (1 / 10) := by
    refine ⟨by norm_num, fun i hi => ?_⟩
    simp only [List.length_cons, List.length_nil] at hi
    have : i < 3 := by omega
    interval_cases i <;> norm_num
  obtain ⟨S, c, s, h1, h2, h3, h4, h5, -, h6⟩ := jonswap_peak (pf := vec [0, 1 / 10, 2 / 10, 3 / 10]) (isArr_vec _) hu (by simp)
    (by norm_num) (by norm_num) (fp := 1 / 10) (by norm_num) (γ := 33 / 10) (by norm_num) (hm0 := 2) (by norm_num) (Or.inl rfl)
  obtain ⟨S', c', s', -, h2', -, -, -, -, -, h7, -⟩ := jonswap_height (pf := vec [0, 1 / 10, 2 / 10, 3 / 10]) (isArr_vec _) hu (by simp)
    (by norm_num) (by norm_num) (fp := 1 / 10) (by norm_num) (γ := 33 / 10) (by norm_num) (hm0 := 2) (by norm_num) (Or.inl rfl)
  have e : s = s' := Except.ok.inj (h2.symm.trans h2')
  obtain ⟨h8, h9⟩ := h6 1 (by simp) (by norm_num)
  exact ⟨S, c, s, h1, h2, h3, h4 0 (by simp) (by norm_num), h5, h8 2 (by simp) (by norm_num), h9, by rw [e]; exact h7 rfl⟩

/-! ## Concrete cases: the hypotheses of the theorems above are met -/

example : ∃ s H, createSpectrumObjectJonswap (vec [0, 1, 2, 3]) 1 2 (33 / 10) 1 = .ok s ∧ (s.getHm0 (-1) (.fin (-1))).1 = .ok H ∧ H < 2 :=
  jonswap_height_axis_smaller (f := [0, 1, 2, 3]) (h := 1) (isArr_vec _)
    ⟨by norm_num, fun i hi => by
      have : i < 3 := by simp at hi; omega
      interval_cases i <;> norm_num⟩ (by simp) (by simp) (by norm_num) (by norm_num) (by norm_num) (by norm_num)

example : jonswapShape (1 / 10) (33 / 10) (1 / 5) < jonswapShape (1 / 10) (33 / 10) (1 / 10) :=
  jonswapShape_max (by norm_num) (by norm_num) (by norm_num)

example : createSpectrumPiersonMoskowitz (vec [0, 1, 2, 3]) 1 2 (lFmax := 0) = createSpectrumJonswap (vec [0, 1, 2, 3]) 1 2 1 0 :=
  (piersonMoskowitz_is_jonswap (isArr_vec [0, 1, 2, 3]) 1 2 0).1

end Verif
