import Verif.Props.Jonswap
import Verif.Props.SpecUnits
import Verif.Props.Superpose

/-! # C100: laws of the JONSWAP spectrum -/

set_option linter.unusedSectionVars false

namespace Verif

theorem jonswapScaled_hm0 (fs S : List ℝ) (hm0 a : ℝ) (fmax : FMax ℝ) :
    jonswapScaled fs S (a * hm0) fmax = (jonswapScaled fs S hm0 fmax).map fun S => S.map fun v => a ^ 2 * v := by
  unfold jonswapScaled
  cases computeMoment (vec fs) (vec S) 0 (fs.getD 0 0) fmax with
  | error e => rfl
  | ok m0 =>
    dsimp only
    by_cases h4 : m0 ≤ 0
    · rw [if_pos h4, if_pos h4]; rfl
    rw [if_neg h4, if_neg h4]
    simp only [Except.map, List.map_map]
    congr 1
    refine List.map_congr_left fun x _ => ?_
    simp only [Function.comp]
    ring

/-- **C100 (wave height).**  Whatever the arguments: multiplying `hm0` by `a` multiplies every density by `a²` and changes nothing else. -/
theorem jonswap_hm0 (pf : PyIn ℝ) (fp hm0 γ lF a : ℝ) :
    createSpectrumJonswap pf fp (a * hm0) γ lF = (createSpectrumJonswap pf fp hm0 γ lF).map fun S => S.map fun v => a ^ 2 * v := by
  unfold createSpectrumJonswap
  cases vecIn "create_spectrum_jonswap" pf with
  | error e => rfl
  | ok fs =>
    dsimp only
    by_cases h1 : fs = []
    · rw [if_pos h1, if_pos h1]; rfl
    rw [if_neg h1, if_neg h1]
    by_cases h2 : lF ≠ 0 ∧ lF ≠ 1
    · rw [if_pos h2, if_pos h2]; rfl
    rw [if_neg h2, if_neg h2]
    by_cases h3 : fp = 0
    · rw [if_pos h3, if_pos h3]; exact jonswapScaled_hm0 ..
    rw [if_neg h3, if_neg h3]
    by_cases h4 : γ ≤ 0
    · rw [if_pos h4, if_pos h4]; exact jonswapScaled_hm0 ..
    rw [if_neg h4, if_neg h4]; exact jonswapScaled_hm0 ..

/-- The unscaled density in another unit of time. -/
theorem jonswapShape_unit {a fp γ x : ℝ} (ha : 0 < a) (hx : 1 / 2 ^ 52 < x ↔ 1 / 2 ^ 52 < a * x) :
    jonswapShape (a * fp) γ (a * x) = a ^ (-5 : ℤ) * jonswapShape fp γ x := by
  unfold jonswapShape
  by_cases h : 1 / 2 ^ 52 < x
  · have e1 : a * x / (a * fp) = x / fp := mul_div_mul_left x fp ha.ne'
    have e2 : (if a * x < a * fp then (7 / 100 : ℝ) else 9 / 100) = if x < fp then 7 / 100 else 9 / 100 := by
      simp only [mul_lt_mul_iff_right₀ ha]
    rw [if_pos (hx.1 h), if_pos h]
    dsimp only
    rw [e1, e2, mul_zpow a x]
    ring
  · rw [if_neg (fun h' => h (hx.2 h')), if_neg h, mul_zero]

/-- **C100 (unit of time).**  If all frequencies (the axis and the peak) are multiplied by `a > 0`, the densities are divided by `a`.  (The code treats
frequencies up to 2^-52 as zero; the change of unit must not move a frequency across that limit.) -/
theorem jonswap_unit {f : List ℝ} {h fp hm0 γ lF a : ℝ} (hu : UniformAxis f h) (h2 : 2 ≤ f.length) (h0 : 0 ≤ f.getD 0 0)
    (ha : 0 < a) (hx : ∀ x ∈ f, 1 / 2 ^ 52 < x ↔ 1 / 2 ^ 52 < a * x) :
    createSpectrumJonswap (vec (f.map (a * ·))) (a * fp) hm0 γ lF = (createSpectrumJonswap (vec f) fp hm0 γ lF).map fun S => S.map fun v => v / a := by
  have hm := uniform_check_accepts_uniform h2 hu
  have hp := uniform_check_increasing hm
  have hu' : UniformAxis (f.map (a * ·)) (a * h) := by
    refine ⟨mul_pos ha hu.1, fun i hi => ?_⟩
    rw [List.length_map] at hi
    have g : ∀ i, i < f.length → (f.map (a * ·)).getD i 0 = a * f.getD i 0 := by
      intro i hi
      rw [List.getD_eq_getElem _ _ (by simpa using hi), List.getElem_map, List.getD_eq_getElem _ _ hi]
    rw [g _ hi, g _ (by omega), hu.2 i hi]
    ring
  have hm' := uniform_check_accepts_uniform (by rw [List.length_map]; exact h2) hu'
  have g : ∀ i, i < f.length → (f.map (a * ·)).getD i 0 = a * f.getD i 0 := by
    intro i hi
    rw [List.getD_eq_getElem _ _ (by simpa using hi), List.getElem_map, List.getD_eq_getElem _ _ hi]
  have hl : 0 ≤ f.getD (f.length - 1) 0 := h0.trans (inc_le hp (Nat.zero_le _) (by omega))
  unfold createSpectrumJonswap
  rw [vecIn_vec, vecIn_vec]
  dsimp only
  have hne : f ≠ [] := by rintro rfl; simp at h2
  rw [if_neg (by simpa using hne), if_neg hne]
  by_cases h3 : lF ≠ 0 ∧ lF ≠ 1
  · rw [if_pos h3, if_pos h3]; rfl
  rw [if_neg h3, if_neg h3]
  set fmax : FMax ℝ := if lF = 0 then .fin (f.getD (f.length - 1) 0) else .inf with hfmax
  have ef : (if lF = 0 then FMax.fin ((f.map (a * ·)).getD ((f.map (a * ·)).length - 1) 0) else .inf) = fmax.times a := by
    rw [hfmax, List.length_map, g _ (by omega)]
    split_ifs
    · rfl
    · rfl
  have hn1 : fmax ≠ .fin (-1) := by
    rw [hfmax]; split_ifs
    · intro e; have := FMax.fin.inj e; linarith
    · intro e; cases e
  have hn2 : fmax.times a ≠ .fin (-1) := by
    rw [← ef]; split_ifs
    · rw [List.length_map, g _ (by omega)]
      intro e
      have := FMax.fin.inj e
      have := mul_nonneg ha.le hl
      linarith
    · intro e; cases e
  have main : ∀ G G' : ℝ → ℝ, (∀ x ∈ f, G' (a * x) = a ^ (-5 : ℤ) * G x) →
      jonswapScaled (f.map (a * ·)) ((f.map (a * ·)).map G') hm0 (fmax.times a) =
        (jonswapScaled f (f.map G) hm0 fmax).map fun S => S.map fun v => v / a := by
    intro G G' hG
    unfold jonswapScaled
    have eS : (f.map (a * ·)).map G' = (f.map G).map (a ^ (-5 : ℤ) * ·) := by
      rw [List.map_map, List.map_map]
      exact List.map_congr_left fun x hxm => hG x hxm
    have hmom : computeMoment (vec (f.map (a * ·))) (vec ((f.map G).map (a ^ (-5 : ℤ) * ·))) 0 (a * f.getD 0 0) (fmax.times a) =
        (computeMoment (vec f) (vec (f.map G)) 0 (f.getD 0 0) fmax).map (a ^ (-4 : ℤ) * ·) := by
      have e1 := moment_axis_scaling ha (isArr_vec f) (isArr_vec (f.map (a * ·))) (isArr_vec ((f.map G).map (a ^ (-5 : ℤ) * ·)))
        hm hm' (by simp) 0 (lo := f.getD 0 0) (by linarith) hn1 (by have := mul_nonneg ha.le h0; linarith) hn2
      have e2 := computeMoment_scale (a ^ (-5 : ℤ)) (vec f) (arr1 (f.map G)) 0 (f.getD 0 0) fmax
      have e2' : (PyIn.nd ((arr1 (f.map G)).scale (a ^ (-5 : ℤ)))) = vec ((f.map G).map (a ^ (-5 : ℤ) * ·)) := by
        simp [Arr.scale, arr1, vec]
      rw [e2'] at e2
      rw [e1, e2]
      change Except.map _ (Except.map _ (computeMoment (vec f) (vec (f.map G)) 0 (f.getD 0 0) fmax)) = _
      cases computeMoment (vec f) (vec (f.map G)) 0 (f.getD 0 0) fmax with
      | error e => rfl
      | ok v =>
        simp only [Except.map]
        congr 1
        rw [← mul_assoc, ← zpow_add₀ ha.ne']
        norm_num
    rw [eS, g 0 (by omega), hmom]
    cases computeMoment (vec f) (vec (f.map G)) 0 (f.getD 0 0) fmax with
    | error e => rfl
    | ok m0 =>
      simp only [Except.map]
      have ha4 : 0 < a ^ (-4 : ℤ) := by positivity
      have e5 : a ^ (-4 : ℤ) * m0 ≤ 0 ↔ m0 ≤ 0 := by
        constructor
        · intro h; by_contra hc
          have := mul_pos ha4 (not_le.1 hc)
          linarith
        · intro h; exact mul_nonpos_of_nonneg_of_nonpos ha4.le h
      simp only [e5]
      by_cases h6 : m0 ≤ 0
      · rw [if_pos h6, if_pos h6]
      rw [if_neg h6, if_neg h6]
      simp only [List.map_map]
      congr 1
      refine List.map_congr_left fun x _ => ?_
      simp only [Function.comp]
      have hm0 := not_le.1 h6
      rw [div_pow, div_pow, mul_pow, mul_pow, Real.sq_sqrt (by positivity), Real.sq_sqrt hm0.le]
      have e7 : a ^ (-5 : ℤ) = a ^ (-4 : ℤ) / a := by
        rw [show (-5 : ℤ) = -4 - 1 by norm_num, zpow_sub_one₀ ha.ne']; rfl
      rw [e7]
      field_simp
  rw [ef]
  by_cases h4 : fp = 0
  · rw [if_pos (by rw [h4, mul_zero]), if_pos h4]
    refine main _ _ fun x hxm => ?_
    unfold jonswapShapeZero
    by_cases h : 1 / 2 ^ 52 < x
    · rw [if_pos ((hx x hxm).1 h), if_pos h, mul_zpow a x, mul_left_comm]
    · rw [if_neg (fun h' => h ((hx x hxm).2 h')), if_neg h, mul_zero]
  rw [if_neg (mul_ne_zero ha.ne' h4), if_neg h4]
  by_cases h5 : γ ≤ 0
  · rw [if_pos h5, if_pos h5]
    exact main (fun _ => 0) (fun _ => 0) fun x _ => (mul_zero _).symm
  rw [if_neg h5, if_neg h5]
  exact main _ _ fun x hxm => jonswapShape_unit ha (hx x hxm)

/-- The unscaled density relative to the one at the peak does not increase with the peak factor. -/
theorem jonswapShape_relative {fp γ γ' x : ℝ} (hfp : 1 / 2 ^ 52 < fp) (hγ : 0 < γ) (hγ' : γ ≤ γ') :
    jonswapShape fp γ' x * jonswapShape fp γ fp ≤ jonswapShape fp γ x * jonswapShape fp γ' fp := by
  have hfp0 : 0 < fp := lt_trans (by positivity) hfp
  by_cases hx : 1 / 2 ^ 52 < x
  · have hx0 : 0 < x := lt_trans (by positivity) hx
    have hpk : ∀ g : ℝ, jonswapShape fp g fp = 1 * (981 / 100) ^ 2 * (2 * Real.pi) ^ (-4 : ℤ) * fp ^ (-5 : ℤ) * Real.exp (-(125 / 100)) * g := by
      intro g
      unfold jonswapShape
      rw [if_pos hfp]
      dsimp only
      rw [div_self hfp0.ne', one_zpow, mul_one, sub_self]
      congr 1
      rw [show (-(0 : ℝ) ^ 2) / (2 * (if fp < fp then (7 / 100 : ℝ) else 9 / 100) ^ 2) = 0 by simp, Real.exp_zero, Real.rpow_one]
    rw [hpk, hpk]
    unfold jonswapShape
    rw [if_pos hx, if_pos hx]
    dsimp only
    set A := Real.exp (-((x / fp - 1) ^ 2) / (2 * (if x < fp then (7 / 100 : ℝ) else 9 / 100) ^ 2)) with hA
    have hA1 : A ≤ 1 := by
      rw [hA, Real.exp_le_one_iff]
      apply div_nonpos_of_nonpos_of_nonneg
      · nlinarith [sq_nonneg (x / fp - 1)]
      · positivity
    have key : γ' ^ A * γ ≤ γ ^ A * γ' := by
      have h1 : (1 : ℝ) ≤ γ' / γ := by rw [le_div_iff₀ hγ]; linarith
      have h2 : (γ' / γ) ^ A ≤ γ' / γ := by
        calc (γ' / γ) ^ A ≤ (γ' / γ) ^ (1 : ℝ) := Real.rpow_le_rpow_of_exponent_le h1 hA1
          _ = γ' / γ := Real.rpow_one _
      rw [Real.div_rpow (by linarith) hγ.le, div_le_div_iff₀ (by positivity) hγ] at h2
      linarith
    have hc : 0 ≤ 1 * (981 / 100 : ℝ) ^ 2 * (2 * Real.pi) ^ (-4 : ℤ) * x ^ (-5 : ℤ) * Real.exp (-(125 / 100) * (x / fp) ^ (-4 : ℤ)) *
        (1 * (981 / 100) ^ 2 * (2 * Real.pi) ^ (-4 : ℤ) * fp ^ (-5 : ℤ) * Real.exp (-(125 / 100))) := by positivity
    have := mul_le_mul_of_nonneg_left key hc
    linarith
  · rw [jonswapShape_zero (not_lt.1 hx), jonswapShape_zero (not_lt.1 hx), zero_mul, zero_mul]

/-- **C100 (peak factor).**  For a given wave height, raising the peak factor never lowers the density at the peak frequency (if it is a grid point), and
never raises any density relative to the one at the peak. -/
theorem jonswap_peak_factor {f : List ℝ} {h fp hm0 γ γ' lF : ℝ} (hu : UniformAxis f h) (h2 : 2 ≤ f.length)
    (h0 : 0 ≤ f.getD 0 0) {k : ℕ} (hk : k < f.length) (hfk : f.getD k 0 = fp) (hfp : 1 / 2 ^ 52 < fp) (hγ : 0 < γ) (hγ' : γ ≤ γ') (hH : 0 ≤ hm0)
    (hlF : lF = 0 ∨ lF = 1) :
    ∃ S S', createSpectrumJonswap (vec f) fp hm0 γ lF = .ok S ∧ createSpectrumJonswap (vec f) fp hm0 γ' lF = .ok S' ∧
      S.getD k 0 ≤ S'.getD k 0 ∧ ∀ i < f.length, S'.getD i 0 * S.getD k 0 ≤ S.getD i 0 * S'.getD k 0 := by
  have hm := uniform_check_accepts_uniform h2 hu
  have hp := uniform_check_increasing hm
  have hfp0 : 0 < fp := lt_trans (by positivity) hfp
  have hg' : 0 < γ' := lt_of_lt_of_le hγ hγ'
  have hne : f ≠ [] := by rintro rfl; simp at h2
  have hl01 := inc_lt hp (show 0 < f.length - 1 by omega) (by omega)
  set fmax : FMax ℝ := if lF = 0 then .fin (f.getD (f.length - 1) 0) else .inf with hfmax
  have hab : fmax.above (f.getD 0 0) := by
    rw [hfmax]; split_ifs
    · exact hl01.le
    · trivial
  have fu : firstUsable f 0 = 0 := by simp [firstUsable]
  have hsel : SelectedRange f 0 (f.getD 0 0) fmax 0 (f.length - 1) := by
    refine ⟨by rw [fu]; exact isNearest_self hp (le_refl _) (by omega), ?_⟩
    rw [hfmax]
    by_cases hl : lF = 0
    · rw [if_pos hl, fu]; exact isNearest_self hp (Nat.zero_le _) (by omega)
    · rw [if_neg hl]
  have hmaxne : fmax ≠ .fin (-1) := by
    rw [hfmax]
    split_ifs
    · intro e
      have e := FMax.fin.inj e
      linarith
    · intro e; cases e
  obtain ⟨t, hr⟩ := momentRange_of_selected hm (by linarith) hmaxne hsel
  have hget : ∀ g, ∀ i < f.length, (f.map (jonswapShape fp g)).getD i 0 = jonswapShape fp g (f.getD i 0) := by
    intro g i hi
    rw [List.getD_eq_getElem _ _ (by simpa using hi), List.getD_eq_getElem _ _ hi, List.getElem_map]
  have main : ∀ g, 0 < g → ∃ m0, 0 < m0 ∧ computeMoment (vec f) (vec (f.map (jonswapShape fp g))) 0 (f.getD 0 0) fmax = .ok m0 ∧
      createSpectrumJonswap (vec f) fp hm0 g lF = .ok ((f.map (jonswapShape fp g)).map fun v => v * (hm0 ^ 2 / 16 / m0)) := by
    intro g hg
    have hnn : ∀ v ∈ f.map (jonswapShape fp g), 0 ≤ v := by
      intro v hv
      rw [List.mem_map] at hv
      obtain ⟨x, -, rfl⟩ := hv
      exact jonswapShape_nonneg hg x
    obtain ⟨m0, em0, hm00⟩ := moment_defined (m := 0) (fmin := f.getD 0 0) (fmax := fmax) (isArr_vec f) (isArr_vec (f.map (jonswapShape fp g))) hu h2
      (by simp) h0 hnn (Or.inl hab) (Or.inl (by norm_num))
    have hpos : 0 < m0 := by
      refine moment_pos (isArr_vec f) (isArr_vec (f.map (jonswapShape fp g))) hu h0 hnn hr (by omega) (Nat.zero_le _) (show k ≤ f.length - 1 by omega)
        (Or.inr rfl) ?_ em0
      rw [hget _ _ hk, hfk]
      exact jonswapShape_pos hg hfp
    refine ⟨m0, hpos, em0, ?_⟩
    unfold createSpectrumJonswap
    rw [vecIn_vec]
    dsimp only
    rw [if_neg hne, if_neg (by tauto), if_neg (show ¬ fp = 0 by intro e; linarith), if_neg (by intro e; linarith), ← hfmax]
    unfold jonswapScaled
    rw [em0]
    dsimp only
    rw [if_neg (not_le.2 hpos)]
    congr 1
    refine List.map_congr_left fun v _ => ?_
    rw [div_pow, mul_pow, Real.sq_sqrt hm00]
    congr 1
    field_simp
    norm_num
  obtain ⟨m, hmp, em, es⟩ := main γ hγ
  obtain ⟨m', hmp', em', es'⟩ := main γ' hg'
  have hgS : ∀ g c, ∀ i < f.length, ((f.map (jonswapShape fp g)).map fun v => v * c).getD i 0 = jonswapShape fp g (f.getD i 0) * c := by
    intro g c i hi
    rw [List.getD_eq_getElem _ _ (by simpa using hi), List.getD_eq_getElem _ _ hi, List.getElem_map, List.getElem_map]
  have hP := jonswapShape_pos (fp := fp) (γ := γ) hγ hfp
  have hP' := jonswapShape_pos (fp := fp) (γ := γ') hg' hfp
  refine ⟨_, _, es, es', ?_, fun i hi => ?_⟩
  · rw [hgS _ _ k hk, hgS _ _ k hk, hfk]
    -- compare the moments of the spectra divided by their peak densities
    have hle : List.Forall₂ (· ≤ ·) ((f.map (jonswapShape fp γ')).map (jonswapShape fp γ fp * ·)) ((f.map (jonswapShape fp γ)).map (jonswapShape fp γ' fp * ·)) := by
      rw [List.map_map, List.map_map]
      refine List.forall₂_map_left_iff.2 (List.forall₂_map_right_iff.2 (List.forall₂_same.2 fun x _ => ?_))
      have := jonswapShape_relative (x := x) hfp hγ hγ'
      simp only [Function.comp]
      linarith
    have sc : ∀ (c : ℝ) (S : List ℝ), computeMoment (vec f) (vec (S.map (c * ·))) 0 (f.getD 0 0) fmax =
        (computeMoment (vec f) (vec S) 0 (f.getD 0 0) fmax).map (c * ·) := by
      intro c S
      have := computeMoment_scale c (vec f) (arr1 S) 0 (f.getD 0 0) fmax
      rw [show (PyIn.nd ((arr1 S).scale c)) = vec (S.map (c * ·)) by simp [Arr.scale, arr1, vec]] at this
      exact this
    have e1 := sc (jonswapShape fp γ fp) (f.map (jonswapShape fp γ'))
    have e2 := sc (jonswapShape fp γ' fp) (f.map (jonswapShape fp γ))
    rw [em'] at e1
    rw [em] at e2
    simp only [Except.map] at e1 e2
    obtain ⟨v2, h3, h4⟩ := moment_mono (isArr_vec f) (isArr_vec _) (isArr_vec _) hu h0 hle e1
    rw [e2] at h3
    rw [← Except.ok.inj h3] at h4
    have hd : jonswapShape fp γ fp / m ≤ jonswapShape fp γ' fp / m' := by
      rw [div_le_div_iff₀ hmp hmp']; exact h4
    have hc : (0 : ℝ) ≤ hm0 ^ 2 / 16 := by positivity
    have := mul_le_mul_of_nonneg_right hd hc
    calc _ = jonswapShape fp γ fp / m * (hm0 ^ 2 / 16) := by ring
      _ ≤ _ := this
      _ = _ := by ring
  · rw [hgS _ _ k hk, hgS _ _ k hk, hgS _ _ i hi, hgS _ _ i hi, hfk]
    have h5 := jonswapShape_relative (x := f.getD i 0) hfp hγ hγ'
    have hc : 0 ≤ hm0 ^ 2 / 16 / m * (hm0 ^ 2 / 16 / m') := by positivity
    have := mul_le_mul_of_nonneg_right h5 hc
    linarith

/-- Non-vacuity: an axis from 0 to 0.4 Hz, peak at 0.1 Hz. -/
example : ∃ S S', createSpectrumJonswap (vec [0, 0.1, 0.2, 0.3, 0.4]) 0.1 2 1 0 = .ok S ∧ createSpectrumJonswap (vec [0, 0.1, 0.2, 0.3, 0.4]) 0.1 2 3.3 0 = .ok S' ∧
    S.getD 1 0 ≤ S'.getD 1 0 := by
  obtain ⟨S, S', a, b, c, -⟩ := jonswap_peak_factor (f := [0, 0.1, 0.2, 0.3, 0.4]) (h := 0.1) (fp := 0.1) (hm0 := 2) (γ := 1) (γ' := 3.3) (lF := 0) (k := 1)
    ⟨by norm_num, fun i hi => by
      have : i < 4 := by simp at hi; omega
      interval_cases i <;> norm_num⟩ (by simp) (by simp) (by simp) rfl (by norm_num) (by norm_num) (by norm_num) (by norm_num) (.inl rfl)
  exact ⟨S, S', a, b, c⟩

/-! ## Concrete cases: the hypotheses of the theorems above are met -/

example : createSpectrumJonswap (vec (([0, 1, 2, 3] : List ℝ).map (2 * ·))) (2 * 1) 2 (33 / 10) 0 =
    (createSpectrumJonswap (vec [0, 1, 2, 3]) 1 2 (33 / 10) 0).map fun S => S.map fun v => v / 2 :=
  jonswap_unit (f := [0, 1, 2, 3]) (h := 1)
    ⟨by norm_num, fun i hi => by
      have : i < 3 := by simp at hi; omega
      interval_cases i <;> norm_num⟩ (by simp) (by simp) (by norm_num) (by
        intro x hx
        simp only [List.mem_cons, List.not_mem_nil, or_false] at hx
        rcases hx with rfl | rfl | rfl | rfl <;> norm_num)

end Verif
