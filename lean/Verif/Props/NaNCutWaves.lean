import Verif.Props.NaNFilter
import Verif.Props.FilterExact
import Verif.Props.NaNSeries

/-! # C144: individual waves of a record with missing samples, low frequencies removed first -/

set_option linter.unusedSectionVars false

namespace Verif
open Finset Complex

/-! ## Which components the low-pass filter keeps -/

theorem lowpass_bins {ts : List ℝ} (hm : AcceptedAxis ts) (fc : ℝ) :
    ((topFreq ts ≤ fc ∨ 2 * freqStep ts < fc) → keptBins ts 0 fc 1) ∧
    (¬ (topFreq ts ≤ fc ∨ 2 * freqStep ts < fc) → ∀ p, p ≤ ts.length / 2 → ¬ keptBins ts 0 fc p) := by
  have h2 := mono_two_le hm
  have hdf : 0 < freqStep ts := dfOf_pos hm
  have hfl : (freqAxis (ts.length / 2 + 1) (dfOf ts)).length = ts.length / 2 + 1 := by simp [freqAxis]
  have g : ∀ i, i < ts.length / 2 + 1 → (freqAxis (ts.length / 2 + 1) (dfOf ts)).getD i 0 = i * freqStep ts := by
    intro i hi; unfold freqAxis; rw [getD_map_range _ _ _ _ hi]; rfl
  have hk : ∀ p, p ≤ ts.length / 2 → (keptBins ts 0 fc p ↔ 1 ≤ p ∧ (topFreq ts ≤ fc ∨ p + 1 < ts.length / 2 + 1 ∧ (p + 1) * freqStep ts < fc)) := by
    intro p hp
    unfold keptBins Kept
    rw [hfl, g p (by omega), g _ (by omega), Nat.add_sub_cancel]
    have h0 : 0 ≤ (p : ℝ) * freqStep ts := by positivity
    have h1 : 0 < ((ts.length / 2 : ℕ) : ℝ) * freqStep ts := by
      have : (0 : ℝ) < ((ts.length / 2 : ℕ) : ℝ) := by exact_mod_cast (by omega : 0 < ts.length / 2)
      positivity
    constructor
    · rintro ⟨a, -, -, b | ⟨b, c⟩⟩
      · exact ⟨a, .inl b⟩
      · rw [g _ b] at c; push_cast at c; exact ⟨a, .inr ⟨b, c⟩⟩
    · rintro ⟨a, b | ⟨b, c⟩⟩
      · exact ⟨a, h0, h1, .inl b⟩
      · refine ⟨a, h0, h1, .inr ⟨b, ?_⟩⟩
        rw [g _ b]; push_cast; exact c
  constructor
  · intro h
    rw [hk 1 (by omega)]
    refine ⟨le_rfl, ?_⟩
    rcases h with h | h
    · exact .inl h
    · by_cases h3 : 1 + 1 < ts.length / 2 + 1
      · refine .inr ⟨h3, ?_⟩
        push_cast; linarith
      · left
        have : ts.length / 2 = 1 := by omega
        unfold topFreq
        rw [this]; push_cast; linarith
  · intro h p hp hkp
    push Not at h
    obtain ⟨a, b | ⟨b, c⟩⟩ := (hk p hp).1 hkp
    · exact absurd b (not_le.2 h.1)
    · have : (1 : ℝ) ≤ p := by exact_mod_cast a
      nlinarith [h.2]

/-! ## Two neighbouring samples are never both independent of a missing one -/

theorem sin_step_ne {n : Nat} (hn : 3 ≤ n) : (twiddle n 1).im ≠ 0 := by
  have hn' : (0 : ℝ) < n := by exact_mod_cast (by omega : 0 < n)
  have e : twiddle n 1 = Complex.exp ((2 * Real.pi / n : ℝ) * Complex.I) := by
    unfold twiddle
    congr 1
    push_cast
    ring
  rw [e, Complex.exp_ofReal_mul_I_im]
  have h3 : (3 : ℝ) ≤ n := by exact_mod_cast hn
  have hlt : 2 * Real.pi / n < Real.pi := by
    rw [div_lt_iff₀ hn']
    nlinarith [Real.pi_pos]
  exact (Real.sin_pos_of_pos_of_lt_pi (by positivity) hlt).ne'

theorem neighbours_linked {n : Nat} (hn : 2 ≤ n) (j m : Nat) :
    ((twiddle n j).re * (twiddle n m).re ≠ 0 ∨ (twiddle n j).im * (twiddle n m).im ≠ 0) ∨
    ((twiddle n j).re * (twiddle n (m + 1 : ℕ)).re ≠ 0 ∨ (twiddle n j).im * (twiddle n (m + 1 : ℕ)).im ≠ 0) := by
  have unit : ∀ a : ℤ, (twiddle n a).re * (twiddle n a).re + (twiddle n a).im * (twiddle n a).im = 1 := by
    intro a
    have h := norm_twiddle n a
    have h2 : Complex.normSq (twiddle n a) = 1 := by rw [Complex.normSq_eq_norm_sq, h]; norm_num
    rw [Complex.normSq_apply] at h2
    exact h2
  have step : twiddle n 1 = (starRingEnd ℂ) (twiddle n m) * twiddle n (m + 1 : ℕ) := by
    rw [conj_twiddle, ← twiddle_add]
    congr 1
    push_cast; ring
  by_contra hc
  push Not at hc
  obtain ⟨⟨a1, a2⟩, b1, b2⟩ := hc
  have hstep : (twiddle n 1).im = (twiddle n m).re * (twiddle n (m + 1 : ℕ)).im - (twiddle n m).im * (twiddle n (m + 1 : ℕ)).re := by
    rw [step]; simp only [Complex.mul_im, Complex.conj_re, Complex.conj_im]; ring
  have um := unit m
  have uj := unit j
  by_cases hjr : (twiddle n j).re = 0
  · have hji : (twiddle n j).im ≠ 0 := by intro h; rw [hjr, h] at uj; norm_num at uj
    have hm0 : (twiddle n m).im = 0 := (mul_eq_zero.1 a2).resolve_left hji
    have hm1 : (twiddle n (m + 1 : ℕ)).im = 0 := (mul_eq_zero.1 b2).resolve_left hji
    by_cases h3 : 3 ≤ n
    · exact sin_step_ne h3 (by rw [hstep, hm0, hm1]; ring)
    · have hn2 : n = 2 := by omega
      subst hn2
      apply hji
      have e : twiddle 2 (j : ℤ) = ((-1) ^ j : ℝ) := by
        have := twiddle_pow 2 1 j
        rw [mul_one] at this
        rw [← this]
        have h1 : twiddle 2 1 = -1 := by have := twiddle_half (n := 1) (by norm_num); simpa using this
        rw [h1]; push_cast; rfl
      rw [e]
      exact Complex.ofReal_im _
  · have hm0 : (twiddle n m).re = 0 := (mul_eq_zero.1 a1).resolve_left hjr
    have hm1 : (twiddle n (m + 1 : ℕ)).re = 0 := (mul_eq_zero.1 b1).resolve_left hjr
    by_cases h3 : 3 ≤ n
    · exact sin_step_ne h3 (by rw [hstep, hm0, hm1]; ring)
    · have hn2 : n = 2 := by omega
      subst hn2
      have e : twiddle 2 (m : ℤ) = ((-1) ^ m : ℝ) := by
        have := twiddle_pow 2 1 m
        rw [mul_one] at this
        rw [← this]
        have h1 : twiddle 2 1 = -1 := by have := twiddle_half (n := 1) (by norm_num); simpa using this
        rw [h1]; push_cast; rfl
      rw [e, Complex.ofReal_re] at hm0
      exact absurd hm0 (pow_ne_zero _ (by norm_num))

/-- The low-pass part of a record with a gap has no two neighbouring samples that are both numbers, if it keeps the lowest component. -/
theorem lowpass_no_pair (A : FftN) {t : PyIn ℝ} {x : PyIn (Option ℝ)} {ts : List ℝ} {xs : List (Option ℝ)} (ht : t.IsArr ts) (hx : x.IsArr xs)
    (hm : AcceptedAxis ts) (hl : ts.length = xs.length) (hn : none ∈ xs) {flow fhigh : ℝ} (h1 : keptBins ts flow fhigh 1) :
    ∃ y, bandpassfilterN A t x flow fhigh = .ok y ∧ y.length = xs.length ∧ ∀ m, y.getD m none = none ∨ y.getD (m + 1) none = none := by
  have h2 := mono_two_le hm
  have h2' : 2 ≤ xs.length := by rw [← hl]; exact h2
  obtain ⟨y, q1, q2, q3⟩ := bandpassN_missing A ht hx hm hl flow fhigh
  obtain ⟨j, hj⟩ := List.mem_iff_getElem?.1 hn
  refine ⟨y, q1, q2, fun m => ?_⟩
  by_cases hm1 : m + 1 < xs.length
  · have key := neighbours_linked h2' j m
    have s := fun k hk => q3 j 1 k hj le_rfl (by omega) h1 hk
    simp only [Nat.cast_one, mul_one] at s
    rcases key with h | h
    · left; rw [List.getD, s m (by omega) h]; rfl
    · right; rw [List.getD, s (m + 1) hm1 h]; rfl
  · right
    rw [List.getD_eq_default _ _ (by omega)]

/-! ## C144 -/

theorem zipWith_nSub_none {a b : List (Option ℝ)} (i : Nat) (h : b.getD i none = none) : (List.zipWith nSub a b).getD i none = none := by
  rw [List.getD, List.getElem?_zipWith]
  rw [List.getD] at h
  cases ha : a[i]? with
  | none => rfl
  | some u =>
    cases hb : b[i]? with
    | none => rfl
    | some v =>
      rw [hb] at h
      have hv : v = none := h
      subst hv
      cases u <;> rfl

theorem zipWith_nSub_zero (a : List (Option ℝ)) : List.zipWith nSub a (List.replicate a.length (some 0)) = a := by
  induction a with
  | nil => rfl
  | cons u a ih =>
    rw [List.length_cons, List.replicate_succ, List.zipWith_cons_cons, ih]
    cases u <;> simp [nSub]

/-- No wave at all. -/
def noWaves {K : Type} : IndWaves K := ⟨[], [], [], [], [], []⟩

/-- **C144.** `Series._determine_individual_waves(typeCross, fcutoff, minimum_wave)` of a record with at least one missing sample and a
cut-off other than 0 never raises.  If the cut-off is above twice the frequency step (or at or above the highest frequency), it finds no
crossing and no wave, and the object afterwards holds no waves, whatever the rest of the record is.  Otherwise the result is the same
as without a cut-off. -/
theorem gap_cutoff_waves (A : FftN) {s : SeriesN ℝ} {t : List ℝ} {x : List (Option ℝ)} (hm : AcceptedAxis t) (hl : t.length = x.length)
    (hst : s.time = arr1 (t.map some)) (hsx : s.xTime = arr1 x) (hn : none ∈ x) {ty : String} (hty : ty.toLower = "up" ∨ ty.toLower = "down")
    {fc : ℝ} (hfc : fc ≠ 0) (minWave : ℝ) :
    ((topFreq t ≤ fc ∨ 2 * freqStep t < fc) → s.individualWaves A ty fc minWave =
      .ok (noWaves, [], { s with tCross := [], wh := ⟨arr1 [], 0, arr1 []⟩ })) ∧
    (¬ (topFreq t ≤ fc ∨ 2 * freqStep t < fc) → s.individualWaves A ty fc minWave = s.individualWaves A ty 0 minWave) := by
  have h2 := mono_two_le hm
  have hax : axisN s.time = .ok ⟨[t.length], t⟩ := by
    unfold axisN
    rw [hst]
    simp only [arr1, allFinite_some, List.length_map]
  have hxarr : (PyIn.nd s.xTime).IsArr x := by rw [hsx]; exact .nd x
  have hxd : s.xTime.data = x := by rw [hsx]; rfl
  have hxs : s.xTime.shape = [x.length] := by rw [hsx]; rfl
  constructor
  · intro hc
    obtain ⟨y, q1, q2, q3⟩ := lowpass_no_pair A (PyIn.IsArr.nd t) hxarr hm hl hn ((lowpass_bins hm fc).1 hc)
    unfold SeriesN.individualWaves
    rw [if_pos hfc, hax]
    simp only [bind, Except.bind]
    rw [q1]
    simp only
    unfold wavesFromN
    have hzl : (List.zipWith nSub x y).length = x.length := by rw [List.length_zipWith, q2, min_self]
    have harr : (⟨s.xTime.shape, List.zipWith nSub s.xTime.data y⟩ : Arr (Option ℝ)) = arr1 (List.zipWith nSub x y) := by
      rw [hxd, hxs]; unfold arr1; rw [hzl]
    have hcr : ∀ cond, (cond = upCondN ∨ cond = downCondN) → crossIdxN cond (List.zipWith nSub x y) = [] := by
      intro cond hcond
      unfold crossIdxN
      rw [List.filter_eq_nil_iff]
      intro i _ hci
      rcases q3 i with h | h
      · rw [zipWith_nSub_none i h] at hci
        rcases hcond with rfl | rfl <;> simp [upCondN, downCondN, nLe, nLt] at hci
      · rw [zipWith_nSub_none (i + 1) h] at hci
        rcases hcond with rfl | rfl <;> simp [upCondN, downCondN, nLe, nLt] at hci
    have hzero : determineZeroCrossingN (.nd (arr1 (t.map some))) (.nd (arr1 (List.zipWith nSub x y))) ty = .ok (0, []) := by
      rw [zeroCrossingN_eq (by simpa using h2) (by simp [hzl, hl])]
      have hne : ("down" : String) ≠ "up" := by decide
      rcases hty with h | h
      · rw [if_pos h, crossLoopN_eq _ _ _ (by simp [hzl, hl]), hcr upCondN (.inl rfl)]; rfl
      · rw [if_neg (by rw [h]; exact hne), if_pos h, crossLoopN_eq _ _ _ (by simp [hzl, hl]), hcr downCondN (.inr rfl)]; rfl
    rw [harr, hst, hsx]
    simp only [bind, Except.bind]
    rw [hzero]
    simp only
    rw [individualWavesN_eq (by simpa using hl) (by intro h; have := congrArg List.length h; simp at this; rw [this] at h2; simp at h2)]
    rfl
  · intro hc
    obtain ⟨y, q1, q2, -, q3⟩ := gap_filter_at A (PyIn.IsArr.nd t) hxarr hm hl 0 fc
    have hy := q3 (fun p hp => (lowpass_bins hm fc).2 hc p (by rw [hl]; exact hp))
    unfold SeriesN.individualWaves
    rw [if_pos hfc, if_neg (by simp), hax]
    simp only [bind, Except.bind]
    rw [q1]
    simp only
    unfold wavesFromN determineIndividualWavesN
    have hz : (⟨s.xTime.shape, List.zipWith nSub s.xTime.data y⟩ : Arr (Option ℝ)) = s.xTime := by
      rw [hy, ← hxd, zipWith_nSub_zero]
    rw [hz]

/-- **C143 (object).** `Series.get_bandpassfilter(fmin, fmax)` of a record with missing samples never raises: it returns a series with the same
time axis and step whose samples are those of `bandpassfilter`; if a component is kept, every missing sample is missing in the result. -/
theorem gap_filter_object (A : FftN) {s : SeriesN ℝ} {t : List ℝ} {x : List (Option ℝ)} {dt : ℝ} (hu : UniformAxis t dt) (h2 : 2 ≤ t.length)
    (hl : t.length = x.length) (hst : s.time = arr1 (t.map some)) (hsx : s.xTime = arr1 x) (fmin fmax : ℝ) :
    ∃ s' y, s.getBandpassfilter A fmin fmax = .ok s' ∧ s'.time = s.time ∧ s'.dt = some dt ∧ s'.nt = t.length ∧ s'.xTime = arr1 y ∧
      bandpassfilterN A (vec t) (vec x) fmin fmax = .ok y ∧
      ((∃ p, p ≤ x.length / 2 ∧ keptBins t fmin fmax p) → ∀ j : Nat, x[j]? = some none → y[j]? = some none) := by
  have hm : AcceptedAxis t := uniform_check_accepts_uniform h2 hu
  obtain ⟨y, q1, q2, q3, -⟩ := gap_filter_at A (isArr_vec t) (isArr_vec x) hm hl fmin fmax
  obtain ⟨s', -, -, -, a1, a2, a3, a4, a5, -⟩ := gap_series (x := y) hu (by rw [q2, hl]) h2
  refine ⟨s', y, ?_, by rw [a2, hst], a5, a4, a3, q1, q3⟩
  have hax : axisN s.time = .ok ⟨[t.length], t⟩ := by
    unfold axisN
    rw [hst]
    simp only [arr1, allFinite_some, List.length_map]
  unfold SeriesN.getBandpassfilter
  rw [hax]
  simp only [bind, Except.bind]
  have q1' : bandpassfilterN A (.nd ⟨[t.length], t⟩) (.nd s.xTime) fmin fmax = .ok y := by rw [hsx]; exact q1
  rw [q1']
  simp only
  rw [hst]
  exact a1

/-! ## Concrete cases -/

example : ∃ s s' : SeriesN ℝ, SeriesN.init (vec (([0, 1, 2, 3, 4] : List ℝ).map some)) (vec [some 1, none, some 2, some (-5), some 3]) = .ok s ∧
    s.getBandpassfilter FftN.strict 0 1 = .ok s' ∧ s'.time = s.time := by
  have hu : UniformAxis ([0, 1, 2, 3, 4] : List ℝ) 1 := ⟨by norm_num, fun i hi => by
    have : i < 4 := by simp only [List.length_cons, List.length_nil] at hi; omega
    interval_cases i <;> norm_num⟩
  obtain ⟨s, -, -, -, h1, h3, h4, -⟩ := gap_series (x := ([some 1, none, some 2, some (-5), some 3] : List (Option ℝ))) hu rfl (by simp)
  obtain ⟨s', -, a, b, -⟩ := gap_filter_object FftN.strict hu (by simp) rfl h3 h4 0 1
  exact ⟨s, s', h1, a, b⟩

theorem axis6_top : topFreq [0, 1, 2, 3, 4, 5] = 1 / 2 ∧ freqStep [0, 1, 2, 3, 4, 5] = 1 / 6 := by
  unfold topFreq freqStep
  norm_num

/-- A filter that keeps everything: the missing sample stays missing. -/
example : ∃ y, bandpassfilterN FftN.strict (vec [0, 1, 2, 3, 4, 5]) (vec [some 1, none, some 2, some 5, some 3, some 1]) 0 1 = .ok y ∧ y[1]? = some none := by
  obtain ⟨y, a, -, b, -⟩ := gap_filter_at FftN.strict (isArr_vec ([0, 1, 2, 3, 4, 5] : List ℝ))
    (isArr_vec ([some 1, none, some 2, some 5, some 3, some 1] : List (Option ℝ))) axis6 rfl 0 1
  exact ⟨y, a, b ⟨1, by simp, (lowpass_bins axis6 1).1 (.inl (by rw [axis6_top.1]; norm_num))⟩ 1 rfl⟩

/-- A filter whose range lies below the first frequency: all zeros, no NaN. -/
example : bandpassfilterN FftN.strict (vec [0, 1, 2, 3, 4, 5]) (vec [some 1, none, some 2, some 5, some 3, some 1]) 0 (1 / 10) =
    .ok (List.replicate 6 (some 0)) := by
  obtain ⟨y, a, -, -, b⟩ := gap_filter_at FftN.strict (isArr_vec ([0, 1, 2, 3, 4, 5] : List ℝ))
    (isArr_vec ([some 1, none, some 2, some 5, some 3, some 1] : List (Option ℝ))) axis6 rfl 0 (1 / 10)
  rw [a, b fun p hp => (lowpass_bins axis6 (1 / 10)).2 (by rw [axis6_top.1, axis6_top.2]; norm_num) p hp]
  rfl

/-- A record of six samples with one missing: with a cut-off of 0.4 no wave is left, with a cut-off of 0.1 the result is that without. -/
example : ∃ s : SeriesN ℝ, SeriesN.init (vec (([0, 1, 2, 3, 4, 5] : List ℝ).map some)) (vec [some 1, some (-1), some 2, some (-5), some 3, none]) = .ok s ∧
    (∃ s', s.individualWaves FftN.strict "down" (2 / 5) 0 = .ok (noWaves, [], s')) ∧
    s.individualWaves FftN.strict "down" (1 / 10) 0 = s.individualWaves FftN.strict "down" 0 0 := by
  have hu : UniformAxis ([0, 1, 2, 3, 4, 5] : List ℝ) 1 := ⟨by norm_num, fun i hi => by
    have : i < 5 := by simp only [List.length_cons, List.length_nil] at hi; omega
    interval_cases i <;> norm_num⟩
  obtain ⟨s, -, -, -, h1, h3, h4, -⟩ := gap_series (x := ([some 1, some (-1), some 2, some (-5), some 3, none] : List (Option ℝ))) hu rfl (by simp)
  have hd : ("down" : String).toLower = "down" := by decide +kernel
  refine ⟨s, h1, ⟨_, (gap_cutoff_waves FftN.strict axis6 rfl h3 h4 (by simp) (.inr hd) (by norm_num) 0).1 (.inr (by rw [axis6_top.2]; norm_num))⟩, ?_⟩
  exact (gap_cutoff_waves FftN.strict axis6 rfl h3 h4 (by simp) (.inr hd) (by norm_num) 0).2 (by rw [axis6_top.1, axis6_top.2]; norm_num)

end Verif
