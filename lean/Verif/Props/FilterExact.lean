import Verif.Props.Filter

/-! # C98: bands with the upper limit raised by one frequency step -/

namespace Verif
open Finset

/-- The frequency step of a record: one over its duration. -/
noncomputable def freqStep (ts : List ℝ) : ℝ := 1 / ((ts.length : ℝ) * (ts.getD 1 0 - ts.getD 0 0))

/-- The highest frequency of the folded axis: `n/2` (rounded down) steps. -/
noncomputable def topFreq (ts : List ℝ) : ℝ := ((ts.length / 2 : ℕ) : ℝ) * freqStep ts

theorem kept_raised {ts : List ℝ} (hm : AcceptedAxis ts) {flow fhigh : ℝ} (htop : fhigh + freqStep ts < topFreq ts) {i : Nat} (hi : i < ts.length / 2 + 1) :
    keptBins ts flow (fhigh + freqStep ts) i ↔ 1 ≤ i ∧ flow ≤ i * freqStep ts ∧ i * freqStep ts < fhigh := by
  have hdf : 0 < freqStep ts := dfOf_pos hm
  have hfl : (freqAxis (ts.length / 2 + 1) (dfOf ts)).length = ts.length / 2 + 1 := by simp [freqAxis]
  have g : ∀ i, i < ts.length / 2 + 1 → (freqAxis (ts.length / 2 + 1) (dfOf ts)).getD i 0 = i * freqStep ts := by
    intro i hi; unfold freqAxis; rw [getD_map_range _ _ _ _ hi]; rfl
  unfold keptBins Kept
  rw [hfl, g i hi, g _ (by omega), Nat.add_sub_cancel]
  change 1 ≤ i ∧ _ ∧ flow < topFreq ts ∧ (topFreq ts ≤ _ ∨ _) ↔ _
  constructor
  · rintro ⟨h1, h2, -, h | ⟨h3, h4⟩⟩
    · exact absurd htop (not_lt.2 h)
    · rw [g _ (by omega)] at h4
      push_cast at h4
      exact ⟨h1, h2, by linarith⟩
  · rintro ⟨h1, h2, h3⟩
    have hlt : i * freqStep ts + freqStep ts < topFreq ts := by linarith
    have hi2 : i + 1 < ts.length / 2 + 1 := by
      by_contra hc
      have : i = ts.length / 2 := by omega
      rw [this] at hlt
      unfold topFreq at hlt
      linarith
    refine ⟨h1, h2, by linarith, .inr ⟨by omega, ?_⟩⟩
    rw [g _ hi2]
    push_cast
    linarith

theorem kept_top {ts : List ℝ} {flow fhigh : ℝ} (htop : topFreq ts ≤ fhigh) {i : Nat} (hi : i < ts.length / 2 + 1) :
    keptBins ts flow fhigh i ↔ 1 ≤ i ∧ flow ≤ i * freqStep ts ∧ flow < topFreq ts := by
  have hfl : (freqAxis (ts.length / 2 + 1) (dfOf ts)).length = ts.length / 2 + 1 := by simp [freqAxis]
  have g : ∀ i, i < ts.length / 2 + 1 → (freqAxis (ts.length / 2 + 1) (dfOf ts)).getD i 0 = i * freqStep ts := by
    intro i hi; unfold freqAxis; rw [getD_map_range _ _ _ _ hi]; rfl
  unfold keptBins Kept
  rw [hfl, g i hi, g _ (by omega), Nat.add_sub_cancel]
  change 1 ≤ i ∧ _ ∧ flow < topFreq ts ∧ (topFreq ts ≤ _ ∨ _) ↔ _
  constructor
  · rintro ⟨h1, h2, h3, -⟩; exact ⟨h1, h2, h3⟩
  · rintro ⟨h1, h2, h3⟩; exact ⟨h1, h2, h3, .inl htop⟩

theorem maskFilt_add {P Q R : Nat → Prop} {xs : List ℝ} (hor : ∀ i < xs.length / 2 + 1, R i ↔ P i ∨ Q i)
    (hno : ∀ i < xs.length / 2 + 1, ¬ (P i ∧ Q i)) {j : Nat} (hj : j < xs.length) :
    (maskFilt R xs).getD j 0 = (maskFilt P xs).getD j 0 + (maskFilt Q xs).getD j 0 := by
  rw [maskFilt_getD _ _ hj, maskFilt_getD _ _ hj, maskFilt_getD _ _ hj, ← add_div, ← sum_add_distrib]
  congr 1
  refine sum_congr rfl fun k hk => ?_
  have hk := mem_range.1 hk
  have hi : min k (xs.length - k) < xs.length / 2 + 1 := by omega
  generalize min k (xs.length - k) = i at *
  have h1 := hor i hi
  have h2 := hno i hi
  by_cases hp : P i <;> by_cases hq : Q i
  · exact absurd ⟨hp, hq⟩ h2
  · rw [if_pos (h1.2 (.inl hp)), if_pos hp, if_neg hq, add_zero]
  · rw [if_pos (h1.2 (.inr hq)), if_neg hp, if_pos hq, zero_add]
  · rw [if_neg (fun h => (h1.1 h).elim hp hq), if_neg hp, if_neg hq, add_zero]

/-- **C98 (exact band).**  If the upper limit passed to the filter is one frequency step above `fhigh` (and below the highest frequency of the axis),
exactly the components with `fmin ≤ f < fhigh`, except the mean, are kept: component `i` of the transform belongs to the frequency `i` steps. -/
theorem bandpass_raised_limit {t x : PyIn ℝ} {ts xs : List ℝ} (ht : t.IsArr ts) (hx : x.IsArr xs) (hm : AcceptedAxis ts)
    (hl : ts.length = xs.length) {flow fhigh : ℝ} (htop : fhigh + freqStep ts < topFreq ts) :
    ∃ y f X Y isOdd, bandpassfilter t x flow (fhigh + freqStep ts) = .ok y ∧ y.length = xs.length ∧
      time2freqNyquist t x = .ok (f, X, isOdd) ∧ time2freqNyquist t (vec y) = .ok (f, Y, isOdd) ∧ f.length = xs.length / 2 + 1 ∧
      ∀ i < f.length, f.getD i 0 = i * freqStep ts ∧
        (i ≠ 0 → flow ≤ f.getD i 0 → f.getD i 0 < fhigh → Y.getD i 0 = X.getD i 0) ∧
        (i = 0 ∨ f.getD i 0 < flow ∨ fhigh ≤ f.getD i 0 → Y.getD i 0 = 0) := by
  have hyl := maskFilt_length (keptBins ts flow (fhigh + freqStep ts)) xs
  have e2 := time2freqNyquist_eq ht (isArr_vec (maskFilt (keptBins ts flow (fhigh + freqStep ts)) xs)) hm (by rw [hyl, hl])
  rw [hyl] at e2
  refine ⟨_, _, _, _, _, bandpassfilter_eq ht hx hm hl flow _, hyl, time2freqNyquist_eq ht hx hm hl, e2, by simp [freqAxis], ?_⟩
  intro i hi
  have hi' : i < xs.length / 2 + 1 := by simpa [freqAxis] using hi
  have hmin : min i (xs.length - i) = i := by omega
  have h2 := mono_two_le hm
  have hfi : (freqAxis (xs.length / 2 + 1) (dfOf ts)).getD i 0 = i * freqStep ts := by unfold freqAxis; rw [getD_map_range _ _ _ _ hi']; rfl
  have hk := kept_raised hm (flow := flow) htop (i := i) (by rw [hl]; exact hi')
  rw [hfi, getD_map_range _ _ _ _ hi', getD_map_range _ _ _ _ hi', coef_maskFilt _ _ (by omega), hmin]
  refine ⟨rfl, fun h0 h1 h2 => if_pos (hk.2 ⟨by omega, h1, h2⟩), fun h => if_neg fun hc => ?_⟩
  obtain ⟨a, b, c⟩ := hk.1 hc
  rcases h with h | h | h
  · omega
  · exact absurd b (not_le.2 h)
  · exact absurd c (not_lt.2 h)

/-- **C98 (adjacent bands).**  With the upper limits raised by one step, adjacent bands add up: `[a, b)` and `[b, c)` give `[a, c)`. -/
theorem bandpass_bands_add {t x : PyIn ℝ} {ts xs : List ℝ} (ht : t.IsArr ts) (hx : x.IsArr xs) (hm : AcceptedAxis ts)
    (hl : ts.length = xs.length) {a b c : ℝ} (hab : a ≤ b) (hbc : b ≤ c) (htop : c + freqStep ts < topFreq ts) :
    ∃ y1 y2 y, bandpassfilter t x a (b + freqStep ts) = .ok y1 ∧ bandpassfilter t x b (c + freqStep ts) = .ok y2 ∧
      bandpassfilter t x a (c + freqStep ts) = .ok y ∧ y1.length = xs.length ∧ y2.length = xs.length ∧ y.length = xs.length ∧
      ∀ j < xs.length, y.getD j 0 = y1.getD j 0 + y2.getD j 0 := by
  refine ⟨_, _, _, bandpassfilter_eq ht hx hm hl _ _, bandpassfilter_eq ht hx hm hl _ _, bandpassfilter_eq ht hx hm hl _ _, maskFilt_length _ _,
    maskFilt_length _ _, maskFilt_length _ _, fun j hj => maskFilt_add (fun i hi => ?_) (fun i hi => ?_) hj⟩ <;> rw [← hl] at hi
  · rw [kept_raised hm htop hi, kept_raised hm (by linarith) hi, kept_raised hm htop hi]
    constructor
    · rintro ⟨h1, h2, h3⟩
      rcases lt_or_ge (i * freqStep ts) b with h | h
      · exact .inl ⟨h1, h2, h⟩
      · exact .inr ⟨h1, h, h3⟩
    · rintro (⟨h1, h2, h3⟩ | ⟨h1, h2, h3⟩)
      · exact ⟨h1, h2, by linarith⟩
      · exact ⟨h1, by linarith, h3⟩
  · rw [kept_raised hm (by linarith) hi, kept_raised hm htop hi]
    rintro ⟨⟨-, -, h⟩, ⟨-, h', -⟩⟩
    linarith

/-- **C98 (low and high part).**  The part below `fc` (upper limit raised by one step), the part from `fc` on and the mean add up to the signal. -/
theorem low_high_split_raised {t x : PyIn ℝ} {ts xs : List ℝ} (ht : t.IsArr ts) (hx : x.IsArr xs) (hm : AcceptedAxis ts)
    (hl : ts.length = xs.length) {flow fhigh : ℝ} (h0 : flow ≤ 0) (h1 : 1 / (2 * (ts.getD 1 0 - ts.getD 0 0)) ≤ fhigh)
    {fc : ℝ} (htop : fc + freqStep ts < topFreq ts) :
    ∃ lo hi, bandpassfilter t x flow (fc + freqStep ts) = .ok lo ∧ bandpassfilter t x fc fhigh = .ok hi ∧ lo.length = xs.length ∧ hi.length = xs.length ∧
      ∀ j < xs.length, xs.getD j 0 = lo.getD j 0 + hi.getD j 0 + mean xs := by
  have hdf : 0 < freqStep ts := dfOf_pos hm
  have hdt := mono_dt_pos hm
  have h2 := mono_two_le hm
  have hlast : topFreq ts ≤ fhigh := by
    refine le_trans ?_ h1
    unfold topFreq freqStep
    have hnp : (0 : ℝ) < ts.length := by exact_mod_cast (by omega : 0 < ts.length)
    rw [← div_eq_mul_one_div, div_le_div_iff₀ (by positivity) (by positivity)]
    have h3 : ((2 * (ts.length / 2) : ℕ) : ℝ) ≤ (ts.length : ℝ) := by exact_mod_cast (by omega)
    rw [Nat.cast_mul] at h3
    have h4 := mul_le_mul_of_nonneg_right h3 hdt.le
    have e : ((2 : ℕ) : ℝ) = 2 := by norm_num
    rw [e] at h4
    linarith
  have htp : 0 < topFreq ts := by
    have : (0 : ℝ) < ((ts.length / 2 : ℕ) : ℝ) := by exact_mod_cast (by omega : 0 < ts.length / 2)
    unfold topFreq; positivity
  refine ⟨_, _, bandpassfilter_eq ht hx hm hl _ _, bandpassfilter_eq ht hx hm hl _ _, maskFilt_length _ _, maskFilt_length _ _, fun j hj => ?_⟩
  have hfull := bandpass_full_band ht hx hm hl h0 h1
  rw [bandpassfilter_eq ht hx hm hl] at hfull
  have hfull := Except.ok.inj hfull
  rw [← maskFilt_add (P := keptBins ts flow (fc + freqStep ts)) (Q := keptBins ts fc fhigh) (R := keptBins ts flow fhigh) ?_ ?_ hj, hfull,
    List.getD_eq_getElem _ _ hj, List.getD_eq_getElem _ _ (by simpa using hj), List.getElem_map]
  · ring
  · intro i hi
    rw [← hl] at hi
    rw [kept_top hlast hi, kept_raised hm htop hi, kept_top hlast hi]
    have hi0 : (0 : ℝ) ≤ i * freqStep ts := by positivity
    constructor
    · rintro ⟨a, b, c⟩
      rcases lt_or_ge (i * freqStep ts) fc with h | h
      · exact .inl ⟨a, b, h⟩
      · exact .inr ⟨a, h, by linarith⟩
    · rintro (⟨a, b, c⟩ | ⟨a, b, c⟩)
      · exact ⟨a, b, by linarith⟩
      · exact ⟨a, by linarith, by linarith⟩
  · intro i hi
    rw [← hl] at hi
    rw [kept_raised hm htop hi, kept_top hlast hi]
    rintro ⟨⟨-, -, h⟩, ⟨-, h', -⟩⟩
    linarith

/-- Six samples, one second apart: steps of 1/6 Hz. -/
theorem axis6 : AcceptedAxis [0, 1, 2, 3, 4, 5] := by
  refine uniform_check_accepts_uniform (dx := 1) (by simp) ⟨one_pos, fun i hi => ?_⟩
  have : i < 5 := by simp at hi; omega
  interval_cases i <;> norm_num

/-- Non-vacuity: with `fc` = 0.25 Hz the first harmonic goes to the low part, the others to the high part. -/
example : ∃ lo hi, bandpassfilter (vec [0, 1, 2, 3, 4, 5]) (vec [1, 0, 2, 5, 3, 1]) 0 (1 / 4 + 1 / 6) = .ok lo ∧
    bandpassfilter (vec [0, 1, 2, 3, 4, 5]) (vec [1, 0, 2, 5, 3, 1]) (1 / 4) 1 = .ok hi ∧
    ∀ j < 6, ([1, 0, 2, 5, 3, 1] : List ℝ).getD j 0 = lo.getD j 0 + hi.getD j 0 + 2 := by
  have hs : freqStep [0, 1, 2, 3, 4, 5] = 1 / 6 := by norm_num [freqStep]
  obtain ⟨lo, hi, a, b, -, -, c⟩ := low_high_split_raised (isArr_vec _) (isArr_vec [1, 0, 2, 5, 3, 1]) axis6 rfl (le_refl 0) (fhigh := 1) (by norm_num)
    (fc := 1 / 4) (by norm_num [topFreq, hs])
  rw [hs] at a
  refine ⟨lo, hi, a, b, fun j hj => ?_⟩
  rw [c j hj]
  norm_num [mean]

/-! ## Concrete cases: the hypotheses of the theorems above are met -/

example := bandpass_raised_limit (isArr_vec [0, 1, 2, 3, 4, 5]) (isArr_vec [1, 0, 2, 5, 3, 1]) axis6 rfl (flow := 0) (fhigh := 1 / 4)
  (by norm_num [topFreq, freqStep])
example := bandpass_bands_add (isArr_vec [0, 1, 2, 3, 4, 5]) (isArr_vec [1, 0, 2, 5, 3, 1]) axis6 rfl (a := 0) (b := 1 / 5) (c := 3 / 10)
  (by norm_num) (by norm_num) (by norm_num [topFreq, freqStep])

end Verif
