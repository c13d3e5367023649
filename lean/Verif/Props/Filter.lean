import Verif.Props.Fourier

/-! # C32 - C34: the band-pass filter -/

set_option linter.unusedSectionVars false

namespace Verif
open Finset
open scoped Classical

/-! ## Which bins are kept -/

section
variable {K : Type} [Field K] [LinearOrder K] [IsStrictOrderedRing K] [FloorRing K]

/-- What the code keeps on an increasing folded axis `f`: never the zero-frequency bin, no bin below `flow`, and - unless
`fhigh` reaches the last frequency - only bins whose *successor* is still below `fhigh`. -/
def Kept (f : List K) (flow fhigh : K) (i : Nat) : Prop :=
  1 ≤ i ∧ flow ≤ f.getD i 0 ∧ flow < f.getD (f.length - 1) 0 ∧
    (f.getD (f.length - 1) 0 ≤ fhigh ∨ i + 1 < f.length ∧ f.getD (i + 1) 0 < fhigh)

/-- Strictly increasing. -/
def Increasing (f : List K) : Prop := ∀ i j, i < j → j < f.length → f.getD i 0 < f.getD j 0

theorem Increasing.le {f : List K} (h : Increasing f) {i j : Nat} (hij : i ≤ j) (hj : j < f.length) : f.getD i 0 ≤ f.getD j 0 := by
  rcases Nat.lt_or_eq_of_le hij with h' | rfl
  · exact (h i j h' hj).le
  · exact le_rfl

theorem lastE_getD {f : List K} (hne : f ≠ []) : lastE f = .ok (f.getD (f.length - 1) 0) := by
  rw [lastE_ok, List.getLast?_eq_getElem?]
  have : f.length - 1 < f.length := by have := List.length_pos_iff.2 hne; omega
  rw [List.getD_eq_getElem _ _ this, List.getElem?_eq_getElem this]

theorem lastWhere_lt {f : List K} (h : Increasing f) (h2 : 2 ≤ f.length) {v : K} (h0 : f.getD 0 0 < v) :
    ∃ m, lastE (whereIdx (fun u => decide (u < v)) f) = .ok m ∧ m < f.length ∧ f.getD m 0 < v ∧
      ∀ i < f.length, f.getD i 0 < v → i ≤ m := by
  have hex : ∃ (i : Nat) (u : K), f[i]? = some u ∧ (fun u => decide (u < v)) u = true := by
    refine ⟨0, f.getD 0 0, ?_, by simpa using h0⟩
    rw [List.getD_eq_getElem _ _ (by omega), List.getElem?_eq_getElem (by omega)]
  obtain ⟨m, hm⟩ := last_where_exists hex
  obtain ⟨⟨u, hu1, hu2⟩, hmax⟩ := last_where_spec hm
  obtain ⟨hml, rfl⟩ := List.getElem?_eq_some_iff.1 hu1
  refine ⟨m, hm, hml, ?_, ?_⟩
  · rw [List.getD_eq_getElem _ _ hml]; simpa using hu2
  · intro i hi hlt
    refine hmax i (f.getD i 0) ?_ (by simpa using hlt)
    rw [List.getD_eq_getElem _ _ hi, List.getElem?_eq_getElem hi]

theorem bandIndices_spec {f : List K} (h : Increasing f) (h2 : 2 ≤ f.length) (flow fhigh : K) :
    ∃ il ih, bandIndices f flow fhigh = .ok (il, ih) ∧ ∀ i < f.length, (il ≤ i ∧ i < ih ↔ Kept f flow fhigh i) := by
  have hne : f ≠ [] := by rintro rfl; simp at h2
  have g0 : getE f 0 = .ok (f.getD 0 0) := by
    rw [getE_ok, List.getD_eq_getElem _ _ (by omega), List.getElem?_eq_getElem (by omega)]
  have gl := lastE_getD hne
  have h0l : f.getD 0 0 < f.getD (f.length - 1) 0 := h 0 _ (by omega) (by omega)
  -- lower index
  have hlow : ∃ il, bandLow f (f.getD 0 0) (f.getD (f.length - 1) 0) flow = .ok il ∧ 1 ≤ il ∧
      ∀ i < f.length, il ≤ i ↔ 1 ≤ i ∧ flow ≤ f.getD i 0 ∧ flow < f.getD (f.length - 1) 0 := by
    unfold bandLow
    split_ifs with h1 h3
    · refine ⟨1, rfl, le_rfl, fun i hi => ⟨fun hi1 => ⟨hi1, le_trans h1 (h.le (by omega) hi), lt_of_le_of_lt h1 h0l⟩, fun hh => hh.1⟩⟩
    · refine ⟨f.length, rfl, by omega, fun i hi => ⟨fun hi1 => by omega, fun hh => absurd hh.2.2 (not_lt.2 h3)⟩⟩
    · push Not at h1 h3
      obtain ⟨m, hm, hml, hmv, hmax⟩ := lastWhere_lt h h2 h1
      refine ⟨m + 1, by rw [hm]; rfl, by omega, fun i hi => ⟨fun hi1 => ⟨by omega, ?_, h3⟩, fun hh => ?_⟩⟩
      · by_contra hc
        have := hmax i hi (not_le.1 hc)
        omega
      · by_contra hc
        have : f.getD i 0 ≤ f.getD m 0 := h.le (by omega) hml
        exact absurd (lt_of_le_of_lt this hmv) (not_lt.2 hh.2.1)
  have hhigh : ∃ ih, bandHigh f (f.getD 0 0) (f.getD (f.length - 1) 0) fhigh = .ok ih ∧
      ∀ i < f.length, 1 ≤ i → (i < ih ↔ (f.getD (f.length - 1) 0 ≤ fhigh ∨ i + 1 < f.length ∧ f.getD (i + 1) 0 < fhigh)) := by
    unfold bandHigh
    split_ifs with h1 h3
    · refine ⟨1, rfl, fun i hi hi1 => ⟨fun h' => by omega, ?_⟩⟩
      rintro (hh | ⟨ha, hb⟩)
      · exact absurd (lt_of_lt_of_le h0l hh) (not_lt.2 h1)
      · exact absurd (lt_of_lt_of_le hb h1) (not_lt.2 (h.le (by omega) ha))
    · exact ⟨f.length, rfl, fun i hi hi1 => ⟨fun _ => .inl h3, fun _ => hi⟩⟩
    · push Not at h1 h3
      obtain ⟨m, hm, hml, hmv, hmax⟩ := lastWhere_lt h h2 h1
      refine ⟨m, hm, fun i hi hi1 => ⟨fun hlt => .inr ⟨by omega, ?_⟩, ?_⟩⟩
      · exact lt_of_le_of_lt (h.le (by omega) hml) hmv
      · rintro (hh | ⟨ha, hb⟩)
        · exact absurd h3 (not_lt.2 hh)
        · have := hmax _ ha hb; omega
  obtain ⟨il, e1, hil1, hil⟩ := hlow
  obtain ⟨ih, e2, hih⟩ := hhigh
  refine ⟨il, ih, ?_, ?_⟩
  · unfold bandIndices
    simp only [g0, gl, bind, Except.bind, e1, e2]
    rfl
  · intro i hi
    unfold Kept
    constructor
    · rintro ⟨ha, hb⟩
      have h1 := (hil i hi).1 ha
      exact ⟨h1.1, h1.2.1, h1.2.2, (hih i hi h1.1).1 hb⟩
    · rintro ⟨ha, hb, hc, hd⟩
      exact ⟨(hil i hi).2 ⟨ha, hb, hc⟩, (hih i hi ha).2 hd⟩

end

/-! ## Closed form of the filter -/

/-- Keep the bins `k` of the unfolded spectrum whose folded index `min k (n-k)` satisfies `P`. -/
noncomputable def maskFilt (P : Nat → Prop) (xs : List ℝ) : List ℝ :=
  (List.range xs.length).map fun j => (inv xs.length (fun k => if P (min k (xs.length - k)) then coef xs k else 0) j).re

theorem maskFilt_length (P : Nat → Prop) (xs : List ℝ) : (maskFilt P xs).length = xs.length := by simp [maskFilt]

theorem coef_maskFilt (P : Nat → Prop) (xs : List ℝ) {k : Nat} (hk : k < xs.length) :
    coef (maskFilt P xs) k = if P (min k (xs.length - k)) then coef xs k else 0 := by
  have hn : 0 < xs.length := by omega
  have hx0 : (starRingEnd ℂ) (coef xs 0) = coef xs 0 := by rw [coef_zero, Complex.conj_ofReal]
  unfold coef
  rw [maskFilt_length]
  rw [fwd_congr (y := inv xs.length (fun k => if P (min k (xs.length - k)) then coef xs k else 0))]
  · exact fwd_inv hn _ hk
  · intro j hj
    unfold maskFilt
    rw [getD_map_range _ _ _ _ hj]
    apply Complex.conj_eq_iff_re.1
    apply inv_real hn
    · split_ifs
      · exact hx0
      · simp
    · intro k h0 hk
      have e : min (xs.length - k) (xs.length - (xs.length - k)) = min k (xs.length - k) := by omega
      rw [e]
      split_ifs
      · exact coef_conj xs hk.le hn
      · simp

/-- A real signal is determined by its Fourier coefficients. -/
theorem eq_of_coef {xs ys : List ℝ} (hl : xs.length = ys.length) (h : ∀ k < xs.length, coef xs k = coef ys k) : xs = ys := by
  rw [list_eq_map_range xs, list_eq_map_range ys, ← hl]
  refine List.map_congr_left fun j hj => ?_
  have hj' := List.mem_range.1 hj
  have hn : 0 < xs.length := by omega
  have e1 := inv_fwd hn (fun j => ((xs.getD j 0 : ℝ) : ℂ)) hj'
  have e2 := inv_fwd hn (fun j => ((ys.getD j 0 : ℝ) : ℂ)) hj'
  have e3 : inv xs.length (fwd xs.length fun j => ((xs.getD j 0 : ℝ) : ℂ)) j = inv xs.length (fwd xs.length fun j => ((ys.getD j 0 : ℝ) : ℂ)) j := by
    refine inv_congr (fun k hk => ?_) j
    have := h k hk
    unfold coef at this
    rw [← hl] at this
    exact this
  rw [e1, e2] at e3
  exact_mod_cast e3

theorem freqAxis_increasing (n : Nat) {df : ℝ} (h : 0 < df) : Increasing (freqAxis n df) := by
  intro i j hij hj
  have hj' : j < n := by simpa [freqAxis] using hj
  unfold freqAxis
  rw [getD_map_range _ _ _ _ hj', getD_map_range _ _ _ _ (by omega)]
  have : (i : ℝ) < j := by exact_mod_cast hij
  nlinarith

theorem applyBandFilter_getD {f : List ℝ} {X Z : List ℂ} {il ih : Nat} {flow fhigh : ℝ}
    (hb : bandIndices f flow fhigh = .ok (il, ih)) (hZ : applyBandFilter f X flow fhigh = .ok Z) :
    Z.length = X.length ∧ ∀ i < X.length, Z.getD i 0 = if il ≤ i ∧ i < ih then X.getD i 0 else 0 := by
  unfold applyBandFilter at hZ
  rw [hb] at hZ
  simp only [bind, Except.bind, pure, Except.pure, Except.ok.injEq] at hZ
  subst hZ
  refine ⟨by simp, fun i hi => ?_⟩
  rw [List.getD_eq_getElem _ _ (by simpa using hi), List.getD_eq_getElem _ _ hi]
  simp

/-- The band of bins kept for the time axis `ts`. -/
noncomputable def keptBins (ts : List ℝ) (flow fhigh : ℝ) (i : Nat) : Prop :=
  Kept (freqAxis (ts.length / 2 + 1) (dfOf ts)) flow fhigh i

theorem bandpassfilter_eq {t x : PyIn ℝ} {ts xs : List ℝ} (ht : t.IsArr ts) (hx : x.IsArr xs) (hm : AcceptedAxis ts)
    (hl : ts.length = xs.length) (flow fhigh : ℝ) :
    bandpassfilter t x flow fhigh = .ok (maskFilt (keptBins ts flow fhigh) xs) := by
  have h2 := mono_two_le hm
  set n := xs.length with hn
  set f := freqAxis (n / 2 + 1) (dfOf ts) with hf
  have hfl : f.length = n / 2 + 1 := by simp [hf, freqAxis]
  obtain ⟨il, ih, hb, hk⟩ := bandIndices_spec (freqAxis_increasing (n / 2 + 1) (dfOf_pos hm)) (by rw [← hf, hfl]; omega) flow fhigh
  rw [← hf] at hb hk
  unfold bandpassfilter
  rw [time2freqNyquist_eq ht hx hm hl]
  simp only [bind, Except.bind]
  obtain ⟨Z, hZ⟩ : ∃ Z, applyBandFilter f ((List.range (n / 2 + 1)).map (coef xs)) flow fhigh = .ok Z := by
    unfold applyBandFilter
    rw [hb]
    exact ⟨_, rfl⟩
  obtain ⟨hZl, hZi⟩ := applyBandFilter_getD hb hZ
  simp only [List.length_map, List.length_range] at hZl hZi
  rw [← hn, ← hf, hZ]
  simp only
  unfold unfoldSpectrum
  rw [vecIn_vec, vecIn_vec]
  simp only [bind, Except.bind]
  rw [unfold_eq (n := n) (by omega) hfl hZl]
  simp only
  rw [freq2time_range (by omega)]
  unfold maskFilt
  congr 1
  refine List.map_congr_left fun j _ => ?_
  congr 1
  rw [← hn]
  refine inv_congr (fun k hkn => ?_) j
  unfold symExt keptBins
  have hkept : ∀ i, i ≤ n / 2 → Z.getD i 0 = if Kept f flow fhigh i then coef xs i else 0 := by
    intro i hi
    rw [hZi i (by omega), getD_map_range _ _ _ _ (by omega)]
    have := hk i (by omega)
    by_cases hc : Kept f flow fhigh i
    · rw [if_pos hc, if_pos (this.2 hc)]
    · rw [if_neg hc, if_neg (fun h => hc (this.1 h))]
  rw [hl, ← hf]
  beta_reduce
  split_ifs with h3 h4 h4
  · have e : min k (n - k) = k := by omega
    rw [e] at h4
    rw [hkept k (by omega), if_pos h4]
  · have e : min k (n - k) = k := by omega
    rw [e] at h4
    rw [hkept k (by omega), if_neg h4]
  · have e : min k (n - k) = n - k := by omega
    rw [e] at h4
    rw [hkept (n - k) (by omega), if_pos h4, coef_conj xs hkn.le (by omega), Complex.conj_conj]
  · have e : min k (n - k) = n - k := by omega
    rw [e] at h4
    rw [hkept (n - k) (by omega), if_neg h4, map_zero]

/-! ## C32 -/

/-- **C32 (partial): exactly which Fourier components survive.** The filter never fails on an accepted axis, keeps the
length, and component `i` of the folded transform of the output is that of the input if `Kept` and 0 otherwise.
Missing for the documented property: `Kept` is not `fmin <= f <= fmax` (see `bandpass_drops_highest_bin`,
`bandpass_drops_mean`). -/
theorem bandpass_components_partial {t x : PyIn ℝ} {ts xs : List ℝ} (ht : t.IsArr ts) (hx : x.IsArr xs)
    (hm : AcceptedAxis ts) (hl : ts.length = xs.length) (flow fhigh : ℝ) :
    ∃ y f X Y isOdd, bandpassfilter t x flow fhigh = .ok y ∧ y.length = xs.length ∧
      time2freqNyquist t x = .ok (f, X, isOdd) ∧ time2freqNyquist t (vec y) = .ok (f, Y, isOdd) ∧
      ∀ i < f.length, Y.getD i 0 = if Kept f flow fhigh i then X.getD i 0 else 0 := by
  have h2 := mono_two_le hm
  have hyl := maskFilt_length (keptBins ts flow fhigh) xs
  have e2 := time2freqNyquist_eq ht (isArr_vec (maskFilt (keptBins ts flow fhigh) xs)) hm (by rw [hyl, hl])
  rw [hyl] at e2
  refine ⟨_, _, _, _, _, bandpassfilter_eq ht hx hm hl flow fhigh, hyl, time2freqNyquist_eq ht hx hm hl, e2, ?_⟩
  intro i hi
  have hi' : i < xs.length / 2 + 1 := by simpa [freqAxis] using hi
  rw [getD_map_range _ _ _ _ hi', getD_map_range _ _ _ _ hi', coef_maskFilt _ _ (by omega)]
  have : min i (xs.length - i) = i := by omega
  rw [this]
  unfold keptBins
  rw [hl]

/-- **C32 (sound part).** Nothing outside the requested band passes: a surviving component has `fmin <= f <= fmax`. -/
theorem bandpass_passes_only_band {f : List ℝ} (hf : Increasing f) {flow fhigh : ℝ} {i : Nat} (hi : i < f.length)
    (h : Kept f flow fhigh i) : flow ≤ f.getD i 0 ∧ f.getD i 0 ≤ fhigh := by
  refine ⟨h.2.1, ?_⟩
  rcases h.2.2.2 with h' | ⟨h1, h2⟩
  · exact le_trans (hf.le (by omega) (by omega)) h'
  · exact le_trans (hf i (i + 1) (by omega) h1).le h2.le

/-- **C32 is false (1)**: for *every* band whose upper limit lies below the last frequency, the highest frequency inside the
band is removed although it is in the band. -/
theorem bandpass_drops_highest_bin {t x : PyIn ℝ} {ts xs : List ℝ} (ht : t.IsArr ts) (hx : x.IsArr xs)
    (hm : AcceptedAxis ts) (hl : ts.length = xs.length) {flow fhigh : ℝ} :
    ∃ y f X Y isOdd, bandpassfilter t x flow fhigh = .ok y ∧ time2freqNyquist t x = .ok (f, X, isOdd) ∧
      time2freqNyquist t (vec y) = .ok (f, Y, isOdd) ∧
      ∀ i, i + 1 < f.length → f.getD i 0 ≤ fhigh → fhigh ≤ f.getD (i + 1) 0 → fhigh < f.getD (f.length - 1) 0 →
        Y.getD i 0 = 0 := by
  obtain ⟨y, f, X, Y, o, h1, -, h3, h4, h5⟩ := bandpass_components_partial ht hx hm hl flow fhigh
  refine ⟨y, f, X, Y, o, h1, h3, h4, fun i hi ha hb hc => ?_⟩
  rw [h5 i (by omega), if_neg]
  rintro ⟨-, -, -, h | ⟨-, h⟩⟩
  · exact absurd hc (not_lt.2 h)
  · exact absurd h (not_lt.2 hb)

theorem axis4 : AcceptedAxis [0, 1, 2, 3] := by
  refine uniform_check_accepts_uniform (dx := 1) (by simp) ⟨one_pos, fun i hi => ?_⟩
  have : i = 0 ∨ i = 1 ∨ i = 2 := by simp at hi; omega
  rcases this with rfl | rfl | rfl <;> norm_num

/-- **C32 is false (2)**, concretely: a pure 0.25 Hz cosine is wiped out by the band [0.2 Hz, 0.3 Hz]. -/
theorem bandpass_kills_inband_cosine :
    bandpassfilter (vec [0, 1, 2, 3]) (vec [1, 0, -1, 0]) (1/5) (3/10) = .ok [0, 0, 0, 0] := by
  rw [bandpassfilter_eq (isArr_vec _) (isArr_vec [1, 0, -1, 0]) axis4 rfl]
  congr 1
  have hk : ∀ k, ¬ keptBins [0, 1, 2, 3] (1/5) (3/10) k := by
    rintro k ⟨h1, -, -, h | ⟨h3, h4⟩⟩
    · norm_num [freqAxis, dfOf, List.range_succ] at h
    · have hk1 : k = 1 := by simp [freqAxis] at h3; omega
      subst hk1
      norm_num [freqAxis, dfOf, List.range_succ] at h4
  unfold maskFilt
  simp only [hk, if_false]
  norm_num [inv, List.range_succ]

/-! ## C33 -/

theorem maskFilt_idem (P : Nat → Prop) (xs : List ℝ) : maskFilt P (maskFilt P xs) = maskFilt P xs := by
  apply eq_of_coef (by simp [maskFilt_length])
  intro k hk
  simp only [maskFilt_length] at hk
  rw [coef_maskFilt _ _ (by rw [maskFilt_length]; exact hk), maskFilt_length, coef_maskFilt _ _ hk]
  split_ifs <;> rfl

/-- Pointwise `a * x + b * y`. -/
def lincomb (a b : ℝ) (xs ys : List ℝ) : List ℝ := List.zipWith (fun u v => a * u + b * v) xs ys

theorem lincomb_length (a b : ℝ) {xs ys : List ℝ} (h : xs.length = ys.length) : (lincomb a b xs ys).length = xs.length := by
  simp [lincomb, h]

theorem lincomb_getD (a b : ℝ) {xs ys : List ℝ} (h : xs.length = ys.length) {j : Nat} (hj : j < xs.length) :
    (lincomb a b xs ys).getD j 0 = a * xs.getD j 0 + b * ys.getD j 0 := by
  rw [List.getD_eq_getElem _ _ (by rw [lincomb_length a b h]; exact hj), List.getD_eq_getElem _ _ hj,
    List.getD_eq_getElem _ _ (by omega)]
  simp [lincomb]

theorem coef_lincomb (a b : ℝ) {xs ys : List ℝ} (h : xs.length = ys.length) (k : Nat) :
    coef (lincomb a b xs ys) k = a * coef xs k + b * coef ys k := by
  unfold coef
  rw [lincomb_length a b h, ← h, ← fwd_smul, ← fwd_smul, ← fwd_add]
  refine fwd_congr (fun j hj => ?_) k
  rw [lincomb_getD a b h hj]
  push_cast
  rfl

theorem maskFilt_lincomb (P : Nat → Prop) (a b : ℝ) {xs ys : List ℝ} (h : xs.length = ys.length) :
    maskFilt P (lincomb a b xs ys) = lincomb a b (maskFilt P xs) (maskFilt P ys) := by
  have h' : (maskFilt P xs).length = (maskFilt P ys).length := by simp [maskFilt_length, h]
  apply eq_of_coef
  · rw [maskFilt_length, lincomb_length a b h, lincomb_length a b h', maskFilt_length]
  · intro k hk
    rw [maskFilt_length, lincomb_length a b h] at hk
    rw [coef_maskFilt _ _ (by rw [lincomb_length a b h]; exact hk), lincomb_length a b h, coef_lincomb a b h,
      coef_lincomb a b h', coef_maskFilt _ _ hk, coef_maskFilt _ _ (by omega), ← h]
    split_ifs
    · rfl
    · simp

/-- **C33 (linear).** -/
theorem bandpass_linear {t : PyIn ℝ} {ts xs ys : List ℝ} (ht : t.IsArr ts) (hm : AcceptedAxis ts)
    (hl : ts.length = xs.length) (hl' : ts.length = ys.length) (flow fhigh a b : ℝ) :
    ∃ x' y', bandpassfilter t (vec xs) flow fhigh = .ok x' ∧ bandpassfilter t (vec ys) flow fhigh = .ok y' ∧
      bandpassfilter t (vec (lincomb a b xs ys)) flow fhigh = .ok (lincomb a b x' y') := by
  have h : xs.length = ys.length := by omega
  refine ⟨_, _, bandpassfilter_eq ht (isArr_vec _) hm hl _ _, bandpassfilter_eq ht (isArr_vec _) hm hl' _ _, ?_⟩
  rw [bandpassfilter_eq ht (isArr_vec _) hm (by rw [lincomb_length a b h, hl]), maskFilt_lincomb _ _ _ h]

/-- **C33 (idempotent).** -/
theorem bandpass_idempotent {t x : PyIn ℝ} {ts xs : List ℝ} (ht : t.IsArr ts) (hx : x.IsArr xs) (hm : AcceptedAxis ts)
    (hl : ts.length = xs.length) (flow fhigh : ℝ) :
    ∃ y, bandpassfilter t x flow fhigh = .ok y ∧ bandpassfilter t (vec y) flow fhigh = .ok y := by
  refine ⟨_, bandpassfilter_eq ht hx hm hl _ _, ?_⟩
  rw [bandpassfilter_eq ht (isArr_vec _) hm (by rw [maskFilt_length, hl]), maskFilt_idem]

theorem energy_eq {xs : List ℝ} (hn : 0 < xs.length) :
    ∑ k ∈ range xs.length, Complex.normSq (coef xs k) = xs.length * (xs.map (· ^ 2)).sum := by
  have hp := parseval hn (fun j => ((xs.getD j 0 : ℝ) : ℂ))
  change ∑ k ∈ range xs.length, Complex.normSq (coef xs k) = _ at hp
  rw [hp]
  congr 1
  conv_rhs => rw [list_eq_map_range xs, List.map_map, list_sum_map_range]
  refine sum_congr rfl fun j _ => ?_
  rw [Complex.normSq_ofReal]
  simp only [Function.comp]
  ring

/-- **C33 (mean and energy).** The output has zero mean and never more energy than the input. -/
theorem bandpass_zero_mean_contraction {t x : PyIn ℝ} {ts xs : List ℝ} (ht : t.IsArr ts) (hx : x.IsArr xs)
    (hm : AcceptedAxis ts) (hl : ts.length = xs.length) (flow fhigh : ℝ) :
    ∃ y, bandpassfilter t x flow fhigh = .ok y ∧ y.length = xs.length ∧ y.sum = 0 ∧
      (y.map (· ^ 2)).sum ≤ (xs.map (· ^ 2)).sum := by
  have h2 := mono_two_le hm
  have hn : 0 < xs.length := by omega
  refine ⟨_, bandpassfilter_eq ht hx hm hl _ _, maskFilt_length _ _, ?_, ?_⟩
  · have h0 := coef_maskFilt (keptBins ts flow fhigh) xs hn
    rw [coef_zero, if_neg (by
      rw [Nat.zero_min]
      rintro ⟨h1, -⟩
      omega)] at h0
    exact_mod_cast h0
  · have e1 := energy_eq hn
    have hyl := maskFilt_length (keptBins ts flow fhigh) xs
    have e2 := energy_eq (xs := maskFilt (keptBins ts flow fhigh) xs) (by rw [hyl]; exact hn)
    rw [hyl] at e2
    have hle : ∑ k ∈ range xs.length, Complex.normSq (coef (maskFilt (keptBins ts flow fhigh) xs) k)
        ≤ ∑ k ∈ range xs.length, Complex.normSq (coef xs k) := by
      refine sum_le_sum fun k hk => ?_
      rw [coef_maskFilt _ _ (mem_range.1 hk)]
      split_ifs
      · exact le_rfl
      · rw [map_zero]; exact Complex.normSq_nonneg _
    rw [e1, e2] at hle
    exact le_of_mul_le_mul_left hle (by exact_mod_cast hn)

/-- The constant signal. -/
theorem coef_const {n : Nat} (hn : 0 < n) (c : ℝ) (k : Nat) (hk : k < n) :
    coef (List.replicate n c) k = if k = 0 then ((n * c : ℝ) : ℂ) else 0 := by
  unfold coef fwd
  rw [List.length_replicate]
  have e : ∀ j ∈ range n, (((List.replicate n c).getD j 0 : ℝ) : ℂ) * twiddle n (-((j : ℤ) * k))
      = (c : ℂ) * twiddle n ((j : ℤ) * (-(k : ℤ))) := by
    intro j hj
    rw [List.getD_replicate _ (mem_range.1 hj)]
    congr 2; ring
  rw [sum_congr rfl e, ← mul_sum, sum_twiddle hn]
  have hd : ((n : ℤ) ∣ -(k : ℤ)) ↔ k = 0 := by
    have := dvd_sub_iff_eq (n := n) (a := 0) (b := k) hn hk
    simp only [Nat.cast_zero, zero_sub] at this
    rw [this]; exact eq_comm
  simp only [hd]
  split_ifs
  · push_cast; ring
  · simp

/-- **C33 (full band).** With limits covering the whole axis the filter returns the signal minus its mean. -/
theorem bandpass_full_band {t x : PyIn ℝ} {ts xs : List ℝ} (ht : t.IsArr ts) (hx : x.IsArr xs) (hm : AcceptedAxis ts)
    (hl : ts.length = xs.length) {flow fhigh : ℝ} (h0 : flow ≤ 0)
    (h1 : 1 / (2 * (ts.getD 1 0 - ts.getD 0 0)) ≤ fhigh) :
    bandpassfilter t x flow fhigh = .ok (xs.map fun v => v - mean xs) := by
  have h2 := mono_two_le hm
  have hn : 0 < xs.length := by omega
  have hdf := dfOf_pos hm
  have hdt := mono_dt_pos hm
  rw [bandpassfilter_eq ht hx hm hl]
  congr 1
  have hsub : (xs.map fun v => v - mean xs) = lincomb 1 (-1) xs (List.replicate xs.length (mean xs)) := by
    apply List.ext_getElem
    · simp [lincomb]
    · intro i h1 h2
      simp [lincomb]; ring
  rw [hsub]
  apply eq_of_coef
  · rw [maskFilt_length, lincomb_length _ _ (by simp)]
  · intro k hk
    rw [maskFilt_length] at hk
    rw [coef_maskFilt _ _ hk, coef_lincomb _ _ (by simp), coef_const hn _ _ hk]
    by_cases hk0 : k = 0
    · subst hk0
      rw [if_neg (by rw [Nat.zero_min]; rintro ⟨h, -⟩; omega), if_pos rfl, coef_zero]
      unfold mean
      have : (xs.length : ℂ) ≠ 0 := by exact_mod_cast hn.ne'
      push_cast
      field_simp
      ring
    · rw [if_neg hk0, if_pos]
      · simp
      · unfold keptBins Kept
        have hfl : (freqAxis (ts.length / 2 + 1) (dfOf ts)).length = ts.length / 2 + 1 := by simp [freqAxis]
        have g : ∀ i, i < ts.length / 2 + 1 → (freqAxis (ts.length / 2 + 1) (dfOf ts)).getD i 0 = i * dfOf ts := by
          intro i hi; unfold freqAxis; rw [getD_map_range _ _ _ _ hi]
        rw [hfl, g _ (by omega), g _ (by omega)]
        refine ⟨by omega, ?_, ?_, .inl ?_⟩
        · refine le_trans h0 ?_; positivity
        · refine lt_of_le_of_lt h0 ?_
          have : (0 : ℝ) < ((ts.length / 2 + 1 - 1 : ℕ) : ℝ) := by exact_mod_cast (by omega : 0 < ts.length / 2 + 1 - 1)
          positivity
        · refine le_trans ?_ h1
          unfold dfOf
          have hnp : (0 : ℝ) < ts.length := by exact_mod_cast (by omega : 0 < ts.length)
          rw [← div_eq_mul_one_div, div_le_div_iff₀ (by positivity) (by positivity)]
          have h3 : ((2 * (ts.length / 2 + 1 - 1) : ℕ) : ℝ) ≤ (ts.length : ℝ) := by exact_mod_cast (by omega)
          rw [Nat.cast_mul] at h3
          have h4 := mul_le_mul_of_nonneg_right h3 hdt.le
          have e : ((2 : ℕ) : ℝ) = 2 := by norm_num
          rw [e] at h4
          linarith

/-- **C32 is false (3)**: the mean (zero frequency) is removed even from a band that starts at 0 or below: a constant signal
is filtered to zero by every band. -/
theorem bandpass_drops_mean {t : PyIn ℝ} {ts : List ℝ} (ht : t.IsArr ts) (hm : AcceptedAxis ts) (c flow fhigh : ℝ) :
    bandpassfilter t (vec (List.replicate ts.length c)) flow fhigh = .ok (List.replicate ts.length 0) := by
  have h2 := mono_two_le hm
  have hn : 0 < ts.length := by omega
  rw [bandpassfilter_eq ht (isArr_vec _) hm (by simp)]
  congr 1
  apply eq_of_coef
  · simp [maskFilt_length]
  · intro k hk
    simp only [maskFilt_length, List.length_replicate] at hk
    rw [coef_maskFilt _ _ (by simpa using hk), coef_const hn _ _ hk, coef_const hn _ _ hk]
    by_cases hk0 : k = 0
    · subst hk0
      rw [if_neg (by rw [Nat.zero_min]; rintro ⟨h, -⟩; omega)]
      simp
    · simp [hk0]

/-! ## C34 -/

theorem re_inv (n : Nat) (G : Nat → ℂ) (j : Nat) :
    (inv n G j).re = (∑ k ∈ range n, (G k * twiddle n ((j : ℤ) * k)).re) / n := by
  unfold inv
  have : ((n : ℂ)) = (((n : ℝ)) : ℂ) := by simp
  rw [this, Complex.div_ofReal_re, Complex.re_sum]

theorem maskFilt_getD (P : Nat → Prop) (xs : List ℝ) {j : Nat} (hj : j < xs.length) :
    (maskFilt P xs).getD j 0 =
      (∑ k ∈ range xs.length, if P (min k (xs.length - k)) then (coef xs k * twiddle xs.length ((j : ℤ) * k)).re else 0) / xs.length := by
  unfold maskFilt
  rw [getD_map_range _ _ _ _ hj, re_inv]
  congr 1
  refine sum_congr rfl fun k _ => ?_
  split_ifs
  · rfl
  · simp

theorem signal_getD (xs : List ℝ) {j : Nat} (hj : j < xs.length) :
    xs.getD j 0 = (∑ k ∈ range xs.length, (coef xs k * twiddle xs.length ((j : ℤ) * k)).re) / xs.length := by
  have := inv_fwd (n := xs.length) (by omega) (fun j => ((xs.getD j 0 : ℝ) : ℂ)) hj
  have h2 := congrArg Complex.re this
  rw [Complex.ofReal_re, re_inv] at h2
  exact h2.symm

theorem term_symm (xs : List ℝ) (j : Nat) {k : Nat} (hk : k ≤ xs.length) (hn : 0 < xs.length) :
    (coef xs (xs.length - k) * twiddle xs.length ((j : ℤ) * ((xs.length - k : ℕ) : ℤ))).re =
      (coef xs k * twiddle xs.length ((j : ℤ) * k)).re := by
  rw [coef_conj xs hk hn]
  have e : (j : ℤ) * ((xs.length - k : ℕ) : ℤ) = -((j : ℤ) * k) + xs.length * (j : ℤ) := by
    rw [Nat.cast_sub hk]; ring
  rw [e, twiddle_add, twiddle_mul_self hn, mul_one, ← conj_twiddle, ← map_mul, Complex.conj_re]

/-- **C34 (partial, exact accounting).** With cut-off `fc`, lower limit at most 0 and upper limit at or above the Nyquist
frequency: low-pass + high-pass + mean differs from the signal exactly by the contribution of the bins `m` with
`1 <= m`, `f[m] < fc <= f[m+1]` and `fc < f[-1]` (at most one bin).  Missing for the documented property: that bin is lost. -/
theorem low_high_split_partial {t x : PyIn ℝ} {ts xs : List ℝ} (ht : t.IsArr ts) (hx : x.IsArr xs)
    (hm : AcceptedAxis ts) (hl : ts.length = xs.length) {flow fhigh : ℝ} (h0 : flow ≤ 0)
    (h1 : 1 / (2 * (ts.getD 1 0 - ts.getD 0 0)) ≤ fhigh) (fc : ℝ) :
    ∃ f X isOdd lo hi, time2freqNyquist t x = .ok (f, X, isOdd) ∧ bandpassfilter t x flow fc = .ok lo ∧
      bandpassfilter t x fc fhigh = .ok hi ∧ lo.length = xs.length ∧ hi.length = xs.length ∧
      ∀ j < xs.length, xs.getD j 0 = lo.getD j 0 + hi.getD j 0 + mean xs +
        ∑ m ∈ (range f.length).filter (fun m => 1 ≤ m ∧ m + 1 < f.length ∧ f.getD m 0 < fc ∧ fc ≤ f.getD (m + 1) 0 ∧
            fc < f.getD (f.length - 1) 0),
          2 / xs.length * (X.getD m 0 * Complex.exp (2 * Real.pi * Complex.I * (j * m) / xs.length)).re := by
  have h2 := mono_two_le hm
  have hn : 0 < xs.length := by omega
  have hdf := dfOf_pos hm
  have hdt := mono_dt_pos hm
  refine ⟨_, _, _, _, _, time2freqNyquist_eq ht hx hm hl, bandpassfilter_eq ht hx hm hl _ _,
    bandpassfilter_eq ht hx hm hl _ _, maskFilt_length _ _, maskFilt_length _ _, ?_⟩
  intro j hj
  set n := xs.length with hndef
  set f := freqAxis (n / 2 + 1) (dfOf ts) with hfdef
  have hfl : f.length = n / 2 + 1 := by simp [hfdef, freqAxis]
  have hinc : Increasing f := freqAxis_increasing _ hdf
  have g : ∀ i, i < n / 2 + 1 → f.getD i 0 = i * dfOf ts := by
    intro i hi; rw [hfdef]; unfold freqAxis; rw [getD_map_range _ _ _ _ hi]
  have hlast : f.getD (f.length - 1) 0 ≤ fhigh := by
    refine le_trans ?_ h1
    rw [hfl, g _ (by omega)]
    unfold dfOf
    have hnp : (0 : ℝ) < ts.length := by exact_mod_cast (by omega : 0 < ts.length)
    rw [← div_eq_mul_one_div, div_le_div_iff₀ (by positivity) (by positivity)]
    have h3 : ((2 * (n / 2 + 1 - 1) : ℕ) : ℝ) ≤ (ts.length : ℝ) := by exact_mod_cast (by omega)
    rw [Nat.cast_mul] at h3
    have h4 := mul_le_mul_of_nonneg_right h3 hdt.le
    have e : ((2 : ℕ) : ℝ) = 2 := by norm_num
    rw [e] at h4
    linarith
  have hpos : ∀ i, i < n / 2 + 1 → flow ≤ f.getD i 0 := by
    intro i hi; rw [g i hi]; refine le_trans h0 ?_; positivity
  have hlastpos : flow < f.getD (f.length - 1) 0 := by
    rw [hfl, g _ (by omega)]
    refine lt_of_le_of_lt h0 ?_
    have : (0 : ℝ) < ((n / 2 + 1 - 1 : ℕ) : ℝ) := by exact_mod_cast (by omega : 0 < n / 2 + 1 - 1)
    positivity
  set L : Nat → Prop := fun m => 1 ≤ m ∧ m + 1 < f.length ∧ f.getD m 0 < fc ∧ fc ≤ f.getD (m + 1) 0 ∧
    fc < f.getD (f.length - 1) 0 with hL
  -- partition of the bins
  have part : ∀ (v : ℝ) (i : Nat), i < n / 2 + 1 → v = (if Kept f flow fc i then v else 0) + (if Kept f fc fhigh i then v else 0)
      + (if i = 0 then v else 0) + (if L i then v else 0) := by
    intro v i hi
    by_cases hi0 : i = 0
    · subst hi0
      rw [if_neg (by rintro ⟨h, -⟩; omega), if_neg (by rintro ⟨h, -⟩; omega), if_pos rfl, if_neg (by rintro ⟨h, -⟩; omega)]
      ring
    · have hi1 : 1 ≤ i := by omega
      rw [if_neg hi0]
      by_cases hhi : fc < f.getD (f.length - 1) 0
      · by_cases hfi : fc ≤ f.getD i 0
        · -- high
          rw [if_neg, if_pos, if_neg]
          · ring
          · rintro ⟨-, -, h, -⟩; exact absurd h (not_lt.2 hfi)
          · exact ⟨hi1, hfi, hhi, .inl hlast⟩
          · rintro ⟨-, -, -, h | ⟨h, h'⟩⟩
            · exact absurd hhi (not_lt.2 h)
            · exact absurd (lt_of_le_of_lt hfi (hinc i (i + 1) (by omega) h)) (not_lt.2 h'.le)
        · push Not at hfi
          have hi2 : i + 1 < f.length := by
            by_contra hc
            have : i = f.length - 1 := by omega
            rw [this] at hfi
            exact absurd hfi (not_lt.2 hhi.le)
          rw [if_neg (c := Kept f fc fhigh i) (by rintro ⟨-, h, -⟩; exact absurd h (not_le.2 hfi))]
          by_cases hsucc : f.getD (i + 1) 0 < fc
          · rw [if_pos, if_neg]
            · ring
            · rintro ⟨-, -, -, h, -⟩; exact absurd hsucc (not_lt.2 h)
            · exact ⟨hi1, hpos i hi, hlastpos, .inr ⟨hi2, hsucc⟩⟩
          · push Not at hsucc
            rw [if_neg, if_pos]
            · ring
            · exact ⟨hi1, hi2, hfi, hsucc, hhi⟩
            · rintro ⟨-, -, -, h | ⟨-, h⟩⟩
              · exact absurd hhi (not_lt.2 h)
              · exact absurd h (not_lt.2 hsucc)
      · have hhi' := not_lt.1 hhi
        rw [if_pos, if_neg, if_neg]
        · ring
        · rintro ⟨-, -, -, -, h⟩; exact hhi h
        · rintro ⟨-, -, h, -⟩; exact hhi h
        · exact ⟨hi1, hpos i hi, hlastpos, .inl hhi'⟩
  set T : Nat → ℝ := fun k => (coef xs k * twiddle n ((j : ℤ) * k)).re with hT
  have hn' : (n : ℝ) ≠ 0 := by exact_mod_cast hn.ne'
  -- the lost part
  have hlost : ∑ k ∈ range n, (if L (min k (n - k)) then T k else 0)
      = ∑ m ∈ (range f.length).filter L, 2 * (coef xs m * twiddle n ((j : ℤ) * m)).re := by
    have hsf := sum_folded (fun k => if L (min k (n - k)) then T k else 0) (n := n) (by omega) (by
      intro k hk0 hk
      have e : min (n - k) (n - (n - k)) = min k (n - k) := by omega
      rw [e]
      simp only [hT]
      rw [term_symm xs j hk.le hn])
    have hz : (if L (min 0 (n - 0)) then T 0 else 0) = 0 := by
      rw [if_neg]; rw [Nat.zero_min]; rintro ⟨h, -⟩; omega
    have hny : (if n % 2 = 0 then (if L (min (n / 2) (n - n / 2)) then T (n / 2) else 0) else 0) = 0 := by
      by_cases he : n % 2 = 0
      · rw [if_pos he, if_neg]
        have : min (n / 2) (n - n / 2) = n / 2 := by omega
        rw [this]
        rintro ⟨-, h, -⟩
        omega
      · rw [if_neg he]
    rw [hz, hny, add_zero, add_zero] at hsf
    have hr : range f.length = range (n / 2 + 1) := by rw [hfl]
    rw [← hsf, hr, sum_filter, mul_sum]
    refine sum_congr rfl fun m hm' => ?_
    have hm'' := mem_range.1 hm'
    have : min m (n - m) = m := by omega
    rw [this]
    split_ifs <;> simp [hT]
  have hsig := signal_getD xs hj
  rw [← hndef] at hsig
  rw [hsig, maskFilt_getD _ _ hj, maskFilt_getD _ _ hj, ← hndef]
  have hmean : mean xs = (∑ k ∈ range n, (if min k (n - k) = 0 then T k else 0)) / n := by
    have e : ∀ k ∈ range n, (if min k (n - k) = 0 then T k else 0) = if k = 0 then T 0 else 0 := by
      intro k hk
      have hk' := mem_range.1 hk
      by_cases h : k = 0
      · subst h; simp
      · rw [if_neg h, if_neg (by omega)]
    rw [sum_congr rfl e, sum_ite_eq' (range n) 0]
    rw [if_pos (mem_range.2 hn)]
    simp only [hT]
    rw [coef_zero]
    unfold mean
    simp [twiddle_zero, hndef]
  have hsplit : ∑ k ∈ range n, T k = ∑ k ∈ range n, (if keptBins ts flow fc (min k (n - k)) then T k else 0)
      + ∑ k ∈ range n, (if keptBins ts fc fhigh (min k (n - k)) then T k else 0)
      + ∑ k ∈ range n, (if min k (n - k) = 0 then T k else 0)
      + ∑ k ∈ range n, (if L (min k (n - k)) then T k else 0) := by
    rw [← sum_add_distrib, ← sum_add_distrib, ← sum_add_distrib]
    refine sum_congr rfl fun k hk => ?_
    have hk' := mem_range.1 hk
    unfold keptBins
    rw [hl]
    exact part (T k) (min k (n - k)) (by omega)
  have hlost2 : ∑ m ∈ (range f.length).filter L,
        2 / (n : ℝ) * (((List.range (n / 2 + 1)).map (coef xs)).getD m 0 * Complex.exp (2 * Real.pi * Complex.I * (j * m) / n)).re
      = (∑ k ∈ range n, (if L (min k (n - k)) then T k else 0)) / n := by
    rw [hlost, sum_div]
    refine sum_congr rfl fun m hm' => ?_
    have hm'' := mem_range.1 (mem_filter.1 hm').1
    rw [getD_map_range _ _ _ _ (by omega)]
    have : Complex.exp (2 * Real.pi * Complex.I * (j * m) / n) = twiddle n ((j : ℤ) * m) := by
      unfold twiddle; push_cast; rfl
    rw [this]
    ring
  rw [hlost2, hmean, hsplit]
  ring

/-- **C34 (good case).** If no grid frequency except 0 lies below the cut-off, or the cut-off is at or above the last grid
frequency, the two parts and the mean do add up to the signal. -/
theorem low_high_split_exact {t x : PyIn ℝ} {ts xs : List ℝ} (ht : t.IsArr ts) (hx : x.IsArr xs)
    (hm : AcceptedAxis ts) (hl : ts.length = xs.length) {flow fhigh : ℝ} (h0 : flow ≤ 0)
    (h1 : 1 / (2 * (ts.getD 1 0 - ts.getD 0 0)) ≤ fhigh) {fc : ℝ} :
    ∃ f X isOdd lo hi, time2freqNyquist t x = .ok (f, X, isOdd) ∧ bandpassfilter t x flow fc = .ok lo ∧
      bandpassfilter t x fc fhigh = .ok hi ∧
      ((fc ≤ f.getD 1 0 ∨ f.getD (f.length - 1) 0 ≤ fc) →
        ∀ j < xs.length, xs.getD j 0 = lo.getD j 0 + hi.getD j 0 + mean xs) := by
  have h2 := mono_two_le hm
  have hinc : Increasing (freqAxis (xs.length / 2 + 1) (dfOf ts)) := freqAxis_increasing _ (dfOf_pos hm)
  obtain ⟨f, X, o, lo, hi, e1, e2, e3, -, -, e6⟩ := low_high_split_partial ht hx hm hl h0 h1 fc
  refine ⟨f, X, o, lo, hi, e1, e2, e3, fun hc j hj => ?_⟩
  rw [time2freqNyquist_eq ht hx hm hl] at e1
  simp only [Except.ok.injEq, Prod.mk.injEq] at e1
  obtain ⟨rfl, -, -⟩ := e1
  rw [e6 j hj, sum_eq_zero, add_zero]
  intro m hm'
  obtain ⟨-, h1m, h2m, h3m, -, h5m⟩ := mem_filter.1 hm'
  rcases hc with hc | hc
  · exact absurd (lt_of_lt_of_le h3m hc) (not_lt.2 (hinc.le h1m (by omega)))
  · exact absurd h5m (not_lt.2 hc)

/-- **C34 is false**: for a 0.25 Hz cosine sampled at 4 points and cut-off 0.3 Hz both parts are zero (and so is the
mean). -/
theorem low_high_split_loses_wave :
    bandpassfilter (vec [0, 1, 2, 3]) (vec [1, 0, -1, 0]) 0 (3/10) = .ok [0, 0, 0, 0] ∧
      bandpassfilter (vec [0, 1, 2, 3]) (vec [1, 0, -1, 0]) (3/10) 1 = .ok [0, 0, 0, 0] := by
  have hk1 : ∀ k, ¬ keptBins [0, 1, 2, 3] 0 (3/10) k := by
    rintro k ⟨h1, -, -, h | ⟨h3, h4⟩⟩
    · norm_num [freqAxis, dfOf, List.range_succ] at h
    · have hk1 : k = 1 := by simp [freqAxis] at h3; omega
      subst hk1
      norm_num [freqAxis, dfOf, List.range_succ] at h4
  constructor
  · rw [bandpassfilter_eq (isArr_vec _) (isArr_vec [1, 0, -1, 0]) axis4 rfl]
    congr 1
    unfold maskFilt
    simp only [hk1, if_false]
    norm_num [inv, List.range_succ]
  · rw [bandpassfilter_eq (isArr_vec _) (isArr_vec [1, 0, -1, 0]) axis4 rfl]
    congr 1
    have e : ([0, 0, 0, 0] : List ℝ) = List.replicate 4 0 := rfl
    rw [e]
    apply eq_of_coef
    · simp [maskFilt_length]
    · intro k hk
      have hk' : k < 4 := by simpa [maskFilt_length] using hk
      rw [coef_maskFilt _ _ (by simpa using hk'), coef_const (by omega) _ _ hk']
      simp only [mul_zero, Complex.ofReal_zero, ite_self, ite_eq_right_iff]
      intro hkept
      have hk2 : min k (4 - k) = 2 := by
        have h3 := hkept.2.1
        have hcase : k = 0 ∨ k = 1 ∨ k = 2 ∨ k = 3 := by omega
        rcases hcase with rfl | rfl | rfl | rfl
        · exact absurd hkept.1 (by simp)
        · norm_num [freqAxis, dfOf, List.range_succ] at h3
        · rfl
        · norm_num [freqAxis, dfOf, List.range_succ] at h3
      have : k = 2 := by omega
      subst this
      rw [coef_nyquist (m := 2) (by omega) (by simp)]
      norm_num [sum_range_succ]

/-! ## Concrete cases: the hypotheses of the theorems above are met -/

/-! Records of four samples; the bins are 0, 1/4 and 1/2. -/

example := bandpass_components_partial (isArr_vec [0, 1, 2, 3]) (isArr_vec [1, 0, -1, 3]) axis4 rfl (1 / 8) (1 / 2)

example : (1 / 8 : ℝ) ≤ 1 / 4 ∧ (1 / 4 : ℝ) ≤ 1 := by
  have h := bandpass_passes_only_band (f := [0, 1 / 4, 1 / 2]) (flow := 1 / 8) (fhigh := 1) (i := 1) (fun i j hij hj => by
    have : j < 3 := hj
    interval_cases j <;> interval_cases i <;> norm_num) (by simp) ⟨by norm_num, by norm_num, by norm_num, by norm_num⟩
  simpa using h

/-- The component at 1/4 is dropped by a filter up to 3/10. -/
example := bandpass_drops_highest_bin (isArr_vec [0, 1, 2, 3]) (isArr_vec [1, 0, -1, 3]) axis4 rfl (flow := 0) (fhigh := 3 / 10)

example : bandpassfilter (vec [0, 1, 2, 3]) (vec [7, 7, 7, 7]) 0 (3 / 10) = .ok [0, 0, 0, 0] :=
  bandpass_drops_mean (isArr_vec [0, 1, 2, 3]) axis4 7 0 (3 / 10)

example := bandpass_linear (isArr_vec [0, 1, 2, 3]) axis4 (xs := [1, 0, -1, 3]) (ys := [2, 2, 5, 1]) rfl rfl 0 1 3 (-2)
example := bandpass_idempotent (isArr_vec [0, 1, 2, 3]) (isArr_vec [1, 0, -1, 3]) axis4 rfl (1 / 8) (3 / 10)
example := bandpass_zero_mean_contraction (isArr_vec [0, 1, 2, 3]) (isArr_vec [1, 0, -1, 3]) axis4 rfl (1 / 8) (3 / 10)

/-- All frequencies pass: the mean (3/4) is subtracted. -/
example : bandpassfilter (vec [0, 1, 2, 3]) (vec [1, 0, -1, 3]) 0 1 = .ok [1 / 4, - 3 / 4, - 7 / 4, 9 / 4] := by
  rw [bandpass_full_band (isArr_vec [0, 1, 2, 3]) (isArr_vec [1, 0, -1, 3]) axis4 rfl le_rfl (by norm_num)]
  norm_num [mean]

example := low_high_split_partial (isArr_vec [0, 1, 2, 3]) (isArr_vec [1, 0, -1, 3]) axis4 rfl le_rfl (fhigh := 1) (by norm_num) (3 / 10)

/-- Split at 1/8, below the first bin: nothing is lost. -/
example : ∃ lo hi, bandpassfilter (vec [0, 1, 2, 3]) (vec [1, 0, -1, 3]) 0 (1 / 8) = .ok lo ∧
    bandpassfilter (vec [0, 1, 2, 3]) (vec [1, 0, -1, 3]) (1 / 8) 1 = .ok hi ∧
    ∀ j < 4, ([1, 0, -1, 3] : List ℝ).getD j 0 = lo.getD j 0 + hi.getD j 0 + 3 / 4 := by
  obtain ⟨f, X, o, lo, hi, a, b, c, d⟩ := low_high_split_exact (isArr_vec [0, 1, 2, 3]) (isArr_vec [1, 0, -1, 3]) axis4 rfl le_rfl (fhigh := 1)
    (by norm_num) (fc := 1 / 8)
  obtain ⟨f', X', fN, XN, o', -, e, -, -, e1, e2, -, e3, -⟩ := transform_axes (isArr_vec [0, 1, 2, 3]) (isArr_vec [1, 0, -1, 3]) axis4 rfl
  rw [a] at e
  obtain ⟨rfl, -⟩ := Prod.mk.inj (Except.ok.inj e)
  refine ⟨lo, hi, b, c, fun j hj => ?_⟩
  have hf : f.getD 1 0 = 1 / 4 := by
    rw [e2]
    have := (e1 1 (by simp)).1
    norm_num at this
    rw [List.getD, List.getElem?_take_of_lt (by simp), this]
  have := d (.inl (by rw [hf]; norm_num)) j hj
  rw [this]
  norm_num [mean]

end Verif
