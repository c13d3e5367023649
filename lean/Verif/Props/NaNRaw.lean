import Verif.Props.NaNFft
import Verif.Props.NaNSpectrum
import Verif.Props.NaNPeak
import Verif.Props.NaNCutoff
import Verif.Props.NaNSeries
import Verif.Props.RawInvariance
import Verif.Props.RecordHeight
import Verif.Props.Welch

/-! # C142: the raw spectrum object of a record with missing samples -/

namespace Verif
open Finset Complex

set_option linter.unusedSectionVars false

theorem frequencyAveragingLN_some {f S : List ℝ} {df : ℝ} {n : Nat} (hn : nFactorOf f df = .ok n) (h0 : 0 < n) (hS : S ≠ [])
    (hl : f.length ≤ S.length) :
    frequencyAveragingLN f (S.map some) df = (frequencyAveragingL f S df).map fun p => (p.1, p.2.map some) := by
  rw [frequencyAveragingL_eq hn h0 hS hl, frequencyAveragingLN_eq hn h0 (by simpa using hS)]
  simp only [Except.map, Except.ok.injEq, Prod.mk.injEq, true_and]
  rw [List.map_map]
  refine List.map_congr_left fun i hi => ?_
  have hi' := List.mem_range.1 hi
  have hb := slice_bound hi'
  simp only [Function.comp]
  refine ((meanEN_block h0 (by simpa using hl) hi').2 ((List.range n).map fun j => S.getD (i * n + j) 0) ?_).trans ?_
  · intro j hj
    have : (i + 1) * n = i * n + n := by ring
    rw [getD_map_range _ _ _ _ hj, List.getD, List.getElem?_map, List.getElem?_eq_getElem (by omega), List.getD_eq_getElem _ _ (by omega)]
    rfl
  · congr 2
    exact Finset.sum_congr rfl fun j hj => getD_map_range _ _ _ _ (Finset.mem_range.1 hj)

/-- **C142 (no gap).** Without a missing sample the raw spectrum is the one of the number model. -/
theorem gap_raw_none (A : FftN) {t : PyIn ℝ} {ts v : List ℝ} (ht : t.IsArr ts) (hm : AcceptedAxis ts) (hl : ts.length = v.length) (df : ℝ) :
    computeSpectrumTimeSeriesN A t (vec (v.map some)) df = (computeSpectrumTimeSeries t (vec v) df).map fun p => (p.1, p.2.map some) := by
  have h2 := mono_two_le hm
  have hl' : ts.length = (v.map some).length := by simpa using hl
  rw [rawSpectrumN_eq A ht (isArr_vec _) hm hl', rawSpectrum_eq ht (isArr_vec v) hm hl]
  simp only [List.length_map]
  set f := freqAxis (v.length / 2 + 1) (dfOf ts) with hf
  have hfl : f.length = v.length / 2 + 1 := by simp [hf, freqAxis]
  obtain ⟨f0, f1, l, hfe⟩ : ∃ f0 f1 l, f = f0 :: f1 :: l := by
    rcases hh : f with _ | ⟨a, _ | ⟨b, l⟩⟩
    · rw [hh] at hfl; simp at hfl
    · rw [hh] at hfl; simp at hfl; omega
    · exact ⟨_, _, _, rfl⟩
  have hd : 0 < f1 - f0 := by
    have := freqAxis_increasing (v.length / 2 + 1) (dfOf_pos hm) 0 1 (by omega) (by rw [← hf, hfl]; omega)
    rw [← hf, hfe] at this
    simpa using this
  obtain ⟨n, hn', -⟩ := averaging_factor (l := l) (df := df) hd
  rw [← hfe] at hn'
  have hpos := nFactorOf_pos hn'
  rw [← frequencyAveragingLN_some hn' hpos (by simp) (by simp [hfl])]
  congr 1
  rw [A.fwd_num, npFft_ofReal, ← List.map_take, ← List.map_take, List.take_range, List.map_map, List.map_map, List.map_map]
  rw [show min (v.length / 2 + 1) v.length = v.length / 2 + 1 by omega]
  refine List.map_congr_left fun k _ => ?_
  simp only [Function.comp, cnum, densityN, Complex.normSq_apply]

/-! ## The object -/

theorem gap_axis {s : SeriesN ℝ} {t : List ℝ} (hst : s.time = arr1 (t.map some)) : axisN s.time = .ok ⟨[t.length], t⟩ := by
  unfold axisN
  rw [hst]
  simp only [arr1, allFinite_some, List.length_map]

theorem coarse_nonneg {v t : List ℝ} (hm : AcceptedAxis t) (hl : t.length = v.length) {df : ℝ} {f S : List ℝ}
    (h : computeSpectrumTimeSeries (vec t) (vec v) df = .ok (f, S)) : 0 ≤ f.getD 0 0 := by
  have h2 := mono_two_le hm
  rw [rawSpectrum_eq (isArr_vec t) (isArr_vec v) hm hl] at h
  set F := freqAxis (v.length / 2 + 1) (dfOf t) with hf
  have hfl : F.length = v.length / 2 + 1 := by simp [hf, freqAxis]
  obtain ⟨f0, f1, l, hfe⟩ : ∃ f0 f1 l, F = f0 :: f1 :: l := by
    rcases hh : F with _ | ⟨a, _ | ⟨b, l⟩⟩
    · rw [hh] at hfl; simp at hfl
    · rw [hh] at hfl; simp at hfl; omega
    · exact ⟨_, _, _, rfl⟩
  have hd : 0 < f1 - f0 := by
    have := freqAxis_increasing (v.length / 2 + 1) (dfOf_pos hm) 0 1 (by omega) (by rw [← hf, hfl]; omega)
    rw [← hf, hfe] at this
    simpa using this
  obtain ⟨n, hn', -⟩ := averaging_factor (l := l) (df := df) hd
  rw [← hfe] at hn'
  have hpos := nFactorOf_pos hn'
  rw [frequencyAveragingL_eq hn' hpos (by simp) (by simp [hfl])] at h
  simp only [Except.ok.injEq, Prod.mk.injEq] at h
  rw [← h.1]
  by_cases h0 : 0 < F.length / n
  · rw [getD_map_range _ _ _ _ h0]
    refine div_nonneg (Finset.sum_nonneg fun j _ => ?_) (by positivity)
    by_cases hj : 0 * n + j < v.length / 2 + 1
    · rw [hf]; unfold freqAxis
      rw [getD_map_range _ _ _ _ hj]
      exact mul_nonneg (by positivity) (dfOf_pos hm).le
    · rw [List.getD_eq_default _ _ (by rw [hfl]; omega)]
  · rw [List.getD_eq_default _ _ (by rw [List.length_map, List.length_range]; omega)]

/-- **C142.** `Series.get_spectrum_raw(dfDesired)` on a record with at least one missing sample succeeds exactly if it does on a record whose
gaps are filled, whatever the filling numbers.  The object has the frequency axis of the filled record and only NaN densities; Hm0,
Tm-1,0, Tm0,1 and Tm0,2 are NaN, and the peak period raises. -/
theorem gap_raw_object (A : FftN) {s : SeriesN ℝ} {t : List ℝ} {x : List (Option ℝ)} {dt : ℝ} (hu : UniformAxis t dt) (h2 : 2 ≤ t.length)
    (hl : t.length = x.length) (hst : s.time = arr1 (t.map some)) (hsx : s.xTime = arr1 x) (hn : none ∈ x) {v : List ℝ} (hv : Completes x v)
    {c : SeriesObj ℝ} (hc : SeriesObj.init (vec t) (vec v) = .ok c) (df : ℝ) :
    ((∃ g, s.getSpectrumRaw A df = .ok g) ↔ ∃ g, c.getSpectrumRaw df = .ok g) ∧
    ∀ g, c.getSpectrumRaw df = .ok g → ∃ g', s.getSpectrumRaw A df = .ok g' ∧ g'.f = g.f ∧ g'.sVarDens = List.replicate g.f.length none ∧
      (g'.getHm0 (some (-1)) (.fin (-1))).1 = .ok none ∧ (g'.getTmm10 (some (-1)) (.fin (-1))).1 = .ok none ∧
      (g'.getTm01 (some (-1)) (.fin (-1))).1 = .ok none ∧ (g'.getTm02 (some (-1)) (.fin (-1))).1 = .ok none ∧
      RaisesValueError (g'.getTp (some (-1)) (.fin (-1))).1 := by
  have hm : AcceptedAxis t := uniform_check_accepts_uniform h2 hu
  have hvl : t.length = v.length := by rw [hv.1, hl]
  obtain ⟨hvs, -, -⟩ := validSeries_of_init (isVec_vec t) (isVec_vec v) h2 hvl hu hc
  obtain ⟨f, S, e1, e2⟩ := gap_raw_spectrum A (PyIn.IsArr.nd t) (x := .nd s.xTime) (by rw [hsx]; exact .nd x) hm hl hn df hv
  have e3 : c.getSpectrumRaw df = SpecObj.init (vec f) (vec S) := by
    unfold SeriesObj.getSpectrumRaw
    rw [hvs.time, hvs.xTime]
    simp only [vec, arr1] at e1 ⊢
    rw [e1]; rfl
  have e4 : s.getSpectrumRaw A df = SpecObjN.init (vec f) (vec (List.replicate f.length none)) := by
    unfold SeriesN.getSpectrumRaw
    rw [gap_axis hst]
    simp only [bind, Except.bind]
    rw [e2]
  have hSl : ∀ g, SpecObj.init (vec f) (vec S) = .ok g → monotonicIncreasingConstantStep f = .ok true ∧ g.f = f := by
    intro g hg
    obtain ⟨a, -, rfl⟩ := (spectrum_init_iff_partial (isArr_vec f) (isArr_vec S)).1 hg
    exact ⟨a, rfl⟩
  have hlen : f.length = S.length := by
    have := e1
    rw [rawSpectrum_eq (PyIn.IsArr.nd t) (isArr_vec v) hm hvl] at this
    set F := freqAxis (v.length / 2 + 1) (dfOf t) with hf
    have hfl : F.length = v.length / 2 + 1 := by simp [hf, freqAxis]
    unfold frequencyAveragingL at this
    cases hnf : nFactorOf F df with
    | error e => rw [hnf] at this; cases this
    | ok n =>
      have h := frequencyAveragingL_eq (S := (List.range (v.length / 2 + 1)).map fun k => 2 * Complex.normSq (coef v k) / (dfOf t * v.length * v.length))
        hnf (nFactorOf_pos hnf) (by simp) (by simp [hfl])
      unfold frequencyAveragingL at h
      rw [h] at this
      simp only [Except.ok.injEq, Prod.mk.injEq] at this
      rw [← this.1, ← this.2]
      simp
  rw [e3, e4]
  have main : ∀ g, SpecObj.init (vec f) (vec S) = .ok g → ∃ g', SpecObjN.init (vec f) (vec (List.replicate f.length none)) = .ok g' ∧ g'.f = g.f ∧
      g'.sVarDens = List.replicate g.f.length none ∧
      (g'.getHm0 (some (-1)) (.fin (-1))).1 = .ok none ∧ (g'.getTmm10 (some (-1)) (.fin (-1))).1 = .ok none ∧
      (g'.getTm01 (some (-1)) (.fin (-1))).1 = .ok none ∧ (g'.getTm02 (some (-1)) (.fin (-1))).1 = .ok none ∧
      RaisesValueError (g'.getTp (some (-1)) (.fin (-1))).1 := by
    intro g hg
    obtain ⟨hmf, hgf⟩ := hSl g hg
    have hi := SpecObjN.init_ok (S := List.replicate f.length none) hmf (by simp)
    have hf2 := mono_two_le hmf
    have h0 : 0 ≤ f.getD 0 0 := coarse_nonneg hm hvl e1
    obtain ⟨p1, p2, p3, p4, -⟩ := nan_spectrum_params hi h0 (by rw [List.mem_replicate]; exact ⟨by omega, rfl⟩)
    have hp := (nan_first_peak hi (fmin := -1) (fmax := .fin (-1)) (i := 0) ⟨by omega, .inl rfl, .inl rfl⟩ (fun k _ => Nat.zero_le k)
      (by rw [List.getD, List.getElem?_replicate, if_pos (by omega)]; rfl)).1.1
    refine ⟨_, hi, hgf.symm, by rw [hgf], ?_, ?_, ?_, ?_, hp⟩
    · rw [p1]
    · rw [p2]
    · rw [p3]
    · rw [p4]
  refine ⟨⟨fun ⟨g, hg⟩ => ?_, fun ⟨g, hg⟩ => ?_⟩, main⟩
  · obtain ⟨-, -, a, -, -⟩ := SpecObjN.init_vec hg
    exact ⟨_, (spectrum_init_iff_partial (isArr_vec f) (isArr_vec S)).2 ⟨a, hlen, rfl⟩⟩
  · obtain ⟨g', q, -⟩ := main g hg
    exact ⟨g', q⟩

/-! ## Concrete cases -/

/-- Four samples, the third missing. -/
example : ∃ f, computeSpectrumTimeSeriesN FftN.strict (vec [0, 1, 2, 3]) (vec [some 1, some 0, none, some 0]) 0 = .ok (f, List.replicate f.length none) ∧
    ∃ S, computeSpectrumTimeSeries (vec [0, 1, 2, 3]) (vec [1, 0, 7, 0]) 0 = .ok (f, S) := by
  obtain ⟨f, S, a, b⟩ := gap_raw_spectrum FftN.strict (isArr_vec ([0, 1, 2, 3] : List ℝ)) (isArr_vec ([some 1, some 0, none, some 0] : List (Option ℝ)))
    axis4 rfl (by simp) 0 (v := [1, 0, 7, 0]) ⟨rfl, fun i hi => by
      have : i < 4 := hi
      interval_cases i <;> simp⟩
  exact ⟨f, b, S, a⟩

/-- The averaging of a spectrum with one missing density: two densities per block. -/
example : ∃ n fc sc, IsFactor n (2 : ℚ) 1 ∧ frequencyAveragingN (vec [0, 1, 2, (3 : ℚ)]) (vec [some 1, some 3, none, some 1]) 2 = .ok (fc, sc) ∧
    BlockMeans n [0, 1, 2, 3] fc 4 ∧ GapBlockMeans n [some 1, some 3, none, some 1] sc 4 := by
  obtain ⟨n, fc, sc, a, b, c, d⟩ := gap_averaging (isArr_vec ([0, 1, 2, 3] : List ℚ)) (isArr_vec ([some 1, some 3, none, some 1] : List (Option ℚ)))
    rfl (by simp) (by norm_num) (df := 2)
  exact ⟨n, fc, sc, by simpa using a, b, c, d⟩

example : frequencyAveragingN (vec [0, 1, 2, (3 : ℚ)]) (vec [some 1, some 3, none, some 1]) 2 = .ok ([1 / 2, 5 / 2], [some 2, none]) := by
  decide +kernel

/-- The object: five samples, one missing; the spectrum exists and its Hm0 is NaN. -/
example : ∃ s g, SeriesN.init (vec (([0, 1, 2, 3, 4] : List ℝ).map some)) (vec [some 1, some 0, none, some 0, some 2]) = .ok s ∧
    s.getSpectrumRaw FftN.strict 0 = .ok g ∧ (g.getHm0 (some (-1)) (.fin (-1))).1 = .ok none := by
  obtain ⟨s, -, -, -, h1, h3, h4, -⟩ := gap_series (x := ([some 1, some 0, none, some 0, some 2] : List (Option ℝ))) axis5 rfl (by simp)
  obtain ⟨c, -, -, -, hc, -⟩ := series_never_fails (isVec_vec ([0, 1, 2, 3, 4] : List ℝ)) (isVec_vec ([1, 0, 9, 0, 2] : List ℝ)) (by simp) rfl axis5
  obtain ⟨hvs, -, -⟩ := validSeries_of_init (isVec_vec ([0, 1, 2, 3, 4] : List ℝ)) (isVec_vec ([1, 0, 9, 0, 2] : List ℝ)) (by simp) rfl axis5 hc
  obtain ⟨F, G, -, -, -, hg⟩ := raw_object hvs
  obtain ⟨g', q1, -, -, q2, -⟩ := (gap_raw_object FftN.strict axis5 (by simp) (x := [some 1, some 0, none, some 0, some 2]) rfl h3 h4 (by simp)
    (v := [1, 0, 9, 0, 2]) ⟨rfl, fun i hi => by
      have : i < 5 := hi
      interval_cases i <;> simp⟩ hc 0).2 _ hg
  exact ⟨s, g', h1, q1, q2⟩

example (A : FftN) : computeSpectrumTimeSeriesN A (vec [0, 1, 2, 3]) (vec (([1, 0, 7, 0] : List ℝ).map some)) 0 =
    (computeSpectrumTimeSeries (vec [0, 1, 2, 3]) (vec [1, 0, 7, 0]) 0).map fun p => (p.1, p.2.map some) :=
  gap_raw_none A (isArr_vec [0, 1, 2, 3]) axis4_check (v := [1, 0, 7, 0]) rfl 0

end Verif
