import Verif.Model.NaNSig
import Verif.Props.NaNMoments
import Verif.Props.Filter

/-! # C142: missing samples and raw spectra -/

namespace Verif
open Finset Complex

set_option linter.unusedSectionVars false

/-! ## The transform with a missing operand -/

open Classical in
/-- One algorithm with the assumed behaviour: everything is NaN as soon as one operand is. -/
noncomputable def FftN.strict : FftN where
  fwd x := if h : ∃ l : List ℝ, x = l.map some then (npFft (h.choose.map fun (v : ℝ) => (v : ℂ))).map cnum
    else List.replicate x.length (none, none)
  bwd X := if h : ∃ l : List ℂ, X = l.map cnum then (npIfft h.choose).map fun z => some z.re else List.replicate X.length none
  fwd_length x := by
    split_ifs with h
    · conv_rhs => rw [h.choose_spec]
      simp [npFft]
    · simp
  bwd_length X := by
    split_ifs with h
    · conv_rhs => rw [h.choose_spec]
      simp [npIfft]
    · simp
  fwd_num x := by
    have h : ∃ l : List ℝ, x.map some = l.map some := ⟨x, rfl⟩
    have e : h.choose = x := (List.map_injective_iff.2 (Option.some_injective ℝ) h.choose_spec).symm
    rw [dif_pos h, e]
  bwd_num X := by
    have h : ∃ l : List ℂ, X.map cnum = l.map cnum := ⟨X, rfl⟩
    have hi : Function.Injective cnum := by
      intro a b hab
      simp only [cnum, Prod.mk.injEq, Option.some.injEq] at hab
      exact Complex.ext hab.1 hab.2
    have e : h.choose = X := (List.map_injective_iff.2 hi h.choose_spec).symm
    rw [dif_pos h, e]
  fwd_re x u v j k hu hv hj _ hne := by
    have h : ¬ ∃ l : List ℝ, x = l.map some := by
      rintro ⟨l, rfl⟩
      rw [List.getElem?_map] at hj
      cases hl : l[j]? <;> simp [hl] at hj
    have hk : k < x.length := by
      by_contra hk
      apply hne
      rw [List.getD_eq_default _ _ (by simp [npFft]; omega), List.getD_eq_default _ _ (by simp [npFft]; omega)]
    rw [dif_neg h, List.getElem?_replicate, if_pos hk]
    rfl
  fwd_im x u v j k hu hv hj _ hne := by
    have h : ¬ ∃ l : List ℝ, x = l.map some := by
      rintro ⟨l, rfl⟩
      rw [List.getElem?_map] at hj
      cases hl : l[j]? <;> simp [hl] at hj
    have hk : k < x.length := by
      by_contra hk
      apply hne
      rw [List.getD_eq_default _ _ (by simp [npFft]; omega), List.getD_eq_default _ _ (by simp [npFft]; omega)]
    rw [dif_neg h, List.getElem?_replicate, if_pos hk]
    rfl
  bwd_re X U V k n hU hV hk _ _ hne := by
    have h : ¬ ∃ l : List ℂ, X = l.map cnum := by
      rintro ⟨l, rfl⟩
      rw [List.getElem?_map] at hk
      cases hl : l[k]? <;> simp [hl, cnum] at hk
    have hn : n < X.length := by
      by_contra hn
      apply hne
      rw [List.getD_eq_default _ _ (by simp [npIfft]; omega), List.getD_eq_default _ _ (by simp [npIfft]; omega)]
    rw [dif_neg h, List.getElem?_replicate, if_pos hn]
  bwd_im X U V k n hU hV hk _ _ hne := by
    have h : ¬ ∃ l : List ℂ, X = l.map cnum := by
      rintro ⟨l, rfl⟩
      rw [List.getElem?_map] at hk
      cases hl : l[k]? <;> simp [hl, cnum] at hk
    have hn : n < X.length := by
      by_contra hn
      apply hne
      rw [List.getD_eq_default _ _ (by simp [npIfft]; omega), List.getD_eq_default _ _ (by simp [npIfft]; omega)]
    rw [dif_neg h, List.getElem?_replicate, if_pos hn]

/-- The unit sample at `j`. -/
noncomputable def unitAt (N j : Nat) : List ℝ := (List.replicate N (0 : ℝ)).set j 1

theorem unitAt_getD {N j : Nat} (hj : j < N) (i : Nat) : (unitAt N j).getD i 0 = if i = j then 1 else 0 := by
  unfold unitAt
  rw [List.getD, List.getElem?_set]
  by_cases h1 : j = i
  · rw [if_pos h1, if_pos (by simpa using h1 ▸ hj), if_pos h1.symm]; rfl
  · rw [if_neg h1, if_neg (fun h => h1 h.symm), List.getElem?_replicate]
    split_ifs <;> rfl

theorem coef_unitAt {N j : Nat} (hj : j < N) (k : Nat) : coef (unitAt N j) k = twiddle N (-((j : ℤ) * k)) := by
  have hl : (unitAt N j).length = N := by simp [unitAt]
  unfold coef
  rw [hl]
  unfold fwd
  rw [Finset.sum_eq_single j]
  · beta_reduce; rw [unitAt_getD hj, if_pos rfl]; simp
  · intro b _ hb
    beta_reduce
    rw [unitAt_getD hj, if_neg hb]; simp
  · intro h; exact absurd (Finset.mem_range.2 hj) h

theorem coef_zeros (N k : Nat) : coef (List.replicate N (0 : ℝ)) k = 0 := by
  unfold coef fwd
  refine Finset.sum_eq_zero fun j hj => ?_
  beta_reduce
  rw [List.getD, List.getElem?_replicate]
  split_ifs <;> simp

/-- The parts of component `k` that a missing sample `j` makes NaN. -/
theorem FftN.fwd_missing (A : FftN) {x : List (Option ℝ)} {j k : Nat} (hj : x[j]? = some none) (hk : k < x.length) :
    ((twiddle x.length ((j : ℤ) * k)).re ≠ 0 → ((A.fwd x)[k]?).map Prod.fst = some none) ∧
    ((twiddle x.length ((j : ℤ) * k)).im ≠ 0 → ((A.fwd x)[k]?).map Prod.snd = some none) := by
  have hjl : j < x.length := (List.getElem?_eq_some_iff.1 hj).1
  have hu : (unitAt x.length j).length = x.length := by simp [unitAt]
  have hv : (List.replicate x.length (0 : ℝ)).length = x.length := by simp
  have hoth : ∀ i, i ≠ j → (unitAt x.length j)[i]? = (List.replicate x.length (0 : ℝ))[i]? := by
    intro i hi
    unfold unitAt
    rw [List.getElem?_set_ne (by omega)]
  have e1 : (npFft ((unitAt x.length j).map fun (v : ℝ) => (v : ℂ))).getD k 0 = (starRingEnd ℂ) (twiddle x.length ((j : ℤ) * k)) := by
    rw [npFft_ofReal, getD_map_range _ _ _ _ (by rw [hu]; exact hk), coef_unitAt hjl, conj_twiddle]
  have e2 : (npFft ((List.replicate x.length (0 : ℝ)).map fun (v : ℝ) => (v : ℂ))).getD k 0 = 0 := by
    rw [npFft_ofReal, getD_map_range _ _ _ _ (by rw [hv]; exact hk), coef_zeros]
  refine ⟨fun h => A.fwd_re x _ _ j k hu hv hj hoth ?_, fun h => A.fwd_im x _ _ j k hu hv hj hoth ?_⟩
  · rw [e1, e2]; simpa using h
  · rw [e1, e2]; simpa using h

/-- A missing sample makes at least one part of every component NaN. -/
theorem FftN.fwd_all (A : FftN) {x : List (Option ℝ)} (hn : none ∈ x) {k : Nat} (hk : k < x.length) :
    ∃ c, (A.fwd x)[k]? = some c ∧ (c.1 = none ∨ c.2 = none) := by
  obtain ⟨j, hj⟩ := List.mem_iff_getElem?.1 hn
  obtain ⟨h1, h2⟩ := A.fwd_missing hj hk
  have hkl : k < (A.fwd x).length := by rw [A.fwd_length]; exact hk
  refine ⟨_, List.getElem?_eq_getElem hkl, ?_⟩
  rw [List.getElem?_eq_getElem hkl] at h1 h2
  simp only [Option.map_some, Option.some.injEq] at h1 h2
  have h3 := norm_twiddle x.length ((j : ℤ) * k)
  by_contra hc
  push Not at hc
  have a : (twiddle x.length ((j : ℤ) * k)).re = 0 := by by_contra h; exact hc.1 (h1 h)
  have b : (twiddle x.length ((j : ℤ) * k)).im = 0 := by by_contra h; exact hc.2 (h2 h)
  have : twiddle x.length ((j : ℤ) * k) = 0 := Complex.ext a b
  rw [this] at h3
  simp at h3

/-! ## Folded transform -/

theorem time2freqNyquistN_eq (A : FftN) {t : PyIn ℝ} {x : PyIn (Option ℝ)} {ts : List ℝ} {xs : List (Option ℝ)} (ht : t.IsArr ts) (hx : x.IsArr xs)
    (hm : AcceptedAxis ts) (hl : ts.length = xs.length) :
    time2freqNyquistN A t x = .ok (freqAxis (xs.length / 2 + 1) (dfOf ts), (A.fwd xs).take (xs.length / 2 + 1), decide (xs.length % 2 = 1)) := by
  have h2 := mono_two_le hm
  unfold time2freqNyquistN
  have hm' : monotonicIncreasingConstantStep ts = .ok true := hm
  simp only [vecIn_of_isArr ht, vecIn_of_isArr hx, hm', bind, Except.bind]
  rw [if_neg (by simp), if_neg (by simpa using hl)]
  simp only [pure, Except.pure, Except.ok.injEq, Prod.mk.injEq]
  rw [hl]
  refine ⟨?_, rfl, rfl⟩
  unfold freqAxis dfOf
  rw [← List.map_take, List.take_range, hl]
  congr 2
  omega

/-! ## Band averaging -/

section
variable {K : Type} [Field K] [LinearOrder K] [IsStrictOrderedRing K] [FloorRing K]

/-- Every coarse value is NaN if one of the `n` fine values of its block is NaN, and their mean otherwise. -/
def GapBlockMeans (n : Nat) (fine coarse : List (Option K)) (nFine : Nat) : Prop :=
  coarse.length = nFine / n ∧ ∀ i, i < nFine / n →
    ((∃ j < n, fine.getD (i * n + j) none = none) → coarse[i]? = some none) ∧
    (∀ v : List K, (∀ j < n, fine.getD (i * n + j) none = some (v.getD j 0)) →
      coarse[i]? = some (some ((∑ j ∈ range n, v.getD j 0) / (n : K))))

theorem meanEN_block {S : List (Option K)} {n i N : Nat} (hn : 0 < n) (hN : N ≤ S.length) (hi : i < N / n) :
    ((∃ j < n, S.getD (i * n + j) none = none) → meanEN (pySlice S (i * n) ((i + 1) * n)) = none) ∧
    (∀ v : List K, (∀ j < n, S.getD (i * n + j) none = some (v.getD j 0)) →
      meanEN (pySlice S (i * n) ((i + 1) * n)) = some ((∑ j ∈ range n, v.getD j 0) / (n : K))) := by
  have hb := slice_bound hi
  have e : pySlice S (i * n) ((i + 1) * n) = (List.range n).map fun j => S.getD (i * n + j) none := by
    rw [pySlice_eq S none (le_trans hb hN)]
    rw [show (i + 1) * n - i * n = n by rw [Nat.add_mul, one_mul]; omega]
  have hne : ((List.range n).map fun j => S.getD (i * n + j) none) ≠ [] := by simp; omega
  unfold meanEN
  rw [e, if_neg hne]
  refine ⟨?_, ?_⟩
  · rintro ⟨j, hj, hv⟩
    unfold nMean
    rw [allFinite_none.2 (List.mem_map.2 ⟨j, List.mem_range.2 hj, hv⟩)]
    rfl
  · intro v hv
    have e2 : ((List.range n).map fun j => S.getD (i * n + j) none) = ((List.range n).map fun j => v.getD j 0).map some := by
      rw [List.map_map]
      exact List.map_congr_left fun j hj => hv j (List.mem_range.1 hj)
    rw [e2, nMean_some]
    congr 1
    unfold mean
    rw [list_sum_map_range]
    simp

theorem frequencyAveragingLN_eq {f : List K} {S : List (Option K)} {df : K} {n : Nat} (hn : nFactorOf f df = .ok n) (h0 : 0 < n)
    (hS : S ≠ []) : frequencyAveragingLN f S df =
      .ok ((List.range (f.length / n)).map fun i => (∑ j ∈ range n, f.getD (i * n + j) 0) / (n : K),
           (List.range (f.length / n)).map fun i => meanEN (pySlice S (i * n) ((i + 1) * n))) := by
  unfold frequencyAveragingLN
  rw [hn]
  simp only [bind, Except.bind]
  rw [if_neg hS]
  have h1 := mapM_ok_of (l := List.range (f.length / n)) (f := fun i => meanE (pySlice f (i * n) ((i + 1) * n)))
    (g := fun i => (∑ j ∈ range n, f.getD (i * n + j) 0) / (n : K))
    (fun i hi => mean_block h0 le_rfl (List.mem_range.1 hi))
  rw [h1]
  rfl

/-- **C142 (band averaging).** `frequency_averaging(f, S, df)` on a spectrum with missing densities never raises; the coarse axis is
that of a spectrum without; a coarse density is NaN exactly if one of the densities it averages is, and otherwise their mean. -/
theorem gap_averaging {f : PyIn K} {S : PyIn (Option K)} {fs : List K} {Ss : List (Option K)} {df : K} (hf : f.IsArr fs) (hS : S.IsArr Ss)
    (hl : fs.length = Ss.length) (h2 : 2 ≤ fs.length) (hd : fs.getD 0 0 < fs.getD 1 0) :
    ∃ n fc sc, IsFactor n df (fs.getD 1 0 - fs.getD 0 0) ∧ frequencyAveragingN f S df = .ok (fc, sc) ∧
      BlockMeans n fs fc fs.length ∧ GapBlockMeans n Ss sc fs.length := by
  obtain ⟨f0, f1, l, rfl⟩ : ∃ f0 f1 l, fs = f0 :: f1 :: l := by
    rcases fs with _ | ⟨a, _ | ⟨b, l⟩⟩
    · simp at h2
    · simp at h2
    · exact ⟨_, _, _, rfl⟩
  simp only [List.getD_cons_succ, List.getD_cons_zero] at hd ⊢
  obtain ⟨n, hn, hspec⟩ := averaging_factor (l := l) (df := df) (sub_pos.2 hd)
  have hne : Ss ≠ [] := by rintro rfl; simp at hl
  have hpos := nFactorOf_pos hn
  have e1 : frequencyAveragingN f S df = frequencyAveragingLN (f0 :: f1 :: l) Ss df := by
    unfold frequencyAveragingN
    rw [vecIn_of_isArr hf, vecIn_of_isArr hS]
    rfl
  have key := e1.trans (frequencyAveragingLN_eq hn hpos hne)
  refine ⟨n, _, _, hspec, key, ⟨by simp, fun i hi => by rw [getD_map_range _ _ _ _ hi]⟩, by simp, fun i hi => ?_⟩
  obtain ⟨q1, q2⟩ := meanEN_block hpos hl.le hi
  rw [List.getElem?_map, List.getElem?_range hi]
  exact ⟨fun h => by rw [Option.map_some, q1 h], fun v h => by rw [Option.map_some, q2 v h]⟩

end

/-! ## C142 -/

theorem rawSpectrumN_eq (A : FftN) {t : PyIn ℝ} {x : PyIn (Option ℝ)} {ts : List ℝ} {xs : List (Option ℝ)} (ht : t.IsArr ts) (hx : x.IsArr xs)
    (hm : AcceptedAxis ts) (hl : ts.length = xs.length) (df : ℝ) :
    computeSpectrumTimeSeriesN A t x df =
      frequencyAveragingLN (freqAxis (xs.length / 2 + 1) (dfOf ts))
        (((A.fwd xs).take (xs.length / 2 + 1)).map (densityN (dfOf ts) xs.length)) df := by
  have h2 := mono_two_le hm
  unfold computeSpectrumTimeSeriesN
  rw [time2freqNyquistN_eq A ht hx hm hl]
  simp only [bind, Except.bind]
  have g0 : getE (freqAxis (xs.length / 2 + 1) (dfOf ts)) 0 = .ok 0 := by
    rw [getE_ok]; simp [freqAxis]
  have g1 : getE (freqAxis (xs.length / 2 + 1) (dfOf ts)) 1 = .ok (dfOf ts) := by
    rw [getE_ok]
    unfold freqAxis
    rw [List.getElem?_map, List.getElem?_range (by omega)]
    simp
  rw [g0, g1]
  simp only
  rw [toArr_len_of_isArr ht, sub_zero, hl]

/-- **C142.** A single missing sample erases the raw spectrum: `compute_spectrum_time_series` of a record with a NaN does not raise; it
returns the frequency axis of the record with the gaps filled by any numbers, and every density on it is NaN. -/
theorem gap_raw_spectrum (A : FftN) {t : PyIn ℝ} {x : PyIn (Option ℝ)} {ts : List ℝ} {xs : List (Option ℝ)} (ht : t.IsArr ts) (hx : x.IsArr xs)
    (hm : AcceptedAxis ts) (hl : ts.length = xs.length) (hn : none ∈ xs) (df : ℝ) {v : List ℝ} (hv : Completes xs v) :
    ∃ f S, computeSpectrumTimeSeries t (vec v) df = .ok (f, S) ∧
      computeSpectrumTimeSeriesN A t x df = .ok (f, List.replicate f.length none) := by
  have h2 := mono_two_le hm
  have hvl : ts.length = v.length := by rw [hv.1, hl]
  rw [rawSpectrum_eq ht (isArr_vec v) hm hvl, rawSpectrumN_eq A ht hx hm hl]
  rw [show v.length = xs.length from hv.1]
  set f := freqAxis (xs.length / 2 + 1) (dfOf ts) with hf
  have hfl : f.length = xs.length / 2 + 1 := by simp [hf, freqAxis]
  obtain ⟨f0, f1, l, hfe⟩ : ∃ f0 f1 l, f = f0 :: f1 :: l := by
    rcases hh : f with _ | ⟨a, _ | ⟨b, l⟩⟩
    · rw [hh] at hfl; simp at hfl
    · rw [hh] at hfl; simp at hfl; omega
    · exact ⟨_, _, _, rfl⟩
  have hd : 0 < f1 - f0 := by
    have := freqAxis_increasing (xs.length / 2 + 1) (dfOf_pos hm) 0 1 (by omega) (by rw [← hf, hfl]; omega)
    rw [← hf, hfe] at this
    simpa using this
  obtain ⟨n, hn', -⟩ := averaging_factor (l := l) (df := df) hd
  rw [← hfe] at hn'
  have hpos := nFactorOf_pos hn'
  refine ⟨_, _, frequencyAveragingL_eq hn' hpos (by simp) (by simp [hfl]), ?_⟩
  rw [frequencyAveragingLN_eq hn' hpos]
  · congr 2
    rw [List.length_map, List.length_range]
    refine List.ext_getElem (by simp) fun i hi _ => ?_
    rw [List.getElem_map, List.getElem_range, List.getElem_replicate]
    have hi' : i < f.length / n := by simpa using hi
    have hlen : (((A.fwd xs).take (xs.length / 2 + 1)).map (densityN (dfOf ts) xs.length)).length = f.length := by
      rw [List.length_map, List.length_take, A.fwd_length, hfl]; omega
    refine (meanEN_block hpos hlen.ge hi').1 ⟨0, hpos, ?_⟩
    have hb := slice_bound hi'
    have hk : i * n < xs.length / 2 + 1 := by
      have : (i + 1) * n = i * n + n := by ring
      omega
    obtain ⟨c, hc, hcn⟩ := A.fwd_all hn (k := i * n) (by omega)
    rw [add_zero, List.getD, List.getElem?_map, List.getElem?_take, if_pos hk, hc]
    obtain ⟨a, b⟩ := c
    rcases hcn with h | h
    · simp only at h; subst h; rfl
    · simp only at h; subst h; cases a <;> rfl
  · intro h
    have := congrArg List.length h
    rw [List.length_map, List.length_take, A.fwd_length] at this
    simp only [List.length_nil] at this
    have : 2 ≤ xs.length := by rw [← hl]; exact h2
    omega

end Verif
