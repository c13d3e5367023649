import Verif.Props.NaNFft

/-! # C143: missing samples and the band-pass filter -/

set_option linter.unusedSectionVars false

namespace Verif
open Finset Complex

/-! ## The inverse transform with a missing operand -/

/-- The spectrum that is `z` at `k` and zero elsewhere. -/
noncomputable def spikeAt (N k : Nat) (z : ℂ) : List ℂ := (List.replicate N (0 : ℂ)).set k z

theorem spikeAt_getD {N k : Nat} (hk : k < N) (z : ℂ) (i : Nat) : (spikeAt N k z).getD i 0 = if i = k then z else 0 := by
  unfold spikeAt
  rw [List.getD, List.getElem?_set]
  by_cases h1 : k = i
  · rw [if_pos h1, if_pos (by simpa using h1 ▸ hk), if_pos h1.symm]; rfl
  · rw [if_neg h1, if_neg (fun h => h1 h.symm), List.getElem?_replicate]
    split_ifs <;> rfl

theorem npIfft_spike {N k m : Nat} (hk : k < N) (hm : m < N) (z : ℂ) :
    ((npIfft (spikeAt N k z)).getD m 0).re = (z * twiddle N ((m : ℤ) * k)).re / N := by
  have hl : (spikeAt N k z).length = N := by simp [spikeAt]
  unfold npIfft
  rw [hl, getD_map_range _ _ _ _ hm, re_inv]
  congr 1
  rw [Finset.sum_eq_single k]
  · beta_reduce; rw [spikeAt_getD hk, if_pos rfl]
  · intro b _ hb
    beta_reduce
    rw [spikeAt_getD hk, if_neg hb]; simp
  · intro h; exact absurd (Finset.mem_range.2 hk) h

/-- A sample of the inverse transform that a missing part of component `k` makes NaN. -/
theorem FftN.bwd_missing (A : FftN) {X : List NC} {k m : Nat} (hk : k < X.length) (hm : m < X.length) :
    ((X[k]?).map Prod.fst = some none → (twiddle X.length ((m : ℤ) * k)).re ≠ 0 → (A.bwd X)[m]? = some none) ∧
    ((X[k]?).map Prod.snd = some none → (twiddle X.length ((m : ℤ) * k)).im ≠ 0 → (A.bwd X)[m]? = some none) := by
  have hl : ∀ z, (spikeAt X.length k z).length = X.length := fun z => by simp [spikeAt]
  have hN : (X.length : ℝ) ≠ 0 := by exact_mod_cast (by omega : X.length ≠ 0)
  have hoth : ∀ z, ∀ i, i ≠ k → (spikeAt X.length k z)[i]? = (spikeAt X.length k 0)[i]? := by
    intro z i hi
    unfold spikeAt
    rw [List.getElem?_set_ne (by omega), List.getElem?_set_ne (by omega)]
  refine ⟨fun h hne => A.bwd_re X _ _ k m (hl 1) (hl 0) h (hoth 1) ?_ ?_, fun h hne => A.bwd_im X _ _ k m (hl I) (hl 0) h (hoth I) ?_ ?_⟩
  · rw [spikeAt_getD hk, spikeAt_getD hk, if_pos rfl, if_pos rfl]; simp
  · rw [npIfft_spike hk hm, npIfft_spike hk hm, one_mul, zero_mul, Complex.zero_re, zero_div]
    exact div_ne_zero hne hN
  · rw [spikeAt_getD hk, spikeAt_getD hk, if_pos rfl, if_pos rfl]; simp
  · rw [npIfft_spike hk hm, npIfft_spike hk hm, zero_mul, Complex.zero_re, zero_div]
    refine div_ne_zero ?_ hN
    simpa using hne

/-! ## The filter -/

theorem twiddle_fold {n : Nat} (hn : 0 < n) (j : Nat) {p : Nat} (hp : p ≤ n) :
    twiddle n ((j : ℤ) * ((n - p : ℕ) : ℤ)) = (starRingEnd ℂ) (twiddle n ((j : ℤ) * p)) := by
  have e : (j : ℤ) * ((n - p : ℕ) : ℤ) = -((j : ℤ) * p) + n * (j : ℤ) := by
    rw [Nat.cast_sub hp]; ring
  rw [e, twiddle_add, twiddle_mul_self hn, mul_one, ← conj_twiddle]

theorem unfoldSpectrumN_length {n : Nat} {Z : List NC} (hZ : Z.length = n / 2 + 1) :
    (unfoldSpectrumN Z (decide (n % 2 = 1))).length = n := by
  have hodd : (decide (n % 2 = 1)).toNat = n % 2 := by
    rcases Nat.mod_two_eq_zero_or_one n with h | h <;> simp [h]
  unfold unfoldSpectrumN
  simp only [List.length_append, List.length_take, List.length_reverse, List.length_map, List.length_drop, hodd, hZ]
  omega

theorem unfoldSpectrumN_tail {n : Nat} {Z : List NC} (hZ : Z.length = n / 2 + 1) {p : Nat} (hp1 : 1 ≤ p) (hp2 : p ≤ n / 2) :
    (unfoldSpectrumN Z (decide (n % 2 = 1)))[n - p]? = (Z[p]?).map conjN := by
  have hodd : (decide (n % 2 = 1)).toNat = n % 2 := by
    rcases Nat.mod_two_eq_zero_or_one n with h | h <;> simp [h]
  unfold unfoldSpectrumN
  have hl : (Z.take (Z.length - 1 + (decide (n % 2 = 1)).toNat)).length = n / 2 + n % 2 := by
    simp only [List.length_take, hodd, hZ]; omega
  rw [List.getElem?_append_right (by omega), hl, List.getElem?_reverse (by simp [hZ]; omega), List.getElem?_map, List.getElem?_drop]
  congr 2
  simp only [List.length_map, List.length_drop, hZ]
  omega

/-- The components after the filter, and the filtered signal. -/
theorem bandpassN_form (A : FftN) {t : PyIn ℝ} {x : PyIn (Option ℝ)} {ts : List ℝ} {xs : List (Option ℝ)} (ht : t.IsArr ts) (hx : x.IsArr xs)
    (hm : AcceptedAxis ts) (hl : ts.length = xs.length) (flow fhigh : ℝ) :
    ∃ Z : List NC, Z.length = xs.length / 2 + 1 ∧
      (∀ i, i < xs.length / 2 + 1 → keptBins ts flow fhigh i → Z[i]? = (A.fwd xs)[i]?) ∧
      (∀ i, i < xs.length / 2 + 1 → ¬ keptBins ts flow fhigh i → Z[i]? = some (cnum 0)) ∧
      bandpassfilterN A t x flow fhigh = .ok (A.bwd (unfoldSpectrumN Z (decide (xs.length % 2 = 1)))) := by
  have h2 := mono_two_le hm
  have h2' : 2 ≤ xs.length := by rw [← hl]; exact h2
  set n := xs.length with hn
  set f := freqAxis (n / 2 + 1) (dfOf ts) with hf
  have hfl : f.length = n / 2 + 1 := by simp [hf, freqAxis]
  obtain ⟨il, ih, hb, hk⟩ := bandIndices_spec (freqAxis_increasing (n / 2 + 1) (dfOf_pos hm)) (by rw [← hf, hfl]; omega) flow fhigh
  rw [← hf] at hb hk
  have g1 : ∃ v, getE f 1 = .ok v := by
    refine ⟨dfOf ts, ?_⟩
    rw [getE_ok, hf]
    unfold freqAxis
    rw [List.getElem?_map, List.getElem?_range (by omega)]
    simp
  obtain ⟨v1, g1⟩ := g1
  have hkb : ∀ i, keptBins ts flow fhigh i ↔ Kept f flow fhigh i := by
    intro i
    unfold keptBins
    rw [hl]
  have hXl : ((A.fwd xs).take (n / 2 + 1)).length = n / 2 + 1 := by
    rw [List.length_take, A.fwd_length]; omega
  have hget : ∀ i, i < n / 2 + 1 → (((A.fwd xs).take (n / 2 + 1)).zipIdx.map fun p => if il ≤ p.2 ∧ p.2 < ih then p.1 else cnum 0)[i]? =
      if il ≤ i ∧ i < ih then (A.fwd xs)[i]? else some (cnum 0) := by
    intro i hi
    rw [List.getElem?_map, List.getElem?_zipIdx, List.getElem?_take, if_pos hi]
    have hi2 : i < (A.fwd xs).length := by rw [A.fwd_length]; omega
    rw [List.getElem?_eq_getElem hi2]
    simp only [Option.map_some, zero_add]
    split_ifs <;> rfl
  refine ⟨((A.fwd xs).take (n / 2 + 1)).zipIdx.map fun p => if il ≤ p.2 ∧ p.2 < ih then p.1 else cnum 0, ?_, ?_, ?_, ?_⟩
  · rw [List.length_map, List.length_zipIdx, hXl]
  · intro i hi hkeep
    rw [hget i hi, if_pos ((hk i (by omega)).2 ((hkb i).1 hkeep))]
  · intro i hi hkeep
    rw [hget i hi, if_neg (fun h => hkeep ((hkb i).2 ((hk i (by omega)).1 h)))]
  · unfold bandpassfilterN
    rw [time2freqNyquistN_eq A ht hx hm hl]
    simp only [bind, Except.bind]
    unfold applyBandFilterN
    rw [← hn, ← hf, hb]
    simp only [bind, Except.bind, pure, Except.pure]
    rw [g1]

/-- Sample `m` of the filtered signal is NaN if a kept component links it to the missing sample `j`. -/
theorem bandpassN_missing (A : FftN) {t : PyIn ℝ} {x : PyIn (Option ℝ)} {ts : List ℝ} {xs : List (Option ℝ)} (ht : t.IsArr ts) (hx : x.IsArr xs)
    (hm : AcceptedAxis ts) (hl : ts.length = xs.length) (flow fhigh : ℝ) :
    ∃ y, bandpassfilterN A t x flow fhigh = .ok y ∧ y.length = xs.length ∧
      ∀ j p m : Nat, xs[j]? = some none → 1 ≤ p → p ≤ xs.length / 2 → keptBins ts flow fhigh p → m < xs.length →
        ((twiddle xs.length ((j : ℤ) * p)).re * (twiddle xs.length ((m : ℤ) * p)).re ≠ 0 ∨
         (twiddle xs.length ((j : ℤ) * p)).im * (twiddle xs.length ((m : ℤ) * p)).im ≠ 0) → y[m]? = some none := by
  obtain ⟨Z, hZl, hZk, -, hy⟩ := bandpassN_form A ht hx hm hl flow fhigh
  have hUl := unfoldSpectrumN_length hZl
  refine ⟨_, hy, by rw [A.bwd_length, hUl], ?_⟩
  intro j p m hj hp1 hp2 hkeep hmn hne
  have hn : 0 < xs.length := by omega
  obtain ⟨f1, f2⟩ := A.fwd_missing hj (k := p) (by omega)
  have hU := unfoldSpectrumN_tail hZl hp1 hp2
  rw [hZk p (by omega) hkeep] at hU
  obtain ⟨b1, b2⟩ := A.bwd_missing (X := unfoldSpectrumN Z (decide (xs.length % 2 = 1))) (k := xs.length - p) (m := m)
    (by rw [hUl]; omega) (by rw [hUl]; exact hmn)
  rw [hU, hUl, twiddle_fold hn m (by omega : p ≤ xs.length)] at b1 b2
  rcases hne with h | h
  · refine b1 ?_ (by simpa using right_ne_zero_of_mul h)
    have := f1 (left_ne_zero_of_mul h)
    cases hc : (A.fwd xs)[p]? with
    | none => rw [hc] at this; simp at this
    | some c =>
      rw [hc] at this
      simpa [conjN] using this
  · refine b2 ?_ (by simpa using right_ne_zero_of_mul h)
    have := f2 (left_ne_zero_of_mul h)
    cases hc : (A.fwd xs)[p]? with
    | none => rw [hc] at this; simp at this
    | some c =>
      rw [hc] at this
      simp only [Option.map_some, Option.some.injEq] at this
      simp [conjN, this]

theorem set_eq_lincomb {u v : List ℝ} {j : Nat} (hl : u.length = v.length) (hj : j < v.length) (ho : ∀ i, i ≠ j → u[i]? = v[i]?) :
    u = lincomb 1 (u.getD j 0 - v.getD j 0) v (unitAt v.length j) := by
  have hul : v.length = (unitAt v.length j).length := by simp [unitAt]
  apply List.ext_getElem
  · rw [lincomb_length _ _ hul, hl]
  · intro i h1 h2
    have h3 : i < v.length := by omega
    have e1 : u[i] = u.getD i 0 := (List.getD_eq_getElem _ _ h1).symm
    have e2 : (lincomb 1 (u.getD j 0 - v.getD j 0) v (unitAt v.length j))[i] = (lincomb 1 (u.getD j 0 - v.getD j 0) v (unitAt v.length j)).getD i 0 :=
      (List.getD_eq_getElem _ _ h2).symm
    rw [e1, e2, lincomb_getD _ _ hul h3, unitAt_getD hj]
    by_cases hij : i = j
    · subst hij; rw [if_pos rfl]; ring
    · have := ho i hij
      rw [if_neg hij]
      rw [List.getD, List.getD, this]; ring

/-- The response of the filter at `m` to a unit sample at `j` vanishes if no kept component links the two. -/
theorem maskFilt_unit (P : Nat → Prop) {n j m : Nat} (hj : j < n) (hm : m < n) (h0 : ¬ P 0)
    (h : ∀ p, 1 ≤ p → p ≤ n / 2 → P p → (twiddle n ((j : ℤ) * p)).re * (twiddle n ((m : ℤ) * p)).re = 0 ∧
      (twiddle n ((j : ℤ) * p)).im * (twiddle n ((m : ℤ) * p)).im = 0) :
    (maskFilt P (unitAt n j)).getD m 0 = 0 := by
  have hn : 0 < n := by omega
  have hul : (unitAt n j).length = n := by simp [unitAt]
  rw [maskFilt_getD P _ (by rw [hul]; exact hm), hul]
  rw [Finset.sum_eq_zero, zero_div]
  intro k hk
  have hk := Finset.mem_range.1 hk
  split_ifs with hP
  · rw [coef_unitAt hj, ← conj_twiddle]
    have key : ∀ p, 1 ≤ p → p ≤ n / 2 → P p → ((starRingEnd ℂ) (twiddle n ((j : ℤ) * p)) * twiddle n ((m : ℤ) * p)).re = 0 := by
      intro p hp1 hp2 hPp
      obtain ⟨h1, h2⟩ := h p hp1 hp2 hPp
      simp only [Complex.mul_re, Complex.conj_re, Complex.conj_im]
      linarith
    by_cases hk2 : k ≤ n / 2
    · rw [show min k (n - k) = k by omega] at hP
      have hk0 : 1 ≤ k := by
        rcases Nat.eq_zero_or_pos k with h0' | h0'
        · subst h0'; exact absurd hP h0
        · exact h0'
      exact key k hk0 hk2 hP
    · rw [show min k (n - k) = n - k by omega] at hP
      have e : k = n - (n - k) := by omega
      rw [e, twiddle_fold hn j (by omega : n - k ≤ n), twiddle_fold hn m (by omega : n - k ≤ n)]
      have := key (n - k) (by omega) (by omega) hP
      rw [← map_mul, Complex.conj_re]
      exact this
  · rfl

/-- **C143.** The band-pass filter on a record with missing samples never raises and keeps the length.  Every sample of the result that
depends on a missing one - two records that differ only there have different filtered values - is NaN. -/
theorem gap_filter_depends (A : FftN) {t : PyIn ℝ} {x : PyIn (Option ℝ)} {ts : List ℝ} {xs : List (Option ℝ)} (ht : t.IsArr ts) (hx : x.IsArr xs)
    (hm : AcceptedAxis ts) (hl : ts.length = xs.length) (flow fhigh : ℝ) :
    ∃ y, bandpassfilterN A t x flow fhigh = .ok y ∧ y.length = xs.length ∧
      ∀ (j m : Nat) (u v yu yv : List ℝ), xs[j]? = some none → u.length = xs.length → v.length = xs.length → (∀ i, i ≠ j → u[i]? = v[i]?) →
        bandpassfilter t (vec u) flow fhigh = .ok yu → bandpassfilter t (vec v) flow fhigh = .ok yv → yu.getD m 0 ≠ yv.getD m 0 →
        y[m]? = some none := by
  obtain ⟨y, h1, h2, h3⟩ := bandpassN_missing A ht hx hm hl flow fhigh
  refine ⟨y, h1, h2, ?_⟩
  intro j m u v yu yv hj hul hvl ho hyu hyv hne
  have hjl : j < xs.length := (List.getElem?_eq_some_iff.1 hj).1
  rw [bandpassfilter_eq ht (isArr_vec u) hm (by rw [hl, hul])] at hyu
  rw [bandpassfilter_eq ht (isArr_vec v) hm (by rw [hl, hvl])] at hyv
  simp only [Except.ok.injEq] at hyu hyv
  subst hyu hyv
  have hml : m < xs.length := by
    by_contra hc
    apply hne
    rw [List.getD_eq_default _ _ (by rw [maskFilt_length]; omega), List.getD_eq_default _ _ (by rw [maskFilt_length]; omega)]
  by_contra hy
  apply hne
  have hl1 : v.length = (unitAt v.length j).length := by simp [unitAt]
  have hl2 : (maskFilt (keptBins ts flow fhigh) v).length = (maskFilt (keptBins ts flow fhigh) (unitAt v.length j)).length := by
    rw [maskFilt_length, maskFilt_length, ← hl1]
  rw [set_eq_lincomb (hul.trans hvl.symm) (by omega) ho, maskFilt_lincomb _ _ _ hl1, lincomb_getD _ _ hl2 (by rw [maskFilt_length]; omega)]
  rw [hvl, maskFilt_unit (keptBins ts flow fhigh) hjl hml (fun h => by have := h.1; omega)]
  · ring
  · intro p hp1 hp2 hP
    have := mt (h3 j p m hj hp1 hp2 hP hml) hy
    push Not at this
    exact this

/-- **C143 (at the gap).** If the band keeps a component at all, the filtered signal is NaN wherever the signal is; if it keeps none, the
filtered signal is zero everywhere, as for any record. -/
theorem gap_filter_at (A : FftN) {t : PyIn ℝ} {x : PyIn (Option ℝ)} {ts : List ℝ} {xs : List (Option ℝ)} (ht : t.IsArr ts) (hx : x.IsArr xs)
    (hm : AcceptedAxis ts) (hl : ts.length = xs.length) (flow fhigh : ℝ) :
    ∃ y, bandpassfilterN A t x flow fhigh = .ok y ∧ y.length = xs.length ∧
      ((∃ p, p ≤ xs.length / 2 ∧ keptBins ts flow fhigh p) → ∀ j : Nat, xs[j]? = some none → y[j]? = some none) ∧
      ((∀ p, p ≤ xs.length / 2 → ¬ keptBins ts flow fhigh p) → y = List.replicate xs.length (some 0)) := by
  obtain ⟨y, h1, h2, h3⟩ := bandpassN_missing A ht hx hm hl flow fhigh
  refine ⟨y, h1, h2, ?_, ?_⟩
  · rintro ⟨p, hp, hk⟩ j hj
    refine h3 j p j hj hk.1 hp hk (List.getElem?_eq_some_iff.1 hj).1 ?_
    by_contra hc
    push Not at hc
    have h4 := norm_twiddle xs.length ((j : ℤ) * p)
    have : twiddle xs.length ((j : ℤ) * p) = 0 := Complex.ext (mul_self_eq_zero.1 hc.1) (mul_self_eq_zero.1 hc.2)
    rw [this] at h4
    simp at h4
  · intro hnone
    obtain ⟨Z, hZl, -, hZ0, hy⟩ := bandpassN_form A ht hx hm hl flow fhigh
    have hZ : Z = List.replicate (xs.length / 2 + 1) (cnum 0) := by
      refine List.ext_getElem (by simp [hZl]) fun i hi _ => ?_
      have := hZ0 i (by omega) (hnone i (by omega))
      rw [List.getElem?_eq_getElem hi] at this
      rw [List.getElem_replicate]
      exact Option.some.inj this
    have hU : unfoldSpectrumN Z (decide (xs.length % 2 = 1)) = (List.replicate xs.length (0 : ℂ)).map cnum := by
      have hUl := unfoldSpectrumN_length hZl
      rw [List.map_replicate]
      refine List.eq_replicate_iff.2 ⟨hUl, ?_⟩
      intro c hc
      rw [hZ] at hc
      unfold unfoldSpectrumN at hc
      have hcz : conjN (cnum 0) = cnum 0 := by simp [conjN, cnum]
      rcases List.mem_append.1 hc with h | h
      · exact List.eq_of_mem_replicate (List.mem_of_mem_take h)
      · rw [List.mem_reverse, List.mem_map] at h
        obtain ⟨d, hd, rfl⟩ := h
        rw [List.eq_of_mem_replicate (List.mem_of_mem_drop hd), hcz]
    rw [h1] at hy
    have hy := Except.ok.inj hy
    rw [hy, hU, A.bwd_num]
    refine List.eq_replicate_iff.2 ⟨by simp [npIfft], ?_⟩
    intro c hc
    obtain ⟨z, hz, rfl⟩ := List.mem_map.1 hc
    unfold npIfft at hz
    obtain ⟨m, -, rfl⟩ := List.mem_map.1 hz
    congr 1
    rw [re_inv, Finset.sum_eq_zero, zero_div]
    intro k _
    beta_reduce
    rw [List.getD, List.getElem?_replicate]
    split_ifs <;> simp

/-! ## Records without gaps -/

theorem conjN_cnum (z : ℂ) : conjN (cnum z) = cnum ((starRingEnd ℂ) z) := by simp [conjN, cnum]

theorem unfoldSpectrumN_num {n : Nat} (hn : 2 ≤ n) {f : List ℝ} (hf : f.length = n / 2 + 1) {X : List ℂ} (hX : X.length = n / 2 + 1) :
    ∃ fT XT, unfoldSpectrumL f X (decide (n % 2 = 1)) = .ok (fT, XT) ∧ unfoldSpectrumN (X.map cnum) (decide (n % 2 = 1)) = XT.map cnum := by
  obtain ⟨f0, f1, l, rfl⟩ : ∃ f0 f1 l, f = f0 :: f1 :: l := by
    rcases f with _ | ⟨a, _ | ⟨b, l⟩⟩
    · simp at hf
    · simp at hf; omega
    · exact ⟨_, _, _, rfl⟩
  have hodd : (decide (n % 2 = 1)).toNat = n % 2 := by
    rcases Nat.mod_two_eq_zero_or_one n with h | h <;> simp [h]
  unfold unfoldSpectrumL
  simp only [hf, hX]
  rw [if_neg (fun h => lt_irrefl _ h.1), if_neg (lt_irrefl _), hodd]
  refine ⟨_, _, rfl, ?_⟩
  have ht1 : X.take (n / 2 + 1) = X := List.take_of_length_le (by omega)
  rw [ht1]
  have ht2 : (X ++ List.replicate ((n / 2 + 1 - 1) * 2 + n % 2 - (n / 2 + 1)) (0 : ℂ)).take (n / 2 + 1) = X := by
    rw [← hX, List.take_left']
    rfl
  rw [ht2, List.take_append_of_le_length (by omega)]
  unfold unfoldSpectrumN
  rw [hodd, List.length_map, hX, List.map_append, ← List.map_take]
  congr 1
  rw [← List.map_drop, List.map_map, List.map_reverse, List.map_map]
  exact congrArg List.reverse (List.map_congr_left fun z _ => conjN_cnum z)

/-- **C143 (no gap).** On a record without missing samples the filter is the one without NaN. -/
theorem gap_filter_none (A : FftN) {t : PyIn ℝ} {ts v : List ℝ} (ht : t.IsArr ts) (hm : AcceptedAxis ts) (hl : ts.length = v.length)
    (flow fhigh : ℝ) : bandpassfilterN A t (vec (v.map some)) flow fhigh = (bandpassfilter t (vec v) flow fhigh).map fun y => y.map some := by
  have h2 := mono_two_le hm
  have hl' : ts.length = (v.map some).length := by simpa using hl
  have hvl : (v.map some).length = v.length := by simp
  unfold bandpassfilterN bandpassfilter
  rw [time2freqNyquistN_eq A ht (isArr_vec _) hm hl', time2freqNyquist_eq ht (isArr_vec _) hm hl, hvl]
  simp only [bind, Except.bind]
  set n := v.length with hn
  set f := freqAxis (n / 2 + 1) (dfOf ts) with hf
  have hfl : f.length = n / 2 + 1 := by simp [hf, freqAxis]
  obtain ⟨il, ih, hb, -⟩ := bandIndices_spec (freqAxis_increasing (n / 2 + 1) (dfOf_pos hm)) (by rw [← hf, hfl]; omega) flow fhigh
  rw [← hf] at hb
  obtain ⟨v1, g1⟩ : ∃ v, getE f 1 = .ok v := by
    refine ⟨dfOf ts, ?_⟩
    rw [getE_ok, hf]
    unfold freqAxis
    rw [List.getElem?_map, List.getElem?_range (by omega)]
    simp
  have hX : (A.fwd (v.map some)).take (n / 2 + 1) = ((List.range (n / 2 + 1)).map (coef v)).map cnum := by
    rw [A.fwd_num, npFft_ofReal, ← List.map_take, ← List.map_take, List.take_range]
    congr 3
    omega
  unfold applyBandFilterN applyBandFilter
  rw [hb, hX]
  simp only [bind, Except.bind, pure, Except.pure]
  rw [g1]
  simp only
  set X := (List.range (n / 2 + 1)).map (coef v) with hXd
  have hZ : ((X.map cnum).zipIdx.map fun p => if il ≤ p.2 ∧ p.2 < ih then p.1 else cnum 0) =
      (X.zipIdx.map fun p => if il ≤ p.2 ∧ p.2 < ih then p.1 else 0).map cnum := by
    rw [List.zipIdx_map, List.map_map, List.map_map]
    refine List.map_congr_left fun p _ => ?_
    simp only [Function.comp, Prod.map, id]
    by_cases h : il ≤ p.2 ∧ p.2 < ih
    · rw [if_pos h, if_pos h]
    · rw [if_neg h, if_neg h]
  rw [hZ]
  obtain ⟨fT, XT, q1, q2⟩ := unfoldSpectrumN_num (n := n) (by omega) hfl
    (X := X.zipIdx.map fun p => if il ≤ p.2 ∧ p.2 < ih then p.1 else 0) (by simp [hXd])
  rw [q2]
  unfold unfoldSpectrum
  rw [vecIn_vec, vecIn_vec]
  simp only [bind, Except.bind]
  rw [q1]
  simp only
  unfold freq2time
  rw [vecIn_vec]
  simp only [bind, Except.bind]
  have hXT : XT ≠ [] := by
    rintro rfl
    have := congrArg List.length q2
    rw [unfoldSpectrumN_length (by simp [hXd])] at this
    simp at this
    omega
  rw [if_neg hXT, A.bwd_num]
  simp only [pure, Except.pure, Except.map, List.map_map]
  rfl

/-! ## Concrete cases: the hypotheses of the theorems above are met -/

example (A : FftN) (v : List ℝ) (hv : v.length = 4) : bandpassfilterN A (vec [0, 1, 2, 3]) (vec (v.map some)) (1 / 4) (1 / 2) =
    (bandpassfilter (vec [0, 1, 2, 3]) (vec v) (1 / 4) (1 / 2)).map fun y => y.map some :=
  gap_filter_none A (isArr_vec [0, 1, 2, 3]) (uniform_check_accepts_uniform (x := [0, 1, 2, 3]) (dx := 1) (by simp) ⟨by norm_num, fun i hi => by
    obtain rfl | rfl | rfl : i = 0 ∨ i = 1 ∨ i = 2 := by simp only [List.length_cons, List.length_nil] at hi; omega
    all_goals norm_num⟩) (by rw [hv]; rfl) _ _

example (A : FftN) : ∃ y, bandpassfilterN A (vec [0, 1, 2, 3]) (vec [some 1, none, some 2, some 1]) (1 / 4) (1 / 2) = .ok y ∧ y.length = 4 := by
  obtain ⟨y, a, b, -⟩ := gap_filter_depends A (isArr_vec [0, 1, 2, 3]) (isArr_vec [some 1, none, some 2, some 1]) (uniform_check_accepts_uniform (x := [0, 1, 2, 3]) (dx := 1) (by simp) ⟨by norm_num, fun i hi => by
    obtain rfl | rfl | rfl : i = 0 ∨ i = 1 ∨ i = 2 := by simp only [List.length_cons, List.length_nil] at hi; omega
    all_goals norm_num⟩) rfl (1 / 4) (1 / 2)
  exact ⟨y, a, b⟩

end Verif
