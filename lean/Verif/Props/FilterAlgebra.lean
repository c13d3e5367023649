import Verif.Props.Mixture
import Verif.Props.DecompLaws

/-! # C107: algebra of the band filter: composition, zero phase, delay, offset -/

set_option linter.unusedSectionVars false

namespace Verif
open Finset

theorem maskFilt_congr {P Q : Nat → Prop} {xs : List ℝ} (h : ∀ i < xs.length / 2 + 1, P i ↔ Q i) : maskFilt P xs = maskFilt Q xs := by
  unfold maskFilt
  refine List.map_congr_left fun j _ => ?_
  congr 1
  refine inv_congr (fun k hk => ?_) j
  have := h (min k (xs.length - k)) (by omega)
  beta_reduce
  by_cases hP : P (min k (xs.length - k))
  · rw [if_pos hP, if_pos (this.1 hP)]
  · rw [if_neg hP, if_neg (fun hQ => hP (this.2 hQ))]

theorem maskFilt_comp (P Q : Nat → Prop) (xs : List ℝ) : maskFilt Q (maskFilt P xs) = maskFilt (fun i => P i ∧ Q i) xs := by
  apply eq_of_coef (by simp [maskFilt_length])
  intro k hk
  simp only [maskFilt_length] at hk
  rw [coef_maskFilt _ _ (by rw [maskFilt_length]; exact hk), maskFilt_length, coef_maskFilt _ _ hk, coef_maskFilt _ _ hk]
  by_cases hP : P (min k (xs.length - k)) <;> by_cases hQ : Q (min k (xs.length - k)) <;> simp [hP, hQ]

theorem passes_inter {df top a1 b1 a2 b2 : ℝ} (p : Nat) :
    Passes df top a1 b1 p ∧ Passes df top a2 b2 p ↔ Passes df top (max a1 a2) (min b1 b2) p := by
  unfold Passes
  rw [max_le_iff, max_lt_iff, le_min_iff, lt_min_iff]
  constructor
  · rintro ⟨⟨h1, h2, h3⟩, h4, h5, h6⟩
    refine ⟨⟨h1, h4⟩, ⟨h2, h5⟩, ?_⟩
    rcases h3 with h3 | h3 <;> rcases h6 with h6 | h6
    · exact Or.inl ⟨h3, h6⟩
    · rcases le_or_gt top b2 with h | h
      · exact Or.inl ⟨h3, h⟩
      · exact Or.inr ⟨by linarith, h6⟩
    · rcases le_or_gt top b1 with h | h
      · exact Or.inl ⟨h, h6⟩
      · exact Or.inr ⟨h3, by linarith⟩
    · exact Or.inr ⟨h3, h6⟩
  · rintro ⟨⟨h1, h4⟩, ⟨h2, h5⟩, h | h⟩
    · exact ⟨⟨h1, h2, Or.inl h.1⟩, h4, h5, Or.inl h.2⟩
    · exact ⟨⟨h1, h2, Or.inr h.1⟩, h4, h5, Or.inr h.2⟩

/-- **C107 (composition).**  Filtering twice is filtering once with the intersection of the two bands, for all limits. -/
theorem bandpass_compose {t x : PyIn ℝ} {ts xs : List ℝ} (ht : t.IsArr ts) (hx : x.IsArr xs) (hm : AcceptedAxis ts)
    (hl : ts.length = xs.length) (a1 b1 a2 b2 : ℝ) :
    ∃ y, bandpassfilter t x a1 b1 = .ok y ∧ bandpassfilter t (vec y) a2 b2 = bandpassfilter t x (max a1 a2) (min b1 b2) := by
  refine ⟨_, bandpassfilter_eq ht hx hm hl a1 b1, ?_⟩
  rw [bandpassfilter_eq ht (isArr_vec _) hm (by rw [maskFilt_length, hl]), bandpassfilter_eq ht hx hm hl, maskFilt_comp]
  congr 1
  refine maskFilt_congr fun i hi => ?_
  rw [← hl] at hi
  rw [kept_iff_passes hm hi, kept_iff_passes hm hi, kept_iff_passes hm hi, ← passes_inter]
  tauto

/-- **C107 (order).**  Two band filters commute. -/
theorem bandpass_commute {t x : PyIn ℝ} {ts xs : List ℝ} (ht : t.IsArr ts) (hx : x.IsArr xs) (hm : AcceptedAxis ts)
    (hl : ts.length = xs.length) (a1 b1 a2 b2 : ℝ) :
    ∃ y1 y2, bandpassfilter t x a1 b1 = .ok y1 ∧ bandpassfilter t x a2 b2 = .ok y2 ∧
      bandpassfilter t (vec y1) a2 b2 = bandpassfilter t (vec y2) a1 b1 := by
  obtain ⟨y1, e1, h1⟩ := bandpass_compose ht hx hm hl a1 b1 a2 b2
  obtain ⟨y2, e2, h2⟩ := bandpass_compose ht hx hm hl a2 b2 a1 b1
  exact ⟨y1, y2, e1, e2, by rw [h1, h2, max_comm, min_comm]⟩

/-- **C107 (zero phase).**  The filter of the time-reversed record is the time-reversed filtered record. -/
theorem bandpass_reverse {t x x' : PyIn ℝ} {ts xs : List ℝ} (ht : t.IsArr ts) (hx : x.IsArr xs) (hx' : x'.IsArr xs.reverse)
    (hm : AcceptedAxis ts) (hl : ts.length = xs.length) (flow fhigh : ℝ) :
    ∃ y, bandpassfilter t x flow fhigh = .ok y ∧ bandpassfilter t x' flow fhigh = .ok y.reverse := by
  refine ⟨_, bandpassfilter_eq ht hx hm hl flow fhigh, ?_⟩
  rw [bandpassfilter_eq ht hx' hm (by rw [List.length_reverse, hl])]
  congr 1
  apply eq_of_coef (by simp [maskFilt_length])
  intro k hk
  simp only [maskFilt_length, List.length_reverse] at hk
  rw [coef_maskFilt _ _ (by rw [List.length_reverse]; exact hk), List.length_reverse, coef_reverse, coef_reverse, maskFilt_length,
    coef_maskFilt _ _ hk]
  split_ifs
  · rfl
  · simp

/-- **C107 (delay).**  Filtering commutes with a circular shift of the record. -/
theorem bandpass_rotate {t x x' : PyIn ℝ} {ts xs : List ℝ} {m : Nat} (ht : t.IsArr ts) (hx : x.IsArr xs) (hx' : x'.IsArr (xs.rotate m))
    (hm : AcceptedAxis ts) (hl : ts.length = xs.length) (flow fhigh : ℝ) :
    ∃ y, bandpassfilter t x flow fhigh = .ok y ∧ bandpassfilter t x' flow fhigh = .ok (y.rotate m) := by
  refine ⟨_, bandpassfilter_eq ht hx hm hl flow fhigh, ?_⟩
  rw [bandpassfilter_eq ht hx' hm (by rw [List.length_rotate, hl])]
  congr 1
  apply eq_of_coef (by simp [maskFilt_length])
  intro k hk
  simp only [maskFilt_length, List.length_rotate] at hk
  rw [coef_maskFilt _ _ (by rw [List.length_rotate]; exact hk), List.length_rotate, coef_rotate, coef_rotate, maskFilt_length,
    coef_maskFilt _ _ hk]
  split_ifs
  · rfl
  · simp

/-- **C107 (offset).**  A constant added to the record does not change the result. -/
theorem bandpass_offset {t x x' : PyIn ℝ} {ts xs : List ℝ} {c : ℝ} (ht : t.IsArr ts) (hx : x.IsArr xs) (hx' : x'.IsArr (xs.map fun v => v + c))
    (hm : AcceptedAxis ts) (hl : ts.length = xs.length) (flow fhigh : ℝ) :
    bandpassfilter t x' flow fhigh = bandpassfilter t x flow fhigh := by
  rw [bandpassfilter_eq ht hx hm hl flow fhigh, bandpassfilter_eq ht hx' hm (by rw [List.length_map, hl])]
  congr 1
  apply eq_of_coef (by simp [maskFilt_length])
  intro k hk
  simp only [maskFilt_length, List.length_map] at hk
  rw [coef_maskFilt _ _ (by rw [List.length_map]; exact hk), List.length_map, coef_maskFilt _ _ hk]
  rcases Nat.eq_zero_or_pos k with rfl | hk0
  · have : ¬ keptBins ts flow fhigh (min 0 (xs.length - 0)) := by
      rw [Nat.zero_min, kept_iff_passes hm (by omega)]; omega
    rw [if_neg this, if_neg this]
  · rw [coef_add_const c hk0 hk]

/-- Non-vacuity: all hypotheses hold for six samples; the two bands overlap in [1/6, 1/3] Hz. -/
example : ∃ y, bandpassfilter (vec [0, 1, 2, 3, 4, 5]) (vec [1, 0, 2, 5, 3, 1]) 0 (1 / 3) = .ok y ∧
    bandpassfilter (vec [0, 1, 2, 3, 4, 5]) (vec y) (1 / 6) 1 = bandpassfilter (vec [0, 1, 2, 3, 4, 5]) (vec [1, 0, 2, 5, 3, 1]) (1 / 6) (1 / 3) := by
  obtain ⟨y, e, h⟩ := bandpass_compose (isArr_vec [0, 1, 2, 3, 4, 5]) (isArr_vec [1, 0, 2, 5, 3, 1]) axis6 rfl 0 (1 / 3) (1 / 6) 1
  refine ⟨y, e, ?_⟩
  rw [h]
  norm_num

/-! ## Concrete cases: the hypotheses of the theorems above are met -/

example := bandpass_commute (isArr_vec [0, 1, 2, 3, 4, 5]) (isArr_vec [1, 0, 2, 5, 3, 1]) axis6 rfl 0 (1 / 3) (1 / 6) 1
example := bandpass_reverse (isArr_vec [0, 1, 2, 3, 4, 5]) (isArr_vec [1, 0, 2, 5, 3, 1]) (isArr_vec _) axis6 rfl 0 (1 / 3)
example := bandpass_rotate (m := 2) (isArr_vec [0, 1, 2, 3, 4, 5]) (isArr_vec [1, 0, 2, 5, 3, 1]) (isArr_vec _) axis6 rfl 0 (1 / 3)
example : bandpassfilter (vec [0, 1, 2, 3, 4, 5]) (vec [8, 7, 9, 12, 10, 8]) 0 (1 / 3) =
    bandpassfilter (vec [0, 1, 2, 3, 4, 5]) (vec [1, 0, 2, 5, 3, 1]) 0 (1 / 3) :=
  bandpass_offset (c := 7) (isArr_vec [0, 1, 2, 3, 4, 5]) (isArr_vec [1, 0, 2, 5, 3, 1])
    (by have : ([8, 7, 9, 12, 10, 8] : List ℝ) = [1, 0, 2, 5, 3, 1].map fun v => v + 7 := by norm_num
        rw [this]; exact isArr_vec _) axis6 rfl 0 (1 / 3)

end Verif
