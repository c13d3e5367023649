import Verif.Lemmas.Moments

/-! # Moments as weighted sums with weights that do not depend on the spectrum or the order -/

set_option linter.unusedSectionVars false

namespace Verif
open Finset

variable {K : Type} [Field K] [LinearOrder K] [IsStrictOrderedRing K]

theorem pySlice_len1 {α : Type} {l : List α} {i j : Nat} (hj : j < l.length) : (pySlice l i (j + 1)).length = j + 1 - i := by
  unfold pySlice
  rw [List.length_drop, List.length_take]; omega

theorem pySlice_getD {l : List K} {i j k : Nat} (hk : i + k ≤ j) :
    (pySlice l i (j + 1)).getD k 0 = l.getD (i + k) 0 := by
  unfold pySlice
  rw [getD_drop']
  simp only [List.getD_eq_getElem?_getD]
  rw [List.getElem?_take, if_pos (by omega)]

theorem pySlice_empty {α : Type} {l : List α} {i j : Nat} (h : j < i) : pySlice l i (j + 1) = [] := by
  unfold pySlice
  apply List.drop_eq_nil_of_le
  rw [List.length_take]; omega

theorem pySlice_uniform {f : List K} {h : K} (hu : UniformAxis f h) {i j : Nat} (hj : j < f.length) :
    UniformAxis (pySlice f i (j + 1)) h := by
  refine ⟨hu.1, fun k hk => ?_⟩
  rw [pySlice_len1 hj] at hk
  rw [pySlice_getD (by omega), pySlice_getD (by omega), ← add_assoc]
  exact hu.2 _ (by omega)

theorem getD_zipWith {f S : List K} (g : K → K → K) (hl : S.length = f.length) {k : Nat} (hk : k < f.length) :
    (List.zipWith g f S).getD k 0 = g (f.getD k 0) (S.getD k 0) := by
  rw [List.getD_eq_getElem _ _ (by rw [List.length_zipWith]; omega), List.getElem_zipWith,
    List.getD_eq_getElem _ _ hk, List.getD_eq_getElem _ _ (by omega)]

theorem momentSum_slice_weights {f : List K} {i j : Nat} (hij : i ≤ j) (hj : j < f.length) :
    ∃ w : Nat → K, (∀ h, UniformAxis f h → (∀ k, i ≤ k → k ≤ j → 0 ≤ w k) ∧ (i < j → ∀ k, i ≤ k → k ≤ j → h / 3 ≤ w k)) ∧
      ∀ (m : Int) (S : List K), S.length = f.length → ¬ (m < 0 ∧ 0 ∈ pySlice f i (j + 1)) →
        momentSum m (pySlice f i (j + 1)) (pySlice S i (j + 1)) = .ok (∑ k ∈ Icc i j, w k * (f.getD k 0 ^ m * S.getD k 0)) := by
  set x := pySlice f i (j + 1) with hx
  have hxl : x.length = j + 1 - i := pySlice_len1 hj
  have hxne : x ≠ [] := by intro h; rw [h] at hxl; simp at hxl; omega
  have key : ∃ w : Nat → K, (∀ h, UniformAxis f h → (∀ k < x.length, 0 ≤ w k) ∧ (i < j → ∀ k < x.length, h / 3 ≤ w k)) ∧
      ∀ y : List K, y.length = x.length → simpson x y = .ok (∑ i ∈ range x.length, w i * y.getD i 0) := by
    by_cases hlt : i < j
    · by_cases hu : ∃ h, UniformAxis f h
      · obtain ⟨h, hu⟩ := hu
        obtain ⟨w, hw, hy⟩ := simpson_uniform_weights (pySlice_uniform hu hj (i := i)) (by rw [pySlice_len1 hj]; omega)
        refine ⟨w, fun h' hu' => ?_, hy⟩
        have e : h' = h := by
          have a := hu.2 0 (by omega)
          have b := hu'.2 0 (by omega)
          linarith
        subst e
        exact ⟨fun k hk => le_trans (by have := hu.1; linarith [div_nonneg this.le (by norm_num : (0:K) ≤ 3)]) (hw k hk), fun _ => hw⟩
      · obtain ⟨w, hw⟩ := simpson_weights hxne
        exact ⟨w, fun h hu' => absurd ⟨h, hu'⟩ hu, hw⟩
    · have e : i = j := by omega
      obtain ⟨a, ha⟩ := List.length_eq_one_iff.1 (show x.length = 1 by omega)
      refine ⟨fun _ => 0, fun h _ => ⟨fun _ _ => le_refl _, fun h' => absurd h' hlt⟩, fun y hy => ?_⟩
      rw [ha] at hy ⊢
      obtain ⟨b, rfl⟩ := List.length_eq_one_iff.1 (by simpa using hy)
      rw [simpson_single]; simp
  obtain ⟨w, hw, hy⟩ := key
  refine ⟨fun k => w (k - i), fun h hu => ⟨fun k h1 h2 => (hw h hu).1 _ (by omega), fun hlt k h1 h2 => (hw h hu).2 hlt _ (by omega)⟩, ?_⟩
  intro m S hS hz
  have hSl : (pySlice S i (j + 1)).length = x.length := by rw [pySlice_len1 (by omega), hxl]
  unfold momentSum
  rw [if_neg hz, hy _ (by rw [List.length_zipWith]; omega)]
  congr 1
  rw [hxl]
  have : Icc i j = (range (j + 1 - i)).image (fun k => i + k) := by
    ext k
    simp only [mem_Icc, mem_image, mem_range]
    constructor
    · intro h; exact ⟨k - i, by omega, by omega⟩
    · rintro ⟨a, h, rfl⟩; omega
  rw [this, sum_image (by intro a _ b _ h; simpa using h)]
  apply sum_congr rfl
  intro k hk
  rw [mem_range] at hk
  rw [getD_zipWith _ hSl (by omega), hx, pySlice_getD (by omega), pySlice_getD (by omega)]
  simp

/-- The tail is proportional to the last density. -/
theorem tailMoment_scale (m : Int) (fe se : K) (fmax : FMax K) :
    tailMoment m fe se fmax = (tailMoment m fe 1 fmax).map (fun v => v * se) := by
  unfold tailMoment
  dsimp only
  by_cases h : m + -5 + 1 = 0 ∨ fe = 0
  · rw [if_pos h, if_pos h]; rfl
  · rw [if_neg h, if_neg h]
    cases fmax with
    | fin F =>
      dsimp only
      split_ifs
      · rfl
      · simp only [Except.map]; congr 1; ring
    | inf =>
      dsimp only
      split_ifs
      · simp only [Except.map]; congr 1; ring
      · rfl

/-- **A moment is a fixed linear functional of the spectrum.**  For an accepted axis, `compute_moment` either raises the
same error for every spectrum, or is a weighted sum of the densities between the selected indices plus a multiple of the
last density (the tail). -/
theorem computeMoment_form {f : List K} (hm : monotonicIncreasingConstantStep f = .ok true) (m : Int) (fmin : K)
    (fmax : FMax K) {i j : Nat} {tail : Bool} (hr : MomentRange f m fmin fmax i j tail) :
    (∃ e, ∀ {pf pS : PyIn K} {S : List K}, pf.IsArr f → pS.IsArr S → f.length = S.length →
        computeMoment pf pS m fmin fmax = .error e) ∨
    (i ≤ j ∧ j < f.length ∧ ¬ (m < 0 ∧ 0 ∈ pySlice f i (j + 1)) ∧ ∃ (w : Nat → K) (c : K),
      (∀ h, UniformAxis f h → (∀ k, i ≤ k → k ≤ j → 0 ≤ w k) ∧ (i < j → ∀ k, i ≤ k → k ≤ j → h / 3 ≤ w k)) ∧
      (tail = false → c = 0) ∧ (tail = true → tailMoment m (f.getD (f.length - 1) 0) 1 fmax = .ok c) ∧
      ∀ {pf pS : PyIn K} {S : List K}, pf.IsArr f → pS.IsArr S → f.length = S.length →
        computeMoment pf pS m fmin fmax =
          .ok (∑ k ∈ Icc i j, w k * (f.getD k 0 ^ m * S.getD k 0) + c * S.getD (f.length - 1) 0)) := by
  obtain ⟨i', j', t', hr', hi', hj', hS⟩ := computeMoment_structure hm m fmin fmax
  obtain ⟨rfl, rfl, rfl⟩ := momentRange_unique hr hr'
  by_cases hij : i ≤ j
  · by_cases hz : m < 0 ∧ 0 ∈ pySlice f i (j + 1)
    · left
      refine ⟨.nonFinite, fun hf hs hl => ?_⟩
      rw [hS hf hs hl]
      unfold momentOn momentSum
      rw [if_pos hz]; rfl
    · obtain ⟨w, hw, hsum⟩ := momentSum_slice_weights hij hj'
      cases tail with
      | false =>
        right
        refine ⟨hij, hj', hz, w, 0, hw, fun _ => rfl, fun h => by simp at h, fun hf hs hl => ?_⟩
        rw [hS hf hs hl, momentOn_false, hsum m _ hl.symm hz, zero_mul, add_zero]
      | true =>
        cases ht : tailMoment m (f.getD (f.length - 1) 0) 1 fmax with
        | error e =>
          left
          refine ⟨e, fun hf hs hl => ?_⟩
          rw [hS hf hs hl]
          unfold momentOn
          rw [hsum m _ hl.symm hz, tailMoment_scale, ht]; rfl
        | ok c =>
          right
          refine ⟨hij, hj', hz, w, c, hw, fun h => by simp at h, fun _ => rfl, fun hf hs hl => ?_⟩
          rw [hS hf hs hl]
          unfold momentOn
          rw [hsum m _ hl.symm hz, tailMoment_scale, ht]; rfl
  · left
    by_cases hz : m < 0 ∧ 0 ∈ pySlice f i (j + 1)
    · rw [pySlice_empty (by omega)] at hz; simp at hz
    · refine ⟨.valueError "cannot select an axis to squeeze out which has size not equal to one", fun hf hs hl => ?_⟩
      rw [hS hf hs hl]
      unfold momentOn momentSum
      rw [if_neg hz, pySlice_empty (l := f) (by omega), pySlice_empty (by omega)]
      rfl

/-- A successful call has an accepted axis and equal lengths. -/
theorem computeMoment_ok_pre {pf pS : PyIn K} {f S : List K} {m : Int} {fmin : K} {fmax : FMax K} {v : K} (hf : pf.IsArr f)
    (hS : pS.IsArr S) (h : computeMoment pf pS m fmin fmax = .ok v) :
    monotonicIncreasingConstantStep f = .ok true ∧ f.length = S.length := by
  unfold computeMoment at h
  simp only [vecIn_of_isArr hf, vecIn_of_isArr hS, bind, Except.bind] at h
  cases hb : monotonicIncreasingConstantStep f with
  | error e => rw [hb] at h; simp at h
  | ok b =>
    rw [hb] at h
    cases b with
    | false => simp at h
    | true =>
      refine ⟨rfl, ?_⟩
      simp only [Bool.true_eq_false, if_false] at h
      by_contra hc
      rw [if_pos hc] at h; simp at h

end Verif
