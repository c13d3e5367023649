import Verif.Np
import Mathlib.Tactic.Linarith

/-! # Lemmas on `np.where`, slices, max/min -/

namespace Verif

theorem getE_ok {α : Type} {l : List α} {i : Nat} {v : α} : getE l i = .ok v ↔ l[i]? = some v := by
  unfold getE; split <;> simp_all

theorem lastE_ok {α : Type} {l : List α} {v : α} : lastE l = .ok v ↔ l.getLast? = some v := by
  unfold lastE; split <;> simp_all

theorem mem_whereIdx {α : Type} {p : α → Bool} {l : List α} {i : Nat} :
    i ∈ whereIdx p l ↔ ∃ v, l[i]? = some v ∧ p v = true := by
  simp only [whereIdx, List.mem_filter, List.mem_range, Option.any_eq_true]
  constructor
  · rintro ⟨_, v, h1, h2⟩; exact ⟨v, h1, h2⟩
  · rintro ⟨v, h1, h2⟩
    exact ⟨(List.getElem?_eq_some_iff.1 h1).1, v, h1, h2⟩

theorem whereIdx_pairwise {α : Type} (p : α → Bool) (l : List α) : (whereIdx p l).Pairwise (· < ·) :=
  List.Pairwise.filter _ List.pairwise_lt_range

theorem first_where_exists {α : Type} {p : α → Bool} {l : List α} (h : ∃ (i : Nat) (v : α), l[i]? = some v ∧ p v = true) :
    ∃ i, getE (whereIdx p l) 0 = .ok i := by
  obtain ⟨i, hi⟩ := h
  have : i ∈ whereIdx p l := mem_whereIdx.2 hi
  cases hw : whereIdx p l with
  | nil => rw [hw] at this; simp at this
  | cons a l' => exact ⟨a, by simp [getE]⟩

theorem first_where_spec {α : Type} {p : α → Bool} {l : List α} {i : Nat} (h : getE (whereIdx p l) 0 = .ok i) :
    (∃ v, l[i]? = some v ∧ p v = true) ∧ ∀ (j : Nat) (v : α), l[j]? = some v → p v = true → i ≤ j := by
  rw [getE_ok] at h
  have hp := whereIdx_pairwise p l
  have hm : i ∈ whereIdx p l := List.mem_of_getElem? h
  refine ⟨mem_whereIdx.1 hm, ?_⟩
  intro j v h1 h2
  have hj : j ∈ whereIdx p l := mem_whereIdx.2 ⟨v, h1, h2⟩
  cases hw : whereIdx p l with
  | nil => rw [hw] at hm; simp at hm
  | cons a l' =>
    rw [hw] at h hj hp
    simp at h
    subst h
    rcases List.mem_cons.1 hj with rfl | hj
    · exact le_refl _
    · exact ((List.pairwise_cons.1 hp).1 j hj).le

theorem last_where_exists {α : Type} {p : α → Bool} {l : List α} (h : ∃ (i : Nat) (v : α), l[i]? = some v ∧ p v = true) :
    ∃ i, lastE (whereIdx p l) = .ok i := by
  obtain ⟨i, hi⟩ := h
  have : i ∈ whereIdx p l := mem_whereIdx.2 hi
  cases hw : whereIdx p l with
  | nil => rw [hw] at this; simp at this
  | cons a l' => exact ⟨_, by simp [lastE, List.getLast?_cons]; rfl⟩

theorem last_where_spec {α : Type} {p : α → Bool} {l : List α} {i : Nat} (h : lastE (whereIdx p l) = .ok i) :
    (∃ v, l[i]? = some v ∧ p v = true) ∧ ∀ (j : Nat) (v : α), l[j]? = some v → p v = true → j ≤ i := by
  rw [lastE_ok] at h
  have hp := whereIdx_pairwise p l
  obtain ⟨ys, hys⟩ := List.getLast?_eq_some_iff.1 h
  have hm : i ∈ whereIdx p l := by rw [hys]; simp
  refine ⟨mem_whereIdx.1 hm, ?_⟩
  intro j v h1 h2
  have hj : j ∈ whereIdx p l := mem_whereIdx.2 ⟨v, h1, h2⟩
  rw [hys] at hj hp
  rw [List.pairwise_append] at hp
  rcases List.mem_append.1 hj with hj | hj
  · exact (hp.2.2 j hj i (by simp)).le
  · simp at hj; omega

theorem pySlice_getElem? {α : Type} (l : List α) (a b j : Nat) :
    (pySlice l a b)[j]? = if a + j < b then l[a + j]? else none := by
  simp only [pySlice, List.getElem?_drop, List.getElem?_take]

theorem pySlice_length {α : Type} (l : List α) (a b : Nat) :
    (pySlice l a b).length = min b l.length - a := by
  simp [pySlice]

section
variable {K : Type} [Field K] [LinearOrder K]

theorem foldl_max_spec (l : List K) (a : K) :
    (l.foldl max a = a ∨ l.foldl max a ∈ l) ∧ a ≤ l.foldl max a ∧ ∀ v ∈ l, v ≤ l.foldl max a := by
  induction l generalizing a with
  | nil => simp
  | cons b l ih =>
    obtain ⟨h1, h2, h3⟩ := ih (max a b)
    simp only [List.foldl_cons]
    refine ⟨?_, le_trans (le_max_left _ _) h2, ?_⟩
    · rcases h1 with h | h
      · rw [h]
        rcases max_choice a b with h' | h'
        · left; exact h'
        · right; rw [h']; simp
      · right; exact List.mem_cons_of_mem _ h
    · intro v hv
      rcases List.mem_cons.1 hv with rfl | hv
      · exact le_trans (le_max_right _ _) h2
      · exact h3 v hv

theorem foldl_min_spec (l : List K) (a : K) :
    (l.foldl min a = a ∨ l.foldl min a ∈ l) ∧ l.foldl min a ≤ a ∧ ∀ v ∈ l, l.foldl min a ≤ v := by
  induction l generalizing a with
  | nil => simp
  | cons b l ih =>
    obtain ⟨h1, h2, h3⟩ := ih (min a b)
    simp only [List.foldl_cons]
    refine ⟨?_, le_trans h2 (min_le_left _ _), ?_⟩
    · rcases h1 with h | h
      · rw [h]
        rcases min_choice a b with h' | h'
        · left; exact h'
        · right; rw [h']; simp
      · right; exact List.mem_cons_of_mem _ h
    · intro v hv
      rcases List.mem_cons.1 hv with rfl | hv
      · exact le_trans h2 (min_le_right _ _)
      · exact h3 v hv

theorem pyMax_spec {l : List K} {m : K} (h : pyMax l = .ok m) : m ∈ l ∧ ∀ v ∈ l, v ≤ m := by
  cases l with
  | nil => simp [pyMax] at h
  | cons a l =>
    simp only [pyMax, Except.ok.injEq] at h
    subst h
    obtain ⟨h1, h2, h3⟩ := foldl_max_spec l a
    refine ⟨?_, ?_⟩
    · rcases h1 with h | h
      · rw [h]; simp
      · exact List.mem_cons_of_mem _ h
    · intro v hv
      rcases List.mem_cons.1 hv with rfl | hv
      · exact h2
      · exact h3 v hv

theorem pyMin_spec {l : List K} {m : K} (h : pyMin l = .ok m) : m ∈ l ∧ ∀ v ∈ l, m ≤ v := by
  cases l with
  | nil => simp [pyMin] at h
  | cons a l =>
    simp only [pyMin, Except.ok.injEq] at h
    subst h
    obtain ⟨h1, h2, h3⟩ := foldl_min_spec l a
    refine ⟨?_, ?_⟩
    · rcases h1 with h | h
      · rw [h]; simp
      · exact List.mem_cons_of_mem _ h
    · intro v hv
      rcases List.mem_cons.1 hv with rfl | hv
      · exact h2
      · exact h3 v hv

theorem pyMax_exists {l : List K} (h : l ≠ []) : ∃ m, pyMax l = .ok m := by
  cases l with
  | nil => exact absurd rfl h
  | cons a l => exact ⟨_, rfl⟩

theorem pyMin_exists {l : List K} (h : l ≠ []) : ∃ m, pyMin l = .ok m := by
  cases l with
  | nil => exact absurd rfl h
  | cons a l => exact ⟨_, rfl⟩

end

/-- Inversion of `bind` in the exception monad. -/
theorem bind_ok {α β : Type} {m : Except PyErr α} {f : α → Except PyErr β} {b : β} :
    m >>= f = .ok b ↔ ∃ a, m = .ok a ∧ f a = .ok b := by
  cases m <;> simp [bind, Except.bind]

theorem mapM_ok {α β : Type} {f : α → Except PyErr β} {l : List α} {r : List β} :
    l.mapM f = .ok r ↔ List.Forall₂ (fun a b => f a = .ok b) l r := by
  induction l generalizing r with
  | nil => simp [pure, Except.pure, eq_comm]
  | cons a l ih =>
    rw [List.mapM_cons, bind_ok]
    constructor
    · rintro ⟨b, hb, h⟩
      rw [bind_ok] at h
      obtain ⟨bs, hbs, h⟩ := h
      simp [pure, Except.pure] at h
      subst h
      exact .cons hb (ih.1 hbs)
    · intro h
      cases h with
      | cons h1 h2 => exact ⟨_, h1, bind_ok.2 ⟨_, ih.2 h2, rfl⟩⟩

end Verif
