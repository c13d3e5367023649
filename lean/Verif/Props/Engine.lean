import Verif.Props.SeriesInit

/-! # C22, C23: uniformity check and nearest grid index -/

set_option linter.unusedSectionVars false

namespace Verif
variable {K : Type} [Field K] [LinearOrder K]

/-- The step after index `i`. -/
def stepAt (x : List K) (i : Nat) : K := x.getD (i + 1) 0 - x.getD i 0

theorem diff_getElem? (x : List K) (i : Nat) : (diff x)[i]? = if i + 1 < x.length then some (stepAt x i) else none := by
  induction x generalizing i with
  | nil => simp [diff]
  | cons a x ih =>
    cases x with
    | nil => simp [diff]
    | cons b l =>
      simp only [diff]
      cases i with
      | zero => simp [stepAt]
      | succ i =>
        rw [List.getElem?_cons_succ, ih i]
        simp only [List.length_cons, stepAt, List.getD_cons_succ]
        by_cases h : i + 1 < l.length + 1
        · rw [if_pos h, if_pos (by omega)]
        · rw [if_neg h, if_neg (by omega)]

theorem mem_diff {x : List K} {d : K} : d ∈ diff x ↔ ∃ i, i + 1 < x.length ∧ d = stepAt x i := by
  rw [List.mem_iff_getElem?]
  constructor
  · rintro ⟨i, hi⟩
    rw [diff_getElem?] at hi
    split_ifs at hi with h
    simp only [Option.some.injEq] at hi
    exact ⟨i, h, hi.symm⟩
  · rintro ⟨i, h, rfl⟩
    exact ⟨i, by rw [diff_getElem?, if_pos h]⟩

/-- **C22 (partial): exact meaning of the check.** For at least two elements `monotonic_increasing_constant_step` answers
True exactly when every step is positive and no step is *larger* than the first by the tolerance or more.  Missing for the
documented property: the check says nothing about steps that are smaller than the first one
(`uniform_check_accepts_nonuniform`). -/
theorem uniform_check_iff_partial {x : List K} (h2 : 2 ≤ x.length) :
    ∃ b, monotonicIncreasingConstantStep x = .ok b ∧
      (b = true ↔ ∀ i, i + 1 < x.length → 0 < stepAt x i ∧ stepAt x i - stepAt x 0 < 1000000 / 2 ^ 52) := by
  unfold monotonicIncreasingConstantStep stepTol
  have h0 : (diff x)[0]? = some (stepAt x 0) := by rw [diff_getElem?, if_pos (by omega)]
  cases hd : diff x with
  | nil => rw [hd] at h0; simp at h0
  | cons d0 ds =>
    rw [hd] at h0
    simp only [List.getElem?_cons_zero, Option.some.injEq] at h0
    subst h0
    refine ⟨_, rfl, ?_⟩
    rw [← hd, Bool.and_eq_true, List.all_eq_true, List.all_eq_true]
    simp only [decide_eq_true_eq, mem_diff]
    constructor
    · rintro ⟨a, b⟩ i hi
      exact ⟨a _ ⟨i, hi, rfl⟩, b _ ⟨i, hi, rfl⟩⟩
    · intro h
      constructor
      · rintro d ⟨i, hi, rfl⟩; exact (h i hi).1
      · rintro d ⟨i, hi, rfl⟩; exact (h i hi).2

/-- **C22 (increasing).** Whatever is accepted is strictly increasing. -/
theorem uniform_check_increasing [IsStrictOrderedRing K] {x : List K}
    (h : monotonicIncreasingConstantStep x = .ok true) : x.Pairwise (· < ·) := by
  have h2 : 2 ≤ x.length := by
    rcases x with _ | ⟨a, _ | ⟨b, l⟩⟩
    · simp [monotonicIncreasingConstantStep, diff] at h
    · simp [monotonicIncreasingConstantStep, diff] at h
    · simp
  obtain ⟨b, hb, hiff⟩ := uniform_check_iff_partial h2
  rw [h] at hb
  simp only [Except.ok.injEq] at hb
  have hs := hiff.1 hb.symm
  rw [List.pairwise_iff_getElem]
  intro i j hi hj hij
  have key : ∀ j, i < j → j < x.length → x.getD i 0 < x.getD j 0 := by
    intro j hij
    induction j, hij using Nat.le_induction with
    | base =>
      intro hl
      have := (hs i hl).1
      unfold stepAt at this
      linarith
    | succ j hij ih =>
      intro hl
      have h1 := ih (by omega)
      have := (hs j hl).1
      unfold stepAt at this
      linarith
  have := key j hij hj
  simpa [hi, hj] using this

/-- **C22 (completeness).** Exactly uniform increasing vectors are accepted. -/
theorem uniform_check_accepts_uniform [IsStrictOrderedRing K] {x : List K} {dx : K} (h2 : 2 ≤ x.length)
    (hu : UniformAxis x dx) : monotonicIncreasingConstantStep x = .ok true := by
  obtain ⟨b, hb, hiff⟩ := uniform_check_iff_partial h2
  rw [hb, hiff.2]
  intro i hi
  have e1 : stepAt x i = dx := by unfold stepAt; rw [hu.2 i hi]; ring
  have e2 : stepAt x 0 = dx := by unfold stepAt; rw [hu.2 0 (by omega)]; ring
  rw [e1, e2, sub_self]
  refine ⟨hu.1, ?_⟩
  positivity

/-- **C22 is false as stated**: there is no absolute value in core_engine.py:70, so steps 10 and 1 count as uniform. -/
theorem uniform_check_accepts_nonuniform :
    monotonicIncreasingConstantStep (K := ℚ) [0, 10, 11] = .ok true := by decide +kernel

/-- Fewer than two elements raise `IndexError` (the check cannot be evaluated). -/
theorem uniform_check_short {x : List K} (h : x.length < 2) :
    monotonicIncreasingConstantStep x = .error .indexError := by
  rcases x with _ | ⟨a, _ | ⟨b, l⟩⟩
  · rfl
  · rfl
  · exfalso; simp only [List.length_cons] at h; omega

/-! ## C23 -/

theorem argminAux_spec (l : List K) (best : K) (besti i : Nat) (f : Nat → K) (hb : besti < i) (hbest : f besti = best)
    (hmin : ∀ j < i, best ≤ f j) (hfirst : ∀ j < besti, best < f j) (hl : ∀ j, l[j]? = some (f (i + j)) ∨ l.length ≤ j) :
    let r := argminAux best besti i l
    r < i + l.length ∧ (∀ j < i + l.length, f r ≤ f j) ∧ ∀ j < r, f r < f j := by
  induction l generalizing best besti i with
  | nil =>
    simp only [argminAux, List.length_nil, Nat.add_zero]
    rw [hbest]
    exact ⟨hb, hmin, hfirst⟩
  | cons a l ih =>
    have ha : a = f i := by
      rcases hl 0 with h | h
      · simpa using h
      · simp at h
    have hl' : ∀ j, l[j]? = some (f (i + 1 + j)) ∨ l.length ≤ j := by
      intro j
      rcases hl (j + 1) with h | h
      · left; rw [List.getElem?_cons_succ] at h; rw [h]; congr 2; omega
      · right; simpa using h
    simp only [argminAux]
    have hlen : i + (a :: l).length = i + 1 + l.length := by simp; omega
    rw [hlen]
    split_ifs with hlt
    · apply ih a i (i + 1) (by omega) ha.symm
      · intro j hj
        rcases Nat.lt_or_eq_of_le (by omega : j ≤ i) with h | rfl
        · exact le_trans hlt.le (hmin j h)
        · rw [ha]
      · intro j hj; exact lt_of_lt_of_le hlt (hmin j hj)
      · exact hl'
    · apply ih best besti (i + 1) (by omega) hbest
      · intro j hj
        rcases Nat.lt_or_eq_of_le (by omega : j ≤ i) with h | rfl
        · exact hmin j h
        · rw [← ha]; exact not_lt.1 hlt
      · exact hfirst
      · exact hl'

/-- **C23.** For every non-empty array `approx_array_index` returns an index inside it whose entry is at least as close to
`v` as every other entry, and strictly closer than every earlier one. -/
theorem nearest_index {a : List K} (hne : a ≠ []) (v : K) :
    ∃ i, approxArrayIndex a v = .ok i ∧ i < a.length ∧
      (∀ j < a.length, |a.getD i 0 - v| ≤ |a.getD j 0 - v|) ∧ ∀ j < i, |a.getD i 0 - v| < |a.getD j 0 - v| := by
  cases a with
  | nil => exact absurd rfl hne
  | cons b l =>
    have h := argminAux_spec (l.map fun x => |x - v|) |b - v| 0 1 (fun j => |(b :: l).getD j 0 - v|) (by omega) (by simp)
      (by intro j hj; have : j = 0 := by omega
          subst this; simp) (by intro j hj; omega)
      (by
        intro j
        by_cases hj : j < l.length
        · left; rw [Nat.add_comm 1 j, List.getD_cons_succ]; simp [hj]
        · right; simp; omega)
    simp only [List.length_map, List.length_cons] at *
    refine ⟨argminAux |b - v| 0 1 (l.map fun x => |x - v|), rfl, by omega, ?_, h.2.2⟩
    intro j hj
    exact h.2.1 j (by omega)

/-- An empty array raises `ValueError`. -/
theorem nearest_index_empty (v : K) : ∃ msg, approxArrayIndex ([] : List K) v = .error (.valueError msg) := ⟨_, rfl⟩

example : approxArrayIndex (K := ℚ) [1, 2, 3, 4] (5/2) = .ok 1 := by decide +kernel
example : UniformAxis (K := ℚ) [0, 1, 2] 1 := by
  refine ⟨by norm_num, fun i hi => ?_⟩
  have : ∀ i < 2, ([0, 1, 2] : List ℚ).getD (i + 1) 0 = ([0, 1, 2] : List ℚ).getD i 0 + 1 := by decide +kernel
  exact this i (by simp at hi; omega)

/-! ## Concrete cases: the hypotheses of the theorems above are met -/

example := uniform_check_iff_partial (K := ℚ) (x := [0, 1, 2]) (by decide)
example : monotonicIncreasingConstantStep (K := ℚ) [5] = .error .indexError := uniform_check_short (by decide)
/-- The value 5/2 lies between the second and the third element: the second. -/
example : ∃ i, approxArrayIndex (K := ℚ) [1, 2, 3, 4] (5 / 2) = .ok i ∧ ∀ j < i, |([1, 2, 3, 4] : List ℚ).getD i 0 - 5 / 2| < |([1, 2, 3, 4] : List ℚ).getD j 0 - 5 / 2| := by
  obtain ⟨i, a, -, -, b⟩ := nearest_index (K := ℚ) (a := [1, 2, 3, 4]) (by simp) (5 / 2)
  exact ⟨i, a, b⟩

end Verif
