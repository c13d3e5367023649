import Verif.Props.Cross
import Verif.Lemmas.Spectral
import Mathlib.Data.List.GetD

/-! # C79: up- and down-crossings alternate; time reversal -/

namespace Verif
variable {K : Type} [Field K] [LinearOrder K]
set_option linter.unusedSectionVars false

/-- No sample is exactly zero. -/
def ZeroFree (x : List K) : Prop := ∀ v ∈ x, v ≠ 0

theorem ZeroFree.getD {x : List K} (h : ZeroFree x) {i : Nat} (hi : i < x.length) : x.getD i 0 ≠ 0 := by
  rw [List.getD_eq_getElem _ _ hi]
  exact h _ (List.getElem_mem hi)

/-! ## Balance -/

/-- 1 for a positive value, 0 otherwise. -/
def posInd (a : K) : Int := if 0 < a then 1 else 0

theorem filter_balance {x : List K} (hz : ZeroFree x) (m : Nat) (hm : m < x.length) :
    (((List.range m).filter fun i => downCond (x.getD i 0) (x.getD (i + 1) 0)).length : Int) + posInd (x.getD m 0) =
      (((List.range m).filter fun i => upCond (x.getD i 0) (x.getD (i + 1) 0)).length : Int) + posInd (x.getD 0 0) := by
  induction m with
  | zero => simp
  | succ m ih =>
    have h1 := hz.getD (i := m) (by omega)
    have h2 := hz.getD hm
    have ih' := ih (by omega)
    rw [List.range_succ, List.filter_append, List.filter_append, List.length_append, List.length_append]
    push_cast
    have hstep : ((([m].filter fun i => downCond (x.getD i 0) (x.getD (i + 1) 0)).length : Int) + posInd (x.getD (m + 1) 0) =
        (([m].filter fun i => upCond (x.getD i 0) (x.getD (i + 1) 0)).length : Int) + posInd (x.getD m 0)) := by
      rw [List.filter_cons, List.filter_cons, List.filter_nil]
      unfold downCond upCond posInd
      generalize x.getD m 0 = a at *
      generalize x.getD (m + 1) 0 = b at *
      rcases lt_or_gt_of_ne h1 with ha | ha <;> rcases lt_or_gt_of_ne h2 with hb | hb <;>
        simp [ha, hb, ha.le, hb.le, not_le.2 ha, not_le.2 hb, not_lt.2 ha.le, not_lt.2 hb.le]
    linarith

/-- **C79 (balance).**  For a signal without exact zeros the numbers of down- and up-crossings differ by at most one, and they differ
exactly if the signal starts and ends on different sides. -/
theorem crossings_balance {pt px : PyIn K} {t x : List K} (ht : pt.IsVec t) (hx : px.IsVec x) (h2 : 2 ≤ t.length) (hlen : t.length = x.length)
    (hz : ZeroFree x) :
    ∃ nD tD nU tU, determineZeroCrossing pt px "down" = .ok (nD, tD) ∧ determineZeroCrossing pt px "up" = .ok (nU, tU) ∧
      (tD.length : Int) - tU.length =
        (if 0 < x.getD 0 0 then 1 else 0) - (if 0 < x.getD (x.length - 1) 0 then 1 else 0) := by
  refine ⟨_, _, _, _, determine_down_eq ht hx h2 hlen, determine_up_eq ht hx h2 hlen, ?_⟩
  rw [List.length_map, List.length_map]
  have := filter_balance hz (x.length - 1) (by omega)
  unfold posInd at this
  unfold crossIdx
  linarith

/-! ## Alternation -/

/-- Between a non-negative and a later negative sample there is a down-crossing. -/
theorem exists_down {x : List K} {a b : Nat} (hab : a ≤ b) (hb : b < x.length) (h1 : 0 ≤ x.getD a 0) (h2 : x.getD b 0 < 0) :
    ∃ i, a ≤ i ∧ i < b ∧ DownCrossing x i := by
  induction b, hab using Nat.le_induction with
  | base => exact absurd h2 (not_lt.2 h1)
  | succ b hab ih =>
    by_cases h3 : x.getD b 0 < 0
    · obtain ⟨i, e1, e2, e3⟩ := ih (by omega) h3
      exact ⟨i, e1, by omega, e3⟩
    · exact ⟨b, hab, by omega, hb, not_lt.1 h3, h2⟩

/-- Between a non-positive and a later positive sample there is an up-crossing. -/
theorem exists_up {x : List K} {a b : Nat} (hab : a ≤ b) (hb : b < x.length) (h1 : x.getD a 0 ≤ 0) (h2 : 0 < x.getD b 0) :
    ∃ i, a ≤ i ∧ i < b ∧ UpCrossing x i := by
  induction b, hab using Nat.le_induction with
  | base => exact absurd h2 (not_lt.2 h1)
  | succ b hab ih =>
    by_cases h3 : 0 < x.getD b 0
    · obtain ⟨i, e1, e2, e3⟩ := ih (by omega) h3
      exact ⟨i, e1, by omega, e3⟩
    · exact ⟨b, hab, by omega, hb, not_lt.1 h3, h2⟩

variable [IsStrictOrderedRing K]

/-- **C79 (alternation).**  On a uniform axis, for a signal without exact zeros, there is exactly one up-crossing between any two successive
down-crossings. -/
theorem crossings_alternate {pt px : PyIn K} {t x : List K} {dt : K} (ht : pt.IsVec t) (hx : px.IsVec x) (h2 : 2 ≤ t.length)
    (hlen : t.length = x.length) (hu : UniformAxis t dt) (hz : ZeroFree x) :
    ∃ nD tD nU tU, determineZeroCrossing pt px "down" = .ok (nD, tD) ∧ determineZeroCrossing pt px "up" = .ok (nU, tU) ∧
      ∀ k, k + 1 < tD.length → ∃! τ, τ ∈ tU ∧ tD.getD k 0 < τ ∧ τ < tD.getD (k + 1) 0 := by
  refine ⟨_, _, _, _, determine_down_eq ht hx h2 hlen, determine_up_eq ht hx h2 hlen, ?_⟩
  rw [uniform_first_step h2 hu]
  intro k hk
  rw [List.length_map] at hk
  have hk' : k < (crossIdx downCond x).length := by omega
  set D := crossIdx downCond x with hD
  rw [List.getD_eq_getElem _ _ (by simpa using hk'), List.getD_eq_getElem _ _ (by simpa using hk), List.getElem_map, List.getElem_map]
  have hDl := crossIdx_down_listsExactly x
  have hUl := crossIdx_up_listsExactly x
  have d1 : DownCrossing x D[k] := (hDl.2 _).1 (List.getElem_mem hk')
  have d2 : DownCrossing x D[k + 1] := (hDl.2 _).1 (List.getElem_mem hk)
  have hlt : D[k] < D[k + 1] := List.pairwise_iff_getElem.1 hDl.1 k (k + 1) hk' hk (by omega)
  have hnone : ∀ i, D[k] < i → i < D[k + 1] → ¬ DownCrossing x i := by
    intro i h3 h4 h5
    obtain ⟨j, hj, hji⟩ := List.getElem_of_mem ((hDl.2 i).2 h5)
    rw [← hD] at hj
    have hji : D[j] = i := hji
    subst hji
    have a1 : k < j := by
      by_contra h
      rcases (not_lt.1 h).eq_or_lt with h6 | h6
      · subst h6; exact lt_irrefl _ h3
      · have := List.pairwise_iff_getElem.1 hDl.1 j k hj hk' h6
        exact lt_asymm h3 this
    have a2 : j < k + 1 := by
      by_contra h
      rcases (not_lt.1 h).eq_or_lt with h6 | h6
      · subst h6; exact lt_irrefl _ h4
      · have := List.pairwise_iff_getElem.1 hDl.1 (k + 1) j hk hj h6
        exact lt_asymm h4 this
    omega
  -- times are ordered as the indices
  have hsign : ∀ i, DownCrossing x i ∨ UpCrossing x i → i + 1 < x.length ∧
      ((0 ≤ x.getD i 0 ∧ x.getD (i + 1) 0 < 0) ∨ (x.getD i 0 ≤ 0 ∧ 0 < x.getD (i + 1) 0)) := by
    rintro i (⟨a, b, c⟩ | ⟨a, b, c⟩)
    · exact ⟨a, Or.inl ⟨b, c⟩⟩
    · exact ⟨a, Or.inr ⟨b, c⟩⟩
  have htime : ∀ i j, (DownCrossing x i ∨ UpCrossing x i) → (DownCrossing x j ∨ UpCrossing x j) → i < j →
      crossTime dt t x i < crossTime dt t x j := by
    intro i j hi hj hij
    have e1 := crossTime_interp hu hlen (hsign i hi).1 (hsign i hi).2
    have e2 := crossTime_interp hu hlen (hsign j hj).1 (hsign j hj).2
    exact lt_of_lt_of_le e1.upper (le_trans (axis_mono hu (by omega) (by have := (hsign j hj).1; omega)) e2.lower)
  have hnotboth : ∀ i, DownCrossing x i → UpCrossing x i → False := by
    rintro i ⟨-, -, a⟩ ⟨-, -, b⟩
    exact lt_asymm a b
  obtain ⟨u, hu1, hu2, hu3⟩ := exists_up (x := x) (a := D[k] + 1) (b := D[k + 1]) (by omega) (by have := d2.1; omega) d1.2.2.le
    (lt_of_le_of_ne d2.2.1 (hz.getD (by have := d2.1; omega)).symm)
  refine ⟨crossTime dt t x u, ⟨List.mem_map.2 ⟨u, (hUl.2 u).2 hu3, rfl⟩, htime _ _ (Or.inl d1) (Or.inr hu3) (by omega),
    htime _ _ (Or.inr hu3) (Or.inl d2) hu2⟩, ?_⟩
  rintro τ ⟨hm, h3, h4⟩
  obtain ⟨v, hv, rfl⟩ := List.mem_map.1 hm
  have hv' := (hUl.2 v).1 hv
  have hv1 : D[k] < v := by
    rcases lt_trichotomy v D[k] with h | h | h
    · exact absurd (htime _ _ (Or.inr hv') (Or.inl d1) h) (not_lt.2 h3.le)
    · exact absurd hv' (fun h' => hnotboth _ d1 (h ▸ h'))
    · exact h
  have hv2 : v < D[k + 1] := by
    rcases lt_trichotomy v D[k + 1] with h | h | h
    · exact h
    · exact absurd hv' (fun h' => hnotboth _ d2 (h ▸ h'))
    · exact absurd (htime _ _ (Or.inl d2) (Or.inr hv') h) (not_lt.2 h4.le)
  congr 1
  -- two up-crossings would have a down-crossing in between
  have key : ∀ a b, UpCrossing x a → UpCrossing x b → D[k] < a → b < D[k + 1] → a < b → False := by
    intro a b ha hb e1 e2 hab
    have hb0 : x.getD b 0 < 0 := lt_of_le_of_ne hb.2.1 (hz.getD (by have := hb.1; omega))
    obtain ⟨i, f1, f2, f3⟩ := exists_down (x := x) (a := a + 1) (b := b) (by omega) (by have := hb.1; omega) ha.2.2.le hb0
    exact hnone i (by omega) (by omega) f3
  rcases lt_trichotomy v u with h | h | h
  · exact (key v u hv' hu3 hv1 hu2 h).elim
  · exact h
  · exact (key u v hu3 hv' (by omega) hv2 h).elim

/-- **C79 (exact zeros).**  With exact zeros it is different: a signal that touches zero from below `n` times is counted as `n + 1`
down-crossings (`n` waves) without a single up-crossing, although it is never positive. -/
theorem touching_zero_counts (n : Nat) (dt : K) (hdt : 0 < dt) : ∃ t x : List K, UniformAxis t dt ∧ t.length = x.length ∧ 2 ≤ t.length ∧ (∀ v ∈ x, v ≤ 0) ∧
    ∃ tD, determineZeroCrossing (vec t) (vec x) "down" = .ok ((n : Int), tD) ∧ tD.length = n + 1 ∧
      determineZeroCrossing (vec t) (vec x) "up" = .ok (0, []) := by
  set t : List K := (List.range (2 * n + 2)).map fun i : Nat => dt * (i : K) with ht
  set x : List K := (List.range (2 * n + 2)).map fun i : Nat => if i % 2 = 0 then 0 else -1 with hx
  have hlt : t.length = 2 * n + 2 := by simp [ht]
  have hlx : x.length = 2 * n + 2 := by simp [hx]
  have hlen : t.length = x.length := by rw [hlt, hlx]
  have h2 : 2 ≤ t.length := by omega
  have hxi : ∀ i, i < 2 * n + 2 → x.getD i 0 = if i % 2 = 0 then 0 else -1 := fun i hi => getD_map_range _ _ _ _ hi
  have hti : ∀ i, i < 2 * n + 2 → t.getD i 0 = dt * i := fun i hi => getD_map_range _ _ _ _ hi
  have hneg : ∀ v ∈ x, v ≤ 0 := by
    intro v hv
    obtain ⟨i, -, rfl⟩ := List.mem_map.1 hv
    split_ifs
    · exact le_rfl
    · simp
  have hup : crossIdx upCond x = [] := by
    rw [List.eq_nil_iff_forall_not_mem]
    intro i hi
    obtain ⟨h1, -, h3⟩ := ((crossIdx_up_listsExactly x).2 i).1 hi
    have h1' : i + 1 < x.length := h1
    rw [List.getD_eq_getElem _ _ h1'] at h3
    exact absurd h3 (not_lt.2 (hneg _ (List.getElem_mem h1')))
  have hdown : (crossIdx downCond x).length = n + 1 := by
    unfold crossIdx
    rw [hlx]
    have : ∀ m, m ≤ n → (((List.range (2 * m + 1)).filter fun i => downCond (x.getD i 0) (x.getD (i + 1) 0)).length = m + 1) := by
      intro m
      induction m with
      | zero =>
        intro _
        rw [show 2 * 0 + 1 = 1 by rfl]
        simp only [List.range_one, List.filter_cons, List.filter_nil]
        rw [hxi 0 (by omega), hxi (0 + 1) (by omega)]
        simp [downCond]
      | succ m ih =>
        intro hm
        rw [show 2 * (m + 1) + 1 = (2 * m + 1) + 1 + 1 by ring, List.range_succ, List.range_succ, List.filter_append, List.filter_append,
          List.length_append, List.length_append, ih (by omega)]
        simp only [List.filter_cons, List.filter_nil]
        rw [hxi (2 * m + 1) (by omega), hxi (2 * m + 1 + 1) (by omega), hxi (2 * m + 1 + 1 + 1) (by omega),
          if_neg (by omega : ¬ (2 * m + 1) % 2 = 0), if_pos (by omega : (2 * m + 1 + 1) % 2 = 0), if_neg (by omega : ¬ (2 * m + 1 + 1 + 1) % 2 = 0)]
        simp [downCond]
    exact this n le_rfl
  refine ⟨t, x, ⟨hdt, ?_⟩, hlen, h2, hneg, (crossIdx downCond x).map (crossTime (t.getD 1 0 - t.getD 0 0) t x), ?_, ?_, ?_⟩
  · intro i hi
    rw [hlt] at hi
    rw [hti _ hi, hti _ (by omega)]
    push_cast
    ring
  · rw [determine_down_eq (isVec_vec t) (isVec_vec x) h2 hlen, if_neg (by intro h; rw [h] at hdown; simp at hdown), hdown]
    simp
  · rw [List.length_map, hdown]
  · rw [determine_up_eq (isVec_vec t) (isVec_vec x) h2 hlen, hup]
    simp

/-! ## Time reversal -/

/-- Lists of natural numbers that are increasing and have the same elements are equal. -/
theorem ListsExactly.unique {a b : List Nat} {P : Nat → Prop} (ha : ListsExactly a P) (hb : ListsExactly b P) : a = b := by
  apply List.Perm.eq_of_pairwise (le := (· < ·)) (fun _ _ _ _ h1 h2 => absurd h1 (lt_asymm h2)) ha.1 hb.1
  exact (List.perm_ext_iff_of_nodup (ha.1.imp fun h => h.ne) (hb.1.imp fun h => h.ne)).2 fun i => (ha.2 i).trans (hb.2 i).symm

/-- **C79 (time reversal).**  For a signal without exact zeros, the up-crossings of the reversed signal are the down-crossings of the signal,
mirrored in time. -/
theorem crossings_time_reversal {t x : List K} {dt : K} (h2 : 2 ≤ t.length)
    (hlen : t.length = x.length) (hu : UniformAxis t dt) (hz : ZeroFree x) :
    ∃ n tD, determineZeroCrossing (vec t) (vec x) "down" = .ok (n, tD) ∧
      determineZeroCrossing (vec t) (vec x.reverse) "up" = .ok (n, (tD.map fun τ => t.getD 0 0 + t.getD (t.length - 1) 0 - τ).reverse) := by
  have hlen' : t.length = x.reverse.length := by rw [List.length_reverse, hlen]
  refine ⟨_, _, determine_down_eq (isVec_vec t) (isVec_vec x) h2 hlen, ?_⟩
  rw [determine_up_eq (isVec_vec t) (isVec_vec _) h2 hlen', uniform_first_step h2 hu]
  have hti : ∀ i, i < t.length → t.getD i 0 = t.getD 0 0 + dt * i := by
    intro i
    induction i with
    | zero => intro _; simp
    | succ i ih =>
      intro hi
      rw [hu.2 i hi, ih (by omega)]
      push_cast; ring
  have hxr : ∀ i, i < x.length → x.reverse.getD i 0 = x.getD (x.length - 1 - i) 0 := by
    intro i hi
    rw [List.getD_eq_getElem _ _ (by simpa using hi), List.getD_eq_getElem _ _ (by omega), List.getElem_reverse]
  have hidx : crossIdx upCond x.reverse = ((crossIdx downCond x).map fun i => x.length - 2 - i).reverse := by
    apply ListsExactly.unique (crossIdx_up_listsExactly _)
    have hDl := crossIdx_down_listsExactly x
    constructor
    · rw [List.pairwise_reverse, List.pairwise_map]
      refine hDl.1.imp_of_mem ?_
      intro a b ha hb hab
      have := ((hDl.2 b).1 hb).1
      omega
    · intro i
      rw [List.mem_reverse, List.mem_map]
      constructor
      · rintro ⟨j, hj, rfl⟩
        obtain ⟨a, b, c⟩ := (hDl.2 j).1 hj
        refine ⟨by rw [List.length_reverse]; omega, ?_, ?_⟩
        · rw [hxr _ (by omega), show x.length - 1 - (x.length - 2 - j) = j + 1 by omega]; exact c.le
        · rw [hxr _ (by omega), show x.length - 1 - (x.length - 2 - j + 1) = j by omega]
          exact lt_of_le_of_ne b (hz.getD (by omega)).symm
      · rintro ⟨a, b, c⟩
        rw [List.length_reverse] at a
        refine ⟨x.length - 2 - i, (hDl.2 _).2 ⟨by omega, ?_, ?_⟩, by omega⟩
        · rw [hxr _ (by omega)] at c
          rw [show x.length - 2 - i = x.length - 1 - (i + 1) by omega]; exact c.le
        · rw [hxr _ (by omega)] at b
          rw [show x.length - 2 - i + 1 = x.length - 1 - i by omega]
          exact lt_of_le_of_ne b (hz.getD (by omega))
  rw [hidx]
  have hnil : (((crossIdx downCond x).map fun i => x.length - 2 - i).reverse = []) ↔ crossIdx downCond x = [] := by simp
  congr 2
  · simp
  · rw [List.map_reverse, List.map_map, List.map_map]
    congr 1
    apply List.map_congr_left
    intro i hi
    obtain ⟨a, b, c⟩ := ((crossIdx_down_listsExactly x).2 i).1 hi
    simp only [Function.comp, crossTime]
    rw [hxr _ (by omega), hxr _ (by omega), show x.length - 1 - (x.length - 2 - i) = i + 1 by omega,
      show x.length - 1 - (x.length - 2 - i + 1) = i by omega, hti _ (by omega : x.length - 2 - i < t.length), hti i (by omega),
      hti (t.length - 1) (by omega)]
    have hne : x.getD i 0 - x.getD (i + 1) 0 ≠ 0 := by
      have : 0 < x.getD i 0 - x.getD (i + 1) 0 := by linarith
      exact this.ne'
    have hne' : x.getD (i + 1) 0 - x.getD i 0 ≠ 0 := by
      intro h; apply hne; linarith
    have e1 : ((x.length - 2 - i : Nat) : K) = (x.length : K) - 2 - i := by
      rw [Nat.cast_sub (by omega), Nat.cast_sub (by omega)]; push_cast; ring
    have e2 : ((t.length - 1 : Nat) : K) = (x.length : K) - 1 := by
      rw [hlen, Nat.cast_sub (by omega)]; push_cast; ring
    rw [e1, e2]
    have e3 : x.getD (i + 1) 0 - x.getD i 0 = -(x.getD i 0 - x.getD (i + 1) 0) := by ring
    rw [e3, div_neg]
    field_simp
    ring

/-! ## Non-vacuity -/

example : ZeroFree ([1, -1, 2, -2, 1, 3] : List ℚ) := by
  intro v hv; simp at hv; rcases hv with rfl | rfl | rfl | rfl | rfl | rfl <;> norm_num
example : determineZeroCrossing (vec [0, 1, 2, 3, 4, 5]) (vec ([1, -1, 2, -2, 1, 3] : List ℚ)) "down" = .ok (1, [1 / 2, 5 / 2]) := by decide +kernel
example : determineZeroCrossing (vec [0, 1, 2, 3, 4, 5]) (vec ([1, -1, 2, -2, 1, 3] : List ℚ)) "up" = .ok (1, [4 / 3, 11 / 3]) := by decide +kernel
example : determineZeroCrossing (vec [0, 1, 2, 3, 4, 5]) (vec ([1, -1, 2, -2, 1, 3] : List ℚ).reverse) "up" = .ok (1, [5 / 2, 9 / 2]) := by
  decide +kernel
/-- Three down-crossings, two waves, no up-crossing, never positive. -/
example : determineZeroCrossing (vec [0, 1, 2, 3, 4, 5]) (vec ([0, -1, 0, -1, 0, -1] : List ℚ)) "down" = .ok (2, [0, 2, 4]) := by decide +kernel

/-! ## Concrete cases: the hypotheses of the theorems above are met -/

theorem zeroFree_six : ZeroFree ([1, -1, 2, -2, 1, 3] : List ℚ) := by
  intro v hv; simp at hv; rcases hv with rfl | rfl | rfl | rfl | rfl | rfl <;> norm_num

theorem axisQ6 : UniformAxis ([0, 1, 2, 3, 4, 5] : List ℚ) 1 := uniformAxis_of_steps (by norm_num) (by decide +kernel)

example := crossings_balance (isVec_vec [0, 1, 2, 3, 4, 5]) (isVec_vec [1, -1, 2, -2, 1, 3]) (by decide) (by decide) zeroFree_six

/-- Between the down-crossings at 1/2 and 5/2 lies the up-crossing at 4/3 and no other. -/
example : ∃! τ, τ ∈ ([4 / 3, 11 / 3] : List ℚ) ∧ 1 / 2 < τ ∧ τ < 5 / 2 := by
  obtain ⟨nD, tD, nU, tU, a, b, c⟩ := crossings_alternate (isVec_vec [0, 1, 2, 3, 4, 5]) (isVec_vec [1, -1, 2, -2, 1, 3]) (by decide) (by decide)
    axisQ6 zeroFree_six
  have e : determineZeroCrossing (vec [0, 1, 2, 3, 4, 5]) (vec ([1, -1, 2, -2, 1, 3] : List ℚ)) "down" = .ok (1, [1 / 2, 5 / 2]) := by decide +kernel
  have e' : determineZeroCrossing (vec [0, 1, 2, 3, 4, 5]) (vec ([1, -1, 2, -2, 1, 3] : List ℚ)) "up" = .ok (1, [4 / 3, 11 / 3]) := by decide +kernel
  rw [a] at e; rw [b] at e'
  obtain ⟨-, rfl⟩ := Prod.mk.inj (Except.ok.inj e)
  obtain ⟨-, rfl⟩ := Prod.mk.inj (Except.ok.inj e')
  exact c 0 (by decide)

example := crossings_time_reversal (t := [0, 1, 2, 3, 4, 5]) (x := [1, -1, 2, -2, 1, 3]) (by decide) (by decide) axisQ6 zeroFree_six
example := touching_zero_counts (K := ℚ) 3 (1 / 2) (by norm_num)

end Verif
