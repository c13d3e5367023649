import Verif.Model.WaveFun
import Verif.Props.Averaging
import Verif.Lemmas.ListNp
import Mathlib.Tactic.FieldSimp
import Mathlib.Tactic.LinearCombination

/-! # scipy's Simpson rule: linearity, weights on a uniform axis, exactness -/

set_option linter.unusedSectionVars false

namespace Verif
open Finset

variable {K : Type} [Field K] [LinearOrder K] [IsStrictOrderedRing K]

/-- The Simpson sum of a function of the index, on a uniform axis of `2 m + 1` points with step `h`. -/
theorem simpOdd_uniform (h : K) (hh : h ≠ 0) : ∀ (m : Nat) (x y : List K), x.length = 2 * m + 1 → y.length = 2 * m + 1 →
    (∀ i, i + 1 < x.length → x.getD (i + 1) 0 = x.getD i 0 + h) →
    simpOdd x y = ∑ k ∈ range m, h / 3 * (y.getD (2 * k) 0 + 4 * y.getD (2 * k + 1) 0 + y.getD (2 * k + 2) 0)
  | 0, x, y, hx, hy, hu => by
    obtain ⟨a, rfl⟩ := List.length_eq_one_iff.1 (by simpa using hx)
    simp [simpOdd]
  | m + 1, x, y, hx, hy, hu => by
    obtain ⟨x0, x1, x2, xs, rfl⟩ : ∃ x0 x1 x2 xs, x = x0 :: x1 :: x2 :: xs := by
      rcases x with _ | ⟨a, _ | ⟨b, _ | ⟨c, l⟩⟩⟩ <;> simp at hx <;> first | omega | exact ⟨_, _, _, _, rfl⟩
    obtain ⟨y0, y1, y2, ys, rfl⟩ : ∃ x0 x1 x2 xs, y = x0 :: x1 :: x2 :: xs := by
      rcases y with _ | ⟨a, _ | ⟨b, _ | ⟨c, l⟩⟩⟩ <;> simp at hy <;> first | omega | exact ⟨_, _, _, _, rfl⟩
    have e1 : x1 = x0 + h := by simpa using hu 0 (by simp)
    have e2 : x2 = x1 + h := by simpa using hu 1 (by simp)
    have ih := simpOdd_uniform h hh m (x2 :: xs) (y2 :: ys) (by simp at hx ⊢; omega) (by simp at hy ⊢; omega) (by
      intro i hi
      have := hu (i + 2) (by simp at hi ⊢; omega)
      simpa using this)
    rw [simpOdd, ih, sum_range_succ']
    have d1 : x1 - x0 = h := by rw [e1]; ring
    have d2 : x2 - x1 = h := by rw [e2]; ring
    rw [d1, d2, add_comm]
    congr 1
    simp only [mul_zero, zero_add, List.getD_cons_zero, List.getD_cons_succ]
    field_simp
    ring

theorem getD_dropLast {l : List K} {i : Nat} (h : i + 1 < l.length) : l.dropLast.getD i 0 = l.getD i 0 := by
  rw [List.getD_eq_getElem _ _ (by rw [List.length_dropLast]; omega), List.getD_eq_getElem _ _ (by omega), List.getElem_dropLast]

/-- Closed form on a uniform axis with an odd number of points. -/
theorem simpson_uniform_odd {h : K} (hh : h ≠ 0) {m : Nat} {x y : List K} (hx : x.length = 2 * m + 1) (hy : y.length = 2 * m + 1)
    (hu : ∀ i, i + 1 < x.length → x.getD (i + 1) 0 = x.getD i 0 + h) :
    simpson x y = .ok (∑ k ∈ range m, h / 3 * (y.getD (2 * k) 0 + 4 * y.getD (2 * k + 1) 0 + y.getD (2 * k + 2) 0)) := by
  unfold simpson
  rw [if_neg (by omega), if_neg (by rintro rfl; simp at hx), if_pos (by omega), simpOdd_uniform h hh m x y hx hy hu]

/-- Closed form on a uniform axis with an even number (at least four) of points. -/
theorem simpson_uniform_even {h : K} (hh : h ≠ 0) {m : Nat} (hm : 1 ≤ m) {x y : List K} (hx : x.length = 2 * m + 2)
    (hy : y.length = 2 * m + 2) (hu : ∀ i, i + 1 < x.length → x.getD (i + 1) 0 = x.getD i 0 + h) :
    simpson x y = .ok (∑ k ∈ range m, h / 3 * (y.getD (2 * k) 0 + 4 * y.getD (2 * k + 1) 0 + y.getD (2 * k + 2) 0) +
      h / 12 * (5 * y.getD (2 * m + 1) 0 + 8 * y.getD (2 * m) 0 - y.getD (2 * m - 1) 0)) := by
  unfold simpson
  rw [if_neg (by omega), if_neg (by rintro rfl; simp at hx), if_neg (by omega), if_neg (by omega)]
  rw [simpOdd_uniform h hh m x.dropLast y.dropLast (by simp [hx]) (by simp [hy])
    (by
      intro i hi
      rw [List.length_dropLast] at hi
      rw [getD_dropLast (by omega), getD_dropLast (by omega)]
      exact hu i (by omega))]
  congr 2
  · refine sum_congr rfl fun k hk => ?_
    have := mem_range.1 hk
    rw [getD_dropLast (by omega), getD_dropLast (by omega), getD_dropLast (by omega)]
  · unfold simpLast
    simp only [hx]
    have d1 : x.getD (2 * m + 2 - 2) 0 - x.getD (2 * m + 2 - 3) 0 = h := by
      have := hu (2 * m - 1) (by omega)
      rw [show 2 * m + 2 - 2 = 2 * m - 1 + 1 by omega, show 2 * m + 2 - 3 = 2 * m - 1 by omega, this]; ring
    have d2 : x.getD (2 * m + 2 - 1) 0 - x.getD (2 * m + 2 - 2) 0 = h := by
      have := hu (2 * m) (by omega)
      rw [show 2 * m + 2 - 1 = 2 * m + 1 by omega, show 2 * m + 2 - 2 = 2 * m by omega, this]; ring
    rw [d1, d2, show 2 * m + 2 - 1 = 2 * m + 1 by omega, show 2 * m + 2 - 2 = 2 * m by omega, show 2 * m + 2 - 3 = 2 * m - 1 by omega]
    field_simp
    ring

theorem simpson_two {x0 x1 y0 y1 : K} : simpson [x0, x1] [y0, y1] = .ok (1 / 2 * (x1 - x0) * (y1 + y0)) := by
  simp [simpson]

theorem simpson_single {x0 y0 : K} : simpson [x0] [y0] = .ok 0 := by
  simp [simpson, simpOdd]

/-- Non-empty axes of equal length never raise. -/
theorem simpson_ok {x y : List K} (hx : x ≠ []) (hl : x.length = y.length) : ∃ v, simpson x y = .ok v := by
  unfold simpson
  rw [if_neg (by simpa using hl), if_neg hx]
  split_ifs <;> exact ⟨_, rfl⟩

theorem sum_odd_lower (h : K) (hh : 0 < h) (y : Nat → K) (hy : ∀ i, 0 ≤ y i) : ∀ m : Nat,
    h / 3 * ∑ i ∈ range (2 * m + 3), y i ≤ ∑ k ∈ range (m + 1), h / 3 * (y (2 * k) + 4 * y (2 * k + 1) + y (2 * k + 2))
  | 0 => by
    simp only [sum_range_succ, range_zero, sum_empty, mul_zero, zero_add]
    have := mul_nonneg hh.le (hy 1)
    linarith
  | m + 1 => by
    have ih := sum_odd_lower h hh y hy m
    rw [show 2 * (m + 1) + 3 = 2 * m + 3 + 1 + 1 by ring, sum_range_succ, sum_range_succ, sum_range_succ _ (m + 1)]
    rw [show 2 * (m + 1) = 2 * m + 2 by ring, show 2 * m + 2 + 1 = 2 * m + 3 by ring, show 2 * m + 2 + 2 = 2 * m + 3 + 1 by ring]
    have a := mul_nonneg hh.le (hy (2 * m + 2))
    have b := mul_nonneg hh.le (hy (2 * m + 3))
    linarith

/-- On a uniform axis every sample has weight at least a third of the step. -/
theorem simpson_lower {h : K} {x y : List K} (hu : UniformAxis x h) (h2 : 2 ≤ x.length) (hl : x.length = y.length)
    (hy : ∀ v ∈ y, 0 ≤ v) {v : K} (hv : simpson x y = .ok v) : h / 3 * y.sum ≤ v := by
  obtain ⟨hh, hu⟩ := hu
  have hy' : ∀ i, 0 ≤ y.getD i 0 := by
    intro i
    by_cases hi : i < y.length
    · rw [List.getD_eq_getElem _ _ hi]; exact hy _ (List.getElem_mem hi)
    · rw [List.getD_eq_default _ _ (by omega)]
  rw [list_sum_getD]
  rcases Nat.even_or_odd' x.length with ⟨m, hm | hm⟩
  · by_cases hm1 : m = 1
    · subst hm1
      obtain ⟨x0, x1, rfl⟩ := List.length_eq_two.1 (by simpa using hm)
      obtain ⟨y0, y1, rfl⟩ := List.length_eq_two.1 (hl.symm.trans (by simpa using hm))
      rw [simpson_two] at hv
      have e : x1 = x0 + h := by simpa using hu 0 (by simp)
      have : v = 1 / 2 * (x1 - x0) * (y1 + y0) := by simpa using hv.symm
      rw [this, e]
      have a := mul_nonneg hh.le (by simpa using hy' 0 : (0 : K) ≤ y0)
      have b := mul_nonneg hh.le (by simpa using hy' 1 : (0 : K) ≤ y1)
      simp [sum_range_succ]
      linarith
    · obtain ⟨k, rfl⟩ : ∃ k, m = k + 2 := ⟨m - 2, by omega⟩
      rw [simpson_uniform_even hh.ne' (m := k + 1) (by omega) (by omega) (by omega) hu] at hv
      have hv' := (Except.ok.inj hv).symm
      rw [hv', ← hl, hm]
      rw [sum_range_succ _ k]
      have e1 : 2 * (k + 2) = 2 * k + 1 + 1 + 1 + 1 := by ring
      rw [e1, sum_range_succ, sum_range_succ, sum_range_succ]
      have e2 : 2 * (k + 1) = 2 * k + 2 := by ring
      have e3 : 2 * (k + 1) + 1 = 2 * k + 3 := by ring
      have e4 : 2 * (k + 1) - 1 = 2 * k + 1 := by omega
      rw [e3, e4, e2]
      have e5 : 2 * k + 1 + 1 = 2 * k + 2 := by ring
      have e6 : 2 * k + 1 + 1 + 1 = 2 * k + 3 := by ring
      rw [e6, e5]
      have a1 := mul_nonneg hh.le (hy' (2 * k + 1))
      have a2 := mul_nonneg hh.le (hy' (2 * k + 2))
      have a3 := mul_nonneg hh.le (hy' (2 * k + 3))
      have a0 := mul_nonneg hh.le (hy' (2 * k))
      have key : h / 3 * ∑ i ∈ range (2 * k + 1), y.getD i 0 ≤
          ∑ k ∈ range k, h / 3 * (y.getD (2 * k) 0 + 4 * y.getD (2 * k + 1) 0 + y.getD (2 * k + 2) 0) + h / 3 * y.getD (2 * k) 0 := by
        rcases k with _ | k
        · simp
        · have := sum_odd_lower h hh (fun i => y.getD i 0) hy' k
          rw [show 2 * (k + 1) + 1 = 2 * k + 3 by ring]
          have := mul_nonneg hh.le (hy' (2 * (k + 1)))
          linarith
      linarith
  · rcases m with _ | m
    · omega
    · rw [simpson_uniform_odd hh.ne' (m := m + 1) (by omega) (by omega) hu] at hv
      have hv' := (Except.ok.inj hv).symm
      rw [hv', ← hl, hm]
      exact sum_odd_lower h hh (fun i => y.getD i 0) hy' m

/-! ## Weights -/

theorem simpOdd_weights : ∀ (x : List K), ∃ w : Nat → K, ∀ y : List K, y.length = x.length →
    simpOdd x y = ∑ i ∈ range x.length, w i * y.getD i 0
  | [] => ⟨fun _ => 0, fun y hy => by
      have : y = [] := by simpa using hy
      subst this; simp [simpOdd]⟩
  | [x0] => ⟨fun _ => 0, fun y hy => by
      obtain ⟨a, rfl⟩ := List.length_eq_one_iff.1 (by simpa using hy)
      simp [simpOdd]⟩
  | [x0, x1] => ⟨fun _ => 0, fun y hy => by
      obtain ⟨a, b, rfl⟩ := List.length_eq_two.1 (by simpa using hy)
      simp [simpOdd]⟩
  | x0 :: x1 :: x2 :: xs => by
    obtain ⟨w, hw⟩ := simpOdd_weights (x2 :: xs)
    let c0 := ((x1 - x0) + (x2 - x1)) / 6 * (2 - 1 / ((x1 - x0) / (x2 - x1)))
    let c1 := ((x1 - x0) + (x2 - x1)) / 6 * (((x1 - x0) + (x2 - x1)) * (((x1 - x0) + (x2 - x1)) / ((x1 - x0) * (x2 - x1))))
    let c2 := ((x1 - x0) + (x2 - x1)) / 6 * (2 - (x1 - x0) / (x2 - x1))
    refine ⟨fun i => if i = 0 then c0 else if i = 1 then c1 else if i = 2 then c2 + w 0 else w (i - 2), fun y hy => ?_⟩
    obtain ⟨y0, y1, y2, ys, rfl⟩ : ∃ x0 x1 x2 xs, y = x0 :: x1 :: x2 :: xs := by
      rcases y with _ | ⟨a, _ | ⟨b, _ | ⟨c, l⟩⟩⟩ <;> simp at hy <;> first | omega | exact ⟨_, _, _, _, rfl⟩
    rw [simpOdd, hw (y2 :: ys) (by simp at hy ⊢; omega)]
    have el : (x0 :: x1 :: x2 :: xs).length = xs.length + 1 + 1 + 1 := by simp
    have el2 : (x2 :: xs).length = xs.length + 1 := by simp
    rw [el, el2, sum_range_succ', sum_range_succ', sum_range_succ', sum_range_succ']
    simp only [c0, c1, c2]
    have : ∀ i, (if i + 1 + 1 + 1 = 0 then c0 else if i + 1 + 1 + 1 = 1 then c1 else if i + 1 + 1 + 1 = 2 then c2 + w 0 else w (i + 1 + 1 + 1 - 2)) = w (i + 1) := by
      intro i
      rw [if_neg (by omega), if_neg (by omega), if_neg (by omega)]
      congr 1
    simp only [c0, c1, c2] at this
    simp only [this, List.getD_cons_succ, List.getD_cons_zero, zero_add]
    norm_num
    ring
  termination_by x => x.length

/-- Simpson's rule is a weighted sum with weights depending on the axis only. -/
theorem simpson_weights {x : List K} (hx : x ≠ []) : ∃ w : Nat → K, ∀ y : List K, y.length = x.length →
    simpson x y = .ok (∑ i ∈ range x.length, w i * y.getD i 0) := by
  have hpos : 0 < x.length := List.length_pos_iff.2 hx
  by_cases h1 : x.length % 2 = 1
  · obtain ⟨w, hw⟩ := simpOdd_weights x
    refine ⟨w, fun y hy => ?_⟩
    unfold simpson
    rw [if_neg (by omega), if_neg hx, if_pos h1, hw y hy]
  · by_cases h2 : x.length = 2
    · refine ⟨fun _ => 1 / 2 * (x.getD 1 0 - x.getD 0 0), fun y hy => ?_⟩
      unfold simpson
      rw [if_neg (by omega), if_neg hx, if_neg h1, if_pos h2, h2]
      congr 1
      simp only [sum_range_succ, range_zero, sum_empty]
      ring
    · obtain ⟨w, hw⟩ := simpOdd_weights x.dropLast
      let n := x.length
      let h0 := x.getD (n - 2) 0 - x.getD (n - 3) 0
      let h1' := x.getD (n - 1) 0 - x.getD (n - 2) 0
      let alpha := (2 * h1' ^ 2 + 3 * h0 * h1') / (6 * (h1' + h0))
      let beta := (h1' ^ 2 + 3 * h0 * h1') / (6 * h0)
      let eta := 1 * h1' ^ 3 / (6 * h0 * (h0 + h1'))
      refine ⟨fun i => (if i + 1 < n then w i else 0) + (if i = n - 1 then alpha else 0) + (if i = n - 2 then beta else 0)
        - (if i = n - 3 then eta else 0), fun y hy => ?_⟩
      unfold simpson
      rw [if_neg (by omega), if_neg hx, if_neg h1, if_neg h2, hw y.dropLast (by simp [hy])]
      congr 1
      have e : ∀ i ∈ range x.length, ((if i + 1 < n then w i else 0) + (if i = n - 1 then alpha else 0) + (if i = n - 2 then beta else 0)
        - (if i = n - 3 then eta else 0)) * y.getD i 0 = (if i + 1 < n then w i * y.getD i 0 else 0) + (if i = n - 1 then alpha * y.getD i 0 else 0) + (if i = n - 2 then beta * y.getD i 0 else 0)
        - (if i = n - 3 then eta * y.getD i 0 else 0) := by
        intro i _
        split_ifs <;> ring
      have hn4 : 4 ≤ x.length := by omega
      rw [sum_congr rfl e, sum_sub_distrib, sum_add_distrib, sum_add_distrib, sum_ite_eq' , sum_ite_eq', sum_ite_eq',
        if_pos (mem_range.2 (by omega)), if_pos (mem_range.2 (by omega)), if_pos (mem_range.2 (by omega))]
      have e2 : ∑ i ∈ range x.length, (if i + 1 < n then w i * y.getD i 0 else 0) = ∑ i ∈ range x.dropLast.length, w i * y.dropLast.getD i 0 := by
        obtain ⟨k, hk⟩ : ∃ k, x.length = k + 1 := ⟨x.length - 1, by omega⟩
        have hd : x.dropLast.length = k := by rw [List.length_dropLast]; omega
        rw [hd, hk, sum_range_succ]
        have hn : n = k + 1 := hk
        rw [if_neg (by omega), add_zero]
        refine sum_congr rfl fun i hi => ?_
        have := mem_range.1 hi
        rw [if_pos (by omega), getD_dropLast (by omega)]
      rw [e2]
      unfold simpLast
      simp only [alpha, beta, eta, h0, h1', n]
      ring

/-- On a uniform axis the weights are at least a third of the step. -/
theorem simpson_uniform_weights {x : List K} {h : K} (hu : UniformAxis x h) (h2 : 2 ≤ x.length) :
    ∃ w : Nat → K, (∀ i < x.length, h / 3 ≤ w i) ∧ ∀ y : List K, y.length = x.length →
      simpson x y = .ok (∑ i ∈ range x.length, w i * y.getD i 0) := by
  obtain ⟨w, hw⟩ := simpson_weights (x := x) (by rintro rfl; simp at h2)
  refine ⟨w, fun i hi => ?_, hw⟩
  let e : List K := (List.range x.length).map fun j => if j = i then 1 else 0
  have he : e.length = x.length := by simp [e]
  have h1 := hw e he
  have h3 := simpson_lower hu h2 he.symm (by
    intro v hv
    obtain ⟨j, _, rfl⟩ := List.mem_map.1 hv
    split_ifs <;> norm_num) h1
  have e1 : e.sum = 1 := by
    simp only [e]
    rw [list_sum_map_range, sum_ite_eq', if_pos (mem_range.2 hi)]
  have e2 : ∑ j ∈ range x.length, w j * e.getD j 0 = w i := by
    rw [sum_congr rfl fun j hj => by
      rw [show e.getD j 0 = if j = i then 1 else 0 from getD_map_range _ _ j 0 (mem_range.1 hj)]]
    simp [hi]
  rw [e1, e2, mul_one] at h3
  exact h3

/-! ## Exactness -/

/-- On an increasing axis Simpson's rule integrates quadratic integrands exactly (odd number of points). -/
theorem simpOdd_exact (a b c : K) : ∀ (x : List K), x.Pairwise (· < ·) → x.length % 2 = 1 →
    simpOdd x (x.map fun v => a * v ^ 2 + b * v + c) =
      (a * x.getD (x.length - 1) 0 ^ 3 / 3 + b * x.getD (x.length - 1) 0 ^ 2 / 2 + c * x.getD (x.length - 1) 0) -
      (a * x.getD 0 0 ^ 3 / 3 + b * x.getD 0 0 ^ 2 / 2 + c * x.getD 0 0)
  | [], _, h => by simp at h
  | [x0], _, _ => by simp [simpOdd]
  | [x0, x1], _, h => by simp at h
  | x0 :: x1 :: x2 :: xs, hp, h => by
    have hp1 := List.pairwise_cons.1 hp
    have hp2 := List.pairwise_cons.1 hp1.2
    have ih := simpOdd_exact a b c (x2 :: xs) hp2.2 (by simp at h ⊢; omega)
    have h01 : x0 < x1 := hp1.1 x1 (by simp)
    have h12 : x1 < x2 := hp2.1 x2 (by simp)
    have n01 : x1 - x0 ≠ 0 := sub_ne_zero.2 h01.ne'
    have n12 : x2 - x1 ≠ 0 := sub_ne_zero.2 h12.ne'
    simp only [List.map_cons] at ih ⊢
    rw [simpOdd, ih]
    have hlast : (x0 :: x1 :: x2 :: xs).getD ((x0 :: x1 :: x2 :: xs).length - 1) 0 = (x2 :: xs).getD ((x2 :: xs).length - 1) 0 := by
      rw [show (x0 :: x1 :: x2 :: xs).length - 1 = ((x2 :: xs).length - 1) + 1 + 1 by simp]
      simp only [List.getD_cons_succ]
    rw [hlast]
    simp only [List.getD_cons_zero]
    have key : (x1 - x0 + (x2 - x1)) / 6 * ((a * x0 ^ 2 + b * x0 + c) * (2 - 1 / ((x1 - x0) / (x2 - x1))) +
        (a * x1 ^ 2 + b * x1 + c) * ((x1 - x0 + (x2 - x1)) * ((x1 - x0 + (x2 - x1)) / ((x1 - x0) * (x2 - x1)))) +
        (a * x2 ^ 2 + b * x2 + c) * (2 - (x1 - x0) / (x2 - x1))) =
        (a * x2 ^ 3 / 3 + b * x2 ^ 2 / 2 + c * x2) - (a * x0 ^ 3 / 3 + b * x0 ^ 2 / 2 + c * x0) := by
      obtain ⟨p, hp⟩ : ∃ p, p = x1 - x0 := ⟨_, rfl⟩
      obtain ⟨q, hq⟩ : ∃ q, q = x2 - x1 := ⟨_, rfl⟩
      have e1 : x1 = x0 + p := by rw [hp]; ring
      have e2 : x2 = x0 + p + q := by rw [hq, hp]; ring
      rw [← hp] at n01
      rw [← hq] at n12
      rw [← hp, ← hq, e2, e1]
      field_simp
      ring
    rw [key]
    ring

/-- The same for any number of points from three on. -/
theorem simpson_exact (a b c : K) {x y : List K} (hp : x.Pairwise (· < ·)) (h3 : 3 ≤ x.length)
    (hy : y = x.map fun v => a * v ^ 2 + b * v + c) :
    simpson x y = .ok
      ((a * x.getD (x.length - 1) 0 ^ 3 / 3 + b * x.getD (x.length - 1) 0 ^ 2 / 2 + c * x.getD (x.length - 1) 0) -
      (a * x.getD 0 0 ^ 3 / 3 + b * x.getD 0 0 ^ 2 / 2 + c * x.getD 0 0)) := by
  subst hy
  unfold simpson
  rw [if_neg (by simp), if_neg (by rintro rfl; simp at h3)]
  by_cases h1 : x.length % 2 = 1
  · rw [if_pos h1, simpOdd_exact a b c x hp h1]
  · rw [if_neg h1, if_neg (by omega)]
    congr 1
    have hdl : x.dropLast.length = x.length - 1 := List.length_dropLast
    have e := simpOdd_exact a b c x.dropLast (hp.sublist (List.dropLast_sublist x)) (by omega)
    rw [← List.map_dropLast, e, hdl, getD_dropLast (by omega), getD_dropLast (by omega)]
    unfold simpLast
    have g : ∀ i < x.length, (x.map fun v => a * v ^ 2 + b * v + c).getD i 0 = a * x.getD i 0 ^ 2 + b * x.getD i 0 + c := by
      intro i hi
      rw [List.getD_eq_getElem _ _ (by simpa using hi), List.getElem_map, List.getD_eq_getElem _ _ hi]
    simp only
    rw [g _ (by omega), g _ (by omega), g _ (by omega)]
    have lt1 : x.getD (x.length - 3) 0 < x.getD (x.length - 2) 0 := by
      rw [List.getD_eq_getElem _ _ (by omega), List.getD_eq_getElem _ _ (by omega)]
      exact List.pairwise_iff_getElem.1 hp _ _ _ _ (by omega)
    have lt2 : x.getD (x.length - 2) 0 < x.getD (x.length - 1) 0 := by
      rw [List.getD_eq_getElem _ _ (by omega), List.getD_eq_getElem _ _ (by omega)]
      exact List.pairwise_iff_getElem.1 hp _ _ _ _ (by omega)
    rw [show x.length - 1 - 1 = x.length - 2 by omega]
    obtain ⟨x0, hx0⟩ : ∃ v, v = x.getD (x.length - 3) 0 := ⟨_, rfl⟩
    obtain ⟨p, hp'⟩ : ∃ v, v = x.getD (x.length - 2) 0 - x.getD (x.length - 3) 0 := ⟨_, rfl⟩
    obtain ⟨q, hq'⟩ : ∃ v, v = x.getD (x.length - 1) 0 - x.getD (x.length - 2) 0 := ⟨_, rfl⟩
    have e1 : x.getD (x.length - 2) 0 = x0 + p := by rw [hp', hx0]; ring
    have e2 : x.getD (x.length - 1) 0 = x0 + p + q := by rw [hq', ← e1]; ring
    have np : 0 < p := by rw [hp']; linarith
    have nq : 0 < q := by rw [hq']; linarith
    have nsum : p + q ≠ 0 := (by linarith : (0 : K) < p + q).ne'
    have nsum' : q + p ≠ 0 := (by linarith : (0 : K) < q + p).ne'
    have np' := np.ne'
    rw [← hp', ← hq', ← hx0, e2, e1]
    field_simp
    ring

end Verif
