import Verif.Props.Moments

/-! # C102: the exact quadrature of spectral moments on a uniform frequency axis -/

set_option linter.unusedSectionVars false

namespace Verif
open Finset

variable {K : Type} [Field K] [LinearOrder K] [IsStrictOrderedRing K]

/-! ## Specification -/

/-- The weight of sample `k` of `n` equally spaced samples (in units of the step): the composite Simpson weights 1/3, 4/3,
2/3, ..., 4/3, 1/3 for an odd number of samples; for an even number (at least four) the last panel is integrated with the
parabola through the last three samples, giving ..., 5/4, 1, 5/12; the trapezium for two samples; nothing for one. -/
def simpsonWeight (K : Type) [Field K] (n k : Nat) : K :=
  if n ≤ 1 then 0
  else if n = 2 then 1 / 2
  else if n % 2 = 0 ∧ k = n - 1 then 5 / 12
  else if n % 2 = 0 ∧ k = n - 2 then 1
  else if n % 2 = 0 ∧ k = n - 3 then 5 / 4
  else if k = 0 ∨ k = n - 1 then 1 / 3
  else if k % 2 = 1 then 4 / 3
  else 2 / 3

/-! ## The weights of the rule -/

/-- The weight of sample `k` of a composite rule that goes on to the right. -/
def openWeight (K : Type) [Field K] (k : Nat) : K := if k = 0 then 1 / 3 else if k % 2 = 1 then 4 / 3 else 2 / 3

theorem panels_sum (y : Nat → K) : ∀ m : Nat,
    ∑ k ∈ range (m + 1), (y (2 * k) + 4 * y (2 * k + 1) + y (2 * k + 2)) / 3 =
      ∑ k ∈ range (2 * m + 2), openWeight K k * y k + y (2 * m + 2) / 3
  | 0 => by
    simp only [sum_range_succ, range_zero, sum_empty, mul_zero, zero_add, openWeight]
    norm_num
    ring
  | m + 1 => by
    rw [sum_range_succ, panels_sum y m, show 2 * (m + 1) + 2 = 2 * m + 2 + 1 + 1 by ring, sum_range_succ _ (2 * m + 2 + 1),
      sum_range_succ _ (2 * m + 2)]
    have e1 : openWeight K (2 * m + 2) = 2 / 3 := by
      unfold openWeight; rw [if_neg (by omega), if_neg (by omega)]
    have e2 : openWeight K (2 * m + 2 + 1) = 4 / 3 := by
      unfold openWeight; rw [if_neg (by omega), if_pos (by omega)]
    rw [e1, e2, show 2 * (m + 1) = 2 * m + 2 by ring]
    ring

/-- **C102 (the rule).**  scipy's Simpson rule on `n` equally spaced samples is `h Σ w(n,k) y_k`. -/
theorem simpson_exact_weights {x y : List K} {h : K} (hu : UniformAxis x h) (hx : x ≠ []) (hl : y.length = x.length) :
    simpson x y = .ok (h * ∑ k ∈ range x.length, simpsonWeight K x.length k * y.getD k 0) := by
  obtain ⟨hh, hu⟩ := hu
  have hpos : 0 < x.length := List.length_pos_iff.2 hx
  rcases Nat.even_or_odd' x.length with ⟨m, hm | hm⟩
  · by_cases hm1 : m = 1
    · subst hm1
      obtain ⟨x0, x1, rfl⟩ := List.length_eq_two.1 (by simpa using hm)
      obtain ⟨y0, y1, rfl⟩ := List.length_eq_two.1 (hl.trans (by simpa using hm))
      have e : x1 = x0 + h := by simpa using hu 0 (by simp)
      rw [simpson_two, e]
      simp [sum_range_succ, simpsonWeight]
      ring
    · obtain ⟨q, rfl⟩ : ∃ q, m = q + 1 + 1 := ⟨m - 2, by omega⟩
      rw [simpson_uniform_even hh.ne' (m := q + 1) (by omega) (by omega) (by omega) hu]
      congr 1
      rw [sum_congr rfl (fun k _ => show h / 3 * (y.getD (2 * k) 0 + 4 * y.getD (2 * k + 1) 0 + y.getD (2 * k + 2) 0) =
        h * ((y.getD (2 * k) 0 + 4 * y.getD (2 * k + 1) 0 + y.getD (2 * k + 2) 0) / 3) by ring), ← mul_sum,
        panels_sum (fun k => y.getD k 0) q, hm, show 2 * (q + 1 + 1) = 2 * q + 1 + 1 + 1 + 1 by ring, sum_range_succ _ (2 * q + 1 + 1 + 1),
        sum_range_succ _ (2 * q + 1 + 1), sum_range_succ _ (2 * q + 1), show 2 * q + 2 = 2 * q + 1 + 1 by ring,
        sum_range_succ _ (2 * q + 1)]
      have w3 : simpsonWeight K (2 * q + 1 + 1 + 1 + 1) (2 * q + 1 + 1 + 1) = 5 / 12 := by
        unfold simpsonWeight; rw [if_neg (by omega), if_neg (by omega), if_pos (by omega)]
      have w2 : simpsonWeight K (2 * q + 1 + 1 + 1 + 1) (2 * q + 1 + 1) = 1 := by
        unfold simpsonWeight; rw [if_neg (by omega), if_neg (by omega), if_neg (by omega), if_pos (by omega)]
      have w1 : simpsonWeight K (2 * q + 1 + 1 + 1 + 1) (2 * q + 1) = 5 / 4 := by
        unfold simpsonWeight
        rw [if_neg (by omega), if_neg (by omega), if_neg (by omega), if_neg (by omega), if_pos (by omega)]
      have w0 : openWeight K (2 * q + 1) = 4 / 3 := by unfold openWeight; rw [if_neg (by omega), if_pos (by omega)]
      have wr : ∀ k ∈ range (2 * q + 1), simpsonWeight K (2 * q + 1 + 1 + 1 + 1) k * y.getD k 0 = openWeight K k * y.getD k 0 := by
        intro k hk
        have := mem_range.1 hk
        congr 1
        unfold simpsonWeight openWeight
        rw [if_neg (by omega), if_neg (by omega), if_neg (by omega), if_neg (by omega), if_neg (by omega)]
        have : (k = 0 ∨ k = 2 * q + 1 + 1 + 1 + 1 - 1) ↔ k = 0 := by omega
        simp only [this]
      rw [sum_congr rfl wr, w1, w2, w3, w0, show 2 * (q + 1) + 1 = 2 * q + 1 + 1 + 1 by ring, show 2 * (q + 1) - 1 = 2 * q + 1 by omega,
        show 2 * (q + 1) = 2 * q + 1 + 1 by ring]
      ring
  · rcases m with _ | q
    · obtain ⟨x0, rfl⟩ := List.length_eq_one_iff.1 (by simpa using hm)
      obtain ⟨y0, rfl⟩ := List.length_eq_one_iff.1 (hl.trans (by simpa using hm))
      rw [simpson_single]
      simp [simpsonWeight]
    · rw [simpson_uniform_odd hh.ne' (m := q + 1) (by omega) (by omega) hu]
      congr 1
      rw [sum_congr rfl (fun k _ => show h / 3 * (y.getD (2 * k) 0 + 4 * y.getD (2 * k + 1) 0 + y.getD (2 * k + 2) 0) =
        h * ((y.getD (2 * k) 0 + 4 * y.getD (2 * k + 1) 0 + y.getD (2 * k + 2) 0) / 3) by ring), ← mul_sum,
        panels_sum (fun k => y.getD k 0) q, hm, show 2 * (q + 1) + 1 = 2 * q + 2 + 1 by ring, sum_range_succ _ (2 * q + 2)]
      have w2 : simpsonWeight K (2 * q + 2 + 1) (2 * q + 2) = 1 / 3 := by
        unfold simpsonWeight
        rw [if_neg (by omega), if_neg (by omega), if_neg (by omega), if_neg (by omega), if_neg (by omega), if_pos (by omega)]
      have wr : ∀ k ∈ range (2 * q + 2), simpsonWeight K (2 * q + 2 + 1) k * y.getD k 0 = openWeight K k * y.getD k 0 := by
        intro k hk
        have := mem_range.1 hk
        congr 1
        unfold simpsonWeight openWeight
        rw [if_neg (by omega), if_neg (by omega), if_neg (by omega), if_neg (by omega), if_neg (by omega)]
        have : (k = 0 ∨ k = 2 * q + 2 + 1 - 1) ↔ k = 0 := by omega
        simp only [this]
      rw [sum_congr rfl wr, w2]
      ring

/-- Every weight lies between a third and four thirds. -/
theorem simpsonWeight_bounds {n : Nat} (hn : 2 ≤ n) (k : Nat) :
    1 / 3 ≤ simpsonWeight K n k ∧ simpsonWeight K n k ≤ 4 / 3 := by
  unfold simpsonWeight
  split_ifs <;> first | omega | (constructor <;> norm_num)

/-- The weights add up to the number of intervals. -/
theorem simpsonWeight_sum {n : Nat} (hn : 1 ≤ n) : ∑ k ∈ range n, simpsonWeight K n k = (n : K) - 1 := by
  by_cases h1 : n = 1
  · subst h1; simp [simpsonWeight]
  by_cases h2 : n = 2
  · subst h2; simp [simpsonWeight]; norm_num
  let x : List K := (List.range n).map fun i : Nat => (i : K)
  let y : List K := (List.range n).map fun _ : Nat => (1 : K)
  have hxl : x.length = n := by simp [x]
  have hyl : y.length = n := by simp [y]
  have hxg : ∀ i, i < n → x.getD i 0 = (i : K) := fun i hi => getD_map_range (fun i : Nat => (i : K)) _ i 0 hi
  have hyg : ∀ i, i < n → y.getD i 0 = (1 : K) := fun i hi => getD_map_range (fun _ : Nat => (1 : K)) _ i 0 hi
  have hu : UniformAxis x (1 : K) := by
    refine ⟨one_pos, fun i hi => ?_⟩
    rw [hxg _ (by omega), hxg _ (by omega)]; push_cast; ring
  have e1 := simpson_exact_weights hu (y := y) (by intro h; rw [h] at hxl; simp at hxl; omega) (by omega)
  have hp : x.Pairwise (· < ·) := by
    rw [List.pairwise_map]
    exact (List.pairwise_lt_range).imp fun h => by exact_mod_cast h
  have e2 := simpson_exact 0 0 1 (y := y) hp (by omega) (by
    simp only [y, x, List.map_map]
    apply List.map_congr_left
    intro i _
    simp)
  rw [e1] at e2
  have e3 := Except.ok.inj e2
  rw [hxl] at e3
  rw [one_mul, sum_congr rfl (fun k hk => by rw [hyg k (mem_range.1 hk), mul_one]), hxg _ (by omega), hxg _ (by omega)] at e3
  rw [e3]
  obtain ⟨p, rfl⟩ : ∃ p, n = p + 1 := ⟨n - 1, by omega⟩
  simp

/-! ## The moments -/

theorem momentSum_exact {f S : List K} {h : K} (hu : UniformAxis f h) {m : Int} {i j : Nat} (hij : i ≤ j) (hj : j < f.length)
    (hl : f.length = S.length) (hz : ¬ (m < 0 ∧ 0 ∈ pySlice f i (j + 1))) :
    momentSum m (pySlice f i (j + 1)) (pySlice S i (j + 1)) =
      .ok (h * ∑ k ∈ range (j + 1 - i), simpsonWeight K (j + 1 - i) k * (f.getD (i + k) 0 ^ m * S.getD (i + k) 0)) := by
  have hxl : (pySlice f i (j + 1)).length = j + 1 - i := pySlice_len1 hj
  have hSl : (pySlice S i (j + 1)).length = (pySlice f i (j + 1)).length := by rw [pySlice_len1 (by omega), hxl]
  unfold momentSum
  rw [if_neg hz, simpson_exact_weights (pySlice_uniform hu hj) (by intro h; rw [h] at hxl; simp at hxl; omega)
    (by rw [List.length_zipWith]; omega), hxl]
  congr 2
  apply sum_congr rfl
  intro k hk
  rw [mem_range] at hk
  rw [getD_zipWith _ hSl (by omega), pySlice_getD (by omega), pySlice_getD (by omega)]

theorem range_positive {f : List K} (hp : f.Pairwise (· < ·)) (h0 : 0 ≤ f.getD 0 0) {m : Int} {i j : Nat}
    (hi : firstUsable f m ≤ i) (hj : j < f.length) : ¬ (m < 0 ∧ 0 ∈ pySlice f i (j + 1)) := by
  rintro ⟨hm, hz⟩
  obtain ⟨k, hk, e⟩ := List.getElem_of_mem hz
  rw [pySlice_len1 hj] at hk
  have e' : f.getD (i + k) 0 = 0 := by
    rw [← pySlice_getD (l := f) (i := i) (j := j) (by omega), List.getD_eq_getElem _ _ (by rw [pySlice_len1 hj]; omega), e]
  rcases Nat.eq_zero_or_pos (i + k) with hik | hik
  · rw [hik] at e'
    have : firstUsable f m = 1 := by unfold firstUsable; rw [if_pos ⟨hm, e'⟩]
    omega
  · have := inc_lt hp hik (by omega)
    linarith

/-- **C102 (moment over a range on the axis).**  The moment of order `m` between the grid points `i..j` nearest to the
bounds is `h Σ_k w(n,k) f_{i+k}^m S_{i+k}` over the `n = j − i + 1` selected samples, with the explicit Simpson weights. -/
theorem moment_exact {pf pS : PyIn K} {f S : List K} {h : K} {m : Int} {fmin F : K} {i j : Nat} (hf : pf.IsArr f)
    (hS : pS.IsArr S) (hu : UniformAxis f h) (h2 : 2 ≤ f.length) (hl : f.length = S.length) (h0 : 0 ≤ f.getD 0 0)
    (h1 : 0 ≤ fmin) (hF : fmin ≤ F) (hlast : F ≤ f.getD (f.length - 1) 0) (hsel : SelectedRange f m fmin (.fin F) i j) :
    computeMoment pf pS m fmin (.fin F) =
      .ok (h * ∑ k ∈ range (j + 1 - i), simpsonWeight K (j + 1 - i) k * (f.getD (i + k) 0 ^ m * S.getD (i + k) 0)) := by
  have hm : monotonicIncreasingConstantStep f = .ok true := uniform_check_accepts_uniform h2 hu
  have hp := uniform_check_increasing hm
  have n1 : fmin ≠ -1 := by linarith
  have n2 : (FMax.fin F) ≠ .fin (-1) := by intro e; cases e; linarith
  have hdef : ¬ (fmin = -1 ∨ FMax.fin F = .fin (-1)) := by rintro (e | e) <;> contradiction
  obtain ⟨t, hr⟩ := momentRange_of_selected hm n1 n2 hsel
  have ht := (hr.upper F hdef rfl hlast).2
  subst ht
  obtain ⟨i', j', t', hr', hi', hj', hst⟩ := computeMoment_structure hm m fmin (.fin F)
  obtain ⟨rfl, rfl, rfl⟩ := momentRange_unique hr hr'
  rw [hst hf hS hl, momentOn_false]
  exact momentSum_exact hu (isNearest_mono hp hF hsel.1 hsel.2) hj' hl (range_positive hp h0 hi' hj')

/-- **C102 (moment over the whole axis).**  By default all samples count, except — for negative orders — a first sample at
frequency zero. -/
theorem moment_exact_default {pf pS : PyIn K} {f S : List K} {h : K} {m : Int} {fmax : FMax K} (hf : pf.IsArr f)
    (hS : pS.IsArr S) (hu : UniformAxis f h) (h2 : 2 ≤ f.length) (hl : f.length = S.length) (h0 : 0 ≤ f.getD 0 0) :
    let d := if m < 0 ∧ f.getD 0 0 = 0 then 1 else 0
    computeMoment pf pS m (-1) fmax =
      .ok (h * ∑ k ∈ range (f.length - d), simpsonWeight K (f.length - d) k * (f.getD (d + k) 0 ^ m * S.getD (d + k) 0)) := by
  intro d
  have hm : monotonicIncreasingConstantStep f = .ok true := uniform_check_accepts_uniform h2 hu
  have hp := uniform_check_increasing hm
  obtain ⟨i', j', t', hr', hi', hj', hst⟩ := computeMoment_structure hm m (-1) fmax
  obtain ⟨rfl, rfl, rfl⟩ := hr'.whole (Or.inl rfl)
  have hd1 := firstUsable_le f m
  rw [hst hf hS hl, momentOn_false, momentSum_exact hu (by omega) hj' hl (range_positive hp h0 hi' hj')]
  rw [show f.length - 1 + 1 - firstUsable f m = f.length - d by
    have : firstUsable f m = d := rfl
    omega]
  rfl

/-- **C102 (Hm0 is not the band energy).**  The zeroth moment over the whole axis lies between a third and four thirds of
the Riemann sum `h Σ S`. -/
theorem moment_zero_between {pf pS : PyIn K} {f S : List K} {h v : K} {fmax : FMax K} (hf : pf.IsArr f) (hS : pS.IsArr S)
    (hu : UniformAxis f h) (h2 : 2 ≤ f.length) (hl : f.length = S.length) (h0 : 0 ≤ f.getD 0 0) (hpos : ∀ s ∈ S, 0 ≤ s)
    (hv : computeMoment pf pS 0 (-1) fmax = .ok v) : h * S.sum / 3 ≤ v ∧ v ≤ 4 * (h * S.sum) / 3 := by
  have e := moment_exact_default (m := 0) (fmax := fmax) hf hS hu h2 hl h0
  simp only [lt_self_iff_false, false_and, if_false, Nat.sub_zero, zero_add, zpow_zero, one_mul] at e
  rw [hv] at e
  have e := Except.ok.inj e
  rw [list_sum_getD, ← hl, mul_sum]
  rw [mul_sum] at e
  have hb : ∀ k, 1 / 3 * (h * S.getD k 0) ≤ h * (simpsonWeight K f.length k * S.getD k 0) ∧
      h * (simpsonWeight K f.length k * S.getD k 0) ≤ 4 / 3 * (h * S.getD k 0) := by
    intro k
    have hs := mul_nonneg hu.1.le (getD_nonneg hpos k)
    obtain ⟨a, b⟩ := simpsonWeight_bounds (K := K) h2 k
    have := mul_le_mul_of_nonneg_right a hs
    have := mul_le_mul_of_nonneg_right b hs
    constructor <;> linarith
  rw [e]
  constructor
  · rw [sum_div]
    exact sum_le_sum fun k _ => by linarith [(hb k).1]
  · rw [mul_sum, sum_div]
    exact sum_le_sum fun k _ => by linarith [(hb k).2]

/-! ## Instances -/

/-- Six samples, all of weight: the moment of order 1 of a concrete spectrum. -/
example : computeMoment (vec ([0, 1, 2, 3, 4, 5] : List ℚ)) (vec [0, 0, 12, 0, 24, 0]) 1 (-1) (.fin (-1)) =
    .ok (1 * (2 / 3 * (2 * 12) + 1 * (4 * 24))) := by decide +kernel

example : simpsonWeight ℚ 6 0 = 1 / 3 ∧ simpsonWeight ℚ 6 1 = 4 / 3 ∧ simpsonWeight ℚ 6 2 = 2 / 3 ∧ simpsonWeight ℚ 6 3 = 5 / 4 ∧
    simpsonWeight ℚ 6 4 = 1 ∧ simpsonWeight ℚ 6 5 = 5 / 12 := by decide +kernel

example : SelectedRange ([0, 1, 2, 3, 4, 5] : List ℚ) 0 (9 / 10) (.fin (16 / 5)) 1 3 := by
  refine ⟨⟨by decide +kernel, by decide +kernel, ?_, ?_⟩, ⟨by decide +kernel, by decide +kernel, ?_, ?_⟩⟩ <;>
    · intro k _ hk
      have hk : k < 6 := by first | exact hk | exact lt_trans hk (by decide)
      interval_cases k <;> first | omega | decide +kernel

/-! ## Concrete cases: the hypotheses of the theorems above are met -/

theorem selected_six : SelectedRange ([0, 1, 2, 3, 4, 5] : List ℚ) 0 (9 / 10) (.fin (16 / 5)) 1 3 := by
  refine ⟨⟨by decide +kernel, by decide +kernel, ?_, ?_⟩, ⟨by decide +kernel, by decide +kernel, ?_, ?_⟩⟩ <;>
    · intro k _ hk
      have hk : k < 6 := by first | exact hk | exact lt_trans hk (by decide)
      interval_cases k <;> first | omega | decide +kernel

example := simpson_exact_weights (x := ([0, 1, 2, 3] : List ℚ)) (y := [1, 5, 2, 2]) (h := 1) (uniformAxis_of_steps (by norm_num) (by decide +kernel)) (by simp) rfl
example := simpsonWeight_bounds (K := ℚ) (n := 6) (by norm_num) 3
example := simpsonWeight_sum (K := ℚ) (n := 6) (by norm_num)
example := moment_exact (isArr_vec ([0, 1, 2, 3, 4, 5] : List ℚ)) (isArr_vec [0, 1, 3, 2, 1, 0]) (h := 1) (uniformAxis_of_steps (by norm_num) (by decide +kernel))
  (by simp) rfl (by norm_num) (by norm_num) (by norm_num) (by norm_num) selected_six
example := moment_exact_default (isArr_vec ([0, 1, 2, 3, 4, 5] : List ℚ)) (isArr_vec [0, 1, 3, 2, 1, 0]) (h := 1) (m := -1) (fmax := .inf)
  (uniformAxis_of_steps (by norm_num) (by decide +kernel)) (by simp) rfl (by norm_num)
example := moment_zero_between (isArr_vec ([0, 1, 2] : List ℚ)) (isArr_vec [0, 3, 0]) (h := 1) (fmax := .fin (-1)) (v := 4)
  (uniformAxis_of_steps (by norm_num) (by decide +kernel)) (by simp) rfl (by norm_num) (by decide +kernel) (by decide +kernel)

end Verif
