import Verif.Props.Averaging
import Verif.Props.Engine

/-! # C112: averaging a spectrum over frequency: two steps, superposition, centres -/

set_option linter.unusedSectionVars false

namespace Verif
open Finset

variable {K : Type} [Field K] [LinearOrder K] [IsStrictOrderedRing K] [FloorRing K]

theorem isFactor_mul {n : Nat} (hn : 1 ≤ n) {d : K} (hd : 0 < d) : IsFactor n (n * d) d := by
  have hn0 : (1 : K) ≤ n := by exact_mod_cast hn
  have e : (n : K) * d / d = n := mul_div_cancel_right₀ _ hd.ne'
  refine ⟨hn, fun h => ?_, fun _ => ?_, fun h => ?_⟩
  · exact absurd h (by positivity)
  · rw [e]
    unfold IsRounded
    simp
  · rw [e] at h
    have : (1 : K) / 2 < 1 := by norm_num
    linarith

theorem blockMeans_det {n N : ℕ} {fine a b : List K} (ha : BlockMeans n fine a N) (hb : BlockMeans n fine b N) : a = b := by
  apply List.ext_getElem
  · rw [ha.1, hb.1]
  · intro i h1 h2
    have e1 := ha.2 i (by rw [← ha.1]; exact h1)
    have e2 := hb.2 i (by rw [← ha.1]; exact h1)
    rw [List.getD_eq_getElem _ _ h1] at e1
    rw [List.getD_eq_getElem _ _ h2] at e2
    rw [e1, e2]

/-- Means of means. -/
theorem blockMeans_comp {n m N : ℕ} (hn : 1 ≤ n) {fine mid coarse : List K} (h1 : BlockMeans n fine mid N)
    (h2 : BlockMeans m mid coarse (N / n)) : BlockMeans (m * n) fine coarse N := by
  have hn' : (n : K) ≠ 0 := by exact_mod_cast (by omega : n ≠ 0)
  refine ⟨by rw [h2.1, Nat.div_div_eq_div_mul, Nat.mul_comm], fun i hi => ?_⟩
  have hi' : i < N / n / m := by rw [Nat.div_div_eq_div_mul, Nat.mul_comm]; exact hi
  have hb := slice_bound hi'
  rw [h2.2 i hi']
  have : ∀ j ∈ range m, mid.getD (i * m + j) 0 = (∑ k ∈ range n, fine.getD (i * (m * n) + (j * n + k)) 0) / (n : K) := by
    intro j hj
    have hj := mem_range.1 hj
    rw [h1.2 (i * m + j) (by rw [Nat.add_mul, Nat.one_mul] at hb; omega)]
    congr 1
    refine sum_congr rfl fun k _ => ?_
    congr 1
    ring
  rw [sum_congr rfl this, ← sum_div, sum_blocks (fun k => fine.getD (i * (m * n) + k) 0), div_div]
  push_cast
  rw [mul_comm (n : K)]

theorem uniform_step {f : List K} {d : K} (hu : UniformAxis f d) (h2 : 2 ≤ f.length) : f.getD 1 0 - f.getD 0 0 = d := by
  have := hu.2 0 (by omega)
  rw [this]; ring

theorem averaging_uniform {f S : PyIn K} {fs Ss : List K} {d : K} (hf : f.IsArr fs) (hS : S.IsArr Ss) (hl : fs.length = Ss.length)
    (h2 : 2 ≤ fs.length) (hu : UniformAxis fs d) {n : Nat} (hn : 1 ≤ n) :
    ∃ fc sc, frequencyAveraging f S (n * d) = .ok (fc, sc) ∧ BlockMeans n fs fc fs.length ∧ BlockMeans n Ss sc fs.length := by
  have hstep := uniform_step hu h2
  obtain ⟨k, fc, sc, hk, e, b1, b2⟩ := averaging_block_means (df := (n : K) * d) hf hS hl h2 (by have := hu.1; linarith)
  rw [hstep] at hk
  have := isFactor_unique hk (isFactor_mul hn hu.1)
  subst this
  exact ⟨fc, sc, e, b1, b2⟩

/-- **C112 (two steps).**  Averaging over `n` bins and the result over `m` bins is the same as averaging over `m n` bins at once (if the
intermediate spectrum still has two bins). -/
theorem averaging_two_steps {f S : PyIn K} {fs Ss : List K} {d : K} (hf : f.IsArr fs) (hS : S.IsArr Ss) (hl : fs.length = Ss.length)
    (hu : UniformAxis fs d) {n m : Nat} (hn : 1 ≤ n) (hm : 1 ≤ m) (h2 : 2 ≤ fs.length / n) :
    ∃ f1 S1, frequencyAveraging f S (n * d) = .ok (f1, S1) ∧
      frequencyAveraging (vec f1) (vec S1) (m * (n * d)) = frequencyAveraging f S ((m * n : ℕ) * d) := by
  have h2' : 2 ≤ fs.length := le_trans h2 (Nat.div_le_self _ _)
  obtain ⟨f1, S1, e, b1, b2⟩ := averaging_uniform hf hS hl h2' hu hn
  have hu1 := averaging_axis_uniform hn hu b1
  obtain ⟨f2, S2, e2, c1, c2⟩ := averaging_uniform (isArr_vec f1) (isArr_vec S1) (by rw [b1.1, b2.1]) (by rw [b1.1]; exact h2) hu1 hm
  obtain ⟨f3, S3, e3, d1, d2⟩ := averaging_uniform hf hS hl h2' hu (n := m * n) (Nat.mul_pos hm hn)
  refine ⟨f1, S1, e, ?_⟩
  rw [e2, e3]
  rw [b1.1] at c1 c2
  rw [blockMeans_det (blockMeans_comp hn b1 c1) d1, blockMeans_det (blockMeans_comp hn b2 c2) d2]

/-- **C112 (superposition).**  The average of `a S + b S'` is `a` times that of `S` plus `b` times that of `S'`, on the same coarse axis, for
every desired resolution. -/
theorem averaging_linear {f S S' : PyIn K} {fs Ss Ss' : List K} {df : K} (hf : f.IsArr fs) (hS : S.IsArr Ss) (hS' : S'.IsArr Ss')
    (hl : fs.length = Ss.length) (hl' : fs.length = Ss'.length) (h2 : 2 ≤ fs.length) (hd : fs.getD 0 0 < fs.getD 1 0) (a b : K) :
    ∃ fc sc sc', frequencyAveraging f S df = .ok (fc, sc) ∧ frequencyAveraging f S' df = .ok (fc, sc') ∧
      frequencyAveraging f (vec (List.zipWith (fun u v => a * u + b * v) Ss Ss')) df =
        .ok (fc, List.zipWith (fun u v => a * u + b * v) sc sc') := by
  obtain ⟨n, fc, sc, hn, e, b1, b2⟩ := averaging_block_means (df := df) hf hS hl h2 hd
  obtain ⟨n', fc', sc', hn', e', b1', b2'⟩ := averaging_block_means (df := df) hf hS' hl' h2 hd
  obtain ⟨n'', fc'', sc'', hn'', e'', b1'', b2''⟩ := averaging_block_means (df := df) hf
    (isArr_vec (List.zipWith (fun u v => a * u + b * v) Ss Ss')) (by simp; omega) h2 hd
  have := isFactor_unique hn' hn; subst this
  have := isFactor_unique hn'' hn'; subst this
  have := blockMeans_det b1' b1; subst this
  have := blockMeans_det b1'' b1'; subst this
  refine ⟨fc'', sc, sc', e, e', ?_⟩
  rw [e'']
  congr 2
  refine blockMeans_det b2'' ⟨by rw [List.length_zipWith, b2.1, b2'.1, min_self], fun i hi => ?_⟩
  have hb := slice_bound hi
  have g : ∀ {x y : List K} (hxy : x.length = y.length) {j : Nat}, j < x.length →
      (List.zipWith (fun u v => a * u + b * v) x y).getD j 0 = a * x.getD j 0 + b * y.getD j 0 := by
    intro x y hxy j hj
    rw [List.getD_eq_getElem _ _ (by simp; omega), List.getElem_zipWith, List.getD_eq_getElem _ _ hj, List.getD_eq_getElem _ _ (by omega)]
  rw [g (by rw [b2.1, b2'.1]) (by rw [b2.1]; exact hi), b2.2 i hi, b2'.2 i hi, mul_div_assoc', mul_div_assoc', ← add_div, mul_sum, mul_sum,
    ← sum_add_distrib]
  congr 1
  refine sum_congr rfl fun j hj => ?_
  have := mem_range.1 hj
  rw [g (by omega) (by rw [Nat.add_mul, Nat.one_mul] at hb; omega)]

theorem blockMeans_centres {n : Nat} (hn : 1 ≤ n) {fine coarse : List K} {d : K} (hu : UniformAxis fine d)
    (h : BlockMeans n fine coarse fine.length) {i : Nat} (hi : i < fine.length / n) :
    coarse.getD i 0 = (fine.getD (i * n) 0 + fine.getD (i * n + (n - 1)) 0) / 2 := by
  have hb := slice_bound hi
  have hn' : (n : K) ≠ 0 := by exact_mod_cast (by omega : n ≠ 0)
  have hshift : ∀ m k, k + m < fine.length → fine.getD (k + m) 0 = fine.getD k 0 + m * d := by
    intro m k
    induction m with
    | zero => intro _; simp
    | succ m ih =>
      intro hk
      rw [← Nat.add_assoc, hu.2 (k + m) (by omega), ih (by omega)]
      push_cast; ring
  rw [Nat.add_mul, Nat.one_mul] at hb
  rw [h.2 i hi, sum_congr rfl fun j hj => hshift j (i * n) (by have := mem_range.1 hj; omega), hshift (n - 1) (i * n) (by omega),
    sum_add_distrib, ← sum_mul, sum_const, card_range, nsmul_eq_mul]
  have gs : ∀ k : Nat, (∑ j ∈ range k, (j : K)) * 2 = k * (k - 1) := by
    intro k
    induction k with
    | zero => simp
    | succ k ih => rw [sum_range_succ, add_mul, ih]; push_cast; ring
  have := gs n
  rw [Nat.cast_sub hn, div_eq_div_iff hn' two_ne_zero]
  push_cast
  linear_combination d * this

/-- **C112 (centres).**  On an evenly spaced axis of step `d`, averaging over `n` bins gives one frequency per full block of `n`, and each is the
midpoint of the first and last frequency of its block. -/
theorem averaging_centres {f S : PyIn K} {fs Ss : List K} {d : K} (hf : f.IsArr fs) (hS : S.IsArr Ss) (hl : fs.length = Ss.length)
    (h2 : 2 ≤ fs.length) (hu : UniformAxis fs d) {n : Nat} (hn : 1 ≤ n) :
    ∃ fc sc, frequencyAveraging f S (n * d) = .ok (fc, sc) ∧ fc.length = fs.length / n ∧
      ∀ i < fs.length / n, fc.getD i 0 = (fs.getD (i * n) 0 + fs.getD (i * n + (n - 1)) 0) / 2 := by
  obtain ⟨fc, sc, e, b1, b2⟩ := averaging_uniform hf hS hl h2 hu hn
  exact ⟨fc, sc, e, b1.1, fun i hi => blockMeans_centres hn hu b1 hi⟩

/-- Twelve bins averaged in pairs, then in threes. -/
example : ∃ f1 S1, frequencyAveraging (K := ℚ) (vec [0, 1, 2, 3, 4, 5, 6, 7, 8, 9, 10, 11]) (vec [5, 3, 5, 7, 1, 0, 2, 2, 4, 4, 9, 9])
      ((2 : ℕ) * 1) = .ok (f1, S1) ∧
    frequencyAveraging (vec f1) (vec S1) ((3 : ℕ) * ((2 : ℕ) * 1)) =
      frequencyAveraging (K := ℚ) (vec [0, 1, 2, 3, 4, 5, 6, 7, 8, 9, 10, 11]) (vec [5, 3, 5, 7, 1, 0, 2, 2, 4, 4, 9, 9]) ((3 * 2 : ℕ) * 1) ∧
    frequencyAveraging (K := ℚ) (vec [0, 1, 2, 3, 4, 5, 6, 7, 8, 9, 10, 11]) (vec [5, 3, 5, 7, 1, 0, 2, 2, 4, 4, 9, 9]) 6 =
      .ok ([5 / 2, 17 / 2], [7 / 2, 5]) := by
  obtain ⟨f1, S1, a, b⟩ := averaging_two_steps (K := ℚ) (d := 1) (isArr_vec [0, 1, 2, 3, 4, 5, 6, 7, 8, 9, 10, 11])
    (isArr_vec [5, 3, 5, 7, 1, 0, 2, 2, 4, 4, 9, 9]) rfl
    ⟨by norm_num, fun i hi => by
      have key : ∀ i < 11, ([0, 1, 2, 3, 4, 5, 6, 7, 8, 9, 10, 11] : List ℚ).getD (i + 1) 0 =
        ([0, 1, 2, 3, 4, 5, 6, 7, 8, 9, 10, 11] : List ℚ).getD i 0 + 1 := by decide +kernel
      exact key i (by simp only [List.length_cons, List.length_nil] at hi; omega)⟩ (n := 2) (m := 3) (by norm_num) (by norm_num) (by decide)
  exact ⟨f1, S1, a, b, by decide +kernel⟩

/-! ## Concrete cases: the hypotheses of the theorems above are met -/

/-- A combination of two spectra, on blocks of two bins. -/
example := averaging_linear (K := ℚ) (df := 2) (isArr_vec [0, 1, 2, 3]) (isArr_vec [1, 3, 5, 7]) (isArr_vec [2, 0, 1, 0]) rfl rfl (by decide)
  (by decide +kernel) 3 (-1)

example : ∃ fc sc, frequencyAveraging (K := ℚ) (vec [0, 1, 2, 3]) (vec [1, 3, 5, 7]) ((2 : ℕ) * 1) = .ok (fc, sc) ∧ fc.getD 1 0 = 5 / 2 := by
  obtain ⟨fc, sc, a, -, b⟩ := averaging_centres (K := ℚ) (d := 1) (isArr_vec [0, 1, 2, 3]) (isArr_vec [1, 3, 5, 7]) rfl (by decide)
    (uniformAxis_of_steps (by norm_num) (by decide +kernel)) (n := 2) (by norm_num)
  exact ⟨fc, sc, a, by rw [b 1 (by decide)]; norm_num⟩

end Verif
