import Verif.Props.WelchWindows

/-! # C163: the windows of the Welch spectrum are the textbook windows

The `window` argument of `get_spectrum` is passed to scipy.  For the names in the model, the window of `n ≥ 2` samples is the textbook window in its periodic form:
the value at sample `j` is the shape at the fraction `j / n` of the segment. -/

namespace Verif

/-- The window names that the model covers, with their abbreviations and the textbook shapes as functions of the fraction of the segment. -/
noncomputable def textbookWindows : List (List String × (ℝ → ℝ)) :=
  [(["boxcar", "box", "ones", "rect", "rectangular"], fun _ => 1),
   (["hann", "han"], fun x => Real.sin (Real.pi * x) ^ 2),
   (["hamming", "hamm", "ham"], fun x => 0.54 - 0.46 * Real.cos (2 * Real.pi * x)),
   (["blackman", "black", "blk"], fun x => 0.42 - 0.5 * Real.cos (2 * Real.pi * x) + 0.08 * Real.cos (4 * Real.pi * x)),
   (["nuttall", "nutl", "nut"], fun x => 0.3635819 - 0.4891775 * Real.cos (2 * Real.pi * x) + 0.1365995 * Real.cos (4 * Real.pi * x)
      - 0.0106411 * Real.cos (6 * Real.pi * x)),
   (["blackmanharris", "blackharr", "bkh"], fun x => 0.35875 - 0.48829 * Real.cos (2 * Real.pi * x) + 0.14128 * Real.cos (4 * Real.pi * x)
      - 0.01168 * Real.cos (6 * Real.pi * x)),
   (["flattop", "flat", "flt"], fun x => 0.21557895 - 0.41663158 * Real.cos (2 * Real.pi * x) + 0.277263158 * Real.cos (4 * Real.pi * x)
      - 0.083578947 * Real.cos (6 * Real.pi * x) + 0.006947368 * Real.cos (8 * Real.pi * x)),
   (["bartlett", "bart", "brt"], fun x => 1 - |2 * x - 1|)]

theorem getWindow_cosine {ty : String} {a : List ℝ} (h1 : ty ≠ "hann") (h2 : ty ≠ "boxcar") (h3 : ty ≠ "han") (h4 : ty ∉ ["box", "ones", "rect", "rectangular"])
    (h : cosineCoefs ty = some a) (n : Nat) : getWindow ty n = .ok (generalCosine a n) := by
  unfold getWindow otherWindow
  rw [if_neg h1, if_neg h2, if_neg h3, if_neg h4, h]

theorem cosine_values {a : List ℝ} {f : ℝ → ℝ} {n : Nat} (hn : 2 ≤ n)
    (hf : ∀ x, ∑ m ∈ Finset.range a.length, (-1) ^ m * a.getD m 0 * Real.cos (m * (2 * Real.pi * x)) = f x) :
    (generalCosine a n).length = n ∧ ∀ j < n, (generalCosine a n).getD j 0 = f (j / n) := by
  constructor
  · unfold generalCosine
    rw [if_neg (by omega)]; simp
  · intro j hj
    rw [generalCosine_getD hn hj, ← hf]
    refine Finset.sum_congr rfl fun m _ => ?_
    rw [mul_div_assoc]

theorem cosine_shape {names : List String} {a : List ℝ} {f : ℝ → ℝ} (hnames : ∀ ty ∈ names, ty ≠ "hann" ∧ ty ≠ "boxcar" ∧ ty ≠ "han" ∧
      ty ∉ ["box", "ones", "rect", "rectangular"] ∧ cosineCoefs ty = some a)
    (hf : ∀ x, ∑ m ∈ Finset.range a.length, (-1) ^ m * a.getD m 0 * Real.cos (m * (2 * Real.pi * x)) = f x) {ty : String} (hty : ty ∈ names) {n : Nat} (hn : 2 ≤ n) :
    ∃ w, getWindow ty n = .ok w ∧ w.length = n ∧ ∀ j < n, w.getD j 0 = f (j / n) := by
  obtain ⟨h1, h2, h3, h4, h5⟩ := hnames ty hty
  exact ⟨_, getWindow_cosine h1 h2 h3 h4 h5 n, cosine_values hn hf⟩

/-- **C163.**  Each of these names (and abbreviations) gives the textbook window. -/
theorem window_shape {names : List String} {f : ℝ → ℝ} (h : (names, f) ∈ textbookWindows) {ty : String} (hty : ty ∈ names) {n : Nat} (hn : 2 ≤ n) :
    ∃ w, getWindow ty n = .ok w ∧ w.length = n ∧ ∀ j < n, w.getD j 0 = f (j / n) := by
  have hn0 : (0 : ℝ) < n := by exact_mod_cast (by omega : 0 < n)
  unfold textbookWindows at h
  simp only [List.mem_cons, List.not_mem_nil, or_false, Prod.mk.injEq] at h
  rcases h with ⟨rfl, rfl⟩ | ⟨rfl, rfl⟩ | ⟨rfl, rfl⟩ | ⟨rfl, rfl⟩ | ⟨rfl, rfl⟩ | ⟨rfl, rfl⟩ | ⟨rfl, rfl⟩ | ⟨rfl, rfl⟩
  · refine ⟨List.replicate n 1, ?_, by simp, fun j hj => ?_⟩
    · simp only [List.mem_cons, List.not_mem_nil, or_false] at hty
      rcases hty with rfl | rfl | rfl | rfl | rfl <;> simp [getWindow, otherWindow]
    · rw [List.getD_eq_getElem _ _ (by simpa using hj), List.getElem_replicate]
  · refine ⟨hann n, ?_, ?_⟩
    · simp only [List.mem_cons, List.not_mem_nil, or_false] at hty
      rcases hty with rfl | rfl <;> simp [getWindow, otherWindow]
    · rw [hann_general]
      refine cosine_values (f := fun x => Real.sin (Real.pi * x) ^ 2) hn fun x => ?_
      simp only [List.length_cons, List.length_nil, zero_add, Nat.reduceAdd, Finset.sum_range_succ, Finset.sum_range_zero]
      norm_num [List.getD]
      rw [Real.sin_sq, Real.cos_sq]
      ring_nf
  · refine cosine_shape (a := [54 / 100, 46 / 100]) (f := fun x => 0.54 - 0.46 * Real.cos (2 * Real.pi * x)) ?_ ?_ hty hn
    · intro ty h; simp only [List.mem_cons, List.not_mem_nil, or_false] at h; rcases h with rfl | rfl | rfl <;> simp [cosineCoefs]
    · intro x
      simp only [List.length_cons, List.length_nil, zero_add, Nat.reduceAdd, Finset.sum_range_succ, Finset.sum_range_zero]
      norm_num [List.getD]; ring_nf
  · refine cosine_shape (a := [42 / 100, 50 / 100, 8 / 100])
      (f := fun x => 0.42 - 0.5 * Real.cos (2 * Real.pi * x) + 0.08 * Real.cos (4 * Real.pi * x)) ?_ ?_ hty hn
    · intro ty h; simp only [List.mem_cons, List.not_mem_nil, or_false] at h; rcases h with rfl | rfl | rfl <;> simp [cosineCoefs]
    · intro x
      simp only [List.length_cons, List.length_nil, zero_add, Nat.reduceAdd, Finset.sum_range_succ, Finset.sum_range_zero]
      norm_num [List.getD]; ring_nf
  · refine cosine_shape (a := [3635819 / 10000000, 4891775 / 10000000, 1365995 / 10000000, 106411 / 10000000])
      (f := fun x => 0.3635819 - 0.4891775 * Real.cos (2 * Real.pi * x) + 0.1365995 * Real.cos (4 * Real.pi * x)
        - 0.0106411 * Real.cos (6 * Real.pi * x)) ?_ ?_ hty hn
    · intro ty h; simp only [List.mem_cons, List.not_mem_nil, or_false] at h; rcases h with rfl | rfl | rfl <;> simp [cosineCoefs]
    · intro x
      simp only [List.length_cons, List.length_nil, zero_add, Nat.reduceAdd, Finset.sum_range_succ, Finset.sum_range_zero]
      norm_num [List.getD]; ring_nf
  · refine cosine_shape (a := [35875 / 100000, 48829 / 100000, 14128 / 100000, 1168 / 100000])
      (f := fun x => 0.35875 - 0.48829 * Real.cos (2 * Real.pi * x) + 0.14128 * Real.cos (4 * Real.pi * x) - 0.01168 * Real.cos (6 * Real.pi * x)) ?_ ?_ hty hn
    · intro ty h; simp only [List.mem_cons, List.not_mem_nil, or_false] at h; rcases h with rfl | rfl | rfl <;> simp [cosineCoefs]
    · intro x
      simp only [List.length_cons, List.length_nil, zero_add, Nat.reduceAdd, Finset.sum_range_succ, Finset.sum_range_zero]
      norm_num [List.getD]; ring_nf
  · refine cosine_shape (a := [21557895 / 100000000, 41663158 / 100000000, 277263158 / 1000000000, 83578947 / 1000000000, 6947368 / 1000000000])
      (f := fun x => 0.21557895 - 0.41663158 * Real.cos (2 * Real.pi * x) + 0.277263158 * Real.cos (4 * Real.pi * x)
        - 0.083578947 * Real.cos (6 * Real.pi * x) + 0.006947368 * Real.cos (8 * Real.pi * x)) ?_ ?_ hty hn
    · intro ty h; simp only [List.mem_cons, List.not_mem_nil, or_false] at h; rcases h with rfl | rfl | rfl <;> simp [cosineCoefs]
    · intro x
      simp only [List.length_cons, List.length_nil, zero_add, Nat.reduceAdd, Finset.sum_range_succ, Finset.sum_range_zero]
      norm_num [List.getD]; ring_nf
  · refine ⟨bartlettWindow n, ?_, ?_, fun j hj => ?_⟩
    · simp only [List.mem_cons, List.not_mem_nil, or_false] at hty
      rcases hty with rfl | rfl | rfl <;> simp [getWindow, otherWindow, cosineCoefs]
    · unfold bartlettWindow; rw [if_neg (by omega)]; simp
    · unfold bartlettWindow
      rw [if_neg (by omega), getD_map_range (fun (j : Nat) => if (j : ℝ) ≤ n / 2 then 2 * (j : ℝ) / n else 2 - 2 * (j : ℝ) / n) _ _ _ hj]
      dsimp only
      have e : 2 * ((j : ℝ) / n) = 2 * j / n := by ring
      by_cases h : (j : ℝ) ≤ n / 2
      · have : 2 * (j : ℝ) / n ≤ 1 := by rw [div_le_one hn0]; linarith
        rw [if_pos h, e, abs_of_nonpos (by linarith)]; ring
      · have : 1 ≤ 2 * (j : ℝ) / n := by rw [one_le_div hn0]; linarith
        rw [if_neg h, e, abs_of_nonneg (by linarith)]; ring

/-- **C163 (cosine window).**  The half cosine takes its values in the middle of `n + 1` equal parts. -/
theorem cosine_window_shape {ty : String} (hty : ty ∈ ["cosine", "halfcosine"]) {n : Nat} (hn : 2 ≤ n) :
    ∃ w, getWindow ty n = .ok w ∧ w.length = n ∧ ∀ j < n, w.getD j 0 = Real.sin (Real.pi * ((j + 1 / 2) / (n + 1))) := by
  refine ⟨cosineWindow n, ?_, ?_, fun j hj => ?_⟩
  · simp only [List.mem_cons, List.not_mem_nil, or_false] at hty
    rcases hty with rfl | rfl <;> simp [getWindow, otherWindow, cosineCoefs]
  · unfold cosineWindow; rw [if_neg (by omega)]; simp
  · unfold cosineWindow
    rw [if_neg (by omega), getD_map_range (fun (j : Nat) => Real.sin (Real.pi / (n + 1) * (j + 1 / 2))) _ _ _ hj]
    congr 1
    ring

theorem windowNames_covered {ty : String} (h : ty ∈ windowNames) : ty ∈ ["cosine", "halfcosine"] ∨ ∃ p ∈ textbookWindows, ty ∈ p.1 := by
  unfold windowNames at h
  simp only [List.mem_cons, List.not_mem_nil, or_false] at h
  unfold textbookWindows
  rcases h with h | h | h | h | h | h | h | h | h | h | h | h | h | h | h | h | h | h | h | h | h | h | h | h | h | h | h <;> subst h <;> simp

/-- **C163 (symmetry).**  Every window treats the segment symmetrically: sample `n - j` has the weight of sample `j`. -/
theorem window_symmetric {ty : String} (hty : ty ∈ windowNames) {n : Nat} (hn : 2 ≤ n) :
    ∃ w, getWindow ty n = .ok w ∧ w.length = n ∧ (∀ j : Nat, 0 < j → j < n → w.getD (n - j) 0 = w.getD j 0) ∧
      (∀ j < n, |w.getD j 0| ≤ 1 + 3 / 10 ^ 9) ∧ (n % 2 = 0 → 1 ≤ w.getD (n / 2) 0) := by
  have hn0 : (0 : ℝ) < n := by exact_mod_cast (by omega : 0 < n)
  rcases windowNames_covered hty with h | ⟨⟨names, f⟩, hp, hmem⟩
  · obtain ⟨w, h1, h2, h3⟩ := cosine_window_shape h hn
    refine ⟨w, h1, h2, fun j h0 hj => ?_, fun j hj => ?_, fun he => ?_⟩
    · rw [h3 _ (by omega), h3 _ hj, Nat.cast_sub hj.le, ← Real.sin_pi_sub]
      congr 1
      field_simp
      ring
    · rw [h3 _ hj]
      exact (Real.abs_sin_le_one _).trans (by norm_num)
    · rw [h3 _ (by omega)]
      have : ((n / 2 : ℕ) : ℝ) = n / 2 := by
        rw [Nat.cast_div (by omega) (by norm_num)]; norm_num
      rw [this, show Real.pi * (((n : ℝ) / 2 + 1 / 2) / (n + 1)) = Real.pi / 2 by field_simp, Real.sin_pi_div_two]
  · obtain ⟨w, h1, h2, h3⟩ := window_shape hp hmem hn
    have key : (∀ x, f (1 - x) = f x) ∧ (∀ x, 0 ≤ x → x ≤ 1 → |f x| ≤ 1 + 3 / 10 ^ 9) ∧ 1 ≤ f (1 / 2) := by
      have hper : ∀ (m : Nat) (x : ℝ), Real.cos (2 * m * Real.pi * (1 - x)) = Real.cos (2 * m * Real.pi * x) := fun m x => by
        rw [show 2 * (m : ℝ) * Real.pi * (1 - x) = m * (2 * Real.pi) - 2 * m * Real.pi * x by ring, Real.cos_nat_mul_two_pi_sub]
      have c1 : ∀ x, Real.cos (2 * Real.pi * (1 - x)) = Real.cos (2 * Real.pi * x) := fun x => by have := hper 1 x; norm_num at this; exact this
      have c2 : ∀ x, Real.cos (4 * Real.pi * (1 - x)) = Real.cos (4 * Real.pi * x) := fun x => by have := hper 2 x; norm_num at this; exact this
      have c3 : ∀ x, Real.cos (6 * Real.pi * (1 - x)) = Real.cos (6 * Real.pi * x) := fun x => by have := hper 3 x; norm_num at this; exact this
      have c4 : ∀ x, Real.cos (8 * Real.pi * (1 - x)) = Real.cos (8 * Real.pi * x) := fun x => by have := hper 4 x; norm_num at this; exact this
      have d1 : Real.cos (2 * Real.pi * (1 / 2)) = -1 := by rw [show 2 * Real.pi * (1 / 2) = Real.pi by ring, Real.cos_pi]
      have d2 : Real.cos (4 * Real.pi * (1 / 2)) = 1 := by rw [show 4 * Real.pi * (1 / 2) = 2 * Real.pi by ring, Real.cos_two_pi]
      have d3 : Real.cos (6 * Real.pi * (1 / 2)) = -1 := by
        rw [show 6 * Real.pi * (1 / 2) = Real.pi + 2 * Real.pi by ring, Real.cos_add_two_pi, Real.cos_pi]
      have d4 : Real.cos (8 * Real.pi * (1 / 2)) = 1 := by
        rw [show 8 * Real.pi * (1 / 2) = 2 * Real.pi + 2 * Real.pi by ring, Real.cos_add_two_pi, Real.cos_two_pi]
      unfold textbookWindows at hp
      simp only [List.mem_cons, List.not_mem_nil, or_false, Prod.mk.injEq] at hp
      rcases hp with ⟨-, rfl⟩ | ⟨-, rfl⟩ | ⟨-, rfl⟩ | ⟨-, rfl⟩ | ⟨-, rfl⟩ | ⟨-, rfl⟩ | ⟨-, rfl⟩ | ⟨-, rfl⟩
      · exact ⟨fun _ => rfl, fun _ _ _ => by norm_num, le_rfl⟩
      · refine ⟨fun x => ?_, fun x _ _ => ?_, ?_⟩
        · show Real.sin (Real.pi * (1 - x)) ^ 2 = Real.sin (Real.pi * x) ^ 2
          rw [show Real.pi * (1 - x) = Real.pi - Real.pi * x by ring, Real.sin_pi_sub]
        · show |Real.sin (Real.pi * x) ^ 2| ≤ _
          rw [abs_of_nonneg (sq_nonneg _)]
          linarith [Real.sin_sq_le_one (Real.pi * x), (by norm_num : (0 : ℝ) ≤ 3 / 10 ^ 9)]
        · show 1 ≤ Real.sin (Real.pi * (1 / 2)) ^ 2
          rw [show Real.pi * (1 / 2) = Real.pi / 2 by ring, Real.sin_pi_div_two]; norm_num
      case inr.inr.inr.inr.inr.inr.inr =>
        refine ⟨fun x => ?_, fun x h0 h1 => ?_, by norm_num⟩
        · show 1 - |2 * (1 - x) - 1| = 1 - |2 * x - 1|
          rw [show 2 * (1 - x) - 1 = -(2 * x - 1) by ring, abs_neg]
        · show |(1 - |2 * x - 1|)| ≤ _
          have : |2 * x - 1| ≤ 1 := abs_le.2 ⟨by linarith, by linarith⟩
          have := abs_nonneg (2 * x - 1)
          exact abs_le.2 ⟨by linarith [(by norm_num : (0 : ℝ) ≤ 3 / 10 ^ 9)], by linarith [(by norm_num : (0 : ℝ) ≤ 3 / 10 ^ 9)]⟩
      all_goals
        refine ⟨fun x => ?_, fun x _ _ => ?_, ?_⟩
        · beta_reduce; simp only [c1, c2, c3, c4]
        · beta_reduce
          have a1 := Real.neg_one_le_cos (2 * Real.pi * x)
          have a2 := Real.neg_one_le_cos (4 * Real.pi * x)
          have a3 := Real.neg_one_le_cos (6 * Real.pi * x)
          have a4 := Real.neg_one_le_cos (8 * Real.pi * x)
          have b1 := Real.cos_le_one (2 * Real.pi * x)
          have b2 := Real.cos_le_one (4 * Real.pi * x)
          have b3 := Real.cos_le_one (6 * Real.pi * x)
          have b4 := Real.cos_le_one (8 * Real.pi * x)
          rw [abs_le]
          constructor <;> norm_num <;> linarith
        · beta_reduce; simp only [d1, d2, d3, d4]; norm_num
    refine ⟨w, h1, h2, fun j h0 hj => ?_, fun j hj => ?_, fun he => ?_⟩
    · rw [h3 _ (by omega), h3 _ hj, Nat.cast_sub hj.le, ← key.1 ((j : ℝ) / n)]
      congr 1
      field_simp
    · rw [h3 _ hj]
      refine key.2.1 _ (by positivity) ?_
      rw [div_le_one hn0]; exact_mod_cast hj.le
    · rw [h3 _ (by omega)]
      have : ((n / 2 : ℕ) : ℝ) / n = 1 / 2 := by
        rw [Nat.cast_div (by omega) (by norm_num)]; field_simp; norm_num
      rw [this]; exact key.2.2

/-! The Bartlett window of four samples. -/

example : ∃ w, getWindow "bart" 4 = .ok w ∧ w.getD 1 0 = 1 / 2 ∧ w.getD 2 0 = 1 := by
  obtain ⟨w, h1, -, h2⟩ := window_shape (names := ["bartlett", "bart", "brt"]) (f := fun x => 1 - |2 * x - 1|) (by simp [textbookWindows]) (ty := "bart") (by simp)
    (n := 4) (by norm_num)
  refine ⟨w, h1, ?_, ?_⟩
  · rw [h2 1 (by norm_num)]; norm_num [abs_of_neg]
  · rw [h2 2 (by norm_num)]; norm_num

example : ∃ w, getWindow "cosine" 3 = .ok w ∧ w.getD 1 0 = Real.sin (Real.pi * ((1 + 1 / 2) / (3 + 1))) := by
  obtain ⟨w, h1, -, h2⟩ := cosine_window_shape (ty := "cosine") (by simp) (n := 3) (by norm_num)
  exact ⟨w, h1, by rw [h2 1 (by norm_num)]; norm_num⟩

example : ∃ w, getWindow "flattop" 8 = .ok w ∧ w.getD 7 0 = w.getD 1 0 ∧ 1 ≤ w.getD 4 0 := by
  obtain ⟨w, h1, -, h2, -, h3⟩ := window_symmetric (ty := "flattop") (by simp [windowNames]) (n := 8) (by norm_num)
  exact ⟨w, h1, h2 1 (by norm_num) (by norm_num), h3 rfl⟩

end Verif
