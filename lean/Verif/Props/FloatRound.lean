import Verif.Props.FloatFftExists

/-! # To frequencies and back in double precision -/

namespace Verif
open Finset
open scoped Classical

variable {ε : ℝ}

theorem fft_error {F : NpFftD ε} {x : List ℚ} (hn : 1 ≤ x.length) :
    ∑ k ∈ range x.length, Complex.normSq (cx ((F.fft x).getD k 0) - coef (realVals x) k) ≤
      ε ^ 2 * ((x.length : ℝ) ^ 2 * meanSq x + x.length * (1 / 2 ^ 100) ^ 3) := by
  have h := F.fft_spec x
  unfold energy at h
  have e1 : ∑ k ∈ range x.length, Complex.normSq ((npFft (x.map fun (v : ℚ) => ((v : ℝ) : ℂ))).getD k 0) = (x.length : ℝ) ^ 2 * meanSq x := by
    rw [← coef_energy (x := x) (by omega)]
    exact sum_congr rfl fun k hk => by rw [npFft_getD (mem_range.1 hk)]
  have e2 : ∑ k ∈ range x.length, Complex.normSq (cx ((F.fft x).getD k 0) - (npFft (x.map fun (v : ℚ) => ((v : ℝ) : ℂ))).getD k 0) =
      ∑ k ∈ range x.length, Complex.normSq (cx ((F.fft x).getD k 0) - coef (realVals x) k) :=
    sum_congr rfl fun k hk => by rw [npFft_getD (mem_range.1 hk)]
  rwa [e1, e2] at h

theorem inv_coef_real {x : List ℚ} {j : ℕ} (hj : j < x.length) : (inv x.length (coef (realVals x)) j).re = ((x.getD j 0 : ℚ) : ℝ) := by
  have h := inv_fwd (n := x.length) (by omega) (fun j => (((realVals x).getD j 0 : ℝ) : ℂ)) hj
  have e : (fun k => coef (realVals x) k) = fwd x.length (fun j => (((realVals x).getD j 0 : ℝ) : ℂ)) := by
    funext k
    unfold coef
    rw [realVals_length]
  change (inv x.length (fun k => coef (realVals x) k) j).re = _
  rw [e]
  change (inv x.length (fwd x.length fun j => (((realVals x).getD j 0 : ℝ) : ℂ)) j).re = _
  rw [h, Complex.ofReal_re]
  unfold realVals
  rw [List.getD_eq_getElem _ _ (by simpa using hj), List.getElem_map, List.getD_eq_getElem _ _ hj]

theorem max_of_mean {n : ℕ} {a : ℕ → ℝ} {B : ℝ} (h : (∑ j ∈ range n, a j ^ 2) / n ≤ B) {j : ℕ} (hj : j < n) : a j ^ 2 ≤ n * B := by
  have n0 : (0 : ℝ) < n := by exact_mod_cast (by omega : 0 < n)
  rw [div_le_iff₀ n0] at h
  have := single_le_sum (s := range n) (f := fun j => a j ^ 2) (fun i _ => sq_nonneg _) (mem_range.2 hj)
  beta_reduce at this
  linarith

/-- **C178 (signal).**  In double precision, for transforms off by at most `ε` in the root-mean-square sense, `freq2time(time2freq(t, x)[1])` has the
length of the record and differs from it by at most `3 ε` times its root mean square, in the root-mean-square sense; hence no sample is off by more
than `3 ε` times the root of the sum of squares. -/
theorem round_trip_double (F : NpFftD ε) (hε : 0 < ε) (hε' : ε ≤ 1 / 10) {t x : List ℚ} (hmono : monotonicF64 t = .ok true) (hl : t.length = x.length)
    (hn : 1 ≤ x.length) :
    ∃ f X y, time2freqF64 F t x = .ok (f, X) ∧ freq2timeF64 F X = .ok y ∧ f.length = x.length ∧ X.length = x.length ∧ y.length = x.length ∧
      (∑ j ∈ range x.length, ((y.getD j 0 : ℝ) - x.getD j 0) ^ 2) / x.length ≤ (3 * ε) ^ 2 * (meanSq x + 1 / 2 ^ 100) ∧
      ∀ j < x.length, ((y.getD j 0 : ℝ) - x.getD j 0) ^ 2 ≤ x.length * ((3 * ε) ^ 2 * (meanSq x + 1 / 2 ^ 100)) := by
  have h1 : time2freqF64 F t x = .ok (fftAxisF64 t, F.fft x) := by
    unfold time2freqF64
    rw [hmono]
    simp only [bind, Except.bind]
    rw [if_neg (by simp), if_neg (by simp [hl])]
    rfl
  have hne : F.fft x ≠ [] := by
    intro h
    have := F.fft_length x
    rw [h] at this
    simp at this
    omega
  have h2 : freq2timeF64 F (F.fft x) = .ok ((F.ifft (F.fft x)).map Prod.fst) := by
    unfold freq2timeF64
    rw [if_neg hne]
  have e0 := fft_error (F := F) hn
  have key := inverse_double F hε hε' hn (F.fft_length x) (V := coef (realVals x)) (e0.trans (by
    have : 0 ≤ ε ^ 2 * ((x.length : ℝ) ^ 2 * meanSq x + x.length * (1 / 2 ^ 100) ^ 3) := by
      have := meanSq_nonneg x
      positivity
    linarith)) (coef_energy (by omega)).le
  have key' : (∑ j ∈ range x.length, (((((F.ifft (F.fft x)).map Prod.fst).getD j 0 : ℚ) : ℝ) - x.getD j 0) ^ 2) / x.length ≤
      (3 * ε) ^ 2 * (meanSq x + 1 / 2 ^ 100) := by
    refine le_trans (le_of_eq ?_) key
    congr 1
    exact sum_congr rfl fun j hj => by rw [inv_coef_real (mem_range.1 hj)]
  refine ⟨_, _, _, h1, h2, ?_, F.fft_length x, by rw [List.length_map, F.ifft_length, F.fft_length], key', fun j hj => max_of_mean key' hj⟩
  unfold fftAxisF64
  simp [hl]

/-- **C178 (folded).**  The same for the folded transform of `time2freq_nyquist`, unfolded by `unfold_spectrum`. -/
theorem fold_round_trip_double (F : NpFftD ε) (hε : 0 < ε) (hε' : ε ≤ 1 / 10) {t x : List ℚ} (hmono : monotonicF64 t = .ok true)
    (hl : t.length = x.length) (hn : 2 ≤ x.length) :
    ∃ f X isOdd y, time2freqNyquistF64 F t x = .ok (f, X, isOdd) ∧ freq2timeF64 F (unfoldF64 X isOdd) = .ok y ∧ f.length = x.length / 2 + 1 ∧
      X.length = x.length / 2 + 1 ∧ y.length = x.length ∧
      (∑ j ∈ range x.length, ((y.getD j 0 : ℝ) - x.getD j 0) ^ 2) / x.length ≤ (3 * ε) ^ 2 * (meanSq x + 1 / 2 ^ 100) ∧
      ∀ j < x.length, ((y.getD j 0 : ℝ) - x.getD j 0) ^ 2 ≤ x.length * ((3 * ε) ^ 2 * (meanSq x + 1 / 2 ^ 100)) := by
  set X := (F.fft x).take (x.length / 2 + 1) with hX
  have h1 : time2freqNyquistF64 F t x = .ok (nyquistAxisF64 t, X, decide (x.length % 2 = 1)) := by
    unfold time2freqNyquistF64
    rw [hmono]
    simp only [bind, Except.bind]
    rw [if_neg (by simp), if_neg (by simp [hl])]
    rw [hX, ← hl]
    rfl
  have hXl : X.length = x.length / 2 + 1 := by rw [hX, List.length_take, F.fft_length]; omega
  have hXg : ∀ k < x.length / 2 + 1, X.getD k 0 = (F.fft x).getD k 0 := by
    intro k hk
    rw [hX, List.getD_eq_getElem?_getD, List.getD_eq_getElem?_getD, List.getElem?_take, if_pos hk]
  obtain ⟨hUl, hUg⟩ := unfoldF64_getD hn hXl
  set U := unfoldF64 X (decide (x.length % 2 = 1)) with hU
  have h2 : freq2timeF64 F U = .ok ((F.ifft U).map Prod.fst) := by
    unfold freq2timeF64
    rw [if_neg]
    intro h
    rw [h] at hUl
    simp at hUl
    omega
  have e0 := fft_error (F := F) (x := x) (by omega)
  have hsym : ∀ k < x.length, coef (realVals x) k = symExt x.length (coef (realVals x)) k := by
    intro k hk
    have := symExt_coef (realVals x) (k := k) (by rw [realVals_length]; exact hk)
    rw [realVals_length] at this
    exact this.symm
  have hB : ∑ k ∈ range x.length, Complex.normSq (cx (U.getD k 0) - coef (realVals x) k) ≤
      2 * (ε ^ 2 * ((x.length : ℝ) ^ 2 * meanSq x + x.length * (1 / 2 ^ 100) ^ 3)) := by
    have e3 : ∑ k ∈ range x.length, Complex.normSq (cx (U.getD k 0) - coef (realVals x) k) =
        ∑ k ∈ range x.length, Complex.normSq (symExt x.length (fun i => cx (X.getD i 0)) k - symExt x.length (coef (realVals x)) k) :=
      sum_congr rfl fun k hk => by rw [hUg k (mem_range.1 hk), hsym k (mem_range.1 hk)]
    rw [e3]
    refine (symExt_error _ _).trans (mul_le_mul_of_nonneg_left (le_trans ?_ e0) (by norm_num))
    refine le_trans ?_ (half_le_all hn (g := fun k => Complex.normSq (cx ((F.fft x).getD k 0) - coef (realVals x) k)) fun k => Complex.normSq_nonneg _)
    refine sum_le_sum fun k hk => ?_
    rw [hXg k (mem_range.1 hk)]
  have key := inverse_double F hε hε' (by omega) hUl (V := coef (realVals x)) hB (coef_energy (by omega)).le
  have key' : (∑ j ∈ range x.length, (((((F.ifft U).map Prod.fst).getD j 0 : ℚ) : ℝ) - x.getD j 0) ^ 2) / x.length ≤
      (3 * ε) ^ 2 * (meanSq x + 1 / 2 ^ 100) := by
    refine le_trans (le_of_eq ?_) key
    congr 1
    exact sum_congr rfl fun j hj => by rw [inv_coef_real (mem_range.1 hj)]
  refine ⟨_, _, _, _, h1, h2, ?_, hXl, by rw [List.length_map, F.ifft_length, hUl], key', fun j hj => max_of_mean key' hj⟩
  unfold nyquistAxisF64 fftAxisF64
  simp [hl]
  omega

/-- **C178 (energy).**  The sum of the squared moduli of the computed components is `n` times the sum of the squared samples, up to `3 ε` of itself. -/
theorem parseval_double (F : NpFftD ε) (hε : 0 < ε) (hε' : ε ≤ 1 / 10) {t x : List ℚ} (hmono : monotonicF64 t = .ok true) (hl : t.length = x.length)
    (hn : 1 ≤ x.length) :
    ∃ f X, time2freqF64 F t x = .ok (f, X) ∧ X.length = x.length ∧
      |∑ k ∈ range x.length, (((X.getD k 0).1 : ℝ) ^ 2 + ((X.getD k 0).2 : ℝ) ^ 2) - x.length * ∑ j ∈ range x.length, ((x.getD j 0 : ℚ) : ℝ) ^ 2| ≤
        3 * ε * (x.length ^ 2 * (meanSq x + 1 / 2 ^ 100)) := by
  obtain ⟨f, X, y, h1, -, -, h2, -⟩ := round_trip_double F hε hε' hmono hl hn
  refine ⟨f, X, h1, h2, ?_⟩
  have hX : X = F.fft x := by
    unfold time2freqF64 at h1
    rw [hmono] at h1
    simp only [bind, Except.bind] at h1
    rw [if_neg (by simp), if_neg (by simp [hl])] at h1
    simp only [pure, Except.pure, Except.ok.injEq, Prod.mk.injEq] at h1
    exact h1.2.symm
  subst hX
  have n0 : (0 : ℝ) < x.length := by exact_mod_cast (by omega : 0 < x.length)
  have n1 : (1 : ℝ) ≤ x.length := by exact_mod_cast (by omega : 1 ≤ x.length)
  have hM : x.length * ∑ j ∈ range x.length, ((x.getD j 0 : ℚ) : ℝ) ^ 2 = (x.length : ℝ) ^ 2 * meanSq x := by
    unfold meanSq
    have : ∑ j ∈ range x.length, ((x.getD j 0 : ℚ) : ℝ) ^ 2 = (x.map fun (v : ℚ) => (v : ℝ) ^ 2).sum := by
      rw [list_sum_getD, List.length_map]
      refine sum_congr rfl fun j hj => ?_
      have hj := mem_range.1 hj
      rw [List.getD_eq_getElem _ _ hj, List.getD_eq_getElem _ _ (by simpa using hj), List.getElem_map]
    rw [this]
    field_simp
  rw [hM, ← coef_energy (x := x) (by omega), ← sum_sub_distrib]
  refine (abs_sum_le_sum_abs _ _).trans ?_
  have e0 := fft_error (F := F) hn
  have hk : ∀ k, |(((F.fft x).getD k 0).1 : ℝ) ^ 2 + (((F.fft x).getD k 0).2 : ℝ) ^ 2 - Complex.normSq (coef (realVals x) k)| ≤
      ε * Complex.normSq (coef (realVals x) k) + (1 + 1 / ε) * Complex.normSq (cx ((F.fft x).getD k 0) - coef (realVals x) k) := by
    intro k
    have := normSq_perturb (coef (realVals x) k) (cx ((F.fft x).getD k 0) - coef (realVals x) k) hε
    rw [add_sub_cancel] at this
    refine le_trans (le_of_eq ?_) this
    rw [Complex.normSq_apply (cx _)]
    unfold cx
    beta_reduce
    congr 2
    ring
  refine (sum_le_sum fun k _ => hk k).trans ?_
  rw [sum_add_distrib, ← mul_sum, ← mul_sum, coef_energy (by omega)]
  have q : (0 : ℝ) ≤ 1 + 1 / ε := by positivity
  have M0 := meanSq_nonneg x
  refine (add_le_add le_rfl (mul_le_mul_of_nonneg_left e0 q)).trans ?_
  have T0 : (0 : ℝ) ≤ 1 / 2 ^ 100 := by positivity
  have hTb : ((1 : ℝ) / 2 ^ 100) ^ 3 ≤ 1 / 2 ^ 100 := by norm_num
  generalize ((1 : ℝ) / 2 ^ 100) ^ 3 = T at *
  generalize (1 : ℝ) / 2 ^ 100 = T' at *
  generalize meanSq x = M at *
  generalize (x.length : ℝ) = n at *
  rw [show ε * (n ^ 2 * M) + (1 + 1 / ε) * (ε ^ 2 * (n ^ 2 * M + n * T)) = ε * ((2 + ε) * (n ^ 2 * M) + (1 + ε) * (n * T)) by field_simp; ring]
  rw [show 3 * ε * (n ^ 2 * (M + T')) = ε * (3 * (n ^ 2 * M) + 3 * (n ^ 2 * T')) by ring]
  refine mul_le_mul_of_nonneg_left ?_ hε.le
  have a1 : 0 ≤ n ^ 2 * M := by positivity
  have a2 : n * T ≤ n * T' := mul_le_mul_of_nonneg_left hTb n0.le
  have a3 : n * T' ≤ n ^ 2 * T' := mul_le_mul_of_nonneg_right (by nlinarith) T0
  have a4 : 0 ≤ n * T' := by positivity
  have a5 : ε * (n ^ 2 * M) ≤ 1 / 10 * (n ^ 2 * M) := mul_le_mul_of_nonneg_right hε' a1
  have a6 : (1 + ε) * (n * T) ≤ (1 + ε) * (n * T') := mul_le_mul_of_nonneg_left a2 (by linarith)
  have a7 : ε * (n * T') ≤ 1 / 10 * (n * T') := mul_le_mul_of_nonneg_right hε' a4
  linarith

/-- Eight samples: there and back. -/
example (F : NpFftD (1 / 2 ^ 40)) : ∃ f X y, time2freqF64 F eightSeconds [1, 0, -1, 2, 0, 1, 3, -2] = .ok (f, X) ∧ freq2timeF64 F X = .ok y ∧
    y.length = 8 ∧ ((y.getD 6 0 : ℝ) - 3) ^ 2 ≤ 8 * ((3 / 2 ^ 40) ^ 2 * 3) := by
  obtain ⟨f, X, y, a, b, -, -, c, -, d⟩ := round_trip_double F (by norm_num) (by norm_num) eightSeconds_accepted
    (x := [1, 0, -1, 2, 0, 1, 3, -2]) (by simp) (by simp)
  refine ⟨f, X, y, a, b, c, ?_⟩
  have := d 6 (by simp)
  simp only [List.getD_cons_succ, List.getD_cons_zero, meanSq, List.length_cons, List.length_nil, List.map_cons, List.map_nil, List.sum_cons, List.sum_nil] at this
  norm_num at this ⊢
  linarith

/-- Eight samples: the folded transform and the energy of the components. -/
example (F : NpFftD (1 / 2 ^ 40)) : (∃ f X isOdd y, time2freqNyquistF64 F eightSeconds [1, 0, -1, 2, 0, 1, 3, -2] = .ok (f, X, isOdd) ∧
    freq2timeF64 F (unfoldF64 X isOdd) = .ok y ∧ X.length = 5 ∧ y.length = 8) ∧
    ∃ f X, time2freqF64 F eightSeconds [1, 0, -1, 2, 0, 1, 3, -2] = .ok (f, X) ∧ X.length = 8 := by
  obtain ⟨f, X, o, y, a, b, -, c, d, -⟩ := fold_round_trip_double F (by norm_num) (by norm_num) eightSeconds_accepted
    (x := [1, 0, -1, 2, 0, 1, 3, -2]) (by simp) (by simp)
  obtain ⟨f', X', a', b', -⟩ := parseval_double F (by norm_num) (by norm_num) eightSeconds_accepted (x := [1, 0, -1, 2, 0, 1, 3, -2]) (by simp) (by simp)
  exact ⟨⟨f, X, o, y, a, b, c, d⟩, f', X', a', b'⟩

end Verif
