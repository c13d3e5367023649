import Verif.Props.FloatFft
import Verif.Props.Filter

/-! # The band filter in double precision -/

namespace Verif
open Finset
open scoped Classical

variable {ε : ℝ}

theorem cx_zero : cx 0 = 0 := by
  unfold cx
  rw [Complex.ext_iff]
  simp

theorem cx_conj (z : ℚ × ℚ) : cx (z.1, -z.2) = (starRingEnd ℂ) (cx z) := by
  unfold cx
  rw [Complex.ext_iff]
  simp

theorem normSq_conj_sub (a b : ℂ) : Complex.normSq ((starRingEnd ℂ) a - (starRingEnd ℂ) b) = Complex.normSq (a - b) := by
  rw [← map_sub, Complex.normSq_conj]

theorem normSq_add_le (a b : ℂ) {t : ℝ} (ht : 0 < t) : Complex.normSq (a + b) ≤ (1 + t) * Complex.normSq a + (1 + 1 / t) * Complex.normSq b := by
  have := (abs_le.1 (normSq_perturb a b ht)).2
  linarith

/-- The unfolded spectrum of the computed components. -/
theorem unfoldF64_getD {n : ℕ} (hn : 2 ≤ n) {Z : List (ℚ × ℚ)} (hZ : Z.length = n / 2 + 1) :
    (unfoldF64 Z (decide (n % 2 = 1))).length = n ∧ ∀ k < n, cx ((unfoldF64 Z (decide (n % 2 = 1))).getD k 0) = symExt n (fun i => cx (Z.getD i 0)) k := by
  have hodd : (decide (n % 2 = 1)).toNat = n % 2 := by
    rcases Nat.mod_two_eq_zero_or_one n with h | h <;> simp [h]
  have e1 : n / 2 + 1 - 1 + n % 2 = (n + 1) / 2 := by omega
  have hlt : (Z.take ((n + 1) / 2)).length = (n + 1) / 2 := by simp [hZ]; omega
  have hlen : (unfoldF64 Z (decide (n % 2 = 1))).length = n := by
    unfold unfoldF64
    rw [hodd, hZ, e1, List.length_append, hlt]
    simp [hZ]; omega
  refine ⟨hlen, fun k hk => ?_⟩
  rw [List.getD_eq_getElem _ _ (by rw [hlen]; exact hk)]
  unfold unfoldF64 symExt
  simp only [hodd, hZ, e1]
  rw [List.getElem_append]
  by_cases hk2 : k < (n + 1) / 2
  · rw [dif_pos (by rw [hlt]; exact hk2), if_pos hk2, List.getElem_take, List.getD_eq_getElem _ _ (by omega)]
  · rw [dif_neg (by rw [hlt]; exact hk2), if_neg hk2, List.getElem_reverse, List.getElem_map, List.getElem_drop, cx_conj, List.getD_eq_getElem _ _ (by omega)]
    congr 3
    simp only [List.length_map, List.length_drop, hZ, hlt]
    omega

/-- The error of the unfolded spectrum is at most twice the error of the folded one. -/
theorem symExt_error {n : ℕ} (Z W : ℕ → ℂ) :
    ∑ k ∈ range n, Complex.normSq (symExt n Z k - symExt n W k) ≤ 2 * ∑ k ∈ range (n / 2 + 1), Complex.normSq (Z k - W k) := by
  set g : ℕ → ℝ := fun k => Complex.normSq (Z k - W k) with hg
  have g0 : ∀ k, 0 ≤ g k := fun k => Complex.normSq_nonneg _
  have e : n = (n + 1) / 2 + n / 2 := by omega
  have h : ∀ k, Complex.normSq (symExt n Z k - symExt n W k) = if k < (n + 1) / 2 then g k else g (n - k) := by
    intro k
    unfold symExt
    split_ifs
    · rfl
    · rw [normSq_conj_sub]
  have s : ∑ k ∈ range n, Complex.normSq (symExt n Z k - symExt n W k) = ∑ k ∈ range ((n + 1) / 2), g k + ∑ i ∈ range (n / 2), g (i + 1) := by
    conv_lhs => rw [e]
    rw [sum_range_add]
    congr 1
    · refine sum_congr rfl fun k hk => ?_
      have := mem_range.1 hk
      rw [← e, h, if_pos this]
    · rw [← sum_range_reflect (fun i => g (i + 1))]
      refine sum_congr rfl fun i hi => ?_
      have := mem_range.1 hi
      rw [← e, h, if_neg (by omega)]
      congr 1
      omega
  rw [s, two_mul]
  refine add_le_add (sum_le_sum_of_subset_of_nonneg (range_subset_range.2 (by omega)) fun k _ _ => g0 k) ?_
  rw [sum_range_succ']
  linarith [g0 0]

theorem harmonic_axis_increasing {n : ℕ} (hn : 2 ≤ n) {dt : ℚ} (hdt : 0 < dt) : Increasing ((List.range (n / 2 + 1)).map (harmonic n dt)) := by
  intro i j hij hj
  have hj' : j < n / 2 + 1 := by simpa using hj
  rw [getD_map_range _ _ _ _ hj', getD_map_range _ _ _ _ (by omega)]
  unfold harmonic
  have : (i : ℚ) < j := by exact_mod_cast hij
  have n0 : (0 : ℚ) < n := by exact_mod_cast (by omega : 0 < n)
  gcongr

/-- The components the computed filter keeps are those the exact filter keeps. -/
theorem kept_real {n : ℕ} (hn : 2 ≤ n) {dt : ℚ} (lo hi : ℚ) {i : ℕ} (hi' : i < n / 2 + 1) :
    Kept ((List.range (n / 2 + 1)).map (harmonic n dt)) lo hi i ↔ keptBins (realAxis n dt) (lo : ℝ) (hi : ℝ) i := by
  unfold keptBins
  rw [dfOf_realAxis hn]
  have hl : (realAxis n (dt : ℝ)).length = n := by simp [realAxis]
  rw [hl]
  have g : ∀ k < n / 2 + 1, (freqAxis (n / 2 + 1) (1 / (n * (dt : ℝ)))).getD k 0 = ((((List.range (n / 2 + 1)).map (harmonic n dt)).getD k 0 : ℚ) : ℝ) := by
    intro k hk
    unfold freqAxis
    rw [getD_map_range _ _ _ _ hk, getD_map_range _ _ _ _ hk]
    unfold harmonic
    push_cast
    rw [mul_one_div]
  have hf : (freqAxis (n / 2 + 1) (1 / (n * (dt : ℝ)))).length = n / 2 + 1 := by simp [freqAxis]
  have hq : ((List.range (n / 2 + 1)).map (harmonic n dt)).length = n / 2 + 1 := by simp
  unfold Kept
  rw [hf, hq, g i hi', g (n / 2 + 1 - 1) (by omega)]
  simp only [Rat.cast_le, Rat.cast_lt]
  by_cases h : i + 1 < n / 2 + 1
  · rw [g (i + 1) h]
    simp only [Rat.cast_lt]
  · simp [h]

/-- The samples computed from `n` components that differ from the exact ones `V` by no more than the error of one transform (twice in the sum of squares),
where the energy of `V` is at most that of a record: they are off by at most `3 ε` times the root mean square of the record. -/
theorem inverse_double (F : NpFftD ε) (hε : 0 < ε) (hε' : ε ≤ 1 / 10) {x : List ℚ} (hn : 1 ≤ x.length) {U : List (ℚ × ℚ)} (hUl : U.length = x.length)
    {V : ℕ → ℂ} (hB : ∑ k ∈ range x.length, Complex.normSq (cx (U.getD k 0) - V k) ≤
      2 * (ε ^ 2 * ((x.length : ℝ) ^ 2 * meanSq x + x.length * (1 / 2 ^ 100) ^ 3)))
    (hVE : ∑ k ∈ range x.length, Complex.normSq (V k) ≤ (x.length : ℝ) ^ 2 * meanSq x) :
    (∑ j ∈ range x.length, (((((F.ifft U).map Prod.fst).getD j 0 : ℚ) : ℝ) - (inv x.length V j).re) ^ 2) / x.length ≤
      (3 * ε) ^ 2 * (meanSq x + 1 / 2 ^ 100) := by
  have n0 : (0 : ℝ) < x.length := by exact_mod_cast (by omega : 0 < x.length)
  set Uc : ℕ → ℂ := fun k => cx (U.getD k 0) with hUc
  set T : ℝ := (1 / 2 ^ 100) ^ 3 with hT
  have T0 : 0 < T := by positivity
  have M0 := meanSq_nonneg x
  have hUE : ∑ k ∈ range x.length, Complex.normSq (Uc k) ≤ 5 / 4 * ∑ k ∈ range x.length, Complex.normSq (V k) + 5 * ∑ k ∈ range x.length, Complex.normSq (Uc k - V k) := by
    rw [mul_sum, mul_sum, ← sum_add_distrib]
    refine sum_le_sum fun k _ => ?_
    have := normSq_add_le (V k) (Uc k - V k) (t := 1 / 4) (by norm_num)
    rw [add_sub_cancel] at this
    refine this.trans (le_of_eq ?_)
    norm_num
  -- the inverse transforms
  have hpU := parseval_inv (n := x.length) (by omega) Uc
  have hpD := parseval_inv (n := x.length) (by omega) fun k => Uc k - V k
  have hlin : ∀ j, inv x.length Uc j = inv x.length (fun k => Uc k - V k) j + inv x.length V j := by
    intro j
    rw [← inv_add]
    exact inv_congr (fun k _ => by beta_reduce; ring) j
  have hifft := F.ifft_spec U
  unfold energy at hifft
  have hg : ∀ j < x.length, (npIfft (U.map cx)).getD j 0 = inv x.length Uc j := by
    intro j hj
    unfold npIfft
    rw [List.length_map, hUl, getD_map_range _ _ _ _ hj]
    refine inv_congr (fun k hk => ?_) j
    rw [hUc]
    beta_reduce
    rw [List.getD_eq_getElem _ _ (by rw [List.length_map, hUl]; exact hk), List.getElem_map, List.getD_eq_getElem _ _ (by rw [hUl]; exact hk)]
  rw [hUl] at hifft
  have e4 : ∑ j ∈ range x.length, Complex.normSq ((npIfft (U.map cx)).getD j 0) = ∑ j ∈ range x.length, Complex.normSq (inv x.length Uc j) :=
    sum_congr rfl fun j hj => by rw [hg j (mem_range.1 hj)]
  have e5 : ∑ j ∈ range x.length, Complex.normSq (cx ((F.ifft U).getD j 0) - (npIfft (U.map cx)).getD j 0) =
      ∑ j ∈ range x.length, Complex.normSq (cx ((F.ifft U).getD j 0) - inv x.length Uc j) :=
    sum_congr rfl fun j hj => by rw [hg j (mem_range.1 hj)]
  rw [e4, e5] at hifft
  -- samples
  have hs : ∑ j ∈ range x.length, (((((F.ifft U).map Prod.fst).getD j 0 : ℚ) : ℝ) - (inv x.length V j).re) ^ 2 ≤
      2 * ∑ j ∈ range x.length, Complex.normSq (cx ((F.ifft U).getD j 0) - inv x.length Uc j) +
        2 * ∑ j ∈ range x.length, Complex.normSq (inv x.length (fun k => Uc k - V k) j) := by
    rw [mul_sum, mul_sum, ← sum_add_distrib]
    refine sum_le_sum fun j hj => ?_
    have hj := mem_range.1 hj
    have hy : (((F.ifft U).map Prod.fst).getD j 0 : ℚ) = ((F.ifft U).getD j 0).1 := by
      rw [List.getD_eq_getElem _ _ (by rw [List.length_map, F.ifft_length, hUl]; exact hj), List.getElem_map,
        List.getD_eq_getElem _ _ (by rw [F.ifft_length, hUl]; exact hj)]
    rw [hy]
    have h3 : ((((F.ifft U).getD j 0).1 : ℝ) - (inv x.length V j).re) ^ 2 ≤ Complex.normSq (cx ((F.ifft U).getD j 0) - inv x.length V j) := by
      rw [Complex.normSq_apply, Complex.sub_re, Complex.sub_im]
      unfold cx
      beta_reduce
      nlinarith [mul_self_nonneg ((((F.ifft U).getD j 0).2 : ℝ) - (inv x.length V j).im)]
    have h4 := normSq_add_le (cx ((F.ifft U).getD j 0) - inv x.length Uc j) (inv x.length (fun k => Uc k - V k) j) (t := 1) (by norm_num)
    rw [show cx ((F.ifft U).getD j 0) - inv x.length Uc j + inv x.length (fun k => Uc k - V k) j = cx ((F.ifft U).getD j 0) - inv x.length V j by
      rw [hlin j]; ring] at h4
    refine h3.trans (h4.trans (le_of_eq ?_))
    norm_num
  generalize ∑ j ∈ range x.length, (((((F.ifft U).map Prod.fst).getD j 0 : ℚ) : ℝ) - (inv x.length V j).re) ^ 2 = L at *
  generalize ∑ j ∈ range x.length, Complex.normSq (cx ((F.ifft U).getD j 0) - inv x.length Uc j) = A at *
  generalize ∑ j ∈ range x.length, Complex.normSq (inv x.length (fun k => Uc k - V k) j) = B at *
  generalize ∑ j ∈ range x.length, Complex.normSq (inv x.length Uc j) = C at *
  generalize ∑ k ∈ range x.length, Complex.normSq (Uc k) = D at *
  generalize ∑ k ∈ range x.length, Complex.normSq (Uc k - V k) = G at *
  generalize ∑ k ∈ range x.length, Complex.normSq (V k) = H at *
  have hTb : T ≤ 1 / 2 ^ 100 := by rw [hT]; norm_num
  have n1 : (1 : ℝ) ≤ x.length := by exact_mod_cast (by omega : 1 ≤ x.length)
  generalize (x.length : ℝ) = n at *
  generalize meanSq x = M at *
  have q1 : ε ^ 2 ≤ 1 / 100 := by nlinarith
  have q0 : 0 < ε ^ 2 := by positivity
  have r1 : B ≤ 2 * ε ^ 2 * (n * M + T) := by
    have : n * B ≤ n * (2 * ε ^ 2 * (n * M + T)) := by rw [← hpD]; refine hB.trans (le_of_eq (by ring))
    exact le_of_mul_le_mul_left this n0
  have r2 : C ≤ 5 / 4 * (n * M) + 10 * ε ^ 2 * (n * M + T) := by
    have : n * C ≤ n * (5 / 4 * (n * M) + 10 * ε ^ 2 * (n * M + T)) := by
      rw [← hpU]
      refine hUE.trans ?_
      have := add_le_add (mul_le_mul_of_nonneg_left hVE (by norm_num : (0 : ℝ) ≤ 5 / 4)) (mul_le_mul_of_nonneg_left hB (by norm_num : (0 : ℝ) ≤ 5))
      refine this.trans (le_of_eq (by ring))
    exact le_of_mul_le_mul_left this n0
  have nM : 0 ≤ n * M := by positivity
  have r3 : 10 * ε ^ 2 * (n * M + T) ≤ 1 / 10 * (n * M + T) := mul_le_mul_of_nonneg_right (by linarith) (by positivity)
  have r4 : A ≤ ε ^ 2 * (27 / 20 * (n * M) + 11 / 10 * (n * T)) := by
    refine hifft.trans (mul_le_mul_of_nonneg_left ?_ q0.le)
    nlinarith
  rw [div_le_iff₀ n0]
  clear_value T
  clear hifft hB hVE hUE hpU hpD r2 r3
  have r5 : L ≤ ε ^ 2 * (67 / 10 * (n * M) + 62 / 10 * (n * T)) := by
    have : ε ^ 2 * T ≤ ε ^ 2 * (n * T) := mul_le_mul_of_nonneg_left (by nlinarith) q0.le
    rw [show 2 * ε ^ 2 * (n * M + T) = 2 * (ε ^ 2 * (n * M)) + 2 * (ε ^ 2 * T) by ring] at r1
    rw [show ε ^ 2 * (27 / 20 * (n * M) + 11 / 10 * (n * T)) = 27 / 20 * (ε ^ 2 * (n * M)) + 11 / 10 * (ε ^ 2 * (n * T)) by ring] at r4
    rw [show ε ^ 2 * (67 / 10 * (n * M) + 62 / 10 * (n * T)) = 67 / 10 * (ε ^ 2 * (n * M)) + 62 / 10 * (ε ^ 2 * (n * T)) by ring]
    generalize ε ^ 2 * (n * T) = a2 at *
    generalize ε ^ 2 * (n * M) = a1 at *
    generalize ε ^ 2 * T = a3 at *
    linarith
  refine r5.trans ?_
  rw [show (3 * ε) ^ 2 * (M + 1 / 2 ^ 100) * n = ε ^ 2 * (9 * (n * M) + 9 * (n * (1 / 2 ^ 100))) by ring]
  refine mul_le_mul_of_nonneg_left ?_ q0.le
  have : n * T ≤ n * (1 / 2 ^ 100) := mul_le_mul_of_nonneg_left hTb n0.le
  have : 0 ≤ n * (1 / 2 ^ 100) := by positivity
  linarith

/-- **C177 (band filter in double precision).**  Let the step of the record be `dt`, let the computed transforms be off by at most `ε` in the
root-mean-square sense, and let the limits keep clear of the harmonics.  The filtered record has as many samples as the record, and it differs from the
exactly filtered samples by at most `3 ε` times the root mean square of the record, in the root-mean-square sense. -/
theorem bandpass_double (F : NpFftD ε) (hε : 0 < ε) (hε' : ε ≤ 1 / 10) {t x : List ℚ} {dt : ℚ}
    (hdt : dt = f64 (t.getD 1 0 - t.getD 0 0)) (hmono : monotonicF64 t = .ok true) (hl : t.length = x.length) (hn : 2 ≤ x.length)
    (hn' : x.length ≤ 2 ^ 40) (hlo : 1 / 2 ^ 40 ≤ dt) (hhi : dt ≤ 2 ^ 40) {lo hi : ℚ} (h1 : ClearOf x.length dt lo) (h2 : ClearOf x.length dt hi) :
    ∃ y z, bandpassfilterF64 F t x lo hi = .ok y ∧ bandpassfilter (vec (realAxis x.length dt)) (vec (realVals x)) lo hi = .ok z ∧
      y.length = x.length ∧ z.length = x.length ∧
      (∑ j ∈ range x.length, ((y.getD j 0 : ℝ) - z.getD j 0) ^ 2) / x.length ≤ (3 * ε) ^ 2 * (meanSq x + 1 / 2 ^ 100) := by
  have d0 : 0 < dt := lt_of_lt_of_le (by positivity) hlo
  have d0' : (0 : ℝ) < dt := by exact_mod_cast d0
  have n0 : (0 : ℝ) < x.length := by exact_mod_cast (by omega : 0 < x.length)
  have hacc : AcceptedAxis (realAxis x.length dt) :=
    uniform_check_accepts_uniform (by simpa [realAxis] using hn) (uniformAxis_range x.length d0')
  have hra : (realAxis x.length (dt : ℝ)).length = (realVals x).length := by simp [realAxis, realVals]
  have hex := bandpassfilter_eq (isArr_vec (realAxis x.length dt)) (isArr_vec (realVals x)) hacc hra (lo : ℝ) (hi : ℝ)
  set Q := keptBins (realAxis x.length dt) (lo : ℝ) (hi : ℝ) with hQ
  -- the computed components
  obtain ⟨il, ih, hb, hk⟩ := bandIndices_spec (harmonic_axis_increasing hn d0) (by simp; omega) lo hi
  set X := (F.fft x).take (x.length / 2 + 1) with hX
  have hXl : X.length = x.length / 2 + 1 := by rw [hX, List.length_take, F.fft_length]; omega
  have hXg : ∀ k < x.length / 2 + 1, X.getD k 0 = (F.fft x).getD k 0 := by
    intro k hk
    rw [hX, List.getD_eq_getElem?_getD, List.getD_eq_getElem?_getD, List.getElem?_take, if_pos hk]
  have hband := band_double hdt (by omega) (by omega) hlo hhi (by rw [hl]; exact h1) (by rw [hl]; exact h2) X
  set Z := X.zipIdx.map fun p => if il ≤ p.2 ∧ p.2 < ih then p.1 else 0 with hZ
  have hZe : applyBandFilter (nyquistAxisF64 t) X lo hi = .ok Z := by
    rw [hband, hl]
    unfold applyBandFilter
    rw [hb]
    rfl
  have hZl : Z.length = x.length / 2 + 1 := by rw [hZ, List.length_map, List.length_zipIdx, hXl]
  have hZg : ∀ k < x.length / 2 + 1, cx (Z.getD k 0) = if Q k then cx ((F.fft x).getD k 0) else 0 := by
    intro k hk'
    have hkk := (hk k (by simpa using hk')).trans (kept_real hn lo hi hk')
    rw [← hXg k hk', List.getD_eq_getElem _ _ (by rw [hZl]; exact hk'), List.getD_eq_getElem _ _ (by rw [hXl]; exact hk')]
    simp only [hZ, List.getElem_map, List.getElem_zipIdx, zero_add]
    by_cases hc : Q k
    · rw [if_pos hc, if_pos (hkk.2 hc)]
    · rw [if_neg hc, if_neg (fun h => hc (hkk.1 h)), cx_zero]
  set U := unfoldF64 Z (decide (x.length % 2 = 1)) with hU
  obtain ⟨hUl, hUg⟩ := unfoldF64_getD hn hZl
  rw [← hU] at hUl hUg
  have hco : bandpassfilterF64 F t x lo hi = .ok ((F.ifft U).map Prod.fst) := by
    unfold bandpassfilterF64 time2freqNyquistF64
    rw [hmono]
    simp only [bind, Except.bind]
    rw [if_neg (by simp), if_neg (by simp [hl])]
    simp only [pure, Except.pure, hl]
    rw [hZe]
  refine ⟨_, _, hco, hex, by rw [List.length_map, F.ifft_length, hUl], by rw [maskFilt_length, realVals_length], ?_⟩
  -- the exact components
  set V : ℕ → ℂ := fun k => if Q (min k (x.length - k)) then coef (realVals x) k else 0 with hV
  have hVs : ∀ k < x.length, V k = symExt x.length (fun i => if Q i then coef (realVals x) i else 0) k := by
    intro k hk'
    rw [hV]
    unfold symExt
    beta_reduce
    by_cases hk2 : k < (x.length + 1) / 2
    · rw [if_pos hk2, show min k (x.length - k) = k by omega]
    · rw [if_neg hk2, show min k (x.length - k) = x.length - k by omega]
      have hc := coef_conj (realVals x) (k := k) (by rw [realVals_length]; omega) (by rw [realVals_length]; omega)
      rw [realVals_length] at hc
      by_cases hq : Q (x.length - k)
      · rw [if_pos hq, if_pos hq, hc, Complex.conj_conj]
      · rw [if_neg hq, if_neg hq, map_zero]
  have hzg : ∀ j < x.length, (maskFilt Q (realVals x)).getD j 0 = (inv x.length V j).re := by
    intro j hj
    unfold maskFilt
    rw [realVals_length, getD_map_range _ _ _ _ hj]
  set Uc : ℕ → ℂ := fun k => cx (U.getD k 0) with hUc
  set T : ℝ := (1 / 2 ^ 100) ^ 3 with hT
  have T0 : 0 < T := by positivity
  have M0 := meanSq_nonneg x
  have hE := coef_energy (x := x) (by omega)
  -- error of the unfolded components
  have hfft := F.fft_spec x
  unfold energy at hfft
  have e1 : ∑ k ∈ range x.length, Complex.normSq ((npFft (x.map fun (v : ℚ) => ((v : ℝ) : ℂ))).getD k 0) = (x.length : ℝ) ^ 2 * meanSq x := by
    rw [← hE]
    exact sum_congr rfl fun k hk => by rw [npFft_getD (mem_range.1 hk)]
  have e2 : ∑ k ∈ range x.length, Complex.normSq (cx ((F.fft x).getD k 0) - (npFft (x.map fun (v : ℚ) => ((v : ℝ) : ℂ))).getD k 0) =
      ∑ k ∈ range x.length, Complex.normSq (cx ((F.fft x).getD k 0) - coef (realVals x) k) :=
    sum_congr rfl fun k hk => by rw [npFft_getD (mem_range.1 hk)]
  rw [e1, e2] at hfft
  have hB : ∑ k ∈ range x.length, Complex.normSq (Uc k - V k) ≤ 2 * (ε ^ 2 * ((x.length : ℝ) ^ 2 * meanSq x + x.length * T)) := by
    have e3 : ∑ k ∈ range x.length, Complex.normSq (Uc k - V k) =
        ∑ k ∈ range x.length, Complex.normSq (symExt x.length (fun i => cx (Z.getD i 0)) k - symExt x.length (fun i => if Q i then coef (realVals x) i else 0) k) :=
      sum_congr rfl fun k hk => by
        rw [hVs k (mem_range.1 hk), ← hUg k (mem_range.1 hk)]
    rw [e3]
    refine (symExt_error _ _).trans (mul_le_mul_of_nonneg_left (le_trans ?_ hfft) (by norm_num))
    refine le_trans ?_ (half_le_all hn (g := fun k => Complex.normSq (cx ((F.fft x).getD k 0) - coef (realVals x) k)) fun k => Complex.normSq_nonneg _)
    refine sum_le_sum fun k hk => ?_
    rw [hZg k (mem_range.1 hk)]
    by_cases hq : Q k
    · rw [if_pos hq, if_pos hq]
    · rw [if_neg hq, if_neg hq, sub_zero, map_zero]
      exact Complex.normSq_nonneg _
  have hVE : ∑ k ∈ range x.length, Complex.normSq (V k) ≤ (x.length : ℝ) ^ 2 * meanSq x := by
    rw [← hE]
    refine sum_le_sum fun k _ => ?_
    rw [hV]
    beta_reduce
    split_ifs
    · exact le_rfl
    · rw [map_zero]; exact Complex.normSq_nonneg _
  have key := inverse_double F hε hε' (by omega) hUl hB hVE
  refine le_trans (le_of_eq ?_) key
  congr 1
  exact sum_congr rfl fun j hj => by rw [hzg j (mem_range.1 hj)]

end Verif
