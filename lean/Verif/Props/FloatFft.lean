import Verif.Props.FloatFftFine

/-! # The variance density spectrum of a record in double precision -/

namespace Verif
open Finset

variable {ε : ℝ}

/-- `m` fine bins are averaged into one, and the quotient that is rounded to `m` is not near a half. -/
def ClearFactor (n : ℕ) (dt dfDesired : ℚ) (m : ℕ) : Prop :=
  dfDesired = 0 ∧ m = 1 ∨ dfDesired ≠ 0 ∧ 1 ≤ m ∧ m ≤ 2 ^ 39 ∧ |dfDesired * (n * dt) - m| < 1 / 2 - 1 / 2 ^ 7

theorem ClearFactor.pos {n : ℕ} {dt df : ℚ} {m : ℕ} (h : ClearFactor n dt df m) : 1 ≤ m := by
  rcases h with h | h
  · exact h.2.ge
  · exact h.2.1

theorem ClearFactor.le {n : ℕ} {dt df : ℚ} {m : ℕ} (h : ClearFactor n dt df m) : m ≤ 2 ^ 39 := by
  rcases h with h | h
  · rw [h.2]; norm_num
  · exact h.2.2.1

/-- The frequency step in double precision. -/
def stepD (n : ℕ) (dt : ℚ) : ℚ := f64 (1 / f64 ((n : ℚ) * dt))

theorem nyquist_axis_getD {t : List ℚ} {dt : ℚ} (hdt : dt = f64 (t.getD 1 0 - t.getD 0 0)) (hn : 2 ≤ t.length) {k : ℕ} (hk : k < t.length / 2 + 1) :
    (nyquistAxisF64 t).getD k 0 = f64 ((k : ℚ) * stepD t.length dt) := by
  have hk' : k < t.length := by omega
  unfold nyquistAxisF64 fftAxisF64
  simp only []
  rw [← hdt, List.getD, List.getElem?_take, if_pos hk, ← List.getD_eq_getElem?_getD, map_range_getD hk']
  rfl

theorem nyquist_axis_length {t : List ℚ} (hn : 2 ≤ t.length) : (nyquistAxisF64 t).length = t.length / 2 + 1 := by
  unfold nyquistAxisF64 fftAxisF64
  simp only [List.length_take, List.length_map, List.length_range]
  omega

theorem stepD_near {n : ℕ} {dt : ℚ} (hn : 1 ≤ n) (hn' : n ≤ 2 ^ 40) (hlo : 1 / 2 ^ 40 ≤ dt) (hhi : dt ≤ 2 ^ 40) :
    ∃ e : ℚ, |e| ≤ 1 / 2 ^ 51 ∧ stepD n dt = 1 / (n * dt) * (1 + e) := by
  have nq : (1 : ℚ) ≤ n := by exact_mod_cast hn
  have nq' : (n : ℚ) ≤ 2 ^ 40 := by exact_mod_cast hn'
  exact recip_near nq (by linarith) hlo hhi

theorem stepD_pos {n : ℕ} {dt : ℚ} (hn : 1 ≤ n) (hn' : n ≤ 2 ^ 40) (hlo : 1 / 2 ^ 40 ≤ dt) (hhi : dt ≤ 2 ^ 40) : 0 < stepD n dt := by
  obtain ⟨e, he, h⟩ := stepD_near hn hn' hlo hhi
  have d0 : 0 < dt := lt_of_lt_of_le (by positivity) hlo
  have n0 : (0 : ℚ) < n := by exact_mod_cast hn
  rw [h]
  have := (abs_le.1 he).1
  have h1 : 0 < 1 + e := by norm_num at this ⊢; linarith
  positivity

/-- The number of averaged bins in double precision. -/
theorem factorD {t : List ℚ} {dt df : ℚ} {m : ℕ} (hdt : dt = f64 (t.getD 1 0 - t.getD 0 0)) (hn : 2 ≤ t.length) (hn' : t.length ≤ 2 ^ 40)
    (hlo : 1 / 2 ^ 40 ≤ dt) (hhi : dt ≤ 2 ^ 40) (hm : ClearFactor t.length dt df m) : nFactorF64 (nyquistAxisF64 t) df = m := by
  rcases hm with ⟨rfl, rfl⟩ | ⟨h0, h1, h2, h3⟩
  · unfold nFactorF64; simp
  · have e0 := nyquist_axis_getD hdt hn (k := 0) (by omega)
    have e1 := nyquist_axis_getD hdt hn (k := 1) (by omega)
    have hs := stepD_pos (by omega : 1 ≤ t.length) hn' hlo hhi
    have hd : IsDouble (stepD t.length dt) := f64_double _
    rw [Nat.cast_zero, zero_mul, f64_zero] at e0
    rw [Nat.cast_one, one_mul, f64_of_double hd] at e1
    have hl := nyquist_axis_length hn
    obtain ⟨f0, f1, fs, hf⟩ : ∃ f0 f1 fs, nyquistAxisF64 t = f0 :: f1 :: fs := by
      rcases h : nyquistAxisF64 t with _ | ⟨a, _ | ⟨b, l⟩⟩
      · rw [h] at hl; simp at hl
      · rw [h] at hl; simp at hl; omega
      · exact ⟨_, _, _, rfl⟩
    rw [hf] at e0 e1
    have e0 : f0 = 0 := e0
    have e1 : f1 = stepD t.length dt := e1
    subst e0 e1
    rw [hf]
    obtain ⟨e, he, hst⟩ := stepD_near (by omega : 1 ≤ t.length) hn' hlo hhi
    have d0 : 0 < dt := lt_of_lt_of_le (by positivity) hlo
    have n0 : (0 : ℚ) < t.length := by exact_mod_cast (by omega : 0 < t.length)
    have he' := abs_le.1 he
    have hp : 0 < 1 + e := by have := he'.1; norm_num at this ⊢; linarith
    set w := df * (t.length * dt) with hw
    have hq : df / (stepD t.length dt - 0) = w / (1 + e) := by
      rw [sub_zero, hst, hw]; field_simp
    have hm0 : (1 : ℚ) ≤ m := by exact_mod_cast h1
    have hm1 : (m : ℚ) ≤ 2 ^ 39 := by exact_mod_cast h2
    have hwm : |w| ≤ 2 ^ 39 + 1 := by
      have := abs_sub_abs_le_abs_sub w m
      rw [abs_of_nonneg (by linarith : (0 : ℚ) ≤ m)] at this
      generalize |w| = a at *
      generalize |w - (m : ℚ)| = b at *
      clear hst hq hw h2
      generalize (m : ℚ) = c at *
      norm_num at this h3 hm1 ⊢
      linarith
    have hdiff : |w / (1 + e) - w| ≤ 1 / 2 ^ 11 := by
      rw [show w / (1 + e) - w = w * (-e) / (1 + e) by field_simp; ring, abs_div, abs_of_pos hp, div_le_iff₀ hp, abs_mul, abs_neg]
      have a1 : |w| * |e| ≤ (2 ^ 39 + 1) * (1 / 2 ^ 51) := mul_le_mul hwm he (abs_nonneg _) (by positivity)
      refine a1.trans ?_
      have := he'.1
      norm_num at this ⊢
      linarith
    have hd2 := abs_le.1 hdiff
    have hw2 := abs_le.1 hwm
    have h32 := abs_lt.1 h3
    have := (factor_double (fs := fs) (f0 := 0) (f1 := stepD t.length dt) isDouble_zero hd hs h0 (m := m) (by
      rw [hq, abs_le]
      generalize w / (1 + e) = v at *
      have a1 := hd2.1; have a2 := hd2.2; have a3 := hw2.1; have a4 := hw2.2
      norm_num at a1 a2 a3 a4 ⊢
      constructor <;> linarith) (by
      rw [hq, abs_lt]
      generalize w / (1 + e) = v at *
      have a1 := hd2.1; have a2 := hd2.2; have a3 := h32.1; have a4 := h32.2
      push_cast
      norm_num at a1 a2 a3 a4 ⊢
      constructor <;> linarith)).1
    rw [this]
    exact max_eq_left (by exact_mod_cast h1)

/-- The number of averaged bins in exact arithmetic. -/
theorem factor_real {n : ℕ} {dt df : ℚ} {m : ℕ} (hn : 2 ≤ n) (hdt : 0 < dt) (hm : ClearFactor n dt df m) :
    nFactorOf (freqAxis (n / 2 + 1) (1 / (n * (dt : ℝ)))) (df : ℝ) = .ok m := by
  rcases hm with ⟨rfl, rfl⟩ | ⟨h0, h1, h2, h3⟩
  · unfold nFactorOf; simp
  · have hr : (0 : ℝ) < 1 / (n * (dt : ℝ)) := by
      have : (0 : ℝ) < dt := by exact_mod_cast hdt
      have : (0 : ℝ) < n := by exact_mod_cast (by omega : 0 < n)
      positivity
    obtain ⟨l, hl⟩ : ∃ l, freqAxis (n / 2 + 1) (1 / (n * (dt : ℝ))) = 0 :: (1 / (n * (dt : ℝ))) :: l := by
      unfold freqAxis
      rw [show n / 2 + 1 = n / 2 - 1 + 1 + 1 by omega, List.range_succ_eq_map, List.range_succ_eq_map]
      simp
    have n0 : (0 : ℝ) < n := by exact_mod_cast (by omega : 0 < n)
    have d0 : (0 : ℝ) < dt := by exact_mod_cast hdt
    have hq : (df : ℝ) / (1 / (n * (dt : ℝ)) - 0) = df * (n * dt) := by rw [sub_zero]; field_simp
    have h3' : |(df : ℝ) * (n * dt) - m| < 1 / 2 - 1 / 2 ^ 7 := by
      have := (Rat.cast_lt (K := ℝ)).2 h3
      push_cast at this
      exact this
    rw [hl]
    obtain ⟨k, hk, hk2⟩ := averaging_factor (l := l) (df := (df : ℝ)) (f0 := 0) (f1 := 1 / (n * (dt : ℝ))) (by linarith)
    rw [hk]
    congr 1
    apply isFactor_unique hk2
    have hm0 : (1 : ℝ) ≤ m := by exact_mod_cast h1
    rw [← hq] at h3'
    have h4 := abs_lt.1 h3'
    refine ⟨h1, fun h => absurd (by exact_mod_cast h) h0, fun _ => ⟨?_, fun h => ?_⟩, fun h => ?_⟩
    · rw [abs_sub_comm]
      push_cast
      linarith
    · rw [abs_sub_comm] at h
      push_cast at h
      rw [h] at h3'
      norm_num at h3'
    · exfalso
      have a := h4.1
      norm_num at a h
      linarith

/-- The mean of a block of non-negative doubles. -/
theorem block_mean_double (R : NpSum) {l : List ℚ} {m i N : ℕ} (hm : 0 < m) (hm' : m ≤ 2 ^ 50) (hN : N ≤ l.length) (hi : i < N / m)
    (hd : ∀ x ∈ l, IsDouble x) (h0 : ∀ x ∈ l, 0 ≤ x) :
    |meanD R (pySlice l (i * m) ((i + 1) * m)) - (∑ j ∈ range m, l.getD (i * m + j) 0) / (m : ℚ)| ≤
      (m : ℚ) / 2 ^ 52 * ((∑ j ∈ range m, l.getD (i * m + j) 0) / (m : ℚ)) + 1 / 2 ^ 200 := by
  have hb := slice_bound hi
  have hlen : (pySlice l (i * m) ((i + 1) * m)).length = m := by
    rw [pySlice_eq l 0 (le_trans hb hN), List.length_map, List.length_range, Nat.add_mul, Nat.one_mul]; omega
  have hsum : mean (pySlice l (i * m) ((i + 1) * m)) = (∑ j ∈ range m, l.getD (i * m + j) 0) / (m : ℚ) := by
    unfold mean
    rw [hlen, pySlice_eq l 0 (le_trans hb hN), list_sum_map_range]
    have e : (i + 1) * m - i * m = m := by rw [Nat.add_mul, Nat.one_mul]; omega
    rw [e]
  have hmem : ∀ y ∈ pySlice l (i * m) ((i + 1) * m), y ∈ l := fun y hy => List.mem_of_mem_take (List.mem_of_mem_drop hy)
  have h := mean_rd R (l := pySlice l (i * m) ((i + 1) * m)) (by
    intro e; rw [e] at hlen; simp at hlen; omega) (fun y hy => hd y (hmem y hy)) (fun y hy => h0 y (hmem y hy)) (by rw [hlen]; exact hm')
  rwa [hsum, hlen] at h

theorem mem_of_getD {l : List ℚ} {P : ℚ → Prop} (h : ∀ k < l.length, P (l.getD k 0)) : ∀ y ∈ l, P y := by
  intro y hy
  obtain ⟨k, hk, rfl⟩ := List.getElem_of_mem hy
  have := h k hk
  rwa [List.getD_eq_getElem _ _ hk] at this

/-- The spectrum in double precision before averaging. -/
theorem computeF64_eq (F : NpFftD ε) (R : NpSum) {t x : List ℚ} {dt : ℚ} (hdt : dt = f64 (t.getD 1 0 - t.getD 0 0))
    (hmono : monotonicF64 t = .ok true) (hl : t.length = x.length) (hn : 2 ≤ x.length) (df : ℚ) :
    computeSpectrumTimeSeriesF64 F R t x df = .ok (frequencyAveragingF64 R (nyquistAxisF64 t)
      ((List.range (x.length / 2 + 1)).map (rawDensD F x dt)) df) := by
  unfold computeSpectrumTimeSeriesF64 time2freqNyquistF64
  rw [hmono]
  simp only [bind, Except.bind]
  rw [if_neg (by simp), if_neg (by simp [hl])]
  simp only [pure, Except.pure]
  have e0 := nyquist_axis_getD hdt (by omega) (k := 0) (by omega)
  have e1 := nyquist_axis_getD hdt (by omega) (k := 1) (by omega)
  have hd : IsDouble (stepD t.length dt) := f64_double _
  rw [Nat.cast_zero, zero_mul, f64_zero] at e0
  rw [Nat.cast_one, one_mul, f64_of_double hd] at e1
  rw [e0, e1, sub_zero, f64_of_double hd]
  have hS : rawDensityF64 ((F.fft x).take (t.length / 2 + 1)) (stepD t.length dt) t.length = (List.range (x.length / 2 + 1)).map (rawDensD F x dt) := by
    unfold rawDensityF64
    apply List.ext_getElem
    · simp [F.fft_length, hl]; omega
    · intro k h1 h2
      have hk : k < x.length / 2 + 1 := by simpa using h2
      have hk' : k < (F.fft x).length := by rw [F.fft_length]; omega
      rw [List.getElem_map, List.getElem_map, List.getElem_range, List.getElem_take]
      unfold rawDensD rawFactor
      rw [List.getD_eq_getElem _ _ hk']
      simp only [hl]
      rfl
  rw [hS]

/-- **C176 (spectrum in double precision).**  Let the step of the record be `dt`, and let the computed transform be off by at most `ε` in the
root-mean-square sense.  The computed spectrum and the exact spectrum of the same samples on the axis `0, dt, 2 dt, ...` have the same number of bins; the
frequencies agree up to a relative error of `(m + 8) / 2 ^ 52`, where `m` is the number of averaged bins; the densities differ, added up over all bins and
multiplied with the width `m / (n dt)` of a bin, by at most `9/2 ε + m / 2 ^ 50` of the mean square of the record. -/
theorem spectrum_double (F : NpFftD ε) (R : NpSum) (hε : 1 / 2 ^ 45 ≤ ε) (hε' : ε ≤ 1 / 10) {t x : List ℚ} {dt : ℚ}
    (hdt : dt = f64 (t.getD 1 0 - t.getD 0 0)) (hmono : monotonicF64 t = .ok true) (hl : t.length = x.length) (hn : 2 ≤ x.length)
    (hn' : x.length ≤ 2 ^ 40) (hlo : 1 / 2 ^ 40 ≤ dt) (hhi : dt ≤ 2 ^ 40) {df : ℚ} {m : ℕ} (hm : ClearFactor x.length dt df m) :
    ∃ f S f' S', computeSpectrumTimeSeriesF64 F R t x df = .ok (f, S) ∧
      computeSpectrumTimeSeries (vec (realAxis x.length dt)) (vec (realVals x)) df = .ok (f', S') ∧
      f.length = (x.length / 2 + 1) / m ∧ f'.length = f.length ∧ S.length = f.length ∧ S'.length = f.length ∧
      (∀ i < f.length, |(f.getD i 0 : ℝ) - f'.getD i 0| ≤ (m + 8) / 2 ^ 52 * f'.getD i 0 + 1 / 2 ^ 200) ∧
      (∑ i ∈ range f.length, |(S.getD i 0 : ℝ) - S'.getD i 0|) * (m * (1 / (x.length * dt))) ≤
        (9 / 2 * ε + m / 2 ^ 50) * (meanSq x + 1 / 2 ^ 100) := by
  have d0 : 0 < dt := lt_of_lt_of_le (by positivity) hlo
  have d0' : (0 : ℝ) < dt := by exact_mod_cast d0
  have n0 : (0 : ℝ) < x.length := by exact_mod_cast (by omega : 0 < x.length)
  have hm1 := hm.pos
  have hm2 := hm.le
  have mq : (1 : ℝ) ≤ m := by exact_mod_cast hm1
  have mq' : (m : ℝ) ≤ 2 ^ 39 := by exact_mod_cast hm2
  have hacc : AcceptedAxis (realAxis x.length dt) :=
    uniform_check_accepts_uniform (by simpa [realAxis] using hn) (uniformAxis_range x.length d0')
  have hra : (realAxis x.length (dt : ℝ)).length = (realVals x).length := by simp [realAxis, realVals]
  -- the exact spectrum
  have hex := rawSpectrum_eq (isArr_vec (realAxis x.length dt)) (isArr_vec (realVals x)) hacc hra (df : ℝ)
  have hfac := factor_real hn d0 hm
  rw [← dfOf_realAxis hn] at hfac
  have hS' : ((List.range ((realVals x).length / 2 + 1)).map fun k =>
      2 * Complex.normSq (coef (realVals x) k) / (dfOf (realAxis x.length dt) * (realVals x).length * (realVals x).length)) =
      (List.range (x.length / 2 + 1)).map (rawDens x dt) := by
    rw [realVals_length]; rfl
  rw [hS', realVals_length, frequencyAveragingL_eq hfac hm1 (by simp) (by simp [freqAxis])] at hex
  -- the computed spectrum
  have hco := computeF64_eq F R hdt hmono hl hn df
  have hnl := nyquist_axis_length (t := t) (by omega)
  rw [hl] at hnl
  unfold frequencyAveragingF64 at hco
  rw [factorD hdt (by omega) (by omega) hlo hhi (by rw [hl]; exact hm), hnl, Int.toNat_natCast] at hco
  have hbins : nCoarseF64 (x.length / 2 + 1) m = (((x.length / 2 + 1) / m : ℕ) : ℤ) :=
    bins_double (by omega) hm1 (by omega)
  simp only [hbins, Int.toNat_natCast] at hco
  set N := (x.length / 2 + 1) / m with hN
  refine ⟨_, _, _, _, hco, hex, by simp, by simp [freqAxis, hN], by simp, by simp [freqAxis, hN], ?_, ?_⟩
  · intro i hi
    have hi : i < N := by simpa using hi
    have hbl := slice_bound (hN ▸ hi)
    rw [getD_map_range _ _ _ _ hi, getD_map_range _ _ _ _ (by simpa [freqAxis] using hi)]
    have hdbl : ∀ y ∈ nyquistAxisF64 t, IsDouble y := mem_of_getD fun k hk => by
      rw [nyquist_axis_getD hdt (by omega) (by omega)]; exact f64_double _
    have hsp := stepD_pos (by omega : 1 ≤ t.length) (by omega) hlo hhi
    have hnn : ∀ y ∈ nyquistAxisF64 t, 0 ≤ y := mem_of_getD fun k hk => by
      rw [nyquist_axis_getD hdt (by omega) (by omega)]; exact f64_nonneg (by positivity)
    have h1 := block_mean_double R hm1 (by omega) hnl.ge (hN ▸ hi) hdbl hnn
    have h1' := (Rat.cast_le (K := ℝ)).2 h1
    push_cast at h1'
    -- each frequency
    have h2 : ∀ j ∈ range m, |((nyquistAxisF64 t).getD (i * m + j) 0 : ℝ) - (freqAxis (x.length / 2 + 1) (dfOf (realAxis x.length dt))).getD (i * m + j) 0| ≤
        (freqAxis (x.length / 2 + 1) (dfOf (realAxis x.length dt))).getD (i * m + j) 0 / 2 ^ 50 := by
      intro j hj
      have hj := mem_range.1 hj
      have hk : i * m + j < x.length / 2 + 1 := by rw [Nat.add_mul, Nat.one_mul] at hbl; omega
      unfold freqAxis
      rw [getD_map_range _ _ _ _ hk, dfOf_realAxis hn]
      have h3 := fft_axis_double hdt (by omega) (by omega) hlo hhi (i := i * m + j) (by omega)
      have e3 : (nyquistAxisF64 t).getD (i * m + j) 0 = (fftAxisF64 t).getD (i * m + j) 0 := by
        unfold nyquistAxisF64
        rw [List.getD, List.getElem?_take, if_pos (by omega), ← List.getD_eq_getElem?_getD]
      rw [e3]
      have h4 := (Rat.cast_le (K := ℝ)).2 h3
      unfold harmonic at h4
      rw [hl] at h4
      push_cast at h4 ⊢
      rw [mul_one_div]
      exact h4
    set g : ℕ → ℝ := fun k => (freqAxis (x.length / 2 + 1) (dfOf (realAxis x.length dt))).getD k 0 with hg
    have h5 : |(∑ j ∈ range m, ((nyquistAxisF64 t).getD (i * m + j) 0 : ℝ)) / m - (∑ j ∈ range m, g (i * m + j)) / m| ≤
        (∑ j ∈ range m, g (i * m + j)) / m / 2 ^ 50 := by
      rw [← sub_div, abs_div, abs_of_pos (by linarith : (0 : ℝ) < m), ← sum_sub_distrib, div_right_comm]
      refine div_le_div_of_nonneg_right ?_ (by linarith)
      rw [sum_div]
      exact (abs_sum_le_sum_abs _ _).trans (sum_le_sum h2)
    have h6 : 0 ≤ (∑ j ∈ range m, g (i * m + j)) / m := by
      refine div_nonneg (sum_nonneg fun j hj => ?_) (by linarith)
      have := (abs_nonneg _).trans (h2 j hj)
      change 0 ≤ g (i * m + j) / 2 ^ 50 at this
      have h7 : g (i * m + j) = g (i * m + j) / 2 ^ 50 * 2 ^ 50 := by field_simp
      rw [h7]
      positivity
    change |_ - (∑ j ∈ range m, g (i * m + j)) / (m : ℝ)| ≤ (m + 8) / 2 ^ 52 * ((∑ j ∈ range m, g (i * m + j)) / (m : ℝ)) + 1 / 2 ^ 200
    generalize (∑ j ∈ range m, g (i * m + j)) / (m : ℝ) = G at *
    generalize (∑ j ∈ range m, ((nyquistAxisF64 t).getD (i * m + j) 0 : ℝ)) / (m : ℝ) = H at *
    have h8 := abs_add_le ((meanD R (pySlice (nyquistAxisF64 t) (i * m) ((i + 1) * m)) : ℝ) - H) (H - G)
    rw [sub_add_sub_cancel] at h8
    refine h8.trans ?_
    have h9 := (abs_le.1 h5).2
    have h10 : (m : ℝ) / 2 ^ 52 * H ≤ m / 2 ^ 52 * (G + G / 2 ^ 50) := mul_le_mul_of_nonneg_left (by linarith) (by positivity)
    have h11 : (m : ℝ) / 2 ^ 52 * (G / 2 ^ 50) ≤ G / 2 ^ 50 := by
      have : (m : ℝ) / 2 ^ 52 ≤ 1 := by rw [div_le_one (by positivity)]; exact mq'.trans (by norm_num)
      have := mul_le_mul_of_nonneg_right this (by positivity : 0 ≤ G / 2 ^ 50)
      linarith
    have h12 : ((m : ℝ) + 8) / 2 ^ 52 * G = m / 2 ^ 52 * G + (G / 2 ^ 50 + G / 2 ^ 50) := by ring
    rw [h12]
    rw [mul_add] at h10
    linarith
  · rw [List.length_map, List.length_range]
    have hr0 := rawFactor_nonneg (by omega : 1 ≤ x.length) hn' hlo hhi
    set l := (List.range (x.length / 2 + 1)).map (rawDensD F x dt) with hld
    have hll : l.length = x.length / 2 + 1 := by simp [hld]
    have hgd : ∀ k < x.length / 2 + 1, l.getD k 0 = rawDensD F x dt k := fun k hk => getD_map_range _ _ _ _ hk
    have hdbl : ∀ y ∈ l, IsDouble y := mem_of_getD fun k hk => by
      rw [hgd k (hll ▸ hk)]; exact f64_double _
    have hnn : ∀ y ∈ l, 0 ≤ y := mem_of_getD fun k hk => by
      rw [hgd k (hll ▸ hk)]; exact density_nonneg _ _ _ hr0
    set a : ℕ → ℝ := fun k => |(rawDensD F x dt k : ℝ) - rawDens x dt k| with ha
    set s : ℕ → ℝ := fun k => (rawDensD F x dt k : ℝ) with hs
    have s0 : ∀ k, 0 ≤ s k := fun k => by
      have : 0 ≤ rawDensD F x dt k := density_nonneg _ _ _ hr0
      exact (Rat.cast_nonneg (K := ℝ)).2 this
    have hbin : ∀ i ∈ range N, |((((List.range N).map fun i => meanD R (pySlice l (i * m) ((i + 1) * m))).getD i 0 : ℚ) : ℝ) -
        ((List.range ((freqAxis (x.length / 2 + 1) (dfOf (realAxis x.length dt))).length / m)).map fun i =>
          (∑ j ∈ range m, ((List.range (x.length / 2 + 1)).map (rawDens x dt)).getD (i * m + j) 0) / (m : ℝ)).getD i 0| ≤
        (1 / m) * ∑ j ∈ range m, a (i * m + j) + 1 / 2 ^ 52 * ∑ j ∈ range m, s (i * m + j) + 1 / 2 ^ 200 := by
      intro i hi
      have hi := mem_range.1 hi
      have hbl := slice_bound (hN ▸ hi)
      have hk : ∀ j ∈ range m, i * m + j < x.length / 2 + 1 := fun j hj => by
        have := mem_range.1 hj
        rw [Nat.add_mul, Nat.one_mul] at hbl; omega
      rw [getD_map_range _ _ _ _ hi, getD_map_range _ _ _ _ (by simpa [freqAxis] using hi)]
      have h1 := block_mean_double R hm1 (by omega) hll.ge (hN ▸ hi) hdbl hnn
      have h1' := (Rat.cast_le (K := ℝ)).2 h1
      push_cast at h1'
      have e1 : ∑ j ∈ range m, (l.getD (i * m + j) 0 : ℝ) = ∑ j ∈ range m, s (i * m + j) :=
        sum_congr rfl fun j hj => by rw [hgd _ (hk j hj)]
      have e2 : ∑ j ∈ range m, ((List.range (x.length / 2 + 1)).map (rawDens x dt)).getD (i * m + j) 0 = ∑ j ∈ range m, rawDens x dt (i * m + j) :=
        sum_congr rfl fun j hj => getD_map_range _ _ _ _ (hk j hj)
      rw [e1] at h1'
      rw [e2]
      have h2 : |(∑ j ∈ range m, s (i * m + j)) / m - (∑ j ∈ range m, rawDens x dt (i * m + j)) / m| ≤ (1 / m) * ∑ j ∈ range m, a (i * m + j) := by
        rw [← sub_div, abs_div, abs_of_pos (by linarith : (0 : ℝ) < m), ← sum_sub_distrib, one_div_mul_eq_div]
        exact div_le_div_of_nonneg_right (abs_sum_le_sum_abs _ _) (by linarith)
      have h3 := abs_add_le ((meanD R (pySlice l (i * m) ((i + 1) * m)) : ℝ) - (∑ j ∈ range m, s (i * m + j)) / m)
        ((∑ j ∈ range m, s (i * m + j)) / m - (∑ j ∈ range m, rawDens x dt (i * m + j)) / m)
      rw [sub_add_sub_cancel] at h3
      have e3 : (m : ℝ) / 2 ^ 52 * ((∑ j ∈ range m, s (i * m + j)) / m) = 1 / 2 ^ 52 * ∑ j ∈ range m, s (i * m + j) := by
        field_simp
      rw [e3] at h1'
      linarith
    have hraw := raw_bins_error F hε hε' (x := x) (dt := dt) hn hn' hlo hhi
    change (∑ k ∈ range (x.length / 2 + 1), a k) * (1 / (x.length * dt)) ≤ _ at hraw
    have htot := rawDens_total (x := x) hn d0'
    have hsub : N * m ≤ x.length / 2 + 1 := Nat.div_mul_le_self _ _
    have a0 : ∀ k, 0 ≤ a k := fun k => abs_nonneg _
    have hA : ∑ i ∈ range N, ∑ j ∈ range m, a (i * m + j) ≤ ∑ k ∈ range (x.length / 2 + 1), a k := by
      rw [sum_blocks]
      exact sum_le_sum_of_subset_of_nonneg (range_subset_range.2 hsub) fun k _ _ => a0 k
    have hSs : ∑ i ∈ range N, ∑ j ∈ range m, s (i * m + j) ≤ ∑ k ∈ range (x.length / 2 + 1), s k := by
      rw [sum_blocks]
      exact sum_le_sum_of_subset_of_nonneg (range_subset_range.2 hsub) fun k _ _ => s0 k
    have hsa : ∑ k ∈ range (x.length / 2 + 1), s k ≤ ∑ k ∈ range (x.length / 2 + 1), rawDens x dt k + ∑ k ∈ range (x.length / 2 + 1), a k := by
      rw [← sum_add_distrib]
      exact sum_le_sum fun k _ => by rw [hs, ha]; linarith [le_abs_self ((rawDensD F x dt k : ℝ) - rawDens x dt k)]
    set A := ∑ k ∈ range (x.length / 2 + 1), a k
    set P := ∑ k ∈ range (x.length / 2 + 1), rawDens x dt k
    set Q := ∑ k ∈ range (x.length / 2 + 1), s k
    set D : ℝ := 1 / (x.length * dt) with hD
    have D0 : 0 < D := by positivity
    have hsum := sum_le_sum hbin
    rw [sum_add_distrib, sum_add_distrib, ← mul_sum, ← mul_sum, sum_const, card_range, nsmul_eq_mul] at hsum
    have hsum2 : (1 / (m : ℝ)) * A + 1 / 2 ^ 52 * Q + N * (1 / 2 ^ 200) ≥ _ := le_trans hsum (by gcongr)
    refine (mul_le_mul_of_nonneg_right hsum2 (by positivity)).trans ?_
    have e4 : (1 / (m : ℝ) * A + 1 / 2 ^ 52 * Q + N * (1 / 2 ^ 200)) * (m * D) = A * D + m / 2 ^ 52 * (Q * D) + (N * m : ℝ) * D * (1 / 2 ^ 200) := by
      field_simp
    rw [e4]
    have t1 : (N * m : ℝ) * D ≤ 2 ^ 40 := by
      have h1 : (N * m : ℝ) ≤ x.length := by exact_mod_cast (by omega : N * m ≤ x.length)
      have h2 : (1 : ℝ) / 2 ^ 40 ≤ dt := by
        have := (Rat.cast_le (K := ℝ)).2 hlo
        push_cast at this
        exact this
      calc (N * m : ℝ) * D ≤ x.length * D := mul_le_mul_of_nonneg_right h1 D0.le
        _ = 1 / dt := by rw [hD]; field_simp
        _ ≤ 1 / (1 / 2 ^ 40) := one_div_le_one_div_of_le (by positivity) h2
        _ = 2 ^ 40 := by norm_num
    have t2 : Q * D ≤ P * D + A * D := by rw [← add_mul]; exact mul_le_mul_of_nonneg_right hsa D0.le
    have ms := meanSq_nonneg x
    have t3 : 22 / 5 * ε * (meanSq x + 1 / 2 ^ 100) ≤ 1 / 2 * (meanSq x + 1 / 2 ^ 100) :=
      mul_le_mul_of_nonneg_right (by linarith) (by positivity)
    have t4 : m / 2 ^ 52 * (Q * D) ≤ m / 2 ^ 52 * (5 / 2 * (meanSq x + 1 / 2 ^ 100)) := by
      refine mul_le_mul_of_nonneg_left ?_ (by positivity)
      have : (0 : ℝ) < 1 / 2 ^ 100 := by positivity
      linarith
    have t5 : (1 : ℝ) / 2 ^ 52 * (1 / 2 ^ 100) ≤ m / 2 ^ 52 * (meanSq x + 1 / 2 ^ 100) := by
      have : (0 : ℝ) < 1 / 2 ^ 100 := by positivity
      apply mul_le_mul _ (by linarith) (by positivity) (by positivity)
      gcongr
    have t6 : (N * m : ℝ) * D * (1 / 2 ^ 200) ≤ 1 / 2 ^ 52 * (1 / 2 ^ 100) := by
      calc _ ≤ (2 : ℝ) ^ 40 * (1 / 2 ^ 200) := mul_le_mul_of_nonneg_right t1 (by positivity)
        _ ≤ _ := by norm_num
    have e5 : (9 / 2 * ε + m / 2 ^ 50) * (meanSq x + 1 / 2 ^ 100) =
        22 / 5 * ε * (meanSq x + 1 / 2 ^ 100) + 1 / 10 * ε * (meanSq x + 1 / 2 ^ 100) + 4 * (m / 2 ^ 52 * (meanSq x + 1 / 2 ^ 100)) := by ring
    have e6 : (m : ℝ) / 2 ^ 52 * (5 / 2 * (meanSq x + 1 / 2 ^ 100)) = 5 / 2 * (m / 2 ^ 52 * (meanSq x + 1 / 2 ^ 100)) := by ring
    rw [e5]
    rw [e6] at t4
    have ε0 : 0 < ε := lt_of_lt_of_le (by positivity) hε
    have t7 : 0 ≤ 1 / 10 * ε * (meanSq x + 1 / 2 ^ 100) := by positivity
    have t8 : (0 : ℝ) ≤ 1 / 2 ^ 52 * (1 / 2 ^ 100) := by positivity
    linarith

theorem realVals_map_sq (x : List ℚ) : ((realVals x).map (· ^ 2)).sum / (x.length : ℝ) = meanSq x := by
  unfold meanSq realVals
  rw [List.map_map]
  rfl

/-- **C176 (energy).**  The computed raw spectrum (no averaging): its sum times its frequency step is the mean square plus the squared mean (plus, for an
even number of samples, the squared alternating mean), up to `5 ε` times the mean square. -/
theorem raw_energy_double (F : NpFftD ε) (R : NpSum) (hε : 1 / 2 ^ 45 ≤ ε) (hε' : ε ≤ 1 / 10) {t x : List ℚ} {dt : ℚ}
    (hdt : dt = f64 (t.getD 1 0 - t.getD 0 0)) (hmono : monotonicF64 t = .ok true) (hl : t.length = x.length) (hn : 2 ≤ x.length)
    (hn' : x.length ≤ 2 ^ 40) (hlo : 1 / 2 ^ 40 ≤ dt) (hhi : dt ≤ 2 ^ 40) :
    ∃ f S, computeSpectrumTimeSeriesF64 F R t x 0 = .ok (f, S) ∧ f.length = x.length / 2 + 1 ∧ S.length = x.length / 2 + 1 ∧
      |((S.sum * (f.getD 1 0 - f.getD 0 0) : ℚ) : ℝ) - (meanSq x + ((realVals x).sum / x.length) ^ 2 +
          if Even x.length then ((∑ j ∈ range x.length, (-1) ^ j * (realVals x).getD j 0) / x.length) ^ 2 else 0)| ≤
        5 * ε * (meanSq x + 1 / 2 ^ 100) := by
  have d0 : 0 < dt := lt_of_lt_of_le (by positivity) hlo
  have d0' : (0 : ℝ) < dt := by exact_mod_cast d0
  have n0 : (0 : ℝ) < x.length := by exact_mod_cast (by omega : 0 < x.length)
  have ε0 : 0 < ε := lt_of_lt_of_le (by positivity) hε
  obtain ⟨f, S, f', S', h1, h2, l1, l2, l3, l4, hf, hS⟩ := spectrum_double F R hε hε' hdt hmono hl hn hn' hlo hhi (df := 0) (m := 1) (.inl ⟨rfl, rfl⟩)
  rw [Nat.div_one] at l1
  have hacc : AcceptedAxis (realAxis x.length dt) :=
    uniform_check_accepts_uniform (by simpa [realAxis] using hn) (uniformAxis_range x.length d0')
  have hra : (realAxis x.length (dt : ℝ)).length = (realVals x).length := by simp [realAxis, realVals]
  obtain ⟨f'', S'', h3, l5, l6, hfr, hE⟩ := raw_spectrum_energy (isArr_vec (realAxis x.length dt)) (isArr_vec (realVals x)) hacc hra
  rw [Rat.cast_zero] at h2
  rw [h2] at h3
  obtain ⟨rfl, rfl⟩ : f' = f'' ∧ S' = S'' := by simpa using h3
  have hstep : (realAxis x.length (dt : ℝ)).getD 1 0 - (realAxis x.length (dt : ℝ)).getD 0 0 = dt := by
    unfold realAxis
    rw [getD_map_range _ _ _ _ (by omega), getD_map_range _ _ _ _ (by omega)]
    push_cast; ring
  rw [realVals_length, hstep] at hfr
  rw [realVals_length, realVals_map_sq] at hE
  have g0 := hfr 0 (by omega)
  have g1 := hfr 1 (by omega)
  rw [Nat.cast_zero, zero_div] at g0
  rw [Nat.cast_one] at g1
  -- the total of the exact spectrum
  have htot : S'.sum * (1 / (x.length * dt)) ≤ 2 * meanSq x := by
    have e := rawSpectrum_eq (isArr_vec (realAxis x.length dt)) (isArr_vec (realVals x)) hacc hra 0
    have hid := averaging_identity (isArr_vec (freqAxis (x.length / 2 + 1) (dfOf (realAxis x.length dt))))
      (isArr_vec ((List.range (x.length / 2 + 1)).map (rawDens x dt))) (by simp [freqAxis]) (by simp)
    unfold frequencyAveraging at hid
    rw [vecIn_vec, vecIn_vec] at hid
    have hS' : ((List.range ((realVals x).length / 2 + 1)).map fun k =>
        2 * Complex.normSq (coef (realVals x) k) / (dfOf (realAxis x.length dt) * (realVals x).length * (realVals x).length)) =
        (List.range (x.length / 2 + 1)).map (rawDens x dt) := by
      rw [realVals_length]; rfl
    rw [hS', realVals_length, h2] at e
    have hid' : frequencyAveragingL (freqAxis (x.length / 2 + 1) (dfOf (realAxis x.length dt))) ((List.range (x.length / 2 + 1)).map (rawDens x dt)) 0 =
      .ok (freqAxis (x.length / 2 + 1) (dfOf (realAxis x.length dt)), (List.range (x.length / 2 + 1)).map (rawDens x dt)) := hid
    rw [hid'] at e
    have : S' = (List.range (x.length / 2 + 1)).map (rawDens x dt) := by
      have := congrArg (fun r => r.toOption.map Prod.snd) e
      simpa [Except.toOption] using this
    rw [this, list_sum_map_range]
    exact rawDens_total hn d0'
  have hnn : 0 ≤ S'.sum := by
    have h := hE
    have hp : 0 < f'.getD 1 0 - f'.getD 0 0 := by rw [g0, g1]; rw [sub_zero]; positivity
    have hr : 0 ≤ S'.sum * (f'.getD 1 0 - f'.getD 0 0) := by
      rw [h]
      have := meanSq_nonneg x
      split_ifs <;> positivity
    exact nonneg_of_mul_nonneg_left hr hp
  refine ⟨f, S, h1, l1, by omega, ?_⟩
  rw [← hE, g0, g1, sub_zero]
  set D : ℝ := 1 / (x.length * dt) with hD
  have D0 : 0 < D := by positivity
  have Dlo : (1 : ℝ) / 2 ^ 80 ≤ D := by
    rw [hD]
    refine one_div_le_one_div_of_le (by positivity) ?_
    have a1 : (x.length : ℝ) ≤ 2 ^ 40 := by exact_mod_cast hn'
    have a2 : (dt : ℝ) ≤ 2 ^ 40 := by
      have := (Rat.cast_le (K := ℝ)).2 hhi
      push_cast at this
      exact this
    calc (x.length : ℝ) * dt ≤ 2 ^ 40 * 2 ^ 40 := mul_le_mul a1 a2 d0'.le (by positivity)
      _ = 2 ^ 80 := by norm_num
  have f0 := hf 0 (by omega)
  have f1 := hf 1 (by omega)
  rw [g0] at f0
  rw [g1] at f1
  have hΔ : |((f.getD 1 0 - f.getD 0 0 : ℚ) : ℝ) - D| ≤ 10 / 2 ^ 52 * D := by
    push_cast
    have h5 := abs_sub ((f.getD 1 0 : ℝ) - D) ((f.getD 0 0 : ℝ) - 0)
    rw [show (f.getD 1 0 : ℝ) - D - ((f.getD 0 0 : ℝ) - 0) = (f.getD 1 0 : ℝ) - f.getD 0 0 - D by ring] at h5
    push_cast at f0 f1
    refine h5.trans ((add_le_add f1 f0).trans ?_)
    norm_num at Dlo ⊢
    linarith
  have hsum : |((S.sum : ℚ) : ℝ) - S'.sum| ≤ ∑ i ∈ range f.length, |(S.getD i 0 : ℝ) - S'.getD i 0| := by
    rw [list_sum_getD S, list_sum_getD S', l3, l4, Rat.cast_sum, ← sum_sub_distrib]
    exact abs_sum_le_sum_abs _ _
  set A := ∑ i ∈ range f.length, |(S.getD i 0 : ℝ) - S'.getD i 0|
  rw [Nat.cast_one, one_mul] at hS
  have ms := meanSq_nonneg x
  rw [Rat.cast_mul]
  generalize ((S.sum : ℚ) : ℝ) = s at *
  generalize ((f.getD 1 0 - f.getD 0 0 : ℚ) : ℝ) = Δ at *
  generalize S'.sum = s' at *
  have k1 : |s| ≤ s' + A := by
    have := abs_sub_abs_le_abs_sub s s'
    rw [abs_of_nonneg hnn] at this
    linarith
  have k2 : |s * Δ - s' * D| ≤ |s| * |Δ - D| + |s - s'| * D := by
    rw [show s * Δ - s' * D = s * (Δ - D) + (s - s') * D by ring]
    refine (abs_add_le _ _).trans ?_
    rw [abs_mul, abs_mul, abs_of_pos D0]
  have k3 : |s| * |Δ - D| ≤ (s' + A) * (10 / 2 ^ 52 * D) := mul_le_mul k1 hΔ (abs_nonneg _) ((abs_nonneg _).trans k1)
  have k4 : |s - s'| * D ≤ A * D := mul_le_mul_of_nonneg_right hsum D0.le
  have k5 : (s' + A) * (10 / 2 ^ 52 * D) = 10 / 2 ^ 52 * (s' * D) + 10 / 2 ^ 52 * (A * D) := by ring
  have k6 : (9 / 2 * ε + 1 / 2 ^ 50) * (meanSq x + 1 / 2 ^ 100) ≤ (1 : ℝ) * (meanSq x + 1 / 2 ^ 100) :=
    mul_le_mul_of_nonneg_right (by norm_num; linarith) (by positivity)
  have k7 : (9 / 2 * ε + 1 / 2 ^ 50) * (meanSq x + 1 / 2 ^ 100) ≤ (37 / 8 * ε) * (meanSq x + 1 / 2 ^ 100) :=
    mul_le_mul_of_nonneg_right (by norm_num at hε ⊢; linarith) (by positivity)
  have k8 : (1 / 2 ^ 45) * (meanSq x + 1 / 2 ^ 100) ≤ ε * (meanSq x + 1 / 2 ^ 100) := mul_le_mul_of_nonneg_right hε (by positivity)
  have e1 : 37 / 8 * ε * (meanSq x + 1 / 2 ^ 100) = 37 / 8 * (ε * (meanSq x + 1 / 2 ^ 100)) := by ring
  have e2 : 5 * ε * (meanSq x + 1 / 2 ^ 100) = 5 * (ε * (meanSq x + 1 / 2 ^ 100)) := by ring
  rw [e1] at k7
  rw [e2]
  rw [k5] at k3
  generalize ε * (meanSq x + 1 / 2 ^ 100) = B at *
  have hM : meanSq x ≤ meanSq x + 1 / 2 ^ 100 := by
    have : (0 : ℝ) < 1 / 2 ^ 100 := by positivity
    linarith
  have hM0 : 0 ≤ meanSq x + 1 / 2 ^ 100 := by positivity
  generalize meanSq x + 1 / 2 ^ 100 = M at *
  generalize (9 / 2 * ε + 1 / 2 ^ 50) * M = C at *
  generalize |s| * |Δ - D| = y1 at *
  generalize |s - s'| * D = y2 at *
  generalize |s * Δ - s' * D| = y3 at *
  generalize s' * D = y4 at *
  generalize A * D = y5 at *
  norm_num at k3 k8 ⊢
  linarith

end Verif
