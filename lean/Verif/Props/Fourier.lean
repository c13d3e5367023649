import Verif.Props.Averaging

/-! # C24 - C27, C29: Fourier transforms and the raw spectrum

`AcceptedAxis ts` says that the time axis passes the code's own uniformity check; by `uniform_check_accepts_uniform` every
exactly uniform increasing axis with at least two points does. -/

set_option linter.unusedSectionVars false

namespace Verif
open Finset

/-- The time axis passes `monotonic_increasing_constant_step`. -/
def AcceptedAxis (ts : List ℝ) : Prop := monotonicIncreasingConstantStep ts = .ok true

/-- Conjugate symmetry of an unfolded spectrum: `X[0]` is real and `X[n-k] = conj X[k]`. -/
def ConjSymmetric (X : List ℂ) : Prop :=
  (starRingEnd ℂ) (X.getD 0 0) = X.getD 0 0 ∧ ∀ k, 0 < k → k < X.length → X.getD (X.length - k) 0 = (starRingEnd ℂ) (X.getD k 0)

/-! ## C24 -/

/-- **C24 (signal).** `freq2time(time2freq(t, x)[1])` is `x`, for every real signal on an accepted axis. -/
theorem fourier_round_trip {t x : PyIn ℝ} {ts xs : List ℝ} (ht : t.IsArr ts) (hx : x.IsArr xs) (hm : AcceptedAxis ts)
    (hl : ts.length = xs.length) : ∃ f X, time2freq t x = .ok (f, X) ∧ freq2time (vec X) = .ok xs := by
  have h2 := mono_two_le hm
  refine ⟨_, _, time2freq_eq ht hx hm hl, ?_⟩
  rw [freq2time_range (by omega)]
  congr 1
  conv_rhs => rw [list_eq_map_range xs]
  refine List.map_congr_left fun j hj => ?_
  unfold coef
  have := inv_fwd (n := xs.length) (by omega) (fun j => ((xs.getD j 0 : ℝ) : ℂ)) (List.mem_range.1 hj)
  rw [show (fun k => fwd xs.length (fun j => ((xs.getD j 0 : ℝ) : ℂ)) k) = fwd xs.length (fun j => ((xs.getD j 0 : ℝ) : ℂ)) from rfl] at *
  change (inv xs.length (fwd xs.length fun j => ((xs.getD j 0 : ℝ) : ℂ)) j).re = _
  rw [this, Complex.ofReal_re]

/-- **C24 (spectrum).** `time2freq(t, freq2time(X))` is `X`, for every conjugate-symmetric spectrum. -/
theorem spectrum_round_trip {t : PyIn ℝ} {X : PyIn ℂ} {ts : List ℝ} {Xs : List ℂ} (ht : t.IsArr ts) (hX : X.IsArr Xs)
    (hm : AcceptedAxis ts) (hl : ts.length = Xs.length) (hs : ConjSymmetric Xs) :
    ∃ x f, freq2time X = .ok x ∧ x.length = Xs.length ∧ time2freq t (vec x) = .ok (f, Xs) := by
  have h2 := mono_two_le hm
  have hne : Xs ≠ [] := by
    rintro rfl
    rw [hl] at h2
    simp at h2
  set n := Xs.length with hn
  set x := (List.range n).map fun j => (inv n (fun k => Xs.getD k 0) j).re with hxdef
  have hxl : x.length = n := by simp [hxdef]
  refine ⟨x, freqAxis ts.length (dfOf ts), freq2time_eq hX hne, hxl, ?_⟩
  · rw [time2freq_eq ht (isArr_vec x) hm (by rw [hxl, hl])]
    congr 2
    conv_rhs => rw [eq_map_range_getD Xs 0]
    rw [hxl]
    refine List.map_congr_left fun k hk => ?_
    unfold coef
    rw [hxl]
    have e : ∀ j < n, ((x.getD j 0 : ℝ) : ℂ) = inv n (fun k => Xs.getD k 0) j := by
      intro j hj
      rw [hxdef, getD_map_range _ _ _ _ hj]
      exact Complex.conj_eq_iff_re.1 (inv_real (by omega) hs.1 hs.2 j)
    rw [fwd_congr e]
    exact fwd_inv (by omega) _ (List.mem_range.1 hk)

/-- Non-vacuity of `ConjSymmetric`: the transform of any real signal is conjugate symmetric. -/
theorem transform_conjSymmetric {t x : PyIn ℝ} {ts xs : List ℝ} (ht : t.IsArr ts) (hx : x.IsArr xs) (hm : AcceptedAxis ts)
    (hl : ts.length = xs.length) {f X} (h : time2freq t x = .ok (f, X)) : ConjSymmetric X := by
  have h2 := mono_two_le hm
  rw [time2freq_eq ht hx hm hl] at h
  simp only [Except.ok.injEq, Prod.mk.injEq] at h
  obtain ⟨-, rfl⟩ := h
  have hn : 0 < xs.length := by omega
  refine ⟨?_, ?_⟩
  · rw [getD_map_range _ _ _ _ hn]
    unfold coef
    rw [fwd_zero, map_sum]
    simp
  · intro k h0 hk
    simp only [List.length_map, List.length_range] at hk ⊢
    rw [getD_map_range _ _ _ _ hk, getD_map_range _ _ _ _ (by omega)]
    exact coef_conj xs hk.le hn

/-! ## C26 -/

/-- **C26.** `time2freq` returns the `nT` frequencies `k/(nT*dt)` and the discrete Fourier sums
`X[k] = sum_j x[j] exp(-2 pi i j k / nT)`; `time2freq_nyquist` returns the first `floor(nT/2)+1` of both, no frequency is
above `1/(2 dt)`, the last one equals it exactly when `nT` is even, and `isOdd` tells the parity. -/
theorem transform_axes {t x : PyIn ℝ} {ts xs : List ℝ} (ht : t.IsArr ts) (hx : x.IsArr xs) (hm : AcceptedAxis ts)
    (hl : ts.length = xs.length) :
    ∃ f X fN XN isOdd, time2freq t x = .ok (f, X) ∧ time2freqNyquist t x = .ok (fN, XN, isOdd) ∧
      f.length = xs.length ∧ X.length = xs.length ∧
      (∀ k < xs.length, f.getD k 0 = k / (xs.length * (ts.getD 1 0 - ts.getD 0 0)) ∧
        X.getD k 0 = ∑ j ∈ range xs.length,
          (xs.getD j 0 : ℂ) * Complex.exp (-2 * Real.pi * Complex.I * (j * k) / xs.length)) ∧
      fN = f.take (xs.length / 2 + 1) ∧ XN = X.take (xs.length / 2 + 1) ∧
      fN.length = xs.length / 2 + 1 ∧ XN.length = xs.length / 2 + 1 ∧
      (∀ v ∈ fN, v ≤ 1 / (2 * (ts.getD 1 0 - ts.getD 0 0))) ∧
      (fN.getLast? = some (1 / (2 * (ts.getD 1 0 - ts.getD 0 0))) ↔ Even xs.length) ∧
      (isOdd = true ↔ Odd xs.length) := by
  have h2 := mono_two_le hm
  have hdt := mono_dt_pos hm
  set dt := ts.getD 1 0 - ts.getD 0 0 with hdtdef
  set n := xs.length with hn
  have hnpos : (0 : ℝ) < n := by exact_mod_cast (by omega : 0 < n)
  have hdf : dfOf ts = 1 / (n * dt) := by unfold dfOf; rw [hl]
  have e1 := time2freq_eq ht hx hm hl
  have e2 := time2freqNyquist_eq ht hx hm hl
  refine ⟨_, _, _, _, _, e1, e2, by simp [freqAxis, hl], by rw [List.length_map, List.length_range], ?_, ?_, ?_, by simp [freqAxis, hn],
    by simp [hn], ?_, ?_, ?_⟩
  · intro k hk
    constructor
    · unfold freqAxis
      rw [hl, getD_map_range _ _ _ _ hk, hdf]; ring
    · rw [getD_map_range _ _ _ _ hk]
      unfold coef fwd
      refine sum_congr rfl fun j _ => ?_
      unfold twiddle
      congr 2
      push_cast
      ring
  · simp only [freqAxis]
    rw [← List.map_take, List.take_range, hl]
    have : min (n / 2 + 1) n = n / 2 + 1 := by omega
    rw [this]
  · rw [← List.map_take, List.take_range]
    have : min (n / 2 + 1) n = n / 2 + 1 := by omega
    rw [this]
  · intro v hv
    simp only [freqAxis, List.mem_map, List.mem_range] at hv
    obtain ⟨i, hi, rfl⟩ := hv
    rw [hdf, ← div_eq_mul_one_div, div_le_div_iff₀ (by positivity) (by positivity)]
    have : ((2 * i : ℕ) : ℝ) ≤ (n : ℝ) := by exact_mod_cast (by omega : 2 * i ≤ n)
    push_cast at this
    nlinarith
  · unfold freqAxis
    rw [List.range_succ, List.map_append]
    simp only [List.map_cons, List.map_nil, List.getLast?_append, List.getLast?_singleton, Option.some_or, Option.some.injEq]
    rw [hdf, ← div_eq_mul_one_div, div_eq_div_iff (by positivity) (by positivity)]
    constructor
    · intro h
      have h' : ((2 * (n / 2) : ℕ) : ℝ) = (n : ℝ) := by
        push_cast
        have : dt * (2 * ((n / 2 : ℕ) : ℝ) - n) = 0 := by linarith
        rcases mul_eq_zero.1 this with h0 | h0
        · exact absurd h0 hdt.ne'
        · linarith
      have : 2 * (n / 2) = n := by exact_mod_cast h'
      exact ⟨n / 2, by omega⟩
    · rintro ⟨m, hm'⟩
      have : n / 2 = m := by omega
      rw [this, hm']; push_cast; ring
  · rw [decide_eq_true_eq, Nat.odd_iff]

/-- `time2freq` and `time2freq_nyquist` reject: a non-uniform axis, and arrays of different lengths. -/
theorem transform_rejects {t x : PyIn ℝ} {ts xs : List ℝ} (ht : t.IsArr ts) (hx : x.IsArr xs) (h2 : 2 ≤ ts.length)
    (h : ¬ (AcceptedAxis ts ∧ ts.length = xs.length)) :
    ∃ m m', time2freq t x = .error (.valueError m) ∧ time2freqNyquist t x = .error (.valueError m') := by
  unfold time2freq time2freqNyquist
  simp only [vecIn_of_isArr ht, vecIn_of_isArr hx, bind, Except.bind]
  obtain ⟨b, hb, -⟩ := uniform_check_iff_partial (x := ts) h2
  rw [hb]
  cases b with
  | false => exact ⟨_, _, rfl, rfl⟩
  | true =>
    have hl : ts.length ≠ xs.length := fun e => h ⟨hb, e⟩
    simp only [if_neg (show ¬ (true = false) by simp), if_pos hl]
    exact ⟨_, _, rfl, rfl⟩

/-! ## C25 -/

/-- **C25.** Unfolding the folded transform gives back the full transform and frequency axis, for even and odd lengths,
and `freq2time` of it is the original signal. -/
theorem unfold_inverts_fold {t x : PyIn ℝ} {ts xs : List ℝ} (ht : t.IsArr ts) (hx : x.IsArr xs) (hm : AcceptedAxis ts)
    (hl : ts.length = xs.length) :
    ∃ f X fN XN isOdd, time2freq t x = .ok (f, X) ∧ time2freqNyquist t x = .ok (fN, XN, isOdd) ∧
      unfoldSpectrum (vec fN) (vec XN) isOdd = .ok (f, X) ∧ freq2time (vec X) = .ok xs := by
  have h2 := mono_two_le hm
  obtain ⟨f, X, h1, h3⟩ := fourier_round_trip ht hx hm hl
  have e1 := time2freq_eq ht hx hm hl
  refine ⟨f, X, _, _, _, h1, time2freqNyquist_eq ht hx hm hl, ?_, h3⟩
  rw [h1] at e1
  simp only [Except.ok.injEq, Prod.mk.injEq] at e1
  obtain ⟨rfl, rfl⟩ := e1
  unfold unfoldSpectrum
  rw [vecIn_vec, vecIn_vec]
  show unfoldSpectrumL _ _ _ = _
  rw [unfold_eq (n := xs.length) (by omega) (by simp [freqAxis]) (by simp)]
  congr 2
  · rw [hl]
    unfold freqAxis
    rw [getD_map_range _ _ _ _ (by omega), getD_map_range _ _ _ _ (by omega)]
    refine List.map_congr_left fun i _ => ?_
    push_cast; ring
  · refine List.map_congr_left fun k hk => ?_
    have hk' := List.mem_range.1 hk
    rw [← symExt_coef xs hk']
    refine symExt_congr (fun i hi => ?_) hk'
    rw [getD_map_range _ _ _ _ (by omega)]

/-! ## C27 -/

theorem sum_folded (a : Nat → ℝ) {n : Nat} (hn : 2 ≤ n) (ha : ∀ k, 0 < k → k < n → a (n - k) = a k) :
    2 * ∑ k ∈ range (n / 2 + 1), a k = ∑ k ∈ range n, a k + a 0 + if n % 2 = 0 then a (n / 2) else 0 := by
  rcases Nat.mod_two_eq_zero_or_one n with h | h
  · obtain ⟨p, rfl⟩ : ∃ p, n = 2 * p + 2 := ⟨n / 2 - 1, by omega⟩
    rw [if_pos h]
    have e : (2 * p + 2) / 2 = p + 1 := by omega
    rw [e, show 2 * p + 2 = (p + 2) + p by omega, sum_range_add (n := p + 2), sum_range_succ _ (p + 1)]
    have hrefl : ∑ x ∈ range p, a (p + 2 + x) = ∑ x ∈ range p, a (x + 1) := by
      rw [← sum_range_reflect]
      refine sum_congr rfl fun k hk => ?_
      have hk' := mem_range.1 hk
      rw [← ha (k + 1) (by omega) (by omega)]
      congr 1; omega
    rw [hrefl, sum_range_succ _ p] 
    have := sum_range_succ' a p
    rw [sum_range_succ] at this
    have e2 : ∑ x ∈ range p, a (x + 1) = ∑ x ∈ range p, a x + a p - a 0 := by linarith
    rw [e2]
    ring
  · obtain ⟨p, rfl⟩ : ∃ p, n = 2 * p + 1 := ⟨n / 2, by omega⟩
    rw [if_neg (by omega)]
    have e : (2 * p + 1) / 2 = p := by omega
    rw [e, show 2 * p + 1 = (p + 1) + p by omega, sum_range_add (n := p + 1)]
    have hrefl : ∑ x ∈ range p, a (p + 1 + x) = ∑ x ∈ range p, a (x + 1) := by
      rw [← sum_range_reflect]
      refine sum_congr rfl fun k hk => ?_
      have hk' := mem_range.1 hk
      rw [← ha (k + 1) (by omega) (by omega)]
      congr 1; omega
    rw [hrefl]
    have := sum_range_succ' a p
    have e2 : ∑ x ∈ range p, a (x + 1) = ∑ x ∈ range (p + 1), a x - a 0 := by linarith
    rw [e2]
    ring

theorem coef_zero (xs : List ℝ) : coef xs 0 = ((xs.sum : ℝ) : ℂ) := by
  unfold coef
  rw [fwd_zero, list_sum_getD]
  push_cast
  rfl

theorem coef_nyquist {xs : List ℝ} {m : Nat} (hm : 0 < m) (hn : xs.length = 2 * m) :
    coef xs m = ((∑ j ∈ range xs.length, (-1) ^ j * xs.getD j 0 : ℝ) : ℂ) := by
  unfold coef fwd
  push_cast
  refine sum_congr rfl fun j _ => ?_
  have : twiddle xs.length (-((j : ℤ) * m)) = (-1) ^ j := by
    have e : twiddle xs.length (-((j : ℤ) * m)) = (twiddle (2 * m) (m : ℤ))⁻¹ ^ j := by
      rw [hn]
      have h1 : (twiddle (2 * m) (m : ℤ))⁻¹ = twiddle (2 * m) (-(m : ℤ)) :=
        (eq_inv_of_mul_eq_one_left (twiddle_neg_mul _ _)).symm
      rw [h1, twiddle_pow]
      congr 1; ring
    rw [e, twiddle_half hm]
    norm_num
  rw [this]; ring

theorem rawDensity_eq (X : List ℂ) (df N : ℝ) : rawDensity X df N = X.map fun z => 2 * Complex.normSq z / (df * N * N) := by
  unfold rawDensity
  refine List.map_congr_left fun z _ => ?_
  rw [mul_assoc, Complex.mul_conj]
  have : (2 * ((Complex.normSq z : ℝ) : ℂ) / ((df * N * N : ℝ) : ℂ)) = ((2 * Complex.normSq z / (df * N * N) : ℝ) : ℂ) := by
    push_cast; rfl
  rw [this, Complex.ofReal_re]

/-- The raw (unaveraged) spectrum in closed form. -/
theorem rawSpectrum_eq {t x : PyIn ℝ} {ts xs : List ℝ} (ht : t.IsArr ts) (hx : x.IsArr xs) (hm : AcceptedAxis ts)
    (hl : ts.length = xs.length) (dfDesired : ℝ) :
    computeSpectrumTimeSeries t x dfDesired =
      frequencyAveragingL (freqAxis (xs.length / 2 + 1) (dfOf ts))
        ((List.range (xs.length / 2 + 1)).map fun k => 2 * Complex.normSq (coef xs k) / (dfOf ts * xs.length * xs.length))
        dfDesired := by
  have h2 := mono_two_le hm
  unfold computeSpectrumTimeSeries
  rw [time2freqNyquist_eq ht hx hm hl]
  simp only [bind, Except.bind]
  have g0 : getE (freqAxis (xs.length / 2 + 1) (dfOf ts)) 0 = .ok 0 := by
    rw [getE_ok]; simp [freqAxis]
  have g1 : getE (freqAxis (xs.length / 2 + 1) (dfOf ts)) 1 = .ok (dfOf ts) := by
    rw [getE_ok]
    unfold freqAxis
    rw [List.getElem?_map, List.getElem?_range (by omega)]
    simp
  rw [g0, g1]
  simp only
  rw [toArr_len_of_isArr ht, rawDensity_eq, List.map_map, sub_zero, hl]
  rfl

/-- **C27.** With `dfDesired = 0` the integral `sum(S) * df` of `compute_spectrum_time_series` equals the mean square of the
signal, plus the square of its mean (the zero-frequency bin is doubled too), plus - for an even number of samples - the
square of its alternating mean (the Nyquist bin is doubled too).  For a zero-mean signal of odd length this is exactly
the variance. -/
theorem raw_spectrum_energy {t x : PyIn ℝ} {ts xs : List ℝ} (ht : t.IsArr ts) (hx : x.IsArr xs) (hm : AcceptedAxis ts)
    (hl : ts.length = xs.length) :
    ∃ f S, computeSpectrumTimeSeries t x 0 = .ok (f, S) ∧ f.length = xs.length / 2 + 1 ∧ S.length = xs.length / 2 + 1 ∧
      (∀ k < f.length, f.getD k 0 = k / (xs.length * (ts.getD 1 0 - ts.getD 0 0))) ∧
      S.sum * (f.getD 1 0 - f.getD 0 0) =
        (xs.map (· ^ 2)).sum / xs.length + (xs.sum / xs.length) ^ 2 +
          if Even xs.length then ((∑ j ∈ range xs.length, (-1) ^ j * xs.getD j 0) / xs.length) ^ 2 else 0 := by
  have h2 := mono_two_le hm
  have hdf := dfOf_pos hm
  have hn : (0 : ℝ) < xs.length := by exact_mod_cast (by omega : 0 < xs.length)
  have e := rawSpectrum_eq ht hx hm hl 0
  set S := (List.range (xs.length / 2 + 1)).map fun k => 2 * Complex.normSq (coef xs k) / (dfOf ts * xs.length * xs.length)
    with hS
  have hid := averaging_identity (isArr_vec (freqAxis (xs.length / 2 + 1) (dfOf ts))) (isArr_vec S)
    (by simp [freqAxis, hS]) (by simp [hS])
  unfold frequencyAveraging at hid
  rw [vecIn_vec, vecIn_vec] at hid
  refine ⟨_, _, e.trans hid, by simp [freqAxis], by simp [hS], ?_, ?_⟩
  · intro k hk
    have hk' : k < xs.length / 2 + 1 := by simpa [freqAxis] using hk
    unfold freqAxis
    rw [getD_map_range _ _ _ _ hk']
    unfold dfOf
    rw [hl]; ring
  · have hf : (freqAxis (xs.length / 2 + 1) (dfOf ts)).getD 1 0 - (freqAxis (xs.length / 2 + 1) (dfOf ts)).getD 0 0 = dfOf ts := by
      unfold freqAxis
      rw [getD_map_range _ _ _ _ (by omega), getD_map_range _ _ _ _ (by omega)]
      push_cast; ring
    rw [hf, hS, list_sum_map_range]
    have hfold := sum_folded (fun k => Complex.normSq (coef xs k)) (n := xs.length) (by omega) (by
      intro k _ hk
      rw [coef_conj xs hk.le (by omega), Complex.normSq_conj])
    have hp := parseval (n := xs.length) (by omega) (fun j => ((xs.getD j 0 : ℝ) : ℂ))
    change ∑ k ∈ range xs.length, Complex.normSq (coef xs k) = _ at hp
    have hsq : ∑ j ∈ range xs.length, Complex.normSq ((xs.getD j 0 : ℝ) : ℂ) = (xs.map (· ^ 2)).sum := by
      conv_rhs => rw [list_eq_map_range xs, List.map_map, list_sum_map_range]
      refine sum_congr rfl fun j _ => ?_
      rw [Complex.normSq_ofReal]
      simp only [Function.comp]
      ring
    rw [hsq] at hp
    have hsum : (∑ i ∈ range (xs.length / 2 + 1), 2 * Complex.normSq (coef xs i) / (dfOf ts * xs.length * xs.length)) * dfOf ts
        = (2 * ∑ i ∈ range (xs.length / 2 + 1), Complex.normSq (coef xs i)) / (xs.length * xs.length) := by
      rw [mul_sum, sum_div, sum_mul]
      refine sum_congr rfl fun i _ => ?_
      field_simp
    rw [hsum, hfold, hp]
    have h0 : Complex.normSq (coef xs 0) = xs.sum ^ 2 := by
      rw [coef_zero, Complex.normSq_ofReal]; ring
    rw [h0]
    by_cases hev : Even xs.length
    · rw [if_pos hev, if_pos (Nat.even_iff.1 hev)]
      have hny : Complex.normSq (coef xs (xs.length / 2)) = (∑ j ∈ range xs.length, (-1) ^ j * xs.getD j 0) ^ 2 := by
        rw [coef_nyquist (m := xs.length / 2) (by omega) (by have := Nat.even_iff.1 hev; omega), Complex.normSq_ofReal]
        ring
      rw [hny]
      field_simp
    · rw [if_neg hev, if_neg (by rw [← Nat.even_iff]; exact hev)]
      field_simp
      ring

/-- **C27 (zero mean, odd length).** -/
theorem raw_spectrum_variance_odd {t x : PyIn ℝ} {ts xs : List ℝ} (ht : t.IsArr ts) (hx : x.IsArr xs) (hm : AcceptedAxis ts)
    (hl : ts.length = xs.length) (h0 : xs.sum = 0) (hodd : Odd xs.length) :
    ∃ f S, computeSpectrumTimeSeries t x 0 = .ok (f, S) ∧ S.sum * (f.getD 1 0 - f.getD 0 0) = variance xs := by
  obtain ⟨f, S, h1, -, -, -, h2⟩ := raw_spectrum_energy ht hx hm hl
  refine ⟨f, S, h1, ?_⟩
  rw [h2, if_neg (by rw [Nat.not_even_iff_odd]; exact hodd), h0]
  unfold variance mean
  rw [h0]
  simp

/-- **C27 is false for even lengths**: the zero-mean signal 1, -1 has variance 1 but its raw spectrum integrates to 2. -/
theorem raw_spectrum_nyquist_doubled :
    ∃ f S, computeSpectrumTimeSeries (vec [0, 1]) (vec [1, -1]) 0 = .ok (f, S) ∧ variance [1, -1] = (1 : ℝ) ∧
      S.sum * (f.getD 1 0 - f.getD 0 0) = 2 := by
  have hm : AcceptedAxis [0, 1] := by
    refine uniform_check_accepts_uniform (dx := 1) (by simp) ⟨one_pos, fun i hi => ?_⟩
    have : i = 0 := by simp at hi; omega
    subst this; simp
  obtain ⟨f, S, h1, -, -, -, h2⟩ := raw_spectrum_energy (isArr_vec [0, 1]) (isArr_vec [1, -1]) hm rfl
  refine ⟨f, S, h1, by norm_num [variance, mean], ?_⟩
  rw [h2]
  norm_num [sum_range_succ]

/-! ## C29 -/

/-- **C29.** The spectrum computed from the time series equals the spectrum computed from its folded Fourier transform with
`Ntime = len(t)`. -/
theorem spectrum_routes_agree {t x : PyIn ℝ} {ts xs : List ℝ} (ht : t.IsArr ts) (hx : x.IsArr xs) (hm : AcceptedAxis ts)
    (hl : ts.length = xs.length) (dfDesired : ℝ) :
    ∃ f X isOdd, time2freqNyquist t x = .ok (f, X, isOdd) ∧
      computeSpectrumTimeSeries t x dfDesired = computeSpectrumFreqSeries (vec f) (vec X) ts.length dfDesired := by
  have h2 := mono_two_le hm
  refine ⟨_, _, _, time2freqNyquist_eq ht hx hm hl, ?_⟩
  rw [rawSpectrum_eq ht hx hm hl]
  have hmf : monotonicIncreasingConstantStep (freqAxis (xs.length / 2 + 1) (dfOf ts)) = .ok true := by
    refine uniform_check_accepts_uniform (dx := dfOf ts) (by simp [freqAxis]; omega) ⟨dfOf_pos hm, fun i hi => ?_⟩
    have hi' : i + 1 < xs.length / 2 + 1 := by simpa [freqAxis] using hi
    unfold freqAxis
    rw [getD_map_range _ _ _ _ hi', getD_map_range _ _ _ _ (by omega)]
    push_cast; ring
  unfold computeSpectrumFreqSeries
  rw [vecIn_vec, vecIn_vec]
  simp only [bind, Except.bind, hmf]
  rw [if_neg (by simp), if_neg (by simp [freqAxis]), if_neg (by omega)]
  have g0 : getE (freqAxis (xs.length / 2 + 1) (dfOf ts)) 0 = .ok 0 := by
    rw [getE_ok]; simp [freqAxis]
  have g1 : getE (freqAxis (xs.length / 2 + 1) (dfOf ts)) 1 = .ok (dfOf ts) := by
    rw [getE_ok]
    unfold freqAxis
    rw [List.getElem?_map, List.getElem?_range (by omega)]
    simp
  rw [g0, g1]
  simp only
  rw [rawDensity_eq, List.map_map, sub_zero, hl]
  rfl

example : AcceptedAxis [0, 1, 2] := by
  refine uniform_check_accepts_uniform (dx := 1) (by simp) ⟨one_pos, fun i hi => ?_⟩
  have : i = 0 ∨ i = 1 := by simp at hi; omega
  rcases this with rfl | rfl <;> norm_num

/-! ## Concrete cases: the hypotheses of the theorems above are met -/

theorem axis3 : AcceptedAxis [0, 1, 2] := by
  refine uniform_check_accepts_uniform (dx := 1) (by simp) (uniformAxis_of_steps one_pos fun i hi => ?_)
  have : i < 2 := hi
  interval_cases i <;> norm_num

/-! Records of three samples. -/

example : ∃ f X, time2freq (vec [0, 1, 2]) (vec [3, -1, -2]) = .ok (f, X) ∧ freq2time (vec X) = .ok [3, -1, -2] ∧ ConjSymmetric X := by
  obtain ⟨f, X, a, b⟩ := fourier_round_trip (isArr_vec [0, 1, 2]) (isArr_vec [3, -1, -2]) axis3 rfl
  exact ⟨f, X, a, b, transform_conjSymmetric (isArr_vec [0, 1, 2]) (isArr_vec [3, -1, -2]) axis3 rfl a⟩

/-- The spectrum 4, 1 + 2i, 1 - 2i. -/
example : ∃ x f, freq2time (vec [4, 1 + 2 * Complex.I, 1 - 2 * Complex.I]) = .ok x ∧
    time2freq (vec [0, 1, 2]) (vec x) = .ok (f, [4, 1 + 2 * Complex.I, 1 - 2 * Complex.I]) := by
  have hs : ConjSymmetric [4, 1 + 2 * Complex.I, 1 - 2 * Complex.I] := by
    refine ⟨by simp [Complex.ext_iff], fun k h0 hk => ?_⟩
    have : k < 3 := hk
    interval_cases k <;> simp [Complex.ext_iff]
  obtain ⟨x, f, a, -, b⟩ := spectrum_round_trip (isArr_vec [0, 1, 2]) (isArr_vec _) axis3 rfl hs
  exact ⟨x, f, a, b⟩

example := unfold_inverts_fold (isArr_vec [0, 1, 2]) (isArr_vec [3, -1, -2]) axis3 rfl
example := transform_axes (isArr_vec [0, 1, 2]) (isArr_vec [3, -1, -2]) axis3 rfl

/-- Two times, three samples. -/
example := transform_rejects (isArr_vec [0, 1]) (isArr_vec [3, -1, -2]) (by simp) (by simp)

/-- The raw spectrum of three samples with mean zero has their variance as energy. -/
example : ∃ f S, computeSpectrumTimeSeries (vec [0, 1, 2]) (vec [3, -1, -2]) 0 = .ok (f, S) ∧ S.sum * (f.getD 1 0 - f.getD 0 0) = 14 / 3 := by
  obtain ⟨f, S, a, b⟩ := raw_spectrum_variance_odd (isArr_vec [0, 1, 2]) (isArr_vec [3, -1, -2]) axis3 rfl (by norm_num) (by decide)
  exact ⟨f, S, a, by rw [b]; norm_num [variance, mean]⟩

example : ∃ f S, computeSpectrumTimeSeries (vec [0, 1, 2]) (vec [3, 0, 0]) 0 = .ok (f, S) ∧ S.sum * (f.getD 1 0 - f.getD 0 0) = 4 := by
  obtain ⟨f, S, a, -, -, -, b⟩ := raw_spectrum_energy (isArr_vec [0, 1, 2]) (isArr_vec [3, 0, 0]) axis3 rfl
  exact ⟨f, S, a, by rw [b, if_neg (by decide)]; norm_num⟩

example := spectrum_routes_agree (isArr_vec [0, 1, 2]) (isArr_vec [3, -1, -2]) axis3 rfl (1 / 2)

end Verif
