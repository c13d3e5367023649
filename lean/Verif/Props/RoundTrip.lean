import Verif.Model.SeriesHist
import Verif.Props.Synth
import Verif.Props.Fourier
import Verif.Props.Spectrum
import Verif.Props.Welch
import Verif.Props.SeriesFilter

/-! # From a spectrum to a series and back (C75, C77) -/

set_option linter.unusedSectionVars false

namespace Verif
open Finset

/-- The Fourier coefficients of the random-phase sum over the full even period: the component at `k df` has the modulus given by
the density there; the mean vanishes; the Nyquist component depends on its phase. -/
theorem random_phase_components {n : Nat} (hn : 0 < n) {dt : ℝ} (hdt : 0 < dt) {S : ℝ → ℝ} (hS : ∀ v, 0 ≤ S v) (φ : Nat → ℝ) :
    ∃ Y : Nat → ℂ, (∀ k < 2 * n, fwd (2 * n) (fun j => ((randomPhaseSum n dt S φ j : ℝ) : ℂ)) k = ((2 * n : ℕ) : ℂ) * Y k) ∧
      Y 0 = 0 ∧ (∀ i, i + 1 < n → Complex.normSq (Y (i + 1)) = S (((i : ℝ) + 1) * genDf n dt) * genDf n dt / 2) ∧
      Complex.normSq (Y n) = S (n * genDf n dt) * genDf n dt * Real.cos (φ (n - 1)) ^ 2 / 2 := by
  have hdf : 0 < genDf n dt := by
    have : (0 : ℝ) < n := by exact_mod_cast hn
    unfold genDf; positivity
  set A : List ℝ := (List.range n).map fun (i : Nat) => Real.sqrt (2 * S (((i : ℝ) + 1) * genDf n dt) * genDf n dt) with hA
  set φl : List ℝ := (List.range n).map φ with hφl
  have hAi : ∀ i < n, A.getD i 0 = Real.sqrt (2 * S (((i : ℝ) + 1) * genDf n dt) * genDf n dt) := fun i hi => by
    rw [hA, getD_map_range _ _ i 0 hi]
  have hφi : ∀ i < n, φl.getD i 0 = φ i := fun i hi => by rw [hφl, getD_map_range _ _ i 0 hi]
  have hval : ∀ j, randomPhaseSum n dt S φ j = (inv (2 * n) (symExt (2 * n) (compAt A φl)) j * ((2 * n : ℕ) : ℂ)).re := by
    intro j
    rw [synth_value hn hdt]
    unfold randomPhaseSum
    refine sum_congr rfl fun i hi => ?_
    rw [hAi i (mem_range.1 hi), hφi i (mem_range.1 hi)]
  set D : Nat → ℂ := fun k => if k = n then ((compAt A φl n).re : ℂ) else compAt A φl k with hD
  have hval2 : ∀ j, randomPhaseSum n dt S φ j = (inv (2 * n) (symExt (2 * n) D) j * ((2 * n : ℕ) : ℂ)).re := by
    intro j
    rw [hval, symExt_inv_re hn, symExt_inv_re hn]
    congr 1
    · refine sum_congr rfl fun k hk => ?_
      have := mem_range.1 hk
      simp only [hD]; rw [if_neg (by omega)]
    · refine sum_congr rfl fun k hk => ?_
      have := mem_range.1 hk
      by_cases hkn : k + 1 = n
      · simp only [hD, hkn]
        rw [if_pos trivial, twiddle_jn hn]
        have : ((-1 : ℂ) ^ j) = (((-1 : ℝ) ^ j : ℝ) : ℂ) := by push_cast; rfl
        rw [this, Complex.re_mul_ofReal, Complex.re_mul_ofReal, Complex.ofReal_re]
      · simp only [hD]; rw [if_neg hkn]
  have h2n : 0 < 2 * n := by omega
  set Y := symExt (2 * n) D with hY
  have hY0 : Y 0 = 0 := by
    simp only [hY, symExt, hD]
    rw [if_pos (by omega), if_neg (by omega)]; simp [compAt]
  have hYreal : ∀ j, (starRingEnd ℂ) (inv (2 * n) Y j) = inv (2 * n) Y j := by
    apply inv_real h2n
    · rw [hY0, map_zero]
    · intro k hk0 hk
      simp only [hY, symExt, show (2 * n + 1) / 2 = n by omega]
      by_cases h1 : k < n
      · rw [if_neg (by omega), if_pos h1, show 2 * n - (2 * n - k) = k by omega]
      · by_cases h2 : k = n
        · subst h2
          have e : 2 * k - k = k := by omega
          simp only [e]
          rw [if_neg (lt_irrefl _)]
          simp [hD]
        · rw [if_pos (by omega), if_neg h1, Complex.conj_conj]
  have hre : ∀ j, ((randomPhaseSum n dt S φ j : ℝ) : ℂ) = ((2 * n : ℕ) : ℂ) * inv (2 * n) Y j := by
    intro j
    rw [hval2 j]
    have h1 : (((2 * n : ℕ)) : ℂ) = ((((2 * n : ℕ) : ℝ)) : ℂ) := by push_cast; rfl
    have h2 : ((inv (2 * n) Y j).re : ℂ) = inv (2 * n) Y j := Complex.conj_eq_iff_re.1 (hYreal j)
    rw [h1, Complex.re_mul_ofReal, Complex.ofReal_mul, h2, mul_comm]
  refine ⟨Y, ?_, hY0, ?_, ?_⟩
  · intro k hk
    rw [fwd_congr (fun j _ => hre j) k, fwd_smul, fwd_inv h2n Y hk]
  · intro i hi
    have : Y (i + 1) = compAt A φl (i + 1) := by
      simp only [hY, symExt, hD]
      rw [if_pos (by omega), if_neg (by omega)]
    rw [this]
    unfold compAt
    rw [if_neg (by omega), Nat.add_sub_cancel, Complex.normSq_mul, hAi i (by omega)]
    have h1 : Complex.normSq (Complex.exp (Complex.I * ((φl.getD i 0 : ℝ) : ℂ))) = 1 := by
      rw [mul_comm, Complex.normSq_eq_norm_sq, Complex.norm_exp_ofReal_mul_I]; norm_num
    have h2 : ((Real.sqrt (2 * S (((i : ℝ) + 1) * genDf n dt) * genDf n dt) : ℝ) : ℂ) / 2 =
      ((Real.sqrt (2 * S (((i : ℝ) + 1) * genDf n dt) * genDf n dt) / 2 : ℝ) : ℂ) := by push_cast; rfl
    rw [h1, h2, Complex.normSq_ofReal, mul_one]
    have := Real.mul_self_sqrt (mul_nonneg (mul_nonneg (by norm_num : (0 : ℝ) ≤ 2) (hS (((i : ℝ) + 1) * genDf n dt))) hdf.le)
    linear_combination this / 4
  · have hYn : Y n = ((compAt A φl n).re : ℂ) := by
      have e : 2 * n - n = n := by omega
      simp only [hY, symExt, e]
      rw [if_neg (by omega)]
      simp [hD]
    rw [hYn, Complex.normSq_ofReal]
    have hr : (compAt A φl n).re = Real.sqrt (2 * S (n * genDf n dt) * genDf n dt) / 2 * Real.cos (φ (n - 1)) := by
      unfold compAt
      rw [if_neg (by omega), hAi (n - 1) (by omega), hφi (n - 1) (by omega)]
      have hc : (((n - 1 : ℕ) : ℝ) + 1) = n := by
        have : 1 ≤ n := hn
        push_cast [Nat.cast_sub this]; ring
      rw [hc]
      have h2 : ((Real.sqrt (2 * S (n * genDf n dt) * genDf n dt) : ℝ) : ℂ) / 2 =
        ((Real.sqrt (2 * S (n * genDf n dt) * genDf n dt) / 2 : ℝ) : ℂ) := by push_cast; rfl
      rw [h2, Complex.re_ofReal_mul, mul_comm Complex.I, Complex.exp_ofReal_mul_I_re]
    rw [hr]
    have := Real.mul_self_sqrt (mul_nonneg (mul_nonneg (by norm_num : (0 : ℝ) ≤ 2) (hS (n * genDf n dt))) hdf.le)
    linear_combination this / 4 * Real.cos (φ (n - 1)) ^ 2

/-- The raw density at bin `k` of a signal of `N` samples with step `dt`: `2 |sum x_j exp(-2 pi i j k / N)|^2 dt / N`. -/
noncomputable def rawBin (x : List ℝ) (dt : ℝ) (k : Nat) : ℝ :=
  2 * Complex.normSq (∑ j ∈ range x.length, (x.getD j 0 : ℂ) * Complex.exp (-2 * Real.pi * Complex.I * (j * k) / x.length)) * dt / x.length

theorem coef_eq_sum (x : List ℝ) (k : Nat) :
    coef x k = ∑ j ∈ range x.length, (x.getD j 0 : ℂ) * Complex.exp (-2 * Real.pi * Complex.I * (j * k) / x.length) := by
  unfold coef fwd
  refine sum_congr rfl fun j _ => ?_
  congr 1
  unfold twiddle
  congr 1
  push_cast; ring

/-- **C77.** `get_spectrum_raw(df)` of a valid series: with `N` samples and step `dt` the fine bins are `k / (N dt)`, `k ≤ N/2`, with the
raw densities; `m` of them (`df N dt` rounded, at least one) are averaged per coarse bin.  If at least two coarse bins remain the
result is a valid `Spectrum` with equidistant frequencies `m / (N dt)` apart; otherwise the call raises an `IndexError`. -/
theorem spectrum_raw {s : SeriesObj ℝ} {t x : List ℝ} {dt : ℝ} (h : ValidSeries s t x dt) (df : ℝ) :
    ∃ m fc sc, IsFactor m df (1 / (x.length * dt)) ∧
      BlockMeans m ((List.range (x.length / 2 + 1)).map fun (k : Nat) => (k : ℝ) / (x.length * dt)) fc (x.length / 2 + 1) ∧
      BlockMeans m ((List.range (x.length / 2 + 1)).map (rawBin x dt)) sc (x.length / 2 + 1) ∧
      (2 ≤ (x.length / 2 + 1) / m → UniformAxis fc (m / (x.length * dt)) ∧
        s.getSpectrumRaw df = .ok { f := fc, sVarDens := ⟨[sc.length], sc⟩, nf := fc.length }) ∧
      ((x.length / 2 + 1) / m < 2 → s.getSpectrumRaw df = .error .indexError) := by
  have hx2 : 2 ≤ x.length := h.len ▸ h.two
  have hdt := h.axis.1
  have hN : (0 : ℝ) < x.length := by exact_mod_cast (by omega : 0 < x.length)
  have hfirst := uniform_first_step h.two h.axis
  have hdf : dfOf t = 1 / (x.length * dt) := by unfold dfOf; rw [hfirst, h.len]
  have hfa : freqAxis (x.length / 2 + 1) (dfOf t) = (List.range (x.length / 2 + 1)).map fun (k : Nat) => (k : ℝ) / (x.length * dt) := by
    rw [hdf]; unfold freqAxis
    exact List.map_congr_left fun k _ => by rw [mul_one_div]
  have hS : ((List.range (x.length / 2 + 1)).map fun k => 2 * Complex.normSq (coef x k) / (dfOf t * x.length * x.length)) =
      (List.range (x.length / 2 + 1)).map (rawBin x dt) := by
    refine List.map_congr_left fun k _ => ?_
    unfold rawBin
    rw [← coef_eq_sum, hdf]
    field_simp
  have e := rawSpectrum_eq h.isArr_time h.isArr_x h.accepted h.len df
  rw [hfa, hS] at e
  set F := (List.range (x.length / 2 + 1)).map fun (k : Nat) => (k : ℝ) / (x.length * dt) with hF
  set G := (List.range (x.length / 2 + 1)).map (rawBin x dt) with hG
  have hFl : F.length = x.length / 2 + 1 := by simp [hF]
  have hGl : G.length = x.length / 2 + 1 := by simp [hG]
  have hu : UniformAxis F (1 / (x.length * dt)) := freq_uniform hx2 hdt
  have hstep : F.getD 1 0 - F.getD 0 0 = 1 / (x.length * dt) := uniform_first_step (by omega) hu
  obtain ⟨m, fc, sc, hm, havg, hbf, hbs⟩ := averaging_block_means (df := df) (isArr_vec F) (isArr_vec G) (by omega) (by omega)
    (by have : 0 < F.getD 1 0 - F.getD 0 0 := by rw [hstep]; positivity
        linarith)
  have havg' : frequencyAveragingL F G df = .ok (fc, sc) := by
    unfold frequencyAveraging at havg
    rw [vecIn_vec, vecIn_vec] at havg
    exact havg
  rw [havg'] at e
  have hval : s.getSpectrumRaw df = SpecObj.init (vec fc) (vec sc) := by
    unfold SeriesObj.getSpectrumRaw
    rw [e]; rfl
  rw [hstep] at hm
  rw [hFl] at hbf hbs
  refine ⟨m, fc, sc, hm, hbf, hbs, fun h2 => ?_, fun h2 => ?_⟩
  · have hbf' := hbf
    rw [← hFl] at hbf'
    have hua := averaging_axis_uniform hm.1 hu hbf'
    rw [mul_one_div] at hua
    refine ⟨hua, ?_⟩
    rw [hval, spectrum_init_iff_partial (isArr_vec fc) (isArr_vec sc)]
    exact ⟨uniform_check_accepts_uniform (by rw [hbf.1]; exact h2) hua, by rw [hbf.1, hbs.1], rfl⟩
  · rw [hval]
    obtain ⟨a, b⟩ := toVector_of_isArr (isArr_vec fc)
    unfold SpecObj.init
    rcases hv : toVector (vec fc) with ⟨fa, n1, n2⟩
    rw [hv] at a b
    dsimp only at a b ⊢
    subst a
    dsimp only
    rw [uniform_check_short (by rw [hbf.1]; exact h2)]

/-- **C75.** From a spectrum to a series and back: take a valid spectrum with non-negative densities, create a series from
`tstart < tend` with step `dt`, and compute its raw spectrum.  If the series has an even number `2 n` of samples, the result has the
frequencies `k df`, `k = 0, …, n`, `df = 1 / (2 n dt)`; its density is 0 at zero frequency, exactly the (linearly interpolated)
original density at every frequency strictly below Nyquist, whatever the random phases, and between 0 and it at Nyquist. -/
theorem spectrum_series_spectrum (R : Rng) {pf pS : PyIn ℝ} {f S : List ℝ} (hf : pf.IsArr f) (hS : pS.IsArr S) {sp : SpecObj}
    (hsp : SpecObj.init pf pS = .ok sp) (hpos : ∀ v ∈ S, 0 ≤ v) {tstart tend dt : ℝ} (hdt : 0 < dt) (ht : tstart < tend) (g : R.State) :
    ∃ o g', sp.createSeries R tstart tend dt g = (.ok o, g') ∧ o.dt = dt ∧
      ∀ n S', o.nt = 2 * n → IsInterpolant f S S' →
        ∃ sp2 D, o.getSpectrumRaw 0 = .ok sp2 ∧ sp2.f = (List.range (n + 1)).map (fun (k : Nat) => (k : ℝ) / (2 * n * dt)) ∧
          sp2.sVarDens = arr1 D ∧ D.length = n + 1 ∧ D.getD 0 0 = 0 ∧
          (∀ k, 0 < k → k < n → D.getD k 0 = S' (k / (2 * n * dt))) ∧
          0 ≤ D.getD n 0 ∧ D.getD n 0 ≤ S' (n / (2 * n * dt)) := by
  obtain ⟨hm, hl, rfl⟩ := (spectrum_init_iff_partial hf hS).1 hsp
  have hinc := uniform_check_increasing hm
  have hne : f ≠ [] := by have := mono_two_le hm; rintro rfl; simp at this
  obtain ⟨t, x, o, g', h1, h2, h3, h4, h5, h6⟩ := synth_object R (isArr_vec f) (.nd S) hl hne hinc hpos hdt ht (seed := -1)
    (by norm_num) g
  refine ⟨o, g', h2, h6, ?_⟩
  intro n S' hn hS'
  obtain ⟨t', x', S'', φ, a1, a2, a3, a4, a5, a6, a7, a8, a9⟩ :=
    synth_formula R (isArr_vec f) (.nd S) hl hne hinc hpos hdt ht.le (seed := -1) (by norm_num) g
  have hst : t' = t ∧ x' = x := by
    have := a1.symm.trans h1
    simp only [Prod.mk.injEq, Except.ok.injEq] at this
    exact this.1
  obtain ⟨rfl, rfl⟩ := hst
  have hSS : S'' = S' := isInterpolant_unique hinc a7 hS'
  subst hSS
  have htl : t'.length = 2 * n := by rw [← h5, hn]
  have hn0 : 0 < n := by omega
  have hxl : x'.length = 2 * n := by omega
  have hu : UniformAxis t' dt := ⟨hdt, fun i hi => by
    rw [a4 _ hi, a4 _ (by omega)]; push_cast; ring⟩
  have hv : ValidSeries o t' x' dt := ⟨h3, h4, by omega, a2, hu⟩
  obtain ⟨m, fc, sc, b1, b2, b3, b4, -⟩ := spectrum_raw hv 0
  have hm1 : m = 1 := b1.2.1 rfl
  subst hm1
  have hN : x'.length / 2 + 1 = n + 1 := by omega
  have hfc : fc = (List.range (n + 1)).map (fun (k : Nat) => (k : ℝ) / (2 * n * dt)) := by
    rw [eq_map_range_getD fc 0, b2.1, Nat.div_one, hN]
    refine List.map_congr_left fun k hk => ?_
    have hk' := List.mem_range.1 hk
    rw [b2.2 k (by rw [Nat.div_one]; omega), range_one, sum_singleton, mul_one, add_zero, Nat.cast_one, div_one,
      getD_map_range _ _ _ _ (by omega), hxl]
    push_cast; rfl
  have hsc : ∀ k ≤ n, sc.getD k 0 = rawBin x' dt k := by
    intro k hk
    rw [b3.2 k (by rw [Nat.div_one]; omega), range_one, sum_singleton, mul_one, add_zero, Nat.cast_one, div_one,
      getD_map_range _ _ _ _ (by omega)]
  have hnn := interp_nonneg hinc hl a7 hpos
  obtain ⟨Y, y1, y2, y3, y4⟩ := random_phase_components hn0 hdt hnn φ
  have hn1 : (t'.length + 1) / 2 = n := by omega
  rw [hn1] at a9
  have hcoef : ∀ k < 2 * n, coef x' k = ((2 * n : ℕ) : ℂ) * Y k := by
    intro k hk
    rw [← y1 k hk]
    unfold coef
    rw [hxl]
    exact fwd_congr (fun j hj => by rw [a9 j (by omega)]) k
  have hn' : (0 : ℝ) < n := by exact_mod_cast hn0
  have hbin : ∀ k < 2 * n, rawBin x' dt k = 2 * Complex.normSq (Y k) * (2 * n * dt) := by
    intro k hk
    unfold rawBin
    rw [← coef_eq_sum, hcoef k hk, Complex.normSq_mul, Complex.normSq_natCast, hxl]
    push_cast
    field_simp
  refine ⟨_, sc, (b4 (by omega)).2, hfc, rfl, by rw [b3.1, Nat.div_one, hN], ?_, ?_, ?_⟩
  · rw [hsc 0 (by omega), hbin 0 (by omega), y2]; simp
  · intro k hk0 hk
    obtain ⟨i, rfl⟩ : ∃ i, k = i + 1 := ⟨k - 1, by omega⟩
    rw [hsc _ hk.le, hbin _ (by omega), y3 i hk]
    have e1 : ((i + 1 : ℕ) : ℝ) / (2 * n * dt) = ((i : ℝ) + 1) * genDf n dt := by unfold genDf; push_cast; ring
    rw [e1]
    have e2 : genDf n dt * (2 * n * dt) = 1 := by unfold genDf; field_simp
    linear_combination S'' (((i : ℝ) + 1) * genDf n dt) * e2
  · have e1 : (n : ℝ) / (2 * n * dt) = n * genDf n dt := by unfold genDf; ring
    have e2 : genDf n dt * (2 * n * dt) = 1 := by unfold genDf; field_simp
    have e3 : sc.getD n 0 = S'' (n * genDf n dt) * Real.cos (φ (n - 1)) ^ 2 := by
      rw [hsc n le_rfl, hbin n (by omega), y4]
      linear_combination S'' (n * genDf n dt) * Real.cos (φ (n - 1)) ^ 2 * e2
    rw [e3, e1]
    have hc := Real.cos_sq_le_one (φ (n - 1))
    have hS0 := hnn (n * genDf n dt)
    exact ⟨mul_nonneg hS0 (sq_nonneg _), by nlinarith⟩

/-- Non-vacuity: a three-point spectrum, a series of four samples (0, 1, 2, 3 s): the raw density at 0.25 Hz is the interpolated one, 3. -/
example : ∃ sp o g' sp2, SpecObj.init (vec [1 / 8, 2 / 8, 3 / 8]) (vec [1, 3, 2]) = .ok sp ∧
    sp.createSeries quarterRng 0 3 1 (5 : Nat) = (.ok o, g') ∧ o.getSpectrumRaw 0 = .ok sp2 ∧ sp2.sVarDens.data.getD 1 0 = 3 := by
  have hu : UniformAxis ([1 / 8, 2 / 8, 3 / 8] : List ℝ) (1 / 8) := ⟨by norm_num, fun i hi => by
    have : i = 0 ∨ i = 1 := by simp at hi; omega
    rcases this with rfl | rfl <;> norm_num⟩
  have hacc := uniform_check_accepts_uniform (by simp) hu
  have hsp := (spectrum_init_iff_partial (isArr_vec ([1 / 8, 2 / 8, 3 / 8] : List ℝ)) (isArr_vec [1, 3, 2])
    (s := _)).2 ⟨hacc, rfl, rfl⟩
  have hpos : ∀ v ∈ ([1, 3, 2] : List ℝ), 0 ≤ v := by norm_num
  obtain ⟨o, g', h1, h2, h3⟩ := spectrum_series_spectrum quarterRng (isArr_vec ([1 / 8, 2 / 8, 3 / 8] : List ℝ)) (isArr_vec [1, 3, 2])
    hsp hpos (tstart := 0) (tend := 3) (dt := 1) one_pos (by norm_num) (5 : Nat)
  have hinc := uniform_check_increasing hacc
  have hnt : o.nt = 2 * 2 := by
    obtain ⟨t, x, o2, g2, b1, b2, -, -, b5, -⟩ := synth_object quarterRng (isArr_vec ([1 / 8, 2 / 8, 3 / 8] : List ℝ)) (.nd [1, 3, 2]) rfl
      (by simp) hinc hpos (tInit := 0) (tEnd := 3) (dt := 1) one_pos (by norm_num) (seed := -1) (by norm_num) (5 : Nat)
    have hoo : o2 = o := by
      have := b2.symm.trans h1
      simp only [Prod.mk.injEq, Except.ok.injEq] at this
      exact this.1
    obtain ⟨t', x', S'', φ, a1, a2, a3, a4, a5, a6, -⟩ :=
      synth_formula quarterRng (isArr_vec ([1 / 8, 2 / 8, 3 / 8] : List ℝ)) (.nd [1, 3, 2]) rfl (by simp) hinc hpos (tInit := 0) (tEnd := 3)
        (dt := 1) one_pos (by norm_num) (seed := -1) (by norm_num) (5 : Nat)
    have htt : t' = t := by
      have := a1.symm.trans b1
      simp only [Prod.mk.injEq, Except.ok.injEq] at this
      exact this.1.1
    subst htt hoo
    rw [b5]
    rw [a4 _ (by omega)] at a5 a6
    have h1 : (3 : ℝ) ≤ ((t'.length - 1 : ℕ) : ℝ) := by linarith
    have h2 : ((t'.length - 1 : ℕ) : ℝ) < 4 := by linarith
    have h1' : 3 ≤ t'.length - 1 := by exact_mod_cast h1
    have h2' : t'.length - 1 < 4 := by exact_mod_cast h2
    omega
  obtain ⟨sp2, D, c1, -, c3, -, -, c6, -⟩ := h3 2 _ hnt (npInterp_spec hinc rfl)
  refine ⟨_, o, g', sp2, hsp, h1, c1, ?_⟩
  rw [c3]
  show D.getD 1 0 = 3
  rw [c6 1 one_pos (by norm_num)]
  have := (npInterp_spec (f := [1 / 8, 2 / 8, 3 / 8]) (S := [1, 3, 2]) hinc rfl).2.1 1 (by simp)
  have e : ((1 : ℕ) : ℝ) / (2 * (2 : ℕ) * 1) = ([1 / 8, 2 / 8, 3 / 8] : List ℝ).getD 1 0 := by norm_num
  rw [e, this]; rfl

/-! ## Concrete cases: the hypotheses of the theorems above are met -/

example := random_phase_components (n := 8) (by norm_num) (dt := 1 / 2) (by norm_num) (S := fun v => v ^ 2) (fun v => by positivity) (fun i => i)
example : ∃ s, SeriesObj.init (vec [0, 1, 2, 3, 4]) (vec [0, 1, 0, -1, (2 : ℝ)]) = .ok s ∧ ((∃ o, s.getSpectrumRaw 0 = .ok o) ∨ s.getSpectrumRaw 0 = .error .indexError) := by
  obtain ⟨s, -, -, -, hs, -⟩ := series_never_fails (isVec_vec ([0, 1, 2, 3, 4] : List ℝ)) (isVec_vec ([0, 1, 0, -1, 2] : List ℝ)) (by simp) rfl axis5
  obtain ⟨m, fc, sc, -, -, -, h1, h2⟩ := spectrum_raw (validSeries_of_init (isVec_vec ([0, 1, 2, 3, 4] : List ℝ)) (isVec_vec ([0, 1, 0, -1, 2] : List ℝ)) (by simp) rfl axis5 hs).1 0
  refine ⟨s, hs, ?_⟩
  rcases Nat.lt_or_ge ((([0, 1, 0, -1, 2] : List ℝ).length / 2 + 1) / m) 2 with h | h
  · exact .inr (h2 h)
  · exact .inl ⟨_, (h1 h).2⟩

end Verif
