import Verif.Props.Synth
import Verif.Props.RawInvariance
import Verif.Props.RoundTrip

/-! # The spectrum of a synthesised series (C181) -/

set_option linter.unusedSectionVars false

namespace Verif
open Finset

/-! ## Specification -/

/-- The density in bin `k` of a series of `2 n` samples synthesised from the density `S` with last phase `φ`: nothing at zero
frequency, the density itself below the Nyquist frequency, and the density times `cos²` of the last phase at the Nyquist
frequency. -/
noncomputable def synthBin (n : Nat) (dt : ℝ) (S : ℝ → ℝ) (φ : ℝ) (k : Nat) : ℝ :=
  if k = 0 then 0 else if k < n then S (k * genDf n dt) else S (k * genDf n dt) * Real.cos φ ^ 2

/-! ## The coefficients of the random-phase sum -/

theorem random_phase_coef {n : Nat} (hn : 0 < n) {dt : ℝ} (hdt : 0 < dt) {S : ℝ → ℝ} (hS : ∀ v, 0 ≤ S v) (φ : Nat → ℝ)
    {x : List ℝ} (hx : x.length = 2 * n) (hxv : ∀ j < 2 * n, x.getD j 0 = randomPhaseSum n dt S φ j) {k : Nat} (hk : k ≤ n) :
    2 * Complex.normSq (coef x k) = (2 * n) ^ 2 * (synthBin n dt S (φ (n - 1)) k * genDf n dt) := by
  have hdf : 0 < genDf n dt := by
    have : (0 : ℝ) < n := by exact_mod_cast hn
    unfold genDf; positivity
  set A : List ℝ := (List.range n).map fun (i : Nat) => Real.sqrt (2 * S (((i : ℝ) + 1) * genDf n dt) * genDf n dt) with hA
  set φl : List ℝ := (List.range n).map φ with hφl
  have hAi : ∀ i < n, A.getD i 0 = Real.sqrt (2 * S (((i : ℝ) + 1) * genDf n dt) * genDf n dt) := fun i hi => by
    rw [hA, getD_map_range _ _ i 0 hi]
  have hφi : ∀ i < n, φl.getD i 0 = φ i := fun i hi => by rw [hφl, getD_map_range _ _ i 0 hi]
  have hval : ∀ j, randomPhaseSum n dt S φ j = (inv (2 * n) (symExt (2 * n) (compAt A φl)) j * ((2 * n : ℕ) : ℂ)).re := by
    intro j
    rw [synth_value hn hdt]
    unfold randomPhaseSum
    refine sum_congr rfl fun i hi => ?_
    rw [hAi i (mem_range.1 hi), hφi i (mem_range.1 hi)]
  set D : Nat → ℂ := fun k => if k = n then ((compAt A φl n).re : ℂ) else compAt A φl k with hD
  have hval2 : ∀ j, randomPhaseSum n dt S φ j = (inv (2 * n) (symExt (2 * n) D) j * ((2 * n : ℕ) : ℂ)).re := by
    intro j
    rw [hval, symExt_inv_re hn, symExt_inv_re hn]
    congr 1
    · refine sum_congr rfl fun k hk => ?_
      have := mem_range.1 hk
      simp only [hD]; rw [if_neg (by omega)]
    · refine sum_congr rfl fun k hk => ?_
      have := mem_range.1 hk
      by_cases hkn : k + 1 = n
      · simp only [hD, hkn]
        rw [if_pos trivial, twiddle_jn hn]
        have : ((-1 : ℂ) ^ j) = (((-1 : ℝ) ^ j : ℝ) : ℂ) := by push_cast; rfl
        rw [this, Complex.re_mul_ofReal, Complex.re_mul_ofReal, Complex.ofReal_re]
      · simp only [hD]; rw [if_neg hkn]
  have h2n : 0 < 2 * n := by omega
  set Y := symExt (2 * n) D with hY
  have hY0 : Y 0 = 0 := by
    simp only [hY, symExt, hD]
    rw [if_pos (by omega), if_neg (by omega)]; simp [compAt]
  have hYreal : ∀ j, (starRingEnd ℂ) (inv (2 * n) Y j) = inv (2 * n) Y j := by
    apply inv_real h2n
    · rw [hY0, map_zero]
    · intro k hk0 hk
      simp only [hY, symExt, show (2 * n + 1) / 2 = n by omega]
      by_cases h1 : k < n
      · rw [if_neg (by omega), if_pos h1, show 2 * n - (2 * n - k) = k by omega]
      · by_cases h2 : k = n
        · subst h2
          have e : 2 * k - k = k := by omega
          simp only [e]
          rw [if_neg (lt_irrefl _)]
          simp [hD]
        · rw [if_pos (by omega), if_neg h1, Complex.conj_conj]
  have hcx : ∀ j < 2 * n, ((x.getD j 0 : ℝ) : ℂ) = ((2 * n : ℕ) : ℂ) * inv (2 * n) Y j := by
    intro j hj
    have him : (inv (2 * n) Y j).im = 0 := Complex.conj_eq_iff_im.1 (hYreal j)
    have e : inv (2 * n) Y j = ((inv (2 * n) Y j).re : ℂ) := by
      apply Complex.ext <;> simp [him]
    rw [hxv j hj, hval2 j]
    have : (((2 * n : ℕ)) : ℂ) = ((((2 * n : ℕ) : ℝ)) : ℂ) := by push_cast; rfl
    rw [this, Complex.re_mul_ofReal]
    conv_rhs => rw [e]
    push_cast; ring
  have hcoef : coef x k = ((2 * n : ℕ) : ℂ) * Y k := by
    rw [← fwd_inv h2n Y (l := k) (by omega)]
    unfold coef fwd
    rw [hx, mul_sum]
    refine sum_congr rfl fun j hj => ?_
    beta_reduce
    rw [hcx j (mem_range.1 hj)]; ring
  have hYk : Complex.normSq (Y k) = Complex.normSq (D k) := by
    simp only [hY, symExt, show (2 * n + 1) / 2 = n by omega]
    by_cases h1 : k < n
    · rw [if_pos h1]
    · rw [if_neg h1, Complex.normSq_conj, show 2 * n - k = k by omega]
  have hnorm : Complex.normSq ((2 * n : ℕ) : ℂ) = (2 * (n : ℝ)) ^ 2 := by
    rw [Complex.normSq_natCast]; push_cast; ring
  rw [hcoef, Complex.normSq_mul, hYk, hnorm]
  have hmain : 2 * Complex.normSq (D k) = synthBin n dt S (φ (n - 1)) k * genDf n dt := by
    rcases Nat.eq_zero_or_pos k with rfl | hk0
    · simp only [hD, synthBin]
      rw [if_neg (by omega)]; simp [compAt]
    · obtain ⟨i, rfl⟩ : ∃ i, k = i + 1 := ⟨k - 1, by omega⟩
      have hi : i < n := by omega
      have hsq := Real.mul_self_sqrt (mul_nonneg (mul_nonneg (by norm_num : (0 : ℝ) ≤ 2) (hS (((i : ℝ) + 1) * genDf n dt))) hdf.le)
      have h2 : ((Real.sqrt (2 * S (((i : ℝ) + 1) * genDf n dt) * genDf n dt) : ℝ) : ℂ) / 2 =
        ((Real.sqrt (2 * S (((i : ℝ) + 1) * genDf n dt) * genDf n dt) / 2 : ℝ) : ℂ) := by push_cast; rfl
      unfold synthBin
      rw [if_neg (by omega)]
      by_cases hin : i + 1 < n
      · rw [if_pos hin]
        simp only [hD]
        rw [if_neg (by omega)]
        unfold compAt
        rw [if_neg (by omega), Nat.add_sub_cancel, Complex.normSq_mul, hAi i hi, h2]
        have h1 : Complex.normSq (Complex.exp (Complex.I * ((φl.getD i 0 : ℝ) : ℂ))) = 1 := by
          rw [mul_comm, Complex.normSq_eq_norm_sq, Complex.norm_exp_ofReal_mul_I]; norm_num
        rw [h1, Complex.normSq_ofReal, mul_one]
        push_cast
        linear_combination hsq / 2
      · rw [if_neg hin]
        have hne : i + 1 = n := by omega
        simp only [hD]
        rw [if_pos hne, Complex.normSq_ofReal]
        have hr : (compAt A φl n).re = Real.sqrt (2 * S (((i : ℝ) + 1) * genDf n dt) * genDf n dt) / 2 * Real.cos (φ (n - 1)) := by
          unfold compAt
          rw [if_neg (by omega), show n - 1 = i by omega, hAi i hi, hφi i hi, h2, Complex.re_ofReal_mul, mul_comm Complex.I,
            Complex.exp_ofReal_mul_I_re]
        rw [hr]
        push_cast
        linear_combination hsq / 2 * Real.cos (φ (n - 1)) ^ 2
  linear_combination (2 * (n : ℝ)) ^ 2 * hmain

/-! ## C181 -/

/-- **C181.**  The synthesised series, put through `compute_spectrum_time_series`, gives back the density it was made from: with
an even number `2 n` of samples the frequencies are the generated ones, `k df` with `df = 1 / (2 n dt)`, and before the averaging
to the requested resolution the density in bin `k` is that of the piecewise linear interpolant of the given spectrum at `k df`, for
every `0 < k < n`, whatever the phases; it is zero at zero frequency and at the Nyquist frequency carries a factor `cos²` of the
last phase drawn. -/
theorem synth_spectrum (R : Rng) {f S : PyIn ℝ} {fs Ss : List ℝ} (hf : f.IsArr fs) (hS : S.IsFlat Ss)
    (hl : fs.length = Ss.length) (hne : fs ≠ []) (hinc : fs.Pairwise (· < ·)) (hpos : ∀ v ∈ Ss, 0 ≤ v)
    {tInit tEnd dt : ℝ} (hdt : 0 < dt) (ht : tInit ≤ tEnd) {seed : Int} (hseed : seed < 2 ^ 32) {s s' : R.State}
    {t x : List ℝ} (hr : spectrum2timeseries R f S tInit tEnd dt seed s = (.ok (t, x), s')) {n : Nat}
    (heven : t.length = 2 * n) {S' : ℝ → ℝ} (hS' : IsInterpolant fs Ss S') (dfDesired : ℝ) :
    computeSpectrumTimeSeries (vec t) (vec x) dfDesired =
      frequencyAveraging (vec ((List.range (n + 1)).map fun (k : Nat) => (k : ℝ) * (1 / (2 * n * dt))))
        (vec ((List.range (n + 1)).map
          (synthBin n dt S' (2 * Real.pi * ((R.rand (seededState R seed s) n).1.getD (n - 1) 0))))) dfDesired := by
  obtain ⟨t', x', S'', φ, h1, h2, h3, h4, h5, h6, h7, h8, h9⟩ :=
    synth_formula R hf hS hl hne hinc hpos hdt ht hseed s
  rw [hr] at h1
  simp only [Prod.mk.injEq, Except.ok.injEq] at h1
  obtain ⟨⟨rfl, rfl⟩, _⟩ := h1
  have hSS : S'' = S' := isInterpolant_unique hinc h7 hS'
  subst hSS
  have hn : 0 < n := by omega
  have hn1 : (t.length + 1) / 2 = n := by omega
  rw [hn1] at h8 h9
  have hnn := interp_nonneg hinc hl h7 hpos
  have hxl : x.length = 2 * n := by omega
  have hu : UniformAxis t dt := ⟨hdt, fun i hi => by
    rw [h4 _ hi, h4 _ (by omega)]; push_cast; ring⟩
  obtain ⟨o, _, _, _, a1, a2, a3, a4, a5, _⟩ := series_never_fails (isVec_vec t) (isVec_vec x) (by omega) h2 hu
  have hV : ValidSeries o t x dt := ⟨a2, a3, by omega, h2, hu⟩
  have hN : (0 : ℝ) < n := by exact_mod_cast hn
  have hdfo : dfOf t = genDf n dt := by
    unfold dfOf genDf; rw [uniform_first_step hV.two hu, heven]; push_cast; rfl
  rw [rawSpectrum_eq (isArr_vec t) (isArr_vec x) hV.accepted h2 dfDesired, hdfo, hxl, show 2 * n / 2 = n by omega]
  unfold frequencyAveraging
  rw [vecIn_vec, vecIn_vec]
  show frequencyAveragingL _ _ dfDesired = frequencyAveragingL _ _ dfDesired
  congr 1
  refine List.map_congr_left fun k hk => ?_
  have hk' : k ≤ n := by have := List.mem_range.1 hk; omega
  rw [random_phase_coef hn hdt hnn φ hxl (fun j hj => h9 j (by omega)) hk', h8]
  have hdf : genDf n dt ≠ 0 := by unfold genDf; positivity
  push_cast
  field_simp

/-- **C181 (no averaging).** -/
theorem synth_spectrum_raw (R : Rng) {f S : PyIn ℝ} {fs Ss : List ℝ} (hf : f.IsArr fs) (hS : S.IsFlat Ss)
    (hl : fs.length = Ss.length) (hne : fs ≠ []) (hinc : fs.Pairwise (· < ·)) (hpos : ∀ v ∈ Ss, 0 ≤ v)
    {tInit tEnd dt : ℝ} (hdt : 0 < dt) (ht : tInit ≤ tEnd) {seed : Int} (hseed : seed < 2 ^ 32) {s s' : R.State}
    {t x : List ℝ} (hr : spectrum2timeseries R f S tInit tEnd dt seed s = (.ok (t, x), s')) {n : Nat}
    (heven : t.length = 2 * n) {S' : ℝ → ℝ} (hS' : IsInterpolant fs Ss S') :
    ∃ g E c, computeSpectrumTimeSeries (vec t) (vec x) 0 = .ok (g, E) ∧ g.length = n + 1 ∧ E.length = n + 1 ∧
      (∀ k ≤ n, g.getD k 0 = k / (2 * n * dt)) ∧ E.getD 0 0 = 0 ∧ (∀ k, 0 < k → k < n → E.getD k 0 = S' (k / (2 * n * dt))) ∧
      0 ≤ c ∧ c ≤ 1 ∧ E.getD n 0 = S' (n / (2 * n * dt)) * c := by
  have hn : 0 < n := by
    obtain ⟨t', x', S'', φ, h1, h2, h3, -⟩ := synth_formula R hf hS hl hne hinc hpos hdt ht hseed s
    rw [hr] at h1
    simp only [Prod.mk.injEq, Except.ok.injEq] at h1
    obtain ⟨⟨rfl, rfl⟩, _⟩ := h1
    omega
  have e := synth_spectrum R hf hS hl hne hinc hpos hdt ht hseed hr heven hS' 0
  rw [averaging_identity (isArr_vec _) (isArr_vec _) (by simp) (by simp)] at e
  refine ⟨_, _, _, e, by simp, by simp, fun k hk => ?_, ?_, fun k h0 hk => ?_, sq_nonneg _, Real.cos_sq_le_one
    (2 * Real.pi * ((R.rand (seededState R seed s) n).1.getD (n - 1) 0)), ?_⟩
  · rw [getD_map_range _ _ k 0 (by omega), mul_one_div]
  · rw [getD_map_range _ _ 0 0 (by omega)]; simp [synthBin]
  · rw [getD_map_range _ _ k 0 (by omega)]
    unfold synthBin genDf
    rw [if_neg (by omega), if_pos hk, mul_one_div]
  · rw [getD_map_range _ _ n 0 (by omega)]
    unfold synthBin genDf
    rw [if_neg (by omega), if_neg (lt_irrefl _), mul_one_div]

/-- **C181 (round trip on the same grid).**  A spectrum given on the frequencies `k / (2 n dt)`, `k = 0 … n`, of a record of `2 n`
samples, synthesised as such a record and analysed again without averaging, comes back unchanged in every bin except the first and
the last: those are exactly the densities put in. -/
theorem synth_spectrum_same_grid (R : Rng) {n : Nat} {Ss : List ℝ} (hl : Ss.length = n + 1) (hpos : ∀ v ∈ Ss, 0 ≤ v)
    {tInit tEnd dt : ℝ} (hdt : 0 < dt) (ht : tInit ≤ tEnd) {seed : Int} (hseed : seed < 2 ^ 32) {s s' : R.State}
    {t x : List ℝ} (hr : spectrum2timeseries R (vec ((List.range (n + 1)).map fun (k : Nat) => (k : ℝ) / (2 * n * dt))) (vec Ss)
      tInit tEnd dt seed s = (.ok (t, x), s')) (heven : t.length = 2 * n) :
    ∃ E c, computeSpectrumTimeSeries (vec t) (vec x) 0 =
        .ok ((List.range (n + 1)).map fun (k : Nat) => (k : ℝ) / (2 * n * dt), E) ∧ E.length = n + 1 ∧
      (∀ k, 0 < k → k < n → E.getD k 0 = Ss.getD k 0) ∧ E.getD 0 0 = 0 ∧ 0 ≤ c ∧ c ≤ 1 ∧ E.getD n 0 = Ss.getD n 0 * c := by
  rcases Nat.eq_zero_or_pos n with rfl | hn
  · exfalso
    obtain ⟨v, rfl⟩ : ∃ v, Ss = [v] := List.length_eq_one_iff.1 (by omega)
    obtain ⟨t', x', S'', φ, h1, h2, h3, -⟩ := synth_formula R (isArr_vec _) (.nd [v]) rfl (by simp) (by simp)
      hpos hdt ht hseed s (fs := (List.range (0 + 1)).map fun (k : Nat) => (k : ℝ) / (2 * (0 : ℕ) * dt))
    change spectrum2timeseries R _ (PyIn.nd { shape := [[v].length], data := [v] }) _ _ _ _ _ = _ at hr
    rw [hr] at h1
    simp only [Prod.mk.injEq, Except.ok.injEq] at h1
    obtain ⟨⟨rfl, rfl⟩, _⟩ := h1
    omega
  have hN : (0 : ℝ) < n := by exact_mod_cast hn
  set fs := (List.range (n + 1)).map fun (k : Nat) => (k : ℝ) / (2 * n * dt) with hfs
  have hfl : fs.length = n + 1 := by simp [hfs]
  have hinc : fs.Pairwise (· < ·) := by
    rw [hfs, List.pairwise_map]
    refine List.Pairwise.imp (fun {a b} hab => ?_) List.pairwise_lt_range
    have : (a : ℝ) < b := by exact_mod_cast hab
    exact div_lt_div_of_pos_right this (by positivity)
  have hI := npInterp_spec hinc (show fs.length = Ss.length by omega)
  obtain ⟨g, E, c, e, hg, hE, hgk, h0, hk, c0, c1, hEn⟩ := synth_spectrum_raw R (isArr_vec fs) (.nd Ss) (by omega)
    (by intro h; rw [h] at hfl; simp at hfl) hinc hpos hdt ht hseed hr heven hI
  have hgf : g = fs := by
    apply List.ext_getElem (by omega)
    intro k h1 h2
    have h3 := hgk k (by omega)
    rw [List.getD_eq_getElem _ _ h1] at h3
    rw [h3]
    simp [hfs]
  have hval : ∀ k ≤ n, npInterp fs Ss (k / (2 * n * dt)) = Ss.getD k 0 := fun k hk => by
    have := hI.2.1 k (by omega)
    rwa [hfs, getD_map_range _ _ k 0 (by omega), ← hfs] at this
  refine ⟨E, c, hgf ▸ e, hE, fun k h1 h2 => ?_, h0, c0, c1, ?_⟩
  · rw [hk k h1 h2, hval k h2.le]
  · rw [hEn, hval n le_rfl]

/-- **C181 (objects).**  `create_series` followed by `get_spectrum_raw(0)`: the spectrum object that comes back holds the frequencies
`k / (2 n dt)` and, for every `0 < k < n`, the density of the interpolant of the given one. -/
theorem synth_object_raw (R : Rng) {f S : PyIn ℝ} {fs Ss : List ℝ} (hf : f.IsArr fs) (hS : S.IsFlat Ss)
    (hl : fs.length = Ss.length) (hne : fs ≠ []) (hinc : fs.Pairwise (· < ·)) (hpos : ∀ v ∈ Ss, 0 ≤ v)
    {tInit tEnd dt : ℝ} (hdt : 0 < dt) (ht : tInit < tEnd) {seed : Int} (hseed : seed < 2 ^ 32) {s s' : R.State}
    {o : SeriesObj ℝ} (hr : spectrum2timeseriesObject R f S tInit tEnd dt seed s = (.ok o, s')) {n : Nat}
    (heven : o.nt = 2 * n) {S' : ℝ → ℝ} (hS' : IsInterpolant fs Ss S') :
    ∃ sp c, o.getSpectrumRaw 0 = .ok sp ∧ sp.nf = n + 1 ∧ sp.f = (List.range (n + 1)).map (fun (k : Nat) => (k : ℝ) / (2 * n * dt)) ∧
      sp.sVarDens.shape = [n + 1] ∧ sp.sVarDens.data.getD 0 0 = 0 ∧
      (∀ k, 0 < k → k < n → sp.sVarDens.data.getD k 0 = S' (k / (2 * n * dt))) ∧
      0 ≤ c ∧ c ≤ 1 ∧ sp.sVarDens.data.getD n 0 = S' (n / (2 * n * dt)) * c := by
  obtain ⟨t, x, o', s1, e1, e2, ot, ox, ont, odt⟩ := synth_object R hf hS hl hne hinc hpos hdt ht hseed s
  rw [hr] at e2
  simp only [Prod.mk.injEq, Except.ok.injEq] at e2
  obtain ⟨rfl, rfl⟩ := e2
  obtain ⟨t', x', S'', φ, h1, h2, h3, h4, -⟩ := synth_formula R hf hS hl hne hinc hpos hdt ht.le hseed s
  rw [e1] at h1
  simp only [Prod.mk.injEq, Except.ok.injEq] at h1
  obtain ⟨⟨rfl, rfl⟩, _⟩ := h1
  rw [ont] at heven
  have hu : UniformAxis t dt := ⟨hdt, fun i hi => by
    rw [h4 _ hi, h4 _ (by omega)]; push_cast; ring⟩
  have hV : ValidSeries o t x dt := ⟨ot, ox, by omega, h2, hu⟩
  obtain ⟨g, E, c, e, hg, hE, hgk, h0, hk, c0, c1, hEn⟩ := synth_spectrum_raw R hf hS hl hne hinc hpos hdt ht.le hseed e1 heven hS'
  have hgf : g = (List.range (n + 1)).map (fun (k : Nat) => (k : ℝ) / (2 * n * dt)) := by
    apply List.ext_getElem (by simp [hg])
    intro k h1 h2
    have h3 := hgk k (by omega)
    rw [List.getD_eq_getElem _ _ h1] at h3
    rw [h3]
    simp
  have hn : 1 ≤ n := by omega
  have hul : UniformAxis g (1 / ((2 * n : ℕ) * dt)) := by
    rw [hgf]
    have := freq_uniform (M := 2 * n) (by omega) hdt
    rw [show 2 * n / 2 = n by omega] at this
    convert this using 4
    push_cast; rfl
  have hgl : (vec g).IsArr g := isArr_vec g
  have hinit := (spectrum_init_iff_partial (isArr_vec g) (isArr_vec E)).2
    ⟨uniform_check_accepts_uniform (by omega) hul, by rw [hg, hE], rfl⟩
  refine ⟨{ f := g, sVarDens := ⟨[E.length], E⟩, nf := g.length }, c, ?_, hg, hgf, ?_, h0, hk, c0, c1, hEn⟩
  · unfold SeriesObj.getSpectrumRaw
    rw [ot, ox]
    change computeSpectrumTimeSeries (vec t) (vec x) 0 >>= _ = _
    rw [e]
    exact hinit
  · simp [hE]

/-- **C181 (odd records).**  With an odd number `2 n - 1` of samples there is no round trip: the record is one sample short of the
period of the signal, the frequencies of its spectrum are not the generated ones, and the sample that is missing - the value `r` of
the random-phase sum one step after the last time - turns up as a density `2 dt r² / N` at zero frequency, where nothing was put in. -/
theorem synth_spectrum_odd (R : Rng) {f S : PyIn ℝ} {fs Ss : List ℝ} (hf : f.IsArr fs) (hS : S.IsFlat Ss)
    (hl : fs.length = Ss.length) (hne : fs ≠ []) (hinc : fs.Pairwise (· < ·)) (hpos : ∀ v ∈ Ss, 0 ≤ v)
    {tInit tEnd dt : ℝ} (hdt : 0 < dt) (ht : tInit ≤ tEnd) {seed : Int} (hseed : seed < 2 ^ 32) {s s' : R.State}
    {t x : List ℝ} (hr : spectrum2timeseries R f S tInit tEnd dt seed s = (.ok (t, x), s')) {n : Nat}
    (hodd : t.length + 1 = 2 * n) (hn2 : 2 ≤ n) {S' : ℝ → ℝ} (hS' : IsInterpolant fs Ss S') :
    ∃ g E r, computeSpectrumTimeSeries (vec t) (vec x) 0 = .ok (g, E) ∧ g.length = n ∧ E.length = n ∧
      (∀ k < n, g.getD k 0 = k / (t.length * dt)) ∧
      r = randomPhaseSum n dt S' (fun i => 2 * Real.pi * (R.rand (seededState R seed s) n).1.getD i 0) t.length ∧
      E.getD 0 0 = 2 * dt * r ^ 2 / t.length := by
  obtain ⟨t', x', S'', φ, h1, h2, h3, h4, h5, h6, h7, h8, h9⟩ :=
    synth_formula R hf hS hl hne hinc hpos hdt ht hseed s
  rw [hr] at h1
  simp only [Prod.mk.injEq, Except.ok.injEq] at h1
  obtain ⟨⟨rfl, rfl⟩, _⟩ := h1
  have hSS : S'' = S' := isInterpolant_unique hinc h7 hS'
  subst hSS
  have hn : 0 < n := by omega
  have hn1 : (t.length + 1) / 2 = n := by omega
  rw [hn1] at h8 h9
  have hφ : φ = fun i => 2 * Real.pi * (R.rand (seededState R seed s) n).1.getD i 0 := funext h8
  have hnn := interp_nonneg hinc hl h7 hpos
  have hu : UniformAxis t dt := ⟨hdt, fun i hi => by
    rw [h4 _ hi, h4 _ (by omega)]; push_cast; ring⟩
  obtain ⟨o, _, _, _, a1, a2, a3, a4, a5, _⟩ := series_never_fails (isVec_vec t) (isVec_vec x) (by omega) h2 hu
  have hV : ValidSeries o t x dt := ⟨a2, a3, by omega, h2, hu⟩
  have hN : (0 : ℝ) < t.length := by exact_mod_cast h3
  have hdfo : dfOf t = 1 / (t.length * dt) := by
    unfold dfOf; rw [uniform_first_step hV.two hu]
  have e := rawSpectrum_eq (isArr_vec t) (isArr_vec x) hV.accepted h2 0
  have hx2 : x.length / 2 + 1 = n := by omega
  rw [hx2] at e
  have hid := averaging_identity (isArr_vec (freqAxis n (dfOf t)))
    (isArr_vec ((List.range n).map fun k => 2 * Complex.normSq (coef x k) / (dfOf t * x.length * x.length)))
    (by simp [freqAxis]) (by simp; omega)
  unfold frequencyAveraging at hid
  rw [vecIn_vec, vecIn_vec] at hid
  refine ⟨_, _, _, e.trans hid, by simp [freqAxis], by simp, fun k hk => ?_, rfl, ?_⟩
  · unfold freqAxis
    rw [getD_map_range _ _ _ _ hk, hdfo, mul_one_div]
  · rw [getD_map_range _ _ _ _ hn]
    have hz := (random_phase_energy hn hdt hnn φ).1
    rw [← hodd, sum_range_succ] at hz
    have hsum : x.sum = ∑ j ∈ range t.length, randomPhaseSum n dt S'' φ j := by
      rw [list_sum_getD, ← h2]
      exact sum_congr rfl fun j hj => h9 j (mem_range.1 hj)
    have hx0 : x.sum = -randomPhaseSum n dt S'' φ t.length := by linarith
    rw [coef_zero, Complex.normSq_ofReal, hx0, hdfo, ← h2, ← hφ]
    field_simp

/-! ## Concrete cases -/

/-- Three samples at 1 Hz from the constant density 1 on 0.25 … 0.5 Hz, all phases a quarter turn: the spectrum of the record has the
density 1/3 at zero frequency. -/
example : ∃ t x s', spectrum2timeseries quarterRng (vec [1 / 4, 1 / 2]) (vec [1, 1]) 0 2 1 (-1) (5 : Nat) = (.ok (t, x), s') ∧
    ∃ g E, computeSpectrumTimeSeries (vec t) (vec x) 0 = .ok (g, E) ∧ E.getD 0 0 = 1 / 3 := by
  have hI := npInterp_spec (f := [1 / 4, 1 / 2]) (S := [(1 : ℝ), 1]) (by norm_num) rfl
  obtain ⟨t, x, S', φ, h1, h2, h3, h4, h5, h6, -⟩ := synth_formula quarterRng (isArr_vec [1 / 4, 1 / 2]) (.nd [1, 1]) rfl (by simp) (by norm_num)
    (by norm_num) (tInit := 0) (tEnd := 2) (dt := 1) one_pos (by norm_num) (seed := -1) (by norm_num) (5 : Nat)
  have h3' : t.length = 3 := by
    rw [h4 _ (by omega)] at h5 h6
    have a : ((2 : ℕ) : ℝ) ≤ ((t.length - 1 : ℕ) : ℝ) := by push_cast; linarith
    have b : ((t.length - 1 : ℕ) : ℝ) < ((3 : ℕ) : ℝ) := by push_cast; linarith
    have a' : 2 ≤ t.length - 1 := by exact_mod_cast a
    have b' : t.length - 1 < 3 := by exact_mod_cast b
    omega
  obtain ⟨g, E, r, e, -, -, -, hr, h0⟩ := synth_spectrum_odd quarterRng (isArr_vec [1 / 4, 1 / 2]) (.nd [1, 1]) rfl (by simp) (by norm_num)
    (by norm_num) one_pos (by norm_num) (by norm_num) h1 (n := 2) (by omega) le_rfl hI
  refine ⟨t, x, _, h1, g, E, e, ?_⟩
  have hv1 : npInterp [1 / 4, 1 / 2] [(1 : ℝ), 1] (1 / 4) = 1 := by simpa using hI.2.1 0 (by simp)
  have hv2 : npInterp [1 / 4, 1 / 2] [(1 : ℝ), 1] (1 / 2) = 1 := by simpa using hI.2.1 1 (by simp)
  have hr1 : r ^ 2 = 1 / 2 := by
    have hq : ∀ i < 2, (quarterRng.rand (seededState quarterRng (-1) (5 : Nat)) 2).1.getD i 0 = 1 / 4 := by
      intro i hi
      rw [List.getD_eq_getElem _ _ (by rw [quarterRng.rand_length]; exact hi)]
      show (List.replicate 2 (1 / 4 : ℝ))[i] = 1 / 4
      exact List.getElem_replicate ..
    rw [hr, h3']
    unfold randomPhaseSum
    rw [sum_range_succ, sum_range_succ, range_zero, sum_empty, zero_add]
    simp only [hq 0 (by norm_num), hq 1 (by norm_num)]
    have g1 : ((((0 : ℕ) : ℝ)) + 1) * genDf 2 1 = 1 / 4 := by unfold genDf; norm_num
    have g2 : ((((1 : ℕ) : ℝ)) + 1) * genDf 2 1 = 1 / 2 := by unfold genDf; norm_num
    rw [g1, g2, hv1, hv2]
    have c1 : Real.cos (2 * Real.pi * (1 / 4) * (((3 : ℕ) : ℝ) * 1) + 2 * Real.pi * (1 / 4)) = 1 := by
      rw [show 2 * Real.pi * (1 / 4) * (((3 : ℕ) : ℝ) * 1) + 2 * Real.pi * (1 / 4) = 2 * Real.pi by push_cast; ring, Real.cos_two_pi]
    have c2 : Real.cos (2 * Real.pi * (1 / 2) * (((3 : ℕ) : ℝ) * 1) + 2 * Real.pi * (1 / 4)) = 0 := by
      rw [show 2 * Real.pi * (1 / 2) * (((3 : ℕ) : ℝ) * 1) + 2 * Real.pi * (1 / 4) = Real.pi / 2 + Real.pi + 2 * Real.pi by push_cast; ring,
        Real.cos_add_two_pi, Real.cos_add_pi, Real.cos_pi_div_two, neg_zero]
    rw [c1, c2]
    have hsq := Real.mul_self_sqrt (show (0 : ℝ) ≤ 2 * 1 * genDf 2 1 by unfold genDf; norm_num)
    have hg : genDf 2 1 = 1 / 4 := by unfold genDf; norm_num
    rw [hg] at hsq ⊢
    rw [if_pos (by norm_num), mul_zero, mul_one, one_mul, add_zero, pow_two, hsq]; norm_num
  rw [h0, hr1, h3']; norm_num

/-- The call `spectrum2timeseries(f, S, 0, 7, 1)` gives eight samples. -/
theorem eight_samples {fs Ss : List ℝ} (hl : fs.length = Ss.length) (hne : fs ≠ []) (hinc : fs.Pairwise (· < ·)) (hpos : ∀ v ∈ Ss, 0 ≤ v) :
    ∃ t x s', spectrum2timeseries quarterRng (vec fs) (vec Ss) 0 7 1 (-1) (5 : Nat) = (.ok (t, x), s') ∧ t.length = 2 * 4 := by
  obtain ⟨t, x, S', φ, h1, h2, h3, h4, h5, h6, -⟩ := synth_formula quarterRng (isArr_vec fs) (.nd Ss) hl hne hinc hpos
    (tInit := 0) (tEnd := 7) (dt := 1) one_pos (by norm_num) (seed := -1) (by norm_num) (5 : Nat)
  refine ⟨t, x, _, h1, ?_⟩
  rw [h4 _ (by omega)] at h5 h6
  have a : ((7 : ℕ) : ℝ) ≤ ((t.length - 1 : ℕ) : ℝ) := by push_cast; linarith
  have b : ((t.length - 1 : ℕ) : ℝ) < ((8 : ℕ) : ℝ) := by push_cast; linarith
  have a' : 7 ≤ t.length - 1 := by exact_mod_cast a
  have b' : t.length - 1 < 8 := by exact_mod_cast b
  omega

/-- Densities 0, 2, 3, 1, 5 at 0, 1/8, …, 1/2 Hz: a record of eight samples at 1 Hz gives back 2, 3 and 1. -/
example : ∃ t x s', spectrum2timeseries quarterRng (vec ((List.range (4 + 1)).map fun (k : Nat) => (k : ℝ) / (2 * (4 : ℕ) * 1))) (vec [0, 2, 3, 1, 5])
      0 7 1 (-1) (5 : Nat) = (.ok (t, x), s') ∧ ∃ g E, computeSpectrumTimeSeries (vec t) (vec x) 0 = .ok (g, E) ∧
      E.getD 0 0 = 0 ∧ E.getD 1 0 = 2 ∧ E.getD 2 0 = 3 ∧ E.getD 3 0 = 1 := by
  obtain ⟨t, x, s', hr, h8⟩ := eight_samples (fs := (List.range (4 + 1)).map fun (k : Nat) => (k : ℝ) / (2 * (4 : ℕ) * 1)) (Ss := [0, 2, 3, 1, 5])
    (by simp) (by simp) (by
      rw [List.pairwise_map]
      refine List.Pairwise.imp (fun {a b} hab => ?_) List.pairwise_lt_range
      have : (a : ℝ) < b := by exact_mod_cast hab
      exact div_lt_div_of_pos_right this (by norm_num)) (by norm_num)
  obtain ⟨E, c, e, -, hk, h0, -⟩ := synth_spectrum_same_grid quarterRng (n := 4) (Ss := [0, 2, 3, 1, 5]) rfl (by norm_num) one_pos
    (by norm_num) (by norm_num) hr h8
  exact ⟨t, x, s', hr, _, E, e, h0, hk 1 (by norm_num) (by norm_num), hk 2 (by norm_num) (by norm_num), hk 3 (by norm_num) (by norm_num)⟩

/-- A three-point spectrum: the hypotheses of `synth_spectrum` and `synth_spectrum_raw`. -/
example : ∃ t x s' g E, spectrum2timeseries quarterRng (vec [1 / 10, 2 / 10, 4 / 10]) (vec [0, 3, 1]) 0 7 1 (-1) (5 : Nat) = (.ok (t, x), s') ∧
    computeSpectrumTimeSeries (vec t) (vec x) 0 = .ok (g, E) ∧ E.getD 2 0 = npInterp [1 / 10, 2 / 10, 4 / 10] [0, 3, 1] (1 / 4) := by
  obtain ⟨t, x, s', hr, h8⟩ := eight_samples (fs := [1 / 10, 2 / 10, 4 / 10]) (Ss := [0, 3, 1]) rfl (by simp) (by norm_num) (by norm_num)
  obtain ⟨g, E, c, e, -, -, -, -, hk, -⟩ := synth_spectrum_raw quarterRng (isArr_vec [1 / 10, 2 / 10, 4 / 10]) (.nd [0, 3, 1]) rfl (by simp)
    (by norm_num) (by norm_num) one_pos (by norm_num) (by norm_num) hr h8 (npInterp_spec (by norm_num) rfl)
  have := hk 2 (by norm_num) (by norm_num)
  refine ⟨t, x, s', g, E, hr, e, this.trans ?_⟩
  norm_num

/-- The object version. -/
example : ∃ o s', spectrum2timeseriesObject quarterRng (vec [1 / 10, 2 / 10, 4 / 10]) (vec [0, 3, 1]) 0 7 1 (-1) (5 : Nat) = (.ok o, s') ∧
    ∃ sp, o.getSpectrumRaw 0 = .ok sp ∧ sp.nf = 5 := by
  obtain ⟨t, x, s', hr, h8⟩ := eight_samples (fs := [1 / 10, 2 / 10, 4 / 10]) (Ss := [0, 3, 1]) rfl (by simp) (by norm_num) (by norm_num)
  obtain ⟨t', x', o, s1, e1, e2, -, -, ont, -⟩ := synth_object quarterRng (isArr_vec [1 / 10, 2 / 10, 4 / 10]) (.nd [0, 3, 1]) rfl (by simp)
    (by norm_num) (by norm_num) (tInit := 0) (tEnd := 7) (dt := 1) one_pos (by norm_num) (seed := -1) (by norm_num) (5 : Nat)
  have e1' : spectrum2timeseries quarterRng (vec [1 / 10, 2 / 10, 4 / 10]) (vec [0, 3, 1]) 0 7 1 (-1) (5 : Nat) = (.ok (t', x'), s1) := e1
  rw [hr] at e1'
  simp only [Prod.mk.injEq, Except.ok.injEq] at e1'
  obtain ⟨⟨rfl, rfl⟩, rfl⟩ := e1'
  obtain ⟨sp, c, e, hnf, -⟩ := synth_object_raw quarterRng (isArr_vec [1 / 10, 2 / 10, 4 / 10]) (.nd [0, 3, 1]) rfl (by simp)
    (by norm_num) (by norm_num) one_pos (by norm_num) (by norm_num) e2 (n := 4) (by rw [ont, h8]) (npInterp_spec (by norm_num) rfl)
  exact ⟨o, s', e2, sp, e, hnf⟩

end Verif
