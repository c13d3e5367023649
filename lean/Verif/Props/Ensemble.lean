import Verif.Props.Synth
import Mathlib.Probability.Independence.Integration
import Mathlib.Probability.Independence.InfinitePi
import Mathlib.MeasureTheory.Integral.IntervalIntegral.FundThmCalculus
import Mathlib.Analysis.SpecialFunctions.Trigonometric.Deriv
import Mathlib.MeasureTheory.Measure.Haar.OfBasis
import Mathlib.MeasureTheory.Function.Floor

/-! # C149: ensemble statistics of synthesised series

What a random-phase series is for: over all states of the random generator the surface elevation has mean zero at every moment, and its
covariance between two moments depends on the time between them only and is the cosine transform of the spectrum.  The only assumption on
the numbers of the generator is that each is uniform on [0, 1) and any two are independent. -/

set_option linter.unusedSectionVars false

namespace Verif

open Finset MeasureTheory ProbabilityTheory

/-- The numbers `u 0 … u (n-1)`, functions of the random outcome, are uniform on [0, 1) and pairwise independent. -/
structure UniformDraws {Ω : Type} [MeasurableSpace Ω] (μ : Measure Ω) (n : Nat) (u : Nat → Ω → ℝ) : Prop where
  measurable : ∀ i < n, AEMeasurable (u i) μ
  uniform : ∀ i < n, μ.map (u i) = volume.restrict (Set.Ico (0 : ℝ) 1)
  independent : ∀ i < n, ∀ k < n, i ≠ k → IndepFun (u i) (u k) μ

theorem integral_turns (a : ℝ) {m : ℤ} (hm : m ≠ 0) : ∫ u in Set.Ico (0 : ℝ) 1, Real.cos (a + 2 * Real.pi * m * u) = 0 := by
  have hm' : (2 * Real.pi * (m : ℝ)) ≠ 0 := mul_ne_zero (by positivity) (by exact_mod_cast hm)
  rw [integral_Ico_eq_integral_Ioc, ← intervalIntegral.integral_of_le zero_le_one,
    intervalIntegral.integral_eq_sub_of_hasDerivAt (f := fun u => Real.sin (a + 2 * Real.pi * m * u) / (2 * Real.pi * m))]
  · have : a + 2 * Real.pi * m * 1 = a + m * (2 * Real.pi) := by ring
    rw [this, Real.sin_add_int_mul_two_pi]
    simp
  · intro u _
    have h1 : HasDerivAt (fun u : ℝ => a + 2 * Real.pi * m * u) (2 * Real.pi * m) u := by
      simpa using ((hasDerivAt_id u).const_mul (2 * Real.pi * (m : ℝ))).const_add a
    have := (h1.sin).div_const (2 * Real.pi * m)
    rwa [mul_div_cancel_right₀ _ hm'] at this
  · exact (Continuous.intervalIntegrable (by fun_prop) _ _)

section
variable {Ω : Type} [MeasurableSpace Ω] {μ : Measure Ω} [IsProbabilityMeasure μ] {n : Nat} {u : Nat → Ω → ℝ}

theorem UniformDraws.integral_comp (h : UniformDraws μ n u) {i : Nat} (hi : i < n) {g : ℝ → ℝ} (hg : Continuous g) :
    ∫ ω, g (u i ω) ∂μ = ∫ v in Set.Ico (0 : ℝ) 1, g v := by
  rw [← h.uniform i hi, integral_map (h.measurable i hi) hg.aestronglyMeasurable]

theorem UniformDraws.integral_cos (h : UniformDraws μ n u) {i : Nat} (hi : i < n) (a : ℝ) :
    ∫ ω, Real.cos (a + 2 * Real.pi * u i ω) ∂μ = 0 := by
  rw [h.integral_comp hi (g := fun v => Real.cos (a + 2 * Real.pi * v)) (by fun_prop)]
  simpa using integral_turns a (m := 1) one_ne_zero

theorem UniformDraws.integral_cos_cos (h : UniformDraws μ n u) {i : Nat} (hi : i < n) (a b : ℝ) :
    ∫ ω, Real.cos (a + 2 * Real.pi * u i ω) * Real.cos (b + 2 * Real.pi * u i ω) ∂μ = Real.cos (a - b) / 2 := by
  rw [h.integral_comp hi (g := fun v => Real.cos (a + 2 * Real.pi * v) * Real.cos (b + 2 * Real.pi * v)) (by fun_prop)]
  have e : ∀ v : ℝ, Real.cos (a + 2 * Real.pi * v) * Real.cos (b + 2 * Real.pi * v) =
      Real.cos (a - b) / 2 + Real.cos (a + b + 2 * Real.pi * (2 : ℤ) * v) / 2 := by
    intro v
    have h1 := Real.cos_sub (a + 2 * Real.pi * v) (b + 2 * Real.pi * v)
    have h2 := Real.cos_add (a + 2 * Real.pi * v) (b + 2 * Real.pi * v)
    have e1 : a + 2 * Real.pi * v - (b + 2 * Real.pi * v) = a - b := by ring
    have e2 : a + 2 * Real.pi * v + (b + 2 * Real.pi * v) = a + b + 2 * Real.pi * (2 : ℤ) * v := by push_cast; ring
    rw [e1] at h1
    rw [e2] at h2
    rw [h1, h2]
    ring
  simp only [e]
  have hc : Continuous fun v : ℝ => Real.cos (a + b + 2 * Real.pi * (2 : ℤ) * v) / 2 := by fun_prop
  rw [integral_add (by simp) ((hc.integrableOn_Icc (a := 0) (b := 1)).mono_set Set.Ico_subset_Icc_self),
    integral_div (2 : ℝ) fun v : ℝ => Real.cos (a + b + 2 * Real.pi * (2 : ℤ) * v), integral_turns _ two_ne_zero]
  simp

theorem UniformDraws.integral_cos_indep (h : UniformDraws μ n u) {i k : Nat} (hi : i < n) (hk : k < n) (hik : i ≠ k) (a b : ℝ) :
    ∫ ω, Real.cos (a + 2 * Real.pi * u i ω) * Real.cos (b + 2 * Real.pi * u k ω) ∂μ = 0 := by
  have c1 : Continuous fun v : ℝ => Real.cos (a + 2 * Real.pi * v) := by fun_prop
  have c2 : Continuous fun v : ℝ => Real.cos (b + 2 * Real.pi * v) := by fun_prop
  have := (h.independent i hi k hk hik).integral_fun_comp_mul_comp (f := fun v => Real.cos (a + 2 * Real.pi * v))
    (g := fun v => Real.cos (b + 2 * Real.pi * v)) (h.measurable i hi) (h.measurable k hk) c1.aestronglyMeasurable c2.aestronglyMeasurable
  rw [this, h.integral_cos hi, zero_mul]

theorem UniformDraws.integrable_cos (h : UniformDraws μ n u) {i : Nat} (hi : i < n) (a : ℝ) :
    Integrable (fun ω => Real.cos (a + 2 * Real.pi * u i ω)) μ := by
  have c1 : Continuous fun v : ℝ => Real.cos (a + 2 * Real.pi * v) := by fun_prop
  refine Integrable.of_bound (c1.measurable.comp_aemeasurable (h.measurable i hi)).aestronglyMeasurable 1 (Filter.Eventually.of_forall fun ω => ?_)
  rw [Real.norm_eq_abs]
  exact Real.abs_cos_le_one _

theorem UniformDraws.integrable_cos_cos (h : UniformDraws μ n u) {i k : Nat} (hi : i < n) (hk : k < n) (a b : ℝ) :
    Integrable (fun ω => Real.cos (a + 2 * Real.pi * u i ω) * Real.cos (b + 2 * Real.pi * u k ω)) μ := by
  refine Integrable.of_bound ((h.integrable_cos hi a).1.mul (h.integrable_cos hk b).1) 1 (Filter.Eventually.of_forall fun ω => ?_)
  rw [Real.norm_eq_abs, abs_mul]
  exact mul_le_one₀ (Real.abs_cos_le_one _) (abs_nonneg _) (Real.abs_cos_le_one _)

/-- Mean of a sum of components with random phases. -/
theorem UniformDraws.mean_sum (h : UniformDraws μ n u) (A a : Nat → ℝ) :
    ∫ ω, ∑ i ∈ range n, A i * Real.cos (a i + 2 * Real.pi * u i ω) ∂μ = 0 := by
  rw [integral_finsetSum _ fun i hi => (h.integrable_cos (mem_range.1 hi) _).const_mul _]
  refine sum_eq_zero fun i hi => ?_
  rw [integral_const_mul, h.integral_cos (mem_range.1 hi), mul_zero]

/-- Mean product of two sums of components with the same random phases. -/
theorem UniformDraws.mean_product (h : UniformDraws μ n u) (A a b : Nat → ℝ) :
    ∫ ω, (∑ i ∈ range n, A i * Real.cos (a i + 2 * Real.pi * u i ω)) * (∑ i ∈ range n, A i * Real.cos (b i + 2 * Real.pi * u i ω)) ∂μ =
      ∑ i ∈ range n, A i ^ 2 / 2 * Real.cos (a i - b i) := by
  simp only [sum_mul_sum]
  have e : ∀ i k : Nat, ∀ ω, A i * Real.cos (a i + 2 * Real.pi * u i ω) * (A k * Real.cos (b k + 2 * Real.pi * u k ω)) =
      A i * A k * (Real.cos (a i + 2 * Real.pi * u i ω) * Real.cos (b k + 2 * Real.pi * u k ω)) := fun i k ω => by ring
  simp only [e]
  rw [integral_finsetSum _ fun i hi => integrable_finsetSum _ fun k hk =>
    (h.integrable_cos_cos (mem_range.1 hi) (mem_range.1 hk) _ _).const_mul _]
  refine sum_congr rfl fun i hi => ?_
  rw [integral_finsetSum _ fun k hk => (h.integrable_cos_cos (mem_range.1 hi) (mem_range.1 hk) _ _).const_mul _]
  rw [sum_eq_single_of_mem i hi fun k hk hki => by
    rw [integral_const_mul, h.integral_cos_indep (mem_range.1 hi) (mem_range.1 hk) (Ne.symm hki), mul_zero]]
  rw [integral_const_mul, h.integral_cos_cos (mem_range.1 hi)]
  ring

/-- The share of the energy of component `i` (of `n`) that the synthesised series has: all of it, but only a quarter for the last one, at
the Nyquist frequency. -/
noncomputable def energyShare (n i : Nat) : ℝ := if i + 1 < n then 1 else 1 / 4

/-- **C149.**  `spectrum2timeseries` with an unseeded generator whose numbers are uniform and pairwise independent: at every moment the
surface elevation has ensemble mean 0, and the ensemble covariance of the elevations at two moments is the cosine transform of the
spectrum at their distance, `Σ_i S(f_i) df cos(2 π f_i (t_j - t_k))` (the component at the Nyquist frequency counting for a quarter).
So the ensemble is stationary and its variance is the energy of the spectrum. -/
theorem synth_ensemble (R : Rng) (s : Ω → R.State) {f S : PyIn ℝ} {fs Ss : List ℝ} (hf : f.IsArr fs) (hS : S.IsFlat Ss)
    (hl : fs.length = Ss.length) (hne : fs ≠ []) (hinc : fs.Pairwise (· < ·)) (hpos : ∀ v ∈ Ss, 0 ≤ v)
    {tInit tEnd dt : ℝ} (hdt : 0 < dt) (ht : tInit ≤ tEnd) {seed : Int} (hseed : seed < 0)
    (hu : ∀ n : Nat, UniformDraws μ n fun i ω => (R.rand (s ω) n).1.getD i 0) :
    ∃ (t : List ℝ) (x : Ω → List ℝ) (S' : ℝ → ℝ), (∀ ω, (spectrum2timeseries R f S tInit tEnd dt seed (s ω)).1 = .ok (t, x ω)) ∧
      IsInterpolant fs Ss S' ∧
      (∀ j < t.length, ∫ ω, (x ω).getD j 0 ∂μ = 0) ∧
      (∀ j < t.length, ∀ k < t.length, ∫ ω, (x ω).getD j 0 * (x ω).getD k 0 ∂μ =
        ∑ i ∈ range ((t.length + 1) / 2), energyShare ((t.length + 1) / 2) i *
          (S' ((i + 1) * genDf ((t.length + 1) / 2) dt) * genDf ((t.length + 1) / 2) dt *
          Real.cos (2 * Real.pi * ((i + 1) * genDf ((t.length + 1) / 2) dt) * (t.getD j 0 - t.getD k 0)))) ∧
      (∀ j < t.length, ∫ ω, (x ω).getD j 0 ^ 2 ∂μ =
        ∑ i ∈ range ((t.length + 1) / 2), energyShare ((t.length + 1) / 2) i *
          (S' ((i + 1) * genDf ((t.length + 1) / 2) dt) * genDf ((t.length + 1) / 2) dt)) := by
  have key : ∀ ω, ∃ x : List ℝ, (spectrum2timeseries R f S tInit tEnd dt seed (s ω)).1 = .ok (arange tInit (tEnd + dt) dt, x) ∧
      (∀ j < (arange tInit (tEnd + dt) dt).length, x.getD j 0 = randomPhaseSum (((arange tInit (tEnd + dt) dt).length + 1) / 2) dt (npInterp fs Ss)
        (fun i => 2 * Real.pi * ((R.rand (s ω) (((arange tInit (tEnd + dt) dt).length + 1) / 2)).1.getD i 0)) j) ∧
      (∀ j < (arange tInit (tEnd + dt) dt).length, (arange tInit (tEnd + dt) dt).getD j 0 = tInit + j * dt) ∧ 0 < (arange tInit (tEnd + dt) dt).length := by
    intro ω
    obtain ⟨t, x, S', φ, h1, h2, h3, h4, h8, h9, h5, h6, h7⟩ := synth_formula R hf hS hl hne hinc hpos hdt ht (seed := seed) (by omega) (s ω)
    have hS' : S' = npInterp fs Ss := isInterpolant_unique hinc h5 (npInterp_spec hinc hl)
    have hts : t = arange tInit (tEnd + dt) dt := by
      obtain ⟨nT, hn0, htax, hlo, hhi⟩ := arange_closed hdt ht
      have hlen : t.length = nT := by
        have e1 : ((t.length - 1 : ℕ) : ℝ) * dt < (((nT - 1 : ℕ) : ℝ) + 1) * dt := by rw [h4 _ (by omega)] at h8 h9; linarith
        have e2 : ((nT - 1 : ℕ) : ℝ) * dt < (((t.length - 1 : ℕ) : ℝ) + 1) * dt := by rw [h4 _ (by omega)] at h8 h9; linarith
        have e1' := lt_of_mul_lt_mul_right e1 hdt.le
        have e2' := lt_of_mul_lt_mul_right e2 hdt.le
        have e1'' : t.length - 1 < nT - 1 + 1 := by exact_mod_cast e1'
        have e2'' : nT - 1 < t.length - 1 + 1 := by exact_mod_cast e2'
        omega
      rw [htax]
      refine List.ext_getElem (by simp [hlen]) fun j hj hj' => ?_
      have := h4 j hj
      rw [List.getD, List.getElem?_eq_getElem hj] at this
      simp only [Option.getD_some] at this
      rw [this]
      simp
    subst hts hS'
    have hsd : seededState R seed (s ω) = s ω := by unfold seededState; rw [if_neg (by omega)]
    rw [hsd] at h6
    have hφ : φ = fun i => 2 * Real.pi * ((R.rand (s ω) (((arange tInit (tEnd + dt) dt).length + 1) / 2)).1.getD i 0) := funext h6
    exact ⟨x, by rw [h1], by rw [← hφ]; exact h7, h4, h3⟩
  have : Nonempty Ω := μ.nonempty_of_neZero
  choose x hx hval htj hpos' using key
  have hn : UniformDraws μ (((arange tInit (tEnd + dt) dt).length + 1) / 2)
    fun i ω => (R.rand (s ω) (((arange tInit (tEnd + dt) dt).length + 1) / 2)).1.getD i 0 := hu _
  set t := arange tInit (tEnd + dt) dt with htdef
  set n := (t.length + 1) / 2 with hndef
  have hnn : ∀ v, 0 ≤ npInterp fs Ss v := interp_nonneg hinc hl (npInterp_spec hinc hl) hpos
  have hdf : 0 < genDf n dt := by
    have : (0 : ℝ) < n := by
      have : 0 < n := by
        have := hpos' (Classical.choice (inferInstance : Nonempty Ω))
        omega
      exact_mod_cast this
    unfold genDf; positivity
  set A : Nat → ℝ := fun i => (if i + 1 < n then 1 else 1 / 2) * Real.sqrt (2 * npInterp fs Ss ((i + 1) * genDf n dt) * genDf n dt) with hA
  set a : Nat → Nat → ℝ := fun j i => 2 * Real.pi * ((i + 1) * genDf n dt) * (j * dt) with ha
  have hsum : ∀ j < t.length, ∀ ω, (x ω).getD j 0 = ∑ i ∈ range n, A i * Real.cos (a j i + 2 * Real.pi * (R.rand (s ω) n).1.getD i 0) :=
    fun j hj ω => hval ω j hj
  have hA2 : ∀ i, A i ^ 2 / 2 = energyShare n i * (npInterp fs Ss ((i + 1) * genDf n dt) * genDf n dt) := by
    intro i
    have h0 : 0 ≤ 2 * npInterp fs Ss ((i + 1) * genDf n dt) * genDf n dt := by have := hnn ((i + 1) * genDf n dt); positivity
    rw [hA]
    beta_reduce
    rw [mul_pow, Real.sq_sqrt h0]
    unfold energyShare
    split_ifs <;> ring
  have hcov : ∀ j < t.length, ∀ k < t.length, ∫ ω, (x ω).getD j 0 * (x ω).getD k 0 ∂μ = ∑ i ∈ range n, energyShare n i *
      (npInterp fs Ss ((i + 1) * genDf n dt) * genDf n dt) * Real.cos (a j i - a k i) := by
    intro j hj k hk
    have : (fun ω => (x ω).getD j 0 * (x ω).getD k 0) = fun ω => (∑ i ∈ range n, A i * Real.cos (a j i + 2 * Real.pi * (R.rand (s ω) n).1.getD i 0)) *
        ∑ i ∈ range n, A i * Real.cos (a k i + 2 * Real.pi * (R.rand (s ω) n).1.getD i 0) := by
      funext ω; rw [hsum j hj ω, hsum k hk ω]
    rw [this, hn.mean_product A (a j) (a k)]
    exact sum_congr rfl fun i _ => by rw [hA2]
  refine ⟨t, x, npInterp fs Ss, hx, npInterp_spec hinc hl, fun j hj => ?_, fun j hj k hk => ?_, fun j hj => ?_⟩
  · simp only [hsum j hj]
    exact hn.mean_sum A (a j)
  · rw [hcov j hj k hk]
    refine sum_congr rfl fun i _ => ?_
    obtain ω : Ω := Classical.choice (inferInstance : Nonempty Ω)
    rw [htj ω j hj, htj ω k hk, mul_assoc (energyShare n i)]
    congr 3
    rw [ha]; ring
  · have := hcov j hj j hj
    simp only [sub_self, Real.cos_zero, mul_one] at this
    rw [← this]
    exact integral_congr_ae (Filter.Eventually.of_forall fun ω => pow_two _)
end

/-! ## Concrete cases: the hypotheses of the theorems above are met -/

/-- A generator whose state is the sequence of numbers it is going to return. -/
noncomputable def tapeRng : Rng where
  State := Nat → ℝ
  seed k := fun _ => k
  rand s n := ((List.range n).map fun i => Int.fract (s i), fun i => s (i + n))
  rand_length s n := by simp
  rand_range s n u hu := by
    obtain ⟨i, -, rfl⟩ := List.mem_map.1 hu
    exact ⟨Int.fract_nonneg _, Int.fract_lt_one _⟩

instance : IsProbabilityMeasure (volume.restrict (Set.Ico (0 : ℝ) 1)) := ⟨by simp⟩

/-- With the state drawn from the product of uniform distributions, its numbers are uniform and independent. -/
theorem tapeRng_uniform (n : Nat) : UniformDraws (Measure.infinitePi fun _ : Nat => volume.restrict (Set.Ico (0 : ℝ) 1)) n
    fun i ω => (tapeRng.rand ω n).1.getD i 0 := by
  have e : ∀ i < n, (fun ω : Nat → ℝ => (tapeRng.rand ω n).1.getD i 0) = fun ω => Int.fract (ω i) := fun i hi => by
    funext ω
    exact getD_map_range _ _ i 0 hi
  have hm : ∀ i : Nat, Measurable fun ω : Nat → ℝ => Int.fract (ω i) := fun i => measurable_fract.comp (measurable_pi_apply i)
  have hi := iIndepFun_infinitePi (P := fun _ : Nat => volume.restrict (Set.Ico (0 : ℝ) 1)) (X := fun (_ : Nat) (v : ℝ) => Int.fract v)
    fun _ => measurable_fract
  refine ⟨fun i h => by rw [e i h]; exact (hm i).aemeasurable, fun i h => ?_, fun i h k h' hik => ?_⟩
  · rw [e i h, show (fun ω : Nat → ℝ => Int.fract (ω i)) = Int.fract ∘ Function.eval i from rfl,
      ← Measure.map_map measurable_fract (show Measurable (Function.eval i : (Nat → ℝ) → ℝ) from measurable_pi_apply i), Measure.infinitePi_map_eval]
    have : Measure.map Int.fract (volume.restrict (Set.Ico (0 : ℝ) 1)) = Measure.map id (volume.restrict (Set.Ico (0 : ℝ) 1)) := by
      refine Measure.map_congr ?_
      filter_upwards [ae_restrict_mem measurableSet_Ico] with v hv
      exact Int.fract_eq_self.2 ⟨hv.1, hv.2⟩
    rw [this, Measure.map_id]
  · rw [e i h, e k h']
    exact hi.indepFun hik

/-- A spectrum with densities 0, 3, 1 at 0.1, 0.2, 0.4 Hz, synthesised for 3 s at 1 Hz: mean zero at every moment. -/
example : ∃ (t : List ℝ) (x : (Nat → ℝ) → List ℝ),
    (∀ ω : Nat → ℝ, (spectrum2timeseries tapeRng (vec [1 / 10, 2 / 10, 4 / 10]) (vec [0, 3, 1]) 0 3 1 (-1) ω).1 = .ok (t, x ω)) ∧
    ∀ j < t.length, ∫ ω, (x ω).getD j 0 ∂(Measure.infinitePi fun _ : Nat => volume.restrict (Set.Ico (0 : ℝ) 1)) = 0 := by
  obtain ⟨t, x, S', h1, -, h2, -⟩ := synth_ensemble (μ := Measure.infinitePi fun _ : Nat => volume.restrict (Set.Ico (0 : ℝ) 1)) tapeRng
    (fun ω => ω) (isArr_vec [1 / 10, 2 / 10, 4 / 10]) (.nd [0, 3, 1]) rfl (by simp) (by norm_num) (by norm_num) (tInit := 0) (tEnd := 3) (dt := 1)
    (by norm_num) (by norm_num) (seed := -1) (by norm_num) tapeRng_uniform
  exact ⟨t, x, h1, h2⟩

end Verif
