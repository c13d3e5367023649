import Verif.Props.DecompLaws
import Verif.Props.DispersionPhysics
import Mathlib.Analysis.Real.Pi.Bounds

/-! # Concrete cases for the wave decomposition (C59, C60, C98, C99)

Two gauges one metre apart in ten metres of water, four samples at one-second intervals. -/

namespace Verif
open Complex Finset

/-- The wave number of the first bin lies between 1/5 and 1: the determinant of the two gauges is not small. -/
theorem kap_one {kap : ℕ → ℝ} (h : BinWaveNumbers [0, 1, 2, 3] 10 kap) : 1 / 5 ≤ kap 1 ∧ kap 1 ≤ 1 := by
  have hpi := Real.pi_gt_three
  have hpi' := Real.pi_lt_d2
  have h1 := h 1
  have hw : 2 * Real.pi * ((1 : ℕ) : ℝ) / ((([0, 1, 2, 3] : List ℝ).length : ℝ) * (([0, 1, 2, 3] : List ℝ).getD 1 0 - ([0, 1, 2, 3] : List ℝ).getD 0 0)) =
      Real.pi / 2 := by
    norm_num
    ring
  rw [hw] at h1
  obtain ⟨k, e, l, u⟩ := disper_bounds (w := Real.pi / 2) (h := 10) (g := 981 / 100) (by norm_num) (by norm_num) (by positivity) (by
    rw [le_div_iff₀ (by norm_num)]; nlinarith)
  rw [h1] at e
  simp only [Except.ok.injEq, List.cons.injEq, and_true] at e
  subst e
  have l1 : (Real.pi / 2) ^ 2 / (981 / 100) ≤ max ((Real.pi / 2) ^ 2 / (981 / 100)) (Real.pi / 2 / √(981 / 100 * 10)) := le_max_left _ _
  have l2 : (22 / 100 : ℝ) ≤ (Real.pi / 2) ^ 2 / (981 / 100) := by
    rw [le_div_iff₀ (by norm_num)]; nlinarith
  constructor
  · have : (1 - 1 / 10 ^ 13 : ℝ) * (22 / 100) ≤ (1 - 1 / 10 ^ 13) * max ((Real.pi / 2) ^ 2 / (981 / 100)) (Real.pi / 2 / √(981 / 100 * 10)) :=
      mul_le_mul_of_nonneg_left (l2.trans l1) (by norm_num)
    norm_num at this l ⊢
    linarith
  · have s1 : (Real.pi / 2 / √(981 / 100 * 10)) ^ 2 = (Real.pi / 2) ^ 2 / (981 / 10) := by
      rw [div_pow, Real.sq_sqrt (by norm_num)]; norm_num
    have b : (Real.pi / 2) ^ 2 ≤ 25 / 10 := by nlinarith
    have b1 : ((Real.pi / 2) ^ 2 / (981 / 100)) ≤ 3 / 10 := by rw [div_le_iff₀ (by norm_num)]; linarith
    have b2 : ((Real.pi / 2) ^ 2 / (981 / 10)) ≤ 3 / 10 := by rw [div_le_iff₀ (by norm_num)]; linarith
    have b0 : 0 ≤ ((Real.pi / 2) ^ 2 / (981 / 100)) := by positivity
    rw [s1] at u
    have b3 : ((Real.pi / 2) ^ 2 / (981 / 100)) ^ 2 ≤ 9 / 100 := by nlinarith
    have : (1 + 1 / 10 ^ 13 : ℝ) ^ 2 * (((Real.pi / 2) ^ 2 / (981 / 100)) ^ 2 + (Real.pi / 2) ^ 2 / (981 / 10)) ≤ (1 + 1 / 10 ^ 13 : ℝ) ^ 2 * (4 / 10) :=
      mul_le_mul_of_nonneg_left (by linarith) (by positivity)
    have c : kap 1 ^ 2 ≤ 1 := u.trans (this.trans (by norm_num))
    nlinarith

theorem det_one {kap : ℕ → ℝ} (h : BinWaveNumbers [0, 1, 2, 3] 10 kap) : 1 / 100 < |zsDet [1, 1] [0, 1] (kap 1)| := by
  obtain ⟨a, b⟩ := kap_one h
  have hpi := Real.pi_gt_three
  have hpi' := Real.pi_lt_d2
  have h1 : 2 / Real.pi * kap 1 ≤ Real.sin (kap 1) := Real.mul_le_sin (by linarith) (by linarith)
  have h2 : (1 / 2 : ℝ) ≤ 2 / Real.pi := by rw [le_div_iff₀ (by positivity)]; linarith
  have h3 : (1 / 2 : ℝ) * kap 1 ≤ 2 / Real.pi * kap 1 := mul_le_mul_of_nonneg_right h2 (by linarith)
  rw [zsDet_two]
  have h5 : (2 / 3.15 : ℝ) ≤ 2 / Real.pi := div_le_div_of_nonneg_left (by norm_num) (by positivity) (by linarith)
  have h6 : (2 / 3.15 : ℝ) * (1 / 5) ≤ 2 / Real.pi * kap 1 := mul_le_mul h5 a (by norm_num) (by positivity)
  have h7 : (12 / 100 : ℝ) ≤ Real.sin (kap 1) := by norm_num at h6 ⊢; linarith
  simp only [sub_zero, mul_one, one_mul]
  rw [abs_of_nonneg (by positivity)]
  nlinarith

/-- Gauge signals of a wave of height 2 without reflection. -/
noncomputable def incomingOnly (kap : ℕ → ℝ) : Arr ℝ :=
  ⟨[4, 2], matrixData 4 2 fun j i => waveField 4 1 (fun _ => 2) (fun _ => 1) kap (([0, 1] : List ℝ).getD i 0 - ([0, 1] : List ℝ).getD 0 0) j⟩

/-- No reflected wave is found, and the incoming one is found with its amplitude: nothing is discarded. -/
example : ∃ kap, BinWaveNumbers [0, 1, 2, 3] 10 kap ∧
    decomposeZS [0, 1, 2, 3] (incomingOnly kap) (.fin 10) [0, 1] [1, 1] (1 / 100) =
      .ok ((List.range 4).map (waveField 4 1 (fun _ => 2) (fun _ => 1) kap 0), (List.range 4).map fun _ => 0) := by
  obtain ⟨kap, hk⟩ := binWaveNumbers_exist [0, 1, 2, 3] (by norm_num : (0 : ℝ) < 10)
  refine ⟨kap, hk, decompose_no_reflection axis4 gauges_two rfl (by norm_num) (by norm_num) hk (by norm_num) _ _ (fun p h1 h2 => ?_)
    (fun j hj i hi => matrixData_getD (n := 4) (m := 2) (fun j i => waveField 4 1 (fun _ => 2) (fun _ => 1) kap
      (([0, 1] : List ℝ).getD i 0 - ([0, 1] : List ℝ).getD 0 0) j) hj hi)⟩
  obtain rfl : p = 1 := by omega
  exact det_one hk

/-- The system of one frequency, for gauges at distances 0 and 1 and the wave number of the first bin. -/
example : ∃ kap, BinWaveNumbers [0, 1, 2, 3] 10 kap ∧
    zsSolve [1, 1] [0, 1] [3 + I, 3 * exp (-I * (kap 1 : ℂ)) + I * exp (I * (kap 1 : ℂ))] (kap 1) (1 / 100) = .ok (3, I) := by
  obtain ⟨kap, hk⟩ := binWaveNumbers_exist [0, 1, 2, 3] (by norm_num : (0 : ℝ) < 10)
  refine ⟨kap, hk, ?_⟩
  have := zsSolve_recovers (w := [1, 1]) (d := [0, 1]) (x := [0, 1]) (fun _ _ _ _ => rfl)
    (X := [3 + I, 3 * exp (-I * (kap 1 : ℂ)) + I * exp (I * (kap 1 : ℂ))]) (k := kap 1) (detLim := 1 / 100) (by norm_num) (A := 3) (B := I) (by
      intro i hi
      have : i < 2 := hi
      interval_cases i <;> simp)
  rwa [if_pos (det_one hk), if_pos (det_one hk)] at this

/-- Arbitrary components: the least-squares fit. -/
example : ∃ kap A B, BinWaveNumbers [0, 1, 2, 3] 10 kap ∧ zsSolve [1, 1] [0, 1] [3 + I, 2] (kap 1) (1 / 100) = .ok (A, B) := by
  obtain ⟨kap, hk⟩ := binWaveNumbers_exist [0, 1, 2, 3] (by norm_num : (0 : ℝ) < 10)
  obtain ⟨A, B, h, -⟩ := zsSolve_least_squares (w := [1, 1]) (d := [0, 1]) (x := [0, 1]) (fun _ _ _ _ => rfl) (fun i hi => by
    have : i < 2 := hi
    interval_cases i <;> simp) [3 + I, 2] (kap 1) (detLim := 1 / 100) (by norm_num) (det_one hk)
  obtain ⟨A', B', h', -⟩ := zsSolve_stable (w := [1, 1]) (d := [0, 1]) (x := [0, 1]) (fun _ _ _ _ => rfl) (fun i hi => by
    have : i < 2 := hi
    interval_cases i <;> simp) [3 + I, 2] (kap 1) (detLim := 1 / 100) (by norm_num) (det_one hk) 3 I
  exact ⟨kap, A, B, hk, h⟩

/-- Any two signals: the components of the results have zero mean and both are defined. -/
example (g : ℕ → ℕ → ℝ) : ∃ xIn xRe, decomposeZS [0, 1, 2, 3] ⟨[4, 2], matrixData 4 2 g⟩ (.fin 10) [0, 1] [1, 1] (1 / 100) = .ok (xIn, xRe) ∧
    xIn.sum = 0 ∧ xRe.sum = 0 ∧
    ∀ kap : ℕ → ℝ, BinWaveNumbers [0, 1, 2, 3] 10 kap → ∀ A B : ℂ,
      ∑ i ∈ range 2, ([1, 1] : List ℝ).getD i 0 * ‖coef (column ⟨[4, 2], matrixData 4 2 g⟩ 4 2 i) 1 -
            coef xIn 1 * exp (-I * (kap 1 : ℂ) * ((([0, 1] : List ℝ).getD i 0 - ([0, 1] : List ℝ).getD 0 0 : ℝ) : ℂ)) -
            coef xRe 1 * exp (I * (kap 1 : ℂ) * ((([0, 1] : List ℝ).getD i 0 - ([0, 1] : List ℝ).getD 0 0 : ℝ) : ℂ))‖ ^ 2 ≤
      ∑ i ∈ range 2, ([1, 1] : List ℝ).getD i 0 * ‖coef (column ⟨[4, 2], matrixData 4 2 g⟩ 4 2 i) 1 -
            A * exp (-I * (kap 1 : ℂ) * ((([0, 1] : List ℝ).getD i 0 - ([0, 1] : List ℝ).getD 0 0 : ℝ) : ℂ)) -
            B * exp (I * (kap 1 : ℂ) * ((([0, 1] : List ℝ).getD i 0 - ([0, 1] : List ℝ).getD 0 0 : ℝ) : ℂ))‖ ^ 2 := by
  obtain ⟨kap, hk⟩ := binWaveNumbers_exist [0, 1, 2, 3] (by norm_num : (0 : ℝ) < 10)
  obtain ⟨a, b, h, -, -, s1, s2, -⟩ := decompose_components axis4 ⟨[4, 2], matrixData 4 2 g⟩ gauges_two rfl (by norm_num : (0 : ℝ) < 10)
    (by norm_num : (0 : ℝ) ≤ 1 / 100) hk
  refine ⟨a, b, h, s1, s2, fun kap hk => ?_⟩
  obtain ⟨a', b', h', -, -, -, -, c⟩ := decompose_components axis4 ⟨[4, 2], matrixData 4 2 g⟩ gauges_two rfl (by norm_num : (0 : ℝ) < 10)
    (by norm_num : (0 : ℝ) ≤ 1 / 100) hk
  rw [h] at h'
  obtain ⟨rfl, rfl⟩ := Prod.mk.inj (Except.ok.inj h')
  exact (c 1 one_pos (by simp)).2 (det_one hk) (by simp)

/-- A wave that obeys the exact dispersion relation. -/
example : ∃ (kap : ℕ → ℝ) (k : ℝ) (x : Arr ℝ) (p q : List ℝ), BinWaveNumbers [0, 1, 2, 3] 10 kap ∧ 0 < k ∧
    SolvesDispersion (Real.pi / 2) 10 (981 / 100) k ∧ decomposeZS [0, 1, 2, 3] x (.fin 10) [0, 1] [1, 1] (1 / 100) = .ok (p, q) ∧
    ‖coef q 1‖ ≤ 1 / 10 ^ 13 * (400 * k) := by
  obtain ⟨kap, hk⟩ := binWaveNumbers_exist [0, 1, 2, 3] (by norm_num : (0 : ℝ) < 10)
  have hpi := Real.pi_gt_three
  obtain ⟨k, ⟨k0, ks⟩, -⟩ := wave_number_unique (w := Real.pi / 2) (h := 10) (g := 981 / 100) (by positivity) (by norm_num) (by norm_num)
  have hw : 2 * Real.pi * ((1 : ℕ) : ℝ) / ((([0, 1, 2, 3] : List ℝ).length : ℝ) * (([0, 1, 2, 3] : List ℝ).getD 1 0 - ([0, 1, 2, 3] : List ℝ).getD 0 0)) =
      Real.pi / 2 := by
    norm_num
    ring
  obtain ⟨p, q, h, hb⟩ := decompose_physical (xTime := ⟨[4, 2], matrixData 4 2 fun j i => waveField 4 1 (fun _ => 2) (fun _ => 1) (fun _ => k) (([0, 1] : List ℝ).getD i 0 - ([0, 1] : List ℝ).getD 0 0) j +
      waveField 4 1 (fun _ => 0) (fun _ => 0) (fun _ => - k) (([0, 1] : List ℝ).getD i 0 - ([0, 1] : List ℝ).getD 0 0) j⟩)
    (kex := fun _ => k) axis4 gauges_two (by simp) rfl (by norm_num : (0 : ℝ) < 10) (by norm_num : (0 : ℝ) < 1 / 100) hk (M := 1) (by simp)
    (fun p h1 h2 => by
      obtain rfl : p = 1 := by omega
      rw [hw]
      refine ⟨k0, ks, ?_⟩
      rw [le_div_iff₀ (by norm_num)]; nlinarith) (fun _ => 2) (fun _ => 1) (fun _ => 0) (fun _ => 0)
    (fun j hj i hi => matrixData_getD (n := 4) (m := 2) (fun j i => waveField 4 1 (fun _ => 2) (fun _ => 1) (fun _ => k) (([0, 1] : List ℝ).getD i 0 - ([0, 1] : List ℝ).getD 0 0) j +
      waveField 4 1 (fun _ => 0) (fun _ => 0) (fun _ => - k) (([0, 1] : List ℝ).getD i 0 - ([0, 1] : List ℝ).getD 0 0) j) hj hi)
  refine ⟨kap, k, _, p, q, hk, k0, ks, h, ?_⟩
  have hz : coef ((List.range 4).map (waveField 4 1 (fun _ => 0) (fun _ => 0) (fun _ => - k) 0)) 1 = 0 := by
    have : (List.range 4).map (waveField 4 1 (fun _ => 0) (fun _ => 0) (fun _ => - k) 0) = [0, 0, 0, 0] := by
      simp [waveField, List.range_succ]
    rw [this]
    simp [coef, fwd, Finset.sum_range_succ]
  have := (hb 1 le_rfl le_rfl (det_one hk)).2
  simp only [List.length_cons, List.length_nil, Nat.zero_add, Nat.reduceAdd] at this
  rw [hz, sub_zero] at this
  refine this.trans (le_of_eq ?_)
  norm_num [Finset.sum_range_succ]

/-- An argument that is not a consistent set of gauges: three gauges, two positions. -/
example : ∃ msg, decomposeZS [0, 1] ⟨[2, 3], [1, 2, 3, 4, 5, 6]⟩ (.fin 10) [0, 1] [1, 1] (1 / 100) = .error (.assertionError msg) :=
  decompose_rejects rfl _ _ (.inl (by simp))

example := decompose_accepts_bad_weights axis4 ⟨[4, 2], [1, 2, 3, 4, 5, 6, 7, 8]⟩ ⟨[4, 4], List.replicate 16 1⟩ rfl rfl (h := 10) (by norm_num)

example : decomposeZS [0, 1, 2, 3] ⟨[4, 2], [1, 2, 3, 4, 5, 6, 7, 8]⟩ .inf [0, 1] [1, 1] (1 / 100) = .error (.unboundLocalError "q") :=
  decompose_deep_fails axis4 _ gauges_two rfl _

example : decomposeZS [0, 1, 2, 3] ⟨[4, 2], [1, 2, 3, 4, 5, 6, 7, 8]⟩ (.fin 10) [0, 1] [1, 1] (-1) = .error .nonFinite :=
  decompose_negative_detLim axis4 _ gauges_two rfl (by norm_num) (by norm_num)

example : decomposeZS [0, 1, 2, 3] ⟨[4, 2], [1, 2, 3, 4, 5, 6, 7, 8]⟩ (.fin 10) [0, 1] [1, 1] (1 / 100) =
    zsCore [0, 1, 2, 3] [[1, 3, 5, 7], [2, 4, 6, 8]] (.fin 10) [0, 1] [1, 1] (1 / 100) :=
  decomposeZS_ok gauges_two rfl _ _

/-- Two gauges half a wave length apart in the second of eight samples: the bin is lost.  The spacing is that of the wave number. -/
example : ∃ (kap : ℕ → ℝ) (d : ℝ) (p q : List ℝ), BinWaveNumbers [0, 1, 2, 3] 10 kap ∧ 0 < d ∧
    decomposeZS [0, 1, 2, 3] ⟨[4, 2], [1, 2, 3, 4, 5, 6, 7, 8]⟩ (.fin 10) [0, d] [1, 1] 0 = .ok (p, q) ∧ coef p 1 = 0 ∧ coef q 1 = 0 := by
  obtain ⟨kap, hk⟩ := binWaveNumbers_exist [0, 1, 2, 3] (by norm_num : (0 : ℝ) < 10)
  have k1 := (kap_one hk).1
  have k0 : 0 < kap 1 := by linarith
  have hd : 0 < Real.pi / kap 1 := by positivity
  have hg : GaugesOk [0, Real.pi / kap 1] [1, 1] := by
    refine ⟨rfl, by simp, fun i hi => ?_, .inl (by simp), by norm_num⟩
    simp only [List.length_cons, List.length_nil] at hi
    have : i < 1 := by omega
    interval_cases i; simpa using hd
  obtain ⟨p, q, h, c⟩ := decompose_singular_spacing axis4 ⟨[4, 2], [1, 2, 3, 4, 5, 6, 7, 8]⟩ hg rfl (by norm_num : (0 : ℝ) < 10) le_rfl hk
  exact ⟨kap, _, p, q, hk, hd, h, c 1 one_pos (by simp) ⟨1, by rw [sub_zero]; field_simp; norm_num⟩⟩

/-- `decompose_linear_waves_ZS_series`: two series of four samples. -/
example : ∃ (s0 s1 : SeriesObj ℝ) (a b : SeriesObj ℝ), SeriesObj.init (vec [0, 1, 2, 3]) (vec ([1, 0, 5, 2] : List ℝ)) = .ok s0 ∧
    SeriesObj.init (vec [0, 1, 2, 3]) (vec ([0, 1, 3, 2] : List ℝ)) = .ok s1 ∧ decomposeZSSeries [s0, s1] (.fin 10) [0, 1] [1, 1] 0 = .ok (a, b) ∧
    a.time = arr1 [0, 1, 2, 3] ∧
    decomposeZSSeries [s0, s1] (.fin 10) [0] [1] 0 = .error .indexError ∧
    ∃ a' b', decomposeZSSeries [s0] (.fin 10) [0, 1] [1, 1] 0 = .ok (a', b') := by
  have hu : UniformAxis ([0, 1, 2, 3] : List ℝ) 1 := uniformAxis_of_steps one_pos fun i hi => by
    have : i < 3 := hi
    interval_cases i <;> norm_num
  obtain ⟨s0, -, -, -, e0, t0, x0, -⟩ := series_never_fails (isVec_vec [0, 1, 2, 3]) (isVec_vec ([1, 0, 5, 2] : List ℝ)) (by simp) (by simp) hu
  obtain ⟨s1, -, -, -, e1, t1, x1, -⟩ := series_never_fails (isVec_vec [0, 1, 2, 3]) (isVec_vec ([0, 1, 3, 2] : List ℝ)) (by simp) (by simp) hu
  obtain ⟨-, -, a, b, -, h, h', -⟩ := decompose_series (ss := [s0, s1]) rfl t0 (by simp) hu (xs := [[1, 0, 5, 2], [0, 1, 3, 2]])
    (.cons x0 (.cons x1 .nil)) (by simp) (xLoc := [0, 1]) rfl gauges_two (h := 10) (by norm_num) (le_refl (0 : ℝ))
  obtain ⟨-, -, a', b', -, h2, -⟩ := decompose_series_missing (ss := [s0]) rfl t0 (by simp) hu (xs := [[1, 0, 5, 2]])
    (.cons x0 .nil) (by simp) (xLoc := [0, 1]) (by simp) gauges_two (h := 10) (by norm_num) (le_refl (0 : ℝ))
  exact ⟨s0, s1, a, b, e0, e1, h, h', decompose_series_too_many (ss := [s0, s1]) rfl t0 (xs := [[1, 0, 5, 2], [0, 1, 3, 2]])
    (.cons x0 (.cons x1 .nil)) (by simp) (xLoc := [0]) (by simp) _ _, a', b', h2⟩

example := decompose_series_none (.fin 10) [0, 1] [1, 1] 0

/-- Superposition and mirrored gauges. -/
example (g g' : ℕ → ℕ → ℝ) := decompose_linear (X := ⟨[4, 2], matrixData 4 2 g⟩) (Y := ⟨[4, 2], matrixData 4 2 g'⟩)
  (Z := ⟨[4, 2], matrixData 4 2 fun j i => 3 * g j i + 2 * g' j i⟩) axis4 gauges_two rfl rfl rfl (by norm_num : (0 : ℝ) < 10) (le_refl (0 : ℝ)) 3 2
  (fun j hj i hi => by
    have hj : j < 4 := hj
    have hi : i < 2 := hi
    have ge : ∀ f : ℕ → ℕ → ℝ, entry ⟨[4, 2], matrixData 4 2 f⟩ 2 j i = f j i := fun f => matrixData_getD f hj hi
    exact (ge _).trans (by
      show _ = 3 * entry _ 2 j i + 2 * entry _ 2 j i
      rw [ge, ge]))

example (g : ℕ → ℕ → ℝ) {kap : ℕ → ℝ} (hk : BinWaveNumbers [0, 1, 2, 3] 10 kap) := decompose_mirror (X := ⟨[4, 2], matrixData 4 2 g⟩)
  (Y := ⟨[4, 2], matrixData 4 2 fun j i => g j (1 - i)⟩) axis4 gauges_two rfl rfl (by norm_num : (0 : ℝ) < 10) (le_refl (0 : ℝ))
  (fun j hj i hi => by
    have hj : j < 4 := hj
    have hi : i < 2 := hi
    have ge : ∀ (f : ℕ → ℕ → ℝ) i, i < 2 → entry ⟨[4, 2], matrixData 4 2 f⟩ 2 j i = f j i := fun f i hi => matrixData_getD f hj hi
    exact (ge _ _ hi).trans (ge g (1 - i) (by omega)).symm) hk

/-- Gauges at 5 and 6 instead of 0 and 1. -/
example := decompose_translate [0, 1, 2, 3] ⟨[4, 2], [1, 2, 3, 4, 5, 6, 7, 8]⟩ (.fin 10) [0, 1] [1, 1] 0 5 (by simp)

example := decompose_weights (X := ⟨[4, 2], [1, 2, 3, 4, 5, 6, 7, 8]⟩) axis4 gauges_two rfl (by norm_num : (0 : ℝ) < 10)
  (by norm_num : (0 : ℝ) ≤ 1 / 100) (c := 3) (by norm_num) ⟨rfl, by simp, gauges_two.incr, .inl (by simp), by norm_num⟩

end Verif
