import Verif.Props.FloatFftBin

/-! # The raw spectrum in double precision: total error over the bins -/

namespace Verif
open Finset

/-- The mean square of a record. -/
noncomputable def meanSq (x : List ℚ) : ℝ := (x.map fun (v : ℚ) => (v : ℝ) ^ 2).sum / x.length

/-- The samples of a record as real numbers. -/
noncomputable def realVals (x : List ℚ) : List ℝ := x.map fun (v : ℚ) => (v : ℝ)

/-- The axis `0, dt, ..., (n - 1) dt`. -/
noncomputable def realAxis (n : ℕ) (dt : ℝ) : List ℝ := (List.range n).map fun (i : ℕ) => (i : ℝ) * dt

theorem realVals_length (x : List ℚ) : (realVals x).length = x.length := by simp [realVals]

theorem meanSq_nonneg (x : List ℚ) : 0 ≤ meanSq x := by
  unfold meanSq
  refine div_nonneg (List.sum_nonneg ?_) (Nat.cast_nonneg _)
  intro v hv
  obtain ⟨a, -, rfl⟩ := List.mem_map.1 hv
  positivity

theorem coef_energy {x : List ℚ} (hn : 0 < x.length) :
    ∑ k ∈ range x.length, Complex.normSq (coef (realVals x) k) = (x.length : ℝ) ^ 2 * meanSq x := by
  have h := parseval hn (fun j => (((realVals x).getD j 0 : ℝ) : ℂ))
  have e : ∀ k, fwd x.length (fun j => (((realVals x).getD j 0 : ℝ) : ℂ)) k = coef (realVals x) k := by
    intro k; unfold coef; rw [realVals_length]
  simp only [e] at h
  rw [h]
  have hsq : ∑ j ∈ range x.length, Complex.normSq (((realVals x).getD j 0 : ℝ) : ℂ) = (x.map fun (v : ℚ) => (v : ℝ) ^ 2).sum := by
    rw [show (x.map fun (v : ℚ) => (v : ℝ) ^ 2) = (realVals x).map (· ^ 2) by simp [realVals]]
    conv_rhs => rw [list_eq_map_range (realVals x), List.map_map, list_sum_map_range, realVals_length]
    refine sum_congr rfl fun j _ => ?_
    rw [Complex.normSq_ofReal]
    simp only [Function.comp]
    ring
  rw [hsq]
  unfold meanSq
  have : (x.length : ℝ) ≠ 0 := by exact_mod_cast hn.ne'
  field_simp

variable {ε : ℝ}

theorem npFft_getD {x : List ℚ} {k : ℕ} (hk : k < x.length) :
    (npFft (x.map fun (v : ℚ) => ((v : ℝ) : ℂ))).getD k 0 = coef (realVals x) k := by
  have e : (x.map fun (v : ℚ) => ((v : ℝ) : ℂ)) = (realVals x).map fun (v : ℝ) => (v : ℂ) := by simp [realVals]
  rw [e, npFft_ofReal, getD_map_range _ _ _ _ (by rwa [realVals_length])]

/-- The squared moduli of the computed transform: total error over all components. -/
theorem fft_power_error (F : NpFftD ε) (h0 : 0 < ε) {x : List ℚ} (hn : 0 < x.length) :
    ∑ k ∈ range x.length, |((((F.fft x).getD k 0).1 : ℝ) ^ 2 + (((F.fft x).getD k 0).2 : ℝ) ^ 2) - Complex.normSq (coef (realVals x) k)| ≤
      (2 * ε + ε ^ 2) * ((x.length : ℝ) ^ 2 * meanSq x + x.length * (1 / 2 ^ 100) ^ 3) := by
  have hs := F.fft_spec x
  unfold energy at hs
  have e1 : ∑ k ∈ range x.length, Complex.normSq ((npFft (x.map fun (v : ℚ) => ((v : ℝ) : ℂ))).getD k 0) = (x.length : ℝ) ^ 2 * meanSq x := by
    rw [← coef_energy hn]
    exact sum_congr rfl fun k hk => by rw [npFft_getD (mem_range.1 hk)]
  rw [e1] at hs
  have e2 : ∑ k ∈ range x.length, Complex.normSq (cx ((F.fft x).getD k 0) - (npFft (x.map fun (v : ℚ) => ((v : ℝ) : ℂ))).getD k 0) =
      ∑ k ∈ range x.length, Complex.normSq (cx ((F.fft x).getD k 0) - coef (realVals x) k) :=
    sum_congr rfl fun k hk => by rw [npFft_getD (mem_range.1 hk)]
  rw [e2] at hs
  have e3 : ∀ k, |((((F.fft x).getD k 0).1 : ℝ) ^ 2 + (((F.fft x).getD k 0).2 : ℝ) ^ 2) - Complex.normSq (coef (realVals x) k)| ≤
      ε * Complex.normSq (coef (realVals x) k) + (1 + 1 / ε) * Complex.normSq (cx ((F.fft x).getD k 0) - coef (realVals x) k) := by
    intro k
    have h := normSq_perturb (coef (realVals x) k) (cx ((F.fft x).getD k 0) - coef (realVals x) k) h0
    rw [add_sub_cancel] at h
    have e : Complex.normSq (cx ((F.fft x).getD k 0)) = (((F.fft x).getD k 0).1 : ℝ) ^ 2 + (((F.fft x).getD k 0).2 : ℝ) ^ 2 := by
      unfold cx; rw [Complex.normSq_apply]; ring
    rw [e] at h
    exact h
  refine (sum_le_sum fun k _ => e3 k).trans ?_
  rw [sum_add_distrib, ← mul_sum, ← mul_sum, coef_energy hn]
  set E := (x.length : ℝ) ^ 2 * meanSq x
  set T := (x.length : ℝ) * (1 / 2 ^ 100) ^ 3
  have hT : 0 ≤ T := by positivity
  have h1 : (1 + 1 / ε) * ∑ k ∈ range x.length, Complex.normSq (cx ((F.fft x).getD k 0) - coef (realVals x) k) ≤ (1 + 1 / ε) * (ε ^ 2 * (E + T)) :=
    mul_le_mul_of_nonneg_left hs (by positivity)
  have h2 : (1 + 1 / ε) * (ε ^ 2 * (E + T)) = (ε + ε ^ 2) * (E + T) := by field_simp; ring
  nlinarith

/-- The exact density of bin `k`. -/
noncomputable def rawDens (x : List ℚ) (dt : ℝ) (k : ℕ) : ℝ :=
  2 * Complex.normSq (coef (realVals x) k) / (dfOf (realAxis x.length dt) * x.length * x.length)

theorem dfOf_realAxis {n : ℕ} (hn : 2 ≤ n) (dt : ℝ) : dfOf (realAxis n dt) = 1 / (n * dt) := by
  unfold dfOf realAxis
  rw [getD_map_range _ _ _ _ (by omega), getD_map_range _ _ _ _ (by omega)]
  simp

theorem rawDens_eq {x : List ℚ} (hn : 2 ≤ x.length) {dt : ℝ} (hdt : 0 < dt) (k : ℕ) :
    rawDens x dt k = 2 * Complex.normSq (coef (realVals x) k) * (dt / x.length) := by
  unfold rawDens
  rw [dfOf_realAxis hn]
  have : (0 : ℝ) < x.length := by exact_mod_cast (by omega : 0 < x.length)
  field_simp

theorem rawDens_nonneg {x : List ℚ} (hn : 2 ≤ x.length) {dt : ℝ} (hdt : 0 < dt) (k : ℕ) : 0 ≤ rawDens x dt k := by
  rw [rawDens_eq hn hdt]
  have := Complex.normSq_nonneg (coef (realVals x) k)
  positivity

theorem half_le_all {n : ℕ} (hn : 2 ≤ n) {g : ℕ → ℝ} (h : ∀ k, 0 ≤ g k) : ∑ k ∈ range (n / 2 + 1), g k ≤ ∑ k ∈ range n, g k :=
  sum_le_sum_of_subset_of_nonneg (range_subset_range.2 (by omega)) fun k _ _ => h k

theorem rawDens_total {x : List ℚ} (hn : 2 ≤ x.length) {dt : ℝ} (hdt : 0 < dt) :
    (∑ k ∈ range (x.length / 2 + 1), rawDens x dt k) * (1 / (x.length * dt)) ≤ 2 * meanSq x := by
  have n0 : (0 : ℝ) < x.length := by exact_mod_cast (by omega : 0 < x.length)
  have h := half_le_all hn (g := fun k => rawDens x dt k) fun k => rawDens_nonneg hn hdt k
  have e : ∑ k ∈ range x.length, rawDens x dt k = 2 * (dt / x.length) * ((x.length : ℝ) ^ 2 * meanSq x) := by
    rw [← coef_energy (by omega), mul_sum]
    exact sum_congr rfl fun k _ => by rw [rawDens_eq hn hdt]; ring
  rw [e] at h
  calc _ ≤ 2 * (dt / x.length) * ((x.length : ℝ) ^ 2 * meanSq x) * (1 / (x.length * dt)) := mul_le_mul_of_nonneg_right h (by positivity)
    _ = 2 * meanSq x := by field_simp

/-- The factor of the densities. -/
def rawFactor (n : ℕ) (dt : ℚ) : ℚ := f64 (1 / f64 (f64 (f64 (1 / f64 ((n : ℚ) * dt)) * n) * n))

/-- The computed density of bin `k`. -/
def rawDensD (F : NpFftD ε) (x : List ℚ) (dt : ℚ) (k : ℕ) : ℚ :=
  let z := (F.fft x).getD k 0
  f64 (f64 (f64 (f64 (2 * z.1) * z.1) + f64 (f64 (2 * z.2) * z.2)) * rawFactor x.length dt)

theorem rawFactor_nonneg {n : ℕ} {dt : ℚ} (hn : 1 ≤ n) (hn' : n ≤ 2 ^ 40) (hlo : 1 / 2 ^ 40 ≤ dt) (hhi : dt ≤ 2 ^ 40) : 0 ≤ rawFactor n dt := by
  have h := (abs_le.1 (density_factor hn hn' hlo hhi)).1
  have d0 : 0 < dt := lt_of_lt_of_le (by positivity) hlo
  have : (0 : ℚ) < dt / n := div_pos d0 (by exact_mod_cast hn)
  unfold rawFactor
  generalize dt / (n : ℚ) = y at *
  norm_num at h this ⊢
  linarith

/-- The total error of the computed densities, as energy. -/
theorem raw_bins_error (F : NpFftD ε) (hε : 1 / 2 ^ 45 ≤ ε) (hε' : ε ≤ 1 / 10) {x : List ℚ} {dt : ℚ} (hn : 2 ≤ x.length) (hn' : x.length ≤ 2 ^ 40)
    (hlo : 1 / 2 ^ 40 ≤ dt) (hhi : dt ≤ 2 ^ 40) :
    (∑ k ∈ range (x.length / 2 + 1), |(rawDensD F x dt k : ℝ) - rawDens x dt k|) * (1 / (x.length * dt)) ≤
      (22 / 5 * ε) * (meanSq x + 1 / 2 ^ 100) := by
  have d0 : 0 < dt := lt_of_lt_of_le (by positivity) hlo
  have d0' : (0 : ℝ) < dt := by exact_mod_cast d0
  have n0 : (0 : ℝ) < x.length := by exact_mod_cast (by omega : 0 < x.length)
  have n2 : (2 : ℝ) ≤ x.length := by exact_mod_cast hn
  have ε0 : 0 < ε := lt_of_lt_of_le (by positivity) hε
  have ms := meanSq_nonneg x
  set n : ℝ := (x.length : ℝ) with hnd
  set δ : ℝ := (dt : ℝ) with hδ
  have hr0 := rawFactor_nonneg (by omega : 1 ≤ x.length) hn' hlo hhi
  have hrf : |(rawFactor x.length dt : ℝ) - δ / n| ≤ δ / n / 2 ^ 50 := by
    have := density_factor (by omega : 1 ≤ x.length) hn' hlo hhi
    change |rawFactor x.length dt - dt / x.length| ≤ dt / x.length / 2 ^ 50 at this
    have h2 := (Rat.cast_le (K := ℝ)).2 this
    push_cast at h2
    exact h2
  set ρ := δ / n with hρ
  have ρ0 : 0 < ρ := by positivity
  set r : ℝ := (rawFactor x.length dt : ℝ) with hr
  have r0 : 0 ≤ r := by rw [hr]; exact_mod_cast hr0
  set q : ℕ → ℝ := fun k => (((F.fft x).getD k 0).1 : ℝ) ^ 2 + (((F.fft x).getD k 0).2 : ℝ) ^ 2 with hq
  set p : ℕ → ℝ := fun k => Complex.normSq (coef (realVals x) k) with hp
  have q0 : ∀ k, 0 ≤ q k := fun k => by rw [hq]; positivity
  have p0 : ∀ k, 0 ≤ p k := fun k => Complex.normSq_nonneg _
  -- one bin
  have hbin : ∀ k, |(rawDensD F x dt k : ℝ) - rawDens x dt k| ≤ 2 * ρ * |q k - p k| + 2 * ρ * q k * (21 / 10 / 2 ^ 50) + (2 * ρ + 1) / 2 ^ 197 := by
    intro k
    have h1 := density_double ((F.fft x).getD k 0).1 ((F.fft x).getD k 0).2 (rawFactor x.length dt) hr0
    change |(rawDensD F x dt k : ℝ) - 2 * q k * r| ≤ 2 * q k * r / 2 ^ 50 + (r + 1) / 2 ^ 197 at h1
    rw [rawDens_eq hn d0']
    change |(rawDensD F x dt k : ℝ) - 2 * p k * ρ| ≤ _
    have hrb := abs_le.1 hrf
    have h2 : |2 * q k * r - 2 * q k * ρ| ≤ 2 * ρ * q k / 2 ^ 50 := by
      rw [← mul_sub, abs_mul, abs_of_nonneg (by linarith [q0 k] : (0 : ℝ) ≤ 2 * q k)]
      exact (mul_le_mul_of_nonneg_left hrf (by linarith [q0 k])).trans (le_of_eq (by ring))
    have h3 : |2 * q k * ρ - 2 * p k * ρ| = 2 * ρ * |q k - p k| := by
      rw [show 2 * q k * ρ - 2 * p k * ρ = 2 * ρ * (q k - p k) by ring, abs_mul, abs_of_pos (by positivity : 0 < 2 * ρ)]
    have h4 := abs_add_le ((rawDensD F x dt k : ℝ) - 2 * q k * r) (2 * q k * r - 2 * q k * ρ)
    have h5 := abs_add_le ((rawDensD F x dt k : ℝ) - 2 * q k * r + (2 * q k * r - 2 * q k * ρ)) (2 * q k * ρ - 2 * p k * ρ)
    rw [show (rawDensD F x dt k : ℝ) - 2 * q k * r + (2 * q k * r - 2 * q k * ρ) + (2 * q k * ρ - 2 * p k * ρ) =
      (rawDensD F x dt k : ℝ) - 2 * p k * ρ by ring, h3] at h5
    have hr2 : r ≤ ρ * (1 + 1 / 2 ^ 50) := by linarith [hrb.2]
    have h6 : 2 * q k * r / 2 ^ 50 ≤ 2 * ρ * q k * ((1 + 1 / 2 ^ 50) / 2 ^ 50) := by
      have : 2 * q k * r ≤ 2 * q k * (ρ * (1 + 1 / 2 ^ 50)) := mul_le_mul_of_nonneg_left hr2 (by linarith [q0 k])
      calc 2 * q k * r / 2 ^ 50 ≤ 2 * q k * (ρ * (1 + 1 / 2 ^ 50)) / 2 ^ 50 := by gcongr
        _ = _ := by ring
    have h7 : (r + 1) / 2 ^ 197 ≤ (2 * ρ + 1) / 2 ^ 197 := by
      have : r ≤ 2 * ρ := by
        refine hr2.trans ?_
        rw [mul_comm]
        exact mul_le_mul_of_nonneg_right (by norm_num) ρ0.le
      gcongr
    have h8 : 0 ≤ 2 * ρ * q k := mul_nonneg (by positivity) (q0 k)
    generalize |q k - p k| = A at *
    generalize 2 * ρ * q k = B at *
    have h9 : B * ((1 + 1 / 2 ^ 50) / 2 ^ 50) + B / 2 ^ 50 ≤ B * (21 / 10 / 2 ^ 50) := by
      rw [show B * ((1 + 1 / 2 ^ 50) / 2 ^ 50) + B / 2 ^ 50 = B * ((1 + 1 / 2 ^ 50) / 2 ^ 50 + 1 / 2 ^ 50) by ring]
      exact mul_le_mul_of_nonneg_left (by norm_num) h8
    linarith
  have hpow := fft_power_error F ε0 (x := x) (by omega)
  change ∑ k ∈ range x.length, |q k - p k| ≤ (2 * ε + ε ^ 2) * (n ^ 2 * meanSq x + n * (1 / 2 ^ 100) ^ 3) at hpow
  have hE := coef_energy (x := x) (by omega)
  change ∑ k ∈ range x.length, p k = n ^ 2 * meanSq x at hE
  -- sums
  have s1 : ∑ k ∈ range (x.length / 2 + 1), |(rawDensD F x dt k : ℝ) - rawDens x dt k| ≤
      2 * ρ * (∑ k ∈ range x.length, |q k - p k|) + 2 * ρ * (21 / 10 / 2 ^ 50) * (∑ k ∈ range x.length, q k) + n * ((2 * ρ + 1) / 2 ^ 197) := by
    refine (sum_le_sum fun k _ => hbin k).trans ?_
    refine (half_le_all hn (g := fun k => 2 * ρ * |q k - p k| + 2 * ρ * q k * (21 / 10 / 2 ^ 50) + (2 * ρ + 1) / 2 ^ 197) fun k => by
      have := q0 k; positivity).trans (le_of_eq ?_)
    rw [sum_add_distrib, sum_add_distrib, ← mul_sum, sum_const, card_range, nsmul_eq_mul, mul_sum]
    congr 2
    rw [mul_sum]
    exact sum_congr rfl fun k _ => by ring
  have s2 : ∑ k ∈ range x.length, q k ≤ n ^ 2 * meanSq x + ∑ k ∈ range x.length, |q k - p k| := by
    rw [← hE, ← sum_add_distrib]
    exact sum_le_sum fun k _ => by linarith [le_abs_self (q k - p k)]
  set A := ∑ k ∈ range x.length, |q k - p k|
  set Q := ∑ k ∈ range x.length, q k
  have s3 : (2 * ρ * A + 2 * ρ * (21 / 10 / 2 ^ 50) * Q + n * ((2 * ρ + 1) / 2 ^ 197)) * (1 / (n * δ)) =
      2 * (A / n ^ 2) + 2 * (21 / 10 / 2 ^ 50) * (Q / n ^ 2) + (2 / n + 1 / δ) / 2 ^ 197 := by
    rw [hρ]; field_simp
  refine (mul_le_mul_of_nonneg_right s1 (by positivity)).trans ?_
  rw [s3]
  have t1 : A / n ^ 2 ≤ (2 * ε + ε ^ 2) * (meanSq x + (1 / 2 ^ 100) ^ 3) := by
    rw [div_le_iff₀ (by positivity)]
    refine hpow.trans ?_
    rw [mul_assoc]
    refine mul_le_mul_of_nonneg_left ?_ (by positivity)
    rw [add_mul]
    have : n * (1 / 2 ^ 100) ^ 3 ≤ (1 / 2 ^ 100) ^ 3 * n ^ 2 := by
      rw [mul_comm]
      refine mul_le_mul_of_nonneg_left ?_ (by positivity)
      nlinarith
    linarith
  have t2 : Q / n ^ 2 ≤ meanSq x + A / n ^ 2 := by
    rw [div_le_iff₀ (by positivity), add_mul, div_mul_cancel₀ _ (by positivity)]
    linarith
  have t3 : (2 / n + 1 / δ) / 2 ^ 197 ≤ 1 / 2 ^ 156 := by
    have a1 : 2 / n ≤ 1 := by rw [div_le_one n0]; exact n2
    have a2 : 1 / δ ≤ 2 ^ 40 := by
      rw [div_le_iff₀ d0']
      have := (Rat.cast_le (K := ℝ)).2 hlo
      push_cast at this
      rw [hδ]
      linarith
    generalize 2 / n = u at *
    generalize 1 / δ = v at *
    norm_num at a1 a2 ⊢
    linarith
  have t4 : (2 * ε + ε ^ 2) * (meanSq x + (1 / 2 ^ 100) ^ 3) ≤ 21 / 10 * ε * (meanSq x + (1 / 2 ^ 100) ^ 3) := by
    refine mul_le_mul_of_nonneg_right ?_ (by positivity)
    nlinarith
  have t5 : (1 / 2 ^ 45) * (1 / 2 ^ 100) ≤ ε * (1 / 2 ^ 100) := mul_le_mul_of_nonneg_right hε (by positivity)
  have t6 : (1 / 2 ^ 45) * meanSq x ≤ ε * meanSq x := mul_le_mul_of_nonneg_right hε ms
  have t7 : ε * meanSq x ≤ 1 / 10 * meanSq x := mul_le_mul_of_nonneg_right hε' ms
  have e1 : 21 / 10 * ε * (meanSq x + (1 / 2 ^ 100) ^ 3) = 21 / 10 * (ε * meanSq x) + 21 / 10 * ε * (1 / 2 ^ 100) ^ 3 := by ring
  have e2 : 22 / 5 * ε * (meanSq x + 1 / 2 ^ 100) = 22 / 5 * (ε * meanSq x) + 22 / 5 * (ε * (1 / 2 ^ 100)) := by ring
  rw [e1] at t4
  rw [e2]
  have e3 : 21 / 10 * ε * (1 / 2 ^ 100) ^ 3 ≤ 1 / 2 ^ 200 := by
    have : 21 / 10 * ε * (1 / 2 ^ 100) ^ 3 ≤ 21 / 10 * (1 / 10) * (1 / 2 ^ 100) ^ 3 := by gcongr
    refine this.trans ?_
    norm_num
  generalize A / n ^ 2 = a at *
  generalize Q / n ^ 2 = b at *
  generalize (2 / n + 1 / δ) / 2 ^ 197 = c at *
  generalize ε * meanSq x = u at *
  generalize ε * (1 / 2 ^ 100) = v at *
  generalize 21 / 10 * ε * (1 / 2 ^ 100) ^ 3 = w at *
  generalize (2 * ε + ε ^ 2) * (meanSq x + (1 / 2 ^ 100) ^ 3) = y at *
  norm_num at t2 t3 t4 t5 t6 t7 e3 ⊢
  linarith

end Verif
