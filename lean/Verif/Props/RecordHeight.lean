import Verif.Props.Quadrature
import Verif.Props.RawInvariance
import Verif.Props.Bands
import Verif.Props.SpectrumValues

/-! # C103, C104: wave height and periods computed from the raw spectrum of a record -/

set_option linter.unusedSectionVars false

namespace Verif
open Finset

/-! ## Specification -/

/-- The record of `N` samples of a sinusoid of amplitude `a` that fits `p` times in the record. -/
noncomputable def sinusoid (N p : Nat) (a φ : ℝ) : List ℝ :=
  (List.range N).map fun (j : Nat) => a * Real.cos (2 * Real.pi * (p * j) / N + φ)

/-! ## Moments over the whole axis of a spectrum -/

theorem full_range_moment {f S : List ℝ} {h : ℝ} (hu : UniformAxis f h) (h2 : 2 ≤ f.length) (hl : f.length = S.length)
    (h0 : 0 ≤ f.getD 0 0) (m : Int) :
    computeMoment (vec f) (.nd ⟨[S.length], S⟩) m (f.getD 0 0) (.fin (f.getD (f.length - 1) 0)) =
      .ok (h * ∑ k ∈ range (f.length - firstUsable f m), simpsonWeight ℝ (f.length - firstUsable f m) k *
        (f.getD (firstUsable f m + k) 0 ^ m * S.getD (firstUsable f m + k) 0)) := by
  have hm : monotonicIncreasingConstantStep f = .ok true := uniform_check_accepts_uniform h2 hu
  have hp := uniform_check_increasing hm
  have hd := firstUsable_le f m
  have hsel : SelectedRange f m (f.getD 0 0) (.fin (f.getD (f.length - 1) 0)) (firstUsable f m) (f.length - 1) :=
    ⟨isNearest_first hp (by omega) (inc_le hp (Nat.zero_le _) (by omega)), isNearest_last hp (by omega) le_rfl⟩
  have e := moment_exact (isArr_vec f) (isArr_vec S) hu h2 hl h0 h0 (inc_le hp (Nat.zero_le _) (by omega)) le_rfl hsel
  rw [show f.length - 1 + 1 - firstUsable f m = f.length - firstUsable f m by omega] at e
  exact e

theorem getD_default_limits (f : List ℝ) : setFlim f (-1) (.fin (-1)) = (f.getD 0 0, .fin (f.getD (f.length - 1) 0)) := by
  unfold setFlim
  rw [if_pos rfl, if_pos rfl]

/-! ## C103 -/

/-- The raw spectrum object of a valid series. -/
theorem raw_object {s : SeriesObj ℝ} {t x : List ℝ} {dt : ℝ} (h : ValidSeries s t x dt) :
    ∃ F G, F = (List.range (x.length / 2 + 1)).map (fun (k : Nat) => (k : ℝ) / (x.length * dt)) ∧
      G = (List.range (x.length / 2 + 1)).map (rawBin x dt) ∧ UniformAxis F (1 / (x.length * dt)) ∧
      s.getSpectrumRaw 0 = .ok { f := F, sVarDens := ⟨[G.length], G⟩, nf := F.length } := by
  have hx2 : 2 ≤ x.length := h.len ▸ h.two
  set F := (List.range (x.length / 2 + 1)).map fun (k : Nat) => (k : ℝ) / (x.length * dt) with hF
  set G := (List.range (x.length / 2 + 1)).map (rawBin x dt) with hG
  have hFl : F.length = x.length / 2 + 1 := by simp [hF]
  have hGl : G.length = x.length / 2 + 1 := by simp [hG]
  have hu : UniformAxis F (1 / (x.length * dt)) := freq_uniform hx2 h.axis.1
  refine ⟨F, G, rfl, rfl, hu, ?_⟩
  have e := getSpectrumRaw_eq h 0
  rw [← hF, ← hG] at e
  have ha := averaging_identity (isArr_vec F) (isArr_vec G) (by omega) (by intro h; rw [h] at hGl; simp at hGl)
  unfold frequencyAveraging at ha
  rw [vecIn_vec, vecIn_vec] at ha
  have ha : frequencyAveragingL F G 0 = .ok (F, G) := ha
  rw [e, ha]
  show SpecObj.init (vec F) (vec G) = _
  rw [spectrum_init_iff_partial (isArr_vec F) (isArr_vec G)]
  exact ⟨uniform_check_accepts_uniform (by omega) hu, by omega, rfl⟩

theorem rawBin_nonneg (x : List ℝ) {dt : ℝ} (hdt : 0 < dt) (k : Nat) : 0 ≤ rawBin x dt k := by
  unfold rawBin
  have := Complex.normSq_nonneg (∑ j ∈ range x.length, (x.getD j 0 : ℂ) * Complex.exp (-2 * Real.pi * Complex.I * (j * k) / x.length))
  positivity

/-- **C103 (exact height).**  `Hm0` of the raw spectrum of a series of `N` samples: `Hm0² = 16 Σ_k w(N/2+1, k) S_k df` with the explicit
Simpson weights. -/
theorem raw_hm0_exact {s : SeriesObj ℝ} {t x : List ℝ} {dt : ℝ} (h : ValidSeries s t x dt) :
    ∃ sp H, s.getSpectrumRaw 0 = .ok sp ∧ (sp.getHm0 (-1) (.fin (-1))).1 = .ok H ∧ 0 ≤ H ∧
      H ^ 2 = 16 * ∑ k ∈ range (x.length / 2 + 1), simpsonWeight ℝ (x.length / 2 + 1) k * rawBin x dt k * (1 / (x.length * dt)) := by
  have hx2 : 2 ≤ x.length := h.len ▸ h.two
  have hdt := h.axis.1
  have hN : (0 : ℝ) < x.length := by exact_mod_cast (by omega : 0 < x.length)
  obtain ⟨F, G, hF, hG, hu, hsp⟩ := raw_object h
  have hFl : F.length = x.length / 2 + 1 := by simp [hF]
  have hGl : G.length = x.length / 2 + 1 := by simp [hG]
  have hF0 : F.getD 0 0 = 0 := by
    rw [hF, getD_map_range (fun (k : Nat) => (k : ℝ) / (x.length * dt)) _ 0 0 (by omega)]; simp
  have e := full_range_moment hu (by omega) (by omega : F.length = G.length) hF0.ge 0
  have hd : firstUsable F 0 = 0 := by unfold firstUsable; simp
  rw [hd] at e
  simp only [Nat.sub_zero, zero_add, zpow_zero, one_mul] at e
  rw [hFl, mul_sum] at e
  have hsum : ∑ k ∈ range (x.length / 2 + 1), 1 / (x.length * dt) * (simpsonWeight ℝ (x.length / 2 + 1) k * G.getD k 0) =
      ∑ k ∈ range (x.length / 2 + 1), simpsonWeight ℝ (x.length / 2 + 1) k * rawBin x dt k * (1 / (x.length * dt)) := by
    refine sum_congr rfl fun k hk => ?_
    rw [hG, getD_map_range (rawBin x dt) _ k 0 (mem_range.1 hk)]; ring
  rw [hsum] at e
  set v := ∑ k ∈ range (x.length / 2 + 1), simpsonWeight ℝ (x.length / 2 + 1) k * rawBin x dt k * (1 / (x.length * dt)) with hv
  have hv0 : 0 ≤ v := by
    refine sum_nonneg fun k _ => ?_
    have := (simpsonWeight_bounds (K := ℝ) (by omega : 2 ≤ x.length / 2 + 1) k).1
    have := rawBin_nonneg x hdt k
    positivity
  refine ⟨_, 4 * √v, hsp, ?_, by positivity, by rw [mul_pow, Real.sq_sqrt hv0]; norm_num⟩
  show calcHm0 F ⟨[G.length], G⟩ (-1) (.fin (-1)) = _
  unfold calcHm0
  rw [getD_default_limits]
  dsimp only
  rw [hFl, e]
  exact height_def hv0

/-- The energy of the raw spectrum of a valid series. -/
theorem raw_energy {s : SeriesObj ℝ} {t x : List ℝ} {dt : ℝ} (h : ValidSeries s t x dt) :
    ∑ k ∈ range (x.length / 2 + 1), rawBin x dt k * (1 / (x.length * dt)) =
      (x.map (· ^ 2)).sum / x.length + (x.sum / x.length) ^ 2 +
        if Even x.length then ((∑ j ∈ range x.length, (-1) ^ j * x.getD j 0) / x.length) ^ 2 else 0 := by
  have hx2 : 2 ≤ x.length := h.len ▸ h.two
  have hdt := h.axis.1
  have hN : (0 : ℝ) < x.length := by exact_mod_cast (by omega : 0 < x.length)
  obtain ⟨f, S, e, hfl, hSl, hf, hE⟩ := raw_spectrum_energy h.isArr_time h.isArr_x h.accepted h.len
  obtain ⟨F, G, hF, hG, hu, hsp⟩ := raw_object h
  have hSG : S = G ∧ f = F := by
    unfold SeriesObj.getSpectrumRaw at hsp
    rw [e] at hsp
    have hsp : SpecObj.init (vec f) (vec S) = _ := hsp
    obtain ⟨-, -, h3⟩ := (spectrum_init_iff_partial (isArr_vec f) (isArr_vec S)).1 hsp
    have h3 := h3.symm
    simp only [SpecObj.mk.injEq, Arr.mk.injEq] at h3
    exact ⟨h3.2.1.2, h3.1⟩
  obtain ⟨rfl, rfl⟩ := hSG
  rw [← hE, uniform_first_step (by omega) hu, list_sum_getD, hSl, sum_mul]
  refine sum_congr rfl fun k hk => ?_
  rw [hG, getD_map_range (rawBin x dt) _ k 0 (mem_range.1 hk)]

/-- **C103 (bounds).**  The height of the raw spectrum against the record: with `E` the mean square plus the squared mean (plus the
squared alternating mean for an even number of samples), `16/3 E ≤ Hm0² ≤ 64/3 E`. -/
theorem raw_hm0_bounds {s : SeriesObj ℝ} {t x : List ℝ} {dt : ℝ} (h : ValidSeries s t x dt) :
    ∃ sp H, s.getSpectrumRaw 0 = .ok sp ∧ (sp.getHm0 (-1) (.fin (-1))).1 = .ok H ∧
      let E := (x.map (· ^ 2)).sum / x.length + (x.sum / x.length) ^ 2 +
        if Even x.length then ((∑ j ∈ range x.length, (-1) ^ j * x.getD j 0) / x.length) ^ 2 else 0
      16 / 3 * E ≤ H ^ 2 ∧ H ^ 2 ≤ 64 / 3 * E := by
  have hx2 : 2 ≤ x.length := h.len ▸ h.two
  have hdt := h.axis.1
  have hN : (0 : ℝ) < x.length := by exact_mod_cast (by omega : 0 < x.length)
  obtain ⟨sp, H, h1, h2, -, h3⟩ := raw_hm0_exact h
  refine ⟨sp, H, h1, h2, ?_⟩
  dsimp only
  rw [← raw_energy h, h3]
  have hb : ∀ k, 1 / 3 * (rawBin x dt k * (1 / (x.length * dt))) ≤ simpsonWeight ℝ (x.length / 2 + 1) k * rawBin x dt k * (1 / (x.length * dt)) ∧
      simpsonWeight ℝ (x.length / 2 + 1) k * rawBin x dt k * (1 / (x.length * dt)) ≤ 4 / 3 * (rawBin x dt k * (1 / (x.length * dt))) := by
    intro k
    have hs : 0 ≤ rawBin x dt k * (1 / (x.length * dt)) := mul_nonneg (rawBin_nonneg x hdt k) (by positivity)
    obtain ⟨a, b⟩ := simpsonWeight_bounds (K := ℝ) (by omega : 2 ≤ x.length / 2 + 1) k
    have := mul_le_mul_of_nonneg_right a hs
    have := mul_le_mul_of_nonneg_right b hs
    constructor <;> linarith
  constructor
  · have := sum_le_sum fun k (_ : k ∈ range (x.length / 2 + 1)) => (hb k).1
    rw [← mul_sum] at this
    linarith
  · have := sum_le_sum fun k (_ : k ∈ range (x.length / 2 + 1)) => (hb k).2
    rw [← mul_sum] at this
    linarith

/-- **C103 (zero-mean records of odd length).**  `Hm0` lies between `4/√3` and `8/√3` standard deviations. -/
theorem raw_hm0_std {s : SeriesObj ℝ} {t x : List ℝ} {dt : ℝ} (h : ValidSeries s t x dt) (h0 : x.sum = 0) (hodd : Odd x.length) :
    ∃ sp H, s.getSpectrumRaw 0 = .ok sp ∧ (sp.getHm0 (-1) (.fin (-1))).1 = .ok H ∧
      16 / 3 * variance x ≤ H ^ 2 ∧ H ^ 2 ≤ 64 / 3 * variance x := by
  obtain ⟨sp, H, h1, h2, h3⟩ := raw_hm0_bounds h
  dsimp only at h3
  rw [if_neg (by rw [Nat.not_even_iff_odd]; exact hodd), h0] at h3
  refine ⟨sp, H, h1, h2, ?_⟩
  have : variance x = (x.map (· ^ 2)).sum / x.length + (0 / x.length) ^ 2 + 0 := by
    unfold variance mean; rw [h0]; simp
  rw [this]
  exact h3

/-! ## C104: sinusoids -/

theorem cos_twiddle (N p j : Nat) (a φ : ℝ) :
    ((a * Real.cos (2 * Real.pi * (p * j) / N + φ) : ℝ) : ℂ) =
      a / 2 * Complex.exp (φ * Complex.I) * twiddle N ((j : ℤ) * p) + a / 2 * Complex.exp (-(φ * Complex.I)) * twiddle N ((j : ℤ) * (-p)) := by
  unfold twiddle
  rw [mul_assoc (_ / 2), mul_assoc (_ / 2), ← Complex.exp_add, ← Complex.exp_add, ← mul_add]
  push_cast
  unfold Complex.cos
  have e1 : (2 * (Real.pi : ℂ) * (p * j) / N + φ) * Complex.I = φ * Complex.I + 2 * Real.pi * Complex.I * (j * p) / N := by ring
  have e2 : -(2 * (Real.pi : ℂ) * (p * j) / N + φ) * Complex.I = -(φ * Complex.I) + 2 * Real.pi * Complex.I * (j * -p) / N := by ring
  rw [e1, e2]
  ring

/-- The Fourier coefficients of a sinusoid. -/
theorem coef_sinusoid {N p : Nat} (hp : 0 < p) (hpN : 2 * p < N) (a φ : ℝ) {k : Nat} (hk : k ≤ N / 2) :
    coef (sinusoid N p a φ) k = if k = p then N * (a / 2) * Complex.exp (φ * Complex.I) else 0 := by
  have hl : (sinusoid N p a φ).length = N := by simp [sinusoid]
  unfold coef
  rw [hl]
  have e : ∀ j < N, (((sinusoid N p a φ).getD j 0 : ℝ) : ℂ) = a / 2 * Complex.exp (φ * Complex.I) * twiddle N ((j : ℤ) * p) +
      a / 2 * Complex.exp (-(φ * Complex.I)) * twiddle N ((j : ℤ) * (-p)) := by
    intro j hj
    unfold sinusoid
    rw [getD_map_range (fun (j : Nat) => a * Real.cos (2 * Real.pi * (p * j) / N + φ)) _ j 0 hj]
    exact cos_twiddle N p j a φ
  rw [fwd_congr e, fwd_add, fwd_smul, fwd_smul]
  have hs : ∀ q : ℤ, fwd N (fun j => twiddle N ((j : ℤ) * q)) k = if (N : ℤ) ∣ q - k then (N : ℂ) else 0 := by
    intro q
    rw [← sum_twiddle (by omega)]
    unfold fwd
    refine sum_congr rfl fun j _ => ?_
    rw [← twiddle_add]
    congr 1; ring
  rw [hs, hs]
  have d2 : ¬ (N : ℤ) ∣ -(p : ℤ) - k := by
    rintro ⟨c, hc⟩
    have hc1 : -(N : ℤ) < N * c := by omega
    have hc2 : (N : ℤ) * c < 0 := by omega
    have : c < 0 := by by_contra hh; have := mul_nonneg (by omega : (0 : ℤ) ≤ N) (not_lt.1 hh); omega
    have : (N : ℤ) * c ≤ N * (-1) := mul_le_mul_of_nonneg_left (by omega) (by omega)
    omega
  rw [if_neg d2, mul_zero, add_zero]
  have d1 : ((N : ℤ) ∣ (p : ℤ) - k) ↔ k = p := (dvd_sub_iff_eq (by omega) (by omega)).trans eq_comm
  simp only [d1]
  by_cases hkp : k = p
  · rw [if_pos hkp, if_pos hkp]; ring
  · rw [if_neg hkp, if_neg hkp, mul_zero]

theorem rawBin_sinusoid {N p : Nat} (hp : 0 < p) (hpN : 2 * p < N) (a φ dt : ℝ) {k : Nat} (hk : k ≤ N / 2) :
    rawBin (sinusoid N p a φ) dt k = if k = p then a ^ 2 / 2 * (N * dt) else 0 := by
  have hl : (sinusoid N p a φ).length = N := by simp [sinusoid]
  unfold rawBin
  rw [← coef_eq_sum, coef_sinusoid hp hpN a φ hk, hl]
  split_ifs
  · rw [Complex.normSq_mul, Complex.normSq_mul, Complex.normSq_natCast,
      show (a : ℂ) / 2 = ((a / 2 : ℝ) : ℂ) by push_cast; rfl, Complex.normSq_ofReal, Complex.normSq_eq_norm_sq (Complex.exp _),
      Complex.norm_exp_ofReal_mul_I]
    have : (N : ℝ) ≠ 0 := by exact_mod_cast (by omega : N ≠ 0)
    field_simp
  · simp

/-- **C104.**  For a sinusoid of amplitude `a ≠ 0` that fits `p` times in a record of `N` samples (`0 < p < N/2`), with period
`T = N dt / p`: the raw spectrum has all its energy `a²/2` in one bin; `Tp`, `Tm01` and `Tm02` are exactly `T`; but
`Hm0² = 16 w(N/2+1, p) a²/2` and `Tm-1,0 = T w(N/2, p-1) / w(N/2+1, p)`: the Simpson weights of the bin enter (1/3 .. 4/3). -/
theorem sinusoid_parameters {s : SeriesObj ℝ} {t : List ℝ} {dt a φ : ℝ} {N p : Nat} (hp : 0 < p) (hpN : 2 * p < N) (ha : a ≠ 0)
    (h : ValidSeries s t (sinusoid N p a φ) dt) :
    ∃ sp H, s.getSpectrumRaw 0 = .ok sp ∧
      (sp.getHm0 (-1) (.fin (-1))).1 = .ok H ∧ 0 < H ∧ H ^ 2 = 16 * simpsonWeight ℝ (N / 2 + 1) p * (a ^ 2 / 2) ∧
      (sp.getTp (-1) (.fin (-1))).1 = .ok (N * dt / p) ∧
      (sp.getTm01 (-1) (.fin (-1))).1 = .ok (N * dt / p) ∧
      (sp.getTm02 (-1) (.fin (-1))).1 = .ok (N * dt / p) ∧
      (sp.getTmm10 (-1) (.fin (-1))).1 = .ok (N * dt / p * (simpsonWeight ℝ (N / 2) (p - 1) / simpsonWeight ℝ (N / 2 + 1) p)) := by
  have hl : (sinusoid N p a φ).length = N := by simp [sinusoid]
  have hdt := h.axis.1
  have hN : (0 : ℝ) < N := by exact_mod_cast (by omega : 0 < N)
  have hp' : (0 : ℝ) < p := by exact_mod_cast hp
  have ha2 : 0 < a ^ 2 := by positivity
  obtain ⟨F, G, hF, hG, hu, hsp⟩ := raw_object h
  rw [hl] at hF hG hu
  have hFl : F.length = N / 2 + 1 := by simp [hF]
  have hGl : G.length = N / 2 + 1 := by simp [hG]
  have hFg : ∀ k, k < N / 2 + 1 → F.getD k 0 = (k : ℝ) / (N * dt) := fun k hk => by
    rw [hF, getD_map_range (fun (k : Nat) => (k : ℝ) / (N * dt)) _ k 0 hk]
  have hGg : ∀ k, k < N / 2 + 1 → G.getD k 0 = if k = p then a ^ 2 / 2 * (N * dt) else 0 := fun k hk => by
    rw [hG, getD_map_range (rawBin (sinusoid N p a φ) dt) _ k 0 hk, rawBin_sinusoid hp hpN a φ dt (by omega)]
  have hF0 : F.getD 0 0 = 0 := by rw [hFg 0 (by omega)]; simp
  have hFp : F.getD p 0 = p / (N * dt) := hFg p (by omega)
  have hw0 : 0 < simpsonWeight ℝ (N / 2 + 1) p := by
    have := (simpsonWeight_bounds (K := ℝ) (by omega : 2 ≤ N / 2 + 1) p).1; linarith
  -- moments of non-negative order
  have hmom : ∀ m : Int, 0 ≤ m → computeMoment (vec F) (.nd ⟨[G.length], G⟩) m (F.getD 0 0) (.fin (F.getD (F.length - 1) 0)) =
      .ok (simpsonWeight ℝ (N / 2 + 1) p * ((p / (N * dt)) ^ m * (a ^ 2 / 2))) := by
    intro m hm
    have e := full_range_moment hu (by omega) (by omega : F.length = G.length) hF0.ge m
    have hd : firstUsable F m = 0 := by unfold firstUsable; rw [if_neg (by omega)]
    rw [hd] at e
    simp only [Nat.sub_zero, zero_add] at e
    rw [e, hFl, sum_eq_single_of_mem p (mem_range.2 (by omega))]
    · rw [hFp, hGg p (by omega), if_pos rfl]
      congr 1
      field_simp
    · intro k hk hkp
      rw [hGg k (mem_range.1 hk), if_neg hkp]; ring
  have hmom1 : computeMoment (vec F) (.nd ⟨[G.length], G⟩) (-1) (F.getD 0 0) (.fin (F.getD (F.length - 1) 0)) =
      .ok (simpsonWeight ℝ (N / 2) (p - 1) * ((p / (N * dt)) ^ (-1 : Int) * (a ^ 2 / 2))) := by
    have e := full_range_moment hu (by omega) (by omega : F.length = G.length) hF0.ge (-1)
    have hd : firstUsable F (-1) = 1 := by unfold firstUsable; rw [if_pos ⟨by omega, hF0⟩]
    rw [hd, hFl, show N / 2 + 1 - 1 = N / 2 by omega] at e
    rw [hFl, show N / 2 + 1 - 1 = N / 2 by omega, e, sum_eq_single_of_mem (p - 1) (mem_range.2 (by omega))]
    · rw [show 1 + (p - 1) = p by omega, hFp, hGg p (by omega), if_pos rfl]
      congr 1
      field_simp
    · intro k hk hkp
      have := mem_range.1 hk
      rw [hGg (1 + k) (by omega), if_neg (by omega)]; ring
  have h0 := hmom 0 le_rfl
  have h1 := hmom 1 (by norm_num)
  have h2 := hmom 2 (by norm_num)
  simp only [zpow_zero, zpow_one, one_mul] at h0 h1
  have hz2 : ((p : ℝ) / (N * dt)) ^ (2 : Int) = (p / (N * dt)) ^ 2 := by norm_cast
  rw [hz2] at h2
  set w := simpsonWeight ℝ (N / 2 + 1) p with hw
  have hv0 : 0 < w * (a ^ 2 / 2) := by positivity
  refine ⟨_, 4 * √(w * (a ^ 2 / 2)), hsp, ?_, by positivity, ?_, ?_, ?_, ?_, ?_⟩
  · show calcHm0 F ⟨[G.length], G⟩ (-1) (.fin (-1)) = _
    unfold calcHm0
    rw [getD_default_limits]
    dsimp only
    rw [h0]
    exact height_def hv0.le
  · rw [mul_pow, Real.sq_sqrt hv0.le]; ring
  · have hinit : SpecObj.init (vec F) (vec G) = .ok { f := F, sVarDens := ⟨[G.length], G⟩, nf := F.length } := by
      rw [spectrum_init_iff_partial (isArr_vec F) (isArr_vec G)]
      exact ⟨uniform_check_accepts_uniform (by omega) hu, by omega, rfl⟩
    refine get_Tp_complete (isArr_vec F) (isArr_vec G) hinit ?_
    have hin : InRange F (-1) (.fin (-1)) p := ⟨by omega, Or.inl rfl, Or.inl rfl⟩
    refine ⟨p, hin, by rw [hFp]; positivity, by rw [hFp, one_div_div], fun l hlr => ?_⟩
    have hll : l < N / 2 + 1 := by have := hlr.1; omega
    rw [hGg l hll, hGg p (by omega), if_pos rfl]
    refine ⟨?_, fun hlt => ?_⟩
    · split_ifs
      · rfl
      · positivity
    · rw [if_neg (by omega)]; positivity
  · show calcTm01 F ⟨[G.length], G⟩ (-1) (.fin (-1)) = _
    unfold calcTm01
    rw [getD_default_limits]
    simp only [h0, h1, bind, Except.bind]
    unfold divE
    rw [if_neg (by positivity)]
    congr 1
    field_simp
  · show calcTm02 F ⟨[G.length], G⟩ (-1) (.fin (-1)) = _
    unfold calcTm02
    rw [getD_default_limits]
    simp only [h0, h2, bind, Except.bind]
    unfold divE
    rw [if_neg (by positivity)]
    have e : w * (a ^ 2 / 2) / (w * ((p / (N * dt)) ^ 2 * (a ^ 2 / 2))) = (N * dt / p) ^ 2 := by field_simp
    dsimp only
    rw [e]
    unfold sqrtE
    rw [if_neg (not_lt.2 (sq_nonneg _)), Real.sqrt_sq (by positivity)]
  · show calcTmm10 F ⟨[G.length], G⟩ (-1) (.fin (-1)) = _
    unfold calcTmm10
    rw [getD_default_limits]
    simp only [h0, hmom1, bind, Except.bind]
    unfold divE
    rw [if_neg (by positivity)]
    congr 1
    rw [zpow_neg, zpow_one]
    field_simp

/-- **C104 (the height is off by up to 15 %, the energy period by a factor of two).**  In the interior of the axis a sinusoid in an odd bin gives
`Hm0² = 4/3 · 16 σ²` and `Tm-1,0 = T/2`, one in an even bin `Hm0² = 2/3 · 16 σ²` and `Tm-1,0 = 2 T` (`σ² = a²/2`). -/
theorem sinusoid_parity {s : SeriesObj ℝ} {t : List ℝ} {dt a φ : ℝ} {N p : Nat} (hp : 1 < p) (hpN : 2 * p + 8 < N) (ha : a ≠ 0)
    (h : ValidSeries s t (sinusoid N p a φ) dt) :
    ∃ sp H, s.getSpectrumRaw 0 = .ok sp ∧ (sp.getHm0 (-1) (.fin (-1))).1 = .ok H ∧
      (Odd p → H ^ 2 = 4 / 3 * (16 * (a ^ 2 / 2)) ∧ (sp.getTmm10 (-1) (.fin (-1))).1 = .ok (N * dt / p / 2)) ∧
      (Even p → H ^ 2 = 2 / 3 * (16 * (a ^ 2 / 2)) ∧ (sp.getTmm10 (-1) (.fin (-1))).1 = .ok (2 * (N * dt / p))) := by
  obtain ⟨sp, H, h1, h2, -, h3, -, -, -, h4⟩ := sinusoid_parameters (by omega) (by omega) ha h
  refine ⟨sp, H, h1, h2, fun ho => ?_, fun he => ?_⟩
  · have ho := Nat.odd_iff.1 ho
    have w1 : simpsonWeight ℝ (N / 2 + 1) p = 4 / 3 := by
      unfold simpsonWeight
      rw [if_neg (by omega), if_neg (by omega), if_neg (by omega), if_neg (by omega), if_neg (by omega), if_neg (by omega), if_pos ho]
    have w2 : simpsonWeight ℝ (N / 2) (p - 1) = 2 / 3 := by
      unfold simpsonWeight
      rw [if_neg (by omega), if_neg (by omega), if_neg (by omega), if_neg (by omega), if_neg (by omega), if_neg (by omega), if_neg (by omega)]
    rw [w1] at h3
    rw [w1, w2] at h4
    refine ⟨by rw [h3]; ring, ?_⟩
    rw [h4]; congr 1; ring
  · have he := Nat.even_iff.1 he
    have w1 : simpsonWeight ℝ (N / 2 + 1) p = 2 / 3 := by
      unfold simpsonWeight
      rw [if_neg (by omega), if_neg (by omega), if_neg (by omega), if_neg (by omega), if_neg (by omega), if_neg (by omega), if_neg (by omega)]
    have w2 : simpsonWeight ℝ (N / 2) (p - 1) = 4 / 3 := by
      unfold simpsonWeight
      rw [if_neg (by omega), if_neg (by omega), if_neg (by omega), if_neg (by omega), if_neg (by omega), if_neg (by omega), if_pos (by omega)]
    rw [w1] at h3
    rw [w1, w2] at h4
    refine ⟨by rw [h3]; ring, ?_⟩
    rw [h4]; congr 1; ring

/-- Non-vacuity: there is a series for every record of two samples or more with step 1. -/
theorem series_of_record (x : List ℝ) (h : 2 ≤ x.length) :
    ∃ s t, SeriesObj.init (vec t) (vec x) = .ok s ∧ ValidSeries s t x 1 := by
  set t : List ℝ := (List.range x.length).map fun (i : Nat) => (i : ℝ) with ht
  have hl : t.length = x.length := by simp [ht]
  have hu : UniformAxis t (1 : ℝ) := by
    refine ⟨one_pos, fun i hi => ?_⟩
    rw [ht, getD_map_range (fun (i : Nat) => (i : ℝ)) _ _ 0 (by omega), getD_map_range (fun (i : Nat) => (i : ℝ)) _ _ 0 (by omega)]
    push_cast; ring
  obtain ⟨s, _, _, _, e, _⟩ := series_never_fails (isVec_vec t) (isVec_vec x) (by omega) hl hu
  exact ⟨s, t, e, (validSeries_of_init (isVec_vec t) (isVec_vec x) (by omega) hl hu e).1⟩

/-- 27 samples of a sinusoid with period 9 (three waves): the reported energy period is 4.5. -/
example : ∃ s t sp, SeriesObj.init (vec t) (vec (sinusoid 27 3 1 0)) = .ok s ∧ s.getSpectrumRaw 0 = .ok sp ∧
    (sp.getTmm10 (-1) (.fin (-1))).1 = .ok (9 / 2) := by
  obtain ⟨s, t, e, hv⟩ := series_of_record (sinusoid 27 3 1 0) (by simp [sinusoid])
  obtain ⟨sp, H, h1, -, h2, -⟩ := sinusoid_parity (by norm_num) (by norm_num) one_ne_zero hv
  refine ⟨s, t, sp, e, h1, ?_⟩
  rw [(h2 (by decide)).2]
  norm_num

/-! ## Concrete cases: the hypotheses of the theorems above are met -/

/-- A record of three samples with mean zero, and a sinusoid of three periods. -/
example : ∃ s t s' t', SeriesObj.init (vec t) (vec [1, -3, 2]) = .ok s ∧ SeriesObj.init (vec t') (vec (sinusoid 27 3 1 0)) = .ok s' ∧
    (∃ sp H, s.getSpectrumRaw 0 = .ok sp ∧ (sp.getHm0 (-1) (.fin (-1))).1 = .ok H ∧ H ^ 2 ≤ 64 / 3 * variance [1, -3, 2]) ∧
    (∑ k ∈ range (3 / 2 + 1), rawBin [1, -3, 2] 1 k * (1 / ((3 : ℕ) * 1)) = 14 / 3) ∧
    (∃ sp, s'.getSpectrumRaw 0 = .ok sp ∧ (sp.getTp (-1) (.fin (-1))).1 = .ok ((27 : ℕ) * 1 / (3 : ℕ))) := by
  obtain ⟨s, t, e, hv⟩ := series_of_record [1, -3, 2] (by simp)
  obtain ⟨s', t', e', hv'⟩ := series_of_record (sinusoid 27 3 1 0) (by simp [sinusoid])
  obtain ⟨-, -, -, -, -, -⟩ := raw_hm0_exact hv
  obtain ⟨-, -, -, -, -, -⟩ := raw_hm0_bounds hv
  obtain ⟨sp, H, h1, h2, -, h3⟩ := raw_hm0_std hv (by norm_num) (by decide)
  obtain ⟨sp', H', k1, -, -, -, k2, -⟩ := sinusoid_parameters (by norm_num) (by norm_num) one_ne_zero hv'
  refine ⟨s, t, s', t', e, e', ⟨sp, H, h1, h2, h3⟩, (raw_energy hv).trans ?_, sp', k1, k2⟩
  rw [if_neg (by decide)]
  norm_num

end Verif
