import Verif.Props.RecordHeight
import Verif.Props.FilterExact

/-! # C105, C106: records made of sinusoids: filtering and spectra -/

set_option linter.unusedSectionVars false

namespace Verif
open Finset

/-! ## Specification -/

/-- A sinusoidal component: number of periods in the record, amplitude, phase. -/
structure Comp where
  p : Nat
  a : ℝ
  φ : ℝ

/-- The record of `N` samples of a constant plus sinusoidal components. -/
noncomputable def mixture (N : Nat) (c : ℝ) (cs : List Comp) : List ℝ :=
  (List.range N).map fun (j : Nat) => c + (cs.map fun q => q.a * Real.cos (2 * Real.pi * (q.p * j) / N + q.φ)).sum

/-- What `bandpassfilter(t, x, flow, fhigh)` lets through (`df` the frequency step, `top` the highest frequency): frequencies from `flow`
on whose *next* grid frequency is below `fhigh`; with `fhigh` at or beyond the highest frequency, everything from `flow` on; nothing if
`flow` is at or beyond the highest frequency. -/
def Passes (df top flow fhigh : ℝ) (p : Nat) : Prop :=
  flow ≤ p * df ∧ flow < top ∧ (top ≤ fhigh ∨ ((p : ℝ) + 1) * df < fhigh)

/-! ## Fourier coefficients of a mixture -/

theorem mixture_length (N : Nat) (c : ℝ) (cs : List Comp) : (mixture N c cs).length = N := by simp [mixture]

theorem mixture_getD {N : Nat} (c : ℝ) (cs : List Comp) {j : Nat} (hj : j < N) :
    (mixture N c cs).getD j 0 = c + (cs.map fun q => q.a * Real.cos (2 * Real.pi * (q.p * j) / N + q.φ)).sum := by
  unfold mixture
  rw [getD_map_range (fun (j : Nat) => c + (cs.map fun q => q.a * Real.cos (2 * Real.pi * (q.p * j) / N + q.φ)).sum) _ j 0 hj]

theorem sinusoid_length (N p : Nat) (a φ : ℝ) : (sinusoid N p a φ).length = N := by simp [sinusoid]

theorem mixture_cons (N : Nat) (c : ℝ) (q : Comp) (cs : List Comp) :
    mixture N c (q :: cs) = lincomb 1 1 (sinusoid N q.p q.a q.φ) (mixture N c cs) := by
  have hl : (sinusoid N q.p q.a q.φ).length = (mixture N c cs).length := by rw [sinusoid_length, mixture_length]
  apply List.ext_getElem
  · rw [lincomb_length 1 1 hl, mixture_length, sinusoid_length]
  · intro j h1 h2
    have hj : j < N := by rw [mixture_length] at h1; exact h1
    rw [← List.getD_eq_getElem _ 0 h1, ← List.getD_eq_getElem _ 0 h2, lincomb_getD 1 1 hl (by rw [sinusoid_length]; exact hj),
      mixture_getD c (q :: cs) hj, mixture_getD c cs hj]
    unfold sinusoid
    rw [getD_map_range (fun (j : Nat) => q.a * Real.cos (2 * Real.pi * (q.p * j) / N + q.φ)) _ j 0 hj]
    simp only [List.map_cons, List.sum_cons]
    ring

theorem coef_mixture {N : Nat} (c : ℝ) : ∀ {cs : List Comp}, (∀ q ∈ cs, 0 < q.p ∧ 2 * q.p < N) → 0 < N → ∀ {k : Nat}, k ≤ N / 2 →
    coef (mixture N c cs) k = (if k = 0 then (N : ℂ) * c else 0) +
      (cs.map fun q => if k = q.p then (N : ℂ) * (q.a / 2) * Complex.exp (q.φ * Complex.I) else 0).sum
  | [], _, hN, k, hk => by
    unfold coef
    rw [mixture_length, fwd_congr (y := fun j => (c : ℂ) * twiddle N ((j : ℤ) * 0)) (by
      intro j hj
      rw [mixture_getD c [] hj]
      simp [twiddle_zero]), fwd_smul]
    have : fwd N (fun j => twiddle N ((j : ℤ) * 0)) k = if k = 0 then (N : ℂ) else 0 := by
      have e := sum_twiddle hN (0 - (k : ℤ))
      have d : ((N : ℤ) ∣ 0 - (k : ℤ)) ↔ k = 0 := by
        rw [zero_sub, Int.dvd_neg]
        constructor
        · intro h
          by_contra hk0
          have := Int.le_of_dvd (by omega) h
          omega
        · rintro rfl; simp
      simp only [d] at e
      rw [← e]
      unfold fwd
      refine sum_congr rfl fun j _ => ?_
      rw [← twiddle_add]; congr 1; ring
    rw [this]
    simp only [List.map_nil, List.sum_nil, add_zero]
    split_ifs
    · ring
    · ring
  | q :: cs, h, hN, k, hk => by
    have hq := h q (List.mem_cons_self ..)
    rw [mixture_cons, coef_lincomb 1 1 (by rw [sinusoid_length, mixture_length]), coef_sinusoid hq.1 hq.2 q.a q.φ hk,
      coef_mixture c (fun r hr => h r (List.mem_cons_of_mem _ hr)) hN hk]
    simp only [List.map_cons, List.sum_cons]
    push_cast
    ring

/-! ## C105: the filter -/

theorem kept_iff_passes {ts : List ℝ} (hm : AcceptedAxis ts) {flow fhigh : ℝ} {p : Nat} (hp2 : p < ts.length / 2 + 1) :
    keptBins ts flow fhigh p ↔ 0 < p ∧ Passes (freqStep ts) (topFreq ts) flow fhigh p := by
  have hdf : 0 < freqStep ts := dfOf_pos hm
  unfold Passes
  rcases le_or_gt (topFreq ts) fhigh with h | h
  · rw [kept_top h hp2]
    constructor
    · rintro ⟨hp, a, b⟩; exact ⟨hp, a, b, Or.inl h⟩
    · rintro ⟨hp, a, b, -⟩; exact ⟨hp, a, b⟩
  · have e := kept_raised (flow := flow) (fhigh := fhigh - freqStep ts) hm (by rw [sub_add_cancel]; exact h) hp2
    rw [sub_add_cancel] at e
    rw [e]
    constructor
    · rintro ⟨hp, a, b⟩
      refine ⟨hp, a, by linarith, Or.inr (by linarith)⟩
    · rintro ⟨hp, a, b, c | c⟩
      · exact absurd h (not_lt.2 c)
      · exact ⟨hp, a, by linarith⟩

open Classical in
theorem sum_filter_bin (P : Nat → Prop) (g : Comp → ℂ) (k : Nat) (cs : List Comp) :
    ((cs.filter fun q => decide (P q.p)).map fun q => if k = q.p then g q else 0).sum =
      if P k then (cs.map fun q => if k = q.p then g q else 0).sum else 0 := by
  induction cs with
  | nil => simp
  | cons q cs ih =>
    rw [List.filter_cons]
    by_cases hq : P q.p
    · rw [if_pos (by simpa using hq), List.map_cons, List.sum_cons, ih, List.map_cons, List.sum_cons]
      by_cases hk : P k
      · rw [if_pos hk, if_pos hk]
      · rw [if_neg hk, if_neg hk, if_neg (by rintro rfl; exact hk hq), add_zero]
    · rw [if_neg (by simpa using hq), ih, List.map_cons, List.sum_cons]
      by_cases hk : P k
      · rw [if_pos hk, if_pos hk, if_neg (by rintro rfl; exact hq hk), zero_add]
      · rw [if_neg hk, if_neg hk]

open Classical in
/-- **C105.**  The filtered record of a constant plus sinusoids (each fitting a whole number of times in the record, below Nyquist) is
exactly the sum of the components that pass: the constant is removed, no component is damped, delayed or leaks. -/
theorem bandpass_mixture {t x : PyIn ℝ} {ts : List ℝ} {N : Nat} {c : ℝ} {cs : List Comp} (ht : t.IsArr ts) (hx : x.IsArr (mixture N c cs))
    (hm : AcceptedAxis ts) (hl : ts.length = N) (hcs : ∀ q ∈ cs, 0 < q.p ∧ 2 * q.p < N) (flow fhigh : ℝ) :
    bandpassfilter t x flow fhigh =
      .ok (mixture N 0 (cs.filter fun q => decide (Passes (freqStep ts) (topFreq ts) flow fhigh q.p))) := by
  have h2 := mono_two_le hm
  rw [bandpassfilter_eq ht hx hm (by rw [mixture_length, hl]) flow fhigh]
  congr 1
  refine eq_of_coef_half (by rw [maskFilt_length, mixture_length, mixture_length]) fun k hk => ?_
  rw [maskFilt_length, mixture_length] at hk
  rw [coef_maskFilt _ _ (by rw [mixture_length]; omega), mixture_length, min_eq_left (by omega),
    coef_mixture c hcs (by omega) hk, coef_mixture 0 (fun q hq => hcs q (List.mem_of_mem_filter hq)) (by omega) hk,
    sum_filter_bin (fun p => Passes (freqStep ts) (topFreq ts) flow fhigh p)
      (fun q => (N : ℂ) * (q.a / 2) * Complex.exp (q.φ * Complex.I)) k cs]
  have hkp := kept_iff_passes (flow := flow) (fhigh := fhigh) (p := k) hm (by omega)
  rcases Nat.eq_zero_or_pos k with rfl | hk0
  · have hz : (cs.map fun q => if 0 = q.p then (N : ℂ) * (q.a / 2) * Complex.exp (q.φ * Complex.I) else 0).sum = 0 := by
      apply List.sum_eq_zero
      intro v hv
      obtain ⟨q, hq, rfl⟩ := List.mem_map.1 hv
      rw [if_neg (by have := (hcs q hq).1; omega)]
    rw [if_neg (by rw [hkp]; omega), hz]
    simp
  · rw [if_neg (show k ≠ 0 by omega), if_neg (show k ≠ 0 by omega), zero_add, zero_add]
    by_cases hP : Passes (freqStep ts) (topFreq ts) flow fhigh k
    · rw [if_pos (hkp.2 ⟨hk0, hP⟩), if_pos hP]
    · rw [if_neg (fun h => hP (hkp.1 h).2), if_neg hP]

/-! ## C106: the spectrum of a mixture -/

/-- The raw spectrum of components in different bins, without mean: each component contributes its own line. -/
theorem rawBin_mixture {N : Nat} {cs : List Comp} (hcs : ∀ q ∈ cs, 0 < q.p ∧ 2 * q.p < N) (hN : 0 < N) (hd : (cs.map Comp.p).Nodup) (dt : ℝ)
    {k : Nat} (hk : k ≤ N / 2) :
    rawBin (mixture N 0 cs) dt k = (cs.map fun q => if k = q.p then q.a ^ 2 / 2 * (N * dt) else 0).sum := by
  have hN' : (N : ℝ) ≠ 0 := by exact_mod_cast hN.ne'
  unfold rawBin
  rw [← coef_eq_sum, coef_mixture 0 hcs hN hk, mixture_length]
  have key : Complex.normSq ((if k = 0 then (N : ℂ) * (0 : ℝ) else 0) +
      (cs.map fun q => if k = q.p then (N : ℂ) * (q.a / 2) * Complex.exp (q.φ * Complex.I) else 0).sum) =
      (cs.map fun q => if k = q.p then (N : ℝ) ^ 2 * (q.a ^ 2 / 4) else 0).sum := by
    have e0 : (if k = 0 then (N : ℂ) * (0 : ℝ) else 0) = 0 := by split_ifs <;> simp
    rw [e0, zero_add]
    clear hcs
    induction cs with
    | nil => simp
    | cons q cs ih =>
      rw [List.map_cons, List.nodup_cons] at hd
      simp only [List.map_cons, List.sum_cons]
      by_cases hq : k = q.p
      · have z : ∀ (β : Type) [AddMonoid β] (g : Comp → β), (cs.map fun q => if k = q.p then g q else 0).sum = 0 := by
          intro β _ g
          apply List.sum_eq_zero
          intro v hv
          obtain ⟨r, hr, rfl⟩ := List.mem_map.1 hv
          rw [if_neg]
          intro e
          exact hd.1 (List.mem_map.2 ⟨r, hr, by rw [← e, hq]⟩)
        rw [z ℂ, z ℝ, if_pos hq, if_pos hq, add_zero, add_zero, Complex.normSq_mul, Complex.normSq_mul, Complex.normSq_natCast,
          show (q.a : ℂ) / 2 = ((q.a / 2 : ℝ) : ℂ) by push_cast; rfl, Complex.normSq_ofReal, Complex.normSq_eq_norm_sq (Complex.exp _),
          Complex.norm_exp_ofReal_mul_I]
        ring
      · rw [if_neg hq, if_neg hq, zero_add, zero_add]
        exact ih hd.2
  rw [key]
  clear key hcs hd
  induction cs with
  | nil => simp
  | cons q cs ih =>
    simp only [List.map_cons, List.sum_cons]
    rw [← ih]
    split_ifs
    · field_simp
      ring
    · ring

/-- Sums over bins of a mixture of lines. -/
theorem sum_lines (n : Nat) (u : Nat → ℝ) (v : Comp → ℝ) {cs : List Comp} (h : ∀ q ∈ cs, q.p < n) :
    ∑ k ∈ range n, u k * (cs.map fun q => if k = q.p then v q else 0).sum = (cs.map fun q => u q.p * v q).sum := by
  induction cs with
  | nil => simp
  | cons q cs ih =>
    simp only [List.map_cons, List.sum_cons, mul_add]
    rw [sum_add_distrib, ih fun r hr => h r (List.mem_cons_of_mem _ hr)]
    congr 1
    rw [sum_eq_single_of_mem q.p (mem_range.2 (h q (List.mem_cons_self ..)))]
    · rw [if_pos rfl]
    · intro k _ hk
      rw [if_neg hk, mul_zero]

/-- **C106.**  For a record made of sinusoids in different bins the moments of non-negative order of the raw spectrum over the whole axis are
`m_n = Σ_i w(N/2+1, p_i) f_i^n a_i²/2`: the phases do not matter, and the wave height is `Hm0² = 16 m_0`. -/
theorem mixture_moments {s : SeriesObj ℝ} {t : List ℝ} {dt : ℝ} {N : Nat} {cs : List Comp} (hcs : ∀ q ∈ cs, 0 < q.p ∧ 2 * q.p < N)
    (hd : (cs.map Comp.p).Nodup) (h : ValidSeries s t (mixture N 0 cs) dt) :
    ∃ sp H, s.getSpectrumRaw 0 = .ok sp ∧
      (∀ m : Nat, computeMoment (vec sp.f) (.nd sp.sVarDens) m (-1) (.fin (-1)) =
        .ok (cs.map fun q => simpsonWeight ℝ (N / 2 + 1) q.p * (((q.p : ℝ) / (N * dt)) ^ m * (q.a ^ 2 / 2))).sum) ∧
      (sp.getHm0 (-1) (.fin (-1))).1 = .ok H ∧
      H ^ 2 = 16 * (cs.map fun q => simpsonWeight ℝ (N / 2 + 1) q.p * (q.a ^ 2 / 2)).sum := by
  have hl := mixture_length N 0 cs
  have hx2 : 2 ≤ N := by have := h.len ▸ h.two; omega
  have hdt := h.axis.1
  have hN : (0 : ℝ) < N := by exact_mod_cast (by omega : 0 < N)
  obtain ⟨sp, H, h1, h2, -, h3⟩ := raw_hm0_exact h
  obtain ⟨F, G, hF, hG, hu, hsp⟩ := raw_object h
  rw [hl] at hF hG hu h3
  rw [h1] at hsp
  have hsp := Except.ok.inj hsp
  subst hsp
  have hFl : F.length = N / 2 + 1 := by simp [hF]
  have hGl : G.length = N / 2 + 1 := by simp [hG]
  have hFg : ∀ k, k < N / 2 + 1 → F.getD k 0 = (k : ℝ) / (N * dt) := fun k hk => by
    rw [hF, getD_map_range (fun (k : Nat) => (k : ℝ) / (N * dt)) _ k 0 hk]
  have hGg : ∀ k, k < N / 2 + 1 → G.getD k 0 = rawBin (mixture N 0 cs) dt k := fun k hk => by
    rw [hG, getD_map_range (rawBin (mixture N 0 cs) dt) _ k 0 hk]
  have hF0 : F.getD 0 0 = 0 := by rw [hFg 0 (by omega)]; simp
  have hlt : ∀ q ∈ cs, q.p < N / 2 + 1 := fun q hq => by have := hcs q hq; omega
  refine ⟨_, H, h1, fun m => ?_, h2, ?_⟩
  · have e := moment_exact_default (m := (m : Int)) (fmax := .fin (-1)) (isArr_vec F) (isArr_vec G) hu (by omega) (by omega) hF0.ge
    rw [if_neg (by omega)] at e
    simp only [Nat.sub_zero, zero_add, zpow_natCast] at e
    refine e.trans ?_
    congr 1
    rw [hFl, mul_sum]
    have : ∀ k ∈ range (N / 2 + 1), 1 / (N * dt) * (simpsonWeight ℝ (N / 2 + 1) k * (F.getD k 0 ^ m * G.getD k 0)) =
        (1 / (N * dt) * simpsonWeight ℝ (N / 2 + 1) k * ((k : ℝ) / (N * dt)) ^ m) *
          (cs.map fun q => if k = q.p then q.a ^ 2 / 2 * (N * dt) else 0).sum := by
      intro k hk
      have hk := mem_range.1 hk
      rw [hFg k hk, hGg k hk, rawBin_mixture hcs (by omega) hd dt (by omega)]
      ring
    rw [sum_congr rfl this, sum_lines (N / 2 + 1) (fun k => 1 / (N * dt) * simpsonWeight ℝ (N / 2 + 1) k * ((k : ℝ) / (N * dt)) ^ m)
      (fun q => q.a ^ 2 / 2 * (N * dt)) hlt]
    congr 1
    refine List.map_congr_left fun q _ => ?_
    field_simp
  · rw [h3]
    congr 1
    have : ∀ k ∈ range (N / 2 + 1), simpsonWeight ℝ (N / 2 + 1) k * rawBin (mixture N 0 cs) dt k * (1 / (N * dt)) =
        (simpsonWeight ℝ (N / 2 + 1) k * (1 / (N * dt))) * (cs.map fun q => if k = q.p then q.a ^ 2 / 2 * (N * dt) else 0).sum := by
      intro k hk
      have hk := mem_range.1 hk
      rw [rawBin_mixture hcs (by omega) hd dt (by omega)]
      ring
    rw [sum_congr rfl this, sum_lines (N / 2 + 1) (fun k => simpsonWeight ℝ (N / 2 + 1) k * (1 / (N * dt)))
      (fun q => q.a ^ 2 / 2 * (N * dt)) hlt]
    congr 1
    refine List.map_congr_left fun q _ => ?_
    field_simp

/-! ## Instances -/

open Classical in
/-- A slow and a fast component plus a mean in a record of 20 samples: the band 0.05 .. 0.2 Hz keeps the slow one only. -/
example : bandpassfilter (vec ((List.range 20).map fun (i : Nat) => (i : ℝ))) (vec (mixture 20 3 [⟨1, 2, 0⟩, ⟨6, 1, 1⟩])) (1 / 20) (1 / 5) =
    .ok (mixture 20 0 [⟨1, 2, 0⟩]) := by
  have hu : UniformAxis ((List.range 20).map fun (i : Nat) => (i : ℝ)) 1 := by
    refine ⟨one_pos, fun i hi => ?_⟩
    simp only [List.length_map, List.length_range] at hi
    rw [getD_map_range (fun (i : Nat) => (i : ℝ)) _ _ 0 hi, getD_map_range (fun (i : Nat) => (i : ℝ)) _ _ 0 (by omega)]
    push_cast; ring
  have hm : AcceptedAxis ((List.range 20).map fun (i : Nat) => (i : ℝ)) := uniform_check_accepts_uniform (by simp) hu
  rw [bandpass_mixture (isArr_vec _) (isArr_vec _) hm (by simp) (by simp)]
  have hstep : freqStep ((List.range 20).map fun (i : Nat) => (i : ℝ)) = 1 / 20 := by
    unfold freqStep
    rw [uniform_first_step (by simp) hu]; norm_num
  have htop : topFreq ((List.range 20).map fun (i : Nat) => (i : ℝ)) = 1 / 2 := by
    unfold topFreq; rw [hstep]; norm_num
  rw [hstep, htop]
  congr 2
  norm_num [Passes, List.filter_cons]

example : ∃ s t, ValidSeries s t (mixture 20 0 [⟨1, 2, 0⟩, ⟨6, 1, 1⟩]) 1 ∧ (([⟨1, 2, 0⟩, ⟨6, 1, 1⟩] : List Comp).map Comp.p).Nodup := by
  obtain ⟨s, t, -, hv⟩ := series_of_record (mixture 20 0 [⟨1, 2, 0⟩, ⟨6, 1, 1⟩]) (by rw [mixture_length]; omega)
  exact ⟨s, t, hv, by decide⟩

/-! ## Concrete cases: the hypotheses of the theorems above are met -/

example : rawBin (mixture 20 0 [⟨1, 2, 0⟩, ⟨6, 1, 1⟩]) 1 6 = 10 := by
  rw [rawBin_mixture (by simp) (by norm_num) (by decide) 1 (by norm_num)]
  norm_num

example : ∃ s t sp H, ValidSeries s t (mixture 20 0 [⟨1, 2, 0⟩, ⟨6, 1, 1⟩]) 1 ∧ s.getSpectrumRaw 0 = .ok sp ∧
    (sp.getHm0 (-1) (.fin (-1))).1 = .ok H ∧
    H ^ 2 = 16 * (([⟨1, 2, 0⟩, ⟨6, 1, 1⟩] : List Comp).map fun q => simpsonWeight ℝ (20 / 2 + 1) q.p * (q.a ^ 2 / 2)).sum := by
  obtain ⟨s, t, -, hv⟩ := series_of_record (mixture 20 0 [⟨1, 2, 0⟩, ⟨6, 1, 1⟩]) (by rw [mixture_length]; omega)
  obtain ⟨sp, H, a, -, b, c⟩ := mixture_moments (by simp) (by decide) hv
  exact ⟨s, t, sp, H, hv, a, b, c⟩

end Verif
