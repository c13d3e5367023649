import Verif.Props.Welch
import Verif.Props.Mixture

/-! # C150: the Welch spectrum of a regular wave

A regular wave (plus a constant level) whose period divides the segment length exactly: the Hann window spreads its line over exactly
three bins, in the proportion 1 : 4 : 1, whatever the length of the record, the overlap and the phase. -/

set_option linter.unusedSectionVars false

namespace Verif
open Finset

/-- `L` samples of a constant level `c` plus a wave of amplitude `a` that fits `p` times in `N` samples. -/
noncomputable def longWave (L N p : Nat) (c a φ : ℝ) : List ℝ :=
  (List.range L).map fun (j : Nat) => c + a * Real.cos (2 * Real.pi * (p * j) / N + φ)

theorem longWave_length (L N p : Nat) (c a φ : ℝ) : (longWave L N p c a φ).length = L := by simp [longWave]

theorem longWave_getD {L : Nat} (N p : Nat) (c a φ : ℝ) {j : Nat} (hj : j < L) :
    (longWave L N p c a φ).getD j 0 = c + a * Real.cos (2 * Real.pi * (p * j) / N + φ) := by
  unfold longWave
  rw [getD_map_range (fun (j : Nat) => c + a * Real.cos (2 * Real.pi * (p * j) / N + φ)) _ j 0 hj]

/-- The mean of a mixture is its constant. -/
theorem mixture_mean {N : Nat} (c : ℝ) {cs : List Comp} (hcs : ∀ q ∈ cs, 0 < q.p ∧ 2 * q.p < N) (hN : 0 < N) : mean (mixture N c cs) = c := by
  have h1 := coef_mixture c hcs hN (k := 0) (by omega)
  rw [coef_zero, if_pos rfl] at h1
  have h2 : (cs.map fun q => if 0 = q.p then (N : ℂ) * (q.a / 2) * Complex.exp (q.φ * Complex.I) else 0).sum = 0 := by
    apply List.sum_eq_zero
    intro v hv
    obtain ⟨q, hq, rfl⟩ := List.mem_map.1 hv
    rw [if_neg (by have := (hcs q hq).1; omega)]
  rw [h2, add_zero] at h1
  have h3 : (mixture N c cs).sum = N * c := by exact_mod_cast h1
  have hN' : (N : ℝ) ≠ 0 := by exact_mod_cast hN.ne'
  unfold mean
  rw [mixture_length, h3]
  field_simp

/-- Segment `i` of the wave: the same wave, with another phase. -/
theorem segment_longWave {L N p i : Nat} {v : Int} (c a φ : ℝ) (hN : N ≤ L) (hi : i < nSegments L N v) :
    segment (longWave L N p c a φ) N v i = mixture N c [⟨p, a, φ + 2 * Real.pi * (p * (i * ((N : Int) - v).toNat : ℕ)) / N⟩] := by
  have hl := longWave_length L N p c a φ
  obtain ⟨h1, h2⟩ := segment_length (x := longWave L N p c a φ) (nps := N) (nov := v) (i := i) (by omega) (by rw [hl]; exact hi)
  rw [hl] at h2
  refine List.ext_getElem (by rw [h1, mixture_length]) fun j hj hj' => ?_
  rw [h1] at hj
  have e1 : (segment (longWave L N p c a φ) N v i).getD j 0 = (longWave L N p c a φ).getD (i * ((N : Int) - v).toNat + j) 0 := by
    unfold segment
    rw [pySlice_eq _ 0 (by rw [hl]; exact h2), getD_map_range (fun j => (longWave L N p c a φ).getD (i * ((N : Int) - v).toNat + j) 0) _ j 0 (by omega)]
  have e2 := mixture_getD c [⟨p, a, φ + 2 * Real.pi * (p * (i * ((N : Int) - v).toNat : ℕ)) / N⟩] hj
  rw [List.getD, List.getElem?_eq_getElem (by rw [h1]; exact hj), Option.getD_some] at e1
  rw [List.getD, List.getElem?_eq_getElem hj', Option.getD_some] at e2
  rw [e1, e2, longWave_getD N p c a φ (by omega)]
  simp only [List.map_cons, List.map_nil, List.sum_cons, List.sum_nil, add_zero]
  congr 3
  push_cast
  ring

theorem hann_getD {N j : Nat} (hN : 2 ≤ N) (hj : j < N) : (hann N).getD j 0 = 1 / 2 - 1 / 2 * Real.cos (2 * Real.pi * j / N) := by
  unfold hann
  rw [if_neg (by omega), getD_map_range (fun (j : Nat) => 1 / 2 - 1 / 2 * Real.cos (2 * Real.pi * j / N)) _ j 0 hj]

/-- The mean square of the Hann window is 3/8. -/
theorem hann_energy {N : Nat} (hN : 5 ≤ N) : ∑ j ∈ range N, (hann N).getD j 0 ^ 2 = 3 / 8 * N := by
  have hm := mixture_mean (N := N) (3 / 8) (cs := [⟨1, -1 / 2, 0⟩, ⟨2, 1 / 8, 0⟩]) (by
    intro q hq
    simp only [List.mem_cons, List.not_mem_nil, or_false] at hq
    rcases hq with rfl | rfl <;> simp <;> omega) (by omega)
  unfold mean at hm
  rw [mixture_length] at hm
  have hN' : (N : ℝ) ≠ 0 := by exact_mod_cast (by omega : N ≠ 0)
  rw [div_eq_iff hN'] at hm
  rw [← hm]
  unfold mixture
  rw [list_sum_map_range]
  refine sum_congr rfl fun j hj => ?_
  rw [hann_getD (by omega) (mem_range.1 hj)]
  simp only [List.map_cons, List.map_nil, List.sum_cons, List.sum_nil, add_zero]
  have e1 : 2 * Real.pi * ((1 : ℕ) * (j : ℝ)) / N = 2 * Real.pi * j / N := by push_cast; ring
  have e2 : 2 * Real.pi * ((2 : ℕ) * (j : ℝ)) / N = 2 * (2 * Real.pi * j / N) := by push_cast; ring
  rw [e1, e2, Real.cos_two_mul]
  ring

/-- The tapered segment of a wave consists of three waves. -/
theorem tapered_hann {N p : Nat} (c a φ : ℝ) (hp : 2 ≤ p) (hpN : 2 * (p + 1) < N) {j : Nat} (hj : j < N) :
    tapered (hann N) (mixture N c [⟨p, a, φ⟩]) j =
      (mixture N 0 [⟨p - 1, -a / 4, φ⟩, ⟨p, a / 2, φ⟩, ⟨p + 1, -a / 4, φ⟩]).getD j 0 := by
  have hN : 0 < N := by omega
  unfold tapered
  rw [mixture_length, if_pos hj, mixture_mean c (by intro q hq; simp only [List.mem_singleton] at hq; subst hq; simp only; omega) hN,
    hann_getD (by omega) hj, mixture_getD _ _ hj, mixture_getD _ _ hj]
  simp only [List.map_cons, List.map_nil, List.sum_cons, List.sum_nil, add_zero, zero_add]
  set θ := 2 * Real.pi * (p * (j : ℝ)) / N + φ with hθ
  set η := 2 * Real.pi * (j : ℝ) / N with hη
  have e1 : 2 * Real.pi * (((p - 1 : ℕ) : ℝ) * j) / N + φ = θ - η := by
    rw [hθ, hη, Nat.cast_sub (by omega)]; push_cast; ring
  have e2 : 2 * Real.pi * (((p + 1 : ℕ) : ℝ) * j) / N + φ = θ + η := by
    rw [hθ, hη]; push_cast; ring
  rw [e1, e2, Real.cos_sub θ η, Real.cos_add θ η]
  clear_value θ η
  ring

theorem normSq_line (N : Nat) (b φ : ℝ) : Complex.normSq ((N : ℂ) * (b / 2) * Complex.exp (φ * Complex.I)) = (N * b) ^ 2 / 4 := by
  rw [map_mul, Complex.normSq_eq_norm_sq (Complex.exp _), Complex.norm_exp_ofReal_mul_I]
  have : ((N : ℂ) * (b / 2)) = (((N : ℝ) * (b / 2) : ℝ) : ℂ) := by push_cast; ring
  rw [this, Complex.normSq_ofReal]
  ring

/-- The lines of the tapered wave. -/
theorem tapered_lines {N p k : Nat} (c a φ : ℝ) (hp : 2 ≤ p) (hpN : 2 * (p + 1) < N) (hk : k ≤ N / 2) :
    Complex.normSq (fwd N (fun j => ((tapered (hann N) (mixture N c [⟨p, a, φ⟩]) j : ℝ) : ℂ)) k) =
      if k = p then (N * a) ^ 2 / 16 else if k + 1 = p ∨ k = p + 1 then (N * a) ^ 2 / 64 else 0 := by
  have e : fwd N (fun j => ((tapered (hann N) (mixture N c [⟨p, a, φ⟩]) j : ℝ) : ℂ)) k =
      coef (mixture N 0 [⟨p - 1, -a / 4, φ⟩, ⟨p, a / 2, φ⟩, ⟨p + 1, -a / 4, φ⟩]) k := by
    unfold coef
    rw [mixture_length]
    exact fwd_congr (x := fun j => ((tapered (hann N) (mixture N c [⟨p, a, φ⟩]) j : ℝ) : ℂ))
      (y := fun j => (((mixture N 0 [⟨p - 1, -a / 4, φ⟩, ⟨p, a / 2, φ⟩, ⟨p + 1, -a / 4, φ⟩]).getD j 0 : ℝ) : ℂ))
      (fun j hj => by rw [tapered_hann c a φ hp hpN hj]) k
  rw [e, coef_mixture 0 (by
    intro q hq
    simp only [List.mem_cons, List.not_mem_nil, or_false] at hq
    rcases hq with rfl | rfl | rfl <;> simp only <;> omega) (by omega) hk]
  simp only [List.map_cons, List.map_nil, List.sum_cons, List.sum_nil, add_zero, Complex.ofReal_zero, mul_zero, ite_self, zero_add]
  rcases (by omega : k = p ∨ k + 1 = p ∨ k = p + 1 ∨ (k ≠ p ∧ k + 1 ≠ p ∧ k ≠ p + 1)) with h | h | h | ⟨h1, h2, h3⟩
  · rw [if_pos h, if_pos h, if_neg (by omega), if_neg (by omega), zero_add, add_zero, normSq_line]
    ring
  · rw [if_neg (by omega : ¬ k = p), if_neg (by omega : ¬ k = p), if_pos (by omega), if_neg (by omega), if_pos (Or.inl h), add_zero, add_zero, normSq_line]
    ring
  · rw [if_neg (by omega : ¬ k = p), if_neg (by omega : ¬ k = p), if_neg (by omega), if_pos (by omega), if_pos (Or.inr h), zero_add, zero_add, normSq_line]
    ring
  · rw [if_neg h1, if_neg h1, if_neg (by omega), if_neg h3, if_neg (by tauto)]
    simp

theorem mean_const {n : Nat} (hn : 0 < n) {g : Nat → ℝ} {v : ℝ} (h : ∀ i < n, g i = v) : mean ((List.range n).map g) = v := by
  have e : (List.range n).map g = List.replicate n v :=
    List.ext_getElem (by simp) fun i h1 h2 => by simp at h1; simp [h i h1]
  have hn' : (n : ℝ) ≠ 0 := by exact_mod_cast hn.ne'
  unfold mean
  rw [e, List.sum_replicate, List.length_replicate, nsmul_eq_mul]
  field_simp

/-- The densities of the Welch spectrum of a wave of amplitude `a` in bin `p` of `N`. -/
def ThreeLines (N p : Nat) (dt a : ℝ) (f S : List ℝ) : Prop :=
  f = (List.range (N / 2 + 1)).map (fun (k : Nat) => (k : ℝ) / (N * dt)) ∧ S.length = N / 2 + 1 ∧
  ∀ k < N / 2 + 1, S.getD k 0 = if k = p then a ^ 2 / 3 * (N * dt) else if k + 1 = p ∨ k = p + 1 then a ^ 2 / 12 * (N * dt) else 0

/-- The Welch spectrum of a regular wave. -/
theorem welch_lines {L N p : Nat} {v : Int} {c a φ dt : ℝ} {f S : List ℝ} (hp : 2 ≤ p) (hpN : 2 * (p + 1) < N) (hL : N ≤ L)
    (h : IsWelch (longWave L N p c a φ) dt (hann N) N v N f S) : ThreeLines N p dt a f S := by
  refine ⟨h.freq, h.len, fun k hk => ?_⟩
  have hN : (0 : ℝ) < N := by exact_mod_cast (by omega : 0 < N)
  rw [h.dens k hk]
  refine mean_const (by unfold nSegments; exact Nat.succ_pos _) fun i hi => ?_
  rw [longWave_length] at hi
  rw [segment_longWave c a φ hL hi, tapered_lines c a _ hp hpN (by omega), hann_energy (by omega)]
  rcases (by omega : k = p ∨ (k ≠ p ∧ (k + 1 = p ∨ k = p + 1)) ∨ (k ≠ p ∧ ¬ (k + 1 = p ∨ k = p + 1))) with h1 | ⟨h1, h2⟩ | ⟨h1, h2⟩
  · rw [if_neg (by omega : ¬ k = 0), if_neg (by omega : ¬ (N % 2 = 0 ∧ k = N / 2)), if_pos h1, if_pos h1]
    field_simp
    ring
  · rw [if_neg (by omega : ¬ k = 0), if_neg (by omega : ¬ (N % 2 = 0 ∧ k = N / 2)), if_neg h1, if_neg h1, if_pos h2, if_pos h2]
    field_simp
    ring
  · rw [if_neg h1, if_neg h1, if_neg h2, if_neg h2]
    simp

/-- Wave parameters of a spectrum of three lines. -/
theorem three_lines_parameters {N p : Nat} {dt a : ℝ} {f S : List ℝ} (hp : 2 ≤ p) (hpN : 2 * (p + 1) < N) (hdt : 0 < dt) (ha : a ≠ 0)
    (h : ThreeLines N p dt a f S) {sp : SpecObj} (hsp : SpecObj.init (vec f) (vec S) = .ok sp) :
    S.sum * (1 / (N * dt)) = a ^ 2 / 2 ∧ (sp.getTp (-1) (.fin (-1))).1 = .ok (N * dt / p) ∧
      (∀ m : Nat, computeMoment (vec f) (vec S) m (f.getD 0 0) (.fin (f.getD (f.length - 1) 0)) =
        .ok (simpsonWeight ℝ (N / 2 + 1) (p - 1) * (((p - 1) / (N * dt)) ^ m * (a ^ 2 / 12)) +
          simpsonWeight ℝ (N / 2 + 1) p * ((p / (N * dt)) ^ m * (a ^ 2 / 3)) +
          simpsonWeight ℝ (N / 2 + 1) (p + 1) * (((p + 1) / (N * dt)) ^ m * (a ^ 2 / 12)))) := by
  obtain ⟨hF, hl, hS⟩ := h
  have hN : (0 : ℝ) < N := by exact_mod_cast (by omega : 0 < N)
  have hp' : (0 : ℝ) < p := by exact_mod_cast (by omega : 0 < p)
  have hFl : f.length = N / 2 + 1 := by simp [hF]
  have hFg : ∀ k, k < N / 2 + 1 → f.getD k 0 = (k : ℝ) / (N * dt) := fun k hk => by
    rw [hF, getD_map_range (fun (k : Nat) => (k : ℝ) / (N * dt)) _ k 0 hk]
  have hF0 : f.getD 0 0 = 0 := by rw [hFg 0 (by omega)]; simp
  have hu : UniformAxis f (1 / (N * dt)) := by rw [hF]; exact freq_uniform (by omega) hdt
  have hsum : ∀ g : Nat → ℝ, ∑ k ∈ range (N / 2 + 1), g k * S.getD k 0 =
      g (p - 1) * (a ^ 2 / 12 * (N * dt)) + g p * (a ^ 2 / 3 * (N * dt)) + g (p + 1) * (a ^ 2 / 12 * (N * dt)) := by
    intro g
    have e : ∀ k ∈ range (N / 2 + 1), g k * S.getD k 0 = (if k = p - 1 then g k * (a ^ 2 / 12 * (N * dt)) else 0) +
        (if k = p then g k * (a ^ 2 / 3 * (N * dt)) else 0) + (if k = p + 1 then g k * (a ^ 2 / 12 * (N * dt)) else 0) := by
      intro k hk
      rw [hS k (mem_range.1 hk)]
      rcases (by omega : k = p ∨ k + 1 = p ∨ k = p + 1 ∨ (k ≠ p ∧ k + 1 ≠ p ∧ k ≠ p + 1)) with h1 | h1 | h1 | ⟨h1, h2, h3⟩
      · rw [if_pos h1, if_neg (by omega : ¬ k = p - 1), if_pos h1, if_neg (by omega : ¬ k = p + 1)]; ring
      · rw [if_neg (by omega : ¬ k = p), if_pos (Or.inl h1), if_pos (by omega : k = p - 1), if_neg (by omega : ¬ k = p), if_neg (by omega : ¬ k = p + 1)]; ring
      · rw [if_neg (by omega : ¬ k = p), if_pos (Or.inr h1), if_neg (by omega : ¬ k = p - 1), if_neg (by omega : ¬ k = p), if_pos h1]; ring
      · rw [if_neg h1, if_neg (by tauto), if_neg (by omega : ¬ k = p - 1), if_neg h1, if_neg h3]; ring
    rw [sum_congr rfl e, sum_add_distrib, sum_add_distrib, sum_ite_eq', sum_ite_eq', sum_ite_eq',
      if_pos (mem_range.2 (by omega)), if_pos (mem_range.2 (by omega)), if_pos (mem_range.2 (by omega))]
  have hfp : f.getD p 0 = p / (N * dt) := hFg p (by omega)
  have ha2 : 0 < a ^ 2 := by positivity
  refine ⟨?_, ?_, fun m => ?_⟩
  · have := hsum fun _ => 1
    simp only [one_mul] at this
    rw [list_sum_getD, hl, this]
    field_simp
    ring
  · refine get_Tp_complete (isArr_vec f) (isArr_vec S) hsp ?_
    have hin : InRange f (-1) (.fin (-1)) p := ⟨by omega, Or.inl rfl, Or.inl rfl⟩
    refine ⟨p, hin, by rw [hfp]; positivity, by rw [hfp, one_div_div], fun l hlr => ?_⟩
    have hll : l < N / 2 + 1 := by have := hlr.1; omega
    have hND : 0 < N * dt := by positivity
    rw [hS l hll, hS p (by omega), if_pos rfl]
    have hle : a ^ 2 / 12 * (N * dt) < a ^ 2 / 3 * (N * dt) := by
      apply mul_lt_mul_of_pos_right _ hND; linarith
    have h0 : 0 < a ^ 2 / 3 * (N * dt) := by positivity
    refine ⟨?_, fun hlt => ?_⟩
    · split_ifs
      · rfl
      · exact hle.le
      · exact h0.le
    · rw [if_neg (by omega)]
      split_ifs
      · exact hle
      · exact h0
  · have e := full_range_moment hu (by omega) (by omega : f.length = S.length) hF0.ge (m : Int)
    have hd : firstUsable f (m : Int) = 0 := by unfold firstUsable; rw [if_neg (by omega)]
    rw [hd] at e
    simp only [Nat.sub_zero, zero_add, zpow_natCast] at e
    have e' := hsum fun k => simpsonWeight ℝ (N / 2 + 1) k * f.getD k 0 ^ m
    rw [show (vec S : PyIn ℝ) = .nd ⟨[S.length], S⟩ from rfl, e, hFl]
    have e3 : ∑ k ∈ range (N / 2 + 1), simpsonWeight ℝ (N / 2 + 1) k * (f.getD k 0 ^ m * S.getD k 0) =
        ∑ k ∈ range (N / 2 + 1), simpsonWeight ℝ (N / 2 + 1) k * f.getD k 0 ^ m * S.getD k 0 := sum_congr rfl fun k _ => by ring
    rw [e3, e', hFg (p - 1) (by omega), hFg p (by omega), hFg (p + 1) (by omega), Nat.cast_sub (by omega)]
    congr 1
    push_cast
    field_simp

/-! ## The objects -/

/-- The spectrum a series returns is a newly constructed `Spectrum`. -/
theorem getSpectrum_init {s : SeriesObj ℝ} {nps nov nfft : Int} {window : String} {df : ℝ} {b : Bool} {sp : SpecObj}
    (h : s.getSpectrum nps nov nfft window df b = .ok sp) : ∃ f S : List ℝ, SpecObj.init (vec f) (vec S) = .ok sp := by
  unfold SeriesObj.getSpectrum at h
  obtain ⟨x, -, h⟩ := bind_ok.1 h
  split_ifs at h
  · obtain ⟨⟨f, S⟩, -, h⟩ := bind_ok.1 h
    exact ⟨f, S, h⟩
  · obtain ⟨⟨f, S⟩, -, h⟩ := bind_ok.1 h
    exact ⟨f, S, h⟩

/-- What the densities, `Hm0`, `Tp` and `Tm01` of a Welch spectrum of a regular wave are. -/
structure WelchWave (sp : SpecObj) (N p : Nat) (dt a : ℝ) : Prop where
  /-- the densities: three lines -/
  lines : ∃ S, sp.sVarDens = arr1 S ∧ ThreeLines N p dt a sp.f S ∧ S.sum * (1 / (N * dt)) = a ^ 2 / 2
  /-- the peak period is the period of the wave -/
  peak : (sp.getTp (-1) (.fin (-1))).1 = .ok (N * dt / p)
  /-- the spectral moments weigh the three lines by the weights of Simpson's rule -/
  height : ∃ H, (sp.getHm0 (-1) (.fin (-1))).1 = .ok H ∧ 0 < H ∧
    H ^ 2 = 16 * (simpsonWeight ℝ (N / 2 + 1) p * (a ^ 2 / 3) +
      (simpsonWeight ℝ (N / 2 + 1) (p - 1) + simpsonWeight ℝ (N / 2 + 1) (p + 1)) * (a ^ 2 / 12))
  /-- away from the ends of the axis: 10/9 of the energy for odd bins, 8/9 for even ones, and exact mean periods -/
  interior : 2 * p + 10 < N →
    (sp.getTm01 (-1) (.fin (-1))).1 = .ok (N * dt / p) ∧
    (∀ H, (sp.getHm0 (-1) (.fin (-1))).1 = .ok H → (Odd p → H ^ 2 = 10 / 9 * (16 * (a ^ 2 / 2))) ∧ (Even p → H ^ 2 = 8 / 9 * (16 * (a ^ 2 / 2))))

theorem simpsonWeight_interior {N k : Nat} (h1 : 1 ≤ k) (h2 : 2 * k + 8 < N) : simpsonWeight ℝ (N / 2 + 1) k = if k % 2 = 1 then 4 / 3 else 2 / 3 := by
  unfold simpsonWeight
  rw [if_neg (by omega), if_neg (by omega), if_neg (by omega), if_neg (by omega), if_neg (by omega), if_neg (by omega)]

theorem welchWave_of_lines {N p : Nat} {dt a : ℝ} {S : List ℝ} {sp : SpecObj} (hp : 2 ≤ p) (hpN : 2 * (p + 1) < N) (hdt : 0 < dt) (ha : a ≠ 0)
    (hS : sp.sVarDens = arr1 S) (h : ThreeLines N p dt a sp.f S) (hi : ∃ f S : List ℝ, SpecObj.init (vec f) (vec S) = .ok sp) :
    WelchWave sp N p dt a := by
  obtain ⟨f, S', hi⟩ := hi
  have hi' := (spectrum_init_iff_partial (isArr_vec f) (isArr_vec S')).1 hi
  have e1 : sp.f = f := by rw [hi'.2.2]
  have e2 : S' = S := by
    have : sp.sVarDens = arr1 S' := by rw [hi'.2.2]; rfl
    rw [this] at hS
    exact congrArg Arr.data hS
  rw [e1] at h
  subst e2
  obtain ⟨k1, k2, k3⟩ := three_lines_parameters hp hpN hdt ha h hi
  have hNp : (0 : ℝ) < N * dt := mul_pos (by exact_mod_cast (by omega : 0 < N)) hdt
  have hp' : (0 : ℝ) < p := by exact_mod_cast (by omega : 0 < p)
  have hpos : ∀ k, 0 < simpsonWeight ℝ (N / 2 + 1) k := fun k => by
    have := (simpsonWeight_bounds (K := ℝ) (by omega : 2 ≤ N / 2 + 1) k).1; linarith
  have ha2 : 0 < a ^ 2 := by positivity
  have m0 := k3 0
  have m1 := k3 1
  simp only [pow_zero, pow_one, one_mul] at m0 m1
  have q1 := hpos (p - 1)
  have q2 := hpos p
  have q3 := hpos (p + 1)
  set w1 := simpsonWeight ℝ (N / 2 + 1) (p - 1) with hw1
  set w2 := simpsonWeight ℝ (N / 2 + 1) p with hw2
  set w3 := simpsonWeight ℝ (N / 2 + 1) (p + 1) with hw3
  have hv : 0 < w1 * (a ^ 2 / 12) + w2 * (a ^ 2 / 3) + w3 * (a ^ 2 / 12) := by positivity
  have hH : (sp.getHm0 (-1) (.fin (-1))).1 = .ok (4 * √(w1 * (a ^ 2 / 12) + w2 * (a ^ 2 / 3) + w3 * (a ^ 2 / 12))) := by
    rw [hi'.2.2]
    show calcHm0 f ⟨[S'.length], S'⟩ (-1) (.fin (-1)) = _
    unfold calcHm0
    rw [getD_default_limits]
    dsimp only
    rw [show (PyIn.nd ⟨[S'.length], S'⟩ : PyIn ℝ) = vec S' from rfl]
    have m0' : computeMoment (vec f) (vec S') 0 (f.getD 0 0) (.fin (f.getD (f.length - 1) 0)) = _ := m0
    rw [m0']
    exact height_def hv.le
  have hH2 : (4 * √(w1 * (a ^ 2 / 12) + w2 * (a ^ 2 / 3) + w3 * (a ^ 2 / 12))) ^ 2 = 16 * (w2 * (a ^ 2 / 3) + (w1 + w3) * (a ^ 2 / 12)) := by
    rw [mul_pow, Real.sq_sqrt hv.le]; ring
  refine ⟨⟨S', by rw [hi'.2.2]; rfl, by rw [e1]; exact h, k1⟩, k2, ⟨_, hH, by positivity, hH2⟩, fun hin => ⟨?_, fun H hHH => ?_⟩⟩
  · rw [hi'.2.2]
    show calcTm01 f ⟨[S'.length], S'⟩ (-1) (.fin (-1)) = _
    unfold calcTm01
    rw [getD_default_limits]
    dsimp only
    rw [show (PyIn.nd ⟨[S'.length], S'⟩ : PyIn ℝ) = vec S' from rfl]
    have m0' : computeMoment (vec f) (vec S') 0 (f.getD 0 0) (.fin (f.getD (f.length - 1) 0)) = _ := m0
    have m1' : computeMoment (vec f) (vec S') 1 (f.getD 0 0) (.fin (f.getD (f.length - 1) 0)) = _ := m1
    have heq : w1 = w3 := by
      rw [hw1, hw3, simpsonWeight_interior (by omega) (by omega), simpsonWeight_interior (by omega) (by omega),
        show (p - 1) % 2 = (p + 1) % 2 by omega]
    rw [m0', m1']
    have e : w1 * ((p - 1) / (N * dt) * (a ^ 2 / 12)) + w2 * (p / (N * dt) * (a ^ 2 / 3)) + w3 * ((p + 1) / (N * dt) * (a ^ 2 / 12)) =
        p / (N * dt) * (w1 * (a ^ 2 / 12) + w2 * (a ^ 2 / 3) + w3 * (a ^ 2 / 12)) := by
      rw [← heq]; field_simp; ring
    rw [e]
    set v := w1 * (a ^ 2 / 12) + w2 * (a ^ 2 / 3) + w3 * (a ^ 2 / 12) with hvd
    clear_value v
    simp only [bind, Except.bind, divE]
    rw [if_neg (by positivity)]
    congr 1
    field_simp
  · rw [hH] at hHH
    have := Except.ok.inj hHH
    subst this
    rw [hH2]
    refine ⟨fun ho => ?_, fun he => ?_⟩
    · have ho := Nat.odd_iff.1 ho
      rw [hw1, hw2, hw3, simpsonWeight_interior (by omega) (by omega), simpsonWeight_interior (by omega) (by omega),
        simpsonWeight_interior (by omega) (by omega), if_pos ho, if_neg (by omega), if_neg (by omega)]
      ring
    · have he := Nat.even_iff.1 he
      rw [hw1, hw2, hw3, simpsonWeight_interior (by omega) (by omega), simpsonWeight_interior (by omega) (by omega),
        simpsonWeight_interior (by omega) (by omega), if_neg (by omega : ¬ p % 2 = 1), if_pos (by omega), if_pos (by omega)]
      ring

/-- **C150 (explicit segment length).**  `get_spectrum` with the Hann window, a segment of `N` samples and any overlap, of a record of any length
`L ≥ N` of a regular wave around any level that fits `p` times in a segment. -/
theorem welch_wave_explicit {pt px : PyIn ℝ} {t : List ℝ} {L N p : Nat} {nov : Int} {c a φ dt : ℝ} (hp : 2 ≤ p) (hpN : 2 * (p + 1) < N) (hL : N ≤ L)
    (ha : a ≠ 0) (ht : pt.IsVec t) (hx : px.IsVec (longWave L N p c a φ)) (hlen : t.length = L) (hu : UniformAxis t dt) (hnov : nov < N) (df : ℝ) :
    ∃ s sp, SeriesObj.init pt px = .ok s ∧ s.getSpectrum N nov 0 "hann" df false = .ok sp ∧ WelchWave sp N p dt a := by
  have hxl := longWave_length L N p c a φ
  obtain ⟨s, sp, S, h1, h2, h3, h4⟩ := get_spectrum_explicit ht hx (by omega) (by omega) hu (nps := N) (nov := nov) (nfft := 0) (N := N) (M := N)
    (v := if nov = 0 then ((N / 2 : Nat) : Int) else nov) (w := hann N) (window := "hann") (by rw [if_neg (by omega), hxl, Nat.min_eq_left hL]) (by rw [if_pos rfl]) rfl
    (by omega) (by omega) le_rfl (by split_ifs <;> omega) (by unfold getWindow; rw [if_pos rfl]) df
  refine ⟨s, sp, h1, h2, welchWave_of_lines hp hpN hu.1 ha h3 (welch_lines hp hpN hL h4) (getSpectrum_init h2)⟩

/-- **C150 (desired resolution).**  The same for `get_spectrum` at a desired resolution that makes the segments `N` samples long. -/
theorem welch_wave_resolution {pt px : PyIn ℝ} {t : List ℝ} {L N p : Nat} {c a φ dt df : ℝ} (hp : 2 ≤ p) (hpN : 2 * (p + 1) < N) (hL : N ≤ L)
    (ha : a ≠ 0) (ht : pt.IsVec t) (hx : px.IsVec (longWave L N p c a φ)) (hlen : t.length = L) (hu : UniformAxis t dt) (hdf : 0 < df)
    (hN : roundHalfEven (1 / dt / df) = N) (nps nov : Int) :
    ∃ s sp, SeriesObj.init pt px = .ok s ∧ s.getSpectrum nps nov 0 "hann" df true = .ok sp ∧ WelchWave sp N p dt a := by
  have hxl := longWave_length L N p c a φ
  obtain ⟨s, sp, S, v, h1, h2, h3, h4, -⟩ := get_spectrum_resolution_partial ht hx (by omega) (by omega) hu hdf hN (by omega) (by omega) nps nov
  exact ⟨s, sp, h1, h2, welchWave_of_lines hp hpN hu.1 ha h3 (welch_lines hp hpN hL h4) (getSpectrum_init h2)⟩

/-- A hundred samples (one per second) of a wave of period 8, in segments of 40 with the default overlap: five waves per segment. -/
example : ∃ s sp, SeriesObj.init (vec ((List.range 100).map fun (i : Nat) => (i : ℝ))) (vec (longWave 100 40 5 2 3 1)) = .ok s ∧
    s.getSpectrum (40 : ℕ) (0 : ℕ) 0 "hann" 0 false = .ok sp ∧ (sp.getTp (-1) (.fin (-1))).1 = .ok 8 ∧
    (sp.getTm01 (-1) (.fin (-1))).1 = .ok 8 ∧ ∃ H, (sp.getHm0 (-1) (.fin (-1))).1 = .ok H ∧ H ^ 2 = 80 := by
  have hu : UniformAxis ((List.range 100).map fun (i : Nat) => (i : ℝ)) (1 : ℝ) := by
    refine ⟨one_pos, fun i hi => ?_⟩
    simp only [List.length_map, List.length_range] at hi
    rw [getD_map_range (fun (i : Nat) => (i : ℝ)) _ _ 0 (by omega), getD_map_range (fun (i : Nat) => (i : ℝ)) _ _ 0 (by omega)]
    push_cast; ring
  obtain ⟨s, sp, h1, h2, h3⟩ := welch_wave_explicit (p := 5) (c := 2) (a := 3) (φ := 1) (N := 40) (L := 100) (nov := 0) (by norm_num) (by norm_num)
    (by norm_num) (by norm_num) (isVec_vec _) (isVec_vec _) (by simp) hu (by norm_num) 0
  obtain ⟨H, k1, -, -⟩ := h3.height
  obtain ⟨k2, k3⟩ := h3.interior (by norm_num)
  refine ⟨s, sp, h1, h2, h3.peak.trans (by norm_num), k2.trans (by norm_num), H, k1, ?_⟩
  rw [(k3 H k1).1 (by decide)]
  norm_num

end Verif
