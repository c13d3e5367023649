import Verif.Props.Moments
import Mathlib.Algebra.Order.BigOperators.Ring.Finset

/-! # Cauchy–Schwarz for spectral moments of successive orders -/

set_option linter.unusedSectionVars false

namespace Verif
open Finset

variable {K : Type} [Field K] [LinearOrder K] [IsStrictOrderedRing K]

theorem cs_add {a0 a1 a2 q0 q1 q2 : K} (ha0 : 0 ≤ a0) (ha1 : 0 ≤ a1) (ha2 : 0 ≤ a2) (hq0 : 0 ≤ q0) (hq1 : 0 ≤ q1) (hq2 : 0 ≤ q2)
    (ha : a1 ^ 2 ≤ a0 * a2) (hq : q1 ^ 2 ≤ q0 * q2) : (a1 + q1) ^ 2 ≤ (a0 + q0) * (a2 + q2) := by
  have h1 : (2 * (a1 * q1)) ^ 2 ≤ (a0 * q2 + a2 * q0) ^ 2 := by
    have : (a1 * q1) ^ 2 ≤ (a0 * q2) * (a2 * q0) := by
      calc (a1 * q1) ^ 2 = a1 ^ 2 * q1 ^ 2 := by ring
        _ ≤ (a0 * a2) * (q0 * q2) := mul_le_mul ha hq (sq_nonneg _) (mul_nonneg ha0 ha2)
        _ = _ := by ring
    nlinarith [sq_nonneg (a0 * q2 - a2 * q0)]
  have h2 : 2 * (a1 * q1) ≤ a0 * q2 + a2 * q0 :=
    le_of_sq_le_sq h1 (add_nonneg (mul_nonneg ha0 hq2) (mul_nonneg ha2 hq0))
  nlinarith

/-- `1 / fmax`, zero for an infinite bound. -/
def FMax.recip (fmax : FMax K) : K :=
  match fmax with
  | .fin F => F⁻¹
  | .inf => 0

theorem tail_closed {n : Nat} (hn : 1 ≤ n) {fe c : K} {fmax : FMax K} (hfe : 0 < fe)
    (h : tailMoment (4 - (n : Int)) fe 1 fmax = .ok c) : c = fe ^ 5 * (((fe⁻¹) ^ n - fmax.recip ^ n) / n) := by
  unfold tailMoment at h
  dsimp only at h
  have e : (4 - (n : Int) + -5 + 1) = -(n : Int) := by ring
  rw [e, if_neg (by rintro (h | h); · omega
                    · exact hfe.ne' h)] at h
  have hn' : (n : K) ≠ 0 := by exact_mod_cast (by omega : n ≠ 0)
  cases fmax with
  | fin F =>
    dsimp only at h
    split_ifs at h with h2
    rw [← Except.ok.inj h]
    simp only [FMax.recip, zpow_neg, zpow_natCast, inv_pow]
    have : fe ^ (5 : ℤ) = fe ^ 5 := by norm_cast
    rw [this]
    push_cast
    field_simp
    ring
  | inf =>
    dsimp only at h
    rw [if_pos (by omega)] at h
    rw [← Except.ok.inj h]
    simp only [FMax.recip, zpow_neg, zpow_natCast, inv_pow]
    have : fe ^ (5 : ℤ) = fe ^ 5 := by norm_cast
    rw [this, zero_pow (by omega)]
    push_cast
    field_simp
    ring

theorem recip_le {fe : K} {fmax : FMax K} (hfe : 0 < fe) (h : fmax.above fe) : 0 ≤ fmax.recip ∧ fmax.recip ≤ fe⁻¹ := by
  cases fmax with
  | fin F => exact ⟨inv_nonneg.2 (hfe.le.trans h), inv_anti₀ hfe h⟩
  | inf => exact ⟨le_refl _, (inv_pos.2 hfe).le⟩

theorem cs_tail_a {s r : K} (hr : 0 ≤ r) (hs : r ≤ s) :
    ((s ^ 4 - r ^ 4) / 4) ^ 2 ≤ (s ^ 5 - r ^ 5) / 5 * ((s ^ 3 - r ^ 3) / 3) := by
  have hs0 : 0 ≤ s := hr.trans hs
  have : 0 ≤ (s - r) ^ 4 * (s ^ 4 + 4 * s ^ 3 * r + 10 * s ^ 2 * r ^ 2 + 4 * s * r ^ 3 + r ^ 4) := by
    apply mul_nonneg (by positivity)
    positivity
  nlinarith

theorem cs_tail_b {s r : K} (hr : 0 ≤ r) (hs : r ≤ s) :
    ((s ^ 3 - r ^ 3) / 3) ^ 2 ≤ (s ^ 4 - r ^ 4) / 4 * ((s ^ 2 - r ^ 2) / 2) := by
  have hs0 : 0 ≤ s := hr.trans hs
  have : 0 ≤ (s - r) ^ 4 * (s ^ 2 + 4 * s * r + r ^ 2) := by
    apply mul_nonneg (by positivity)
    positivity
  nlinarith

/-- One set of weights serves all orders that use the whole axis. -/
theorem computeMoment_common_range {f : List K} {h : K} (hu : UniformAxis f h) (hm : monotonicIncreasingConstantStep f = .ok true) (fmin : K) (fmax : FMax K) :
    ∃ (i j : Nat) (t : Bool) (w : Nat → K), MomentRange f 0 fmin fmax i j t ∧ j < f.length ∧ (∀ k, i ≤ k → k ≤ j → 0 ≤ w k) ∧
      (t = true → fmax.above (f.getD (f.length - 1) 0)) ∧
      ∀ m : Int, firstUsable f m = 0 → ∀ {pf pS : PyIn K} {S : List K} {v : K}, pf.IsArr f → pS.IsArr S → f.length = S.length →
        computeMoment pf pS m fmin fmax = .ok v →
        ∃ c, v = ∑ k ∈ Icc i j, w k * (f.getD k 0 ^ m * S.getD k 0) + c * S.getD (f.length - 1) 0 ∧
          (t = false → c = 0) ∧ (t = true → tailMoment m (f.getD (f.length - 1) 0) 1 fmax = .ok c) := by
  obtain ⟨i, j, t, hr, hi, hj, hst⟩ := computeMoment_structure hm 0 fmin fmax
  have h00 : firstUsable f 0 = 0 := by unfold firstUsable; rw [if_neg (by omega)]
  have hsame : ∀ m, firstUsable f m = 0 → MomentRange f m fmin fmax i j t := by
    intro m hm0
    rw [← h00] at hm0
    exact ⟨by rw [hm0]; exact hr.whole, by rw [hm0]; exact hr.lower, by rw [hm0]; exact hr.upper, hr.beyond, hr.infinite⟩
  have hab : t = true → fmax.above (f.getD (f.length - 1) 0) := by
    rintro rfl; exact range_above hr
  by_cases hij : i ≤ j
  · obtain ⟨w, hw, hsum⟩ := momentSum_slice_weights hij hj
    refine ⟨i, j, t, w, hr, hj, (hw h hu).1, hab, ?_⟩
    intro m hm0 pf pS S v hf hS hl hv
    obtain ⟨i', j', t', hr', -, -, hst'⟩ := computeMoment_structure hm m fmin fmax
    obtain ⟨rfl, rfl, rfl⟩ := momentRange_unique (hsame m hm0) hr'
    rw [hst' hf hS hl] at hv
    have hz : ¬ (m < 0 ∧ 0 ∈ pySlice f i (j + 1)) := by
      intro hz
      unfold momentOn momentSum at hv
      rw [if_pos hz] at hv
      cases hv
    unfold momentOn at hv
    rw [hsum m S hl.symm hz] at hv
    cases t with
    | false =>
      refine ⟨0, ?_, fun _ => rfl, fun h => by cases h⟩
      rw [zero_mul, add_zero]
      exact (Except.ok.inj hv).symm
    | true =>
      rw [tailMoment_scale] at hv
      cases ht : tailMoment m (f.getD (f.length - 1) 0) 1 fmax with
      | error e => rw [ht] at hv; cases hv
      | ok c =>
        rw [ht] at hv
        exact ⟨c, (Except.ok.inj hv).symm, fun h => (by cases h), fun _ => rfl⟩
  · refine ⟨i, j, t, fun _ => 0, hr, hj, fun _ _ _ => le_refl _, hab, ?_⟩
    intro m hm0 pf pS S v hf hS hl hv
    obtain ⟨i', j', t', hr', -, -, hst'⟩ := computeMoment_structure hm m fmin fmax
    obtain ⟨rfl, rfl, rfl⟩ := momentRange_unique (hsame m hm0) hr'
    rw [hst' hf hS hl] at hv
    unfold momentOn momentSum at hv
    rw [pySlice_empty (l := f) (by omega), pySlice_empty (l := S) (by omega)] at hv
    simp [simpson, bind, Except.bind] at hv

/-- One set of weights serves all orders that use the whole axis. -/
theorem computeMoment_common {f : List K} {h : K} (hu : UniformAxis f h) (hm : monotonicIncreasingConstantStep f = .ok true) (fmin : K) (fmax : FMax K) :
    ∃ (i j : Nat) (t : Bool) (w : Nat → K), j < f.length ∧ (∀ k, i ≤ k → k ≤ j → 0 ≤ w k) ∧
      (t = true → fmax.above (f.getD (f.length - 1) 0)) ∧
      ∀ m : Int, firstUsable f m = 0 → ∀ {pf pS : PyIn K} {S : List K} {v : K}, pf.IsArr f → pS.IsArr S → f.length = S.length →
        computeMoment pf pS m fmin fmax = .ok v →
        ∃ c, v = ∑ k ∈ Icc i j, w k * (f.getD k 0 ^ m * S.getD k 0) + c * S.getD (f.length - 1) 0 ∧
          (t = false → c = 0) ∧ (t = true → tailMoment m (f.getD (f.length - 1) 0) 1 fmax = .ok c) := by
  obtain ⟨i, j, t, w, -, h⟩ := computeMoment_common_range hu hm fmin fmax
  exact ⟨i, j, t, w, h⟩

/-- Cauchy–Schwarz between three successive orders `m, m+1, m+2` with `m ∈ {-1, 0}`. -/
theorem moment_cs {pf pS : PyIn K} {f S : List K} {h fmin : K} {fmax : FMax K} (hf : pf.IsArr f) (hS : pS.IsArr S)
    (hu : UniformAxis f h) (h0 : 0 ≤ f.getD 0 0) (hpos : ∀ s ∈ S, 0 ≤ s) {m : Int} (hm : (m = -1 ∧ 0 < f.getD 0 0) ∨ m = 0) {v0 v1 v2 : K}
    (e0 : computeMoment pf pS m fmin fmax = .ok v0) (e1 : computeMoment pf pS (m + 1) fmin fmax = .ok v1)
    (e2 : computeMoment pf pS (m + 2) fmin fmax = .ok v2) : v1 ^ 2 ≤ v0 * v2 := by
  obtain ⟨hmono, hl⟩ := computeMoment_ok_pre hf hS e0
  have hp := uniform_check_increasing hmono
  have h2 := mono_two_le hmono
  have hfe : 0 < f.getD (f.length - 1) 0 := lt_of_le_of_lt h0 (inc_lt hp (by omega) (by omega))
  obtain ⟨i, j, t, w, hj, hw, hab, hall⟩ := computeMoment_common hu hmono fmin fmax
  have fu : ∀ k : Int, m ≤ k → firstUsable f k = 0 := by
    intro k hk
    unfold firstUsable
    rw [if_neg]
    rintro ⟨a, b⟩
    rcases hm with ⟨-, hm⟩ | hm
    · exact hm.ne' b
    · omega
  obtain ⟨c0, r0, a0, b0⟩ := hall m (fu m (by omega)) hf hS hl e0
  obtain ⟨c1, r1, a1, b1⟩ := hall (m + 1) (fu _ (by omega)) hf hS hl e1
  obtain ⟨c2, r2, a2, b2⟩ := hall (m + 2) (fu _ (by omega)) hf hS hl e2
  have hfn : ∀ k, k < f.length → 0 ≤ f.getD k 0 := fun k hk => h0.trans (inc_le hp (Nat.zero_le _) hk)
  have term : ∀ (n : Int) k, k ∈ Icc i j → 0 ≤ w k * (f.getD k 0 ^ n * S.getD k 0) := by
    intro n k hk
    rw [mem_Icc] at hk
    exact mul_nonneg (hw k hk.1 hk.2) (mul_nonneg (zpow_nonneg (hfn k (by omega)) _) (getD_nonneg hpos k))
  have hA : (∑ k ∈ Icc i j, w k * (f.getD k 0 ^ (m + 1) * S.getD k 0)) ^ 2 ≤
      (∑ k ∈ Icc i j, w k * (f.getD k 0 ^ m * S.getD k 0)) * (∑ k ∈ Icc i j, w k * (f.getD k 0 ^ (m + 2) * S.getD k 0)) := by
    apply Finset.sum_sq_le_sum_mul_sum_of_sq_eq_mul _ (term m) (term (m + 2))
    intro k hk
    rw [mem_Icc] at hk
    have key : (f.getD k 0 ^ (m + 1)) ^ 2 = f.getD k 0 ^ m * f.getD k 0 ^ (m + 2) := by
      rcases hm with ⟨rfl, hm⟩ | rfl
      · have : f.getD k 0 ≠ 0 := (lt_of_lt_of_le hm (inc_le hp (Nat.zero_le _) (by omega))).ne'
        generalize f.getD k 0 = x at this
        norm_num
        rw [inv_mul_cancel₀ this]
      · generalize f.getD k 0 = x
        norm_num
    calc (w k * (f.getD k 0 ^ (m + 1) * S.getD k 0)) ^ 2 = w k ^ 2 * (f.getD k 0 ^ (m + 1)) ^ 2 * S.getD k 0 ^ 2 := by ring
      _ = _ := by rw [key]; ring
  have hSe := getD_nonneg hpos (f.length - 1)
  have hT : 0 ≤ c0 ∧ 0 ≤ c1 ∧ 0 ≤ c2 ∧ c1 ^ 2 ≤ c0 * c2 := by
    cases t with
    | false => rw [a0 rfl, a1 rfl, a2 rfl]; simp
    | true =>
      have hab := hab rfl
      have t0 := b0 rfl
      have t1 := b1 rfl
      have t2 := b2 rfl
      refine ⟨tail_coeff_nonneg hfe hab t0, tail_coeff_nonneg hfe hab t1, tail_coeff_nonneg hfe hab t2, ?_⟩
      obtain ⟨hr0, hrs⟩ := recip_le hfe hab
      have h5 : 0 ≤ (f.getD (f.length - 1) 0) ^ 5 * (f.getD (f.length - 1) 0) ^ 5 := by positivity
      rcases hm with ⟨rfl, -⟩ | rfl
      · rw [tail_closed (n := 5) (c := c0) (fmax := fmax) (by norm_num) hfe t0,
          tail_closed (n := 4) (c := c1) (fmax := fmax) (by norm_num) hfe t1,
          tail_closed (n := 3) (c := c2) (fmax := fmax) (by norm_num) hfe t2]
        have := mul_le_mul_of_nonneg_left (cs_tail_a hr0 hrs) h5
        push_cast
        linarith
      · rw [tail_closed (n := 4) (c := c0) (fmax := fmax) (by norm_num) hfe t0,
          tail_closed (n := 3) (c := c1) (fmax := fmax) (by norm_num) hfe t1,
          tail_closed (n := 2) (c := c2) (fmax := fmax) (by norm_num) hfe t2]
        have := mul_le_mul_of_nonneg_left (cs_tail_b hr0 hrs) h5
        push_cast
        linarith
  obtain ⟨q0, q1, q2, hq⟩ := hT
  rw [r0, r1, r2]
  apply cs_add (sum_nonneg (term _)) (sum_nonneg (term _)) (sum_nonneg (term _)) (mul_nonneg q0 hSe) (mul_nonneg q1 hSe)
    (mul_nonneg q2 hSe) hA
  calc (c1 * S.getD (f.length - 1) 0) ^ 2 = c1 ^ 2 * S.getD (f.length - 1) 0 ^ 2 := by ring
    _ ≤ (c0 * c2) * S.getD (f.length - 1) 0 ^ 2 := mul_le_mul_of_nonneg_right hq (sq_nonneg _)
    _ = _ := by ring

end Verif
