import Verif.Lemmas.MomentWeights
import Mathlib.Analysis.SpecialFunctions.Integrals.Basic
import Mathlib.Analysis.SpecialFunctions.ImproperIntegrals
import Mathlib.MeasureTheory.Integral.IntegralEqImproper

/-! # C38–C41: spectral moments -/

set_option linter.unusedSectionVars false

namespace Verif
open Finset

variable {K : Type} [Field K] [LinearOrder K] [IsStrictOrderedRing K]

/-! ## Specification -/

/-- `a S1 + b S2`, point by point. -/
def specComb (a b : K) (S1 S2 : List K) : List K := List.zipWith (fun s t => a * s + b * t) S1 S2

/-- The upper bound is at or above the lower one. -/
def FMax.above (fmax : FMax K) (fmin : K) : Prop :=
  match fmax with
  | .fin F => fmin ≤ F
  | .inf => True

/-- The grid points between which `compute_moment(f, S, m, fmin, fmax)` integrates when both bounds are given: the usable
grid points nearest to the bounds (the lower one in case of a tie); with an upper bound at or beyond the last
frequency, the last grid point. -/
def SelectedRange (f : List K) (m : Int) (fmin : K) (fmax : FMax K) (i j : Nat) : Prop :=
  IsNearest f (firstUsable f m) fmin i ∧
    match fmax with
    | .fin F => IsNearest f (firstUsable f m) F j
    | .inf => j = f.length - 1

theorem firstUsable_le (f : List K) (m : Int) : firstUsable f m ≤ 1 := by unfold firstUsable; split_ifs <;> omega

/-- A selected range with the tail decision is a `MomentRange`. -/
theorem momentRange_of_selected {f : List K} (hm : monotonicIncreasingConstantStep f = .ok true) {m : Int} {fmin : K}
    {fmax : FMax K} (h1 : fmin ≠ -1) (h2 : fmax ≠ .fin (-1)) {i j : Nat} (h : SelectedRange f m fmin fmax i j) :
    ∃ t, MomentRange f m fmin fmax i j t := by
  have hp := uniform_check_increasing hm
  have hl := mono_two_le hm
  have hd := firstUsable_le f m
  have hn : ¬ (fmin = -1 ∨ fmax = .fin (-1)) := by rintro (h | h) <;> contradiction
  obtain ⟨a, b⟩ := h
  rcases fmax with F | _
  · by_cases hF : F ≤ f.getD (f.length - 1) 0
    · refine ⟨false, ⟨fun h => absurd h hn, fun _ => a, fun F' _ e h => ?_, fun F' _ e h => ?_, fun _ e => by cases e⟩⟩
      · cases e; exact ⟨b, rfl⟩
      · cases e; exact absurd hF (not_le.2 h)
    · refine ⟨true, ⟨fun h => absurd h hn, fun _ => a, fun F' _ e h => ?_, fun F' _ e h => ?_, fun _ e => by cases e⟩⟩
      · cases e; exact absurd h hF
      · cases e
        exact ⟨isNearest_unique b (isNearest_last hp (by omega) h.le), rfl⟩
  · exact ⟨true, ⟨fun h => absurd h hn, fun _ => a, fun F' _ e h => (by cases e), fun F' _ e h => (by cases e), fun _ e => ⟨b, rfl⟩⟩⟩

/-! ## C38: linearity, sign, definedness -/

/-- **C38 (linearity).**  The moment of `a S1 + b S2` is `a` times the moment of `S1` plus `b` times that of `S2`, for
every order and range. -/
theorem moment_linear {pf p1 p2 p : PyIn K} {f S1 S2 : List K} (a b : K) {m : Int} {fmin : K} {fmax : FMax K} {v1 v2 : K}
    (hf : pf.IsArr f) (h1 : p1.IsArr S1) (h2 : p2.IsArr S2) (hp : p.IsArr (specComb a b S1 S2))
    (e1 : computeMoment pf p1 m fmin fmax = .ok v1) (e2 : computeMoment pf p2 m fmin fmax = .ok v2) :
    computeMoment pf p m fmin fmax = .ok (a * v1 + b * v2) := by
  obtain ⟨hm, l1⟩ := computeMoment_ok_pre hf h1 e1
  obtain ⟨-, l2⟩ := computeMoment_ok_pre hf h2 e2
  have hl2 := mono_two_le hm
  obtain ⟨i, j, t, hr, -⟩ := computeMoment_structure hm m fmin fmax
  rcases computeMoment_form hm m fmin fmax hr with ⟨e, he⟩ | ⟨hij, hj, -, w, c, -, -, -, hw⟩
  · rw [he hf h1 l1] at e1; cases e1
  rw [hw hf h1 l1] at e1
  rw [hw hf h2 l2] at e2
  have e1' := Except.ok.inj e1
  have e2' := Except.ok.inj e2
  have lc : (specComb a b S1 S2).length = f.length := by unfold specComb; rw [List.length_zipWith]; omega
  have gd : ∀ k, k < f.length → (specComb a b S1 S2).getD k 0 = a * S1.getD k 0 + b * S2.getD k 0 := by
    intro k hk
    unfold specComb
    rw [getD_zipWith _ (by omega) (by omega)]
  rw [hw hf hp lc.symm]
  congr 1
  rw [← e1', ← e2', gd _ (by omega), mul_add a, mul_add b, mul_sum, mul_sum]
  rw [add_add_add_comm, ← sum_add_distrib]
  congr 1
  · apply sum_congr rfl
    intro k hk
    rw [mem_Icc] at hk
    rw [gd _ (by omega)]; ring
  · ring

/-- **C38 (errors do not depend on the densities).**  Whether a call raises is decided by the axis, order and range. -/
theorem moment_raises_independent {pf p1 p2 : PyIn K} {f S1 S2 : List K} {m : Int} {fmin : K} {fmax : FMax K}
    (hf : pf.IsArr f) (h1 : p1.IsArr S1) (h2 : p2.IsArr S2) (hl : S1.length = S2.length) {e : PyErr}
    (e1 : computeMoment pf p1 m fmin fmax = .error e) : computeMoment pf p2 m fmin fmax = .error e := by
  unfold computeMoment at e1 ⊢
  simp only [vecIn_of_isArr hf, vecIn_of_isArr h1, vecIn_of_isArr h2, bind, Except.bind] at e1 ⊢
  cases hb : monotonicIncreasingConstantStep f with
  | error e' => rw [hb] at e1; exact e1
  | ok b =>
    rw [hb] at e1
    cases b with
    | false => exact e1
    | true =>
      simp only [Bool.true_eq_false, if_false, ← hl] at e1 ⊢
      by_cases hlen : f.length = S1.length
      · rw [if_neg (by simpa using hlen)] at e1 ⊢
        obtain ⟨i, j, t, hr, -⟩ := computeMoment_structure hb m fmin fmax
        have full : ∀ {p : PyIn K} {S : List K}, p.IsArr S → f.length = S.length →
            computeMoment pf p m fmin fmax = computeMomentL f S m fmin fmax := by
          intro p S hp hlS
          unfold computeMoment
          simp only [vecIn_of_isArr hf, vecIn_of_isArr hp, bind, Except.bind, hb]
          simp [hlS]
        rcases computeMoment_form hb m fmin fmax hr with ⟨e', he⟩ | ⟨-, -, -, w, c, -, -, -, hw⟩
        · rw [← full h1 hlen, he hf h1 hlen] at e1
          rw [← full h2 (hlen.trans hl), he hf h2 (hlen.trans hl)]
          exact e1
        · rw [← full h1 hlen, hw hf h1 hlen] at e1; cases e1
      · rw [if_pos hlen] at e1 ⊢; exact e1

theorem zpow_diff_nonneg {fe F : K} (hfe : 0 < fe) (hF : fe ≤ F) (n : Int) : 0 ≤ (F ^ n - fe ^ n) / (n : K) := by
  rcases lt_trichotomy n 0 with h | h | h
  · apply div_nonneg_of_nonpos
    · obtain ⟨k, rfl⟩ : ∃ k : ℕ, n = -(k : ℤ) := ⟨n.natAbs, by omega⟩
      rw [zpow_neg, zpow_neg, zpow_natCast, zpow_natCast]
      exact sub_nonpos.2 (inv_anti₀ (by positivity) (pow_le_pow_left₀ hfe.le hF k))
    · exact_mod_cast h.le
  · subst h; simp
  · apply div_nonneg
    · exact sub_nonneg.2 (zpow_le_zpow_left₀ h.le hfe.le hF)
    · exact_mod_cast h.le

theorem tail_coeff_nonneg {m : Int} {fe c : K} {fmax : FMax K} (hfe : 0 < fe) (hF : fmax.above fe)
    (h : tailMoment m fe 1 fmax = .ok c) : 0 ≤ c := by
  unfold tailMoment at h
  dsimp only at h
  by_cases h1 : m + -5 + 1 = 0 ∨ fe = 0
  · rw [if_pos h1] at h; cases h
  rw [if_neg h1] at h
  cases fmax with
  | fin F =>
    dsimp only at h
    split_ifs at h with h2
    have := zpow_diff_nonneg hfe (show fe ≤ F from hF) (m + -5 + 1)
    rw [← Except.ok.inj h]
    have e : (1 : K) / fe ^ (-5 : Int) / ((m + -5 + 1 : Int) : K) * (F ^ (m + -5 + 1) - fe ^ (m + -5 + 1)) =
      (1 / fe ^ (-5 : Int)) * ((F ^ (m + -5 + 1) - fe ^ (m + -5 + 1)) / ((m + -5 + 1 : Int) : K)) := by ring
    rw [e]
    exact mul_nonneg (by positivity) this
  | inf =>
    dsimp only at h
    split_ifs at h with h2
    rw [← Except.ok.inj h]
    have hn : ((m + -5 + 1 : Int) : K) < 0 := by exact_mod_cast h2
    have : (1 : K) / fe ^ (-5 : Int) / ((m + -5 + 1 : Int) : K) * (0 - fe ^ (m + -5 + 1)) =
      (1 / fe ^ (-5 : Int)) * (fe ^ (m + -5 + 1) / (-((m + -5 + 1 : Int) : K))) := by
      rw [div_neg]; ring
    rw [this]
    have hn' : 0 < -((m + -5 + 1 : Int) : K) := by linarith
    positivity

theorem getD_nonneg {S : List K} (hS : ∀ s ∈ S, 0 ≤ s) (k : Nat) : 0 ≤ S.getD k 0 := by
  by_cases h : k < S.length
  · rw [List.getD_eq_getElem _ _ h]; exact hS _ (List.getElem_mem h)
  · rw [List.getD_eq_default _ _ (by omega)]

theorem range_above {f : List K} {m : Int} {fmin : K} {fmax : FMax K} {i j : Nat}
    (hr : MomentRange f m fmin fmax i j true) : fmax.above (f.getD (f.length - 1) 0) := by
  by_cases hdef : fmin = -1 ∨ fmax = .fin (-1)
  · have := (hr.whole hdef).2.2; cases this
  · rcases fmax with F | _
    · by_contra hc
      have hc' : F ≤ f.getD (f.length - 1) 0 := (not_le.1 hc).le
      have := (hr.upper F hdef rfl hc').2
      cases this
    · trivial

/-- **C38 (sign).**  On a uniform axis of non-negative frequencies the moments of a non-negative spectrum are non-negative,
for every order and every range (with or without tail). -/
theorem moment_nonneg {pf pS : PyIn K} {f S : List K} {h : K} {m : Int} {fmin : K} {fmax : FMax K} {v : K}
    (hf : pf.IsArr f) (hS : pS.IsArr S) (hu : UniformAxis f h) (h0 : 0 ≤ f.getD 0 0) (hpos : ∀ s ∈ S, 0 ≤ s)
    (hv : computeMoment pf pS m fmin fmax = .ok v) : 0 ≤ v := by
  obtain ⟨hm, hl⟩ := computeMoment_ok_pre hf hS hv
  have hp := uniform_check_increasing hm
  have h2 := mono_two_le hm
  obtain ⟨i, j, t, hr, -⟩ := computeMoment_structure hm m fmin fmax
  rcases computeMoment_form hm m fmin fmax hr with ⟨e, he⟩ | ⟨hij, hj, -, w, c, hw, ct, cf, hsum⟩
  · rw [he hf hS hl] at hv; cases hv
  rw [hsum hf hS hl] at hv
  rw [← Except.ok.inj hv]
  have hfpos : ∀ k, k < f.length → 0 ≤ f.getD k 0 := fun k hk => h0.trans (inc_le hp (Nat.zero_le _) hk)
  apply add_nonneg
  · apply sum_nonneg
    intro k hk
    rw [mem_Icc] at hk
    exact mul_nonneg ((hw h hu).1 k hk.1 hk.2) (mul_nonneg (zpow_nonneg (hfpos k (by omega)) _) (getD_nonneg hpos k))
  · apply mul_nonneg _ (getD_nonneg hpos _)
    cases t with
    | false => rw [ct rfl]
    | true =>
      have hfe : 0 < f.getD (f.length - 1) 0 := lt_of_le_of_lt h0 (inc_lt hp (by omega) (by omega))
      exact tail_coeff_nonneg hfe (range_above hr) (cf rfl)

/-- **C38 (definedness).**  On a uniform axis of non-negative frequencies every moment is defined and non-negative: for the
default range, for every range with `fmin ≤ fmax` on the axis, and — for orders below 4 — for every range that extends
beyond the axis. -/
theorem moment_defined {pf pS : PyIn K} {f S : List K} {h : K} {m : Int} {fmin : K} {fmax : FMax K}
    (hf : pf.IsArr f) (hS : pS.IsArr S) (hu : UniformAxis f h) (h2 : 2 ≤ f.length) (hl : f.length = S.length)
    (h0 : 0 ≤ f.getD 0 0) (hpos : ∀ s ∈ S, 0 ≤ s) (hab : fmax.above fmin ∨ fmax = .fin (-1))
    (hmt : m ≤ 3 ∨ fmin = -1 ∨ ∃ F, fmax = .fin F ∧ F ≤ f.getD (f.length - 1) 0) :
    ∃ v, computeMoment pf pS m fmin fmax = .ok v ∧ 0 ≤ v := by
  have hm : monotonicIncreasingConstantStep f = .ok true := uniform_check_accepts_uniform h2 hu
  have hp := uniform_check_increasing hm
  suffices hs : ∃ v, computeMoment pf pS m fmin fmax = .ok v by
    obtain ⟨v, hv⟩ := hs
    exact ⟨v, hv, moment_nonneg hf hS hu h0 hpos hv⟩
  obtain ⟨i, j, t, hr, hdi, hj', hst⟩ := computeMoment_structure hm m fmin fmax
  have hd1 := firstUsable_le f m
  have hij : i ≤ j := by
    by_cases hdef : fmin = -1 ∨ fmax = .fin (-1)
    · obtain ⟨a, b, -⟩ := hr.whole hdef; omega
    · rcases fmax with F | _
      · by_cases hF : F ≤ f.getD (f.length - 1) 0
        · rcases hab with hab | hab
          · exact isNearest_mono hp hab (hr.lower hdef) (hr.upper F hdef rfl hF).1
          · exact absurd (Or.inr hab) hdef
        · have := (hr.beyond F hdef rfl (not_le.1 hF)).1
          have := (hr.lower hdef).2.1
          omega
      · have := (hr.infinite hdef rfl).1
        have := (hr.lower hdef).2.1
        omega
  have hz : ¬ (m < 0 ∧ 0 ∈ pySlice f i (j + 1)) := by
    rintro ⟨hm0, hmem⟩
    obtain ⟨k, hk, ek⟩ := List.getElem_of_mem hmem
    have hk' := hk
    rw [pySlice_len1 hj'] at hk'
    rw [← List.getD_eq_getElem _ 0 hk, pySlice_getD (by omega)] at ek
    by_cases hf0 : f.getD 0 0 = 0
    · have : firstUsable f m = 1 := by unfold firstUsable; rw [if_pos ⟨hm0, hf0⟩]
      have := inc_lt hp (show 0 < i + k by omega) (by omega)
      rw [hf0, ek] at this
      exact lt_irrefl _ this
    · have a : 0 < f.getD 0 0 := lt_of_le_of_ne h0 (Ne.symm hf0)
      have b := inc_le hp (Nat.zero_le (i + k)) (by omega)
      rw [ek] at b
      exact absurd a (not_lt.2 b)
  rw [hst hf hS hl]
  obtain ⟨w, -, hsum⟩ := momentSum_slice_weights hij hj'
  unfold momentOn
  rw [hsum m S hl.symm hz]
  cases t with
  | false => exact ⟨_, rfl⟩
  | true =>
    have hfe : 0 < f.getD (f.length - 1) 0 := lt_of_le_of_lt h0 (inc_lt hp (by omega) (by omega))
    have hab' := range_above hr
    have hm3 : m ≤ 3 := by
      rcases hmt with h | h | ⟨F, e, hF⟩
      · exact h
      · have := (hr.whole (Or.inl h)).2.2; cases this
      · by_cases hdef : fmin = -1 ∨ fmax = .fin (-1)
        · have := (hr.whole hdef).2.2; cases this
        · have := (hr.upper F hdef e hF).2; cases this
    have : ∃ q, tailMoment m (f.getD (f.length - 1) 0) (S.getD (f.length - 1) 0) fmax = .ok q := by
      unfold tailMoment
      dsimp only
      rw [if_neg (by rintro (h | h); · omega
                     · exact hfe.ne' h)]
      cases fmax with
      | fin F =>
        have hF : 0 < F := lt_of_lt_of_le hfe hab'
        exact ⟨_, by dsimp only; rw [if_neg (by rintro ⟨h, -⟩; exact hF.ne' h)]⟩
      | inf => exact ⟨_, by dsimp only; rw [if_pos (by omega)]⟩
    obtain ⟨q, hq⟩ := this
    simp only [bind, Except.bind, hq, if_true]
    exact ⟨_, rfl⟩

/-- **C38 (positivity).**  A spectrum with some energy in a range of at least two points has a positive moment there. -/
theorem moment_pos {pf pS : PyIn K} {f S : List K} {h : K} {m : Int} {fmin : K} {fmax : FMax K} {v : K}
    (hf : pf.IsArr f) (hS : pS.IsArr S) (hu : UniformAxis f h) (h0 : 0 ≤ f.getD 0 0) (hpos : ∀ s ∈ S, 0 ≤ s)
    {i j k : Nat} {t : Bool} (hr : MomentRange f m fmin fmax i j t) (hlt : i < j) (hik : i ≤ k) (hkj : k ≤ j)
    (hfk : 0 < f.getD k 0 ∨ m = 0) (hk : 0 < S.getD k 0)
    (hv : computeMoment pf pS m fmin fmax = .ok v) : 0 < v := by
  obtain ⟨hm, hl⟩ := computeMoment_ok_pre hf hS hv
  have hp := uniform_check_increasing hm
  have h2 := mono_two_le hm
  rcases computeMoment_form hm m fmin fmax hr with ⟨e, he⟩ | ⟨hij, hj, -, w, c, hw, ct, cf, hsum⟩
  · rw [he hf hS hl] at hv; cases hv
  rw [hsum hf hS hl] at hv
  rw [← Except.ok.inj hv]
  have hfpos : ∀ k, k < f.length → 0 ≤ f.getD k 0 := fun k hk => le_trans h0 (inc_le hp (Nat.zero_le _) hk)
  apply add_pos_of_pos_of_nonneg
  · apply sum_pos'
    · intro k hk
      rw [mem_Icc] at hk
      exact mul_nonneg ((hw h hu).1 k hk.1 hk.2) (mul_nonneg (zpow_nonneg (hfpos k (by omega)) _) (getD_nonneg hpos k))
    · refine ⟨k, mem_Icc.2 ⟨hik, hkj⟩, ?_⟩
      have a : 0 < w k := lt_of_lt_of_le (by have := hu.1; positivity) ((hw h hu).2 hlt k hik hkj)
      have b : 0 < f.getD k 0 ^ m := by
        rcases hfk with h | rfl
        · exact zpow_pos h _
        · rw [zpow_zero]; exact one_pos
      exact mul_pos a (mul_pos b hk)
  · apply mul_nonneg _ (getD_nonneg hpos _)
    cases t with
    | false => rw [ct rfl]
    | true => exact tail_coeff_nonneg (lt_of_le_of_lt h0 (inc_lt hp (by omega) (by omega))) (range_above hr) (cf rfl)

/-! ## C41: the range -/

/-- **C41.**  The moment depends only on the densities between the selected grid points. -/
theorem moment_range_honoured {pf p1 p2 : PyIn K} {f S1 S2 : List K} {m : Int} {fmin : K} {fmax : FMax K} {i j : Nat}
    (hf : pf.IsArr f) (h1 : p1.IsArr S1) (h2 : p2.IsArr S2) (hl : S1.length = S2.length)
    (hmin : fmin ≠ -1) (hmax : fmax ≠ .fin (-1)) (hsel : SelectedRange f m fmin fmax i j)
    (hag : ∀ k, i ≤ k → k ≤ j → S1.getD k 0 = S2.getD k 0) :
    computeMoment pf p1 m fmin fmax = computeMoment pf p2 m fmin fmax := by
  cases e1 : computeMoment pf p1 m fmin fmax with
  | error e => rw [moment_raises_independent hf h1 h2 hl e1]
  | ok v =>
    obtain ⟨hm, hlen⟩ := computeMoment_ok_pre hf h1 e1
    obtain ⟨t, hr⟩ := momentRange_of_selected hm hmin hmax hsel
    rcases computeMoment_form hm m fmin fmax hr with ⟨e, he⟩ | ⟨hij, hj, -, w, c, hw, ct, cf, hsum⟩
    · rw [he hf h1 hlen] at e1; cases e1
    rw [hsum hf h1 hlen] at e1
    rw [← e1, hsum hf h2 (hlen.trans hl)]
    congr 1
    congr 1
    · apply sum_congr rfl
      intro k hk
      rw [mem_Icc] at hk
      rw [hag k hk.1 hk.2]
    · cases t with
      | false => rw [ct rfl, zero_mul, zero_mul]
      | true =>
        have hn : ¬ (fmin = -1 ∨ fmax = .fin (-1)) := by rintro (h | h) <;> contradiction
        have : j = f.length - 1 := by
          rcases fmax with F | _
          · by_cases hF : F ≤ f.getD (f.length - 1) 0
            · have := (hr.upper F hn rfl hF).2; cases this
            · exact (hr.beyond F hn rfl (not_le.1 hF)).1
          · exact (hr.infinite hn rfl).1
        rw [← this, hag j hij (le_refl _)]

/-- **C41 (every range selects grid points).**  For every axis accepted by the function and every range a selection exists. -/
theorem moment_range_exists {f : List K} (hm : monotonicIncreasingConstantStep f = .ok true) (m : Int) (fmin : K)
    (fmax : FMax K) : ∃ i j, SelectedRange f m fmin fmax i j := by
  have h2 := mono_two_le hm
  have hd := firstUsable_le f m
  obtain ⟨i, -, hi⟩ := approx_drop (f := f) (d := firstUsable f m) (by omega) fmin
  rcases fmax with F | _
  · obtain ⟨j, -, hj⟩ := approx_drop (f := f) (d := firstUsable f m) (by omega) F
    exact ⟨firstUsable f m + i, firstUsable f m + j, hi, hj⟩
  · exact ⟨firstUsable f m + i, f.length - 1, hi, rfl⟩

/-- **C41 (default range).**  The default range `(-1, -1)` gives the moment over the full axis. -/
theorem moment_default_is_full {pf pS : PyIn K} {f S : List K} {m : Int} (hf : pf.IsArr f) (hS : pS.IsArr S)
    (hm : monotonicIncreasingConstantStep f = .ok true) (hl : f.length = S.length)
    (h0 : f.getD 0 0 ≠ -1) (h1 : f.getD (f.length - 1) 0 ≠ -1) :
    computeMoment pf pS m (-1) (.fin (-1)) = computeMoment pf pS m (f.getD 0 0) (.fin (f.getD (f.length - 1) 0)) := by
  have hp := uniform_check_increasing hm
  have h2 := mono_two_le hm
  have hd := firstUsable_le f m
  obtain ⟨i, j, t, hr, -, -, e⟩ := computeMoment_structure hm m (-1) (.fin (-1))
  obtain ⟨i', j', t', hr', -, -, e'⟩ := computeMoment_structure hm m (f.getD 0 0) (.fin (f.getD (f.length - 1) 0))
  have hn : ¬ (f.getD 0 0 = -1 ∨ FMax.fin (f.getD (f.length - 1) 0) = FMax.fin (-1)) := by
    rintro (h | h)
    · exact h0 h
    · exact h1 (FMax.fin.inj h)
  obtain ⟨a, b, c⟩ := hr.whole (Or.inl rfl)
  have a' : i' = firstUsable f m := isNearest_unique (hr'.lower hn) (isNearest_first hp (by omega) (inc_le hp (Nat.zero_le _) (by omega)))
  obtain ⟨b', c'⟩ := hr'.upper _ hn rfl (le_refl _)
  have b'' : j' = f.length - 1 := isNearest_unique b' (isNearest_last hp (by omega) (le_refl _))
  rw [e hf hS hl, e' hf hS hl, a, b, c, a', b'', c', momentOn_false, momentOn_false]

/-- **C41 (finding).**  Giving only one of the two bounds has no effect at all: the bound that was given is ignored. -/
theorem moment_single_bound_ignored {pf pS : PyIn K} {f S : List K} {m : Int} (hf : pf.IsArr f) (hS : pS.IsArr S)
    (hm : monotonicIncreasingConstantStep f = .ok true) (hl : f.length = S.length) (fmin : K) (fmax : FMax K) :
    computeMoment pf pS m fmin (.fin (-1)) = computeMoment pf pS m (-1) (.fin (-1)) ∧
      computeMoment pf pS m (-1) fmax = computeMoment pf pS m (-1) (.fin (-1)) := by
  obtain ⟨i, j, t, hr, -, -, e⟩ := computeMoment_structure hm m (-1) (.fin (-1))
  obtain ⟨i1, j1, t1, hr1, -, -, e1⟩ := computeMoment_structure hm m fmin (.fin (-1))
  obtain ⟨i2, j2, t2, hr2, -, -, e2⟩ := computeMoment_structure hm m (-1) fmax
  obtain ⟨rfl, rfl, rfl⟩ := hr.whole (Or.inl rfl)
  obtain ⟨rfl, rfl, rfl⟩ := hr1.whole (Or.inr rfl)
  obtain ⟨rfl, rfl, rfl⟩ := hr2.whole (Or.inl rfl)
  rw [e hf hS hl, e1 hf hS hl, e2 hf hS hl]
  simp only [momentOn_false, and_self]

/-! ## C39: exact integrals -/

/-- **C39.**  If `f^m S(f)` is a quadratic on the selected grid points (at least three) and the upper bound is on the axis,
the moment is exactly the integral of the quadratic between the selected grid points; the axis need only be increasing. -/
theorem moment_exact_quadratic {pf pS : PyIn ℝ} {f S : List ℝ} {m : Int} {fmin F : ℝ} {i j : Nat} (a b c : ℝ)
    (hf : pf.IsArr f) (hS : pS.IsArr S) (hm : monotonicIncreasingConstantStep f = .ok true) (hl : f.length = S.length)
    (hmin : fmin ≠ -1) (hmax : F ≠ -1) (hF : F ≤ f.getD (f.length - 1) 0) (hsel : SelectedRange f m fmin (.fin F) i j)
    (h3 : i + 2 ≤ j) (hz : ¬ (m < 0 ∧ ∃ k, i ≤ k ∧ k ≤ j ∧ f.getD k 0 = 0))
    (hq : ∀ k, i ≤ k → k ≤ j → f.getD k 0 ^ m * S.getD k 0 = a * f.getD k 0 ^ 2 + b * f.getD k 0 + c) :
    computeMoment pf pS m fmin (.fin F) = .ok (∫ x in f.getD i 0..f.getD j 0, (a * x ^ 2 + b * x + c)) := by
  have hp := uniform_check_increasing hm
  have hj : j < f.length := hsel.2.2.1
  obtain ⟨i', j', t', hr', -, -, e⟩ := computeMoment_structure hm m fmin (.fin F)
  have hn : ¬ (fmin = -1 ∨ FMax.fin F = FMax.fin (-1)) := by
    rintro (h | h)
    · exact hmin h
    · exact hmax (FMax.fin.inj h)
  have ei := isNearest_unique hsel.1 (hr'.lower hn)
  obtain ⟨b', c'⟩ := hr'.upper _ hn rfl hF
  have ej := isNearest_unique hsel.2 b'
  subst ei ej c'
  rw [e hf hS hl, momentOn_false]
  unfold momentSum
  have hz' : ¬ (m < 0 ∧ 0 ∈ pySlice f i (j + 1)) := by
    rintro ⟨hm0, hmem⟩
    obtain ⟨k, hk, ek⟩ := List.getElem_of_mem hmem
    have hk' := hk
    rw [pySlice_len1 hj] at hk'
    rw [← List.getD_eq_getElem _ 0 hk, pySlice_getD (by omega)] at ek
    exact hz ⟨hm0, i + k, by omega, by omega, ek⟩
  have hxl := pySlice_len1 (i := i) hj
  have hSl : (pySlice S i (j + 1)).length = (pySlice f i (j + 1)).length := by rw [pySlice_len1 hj, pySlice_len1 (by omega)]
  have hpw : (pySlice f i (j + 1)).Pairwise (· < ·) := by
    unfold pySlice
    exact (hp.sublist (List.take_sublist _ _)).sublist (List.drop_sublist _ _)
  rw [if_neg hz', simpson_exact a b c hpw (by omega) ?_]
  · rw [hxl, pySlice_getD (by omega), pySlice_getD (by omega)]
    have : i + (j + 1 - i - 1) = j := by omega
    rw [this, add_zero]
    congr 1
    rw [intervalIntegral.integral_add, intervalIntegral.integral_add, intervalIntegral.integral_const_mul,
      intervalIntegral.integral_const_mul, integral_pow, integral_id, intervalIntegral.integral_const]
    · rw [smul_eq_mul]; push_cast; ring
    all_goals exact Continuous.intervalIntegrable (by fun_prop) _ _
  · apply List.ext_getElem
    · rw [List.length_zipWith, List.length_map]; omega
    · intro k h1 h2
      rw [List.length_map] at h2
      rw [← List.getD_eq_getElem _ 0 h1, getD_zipWith _ hSl (by omega), List.getElem_map, ← List.getD_eq_getElem _ 0 h2,
        pySlice_getD (by omega), pySlice_getD (by omega)]
      exact hq _ (by omega) (by omega)

/-! ## C40: the tail -/

theorem tail_integral_fin {m : Int} {fe F se : ℝ} (hm : m ≤ 3) (hfe : 0 < fe) (hF : fe ≤ F) :
    tailMoment m fe se (.fin F) = .ok (∫ x in fe..F, se * (x / fe) ^ (-5 : ℤ) * x ^ m) := by
  have hFp : 0 < F := lt_of_lt_of_le hfe hF
  unfold tailMoment
  dsimp only
  rw [if_neg (by rintro (h | h); · omega
                 · exact hfe.ne' h), if_neg (by rintro ⟨h, -⟩; exact hFp.ne' h)]
  congr 1
  have h1 : ∫ x in fe..F, se * (x / fe) ^ (-5 : ℤ) * x ^ m = ∫ x in fe..F, se / fe ^ (-5 : ℤ) * x ^ (m - 5) := by
    apply intervalIntegral.integral_congr
    intro x hx
    rw [Set.uIcc_of_le hF] at hx
    have hx0 : 0 < x := lt_of_lt_of_le hfe hx.1
    beta_reduce
    rw [div_zpow, show m - 5 = (-5 : ℤ) + m by ring, zpow_add₀ hx0.ne']
    ring
  rw [h1, intervalIntegral.integral_const_mul, integral_zpow (Or.inr ⟨by omega, by
    rw [Set.uIcc_of_le hF]; intro h; exact absurd h.1 (not_le.2 hfe)⟩)]
  rw [show m - 5 + 1 = m + -5 + 1 by ring]
  push_cast
  ring

theorem tail_integral_inf {m : Int} {fe se : ℝ} (hm : m ≤ 3) (hfe : 0 < fe) :
    tailMoment m fe se .inf = .ok (∫ x in Set.Ioi fe, se * (x / fe) ^ (-5 : ℤ) * x ^ m) := by
  unfold tailMoment
  dsimp only
  rw [if_neg (by rintro (h | h); · omega
                 · exact hfe.ne' h), if_pos (by omega)]
  congr 1
  have h1 : ∫ x in Set.Ioi fe, se * (x / fe) ^ (-5 : ℤ) * x ^ m =
      ∫ x in Set.Ioi fe, se / fe ^ (-5 : ℤ) * x ^ ((m - 5 : ℤ) : ℝ) := by
    apply MeasureTheory.setIntegral_congr_fun measurableSet_Ioi
    intro x hx
    have hx0 : 0 < x := lt_trans hfe hx
    beta_reduce
    rw [Real.rpow_intCast, div_zpow, show m - 5 = (-5 : ℤ) + m by ring, zpow_add₀ hx0.ne']
    ring
  rw [h1, MeasureTheory.integral_const_mul, integral_Ioi_rpow_of_lt (by
    have : m - 5 < -1 := by omega
    exact_mod_cast this) hfe]
  rw [show (((m - 5 : ℤ) : ℝ) + 1) = ((m + -5 + 1 : ℤ) : ℝ) by push_cast; ring, Real.rpow_intCast]
  ring

/-- **C40.**  With an upper bound beyond the last frequency `fe`, the moment is the moment up to `fe` plus the integral of
the `f^-5` tail `S(fe) (f/fe)^-5 f^m` from `fe` to the bound. -/
theorem moment_tail {pf pS : PyIn ℝ} {f S : List ℝ} {m : Int} {fmin F v fe se : ℝ} (hf : pf.IsArr f) (hS : pS.IsArr S)
    (hm3 : m ≤ 3) (hmin : fmin ≠ -1) (hfe : f.getLast? = some fe) (hse : S.getLast? = some se) (hpos : 0 < fe) (hF : fe < F)
    (hv : computeMoment pf pS m fmin (.fin fe) = .ok v) :
    computeMoment pf pS m fmin (.fin F) = .ok (v + ∫ x in fe..F, se * (x / fe) ^ (-5 : ℤ) * x ^ m) ∧
    computeMoment pf pS m fmin .inf = .ok (v + ∫ x in Set.Ioi fe, se * (x / fe) ^ (-5 : ℤ) * x ^ m) := by
  obtain ⟨hm, hl⟩ := computeMoment_ok_pre hf hS hv
  have hp := uniform_check_increasing hm
  have h2 := mono_two_le hm
  have hd := firstUsable_le f m
  have efe : f.getD (f.length - 1) 0 = fe := by
    rw [List.getLast?_eq_getElem?] at hfe
    rw [List.getD_eq_getElem?_getD, hfe]; rfl
  have ese : S.getD (f.length - 1) 0 = se := by
    rw [List.getLast?_eq_getElem?] at hse
    rw [List.getD_eq_getElem?_getD, hl, hse]; rfl
  have mk : ∀ x : ℝ, 0 < x → ¬ (fmin = -1 ∨ FMax.fin x = FMax.fin (-1)) := by
    rintro x hx (h | h)
    · exact hmin h
    · have := FMax.fin.inj h; linarith
  have mk' : ¬ (fmin = -1 ∨ (FMax.inf : FMax ℝ) = FMax.fin (-1)) := by
    rintro (h | h)
    · exact hmin h
    · cases h
  obtain ⟨i, j, t, hr, -, -, e⟩ := computeMoment_structure hm m fmin (.fin fe)
  obtain ⟨i1, j1, t1, hr1, -, -, e1⟩ := computeMoment_structure hm m fmin (.fin F)
  obtain ⟨i2, j2, t2, hr2, -, -, e2⟩ := computeMoment_structure hm m fmin .inf
  have a1 := isNearest_unique (hr1.lower (mk F (hpos.trans hF))) (hr.lower (mk fe hpos))
  have a2 := isNearest_unique (hr2.lower mk') (hr.lower (mk fe hpos))
  obtain ⟨b, c⟩ := hr.upper fe (mk fe hpos) rfl efe.ge
  have b' : j = f.length - 1 := isNearest_unique b (isNearest_last hp (by omega) efe.le)
  obtain ⟨b1, c1⟩ := hr1.beyond F (mk F (hpos.trans hF)) rfl (by rw [efe]; exact hF)
  obtain ⟨b2, c2⟩ := hr2.infinite mk' rfl
  subst a1 a2 c c1 c2
  rw [e hf hS hl, momentOn_false, b'] at hv
  rw [e1 hf hS hl, e2 hf hS hl, b1, b2]
  unfold momentOn
  rw [hv, efe, ese, tail_integral_fin hm3 hpos hF.le, tail_integral_inf hm3 hpos]
  exact ⟨rfl, rfl⟩

/-- **C40 (limit of the orders).**  For order 4 the tail raises a division by zero / infinity. -/
theorem moment_tail_order_four {fe se : K} (fmax : FMax K) : tailMoment 4 fe se fmax = .error .nonFinite := by
  unfold tailMoment
  simp

section concrete

/-- Non-vacuity of C38: two spectra, their combination, positive and negative orders, sub-ranges and a tail. -/
example : computeMoment (K := ℚ) (vec [1, 2, 3, 4]) (vec [0, 1, 2, 1]) (-1) 1 (.fin 3) = .ok (8 / 9) ∧
    computeMoment (K := ℚ) (vec [1, 2, 3, 4]) (vec [1, 0, 0, 3]) (-1) 1 (.fin 3) = .ok (1 / 3) ∧
    computeMoment (K := ℚ) (vec [1, 2, 3, 4]) (vec (specComb 2 (-1) [0, 1, 2, 1] [1, 0, 0, 3])) (-1) 1 (.fin 3) = .ok (13 / 9) ∧
    computeMoment (K := ℚ) (vec [1, 2, 3]) (vec [0, 1, 2]) 0 1 .inf = .ok (2 + 3 / 2) := by decide +kernel

/-- Non-vacuity of C38 and C41: a uniform axis of positive frequencies and the range selected by the bounds 1.2 and 2.9. -/
example : UniformAxis ([1, 2, 3, 4] : List ℚ) 1 ∧ (0 : ℚ) < ([1, 2, 3, 4] : List ℚ).getD 0 0 ∧
    monotonicIncreasingConstantStep ([1, 2, 3, 4] : List ℚ) = .ok true ∧
    SelectedRange ([1, 2, 3, 4] : List ℚ) (-1) (12 / 10) (.fin (29 / 10)) 0 2 := by
  refine ⟨⟨by norm_num, ?_⟩, by simp, by decide +kernel, ⟨?_, ?_, ?_, ?_⟩, ⟨?_, ?_, ?_, ?_⟩⟩
  · intro i hi
    simp only [List.length_cons, List.length_nil] at hi
    have : i < 3 := by omega
    interval_cases i <;> norm_num
  · norm_num [firstUsable]
  · norm_num
  · intro k _ hk
    simp only [List.length_cons, List.length_nil] at hk
    interval_cases k <;> norm_num [abs_of_nonneg, abs_of_neg]
  · intro k _ hk; omega
  · norm_num [firstUsable]
  · norm_num
  · intro k _ hk
    simp only [List.length_cons, List.length_nil] at hk
    interval_cases k <;> norm_num [abs_of_nonneg, abs_of_neg]
  · intro k _ hk
    interval_cases k <;> norm_num [abs_of_nonneg, abs_of_neg]

/-- C41 on numbers: densities outside the selected grid points 0..2 do not matter, those inside do. -/
example : computeMoment (K := ℚ) (vec [1, 2, 3, 4]) (vec [0, 1, 2, 1]) 1 (12 / 10) (.fin (29 / 10)) =
      computeMoment (K := ℚ) (vec [1, 2, 3, 4]) (vec [0, 1, 2, 77]) 1 (12 / 10) (.fin (29 / 10)) ∧
    computeMoment (K := ℚ) (vec [1, 2, 3, 4]) (vec [0, 1, 2, 1]) 1 (12 / 10) (.fin (29 / 10)) ≠
      computeMoment (K := ℚ) (vec [1, 2, 3, 4]) (vec [0, 1, 3, 1]) 1 (12 / 10) (.fin (29 / 10)) ∧
    computeMoment (K := ℚ) (vec [1, 2, 3, 4]) (vec [0, 1, 2, 1]) 1 2 (.fin (-1)) ≠
      computeMoment (K := ℚ) (vec [1, 2, 3, 4]) (vec [0, 1, 2, 1]) 1 2 (.fin 4) := by decide +kernel

/-- Non-vacuity of C39: `f S = f² + 1` on the grid points 1, 2, 3 of an axis of four points. -/
example : computeMoment (K := ℝ) (vec [1, 2, 3, 4]) (vec [2, 5 / 2, 10 / 3, 0]) 1 1 (.fin 3) =
    .ok (∫ x in (1 : ℝ)..3, (1 * x ^ 2 + 0 * x + 1)) := by
  have hm : monotonicIncreasingConstantStep ([1, 2, 3, 4] : List ℝ) = .ok true := by
    norm_num [monotonicIncreasingConstantStep, diff, stepTol]
  have hp := uniform_check_increasing hm
  have fu : firstUsable ([1, 2, 3, 4] : List ℝ) 1 = 0 := by norm_num [firstUsable]
  refine moment_exact_quadratic (i := 0) (j := 2) 1 0 1 (isArr_vec [1, 2, 3, 4]) (isArr_vec [2, 5 / 2, 10 / 3, 0]) hm rfl
    (by norm_num) (by norm_num) (by norm_num) ⟨?_, ?_⟩ (by norm_num) (by norm_num) ?_
  · rw [fu]; exact isNearest_self hp (i := 0) (by simp) (by simp)
  · rw [fu]; exact isNearest_self hp (i := 2) (by simp) (by simp)
  · intro k _ hk
    interval_cases k <;> norm_num

/-- Non-vacuity of C40: the tail of an energetic last bin. -/
example : ∃ v, computeMoment (K := ℝ) (vec [1, 2, 3]) (vec [1, 1, 1]) 0 1 (.fin 5) =
      .ok (v + ∫ x in (3 : ℝ)..5, 1 * (x / 3) ^ (-5 : ℤ) * x ^ (0 : ℤ)) ∧ v = 2 := by
  refine ⟨2, (moment_tail (isArr_vec [1, 2, 3]) (isArr_vec [1, 1, 1]) (by norm_num) (by norm_num) rfl rfl (by norm_num)
    (by norm_num) ?_).1, rfl⟩
  norm_num [computeMoment, vecIn, vec, toVector, toArr, size2, Arr.size, monotonicIncreasingConstantStep, diff, stepTol,
    computeMomentL, getE, lastE, momentBetween, approxArrayIndex, argminAux, momentSum, simpson, simpOdd, pySlice, bind, Except.bind]
  try simp

end concrete

/-! ## Concrete cases: the hypotheses of the theorems above are met -/

example := moment_linear (f := ([1, 2, 3, 4] : List ℚ)) (S1 := [0, 1, 2, 1]) (S2 := [1, 0, 0, 3]) 2 (-1) (m := -1) (fmin := 1) (fmax := .fin 3)
  (v1 := 8 / 9) (v2 := 1 / 3) (isArr_vec _) (isArr_vec _) (isArr_vec _) (isArr_vec _) (by decide +kernel) (by decide +kernel)
/-- Four frequencies and three densities are refused, whatever the densities. -/
example := moment_raises_independent (f := ([1, 2, 3, 4] : List ℚ)) (S1 := [0, 1, 2]) (S2 := [5, 6, 7]) (m := 0) (fmin := 1) (fmax := .fin 3)
  (e := .valueError "compute_moment: Input error: array sizes differ in dimension") (isArr_vec _) (isArr_vec _) (isArr_vec _) rfl (by decide +kernel)
example : (0 : ℚ) ≤ 8 / 9 := moment_nonneg (f := ([1, 2, 3, 4] : List ℚ)) (S := [0, 1, 2, 1]) (h := 1) (m := -1) (fmin := 1) (fmax := .fin 3)
  (isArr_vec _) (isArr_vec _) (uniformAxis_of_steps (by norm_num) (by decide +kernel)) (by simp) (by decide +kernel) (by decide +kernel)
example := moment_defined (f := ([0, 1, 2, 3] : List ℚ)) (S := [0, 1, 2, 1]) (h := 1) (m := 2) (fmin := 1) (fmax := .inf)
  (isArr_vec _) (isArr_vec _) (uniformAxis_of_steps (by norm_num) (by decide +kernel)) (by simp) rfl (by simp) (by decide +kernel)
  (.inl (by simp [FMax.above])) (.inl (by norm_num))
example := tail_integral_fin (m := 1) (fe := 3) (F := 5) (se := 2) (by norm_num) (by norm_num) (by norm_num)
example := tail_integral_inf (m := 1) (fe := 3) (se := 2) (by norm_num) (by norm_num)
/-- The range 1.2–2.9 Hz selects the grid values 1, 2 and 3; the density at 4 Hz has no influence. -/
example (hsel : SelectedRange ([1, 2, 3, 4] : List ℚ) (-1) (12 / 10) (.fin (29 / 10)) 0 2) :=
  moment_range_honoured (S1 := [0, 1, 2, 1]) (S2 := [0, 1, 2, 77]) (isArr_vec _) (isArr_vec _) (isArr_vec _) rfl (by norm_num) (by simp; norm_num) hsel
    (fun k _ hk => by interval_cases k <;> rfl)
example := moment_range_exists (f := ([1, 2, 3, 4] : List ℚ)) (by decide +kernel) (-1) (12 / 10) (.fin (29 / 10))
example := moment_default_is_full (f := ([1, 2, 3, 4] : List ℚ)) (S := [0, 1, 2, 1]) (m := 2) (isArr_vec _) (isArr_vec _) (by decide +kernel) rfl (by simp; norm_num) (by simp; norm_num)
example := moment_single_bound_ignored (f := ([1, 2, 3, 4] : List ℚ)) (S := [0, 1, 2, 1]) (m := 2) (isArr_vec _) (isArr_vec _) (by decide +kernel) rfl 2 (.fin 3)

end Verif
