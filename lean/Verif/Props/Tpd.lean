import Verif.Lemmas.Periods
import Verif.Props.Tps

/-! # C61: the spectral period TpD -/

set_option linter.unusedSectionVars false

namespace Verif
open Finset

variable {K : Type} [Field K] [LinearOrder K] [IsStrictOrderedRing K]

/-- Grid points `i` and `j` are the first and the last one whose density is at least the fraction `r` of the maximum. -/
structure BandEdges (S : List K) (r : K) (i j : Nat) : Prop where
  le : i ≤ j
  lt : j < S.length
  left : ∀ v ∈ S, r * v ≤ S.getD i 0
  right : ∀ v ∈ S, r * v ≤ S.getD j 0
  outside : ∀ k < S.length, k < i ∨ j < k → ∃ v ∈ S, S.getD k 0 < r * v

theorem tpd_selected {S : List K} {M : K} (hM : 0 < M) {k : Nat} :
    k ∈ whereIdx (fun v => decide (8 / 10 ≤ v / (M * (8 / 10)))) S ↔ k < S.length ∧ 64 / 100 * M ≤ S.getD k 0 := by
  have key : ∀ v : K, 8 / 10 ≤ v / (M * (8 / 10)) ↔ 64 / 100 * M ≤ v := by
    intro v
    rw [le_div_iff₀ (by positivity)]
    constructor <;> intro h <;> linarith
  rw [mem_whereIdx]
  constructor
  · rintro ⟨v, hv, e⟩
    obtain ⟨hk, rfl⟩ := List.getElem?_eq_some_iff.1 hv
    rw [List.getD_eq_getElem _ _ hk]
    exact ⟨hk, (key _).1 (by simpa using e)⟩
  · rintro ⟨hk, e⟩
    rw [List.getD_eq_getElem _ _ hk] at e
    exact ⟨_, by rw [List.getElem?_eq_getElem hk], by simpa using (key _).2 e⟩

theorem mapM_getE {f : List K} : ∀ {l : List Nat}, (∀ k ∈ l, k < f.length) → l.mapM (getE f) = .ok (l.map fun k => f.getD k 0)
  | [], _ => rfl
  | k :: l, h => by
    rw [List.mapM_cons, getE_getD (h k (List.mem_cons_self ..)), mapM_getE (fun i hi => h i (List.mem_cons_of_mem _ hi))]
    rfl

/-- `tpd` is `m0 / m1` between the frequencies of the band edges at 64% of the maximum. -/
theorem tpd_eq {pf pS : PyIn K} {f S : List K} {i j : Nat} (hf : pf.IsArr f) (hS : pS.IsArr S) (hp : f.Pairwise (· < ·))
    (hl : f.length = S.length) (hpos : ∀ s ∈ S, 0 ≤ s) (hen : ∃ s ∈ S, 0 < s) (hb : BandEdges S (64 / 100) i j) :
    tpd pf pS = (do
      let m0 ← computeMoment (vec f) (vec S) 0 (f.getD i 0) (.fin (f.getD j 0))
      let m1 ← computeMoment (vec f) (vec S) 1 (f.getD i 0) (.fin (f.getD j 0))
      divE m0 m1) := by
  obtain ⟨s, hs, hs0⟩ := hen
  obtain ⟨M, hM⟩ := pyMax_exists (l := S) (by rintro rfl; cases hs)
  obtain ⟨hMm, hMl⟩ := pyMax_spec hM
  have hM0 : 0 < M := lt_of_lt_of_le hs0 (hMl s hs)
  unfold tpd
  rw [vecIn_of_isArr hf, vecIn_of_isArr hS]
  simp only [bind, Except.bind, hM]
  rw [if_neg (by positivity)]
  have hsub : ∀ k ∈ whereIdx (fun v => decide (8 / 10 ≤ v / (M * (8 / 10)))) S, k < f.length := by
    intro k hk; rw [tpd_selected hM0] at hk; omega
  rw [mapM_getE hsub]
  dsimp only
  have hil : i < S.length := lt_of_le_of_lt hb.le hb.lt
  have hmi : i ∈ whereIdx (fun v => decide (8 / 10 ≤ v / (M * (8 / 10)))) S := (tpd_selected hM0).2 ⟨hil, hb.left M hMm⟩
  have hmj : j ∈ whereIdx (fun v => decide (8 / 10 ≤ v / (M * (8 / 10)))) S := (tpd_selected hM0).2 ⟨hb.lt, hb.right M hMm⟩
  have hin : ∀ k ∈ whereIdx (fun v => decide (8 / 10 ≤ v / (M * (8 / 10)))) S, i ≤ k ∧ k ≤ j := by
    intro k hk
    rw [tpd_selected hM0] at hk
    by_contra hc
    obtain ⟨v, hv, hlt⟩ := hb.outside k hk.1 (by omega)
    have := hMl v hv
    linarith [hk.2]
  generalize whereIdx (fun v => decide (8 / 10 ≤ v / (M * (8 / 10)))) S = L at *
  have hne : (L.map fun k => f.getD k 0) ≠ [] := by
    intro h; rw [List.map_eq_nil_iff] at h; rw [h] at hmi; cases hmi
  obtain ⟨lo, hlo⟩ := pyMin_exists hne
  obtain ⟨hi, hhi⟩ := pyMax_exists hne
  have elo : lo = f.getD i 0 := by
    obtain ⟨a, b⟩ := pyMin_spec hlo
    obtain ⟨k, hk, rfl⟩ := List.mem_map.1 a
    exact le_antisymm (b _ (List.mem_map.2 ⟨i, hmi, rfl⟩)) (inc_le hp (hin k hk).1 (hsub k hk))
  have ehi : hi = f.getD j 0 := by
    obtain ⟨a, b⟩ := pyMax_spec hhi
    obtain ⟨k, hk, rfl⟩ := List.mem_map.1 a
    exact le_antisymm (inc_le hp (hin k hk).2 (by have := hb.lt; omega)) (b _ (List.mem_map.2 ⟨j, hmj, rfl⟩))
  rw [hlo, hhi, elo, ehi]

/-- Band edges exist for every spectrum with energy. -/
theorem bandEdges_exists {S : List K} (hpos : ∀ s ∈ S, 0 ≤ s) (hne : S ≠ []) : ∃ i j, BandEdges S (64 / 100) i j := by
  obtain ⟨M, hM⟩ := pyMax_exists hne
  obtain ⟨hMm, hMl⟩ := pyMax_spec hM
  have hM0 := hpos M hMm
  let P : Nat → Prop := fun k => k < S.length ∧ 64 / 100 * M ≤ S.getD k 0
  obtain ⟨k, hk, ek⟩ := List.getElem_of_mem hMm
  have hPk : P k := ⟨hk, by rw [List.getD_eq_getElem _ _ hk, ek]; linarith⟩
  have hex : ∃ k, P k := ⟨k, hPk⟩
  classical
  let i := Nat.find hex
  let j := Nat.findGreatest P S.length
  have hi : P i := Nat.find_spec hex
  have hj : P j := Nat.findGreatest_spec hk.le hPk
  have edge : ∀ k, P k → ∀ v ∈ S, 64 / 100 * v ≤ S.getD k 0 := by
    intro k hk v hv
    have := hMl v hv
    linarith [hk.2]
  refine ⟨i, j, ⟨Nat.find_min' hex hj, hj.1, edge i hi, edge j hj, ?_⟩⟩
  intro k hk ho
  refine ⟨M, hMm, ?_⟩
  by_contra hc
  have hP : P k := ⟨hk, not_lt.1 hc⟩
  rcases ho with h | h
  · exact Nat.find_min hex h hP
  · exact absurd hP (Nat.findGreatest_is_greatest h hk.le)

/-- **C61.**  On a uniform axis of non-negative frequencies, when the band of densities of at least 64% of the maximum covers
more than one grid point, `tpd` returns `m0 / m1` over that band, and the result lies between the inverse frequencies of
the band's ends (the documentation suggests 80%: see `tpd_threshold`). -/
theorem tpd_spec_partial {pf pS : PyIn K} {f S : List K} {h : K} {i j : Nat} (hf : pf.IsArr f) (hS : pS.IsArr S)
    (hu : UniformAxis f h) (hl : f.length = S.length) (h0 : 0 ≤ f.getD 0 0) (hpos : ∀ s ∈ S, 0 ≤ s) (hen : ∃ s ∈ S, 0 < s)
    (hb : BandEdges S (64 / 100) i j) (hij : i < j) :
    ∃ m0 m1, computeMoment pf pS 0 (f.getD i 0) (.fin (f.getD j 0)) = .ok m0 ∧
      computeMoment pf pS 1 (f.getD i 0) (.fin (f.getD j 0)) = .ok m1 ∧
      tpd pf pS = .ok (m0 / m1) ∧ 1 / f.getD j 0 ≤ m0 / m1 ∧ m0 / m1 * f.getD i 0 ≤ 1 := by
  have hlt := hb.lt
  have h2 : 2 ≤ f.length := by omega
  have hm : monotonicIncreasingConstantStep f = .ok true := uniform_check_accepts_uniform h2 hu
  have hp := uniform_check_increasing hm
  have hfn : ∀ k, k < f.length → 0 ≤ f.getD k 0 := fun k hk => h0.trans (inc_le hp (Nat.zero_le _) hk)
  have hfi : 0 ≤ f.getD i 0 := hfn i (by omega)
  have hfj : 0 < f.getD j 0 := lt_of_le_of_lt hfi (inc_lt hp hij (by omega))
  have hje : f.getD j 0 ≤ f.getD (f.length - 1) 0 := inc_le hp (by omega) (by omega)
  have hn : ¬ (f.getD i 0 = -1 ∨ (FMax.fin (f.getD j 0)) = .fin (-1)) := by
    rintro (e | e)
    · linarith
    · have := FMax.fin.inj e; linarith
  have hSj : 0 < S.getD j 0 := by
    obtain ⟨s, hs, hs0⟩ := hen
    have := hb.right s hs
    linarith
  have fu0 : firstUsable f 0 = 0 := by unfold firstUsable; rw [if_neg (by omega)]
  have fu1 : firstUsable f 1 = 0 := by unfold firstUsable; rw [if_neg (by omega)]
  have sel : ∀ m : Int, firstUsable f m = 0 → MomentRange f m (f.getD i 0) (.fin (f.getD j 0)) i j false := by
    intro m hm0
    refine ⟨fun h => absurd h hn, fun _ => ?_, fun F _ e _ => ?_, fun F _ e hF => ?_, fun _ e => by cases e⟩
    · rw [hm0]; exact isNearest_self hp (Nat.zero_le _) (by omega)
    · rw [← FMax.fin.inj e, hm0]; exact ⟨isNearest_self hp (Nat.zero_le _) (by omega), rfl⟩
    · rw [← FMax.fin.inj e] at hF; exact absurd hje (not_le.2 hF)
  have def' : ∀ m : Int, ∃ v, computeMoment pf pS m (f.getD i 0) (.fin (f.getD j 0)) = .ok v ∧ 0 ≤ v := fun m =>
    moment_defined hf hS hu h2 hl h0 hpos (Or.inl (inc_le hp hij.le (by omega))) (Or.inr (Or.inr ⟨_, rfl, hje⟩))
  obtain ⟨m0, e0, p0⟩ := def' 0
  obtain ⟨m1, e1, -⟩ := def' 1
  have p1 : 0 < m1 := moment_pos hf hS hu h0 hpos (sel 1 fu1) hij hij.le (le_refl _) (Or.inl hfj) hSj e1
  have same : ∀ m, computeMoment (vec f) (vec S) m (f.getD i 0) (.fin (f.getD j 0)) = computeMoment pf pS m (f.getD i 0) (.fin (f.getD j 0)) := by
    intro m
    unfold computeMoment
    rw [vecIn_of_isArr hf, vecIn_of_isArr hS, vecIn_of_isArr (isArr_vec f), vecIn_of_isArr (isArr_vec S)]
  refine ⟨m0, m1, e0, e1, ?_, ?_⟩
  · rw [tpd_eq hf hS hp hl hpos hen hb, same, same, e0, e1]
    simp only [bind, Except.bind, divE]
    rw [if_neg p1.ne']
  · obtain ⟨w, hw, hsum⟩ := momentSum_slice_weights (f := f) hij.le (show j < f.length by omega)
    have val : ∀ (m : Int) (v : K), 0 ≤ m → firstUsable f m = 0 →
        computeMoment pf pS m (f.getD i 0) (.fin (f.getD j 0)) = .ok v → v = ∑ k ∈ Icc i j, w k * (f.getD k 0 ^ m * S.getD k 0) := by
      intro m v hm0 hfu hv
      obtain ⟨i', j', t', hr', -, -, hst'⟩ := computeMoment_structure hm m (f.getD i 0) (.fin (f.getD j 0))
      obtain ⟨rfl, rfl, rfl⟩ := momentRange_unique (sel m hfu) hr'
      rw [hst' hf hS hl, momentOn_false, hsum m S hl.symm (by rintro ⟨h, -⟩; omega)] at hv
      exact (Except.ok.inj hv).symm
    have v0 := val 0 m0 (by omega) fu0 e0
    have v1 := val 1 m1 (by omega) fu1 e1
    have t0 : ∀ k ∈ Icc i j, 0 ≤ w k * S.getD k 0 := by
      intro k hk
      rw [mem_Icc] at hk
      exact mul_nonneg ((hw h hu).1 k hk.1 hk.2) (getD_nonneg hpos k)
    have up : m1 ≤ f.getD j 0 * m0 := by
      rw [v0, v1, mul_sum]
      apply sum_le_sum
      intro k hk
      have a := t0 k hk
      rw [mem_Icc] at hk
      have b := mul_le_mul_of_nonneg_right (inc_le hp hk.2 (by omega)) a
      rw [zpow_zero, zpow_one]
      linarith
    have lo : f.getD i 0 * m0 ≤ m1 := by
      rw [v0, v1, mul_sum]
      apply sum_le_sum
      intro k hk
      have a := t0 k hk
      rw [mem_Icc] at hk
      have b := mul_le_mul_of_nonneg_right (inc_le hp hk.1 (by omega)) a
      rw [zpow_zero, zpow_one]
      linarith
    constructor
    · rw [div_le_div_iff₀ hfj p1]; linarith
    · rw [div_mul_eq_mul_div, div_le_one p1]; linarith

/-- **C61 (finding).**  When only one grid point reaches 64% of the maximum, both moments are integrals over a single
point, that is zero, and `tpd` returns NaN — a narrow peak has no TpD. -/
theorem tpd_single_bin_nan {pf pS : PyIn K} {f S : List K} {h : K} {i : Nat} (hf : pf.IsArr f) (hS : pS.IsArr S)
    (hu : UniformAxis f h) (h2 : 2 ≤ f.length) (hl : f.length = S.length) (h0 : 0 ≤ f.getD 0 0) (hpos : ∀ s ∈ S, 0 ≤ s) (hen : ∃ s ∈ S, 0 < s)
    (hb : BandEdges S (64 / 100) i i) : tpd pf pS = .error .nonFinite := by
  have hlt := hb.lt
  have hm : monotonicIncreasingConstantStep f = .ok true := uniform_check_accepts_uniform h2 hu
  have hp := uniform_check_increasing hm
  have hfi : 0 ≤ f.getD i 0 := h0.trans (inc_le hp (Nat.zero_le _) (by omega))
  have hje : f.getD i 0 ≤ f.getD (f.length - 1) 0 := inc_le hp (by omega) (by omega)
  have hn : ¬ (f.getD i 0 = -1 ∨ (FMax.fin (f.getD i 0)) = .fin (-1)) := by
    rintro (e | e)
    · linarith
    · have := FMax.fin.inj e; linarith
  have val : ∀ m : Int, 0 ≤ m → computeMoment (vec f) (vec S) m (f.getD i 0) (.fin (f.getD i 0)) = .ok 0 := by
    intro m hm0
    have fu : firstUsable f m = 0 := by unfold firstUsable; rw [if_neg (by omega)]
    have sel : MomentRange f m (f.getD i 0) (.fin (f.getD i 0)) i i false := by
      refine ⟨fun h => absurd h hn, fun _ => ?_, fun F _ e _ => ?_, fun F _ e hF => ?_, fun _ e => by cases e⟩
      · rw [fu]; exact isNearest_self hp (Nat.zero_le _) (by omega)
      · rw [← FMax.fin.inj e, fu]; exact ⟨isNearest_self hp (Nat.zero_le _) (by omega), rfl⟩
      · rw [← FMax.fin.inj e] at hF; exact absurd hje (not_le.2 hF)
    obtain ⟨i', j', t', hr', -, -, hst'⟩ := computeMoment_structure hm m (f.getD i 0) (.fin (f.getD i 0))
    obtain ⟨rfl, rfl, rfl⟩ := momentRange_unique sel hr'
    rw [hst' (isArr_vec f) (isArr_vec S) hl, momentOn_false]
    unfold momentSum
    rw [if_neg (by rintro ⟨h, -⟩; omega)]
    have hl1 := pySlice_len1 (l := f) (i := i) (j := i) (by omega)
    have hl2 := pySlice_len1 (l := S) (i := i) (j := i) (by omega)
    obtain ⟨a, ea⟩ := List.length_eq_one_iff.1 (hl1.trans (by omega))
    obtain ⟨b, eb⟩ := List.length_eq_one_iff.1 (hl2.trans (by omega))
    rw [ea, eb]
    simp [simpson, simpOdd]
  rw [tpd_eq hf hS hp hl hpos hen hb, val 0 (by omega), val 1 (by omega)]
  simp [bind, Except.bind, divE]

/-- **C61 (no energy).**  A spectrum without energy makes `tpd` raise. -/
theorem tpd_no_energy {pf pS : PyIn K} {f S : List K} (hf : pf.IsArr f) (hS : pS.IsArr S) (hne : S ≠ []) (h0 : ∀ s ∈ S, s = 0) :
    tpd pf pS = .error (.valueError "min() arg is an empty sequence") := by
  obtain ⟨M, hM⟩ := pyMax_exists hne
  have := h0 M (pyMax_spec hM).1
  unfold tpd
  rw [vecIn_of_isArr hf, vecIn_of_isArr hS]
  simp only [bind, Except.bind, hM]
  rw [if_pos (by rw [this]; ring)]
  rfl

/-- **C61 (finding).**  The threshold is 64% of the maximum, not 80%: a density of 70% of the maximum at 2 Hz is included,
so the result is not `m0 / m1` over the band of densities of at least 80%. -/
theorem tpd_threshold :
    let f : List ℚ := [1, 2, 3, 4, 5]
    let S : List ℚ := [0, 7, 10, 8, 0]
    BandEdges S (8 / 10) 2 3 ∧ BandEdges S (64 / 100) 1 3 ∧ tpd (vec f) (vec S) = .ok (55 / 166) ∧
      (do let m0 ← computeMoment (vec f) (vec S) 0 3 (.fin 4)
          let m1 ← computeMoment (vec f) (vec S) 1 3 (.fin 4)
          divE m0 m1) = .ok (9 / 31) := by
  refine ⟨⟨by decide +kernel, by decide +kernel, by decide +kernel, by decide +kernel, by decide +kernel⟩, ⟨by decide +kernel, by decide +kernel, by decide +kernel, by decide +kernel, by decide +kernel⟩, by decide +kernel, by decide +kernel⟩

/-- The hypotheses of `tpd_spec_partial` and of `tpd_single_bin_nan` are met by concrete spectra. -/
example : ∃ (f S : List ℚ) (i j : Nat), UniformAxis f 1 ∧ f.length = S.length ∧ 0 ≤ f.getD 0 0 ∧ (∀ s ∈ S, 0 ≤ s) ∧ (∃ s ∈ S, 0 < s) ∧
    BandEdges S (64 / 100) i j ∧ i < j :=
  ⟨[1, 2, 3, 4, 5], [0, 7, 10, 8, 0], 1, 3,
    ⟨by decide +kernel, fun i hi => by simp only [List.length_cons, List.length_nil] at hi; have : i < 4 := by omega
                                       interval_cases i <;> norm_num⟩, rfl, by decide +kernel, by decide +kernel,
    by decide +kernel, tpd_threshold.2.1, by decide⟩

example : tpd (vec ([1, 2, 3, 4] : List ℚ)) (vec [1, 1, 10, 1]) = .error .nonFinite :=
  tpd_single_bin_nan (h := 1) (i := 2) (isArr_vec [1, 2, 3, 4]) (isArr_vec [1, 1, 10, 1])
    ⟨by decide +kernel, fun i hi => by simp only [List.length_cons, List.length_nil] at hi; have : i < 3 := by omega
                                       interval_cases i <;> norm_num⟩ (by decide) rfl
    (by decide +kernel) (by decide +kernel) (by decide +kernel)
    ⟨by decide, by decide, by decide +kernel, by decide +kernel, by decide +kernel⟩

/-! ## Concrete cases: the hypotheses of the theorems above are met -/

example := tpd_spec_partial (f := ([1, 2, 3, 4, 5] : List ℚ)) (S := [0, 7, 10, 8, 0]) (h := 1) (i := 1) (j := 3) (isArr_vec _) (isArr_vec _)
  (uniformAxis_of_steps (by norm_num) (by decide +kernel)) rfl (by norm_num) (by decide +kernel) (by decide +kernel) tpd_threshold.2.1 (by decide)
example := tpd_no_energy (f := ([1, 2, 3] : List ℚ)) (S := [0, 0, 0]) (isArr_vec _) (isArr_vec _) (by simp) (by simp)

end Verif
