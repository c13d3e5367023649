import Verif.Props.Tps

/-! # C95: what `compute_tps` returns for every spectrum on a uniform axis -/

set_option linter.unusedSectionVars false

namespace Verif

variable {K : Type} [Field K] [LinearOrder K] [IsStrictOrderedRing K]

/-- The grid points with maximal density, in increasing order, are exactly `is`. -/
def MaximaAre (S : List K) (is : List Nat) : Prop :=
  is.Pairwise (· < ·) ∧ ∀ k, k ∈ is ↔ IsMaxAt S k

theorem maximaAre_unique {S : List K} {is js : List Nat} (h : MaximaAre S is) (h' : MaximaAre S js) : is = js :=
  eq_of_pairwise_mem h.1 h'.1 fun k => (h.2 k).trans (h'.2 k).symm

theorem maximaAre_where {S : List K} {m : Nat} (hm : IsMaxAt S m) : MaximaAre S (whereIdx (fun v => decide (v = S.getD m 0)) S) := by
  refine ⟨whereIdx_pairwise _ _, fun k => ?_⟩
  rw [mem_imax]
  constructor
  · rintro ⟨hk, e⟩
    exact ⟨hk, by rw [e]; exact hm.2⟩
  · intro hk
    exact ⟨hk.1, le_antisymm (hm.2 _ (getD_mem' hk.1)) (hk.2 _ (getD_mem' hm.1))⟩

/-- Every non-empty spectrum has a list of maxima, which is not empty. -/
theorem maximaAre_exists {S : List K} (h : S ≠ []) : ∃ is, MaximaAre S is ∧ is ≠ [] := by
  obtain ⟨m, hm⟩ := exists_isMaxAt h
  refine ⟨_, maximaAre_where hm, fun e => ?_⟩
  have := ((maximaAre_where hm).2 m).2 hm
  rw [e] at this
  simp at this

/-- The period belonging to a smoothed peak frequency; a frequency 0 gives `inf`. -/
def peakPeriodOf (F : K) : Except PyErr K := if F = 0 then .error .nonFinite else .ok (1 / F)

/-- Vertex of the parabola through the grid point `j` and its neighbours. -/
def vertexAt (f S : List K) (h : K) (j : Nat) : K :=
  f.getD j 0 + h * (S.getD (j + 1) 0 - S.getD (j - 1) 0) / (2 * (2 * S.getD j 0 - S.getD (j - 1) 0 - S.getD (j + 1) 0))

/-- **C95.**  The smoothed peak frequency `F` that `compute_tps` inverts, for a spectrum on a uniform axis of at least three points, some density of
which reaches `1e-10`, by the list of the grid points with maximal density:
* one interior point `i`: the vertex of the parabola through it and its neighbours;
* only the first (last) point: the vertex of the parabola through the first (last) three points if these are concave, otherwise that point;
* two neighbouring points: the point midway; two points that are no neighbours: the first one;
* three or more: the second one. -/
inductive SmoothedPeak (f S : List K) (h : K) : List Nat → K → Prop
  | interior {i : Nat} (h1 : 1 ≤ i) (h2 : i + 1 < f.length) : SmoothedPeak f S h [i] (vertexAt f S h i)
  | first (hc : S.getD 0 0 + S.getD 2 0 < 2 * S.getD 1 0) : SmoothedPeak f S h [0] (vertexAt f S h 1)
  | firstFlat (hc : 2 * S.getD 1 0 ≤ S.getD 0 0 + S.getD 2 0) : SmoothedPeak f S h [0] (f.getD 0 0)
  | last {i : Nat} (hi : i + 1 = f.length) (hc : S.getD i 0 + S.getD (i - 2) 0 < 2 * S.getD (i - 1) 0) : SmoothedPeak f S h [i] (vertexAt f S h (i - 1))
  | lastFlat {i : Nat} (hi : i + 1 = f.length) (hc : 2 * S.getD (i - 1) 0 ≤ S.getD i 0 + S.getD (i - 2) 0) : SmoothedPeak f S h [i] (f.getD i 0)
  | twin {i : Nat} : SmoothedPeak f S h [i, i + 1] ((f.getD i 0 + f.getD (i + 1) 0) / 2)
  | apart {i j : Nat} (hij : i + 1 < j) : SmoothedPeak f S h [i, j] (f.getD i 0)
  | many {i j k : Nat} {l : List Nat} : SmoothedPeak f S h (i :: j :: k :: l) (f.getD j 0)

theorem not_concave {h a y0 y1 y2 : K} (hh : 0 < h) (ha : 2 * h ^ 2 * a = y0 - 2 * y1 + y2) (hc : 2 * y1 ≤ y0 + y2) : ¬ a < 0 := by
  intro hn
  have : 2 * h ^ 2 * a < 0 := mul_neg_of_pos_of_neg (by positivity) hn
  linarith

/-- **C95 (total).**  On a uniform axis of at least three points, for densities that reach `1e-10` somewhere, `compute_tps` returns `1 / F` for the
smoothed peak frequency `F` described by `SmoothedPeak` (`inf` if `F = 0`). -/
theorem tps_total {pf pS : PyIn K} {f S : List K} {h : K} (hf : pf.IsArr f) (hS : pS.IsArr S) (hl : f.length = S.length)
    (hu : UniformAxis f h) (h0 : 0 ≤ f.getD 0 0) (h3 : 3 ≤ f.length) (hbig : ∃ v ∈ S, 1 / 10 ^ 10 ≤ v) :
    ∃ is F, MaximaAre S is ∧ SmoothedPeak f S h is F ∧ computeTps pf pS = peakPeriodOf F := by
  have hh := hu.1
  obtain ⟨v, hv, hvb⟩ := hbig
  obtain ⟨m, hm⟩ := exists_isMaxAt (S := S) (by intro e; rw [e] at hv; simp at hv)
  have hbig : 1 / 10 ^ 10 ≤ S.getD m 0 := le_trans hvb (hm.2 v hv)
  have hM := maximaAre_where hm
  have hform : computeTpsL f S = computeTpsL f S := rfl
  conv at hform => rhs; unfold computeTpsL
  rw [pyMax_of_isMaxAt hm] at hform
  simp only [bind, Except.bind] at hform
  rw [if_neg (not_lt.2 hbig)] at hform
  rw [computeTps_eq hf hS hl, hform]
  rcases hI : whereIdx (fun v => decide (v = S.getD m 0)) S with _ | ⟨i, _ | ⟨j, _ | ⟨k, rest⟩⟩⟩ <;> rw [hI] at hM
  · have := (hM.2 m).2 hm
    simp at this
  · have hi : IsMaxAt S i := (hM.2 i).1 (by simp)
    have hi1 := hi.1
    simp only [getE, List.getElem?_cons_zero]
    rw [if_pos (by omega)]
    by_cases hi0 : i = 0
    · subst hi0
      rw [if_pos rfl]
      obtain ⟨a, b, hfit, ea, eb⟩ := fitAt_uniform hu hl (le_refl 1) (by omega)
      rw [hfit]
      dsimp only
      by_cases hc : S.getD 0 0 + S.getD 2 0 < 2 * S.getD 1 0
      · obtain ⟨ha, hve⟩ := vertex_eq hh ea eb hc
        refine ⟨_, _, hM, .first hc, ?_⟩
        rw [if_pos ha, hve]
        rfl
      · refine ⟨_, _, hM, .firstFlat (not_lt.1 hc), ?_⟩
        rw [if_neg (not_concave hh ea (not_lt.1 hc))]
        have := getE_getD (l := f) (i := 0) (by omega)
        unfold getE at this
        rw [this]
        rfl
    · by_cases hil : i + 1 = f.length
      · rw [if_neg hi0, if_pos (by omega)]
        have e2 : f.length - 2 = i - 1 := by omega
        obtain ⟨a, b, hfit, ea, eb⟩ := fitAt_uniform hu hl (show 1 ≤ i - 1 by omega) (by omega)
        have e3 : i - 1 + 1 = i := by omega
        have e4 : i - 1 - 1 = i - 2 := by omega
        rw [e2, hfit]
        rw [e3, e4] at ea eb
        dsimp only
        by_cases hc : S.getD i 0 + S.getD (i - 2) 0 < 2 * S.getD (i - 1) 0
        · obtain ⟨ha, hve⟩ := vertex_eq hh ea eb (by linarith)
          refine ⟨_, _, hM, .last hil hc, ?_⟩
          rw [if_pos ha, hve]
          unfold vertexAt
          rw [e3, e4]
          rfl
        · refine ⟨_, _, hM, .lastFlat hil (not_lt.1 hc), ?_⟩
          rw [if_neg (not_concave hh ea (by linarith [not_lt.1 hc]))]
          have := getE_getD (l := f) (i := i) (by omega)
          unfold getE at this
          rw [this]
          rfl
      · rw [if_neg hi0, if_neg (by omega)]
        have only : IsOnlyMaxAt S i := ⟨hi1, fun k hk hne => lt_of_le_of_ne (hi.2 _ (getD_mem' hk)) fun e => hne (by
          have := (hM.2 k).2 ⟨hk, by rw [e]; exact hi.2⟩
          simpa using this)⟩
        have y0 := only.2 (i - 1) (by omega) (by omega)
        have y2 := only.2 (i + 1) (by omega) (by omega)
        obtain ⟨a, b, hfit, ea, eb⟩ := fitAt_uniform hu hl (show 1 ≤ i by omega) (by omega)
        obtain ⟨ha, hve⟩ := vertex_eq hh ea eb (by linarith)
        refine ⟨_, _, hM, .interior (by omega) (by omega), ?_⟩
        rw [hfit]
        dsimp only
        rw [if_pos ha, hve]
        rfl
  · have hi : IsMaxAt S i := (hM.2 i).1 (by simp)
    have hj : IsMaxAt S j := (hM.2 j).1 (by simp)
    have hij : i < j := by simpa using hM.1
    by_cases hadj : j - i = 1
    · have e : j = i + 1 := by omega
      subst e
      have ht : IsTwinMaxAt S i := by
        refine ⟨hj.1, le_antisymm (hi.2 _ (getD_mem' hj.1)) (hj.2 _ (getD_mem' hi.1)), fun k hk h1 h2 => lt_of_le_of_ne (hi.2 _ (getD_mem' hk)) fun e => ?_⟩
        have := (hM.2 k).2 ⟨hk, by rw [e]; exact hi.2⟩
        simp only [List.mem_cons, List.not_mem_nil, or_false] at this
        tauto
      obtain ⟨hF, hp⟩ := tps_twin hf hS hl hu h0 ht (le_trans hbig (hi.2 _ (getD_mem' hm.1)))
      refine ⟨_, _, hM, .twin, ?_⟩
      rw [computeTps_eq hf hS hl, hform, hI] at hF
      rw [hF]
      unfold peakPeriodOf
      rw [if_neg hp.ne']
    · refine ⟨_, _, hM, .apart (by omega), ?_⟩
      simp only [getE, List.getElem?_cons_zero]
      rw [if_pos (by omega), if_neg hadj]
      have := getE_getD (l := f) (i := i) (by have := hi.1; omega)
      unfold getE at this
      rw [this]
      rfl
  · have hj : IsMaxAt S j := (hM.2 j).1 (by simp)
    refine ⟨_, _, hM, .many, ?_⟩
    simp only [getE, List.getElem?_cons_zero, List.getElem?_cons_succ]
    rw [if_pos (by omega)]
    have := getE_getD (l := f) (i := j) (by have := hj.1; omega)
    unfold getE at this
    rw [this]
    rfl

/-- The smoothed peak frequency is determined by the spectrum. -/
theorem smoothedPeak_unique {f S : List K} {h : K} {is : List Nat} {F F' : K} (h3 : 3 ≤ f.length) (a : SmoothedPeak f S h is F) (b : SmoothedPeak f S h is F') : F = F' := by
  cases a <;> cases b <;> first | rfl | (exfalso; omega) | (exfalso; linarith)

/-- **C95 (short axes).**  With two points the result is the inverse of the frequency of the larger density, or of the mean frequency when both are equal;
with one point it is the inverse of its frequency. -/
theorem tps_short {pf pS : PyIn K} {f S : List K} (hf : pf.IsArr f) (hS : pS.IsArr S) (hl : f.length = S.length)
    (hbig : ∃ v ∈ S, 1 / 10 ^ 10 ≤ v) :
    (f.length = 1 → computeTps pf pS = peakPeriodOf (f.getD 0 0)) ∧
    (f.length = 2 → S.getD 1 0 < S.getD 0 0 → computeTps pf pS = peakPeriodOf (f.getD 0 0)) ∧
    (f.length = 2 → S.getD 0 0 < S.getD 1 0 → computeTps pf pS = peakPeriodOf (f.getD 1 0)) ∧
    (f.length = 2 → S.getD 0 0 = S.getD 1 0 → computeTps pf pS = peakPeriodOf ((f.getD 0 0 + f.getD 1 0) / 2)) := by
  obtain ⟨v, hv, hvb⟩ := hbig
  rw [computeTps_eq hf hS hl]
  clear hf hS
  have ev : ∀ w : K, peakPeriodOf w = invE w := fun w => rfl
  refine ⟨fun h => ?_, fun h => ?_, fun h => ?_, fun h => ?_⟩
  · obtain ⟨a, rfl⟩ := List.length_eq_one_iff.1 h
    obtain ⟨s, rfl⟩ := List.length_eq_one_iff.1 (hl ▸ h)
    rw [List.mem_singleton] at hv
    subst hv
    unfold computeTpsL
    rw [pyMax_of_isMaxAt (S := [v]) (i := 0) ⟨by simp, by simp⟩]
    simp only [bind, Except.bind, List.getD_cons_zero]
    rw [if_neg (not_lt.2 hvb)]
    simp [whereIdx, List.range, List.range.loop, getE, ev]
  all_goals
    intro hs
    obtain ⟨a, b, rfl⟩ := List.length_eq_two.1 h
    obtain ⟨s, t, rfl⟩ := List.length_eq_two.1 (hl ▸ h)
    simp only [List.getD_cons_zero, List.getD_cons_succ] at hs ⊢
    simp only [List.mem_cons, List.not_mem_nil, or_false] at hv
    unfold computeTpsL
  · have hb : 1 / 10 ^ 10 ≤ s := by rcases hv with rfl | rfl; exacts [hvb, hvb.trans hs.le]
    rw [pyMax_of_isMaxAt (S := [s, t]) (i := 0) ⟨by simp, by simp [hs.le]⟩]
    simp only [bind, Except.bind, List.getD_cons_zero]
    rw [if_neg (not_lt.2 hb)]
    simp [whereIdx, List.range, List.range.loop, List.filter, getE, ev, hs.ne]
  · have hb : 1 / 10 ^ 10 ≤ t := by rcases hv with rfl | rfl; exacts [hvb.trans hs.le, hvb]
    rw [pyMax_of_isMaxAt (S := [s, t]) (i := 1) ⟨by simp, by simp [hs.le]⟩]
    simp only [bind, Except.bind, List.getD_cons_zero, List.getD_cons_succ]
    rw [if_neg (not_lt.2 hb)]
    simp [whereIdx, List.range, List.range.loop, List.filter, getE, ev, hs.ne]
  · have hb : 1 / 10 ^ 10 ≤ s := by rcases hv with rfl | rfl; exacts [hvb, hs ▸ hvb]
    rw [pyMax_of_isMaxAt (S := [s, t]) (i := 0) ⟨by simp, by simp [hs]⟩]
    simp only [bind, Except.bind, List.getD_cons_zero]
    rw [if_neg (not_lt.2 hb)]
    subst hs
    simp [whereIdx, List.range, List.range.loop, List.filter, getE, ev]
    congr 1; ring

/-- **C95 (edges).**  If the maximum is at the first point only, the smoothed peak frequency is below the midpoint of the first interval; if it is at the
last point only, it is above the midpoint of the last one. -/
theorem tps_edge_side {f S : List K} {h F : K} (hu : UniformAxis f h) (hl : f.length = S.length) (h3 : 3 ≤ f.length) :
    (IsOnlyMaxAt S 0 → SmoothedPeak f S h [0] F → F < (f.getD 0 0 + f.getD 1 0) / 2) ∧
    (IsOnlyMaxAt S (f.length - 1) → SmoothedPeak f S h [f.length - 1] F → (f.getD (f.length - 2) 0 + f.getD (f.length - 1) 0) / 2 < F) := by
  have hh := hu.1
  constructor
  · intro ho hp
    have y1 := ho.2 1 (by omega) (by omega)
    have y2 := ho.2 2 (by omega) (by omega)
    have e := hu.2 0 (by omega)
    simp only [zero_add] at e
    cases hp with
    | interior h1 h2 => omega
    | first hc =>
      unfold vertexAt
      simp only [Nat.sub_self, Nat.reduceAdd]
      have hD : 0 < 2 * (2 * S.getD 1 0 - S.getD 0 0 - S.getD 2 0) := by linarith
      have : h * (S.getD 2 0 - S.getD 0 0) / (2 * (2 * S.getD 1 0 - S.getD 0 0 - S.getD 2 0)) < -(h / 2) := by
        rw [div_lt_iff₀ hD]; nlinarith
      rw [e]; linarith
    | firstFlat hc => rw [e]; linarith
    | last hi hc => omega
    | lastFlat hi hc => omega
  · intro ho hp
    obtain ⟨n, hn⟩ : ∃ n, f.length = n + 3 := ⟨f.length - 3, by omega⟩
    rw [hn] at ho hp ⊢
    simp only [show n + 3 - 1 = n + 2 by omega, show n + 3 - 2 = n + 1 by omega] at ho hp ⊢
    have y1 := ho.2 (n + 1) (by omega) (by omega)
    have y0 := ho.2 n (by omega) (by omega)
    have e := hu.2 (n + 1) (by omega)
    generalize hi : n + 2 = i at *
    cases hp with
    | interior h1 h2 => omega
    | first hc => omega
    | firstFlat hc => omega
    | last hi' hc =>
      unfold vertexAt
      subst hi
      simp only [show n + 2 - 1 = n + 1 by omega, show n + 1 - 1 = n by omega, show n + 2 - 2 = n by omega, show n + 1 + 1 = n + 2 by omega] at *
      have hD : 0 < 2 * (2 * S.getD (n + 1) 0 - S.getD n 0 - S.getD (n + 2) 0) := by linarith
      have : h / 2 < h * (S.getD (n + 2) 0 - S.getD n 0) / (2 * (2 * S.getD (n + 1) 0 - S.getD n 0 - S.getD (n + 2) 0)) := by
        rw [lt_div_iff₀ hD]; nlinarith
      rw [e]; linarith
    | lastFlat hi' hc =>
      subst hi
      rw [show n + 2 = n + 1 + 1 by omega, e]; linarith

/-- Non-vacuity: one case of each kind. -/
example : computeTps (K := ℚ) (vec [1, 2, 3]) (vec [1, 3, 2]) = .ok (6 / 13) ∧ computeTps (K := ℚ) (vec [1, 2, 3]) (vec [3, 3, 1]) = .ok (2 / 3) ∧
    computeTps (K := ℚ) (vec [1, 2, 3]) (vec [3, 1, 3]) = .ok 1 ∧ computeTps (K := ℚ) (vec [1, 2, 3]) (vec [3, 3, 3]) = .ok (1 / 2) ∧
    computeTps (K := ℚ) (vec [1, 2, 3]) (vec [3, 1, 1]) = .ok 1 ∧ computeTps (K := ℚ) (vec [1, 2, 3]) (vec [5, 4, 0]) = .ok (6 / 7) := by
  refine ⟨?_, ?_, ?_, ?_, ?_, ?_⟩ <;> decide +kernel

/-! ## Concrete cases: the hypotheses of the theorems above are met -/

example := tps_total (f := ([0, 1, 2, 3] : List ℚ)) (S := [7, 5, 3, 2]) (h := 1) (isArr_vec _) (isArr_vec _) rfl
  (uniformAxis_of_steps (by norm_num) (by decide +kernel)) (by norm_num) (by simp) ⟨5, by simp, by norm_num⟩
example : computeTps (K := ℚ) (vec [2, 3]) (vec [5, 5]) = peakPeriodOf ((2 + 3) / 2) :=
  (tps_short (f := ([2, 3] : List ℚ)) (S := [5, 5]) (isArr_vec _) (isArr_vec _) rfl ⟨5, by simp, by norm_num⟩).2.2.2 rfl rfl
/-- A spectrum whose only maximum is the first value: the smoothed peak frequency stays below the middle of the first interval. -/
example : ∃ F, SmoothedPeak ([1, 2, 3] : List ℚ) [5, 4, 0] 1 [0] F ∧ F < (1 + 2) / 2 := by
  have hu : UniformAxis ([1, 2, 3] : List ℚ) 1 := uniformAxis_of_steps (by norm_num) (by decide +kernel)
  have hm : IsOnlyMaxAt ([5, 4, 0] : List ℚ) 0 := by
    refine ⟨by simp, fun k hk hne => ?_⟩
    have : k < 3 := hk
    interval_cases k <;> first | (norm_num; done) | (exact absurd rfl ‹_›)
  obtain ⟨is, F, h1, h2, -⟩ := tps_total (f := ([1, 2, 3] : List ℚ)) (S := [5, 4, 0]) (isArr_vec _) (isArr_vec _) rfl hu (by norm_num) (by simp)
    ⟨5, by simp, by norm_num⟩
  have h0 : MaximaAre ([5, 4, 0] : List ℚ) [0] := by
    refine ⟨by simp, fun k => ⟨fun hk => ?_, fun hk => ?_⟩⟩
    · have : k = 0 := by simpa using hk
      subst this
      exact ⟨by simp, fun l hl => by rcases List.mem_cons.1 hl with rfl | hl <;> [norm_num; (rcases List.mem_cons.1 hl with rfl | hl <;> [norm_num; (have := List.mem_singleton.1 hl; subst this; norm_num)])]⟩
    · have : k < 3 := hk.1
      have := hk.2 5 (by simp)
      interval_cases k <;> revert this <;> norm_num
  cases maximaAre_unique h1 h0
  have : F = F := smoothedPeak_unique (by simp) h2 h2
  exact ⟨F, h2, (tps_edge_side (S := [5, 4, 0]) hu rfl (by simp)).1 hm h2⟩
example := maximaAre_exists (S := ([3, 1, 3] : List ℚ)) (by simp)

end Verif
