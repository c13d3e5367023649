import Verif.Lemmas.Engine
import Verif.Model.Time

/-! # C01, C02, C03: sorting of waves and the input-shape contract of the time-domain functions -/

namespace Verif
variable {K : Type} [Field K] [LinearOrder K]

theorem sortWaveParams_eq (A : Argsort K) {ph pt : PyIn K} {h t : List K} (hh : ph.IsVec h) (ht : pt.IsVec t)
    (hne : h ≠ []) (hlen : h.length = t.length) :
    sortWaveParams A ph pt = .ok ((A.run h).reverse.map fun i => h.getD i 0,
      (A.run h).reverse.map fun i => t.getD i 0) := by
  have ht0 : t ≠ [] := by rintro rfl; simp at hlen; exact hne hlen
  simp [sortWaveParams, toArr_of_isVec hh, toArr_of_isVec ht, isOneD_vec, Arr.len]
  simp [hne, ht0, hlen]

omit [LinearOrder K] in
theorem zip_map_perm_aux (h t : List K) (hlen : h.length = t.length) (l : List Nat)
    (hl : l.Perm (List.range h.length)) :
    ((l.map fun i => h.getD i 0).zip (l.map fun i => t.getD i 0)).Perm (h.zip t) := by
  rw [List.zip_map']
  have h1 := hl.map (fun i => (h.getD i 0, t.getD i 0))
  refine h1.trans (List.Perm.of_eq ?_)
  apply List.ext_getElem
  · simp [hlen]
  · intro i hi1 hi2
    simp at hi1
    simp [hi1, hlen ▸ hi1]

/-- **C01.** On non-empty 1D inputs of equal length (and for *every* behaviour of `np.argsort` on ties)
`sort_wave_params` succeeds, the heights come out in descending order and the (height, period) pairs are
a rearrangement of the input pairs. -/
theorem sort_keeps_waves (A : Argsort K) {ph pt : PyIn K} {h t : List K} (hh : ph.IsVec h) (ht : pt.IsVec t)
    (hne : h ≠ []) (hlen : h.length = t.length) :
    ∃ hs ts, sortWaveParams A ph pt = .ok (hs, ts) ∧ hs.length = h.length ∧ ts.length = h.length ∧
      hs.Pairwise (· ≥ ·) ∧ (hs.zip ts).Perm (h.zip t) := by
  have hl : (A.run h).length = h.length := by simpa using (A.perm h).length_eq
  refine ⟨_, _, sortWaveParams_eq A hh ht hne hlen, by simp [hl], by simp [hl], ?_, ?_⟩
  · rw [List.map_reverse, List.pairwise_reverse]
    exact A.sorted h
  · exact zip_map_perm_aux h t hlen _ ((List.reverse_perm _).trans (A.perm h))

/-! ## A concrete argsort (so that the `Argsort` contract is known to be satisfiable) -/

/-- Order of indices by value. -/
def ByVal (l : List K) (i j : Nat) : Prop := l.getD i 0 ≤ l.getD j 0

instance (l : List K) : DecidableRel (ByVal l) := fun i j => inferInstanceAs (Decidable (l.getD i 0 ≤ l.getD j 0))
instance (l : List K) : Std.Total (ByVal l) := ⟨fun _ _ => le_total _ _⟩
instance (l : List K) : IsTrans Nat (ByVal l) := ⟨fun _ _ _ => le_trans⟩

/-- Stable argsort: sort the indices by value. -/
def stableArgsort : Argsort K where
  run l := (List.range l.length).insertionSort (ByVal l)
  perm l := List.perm_insertionSort _ _
  sorted l := by
    rw [List.pairwise_map]
    exact List.pairwise_insertionSort (ByVal l) _

/-- Another argsort, which orders equal values by *descending* index. -/
def antiArgsort : Argsort K where
  run l := (List.range l.length).reverse.insertionSort (ByVal l)
  perm l := (List.perm_insertionSort _ _).trans (List.reverse_perm _)
  sorted l := by
    rw [List.pairwise_map]
    exact List.pairwise_insertionSort (ByVal l) _

/-- Non-vacuity of C01 and replay of /repo/tests/core_time_test.py `test_sort_wave_params`-style input. -/
example : sortWaveParams (stableArgsort (K := ℚ)) (vec [1, 3, 2]) (vec [10, 30, 20]) =
    .ok ([3, 2, 1], [30, 20, 10]) := by decide +kernel

/-! ## C02 -/

/-- Specification: the input denotes a non-empty one-dimensional array. -/
def PyIn.OneDim {α : Type} (p : PyIn α) : Prop := ∃ xs : List α, xs ≠ [] ∧ p.IsVec xs

/-- Number of entries of a 1D input (used only for inputs that are 1D). -/
def PyIn.count {α : Type} (p : PyIn α) : Nat := (toArr p).data.length

/-- Specification: the "is not 1D" / "different length" errors of the time-domain functions. -/
def ShapeError (e : PyErr) : Prop :=
  e ∈ ([.valueError "sort_wave_params: hWave is not 1D", .valueError "sort_wave_params: tWave is not 1D",
    .valueError "sort_wave_params: different length",
    .valueError "determine_zero_crossing: t is not 1D", .valueError "determine_zero_crossing: x is not 1D",
    .valueError "determine_zero_crossing: different length",
    .valueError "highest_waves_params: hWaveSorted is not 1D",
    .valueError "highest_waves_params: tWaveSorted is not 1D",
    .valueError "highest_waves_params: different length",
    .valueError "exceedance_wave_height: hWaveSorted is not 1D"] : List PyErr)

/-- The call ends in a shape error. -/
def RaisesShape {α : Type} (r : Except PyErr α) : Prop := ∃ e, r = .error e ∧ ShapeError e

theorem PyIn.IsVec.count_eq {α : Type} {p : PyIn α} {xs : List α} (h : p.IsVec xs) : p.count = xs.length := by
  simp [PyIn.count, toArr_of_isVec h]

/-- **C02** for `sort_wave_params`: a shape error is raised exactly when an input is not a non-empty 1D array or the
lengths differ. -/
theorem sort_shape_contract (A : Argsort K) {ph pt : PyIn K} (hh : ph.WF) (ht : pt.WF) :
    RaisesShape (sortWaveParams A ph pt) ↔ ¬ (ph.OneDim ∧ pt.OneDim ∧ ph.count = pt.count) := by
  constructor
  · rintro ⟨e, he, hs⟩ ⟨⟨h, h0, hv⟩, ⟨t, t0, tv⟩, hc⟩
    rw [hv.count_eq, tv.count_eq] at hc
    rw [sortWaveParams_eq A hv tv h0 hc] at he
    cases he
  · intro hn
    by_cases h1 : isOneD (toArr ph) = true
    · by_cases h2 : isOneD (toArr pt) = true
      · obtain ⟨h, h0, hv⟩ := (isOneD_iff hh).1 h1
        obtain ⟨t, t0, tv⟩ := (isOneD_iff ht).1 h2
        have hc : h.length ≠ t.length := by
          rw [← hv.count_eq, ← tv.count_eq]
          exact fun hc => hn ⟨⟨h, h0, hv⟩, ⟨t, t0, tv⟩, hc⟩
        refine ⟨.valueError "sort_wave_params: different length", ?_, by simp [ShapeError]⟩
        simp only [sortWaveParams, h1, h2]
        simp [toArr_of_isVec hv, toArr_of_isVec tv, Arr.len, hc]
      · exact ⟨.valueError "sort_wave_params: tWave is not 1D", by simp [sortWaveParams, h1, h2], by simp [ShapeError]⟩
    · exact ⟨.valueError "sort_wave_params: hWave is not 1D", by simp [sortWaveParams, h1], by simp [ShapeError]⟩

/-- **C02** for `determine_zero_crossing` (every `typeCross` string). -/
theorem zeroCrossing_shape_contract {pt px : PyIn K} (ht : pt.WF) (hx : px.WF) (ty : String) :
    RaisesShape (determineZeroCrossing pt px ty) ↔ ¬ (pt.OneDim ∧ px.OneDim ∧ pt.count = px.count) := by
  constructor
  · rintro ⟨e, he, hs⟩ ⟨⟨h, h0, hv⟩, ⟨t, t0, tv⟩, hc⟩
    rw [hv.count_eq, tv.count_eq] at hc
    have e1 : isOneD (toArr pt) = true := (isOneD_iff ht).2 ⟨h, h0, hv⟩
    have e2 : isOneD (toArr px) = true := (isOneD_iff hx).2 ⟨t, t0, tv⟩
    simp only [determineZeroCrossing, e1, e2] at he
    simp only [toArr_of_isVec hv, toArr_of_isVec tv, Arr.len, hc] at he
    simp at he
    split_ifs at he <;> simp at he <;> subst he <;> simp [ShapeError] at hs
  · intro hn
    by_cases h1 : isOneD (toArr pt) = true
    · by_cases h2 : isOneD (toArr px) = true
      · obtain ⟨h, h0, hv⟩ := (isOneD_iff ht).1 h1
        obtain ⟨t, t0, tv⟩ := (isOneD_iff hx).1 h2
        have hc : h.length ≠ t.length := by
          rw [← hv.count_eq, ← tv.count_eq]
          exact fun hc => hn ⟨⟨h, h0, hv⟩, ⟨t, t0, tv⟩, hc⟩
        refine ⟨.valueError "determine_zero_crossing: different length", ?_, by simp [ShapeError]⟩
        simp only [determineZeroCrossing, h1, h2]
        simp [toArr_of_isVec hv, toArr_of_isVec tv, Arr.len, hc]
      · exact ⟨.valueError "determine_zero_crossing: x is not 1D", by simp [determineZeroCrossing, h1, h2],
          by simp [ShapeError]⟩
    · exact ⟨.valueError "determine_zero_crossing: t is not 1D", by simp [determineZeroCrossing, h1],
        by simp [ShapeError]⟩

/-- **C02** for `highest_waves_params`. -/
theorem highest_shape_contract [FloorRing K] {ph pt : PyIn K} (hh : ph.WF) (ht : pt.WF) (p : K) :
    RaisesShape (highestWavesParams ph pt p) ↔ ¬ (ph.OneDim ∧ pt.OneDim ∧ ph.count = pt.count) := by
  constructor
  · rintro ⟨e, he, hs⟩ ⟨⟨h, h0, hv⟩, ⟨t, t0, tv⟩, hc⟩
    rw [hv.count_eq, tv.count_eq] at hc
    have e1 : isOneD (toArr ph) = true := (isOneD_iff hh).2 ⟨h, h0, hv⟩
    have e2 : isOneD (toArr pt) = true := (isOneD_iff ht).2 ⟨t, t0, tv⟩
    simp only [highestWavesParams, e1, e2] at he
    simp only [toArr_of_isVec hv, toArr_of_isVec tv, Arr.len, hc] at he
    simp [t0] at he
    split_ifs at he <;> simp at he <;> subst he <;> simp [ShapeError] at hs
  · intro hn
    by_cases h1 : isOneD (toArr ph) = true
    · by_cases h2 : isOneD (toArr pt) = true
      · obtain ⟨h, h0, hv⟩ := (isOneD_iff hh).1 h1
        obtain ⟨t, t0, tv⟩ := (isOneD_iff ht).1 h2
        have hc : t.length ≠ h.length := by
          rw [← hv.count_eq, ← tv.count_eq]
          exact fun hc => hn ⟨⟨h, h0, hv⟩, ⟨t, t0, tv⟩, hc.symm⟩
        refine ⟨.valueError "highest_waves_params: different length", ?_, by simp [ShapeError]⟩
        simp only [highestWavesParams, h1, h2]
        simp [toArr_of_isVec hv, toArr_of_isVec tv, Arr.len, hc]
      · exact ⟨.valueError "highest_waves_params: tWaveSorted is not 1D", by simp [highestWavesParams, h1, h2],
          by simp [ShapeError]⟩
    · exact ⟨.valueError "highest_waves_params: hWaveSorted is not 1D", by simp [highestWavesParams, h1],
        by simp [ShapeError]⟩

/-- **C02** for `exceedance_wave_height`. -/
theorem exceedance_shape_contract [FloorRing K] {ph : PyIn K} (hh : ph.WF) (p : K) :
    RaisesShape (exceedanceWaveHeight ph p) ↔ ¬ ph.OneDim := by
  constructor
  · rintro ⟨e, he, hs⟩ ⟨h, h0, hv⟩
    have e1 : isOneD (toArr ph) = true := (isOneD_iff hh).2 ⟨h, h0, hv⟩
    simp only [exceedanceWaveHeight, e1] at he
    simp only [toArr_of_isVec hv, getE, Bool.not_true, Bool.false_eq_true, if_false] at he
    split_ifs at he <;> simp at he
    · subst he; simp [ShapeError] at hs
    · subst he; simp [ShapeError] at hs
    · split at he <;> simp at he
      subst he; simp [ShapeError] at hs
  · intro hn
    by_cases h1 : isOneD (toArr ph) = true
    · exact absurd ((isOneD_iff hh).1 h1) hn
    · exact ⟨.valueError "exceedance_wave_height: hWaveSorted is not 1D", by simp [exceedanceWaveHeight, h1],
        by simp [ShapeError]⟩

/-- Non-vacuity: a 2D array, an empty list and two different lengths are rejected; scalars are accepted. -/
example : RaisesShape (sortWaveParams (stableArgsort (K := ℚ)) (.nd ⟨[2, 1], [1, 2]⟩) (vec [1, 2])) :=
  ⟨_, rfl, by simp [ShapeError]⟩
example : RaisesShape (exceedanceWaveHeight (K := ℚ) (.list []) 2) :=
  ⟨_, rfl, by simp [ShapeError]⟩
example : RaisesShape (determineZeroCrossing (K := ℚ) (vec [1, 2]) (vec [1, 2, 3]) "up") :=
  ⟨_, rfl, by simp [ShapeError]⟩
example : sortWaveParams (stableArgsort (K := ℚ)) (.num 4) (.num 5) = .ok ([4], [5]) := by decide +kernel

/-! ## C03 -/

/-- **C03 is false of the code**: the comment at core_time.py:80 promises a normal return for zero waves, but the
1D check rejects every empty array first, whatever its shape. -/
theorem no_waves_always_raises (A : Argsort K) {ph pt : PyIn K} (hh : ph.WF) (h0 : ph.count = 0) :
    sortWaveParams A ph pt = .error (.valueError "sort_wave_params: hWave is not 1D") := by
  have h1 : isOneD (toArr ph) = false := by
    by_contra hc
    obtain ⟨xs, hx, hv⟩ := (isOneD_iff hh).1 (by simpa using hc)
    rw [hv.count_eq] at h0
    exact hx (List.length_eq_zero_iff.1 h0)
  simp [sortWaveParams, h1]

/-- The same for `highest_waves_params`: its "no waves" branch (core_time.py:289) is unreachable. -/
theorem highest_no_waves_always_raises [FloorRing K] {ph pt : PyIn K} (hh : ph.WF) (h0 : ph.count = 0) (p : K) :
    highestWavesParams ph pt p = .error (.valueError "highest_waves_params: hWaveSorted is not 1D") := by
  have h1 : isOneD (toArr ph) = false := by
    by_contra hc
    obtain ⟨xs, hx, hv⟩ := (isOneD_iff hh).1 (by simpa using hc)
    rw [hv.count_eq] at h0
    exact hx (List.length_eq_zero_iff.1 h0)
  simp [highestWavesParams, h1]

/-- The same for `exceedance_wave_height`. -/
theorem exceedance_no_waves_always_raises [FloorRing K] {ph : PyIn K} (hh : ph.WF) (h0 : ph.count = 0) (p : K) :
    exceedanceWaveHeight ph p = .error (.valueError "exceedance_wave_height: hWaveSorted is not 1D") := by
  have h1 : isOneD (toArr ph) = false := by
    by_contra hc
    obtain ⟨xs, hx, hv⟩ := (isOneD_iff hh).1 (by simpa using hc)
    rw [hv.count_eq] at h0
    exact hx (List.length_eq_zero_iff.1 h0)
  simp [exceedanceWaveHeight, h1]

/-- The part of C03 that does hold: `determine_params_individual_waves` returns six empty arrays for an empty set of
crossings, without looking at the other arguments. -/
theorem no_crossings_no_waves_partial {pc pt px : PyIn K} (hc : pc.WF) (h0 : pc.count = 0) :
    determineParamsIndividualWaves pc pt px = .ok ⟨[], [], [], [], [], []⟩ := by
  have h1 : (toArr pc).size = 0 := by
    cases pc with
    | num x => simp [PyIn.count, toArr] at h0
    | list xs => simpa [PyIn.count, toArr, Arr.size] using h0
    | nd a =>
      have : a.data.length = a.shape.prod := hc
      simp only [PyIn.count, toArr] at h0
      simp only [toArr, Arr.size]
      omega
  simp [determineParamsIndividualWaves, h1, IndWaves.ofRecs]

example : (PyIn.list ([] : List ℚ)).WF ∧ (PyIn.list ([] : List ℚ)).count = 0 := ⟨trivial, rfl⟩

/-! ## Concrete cases: the hypotheses of the theorems above are met -/

example := sort_keeps_waves (stableArgsort (K := ℚ)) (isVec_vec [1, 5, 3]) (isVec_vec [4, 6, 9]) (by simp) rfl
/-- Three heights with two periods are refused because of their shapes. -/
example : RaisesShape (sortWaveParams (stableArgsort (K := ℚ)) (vec [1, 5, 3]) (vec [4, 6])) :=
  (sort_shape_contract stableArgsort (ph := vec [1, 5, 3]) (pt := vec [4, 6]) rfl rfl).2 fun h => absurd h.2.2 (by decide)
example : ¬ RaisesShape (determineZeroCrossing (K := ℚ) (vec [1, 2, 3]) (vec [1, -1, 1]) "down") :=
  fun h => (zeroCrossing_shape_contract (pt := vec ([1, 2, 3] : List ℚ)) (px := vec [1, -1, 1]) rfl rfl "down").1 h ⟨⟨_, by simp, isVec_vec _⟩, ⟨_, by simp, isVec_vec _⟩, rfl⟩
example : RaisesShape (highestWavesParams (K := ℚ) (vec [5, 3]) (vec [4]) (1 / 3)) :=
  (highest_shape_contract (ph := vec ([5, 3] : List ℚ)) (pt := vec [4]) rfl rfl (1 / 3)).2 fun h => absurd h.2.2 (by decide)
example : ¬ RaisesShape (exceedanceWaveHeight (K := ℚ) (vec [5, 3]) 2) :=
  fun h => (exceedance_shape_contract (ph := vec ([5, 3] : List ℚ)) rfl 2).1 h ⟨_, by simp, isVec_vec _⟩
example := no_waves_always_raises (stableArgsort (K := ℚ)) (ph := .list []) (pt := vec [1]) trivial rfl
example := highest_no_waves_always_raises (K := ℚ) (ph := .list []) (pt := vec [1]) trivial rfl (1 / 3)
example := exceedance_no_waves_always_raises (K := ℚ) (ph := .list []) trivial rfl 2
example := no_crossings_no_waves_partial (K := ℚ) (pc := .list []) (pt := vec [0, 1]) (px := vec [1, 2]) trivial rfl

end Verif
