import Verif.Props.Waves

/-! # C07 and the core of C10: waves between successive crossings -/

namespace Verif
variable {K : Type} [Field K] [LinearOrder K] [IsStrictOrderedRing K]

theorem axis_lt {t : List K} {dt : K} (hu : UniformAxis t dt) {i j : Nat} (hij : i < j) (hj : j < t.length) :
    t.getD i 0 < t.getD j 0 := by
  have h1 := axis_mono hu (i := i + 1) (j := j) hij hj
  have h2 := hu.2 i (by omega)
  have := hu.1
  linarith

theorem uniform_pairwise {t : List K} {dt : K} (hu : UniformAxis t dt) : t.Pairwise (· < ·) := by
  rw [List.pairwise_iff_getElem]
  intro i j hi hj hij
  have := axis_lt hu hij hj
  simpa [hi, hj] using this

/-- The window of the wave between the crossings after samples `i` and `j > i` contains the samples `i+1` and `j`. -/
theorem window_contains {t x : List K} {dt : K} (hu : UniformAxis t dt) {i j : Nat} {a b : K}
    (hij : i < j) (hj : j + 1 < t.length) (ha : IsInterpolatedZero t x i a) (hb : IsInterpolatedZero t x j b) :
    InWave t a b (i + 1) ∧ InWave t a b j := by
  have h1 := ha.upper
  have h2 := hb.lower
  have h3 := axis_mono hu (i := i + 1) (j := j) hij (by omega)
  exact ⟨⟨by omega, h1.le, le_trans h3 h2⟩, ⟨by omega, le_trans h1.le h3, h2⟩⟩

/-- Waves between successive interpolated zeros (of the signal `y`, which may differ from the analysed signal `x`) can always be analysed, and `hWave` is the crest-trough difference. -/
theorem waves_of_zeros {pt px : PyIn K} {t x y tc : List K} {idx : List Nat} {dt : K} (ht : pt.IsVec t)
    (hx : px.IsVec x) (h2 : 2 ≤ t.length) (hlen : t.length = x.length) (hu : UniformAxis t dt)
    (hidx : idx.Pairwise (· < ·)) (hin : ∀ i ∈ idx, i + 1 < x.length)
    (hf : List.Forall₂ (IsInterpolatedZero t y) idx tc) :
    ∃ w recs, determineParamsIndividualWaves (vec tc) pt px = .ok w ∧ Columns w recs ∧
      recs.length = tc.length - 1 ∧
      ∀ k r, recs[k]? = some r → ∃ i j a b, idx[k]? = some i ∧ idx[k + 1]? = some j ∧ i < j ∧
        tc[k]? = some a ∧ tc[k + 1]? = some b ∧
        InWave t a b (i + 1) ∧ InWave t a b j ∧ IsWave t x a b r := by
  have ht0 : t ≠ [] := by rintro rfl; simp at h2
  have hs := uniform_pairwise hu
  have hll := hf.length_eq
  have hget := (List.forall₂_iff_get.1 hf).2
  have key : ∀ k, k + 1 < tc.length → ∃ i j a b, idx[k]? = some i ∧ idx[k + 1]? = some j ∧ i < j ∧
        tc[k]? = some a ∧ tc[k + 1]? = some b ∧ InWave t a b (i + 1) ∧ InWave t a b j := by
    intro k hk
    have k1 : k < idx.length := by omega
    have k2 : k + 1 < idx.length := by omega
    have hij : idx[k] < idx[k + 1] := List.pairwise_iff_getElem.1 hidx k (k + 1) k1 k2 (by omega)
    have hj := hin _ (List.getElem_mem k2)
    refine ⟨idx[k], idx[k + 1], tc[k], tc[k + 1], List.getElem?_eq_getElem _, List.getElem?_eq_getElem _, hij,
      List.getElem?_eq_getElem _, List.getElem?_eq_getElem _, ?_⟩
    exact window_contains hu hij (by omega) (hget k k1 (by omega)) (hget (k + 1) k2 hk)
  have hall : ∃ recs, (List.range (tc.length - 1)).mapM (oneWave tc t x) = .ok recs := by
    have : ∀ l : List Nat, (∀ k ∈ l, k + 1 < tc.length) → ∃ recs, l.mapM (oneWave tc t x) = .ok recs := by
      intro l
      induction l with
      | nil => intro _; exact ⟨[], rfl⟩
      | cons k l ih =>
        intro hk
        obtain ⟨recs, hr⟩ := ih fun k' h' => hk k' (List.mem_cons_of_mem _ h')
        obtain ⟨i, j, a, b, _, _, _, ha, hb, hw, _⟩ := key k (hk k (by simp))
        obtain ⟨r, h1⟩ := oneWave_ok hs hlen ha hb ⟨_, hw⟩
        exact ⟨r :: recs, by rw [List.mapM_cons, bind_ok]; exact ⟨r, h1, by rw [bind_ok]; exact ⟨recs, hr, rfl⟩⟩⟩
    exact this _ fun k hk => by simp at hk; omega
  obtain ⟨recs0, hr0⟩ := hall
  have hok : determineParamsIndividualWaves (vec tc) pt px = .ok (IndWaves.ofRecs recs0) := by
    rw [individualWaves_eq (isVec_vec tc) ht hx hlen ht0, hr0]; rfl
  obtain ⟨recs, hcol, hl, hk⟩ := individual_waves_spec (isVec_vec tc) ht hx hlen ht0 hs hok
  refine ⟨_, recs, hok, hcol, hl, ?_⟩
  intro k r hr
  have hkl : k < recs.length := (List.getElem?_eq_some_iff.1 hr).1
  obtain ⟨i, j, a, b, h1, h2, h3, h4, h5, h6, h7⟩ := key k (by omega)
  obtain ⟨a', b', ha', hb', hw⟩ := hk k r hr
  rw [h4] at ha'; rw [h5] at hb'
  simp only [Option.some.injEq] at ha' hb'
  subst ha' hb'
  exact ⟨i, j, a, b, h1, h2, h3, h4, h5, h6, h7, hw⟩

omit [IsStrictOrderedRing K] in
theorem mem_column {recs : List (WaveRec K)} {f : WaveRec K → K} {v : K} (h : v ∈ recs.map f) :
    ∃ (k : Nat) (r : WaveRec K), recs[k]? = some r ∧ f r = v := by
  obtain ⟨r, hr, rfl⟩ := List.mem_map.1 h
  obtain ⟨k, hk⟩ := List.mem_iff_getElem?.1 hr
  exact ⟨k, r, hk, rfl⟩

omit [IsStrictOrderedRing K] in
theorem IsWave.crest_ge {t x : List K} {a b : K} {r : WaveRec K} (h : IsWave t x a b r) {i : Nat}
    (hi : InWave t a b i) : x.getD i 0 ≤ r.aCrest := by
  obtain ⟨_, _, _, _, h1, _⟩ := h.crest
  exact h1 i hi

omit [IsStrictOrderedRing K] in
theorem IsWave.trough_le {t x : List K} {a b : K} {r : WaveRec K} (h : IsWave t x a b r) {i : Nat}
    (hi : InWave t a b i) : r.aTrough ≤ x.getD i 0 := by
  obtain ⟨_, _, _, _, h1, _⟩ := h.trough
  exact h1 i hi

/-- **C07, C10 (down-crossings).** On a uniform axis the waves between the zero-down-crossings of the signal can always
be analysed; every trough is strictly negative, every crest non-negative, every height strictly positive. -/
theorem down_waves_signs {pt px : PyIn K} {t x : List K} {dt : K} (ht : pt.IsVec t) (hx : px.IsVec x)
    (h2 : 2 ≤ t.length) (hlen : t.length = x.length) (hu : UniformAxis t dt) :
    ∃ n tc w, determineZeroCrossing pt px "down" = .ok (n, tc) ∧
      determineParamsIndividualWaves (vec tc) pt px = .ok w ∧ (w.hWave.length : Int) = n ∧
      (∀ v ∈ w.aTrough, v < 0) ∧ (∀ v ∈ w.aCrest, 0 ≤ v) ∧ (∀ v ∈ w.hWave, 0 < v) := by
  obtain ⟨n, tc, idx, h1, hidx, hf, _⟩ := down_crossing_times ht hx h2 hlen hu
  obtain ⟨w, recs, hw, ⟨c1, c2, c3, c4, c5, c6⟩, hl, hk⟩ :=
    waves_of_zeros ht hx h2 hlen hu hidx.1 (fun i hi => ((hidx.2 i).1 hi).1) hf
  have hr : ∀ (k : Nat) (r : WaveRec K), recs[k]? = some r → r.aTrough < 0 ∧ 0 ≤ r.aCrest ∧ 0 < r.hWave := by
    intro k r hr
    obtain ⟨i, j, a, b, e1, e2, _, _, _, wi, wj, hwv⟩ := hk k r hr
    have d1 := (hidx.2 i).1 (List.mem_of_getElem? e1)
    have d2 := (hidx.2 j).1 (List.mem_of_getElem? e2)
    have g1 := hwv.trough_le wi
    have g2 := hwv.crest_ge wj
    have h1 : r.aTrough < 0 := lt_of_le_of_lt g1 d1.2.2
    have h2 : 0 ≤ r.aCrest := le_trans d2.2.1 g2
    exact ⟨h1, h2, by rw [hwv.height]; linarith⟩
  refine ⟨n, tc, w, h1, hw, ?_, ?_, ?_, ?_⟩
  · rw [c1, List.length_map, hl]
    rw [determine_down_eq ht hx h2 hlen] at h1
    simp only [Except.ok.injEq, Prod.mk.injEq] at h1
    obtain ⟨h3, h4⟩ := h1
    rw [← h3, ← h4, List.length_map]
    split_ifs with h5
    · simp [h5]
    · have : 0 < (crossIdx downCond x).length := List.length_pos_of_ne_nil h5
      omega
  · intro v hv; rw [c4] at hv
    obtain ⟨k, r, e, rfl⟩ := mem_column hv
    exact (hr k r e).1
  · intro v hv; rw [c3] at hv
    obtain ⟨k, r, e, rfl⟩ := mem_column hv
    exact (hr k r e).2.1
  · intro v hv; rw [c1] at hv
    obtain ⟨k, r, e, rfl⟩ := mem_column hv
    exact (hr k r e).2.2

/-- **C07 for up-crossings.** Here crests are strictly positive, troughs only non-positive. -/
theorem up_waves_signs {pt px : PyIn K} {t x : List K} {dt : K} (ht : pt.IsVec t) (hx : px.IsVec x)
    (h2 : 2 ≤ t.length) (hlen : t.length = x.length) (hu : UniformAxis t dt) :
    ∃ n tc w, determineZeroCrossing pt px "up" = .ok (n, tc) ∧
      determineParamsIndividualWaves (vec tc) pt px = .ok w ∧ (w.hWave.length : Int) = n ∧
      (∀ v ∈ w.aTrough, v ≤ 0) ∧ (∀ v ∈ w.aCrest, 0 < v) ∧ (∀ v ∈ w.hWave, 0 < v) := by
  obtain ⟨n, tc, idx, h1, hidx, hf, _⟩ := up_crossing_times ht hx h2 hlen hu
  obtain ⟨w, recs, hw, ⟨c1, c2, c3, c4, c5, c6⟩, hl, hk⟩ :=
    waves_of_zeros ht hx h2 hlen hu hidx.1 (fun i hi => ((hidx.2 i).1 hi).1) hf
  have hr : ∀ (k : Nat) (r : WaveRec K), recs[k]? = some r → r.aTrough ≤ 0 ∧ 0 < r.aCrest ∧ 0 < r.hWave := by
    intro k r hr
    obtain ⟨i, j, a, b, e1, e2, _, _, _, wi, wj, hwv⟩ := hk k r hr
    have d1 := (hidx.2 i).1 (List.mem_of_getElem? e1)
    have d2 := (hidx.2 j).1 (List.mem_of_getElem? e2)
    have g1 := hwv.trough_le wj
    have g2 := hwv.crest_ge wi
    have h1 : r.aTrough ≤ 0 := le_trans g1 d2.2.1
    have h2 : 0 < r.aCrest := lt_of_lt_of_le d1.2.2 g2
    exact ⟨h1, h2, by rw [hwv.height]; linarith⟩
  refine ⟨n, tc, w, h1, hw, ?_, ?_, ?_, ?_⟩
  · rw [c1, List.length_map, hl]
    rw [determine_up_eq ht hx h2 hlen] at h1
    simp only [Except.ok.injEq, Prod.mk.injEq] at h1
    obtain ⟨h3, h4⟩ := h1
    rw [← h3, ← h4, List.length_map]
    split_ifs with h5
    · simp [h5]
    · have : 0 < (crossIdx upCond x).length := List.length_pos_of_ne_nil h5
      omega
  · intro v hv; rw [c4] at hv
    obtain ⟨k, r, e, rfl⟩ := mem_column hv
    exact (hr k r e).1
  · intro v hv; rw [c3] at hv
    obtain ⟨k, r, e, rfl⟩ := mem_column hv
    exact (hr k r e).2.1
  · intro v hv; rw [c1] at hv
    obtain ⟨k, r, e, rfl⟩ := mem_column hv
    exact (hr k r e).2.2

/-- **C07, the documented note is false for up-crossings**: core_time.py says "the values of aTrough are always smaller
than zero", but a trough may be exactly 0. -/
theorem up_trough_zero_example :
    determineZeroCrossing (K := ℚ) (vec [0, 1, 2, 3]) (vec [-1, 1, 0, 1]) "up" = .ok (1, [1/2, 2]) ∧
    determineParamsIndividualWaves (K := ℚ) (vec [1/2, 2]) (vec [0, 1, 2, 3]) (vec [-1, 1, 0, 1]) =
      .ok ⟨[1], [3/2], [1], [0], [1], [2]⟩ := by
  constructor <;> decide +kernel

/-- Replay of /repo/tests/core_time_test.py `test_determine_params_individual_waves` (down-crossings). -/
example : determineParamsIndividualWaves (K := ℚ) (vec [1/10, 36/100, 7/10, 12714/10000]) (vec tNasty)
    (vec [1, 0, -2/10, 3/10, -2/10, 0, 0, 0, -2/10, 0, 0, 0, 5/10, -2/10, 3/10, 0]) =
    .ok ⟨[5/10, 2/10, 7/10], [26/100, 34/100, 5714/10000], [3/10, 0, 5/10], [-2/10, -2/10, -2/10],
      [3/10, 5/10, 12/10], [2/10, 4/10, 8/10]⟩ := by decide +kernel

/-- Replay (up-crossings). -/
example : determineParamsIndividualWaves (K := ℚ) (vec [24/100, 11/10, 134/100]) (vec tNasty)
    (vec [1, 0, -2/10, 3/10, -2/10, 0, 0, 0, -2/10, 0, 0, 0, 5/10, -2/10, 3/10, 0]) =
    .ok ⟨[5/10, 7/10], [86/100, 24/100], [3/10, 5/10], [-2/10, -2/10],
      [3/10, 12/10], [4/10, 13/10]⟩ := by decide +kernel

/-! ## Concrete cases: the hypotheses of the theorems above are met -/

example := down_waves_signs (isVec_vec ([0, 1, 2, 3, 4, 5, 6] : List ℚ)) (isVec_vec [1, -1, 1, -1, 2, -1, 1]) (dt := 1) (by simp) rfl
  (uniformAxis_of_steps (by norm_num) (by decide +kernel))
example := up_waves_signs (isVec_vec ([0, 1, 2, 3, 4, 5, 6] : List ℚ)) (isVec_vec [1, -1, 1, -1, 2, -1, 1]) (dt := 1) (by simp) rfl
  (uniformAxis_of_steps (by norm_num) (by decide +kernel))

end Verif
