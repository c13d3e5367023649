import Verif.Props.Cross
import Verif.Lemmas.ListNp

/-! # C07, C08, C09: individual waves -/

namespace Verif
variable {K : Type} [Field K] [LinearOrder K]

/-! ## Specification -/

/-- Sample `i` belongs to the wave between times `a` and `b` (inclusive). -/
def InWave (t : List K) (a b : K) (i : Nat) : Prop := i < t.length ∧ a ≤ t.getD i 0 ∧ t.getD i 0 ≤ b

/-- `(τ, v)` is the first highest point (in the order `le`) among the samples of the wave. -/
def FirstExtreme (le : K → K → Prop) (t x : List K) (a b τ v : K) : Prop :=
  ∃ i, InWave t a b i ∧ x.getD i 0 = v ∧ t.getD i 0 = τ ∧
    (∀ j, InWave t a b j → le (x.getD j 0) v) ∧ (∀ j, InWave t a b j → j < i → x.getD j 0 ≠ v)

/-- The six parameters of the wave between times `a` and `b`. -/
structure IsWave (t x : List K) (a b : K) (r : WaveRec K) : Prop where
  period : r.tWave = b - a
  height : r.hWave = r.aCrest - r.aTrough
  crest : FirstExtreme (· ≤ ·) t x a b r.tCrest r.aCrest
  trough : FirstExtreme (· ≥ ·) t x a b r.tTrough r.aTrough

theorem getD_of_some {l : List K} {i : Nat} {v : K} (h : l[i]? = some v) : l.getD i 0 = v := by
  simp [List.getD_eq_getElem?_getD, h]

theorem some_getD {l : List K} {i : Nat} (h : i < l.length) : l[i]? = some (l.getD i 0) := by
  simp [List.getD_eq_getElem?_getD, h]

theorem incr_le_iff {t : List K} (hs : t.Pairwise (· < ·)) {i j : Nat} (hi : i < t.length) (hj : j < t.length) :
    t.getD i 0 ≤ t.getD j 0 ↔ i ≤ j := by
  have key : ∀ a b, a < t.length → b < t.length → a < b → t.getD a 0 < t.getD b 0 := by
    intro a b ha hb hab
    have := List.pairwise_iff_getElem.1 hs a b ha hb hab
    simpa [ha, hb] using this
  constructor
  · intro h
    by_contra hc
    exact absurd h (not_le.2 (key j i hj hi (by omega)))
  · intro h
    rcases Nat.lt_or_eq_of_le h with h | rfl
    · exact (key i j hi hj h).le
    · exact le_refl _

/-- The index window computed by the code is the set of samples of the wave. -/
theorem window_iff {t : List K} (hs : t.Pairwise (· < ·)) {a b : K} {iIni iEnd : Nat}
    (h1 : getE (whereIdx (fun v => decide (a ≤ v)) t) 0 = .ok iIni)
    (h2 : lastE (whereIdx (fun v => decide (v ≤ b)) t) = .ok iEnd) (i : Nat) :
    InWave t a b i ↔ iIni ≤ i ∧ i ≤ iEnd := by
  obtain ⟨⟨v1, hv1, ha⟩, m1⟩ := first_where_spec h1
  obtain ⟨⟨v2, hv2, hb⟩, m2⟩ := last_where_spec h2
  simp only [decide_eq_true_eq] at ha hb m1 m2
  have l1 := (List.getElem?_eq_some_iff.1 hv1).1
  have l2 := (List.getElem?_eq_some_iff.1 hv2).1
  have e1 := getD_of_some hv1
  have e2 := getD_of_some hv2
  constructor
  · rintro ⟨hl, h3, h4⟩
    exact ⟨m1 i _ (some_getD hl) h3, m2 i _ (some_getD hl) h4⟩
  · rintro ⟨h3, h4⟩
    have hl : i < t.length := by omega
    refine ⟨hl, ?_, ?_⟩
    · have := (incr_le_iff hs l1 hl).2 h3
      rw [e1] at this; exact le_trans ha this
    · have := (incr_le_iff hs hl l2).2 h4
      rw [e2] at this; exact le_trans this hb

/-- A wave window that contains a sample is processed without error, and yields its parameters. -/
theorem oneWave_ok {tCross t x : List K} {k : Nat} {a b : K} (hs : t.Pairwise (· < ·)) (hlen : t.length = x.length)
    (ha : tCross[k]? = some a) (hb : tCross[k + 1]? = some b) (hex : ∃ i, InWave t a b i) :
    ∃ r, oneWave tCross t x k = .ok r := by
  obtain ⟨i0, hi0⟩ := hex
  have hi0' := hi0
  obtain ⟨hl, h1, h2⟩ := hi0
  obtain ⟨iIni, e1⟩ := first_where_exists (p := fun v => decide (a ≤ v)) (l := t) ⟨i0, _, some_getD hl, by simpa using h1⟩
  obtain ⟨iEnd, e2⟩ := last_where_exists (p := fun v => decide (v ≤ b)) (l := t) ⟨i0, _, some_getD hl, by simpa using h2⟩
  have hw := window_iff hs e1 e2
  obtain ⟨w1, w2⟩ := (hw i0).1 hi0'
  have hEnd : iEnd < t.length := ((hw iEnd).2 ⟨by omega, le_refl _⟩).1
  have lenx : (pySlice x iIni (iEnd + 1)).length = iEnd + 1 - iIni := by rw [pySlice_length]; omega
  have lent : (pySlice t iIni (iEnd + 1)).length = iEnd + 1 - iIni := by rw [pySlice_length]; omega
  have hne : pySlice x iIni (iEnd + 1) ≠ [] := by
    intro h; rw [h] at lenx; simp at lenx; omega
  obtain ⟨mx, e3⟩ := pyMax_exists hne
  obtain ⟨mn, e4⟩ := pyMin_exists hne
  obtain ⟨jx, hjx⟩ := List.mem_iff_getElem?.1 (pyMax_spec e3).1
  obtain ⟨jn, hjn⟩ := List.mem_iff_getElem?.1 (pyMin_spec e4).1
  obtain ⟨iMax, e5⟩ := first_where_exists (p := fun v => decide (v = mx)) (l := pySlice x iIni (iEnd + 1))
    ⟨jx, _, hjx, by simp⟩
  obtain ⟨iMin, e6⟩ := first_where_exists (p := fun v => decide (v = mn)) (l := pySlice x iIni (iEnd + 1))
    ⟨jn, _, hjn, by simp⟩
  obtain ⟨⟨c, e7, _⟩, _⟩ := first_where_spec e5
  obtain ⟨⟨d, e8, _⟩, _⟩ := first_where_spec e6
  have l7 := (List.getElem?_eq_some_iff.1 e7).1
  have l8 := (List.getElem?_eq_some_iff.1 e8).1
  rw [lenx, ← lent] at l7 l8
  refine ⟨⟨c - d, b - a, c, d, (pySlice t iIni (iEnd + 1))[iMax]'l7, (pySlice t iIni (iEnd + 1))[iMin]'l8⟩, ?_⟩
  unfold oneWave
  rw [bind_ok]; refine ⟨a, getE_ok.2 ha, ?_⟩
  rw [bind_ok]; refine ⟨b, getE_ok.2 hb, ?_⟩
  rw [bind_ok]; refine ⟨iIni, e1, ?_⟩
  rw [bind_ok]; refine ⟨iEnd, e2, ?_⟩
  dsimp only
  rw [bind_ok]; refine ⟨mx, e3, ?_⟩
  rw [bind_ok]; refine ⟨iMax, e5, ?_⟩
  rw [bind_ok]; refine ⟨mn, e4, ?_⟩
  rw [bind_ok]; refine ⟨iMin, e6, ?_⟩
  rw [bind_ok]; refine ⟨c, getE_ok.2 e7, ?_⟩
  rw [bind_ok]; refine ⟨d, getE_ok.2 e8, ?_⟩
  rw [bind_ok]; refine ⟨_, getE_ok.2 (List.getElem?_eq_getElem l7), ?_⟩
  rw [bind_ok]; refine ⟨_, getE_ok.2 (List.getElem?_eq_getElem l8), ?_⟩
  rfl

theorem slice_some {l : List K} {a b j : Nat} {v : K} (h : (pySlice l a (b + 1))[j]? = some v) :
    a + j ≤ b ∧ l[a + j]? = some v := by
  rw [pySlice_getElem?] at h
  split_ifs at h with h'
  exact ⟨by omega, h⟩

/-- Whatever `oneWave` returns satisfies the specification. -/
theorem oneWave_spec {tCross t x : List K} {k : Nat} {r : WaveRec K} (hs : t.Pairwise (· < ·))
    (hlen : t.length = x.length) (h : oneWave tCross t x k = .ok r) :
    ∃ a b, tCross[k]? = some a ∧ tCross[k + 1]? = some b ∧ IsWave t x a b r := by
  unfold oneWave at h
  rw [bind_ok] at h; obtain ⟨a, ha, h⟩ := h
  rw [bind_ok] at h; obtain ⟨b, hb, h⟩ := h
  rw [bind_ok] at h; obtain ⟨iIni, e1, h⟩ := h
  rw [bind_ok] at h; obtain ⟨iEnd, e2, h⟩ := h
  dsimp only at h
  rw [bind_ok] at h; obtain ⟨mx, e3, h⟩ := h
  rw [bind_ok] at h; obtain ⟨iMax, e5, h⟩ := h
  rw [bind_ok] at h; obtain ⟨mn, e4, h⟩ := h
  rw [bind_ok] at h; obtain ⟨iMin, e6, h⟩ := h
  rw [bind_ok] at h; obtain ⟨c, e7, h⟩ := h
  rw [bind_ok] at h; obtain ⟨d, e8, h⟩ := h
  rw [bind_ok] at h; obtain ⟨tc, e9, h⟩ := h
  rw [bind_ok] at h; obtain ⟨tt, e10, h⟩ := h
  simp only [pure, Except.pure, Except.ok.injEq] at h
  rw [getE_ok] at ha hb e7 e8 e9 e10
  have hw := window_iff hs e1 e2
  obtain ⟨⟨c', e7', hc⟩, m5⟩ := first_where_spec e5
  obtain ⟨⟨d', e8', hd⟩, m6⟩ := first_where_spec e6
  rw [e7] at e7'; rw [e8] at e8'
  simp only [Option.some.injEq, decide_eq_true_eq] at e7' e8' hc hd
  subst e7' e8'
  obtain ⟨b7, x7⟩ := slice_some e7
  obtain ⟨b8, x8⟩ := slice_some e8
  obtain ⟨b9, x9⟩ := slice_some e9
  obtain ⟨b10, x10⟩ := slice_some e10
  have mem_slice : ∀ j, InWave t a b j → ∃ j', iIni + j' = j ∧
      (pySlice x iIni (iEnd + 1))[j']? = some (x.getD j 0) := by
    intro j hj
    obtain ⟨h1, h2⟩ := (hw j).1 hj
    refine ⟨j - iIni, by omega, ?_⟩
    rw [pySlice_getElem?, if_pos (by omega), show iIni + (j - iIni) = j by omega]
    exact some_getD (by have := hj.1; omega)
  subst h
  refine ⟨a, b, ha, hb, ⟨rfl, rfl, ?_, ?_⟩⟩
  · refine ⟨iIni + iMax, (hw _).2 ⟨by omega, b7⟩, getD_of_some x7, getD_of_some x9, ?_, ?_⟩
    · intro j hj
      obtain ⟨j', _, hj'⟩ := mem_slice j hj
      rw [hc]
      exact (pyMax_spec e3).2 _ (List.mem_of_getElem? hj')
    · intro j hj hlt heq
      obtain ⟨j', hjj, hj'⟩ := mem_slice j hj
      have := m5 j' _ hj' (by rw [decide_eq_true_eq, heq, hc])
      omega
  · refine ⟨iIni + iMin, (hw _).2 ⟨by omega, b8⟩, getD_of_some x8, getD_of_some x10, ?_, ?_⟩
    · intro j hj
      obtain ⟨j', _, hj'⟩ := mem_slice j hj
      rw [hd]
      exact (pyMin_spec e4).2 _ (List.mem_of_getElem? hj')
    · intro j hj hlt heq
      obtain ⟨j', hjj, hj'⟩ := mem_slice j hj
      have := m6 j' _ hj' (by rw [decide_eq_true_eq, heq, hd])
      omega

/-! ## The whole function -/

/-- `w` lists, column by column, the parameters of the waves `recs`. -/
def Columns (w : IndWaves K) (recs : List (WaveRec K)) : Prop :=
  w.hWave = recs.map (·.hWave) ∧ w.tWave = recs.map (·.tWave) ∧ w.aCrest = recs.map (·.aCrest) ∧
  w.aTrough = recs.map (·.aTrough) ∧ w.tCrest = recs.map (·.tCrest) ∧ w.tTrough = recs.map (·.tTrough)

theorem individualWaves_eq {pc pt px : PyIn K} {c t x : List K} (hc : pc.IsVec c) (ht : pt.IsVec t) (hx : px.IsVec x)
    (hlen : t.length = x.length) (ht0 : t ≠ []) :
    determineParamsIndividualWaves pc pt px =
      ((List.range (c.length - 1)).mapM (oneWave c t x)).map IndWaves.ofRecs := by
  have hx0 : x ≠ [] := by rintro rfl; simp at hlen; exact ht0 hlen
  simp only [determineParamsIndividualWaves, toArr_of_isVec hc, toArr_of_isVec ht, toArr_of_isVec hx, Arr.size, Arr.len,
    isOneD_vec]
  by_cases h0 : c = []
  · subst h0; rfl
  · simp only [List.prod_cons, List.prod_nil, mul_one, List.length_eq_zero_iff, h0, if_false, List.isEmpty_iff,
      List.headD_cons, hlen]
    simp [h0, ht0, hx0]
    rfl

/-- **C08 / C09.** For every increasing time axis, every crossing list and every signal: if
`determine_params_individual_waves` returns, then it returns one row per pair of successive crossings, and each row has
`hWave = aCrest - aTrough`, `tWave` the distance of the crossings, and crest/trough the first highest/lowest sample
among the samples between (inclusive) the two crossings. -/
theorem individual_waves_spec {pc pt px : PyIn K} {c t x : List K} {w : IndWaves K}
    (hc : pc.IsVec c) (ht : pt.IsVec t) (hx : px.IsVec x) (hlen : t.length = x.length) (ht0 : t ≠ [])
    (hs : t.Pairwise (· < ·)) (h : determineParamsIndividualWaves pc pt px = .ok w) :
    ∃ recs, Columns w recs ∧ recs.length = c.length - 1 ∧
      ∀ k r, recs[k]? = some r → ∃ a b, c[k]? = some a ∧ c[k + 1]? = some b ∧ IsWave t x a b r := by
  rw [individualWaves_eq hc ht hx hlen ht0] at h
  cases hm : (List.range (c.length - 1)).mapM (oneWave c t x) with
  | error e => rw [hm] at h; simp [Except.map] at h
  | ok recs =>
    rw [hm] at h
    simp only [Except.map, Except.ok.injEq] at h
    subst h
    rw [mapM_ok] at hm
    refine ⟨recs, ⟨rfl, rfl, rfl, rfl, rfl, rfl⟩, by simpa using hm.length_eq.symm, ?_⟩
    intro k r hr
    have hk : k < recs.length := (List.getElem?_eq_some_iff.1 hr).1
    have := List.forall₂_iff_get.1 hm
    have h2 := this.2 k (by rw [hm.length_eq]; exact hk) hk
    simp only [List.get_eq_getElem, List.getElem_range] at h2
    rw [List.getElem?_eq_getElem hk] at hr
    simp only [Option.some.injEq] at hr
    rw [hr] at h2
    exact oneWave_spec hs hlen h2

/-- **C08 (lengths).** All six arrays have as many entries as there are pairs of successive crossings. -/
theorem individual_waves_lengths {pc pt px : PyIn K} {c t x : List K} {w : IndWaves K}
    (hc : pc.IsVec c) (ht : pt.IsVec t) (hx : px.IsVec x) (hlen : t.length = x.length) (ht0 : t ≠ [])
    (hs : t.Pairwise (· < ·)) (h : determineParamsIndividualWaves pc pt px = .ok w) :
    w.hWave.length = c.length - 1 ∧ w.tWave.length = c.length - 1 ∧ w.aCrest.length = c.length - 1 ∧
    w.aTrough.length = c.length - 1 ∧ w.tCrest.length = c.length - 1 ∧ w.tTrough.length = c.length - 1 := by
  obtain ⟨recs, ⟨h1, h2, h3, h4, h5, h6⟩, hl, _⟩ := individual_waves_spec hc ht hx hlen ht0 hs h
  simp [h1, h2, h3, h4, h5, h6, hl]

theorem sum_tele (c : List K) (a : K) (l : List K) (hl : l.length = c.length)
    (hk : ∀ k (h : k < l.length), l[k] = (a :: c).getD (k + 1) 0 - (a :: c).getD k 0) :
    l.sum = (a :: c).getLast (by simp) - a := by
  induction c generalizing a l with
  | nil => simp at hl; subst hl; simp
  | cons b c ih =>
    cases l with
    | nil => simp at hl
    | cons y l =>
      have h0 := hk 0 (by simp)
      simp at h0
      have := ih b l (by simpa using hl) (by
        intro k h
        have := hk (k + 1) (by simpa using h)
        rwa [List.getElem_cons_succ, List.getD_cons_succ, List.getD_cons_succ] at this)
      rw [List.sum_cons, this, h0, List.getLast_cons (a := a) (l := b :: c) (by simp)]
      ring

/-- **C08 (total duration).** The periods add up to last crossing minus first crossing. -/
theorem periods_sum {pc pt px : PyIn K} {c t x : List K} {w : IndWaves K}
    (hc : pc.IsVec c) (ht : pt.IsVec t) (hx : px.IsVec x) (hlen : t.length = x.length) (ht0 : t ≠ [])
    (hs : t.Pairwise (· < ·)) (h : determineParamsIndividualWaves pc pt px = .ok w) (hne : c ≠ []) :
    w.tWave.sum = c.getLast hne - c.head hne := by
  obtain ⟨recs, ⟨_, h2, _⟩, hl, hk⟩ := individual_waves_spec hc ht hx hlen ht0 hs h
  cases c with
  | nil => exact absurd rfl hne
  | cons a c =>
    rw [List.head_cons, h2]
    apply sum_tele c a
    · simpa using hl
    · intro k hlt
      simp only [List.length_map] at hlt
      obtain ⟨u, v, hu, hv, hw⟩ := hk k _ (List.getElem?_eq_getElem hlt)
      rw [List.getElem_map, hw.period, getD_of_some hu, getD_of_some hv]

/-! ## Concrete cases: the hypotheses of the theorems above are met -/

/-- Seven samples, three downward crossings: two waves of heights 2 and 4 and of period 2. -/
theorem twoWaves_ok : determineParamsIndividualWaves (K := ℚ) (vec [1 / 2, 5 / 2, 14 / 3]) (vec [0, 1, 2, 3, 4, 5, 6])
    (vec [1, -1, 1, -1, 2, -1, 1]) = .ok ⟨[2, 3], [2, 13 / 6], [1, 2], [-1, -1], [2, 4], [1, 3]⟩ := by decide +kernel

example := individual_waves_spec (isVec_vec _) (t := [0, 1, 2, 3, 4, 5, 6]) (x := [1, -1, 1, -1, 2, -1, 1]) (isVec_vec _) (isVec_vec _) rfl (by simp) (by decide +kernel) twoWaves_ok
example := individual_waves_lengths (isVec_vec _) (t := [0, 1, 2, 3, 4, 5, 6]) (x := [1, -1, 1, -1, 2, -1, 1]) (isVec_vec _) (isVec_vec _) rfl (by simp) (by decide +kernel) twoWaves_ok
example : (2 + (13 / 6 + 0) : ℚ) = 14 / 3 - 1 / 2 :=
  periods_sum (isVec_vec _) (t := [0, 1, 2, 3, 4, 5, 6]) (x := [1, -1, 1, -1, 2, -1, 1]) (isVec_vec _) (isVec_vec _) rfl (by simp) (by decide +kernel) twoWaves_ok (by simp)

end Verif
