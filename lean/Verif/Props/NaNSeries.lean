import Verif.Props.NaN

/-! # C135, C136: series with missing samples -/

set_option linter.unusedSectionVars false

namespace Verif
variable {K : Type} [Field K] [LinearOrder K]

/-! ## Specification -/

/-- Sample `i` is present and has value `v`. -/
def HasValue (x : List (Option K)) (i : Nat) (v : K) : Prop := x[i]? = some (some v)

/-- Samples `i` and `i+1` are both present and the signal crosses zero downwards between them. -/
def GapDown (x : List (Option K)) (i : Nat) : Prop := ∃ a b, HasValue x i a ∧ HasValue x (i + 1) b ∧ 0 ≤ a ∧ b < 0

/-- Samples `i` and `i+1` are both present and the signal crosses zero upwards between them. -/
def GapUp (x : List (Option K)) (i : Nat) : Prop := ∃ a b, HasValue x i a ∧ HasValue x (i + 1) b ∧ a ≤ 0 ∧ 0 < b

/-- `τ` is the zero of the straight line through samples `i` and `i+1` (both present). -/
def GapZero (t : List K) (x : List (Option K)) (i : Nat) (τ : K) : Prop :=
  ∃ a b, HasValue x i a ∧ HasValue x (i + 1) b ∧ t.getD i 0 ≤ τ ∧ τ < t.getD (i + 1) 0 ∧ (τ = t.getD i 0 ↔ a = 0) ∧
    a + (b - a) / (t.getD (i + 1) 0 - t.getD i 0) * (τ - t.getD i 0) = 0

/-- `(τ, v)` is the first highest point (in the order `le`) among the samples that are present between times `a` and `b`. -/
def GapExtreme (le : K → K → Prop) (t : List K) (x : List (Option K)) (a b τ v : K) : Prop :=
  ∃ i, InWave t a b i ∧ HasValue x i v ∧ t.getD i 0 = τ ∧ (∀ j w, InWave t a b j → HasValue x j w → le w v) ∧
    (∀ j, InWave t a b j → j < i → ¬ HasValue x j v)

/-- The six parameters of the wave between times `a` and `b`, missing samples left out. -/
structure IsGapWave (t : List K) (x : List (Option K)) (a b : K) (r : WaveRec K) : Prop where
  period : r.tWave = b - a
  height : r.hWave = r.aCrest - r.aTrough
  crest : GapExtreme (· ≤ ·) t x a b r.tCrest r.aCrest
  trough : GapExtreme (· ≥ ·) t x a b r.tTrough r.aTrough

/-! ## Crossings -/

theorem hasValue_lt {x : List (Option K)} {i : Nat} {v : K} (h : HasValue x i v) : i < x.length :=
  (List.getElem?_eq_some_iff.1 h).1

theorem hasValue_getD {x : List (Option K)} {i : Nat} {v : K} : HasValue x i v ↔ x.getD i none = some v := by
  unfold HasValue
  rw [List.getD]
  cases x[i]? <;> simp

/-- The indices at which the crossing condition holds. -/
def crossIdxN (cond : Option K → Option K → Bool) (x : List (Option K)) : List Nat :=
  (List.range (x.length - 1)).filter fun i => cond (x.getD i none) (x.getD (i + 1) none)

theorem cross_foldlN (cond : Option K → Option K → Bool) (dt : Option K) (t x : List (Option K)) (l : List Nat) (n : Int)
    (acc : List (Option K)) :
    l.foldl (crossStepN cond dt t x) (n, acc) =
      (n + ((l.filter fun i => cond (x.getD i none) (x.getD (i + 1) none)).length : Int),
       acc ++ (l.filter fun i => cond (x.getD i none) (x.getD (i + 1) none)).map fun i =>
        nCrossTime (t.getD i none) dt (x.getD i none) (x.getD (i + 1) none)) := by
  induction l generalizing n acc with
  | nil => simp
  | cons i l ih =>
    simp only [List.foldl_cons, crossStepN, List.filter_cons]
    split_ifs with h
    · rw [ih]
      simp only [List.length_cons, Nat.cast_add, Nat.cast_one, List.map_cons, List.append_assoc, List.cons_append, List.nil_append,
        Prod.mk.injEq, and_true]
      ring
    · rw [ih]

theorem crossLoopN_eq (cond : Option K → Option K → Bool) (t x : List (Option K)) (hlen : t.length = x.length) :
    crossLoopN cond t x = (if crossIdxN cond x = [] then 0 else ((crossIdxN cond x).length : Int) - 1,
      (crossIdxN cond x).map fun i =>
        nCrossTime (t.getD i none) (nSub (t.getD 1 none) (t.getD 0 none)) (x.getD i none) (x.getD (i + 1) none)) := by
  have h := cross_foldlN cond (nSub (t.getD 1 none) (t.getD 0 none)) t x (List.range (t.length - 1)) (-1) []
  rw [hlen] at h
  unfold crossLoopN
  simp only [hlen, h]
  rw [show (List.range (x.length - 1)).filter (fun i => cond (x.getD i none) (x.getD (i + 1) none)) = crossIdxN cond x from rfl]
  congr 1
  generalize crossIdxN cond x = l
  cases l with
  | nil => simp
  | cons a l =>
    simp only [List.length_cons, Nat.cast_add, Nat.cast_one, reduceCtorEq, if_false]
    split_ifs <;> omega

theorem upCondN_true {a b : Option K} : upCondN a b = true ↔ ∃ u v, a = some u ∧ b = some v ∧ u ≤ 0 ∧ 0 < v := by
  cases a <;> cases b <;> simp [upCondN, nLe, nLt]

theorem downCondN_true {a b : Option K} : downCondN a b = true ↔ ∃ u v, a = some u ∧ b = some v ∧ 0 ≤ u ∧ v < 0 := by
  cases a <;> cases b <;> simp [downCondN, nLe, nLt]

theorem crossIdxN_up (x : List (Option K)) : ListsExactly (crossIdxN upCondN x) (GapUp x) := by
  refine ⟨List.Pairwise.filter _ List.pairwise_lt_range, fun i => ?_⟩
  simp only [crossIdxN, List.mem_filter, List.mem_range, upCondN_true, GapUp, hasValue_getD]
  constructor
  · rintro ⟨_, u, v, h⟩; exact ⟨u, v, h⟩
  · rintro ⟨u, v, h1, h2, h⟩
    exact ⟨by have := hasValue_lt (hasValue_getD.2 h2); omega, u, v, h1, h2, h⟩

theorem crossIdxN_down (x : List (Option K)) : ListsExactly (crossIdxN downCondN x) (GapDown x) := by
  refine ⟨List.Pairwise.filter _ List.pairwise_lt_range, fun i => ?_⟩
  simp only [crossIdxN, List.mem_filter, List.mem_range, downCondN_true, GapDown, hasValue_getD]
  constructor
  · rintro ⟨_, u, v, h⟩; exact ⟨u, v, h⟩
  · rintro ⟨u, v, h1, h2, h⟩
    exact ⟨by have := hasValue_lt (hasValue_getD.2 h2); omega, u, v, h1, h2, h⟩

/-- The crossing time between two present samples of opposite sign. -/
theorem gapZero_time [IsStrictOrderedRing K] {t : List K} {x : List (Option K)} {dt : K} (hu : UniformAxis t dt) (hlen : t.length = x.length)
    (h2 : 2 ≤ t.length) {i : Nat} {a b : K} (ha : HasValue x i a) (hb : HasValue x (i + 1) b)
    (hc : (0 ≤ a ∧ b < 0) ∨ (a ≤ 0 ∧ 0 < b)) :
    ∃ τ, nCrossTime ((t.map some).getD i none) (nSub ((t.map some).getD 1 none) ((t.map some).getD 0 none)) (x.getD i none)
      (x.getD (i + 1) none) = some τ ∧ GapZero t x i τ := by
  have hi := hasValue_lt hb
  have e1 := getD_lift (l := t) (i := i) (by omega)
  have e2 := getD_lift (l := t) (i := 1) (by omega)
  have e3 := getD_lift (l := t) (i := 0) (by omega)
  have hne : a - b ≠ 0 := by
    rcases hc with ⟨h1, h2⟩ | ⟨h1, h2⟩
    · exact ne_of_gt (by linarith)
    · exact ne_of_lt (by linarith)
  have fa : (fill x).getD i 0 = a := by
    rw [List.getD, fill, List.getElem?_map, show x[i]? = some (some a) from ha]; rfl
  have fb : (fill x).getD (i + 1) 0 = b := by
    rw [List.getD, fill, List.getElem?_map, show x[i + 1]? = some (some b) from hb]; rfl
  have hz := crossTime_interp (t := t) (x := fill x) hu (by simpa [fill] using hlen) (i := i) (by simpa [fill] using hi)
    (by rw [fa, fb]; exact hc)
  refine ⟨crossTime dt t (fill x) i, ?_, a, b, ha, hb, hz.lower, hz.upper, ?_, ?_⟩
  · rw [e1, e2, e3, hasValue_getD.1 ha, hasValue_getD.1 hb]
    simp only [nSub, nCrossTime, if_neg hne, uniform_first_step h2 hu, crossTime, fa, fb]
  · have := hz.exact_iff; rwa [fa] at this
  · have := hz.zero; rwa [fa, fb] at this

/-- All crossings of one type. -/
theorem gap_crossings [IsStrictOrderedRing K] {t : List K} {x : List (Option K)} {dt : K} (hu : UniformAxis t dt)
    (hlen : t.length = x.length) (h2 : 2 ≤ t.length) {cond : Option K → Option K → Bool} {idx : List Nat}
    (hidx : ∀ i ∈ idx, ∃ a b, HasValue x i a ∧ HasValue x (i + 1) b ∧ ((0 ≤ a ∧ b < 0) ∨ (a ≤ 0 ∧ 0 < b))) :
    ∃ c : List K, (idx.map fun i => nCrossTime ((t.map some).getD i none)
        (nSub ((t.map some).getD 1 none) ((t.map some).getD 0 none)) (x.getD i none) (x.getD (i + 1) none)) = c.map some ∧
      List.Forall₂ (GapZero t x) idx c := by
  induction idx with
  | nil => exact ⟨[], rfl, .nil⟩
  | cons i idx ih =>
    obtain ⟨c, h1, h3⟩ := ih fun j hj => hidx j (by simp [hj])
    obtain ⟨a, b, ha, hb, hc⟩ := hidx i (by simp)
    obtain ⟨τ, e, hz⟩ := gapZero_time hu hlen h2 ha hb hc
    exact ⟨τ :: c, by rw [List.map_cons, List.map_cons, e, h1], .cons hz h3⟩

/-! ## One wave -/

theorem whereIdx_map {α β : Type} (f : α → β) (p : β → Bool) (l : List α) :
    whereIdx p (l.map f) = whereIdx (fun v => p (f v)) l := by
  unfold whereIdx
  rw [List.length_map]
  apply List.filter_congr
  intro i _
  rw [List.getElem?_map]
  cases l[i]? <;> rfl

theorem foldl_maxN (l : List (Option K)) (a : K) :
    ∃ m, l.foldl (fun m v => if nLt m v then v else m) (some a) = some m ∧ (m = a ∨ some m ∈ l) ∧ a ≤ m ∧
      ∀ w, some w ∈ l → w ≤ m := by
  induction l generalizing a with
  | nil => exact ⟨a, rfl, Or.inl rfl, le_refl _, by simp⟩
  | cons b l ih =>
    rw [List.foldl_cons]
    cases b with
    | none =>
      obtain ⟨m, e, h1, h2, h3⟩ := ih a
      refine ⟨m, e, h1.imp id (by simp), h2, fun w hw => h3 w (by simpa using hw)⟩
    | some b =>
      by_cases hab : a < b
      · obtain ⟨m, e, h1, h2, h3⟩ := ih b
        refine ⟨m, by simpa [nLt, hab] using e, Or.inr ?_, hab.le.trans h2, ?_⟩
        · rcases h1 with h | h
          · simp [h]
          · simp [h]
        · intro w hw
          rcases List.mem_cons.1 hw with h | h
          · rw [Option.some.inj h]; exact h2
          · exact h3 w h
      · obtain ⟨m, e, h1, h2, h3⟩ := ih a
        refine ⟨m, by simpa [nLt, hab] using e, h1.imp id (by simp +contextual), h2, ?_⟩
        intro w hw
        rcases List.mem_cons.1 hw with h | h
        · rw [Option.some.inj h]; exact (not_lt.1 hab).trans h2
        · exact h3 w h

theorem foldl_minN (l : List (Option K)) (a : K) :
    ∃ m, l.foldl (fun m v => if nLt v m then v else m) (some a) = some m ∧ (m = a ∨ some m ∈ l) ∧ m ≤ a ∧
      ∀ w, some w ∈ l → m ≤ w := by
  induction l generalizing a with
  | nil => exact ⟨a, rfl, Or.inl rfl, le_refl _, by simp⟩
  | cons b l ih =>
    rw [List.foldl_cons]
    cases b with
    | none =>
      obtain ⟨m, e, h1, h2, h3⟩ := ih a
      refine ⟨m, e, h1.imp id (by simp), h2, fun w hw => h3 w (by simpa using hw)⟩
    | some b =>
      by_cases hab : b < a
      · obtain ⟨m, e, h1, h2, h3⟩ := ih b
        refine ⟨m, by simpa [nLt, hab] using e, Or.inr ?_, h2.trans hab.le, ?_⟩
        · rcases h1 with h | h
          · simp [h]
          · simp [h]
        · intro w hw
          rcases List.mem_cons.1 hw with h | h
          · rw [Option.some.inj h]; exact h2
          · exact h3 w h
      · obtain ⟨m, e, h1, h2, h3⟩ := ih a
        refine ⟨m, by simpa [nLt, hab] using e, h1.imp id (by simp +contextual), h2, ?_⟩
        intro w hw
        rcases List.mem_cons.1 hw with h | h
        · rw [Option.some.inj h]; exact h2.trans (not_lt.1 hab)
        · exact h3 w h

theorem pyMaxN_spec {l : List (Option K)} {a : K} (h : l[0]? = some (some a)) :
    ∃ m, pyMaxN l = .ok (some m) ∧ some m ∈ l ∧ ∀ w, some w ∈ l → w ≤ m := by
  cases l with
  | nil => simp at h
  | cons b l =>
    simp only [List.getElem?_cons_zero, Option.some.injEq] at h
    subst h
    obtain ⟨m, e, h1, h2, h3⟩ := foldl_maxN l a
    refine ⟨m, congrArg Except.ok e, ?_, ?_⟩
    · rcases h1 with h | h
      · simp [h]
      · simp [h]
    · intro w hw
      rcases List.mem_cons.1 hw with h | h
      · rw [Option.some.inj h]; exact h2
      · exact h3 w h

theorem pyMinN_spec {l : List (Option K)} {a : K} (h : l[0]? = some (some a)) :
    ∃ m, pyMinN l = .ok (some m) ∧ some m ∈ l ∧ ∀ w, some w ∈ l → m ≤ w := by
  cases l with
  | nil => simp at h
  | cons b l =>
    simp only [List.getElem?_cons_zero, Option.some.injEq] at h
    subst h
    obtain ⟨m, e, h1, h2, h3⟩ := foldl_minN l a
    refine ⟨m, congrArg Except.ok e, ?_, ?_⟩
    · rcases h1 with h | h
      · simp [h]
      · simp [h]
    · intro w hw
      rcases List.mem_cons.1 hw with h | h
      · rw [Option.some.inj h]; exact h2
      · exact h3 w h

/-- A row without NaN. -/
def WaveRec.lift (r : WaveRec K) : WaveRec (Option K) :=
  ⟨some r.hWave, some r.tWave, some r.aCrest, some r.aTrough, some r.tCrest, some r.tTrough⟩

theorem nEq_some {v : Option K} {m : K} : nEq v (some m) = true ↔ v = some m := by
  cases v <;> simp [nEq]

theorem slice_some' {α : Type} {l : List α} {a b j : Nat} {v : α} (h : (pySlice l a (b + 1))[j]? = some v) :
    a + j ≤ b ∧ l[a + j]? = some v := by
  rw [pySlice_getElem?] at h
  split_ifs at h with h'
  exact ⟨by omega, h⟩

/-- A wave whose first sample is present: its parameters are those of the samples that are present. -/
theorem oneWaveN_spec {c t : List K} {x : List (Option K)} {k : Nat} {a b v0 : K} {i0 : Nat} (hs : t.Pairwise (· < ·))
    (hlen : t.length = x.length) (ha : c[k]? = some a) (hb : c[k + 1]? = some b) (hi : InWave t a b i0)
    (hfirst : ∀ j, InWave t a b j → i0 ≤ j) (hv : HasValue x i0 v0) :
    ∃ r, oneWaveN (c.map some) (t.map some) x k = .ok r.lift ∧ IsGapWave t x a b r := by
  have hi' := hi
  obtain ⟨hl, h1, h2⟩ := hi
  obtain ⟨iIni, e1⟩ := first_where_exists (p := fun v => decide (a ≤ v)) (l := t) ⟨i0, _, some_getD hl, by simpa using h1⟩
  obtain ⟨iEnd, e2⟩ := last_where_exists (p := fun v => decide (v ≤ b)) (l := t) ⟨i0, _, some_getD hl, by simpa using h2⟩
  have hw := window_iff hs e1 e2
  obtain ⟨w1, w2⟩ := (hw i0).1 hi'
  have hini : iIni = i0 := by have := hfirst iIni ((hw iIni).2 ⟨le_refl _, by omega⟩); omega
  have hEnd : iEnd < t.length := ((hw iEnd).2 ⟨by omega, le_refl _⟩).1
  have lenx : (pySlice x iIni (iEnd + 1)).length = iEnd + 1 - iIni := by rw [pySlice_length]; omega
  have lent : (pySlice t iIni (iEnd + 1)).length = iEnd + 1 - iIni := by rw [pySlice_length]; omega
  have hhead : (pySlice x iIni (iEnd + 1))[0]? = some (some v0) := by
    rw [pySlice_getElem?, if_pos (by omega), hini]; exact hv
  obtain ⟨mx, e3, m3, g3⟩ := pyMaxN_spec hhead
  obtain ⟨mn, e4, m4, g4⟩ := pyMinN_spec hhead
  obtain ⟨jx, hjx⟩ := List.mem_iff_getElem?.1 m3
  obtain ⟨jn, hjn⟩ := List.mem_iff_getElem?.1 m4
  obtain ⟨iMax, e5⟩ := first_where_exists (p := fun v => nEq v (some mx)) (l := pySlice x iIni (iEnd + 1))
    ⟨jx, _, hjx, nEq_some.2 rfl⟩
  obtain ⟨iMin, e6⟩ := first_where_exists (p := fun v => nEq v (some mn)) (l := pySlice x iIni (iEnd + 1))
    ⟨jn, _, hjn, nEq_some.2 rfl⟩
  obtain ⟨⟨vx, e7, q7⟩, m5⟩ := first_where_spec e5
  obtain ⟨⟨vn, e8, q8⟩, m6⟩ := first_where_spec e6
  rw [nEq_some] at q7 q8
  subst q7 q8
  have l7 := (List.getElem?_eq_some_iff.1 e7).1
  have l8 := (List.getElem?_eq_some_iff.1 e8).1
  rw [lenx, ← lent] at l7 l8
  have e9 := List.getElem?_eq_getElem l7
  have e10 := List.getElem?_eq_getElem l8
  obtain ⟨b7, x7⟩ := slice_some' e7
  obtain ⟨b8, x8⟩ := slice_some' e8
  obtain ⟨b9, x9⟩ := slice_some' e9
  obtain ⟨b10, x10⟩ := slice_some' e10
  have mem_slice : ∀ j w, InWave t a b j → HasValue x j w → ∃ j', iIni + j' = j ∧
      (pySlice x iIni (iEnd + 1))[j']? = some (some w) := by
    intro j w hj hw'
    obtain ⟨h1, h2⟩ := (hw j).1 hj
    refine ⟨j - iIni, by omega, ?_⟩
    rw [pySlice_getElem?, if_pos (by omega), show iIni + (j - iIni) = j by omega]
    exact hw'
  refine ⟨⟨mx - mn, b - a, mx, mn, (pySlice t iIni (iEnd + 1))[iMax]'l7, (pySlice t iIni (iEnd + 1))[iMin]'l8⟩, ?_, rfl, rfl, ?_, ?_⟩
  · unfold oneWaveN
    rw [bind_ok]; refine ⟨some a, by rw [getE_some, getE_ok.2 ha]; rfl, ?_⟩
    rw [bind_ok]; refine ⟨some b, by rw [getE_some, getE_ok.2 hb]; rfl, ?_⟩
    rw [bind_ok]; refine ⟨iIni, by rw [whereIdx_map]; exact e1, ?_⟩
    rw [bind_ok]; refine ⟨iEnd, by rw [whereIdx_map]; exact e2, ?_⟩
    dsimp only
    rw [bind_ok]; refine ⟨some mx, e3, ?_⟩
    rw [bind_ok]; refine ⟨iMax, e5, ?_⟩
    rw [bind_ok]; refine ⟨some mn, e4, ?_⟩
    rw [bind_ok]; refine ⟨iMin, e6, ?_⟩
    rw [bind_ok]; refine ⟨some mx, getE_ok.2 e7, ?_⟩
    rw [bind_ok]; refine ⟨some mn, getE_ok.2 e8, ?_⟩
    rw [bind_ok]; refine ⟨_, by rw [pySlice_map, getE_some, getE_ok.2 e9]; rfl, ?_⟩
    rw [bind_ok]; refine ⟨_, by rw [pySlice_map, getE_some, getE_ok.2 e10]; rfl, ?_⟩
    rfl
  · refine ⟨iIni + iMax, (hw _).2 ⟨by omega, b7⟩, x7, getD_of_some x9, ?_, ?_⟩
    · intro j w hj hw'
      obtain ⟨j', _, hj'⟩ := mem_slice j w hj hw'
      exact g3 w (List.mem_of_getElem? hj')
    · intro j hj hlt heq
      obtain ⟨j', hjj, hj'⟩ := mem_slice j _ hj heq
      have := m5 j' _ hj' (nEq_some.2 rfl)
      omega
  · refine ⟨iIni + iMin, (hw _).2 ⟨by omega, b8⟩, x8, getD_of_some x10, ?_, ?_⟩
    · intro j w hj hw'
      obtain ⟨j', _, hj'⟩ := mem_slice j w hj hw'
      exact g4 w (List.mem_of_getElem? hj')
    · intro j hj hlt heq
      obtain ⟨j', hjj, hj'⟩ := mem_slice j _ hj heq
      have := m6 j' _ hj' (nEq_some.2 rfl)
      omega

/-! ## All waves -/

theorem individualWavesN_eq {c t x : List (Option K)} (hlen : t.length = x.length) (ht0 : t ≠ []) :
    determineParamsIndividualWavesN (vec c) (.nd (arr1 t)) (.nd (arr1 x)) =
      ((List.range (c.length - 1)).mapM (oneWaveN c t x)).map IndWaves.ofRecs := by
  have hx0 : x ≠ [] := by rintro rfl; simp at hlen; exact ht0 hlen
  have et : toArr (PyIn.nd (arr1 t)) = ⟨[t.length], t⟩ := rfl
  have ex : toArr (PyIn.nd (arr1 x)) = ⟨[x.length], x⟩ := rfl
  simp only [determineParamsIndividualWavesN, toArr_of_isVec (isVec_vec c), et, ex, Arr.size, Arr.len, isOneD_vec]
  by_cases h0 : c = []
  · subst h0; rfl
  · simp only [List.prod_cons, List.prod_nil, mul_one, List.length_eq_zero_iff, h0, if_false, List.isEmpty_iff,
      List.headD_cons, hlen]
    simp [h0, ht0, hx0]
    rfl

theorem zeroCrossingN_eq {t x : List (Option K)} (h2 : 2 ≤ t.length) (hlen : t.length = x.length) (ty : String) :
    determineZeroCrossingN (.nd (arr1 t)) (.nd (arr1 x)) ty =
      if ty.toLower = "up" then .ok (crossLoopN upCondN t x)
      else if ty.toLower = "down" then .ok (crossLoopN downCondN t x)
      else .error (.valueError "determine_zero_crossing: wrong typeCross") := by
  have ht0 : t ≠ [] := by rintro rfl; simp at h2
  have hx0 : x ≠ [] := by rintro rfl; simp at hlen; exact ht0 hlen
  have h3 : ¬ x.length < 2 := by omega
  have et : toArr (PyIn.nd (arr1 t)) = ⟨[t.length], t⟩ := rfl
  have ex : toArr (PyIn.nd (arr1 x)) = ⟨[x.length], x⟩ := rfl
  simp only [determineZeroCrossingN, et, ex, isOneD_vec, Arr.len]
  simp [ht0, hx0, hlen, h3]

/-- The crossing condition of a crossing type. -/
def Crosses (ty : String) (x : List (Option K)) (i : Nat) : Prop :=
  (ty.toLower = "down" ∧ GapDown x i) ∨ (ty.toLower = "up" ∧ GapUp x i)

theorem gap_zero_crossing [IsStrictOrderedRing K] {t : List K} {x : List (Option K)} {dt : K} (hu : UniformAxis t dt)
    (hlen : t.length = x.length) (h2 : 2 ≤ t.length) {ty : String} (hty : ty.toLower = "up" ∨ ty.toLower = "down") :
    ∃ n idx c, determineZeroCrossingN (.nd (arr1 (t.map some))) (.nd (arr1 x)) ty = .ok (n, c.map some) ∧
      ListsExactly idx (Crosses ty x) ∧ List.Forall₂ (GapZero t x) idx c ∧ (n = if idx.length = 0 then 0 else (idx.length : Int) - 1) := by
  have hl : (t.map some).length = x.length := by simpa using hlen
  have hne : ("up" : String) ≠ "down" := by decide
  rw [zeroCrossingN_eq (by simpa using h2) hl]
  rcases hty with hty | hty
  · obtain ⟨c, h1, h3⟩ := gap_crossings (cond := upCondN) (idx := crossIdxN upCondN x) hu hlen h2 fun i hi => by
      obtain ⟨a, b, ha, hb, hc⟩ := ((crossIdxN_up x).2 i).1 hi
      exact ⟨a, b, ha, hb, Or.inr hc⟩
    refine ⟨_, crossIdxN upCondN x, c, ?_, ⟨(crossIdxN_up x).1, fun i => ?_⟩, h3, rfl⟩
    · rw [if_pos hty, crossLoopN_eq _ _ _ hl, h1]; simp only [List.length_eq_zero_iff]
    · rw [(crossIdxN_up x).2 i, Crosses, hty]; simp [hne]
  · obtain ⟨c, h1, h3⟩ := gap_crossings (cond := downCondN) (idx := crossIdxN downCondN x) hu hlen h2 fun i hi => by
      obtain ⟨a, b, ha, hb, hc⟩ := ((crossIdxN_down x).2 i).1 hi
      exact ⟨a, b, ha, hb, Or.inl hc⟩
    refine ⟨_, crossIdxN downCondN x, c, ?_, ⟨(crossIdxN_down x).1, fun i => ?_⟩, h3, rfl⟩
    · rw [if_neg (by rw [hty]; exact hne.symm), if_pos hty, crossLoopN_eq _ _ _ hl, h1]; simp only [List.length_eq_zero_iff]
    · rw [(crossIdxN_down x).2 i, Crosses, hty]; simp [hne.symm]

theorem gap_waves [IsStrictOrderedRing K] {t : List K} {x : List (Option K)} {dt : K} (hu : UniformAxis t dt)
    (hlen : t.length = x.length) (h2 : 2 ≤ t.length) {idx : List Nat} {c : List K} (hp : idx.Pairwise (· < ·))
    (hf : List.Forall₂ (GapZero t x) idx c) :
    ∃ recs : List (WaveRec K), determineParamsIndividualWavesN (vec (c.map some)) (.nd (arr1 (t.map some))) (.nd (arr1 x)) =
        .ok (IndWaves.ofRecs (recs.map WaveRec.lift)) ∧ recs.length = c.length - 1 ∧
      ∀ k r, recs[k]? = some r → ∃ a b, c[k]? = some a ∧ c[k + 1]? = some b ∧ IsGapWave t x a b r := by
  have hs := uniform_pairwise hu
  have hcl := hf.length_eq
  have one : ∀ k, k + 1 < c.length → ∃ r, oneWaveN (c.map some) (t.map some) x k = .ok (WaveRec.lift r) ∧
      ∃ a b, c[k]? = some a ∧ c[k + 1]? = some b ∧ IsGapWave t x a b r := by
    intro k hk
    have hg := List.forall₂_iff_get.1 hf
    have g1 := hg.2 k (by omega) (by omega)
    have g2 := hg.2 (k + 1) (by omega) hk
    have hij := List.pairwise_iff_getElem.1 hp k (k + 1) (by omega) (by omega) (by omega)
    simp only [List.get_eq_getElem] at g1 g2
    generalize idx[k]'(by omega) = i at g1 hij
    generalize idx[k + 1]'(by omega) = j at g2 hij
    obtain ⟨u, v, hu1, hv1, lo1, up1, ex1, -⟩ := g1
    obtain ⟨u', v', hu2, hv2, lo2, up2, -, -⟩ := g2
    have hj := hasValue_lt hv2
    have lij : t.getD (i + 1) 0 ≤ t.getD j 0 := axis_mono hu (by omega) (by omega)
    have li : t.getD i 0 ≤ t.getD (i + 1) 0 := axis_mono hu (by omega) (by omega)
    have hex : ∃ i0 v0, InWave t c[k] c[k + 1] i0 ∧ (∀ m, InWave t c[k] c[k + 1] m → i0 ≤ m) ∧ HasValue x i0 v0 := by
      rcases lo1.lt_or_eq with hlt | heq
      · refine ⟨i + 1, v, ⟨by omega, up1.le, lij.trans lo2⟩, ?_, hv1⟩
        rintro m ⟨hm, h3, h4⟩
        by_contra hc
        have := (incr_le_iff hs (i := m) (j := i) hm (by omega)).2 (by omega)
        exact absurd (h3.trans this) (not_le.2 hlt)
      · refine ⟨i, u, ⟨by omega, heq.symm.le, (li.trans lij).trans lo2⟩, ?_, hu1⟩
        rintro m ⟨hm, h3, h4⟩
        exact (incr_le_iff hs (by omega) hm).1 (heq.le.trans h3)
    obtain ⟨i0, v0, hi0, hmin, hv0⟩ := hex
    obtain ⟨r, hr, hw⟩ := oneWaveN_spec hs hlen (List.getElem?_eq_getElem (by omega)) (List.getElem?_eq_getElem hk) hi0 hmin hv0
    exact ⟨r, hr, _, _, List.getElem?_eq_getElem (by omega), List.getElem?_eq_getElem hk, hw⟩
  have hall : ∀ n, n ≤ c.length - 1 → ∃ recs : List (WaveRec K), (List.range n).mapM (oneWaveN (c.map some) (t.map some) x) =
      .ok (recs.map WaveRec.lift) ∧ recs.length = n ∧
      ∀ k r, recs[k]? = some r → ∃ a b, c[k]? = some a ∧ c[k + 1]? = some b ∧ IsGapWave t x a b r := by
    intro n
    induction n with
    | zero => intro _; exact ⟨[], rfl, rfl, by simp⟩
    | succ n ih =>
      intro hn
      obtain ⟨recs, h3, h4, h5⟩ := ih (by omega)
      obtain ⟨r, h6, h7⟩ := one n (by omega)
      refine ⟨recs ++ [r], ?_, by simp [h4], ?_⟩
      · rw [mapM_ok] at h3 ⊢
        rw [List.range_succ, List.map_append]
        exact List.rel_append h3 (.cons h6 .nil)
      · intro k r' hr'
        by_cases hk : k < recs.length
        · rw [List.getElem?_append_left hk] at hr'; exact h5 k r' hr'
        · rw [List.getElem?_append_right (by omega)] at hr'
          have hk' : k - recs.length = 0 := by
            by_contra hc
            rw [List.getElem?_eq_none (by simp; omega)] at hr'
            cases hr'
          rw [hk'] at hr'
          have : k = n := by omega
          subst this
          simp at hr'
          subst hr'
          exact h7
  obtain ⟨recs, h3, h4, h5⟩ := hall (c.length - 1) (le_refl _)
  refine ⟨recs, ?_, h4, h5⟩
  have ht0 : t.map some ≠ [] := by intro h; simp at h; subst h; simp at h2
  rw [individualWavesN_eq (by simpa using hlen) ht0, List.length_map, h3]
  rfl

theorem npDelete_map {α β : Type} (f : α → β) (l : List α) (idx : List Nat) : npDelete (l.map f) idx = (npDelete l idx).map f := by
  unfold npDelete
  rw [List.zipIdx_map, List.filter_map, List.map_map, List.map_map]
  rfl

theorem lift_column (recs : List (WaveRec K)) (m : K) (g : WaveRec (Option K) → Option K) (f : WaveRec K → K)
    (hgf : ∀ r, g r.lift = some (f r)) :
    npDelete ((recs.map WaveRec.lift).map g) (whereIdx (fun v => nLt v (some m)) ((recs.map WaveRec.lift).map (·.hWave))) =
      ((recs.filter fun r => decide (m ≤ r.hWave)).map f).map some := by
  have e1 : (recs.map WaveRec.lift).map g = (recs.map f).map some := by
    rw [List.map_map, List.map_map]; exact List.map_congr_left fun r _ => hgf r
  have e2 : (recs.map WaveRec.lift).map (fun r : WaveRec (Option K) => r.hWave) = (recs.map (·.hWave)).map some := by
    rw [List.map_map, List.map_map]; rfl
  have e3 : whereIdx (fun v => nLt v (some m)) ((recs.map (·.hWave)).map some) = removeIndex (recs.map (·.hWave)) m := by
    rw [whereIdx_map]; rfl
  rw [e1, e2, e3, npDelete_map, npDelete_column]

/-- The re-analysis of a series with missing samples. -/
theorem gap_analysis [IsStrictOrderedRing K] {s : SeriesN K} {t : List K} {x : List (Option K)} {dt : K} (hu : UniformAxis t dt)
    (hlen : t.length = x.length) (h2 : 2 ≤ t.length) (hst : s.time = arr1 (t.map some)) (hsx : s.xTime = arr1 x) {ty : String}
    (hty : ty.toLower = "up" ∨ ty.toLower = "down") (m : K) :
    ∃ (w : IndWaves (Option K)) (s' : SeriesN K) (idx : List Nat) (c : List K) (recs : List (WaveRec K)),
      determineIndividualWavesN s ty m = .ok (w, c.map some, s') ∧
      ListsExactly idx (Crosses ty x) ∧ List.Forall₂ (GapZero t x) idx c ∧ recs.length = c.length - 1 ∧
      (∀ k r, recs[k]? = some r → ∃ a b, c[k]? = some a ∧ c[k + 1]? = some b ∧ IsGapWave t x a b r) ∧
      w = IndWaves.ofRecs ((recs.filter fun r => decide (m ≤ r.hWave)).map WaveRec.lift) ∧
      s' = { s with tCross := npDelete (c.map some) (removeIndex (recs.map (·.hWave)) m), wh := ⟨arr1 w.hWave, w.hWave.length, arr1 w.tWave⟩ } := by
  obtain ⟨n, idx, c, h1, h3, h4, -⟩ := gap_zero_crossing hu hlen h2 hty
  obtain ⟨recs, h5, h6, h7⟩ := gap_waves hu hlen h2 h3.1 h4
  have hw : IndWaves.ofRecs ((recs.filter fun r => decide (m ≤ r.hWave)).map WaveRec.lift) =
      (⟨npDelete (IndWaves.ofRecs (recs.map WaveRec.lift)).hWave (whereIdx (fun v => nLt v (some m)) (IndWaves.ofRecs (recs.map WaveRec.lift)).hWave),
        npDelete (IndWaves.ofRecs (recs.map WaveRec.lift)).tWave (whereIdx (fun v => nLt v (some m)) (IndWaves.ofRecs (recs.map WaveRec.lift)).hWave),
        npDelete (IndWaves.ofRecs (recs.map WaveRec.lift)).aCrest (whereIdx (fun v => nLt v (some m)) (IndWaves.ofRecs (recs.map WaveRec.lift)).hWave),
        npDelete (IndWaves.ofRecs (recs.map WaveRec.lift)).aTrough (whereIdx (fun v => nLt v (some m)) (IndWaves.ofRecs (recs.map WaveRec.lift)).hWave),
        npDelete (IndWaves.ofRecs (recs.map WaveRec.lift)).tCrest (whereIdx (fun v => nLt v (some m)) (IndWaves.ofRecs (recs.map WaveRec.lift)).hWave),
        npDelete (IndWaves.ofRecs (recs.map WaveRec.lift)).tTrough (whereIdx (fun v => nLt v (some m)) (IndWaves.ofRecs (recs.map WaveRec.lift)).hWave)⟩ : IndWaves (Option K)) := by
    simp only [IndWaves.ofRecs]
    rw [lift_column recs m _ (·.hWave) (fun _ => rfl), lift_column recs m _ (·.tWave) (fun _ => rfl), lift_column recs m _ (·.aCrest) (fun _ => rfl),
      lift_column recs m _ (·.aTrough) (fun _ => rfl), lift_column recs m _ (·.tCrest) (fun _ => rfl), lift_column recs m _ (·.tTrough) (fun _ => rfl)]
    simp only [List.map_map]
    rfl
  have hrm : whereIdx (fun v => nLt v (some m)) (IndWaves.ofRecs (recs.map WaveRec.lift)).hWave = removeIndex (recs.map (·.hWave)) m := by
    simp only [IndWaves.ofRecs, List.map_map, whereIdx_map, removeIndex]
    rfl
  refine ⟨_, _, idx, c, recs, ?_, h3, h4, h6, h7, rfl, rfl⟩
  unfold determineIndividualWavesN
  rw [hst, hsx]
  simp only [bind, Except.bind, h1, h5]
  rw [hw]
  simp only [WHN_init_vec, pure, Except.pure, hrm]

theorem nDiff_lift (t : List K) : nDiff (t.map some) = (diff t).map some := by
  fun_induction diff t with
  | case1 a b l ih => simp only [List.map_cons, nDiff, nSub] at ih ⊢; rw [ih]
  | case2 l h =>
    rcases l with _ | ⟨a, _ | ⟨b, l⟩⟩
    · rfl
    · rfl
    · exact absurd rfl (h a b l)

theorem IsGapWave.height_nonneg [IsStrictOrderedRing K] {t : List K} {x : List (Option K)} {a b : K} {r : WaveRec K} (h : IsGapWave t x a b r) :
    0 ≤ r.hWave := by
  obtain ⟨i, hi, hv, -, -, -⟩ := h.crest
  obtain ⟨-, -, -, -, hmin, -⟩ := h.trough
  have := hmin i _ hi hv
  rw [h.height]; linarith

/-- **C135.** `Series(time, x)` on a uniform increasing axis with at least two samples never raises, whatever samples of the
signal are missing (NaN).  The crossings are exactly the pairs of neighbouring samples that are both present and change sign
downwards, at the linearly interpolated times; there is one wave per pair of successive crossings, and its crest and trough
are the first highest and lowest of the samples that are present between the two crossings.  No NaN appears among the crossing
times, heights and periods; troughs are below zero, crests are not, and heights are positive. -/
theorem gap_series [IsStrictOrderedRing K] {t : List K} {x : List (Option K)} {dt : K} (hu : UniformAxis t dt)
    (hlen : t.length = x.length) (h2 : 2 ≤ t.length) :
    ∃ (s : SeriesN K) (idx : List Nat) (c : List K) (recs : List (WaveRec K)),
      SeriesN.init (vec (t.map some)) (vec x) = .ok s ∧ s.time = arr1 (t.map some) ∧ s.xTime = arr1 x ∧ s.nt = t.length ∧ s.dt = some dt ∧
      ListsExactly idx (GapDown x) ∧ List.Forall₂ (GapZero t x) idx c ∧ s.tCross = c.map some ∧ recs.length = c.length - 1 ∧
      (∀ k r, recs[k]? = some r → ∃ a b, c[k]? = some a ∧ c[k + 1]? = some b ∧ IsGapWave t x a b r) ∧
      s.wh = (⟨arr1 (recs.map (·.hWave)), recs.length, arr1 (recs.map (·.tWave))⟩ : WH K).lift ∧
      ∀ r ∈ recs, r.aTrough < 0 ∧ 0 ≤ r.aCrest ∧ 0 < r.hWave := by
  obtain ⟨v1, v2, v3⟩ := variance_check_uniform h2 hu
  have hcheck : timeCheckN (nDiff (t.map some)) = some dt := by
    unfold timeCheckN
    rw [nDiff_lift, allFinite_some]
    simp only [if_pos (⟨v1, v2⟩ : diff t ≠ [] ∧ variance (diff t) < mean ((diff t).map (· / 100))), v3]
  obtain ⟨w, s', idx, c, recs, h1, h3, h4, h5, h6, hw, hs'⟩ := gap_analysis (m := 0) (ty := "down")
    (s := { time := arr1 (t.map some), xTime := arr1 x, nt := t.length, dt := some dt, tCross := [], wh := ⟨arr1 [], 0, arr1 []⟩ })
    hu hlen h2 rfl rfl (Or.inr (by decide +kernel))
  have hpos : ∀ r ∈ recs, 0 ≤ r.hWave := by
    intro r hr
    obtain ⟨k, hk⟩ := List.mem_iff_getElem?.1 hr
    obtain ⟨a, b, -, -, hg⟩ := h6 k r hk
    exact hg.height_nonneg
  have hfil : (recs.filter fun r => decide (0 ≤ r.hWave)) = recs := by
    rw [List.filter_eq_self]; intro r hr; simpa using hpos r hr
  have hrm : removeIndex (recs.map (·.hWave)) (0 : K) = [] := whereIdx_false fun v hv => by
    obtain ⟨r, hr, rfl⟩ := List.mem_map.1 hv
    simpa using hpos r hr
  have hsign : ∀ r ∈ recs, r.aTrough < 0 ∧ 0 ≤ r.aCrest ∧ 0 < r.hWave := by
    intro r hr
    obtain ⟨k, hk⟩ := List.mem_iff_getElem?.1 hr
    obtain ⟨a, b, ha, hb, hg⟩ := h6 k r hk
    have hcl := h4.length_eq
    obtain ⟨ka, ha'⟩ := List.getElem?_eq_some_iff.1 ha
    obtain ⟨kb, hb'⟩ := List.getElem?_eq_some_iff.1 hb
    have hgz := List.forall₂_iff_get.1 h4
    have g1 := hgz.2 k (by omega) ka
    have g2 := hgz.2 (k + 1) (by omega) kb
    have hij := List.pairwise_iff_getElem.1 h3.1 k (k + 1) (by omega) (by omega) (by omega)
    have d1 := (h3.2 _).1 (List.getElem_mem (show k < idx.length by omega))
    have d2 := (h3.2 _).1 (List.getElem_mem (show k + 1 < idx.length by omega))
    simp only [List.get_eq_getElem, ha', hb'] at g1 g2
    generalize idx[k]'(by omega) = i at g1 hij d1
    generalize idx[k + 1]'(by omega) = j at g2 hij d2
    have cd : ∀ i, Crosses "down" x i → GapDown x i := by
      rintro i (⟨-, h⟩ | ⟨h, -⟩)
      · exact h
      · exact absurd h (by decide +kernel)
    obtain ⟨_, v, -, hv, -, hvneg⟩ := cd i d1
    obtain ⟨u, _, hu2, hv2, hupos, -⟩ := cd j d2
    obtain ⟨-, -, -, -, lo1, up1, -, -⟩ := g1
    obtain ⟨-, -, -, -, lo2, up2, -, -⟩ := g2
    have hjl := hasValue_lt hv2
    have m1 : t.getD (i + 1) 0 ≤ t.getD j 0 := axis_mono hu (by omega) (by omega)
    obtain ⟨_, _, _, _, hmax, _⟩ := hg.crest
    obtain ⟨_, _, _, _, hmin, _⟩ := hg.trough
    have q1 := hmin (i + 1) v ⟨by omega, up1.le, m1.trans lo2⟩ hv
    have q2 := hmax j u ⟨by omega, up1.le.trans m1, lo2⟩ hu2
    have q1' : r.aTrough ≤ v := q1
    refine ⟨by linarith, by linarith, ?_⟩
    rw [hg.height]; linarith
  rw [hfil] at hw
  rw [hrm, npDelete_nil] at hs'
  have e1 : w.hWave = (recs.map (·.hWave)).map some := by rw [hw]; simp only [IndWaves.ofRecs, List.map_map]; rfl
  have e2 : w.tWave = (recs.map (·.tWave)).map some := by rw [hw]; simp only [IndWaves.ofRecs, List.map_map]; rfl
  have hd : ("down" : String).toLower = "down" := by decide +kernel
  have hne : ("down" : String) ≠ "up" := by decide
  refine ⟨{ s' with wh := ⟨arr1 w.hWave, w.hWave.length, arr1 w.tWave⟩ }, idx, c, recs, ?_, by rw [hs'], by rw [hs'], by rw [hs'], by rw [hs'],
    ⟨h3.1, fun i => ?_⟩, h4, by rw [hs'], h5, h6, ?_, hsign⟩
  · unfold SeriesN.init
    simp only [toVector_of_isVec (isVec_vec (t.map some)), toVector_of_isVec (isVec_vec x)]
    rw [if_neg (by simp [hlen]), if_neg (by simp)]
    simp only [hcheck]
    have e0 : SeriesN.mk (⟨[(t.map some).length], t.map some⟩ : Arr (Option K)) (⟨[x.length], x⟩ : Arr (Option K))
        (Arr.len (⟨[(t.map some).length], t.map some⟩ : Arr (Option K))) (some dt) [] ⟨arr1 [], 0, arr1 []⟩ =
        SeriesN.mk (arr1 (t.map some)) (arr1 x) t.length (some dt) [] ⟨arr1 [], 0, arr1 []⟩ := by
      simp [arr1, Arr.len]
    rw [e0, h1]
    simp only [bind, Except.bind, WHN_init_vec, pure, Except.pure]
  · rw [h3.2 i, Crosses, hd]; simp [hne]
  · rw [e1, e2]
    simp only [WH.lift, Arr.lift, arr1, List.length_map]

/-- **C135 (statistics).** Missing samples never make the wave statistics NaN: if the record has at least one wave, then after
any calls `highest_waves` (every fraction in [0, 1]) and so `get_Hs` return numbers, and so do `get_exceedance_waveheight` (every
percentage up to 100) and `get_Hmax`. -/
theorem gap_series_stats [IsStrictOrderedRing K] [FloorRing K] (A : ArgsortN K) (ops : List (WHOp K)) {t : List K} {x : List (Option K)} {dt : K}
    (hu : UniformAxis t dt) (hlen : t.length = x.length) (h2 : 2 ≤ t.length) {s : SeriesN K}
    (hs : SeriesN.init (vec (t.map some)) (vec x) = .ok s) (hw : 0 < s.wh.nwave) :
    (∀ p, 0 ≤ p → p ≤ 1 → ∃ H T, ((s.wh.run A ops).highestWaves A p).1 = .ok (some H, some T)) ∧
    (∀ p, 0 ≤ p → p ≤ 100 → ∃ H, ((s.wh.run A ops).getExceedance A p).1 = .ok (some H)) ∧
    ∃ H, (s.wh.run A ops).getHmax.1 = .ok (some H) := by
  obtain ⟨s', idx, c, recs, h1, -, -, -, -, -, -, -, -, -, hwh, -⟩ := gap_series hu hlen h2
  rw [h1] at hs
  have hs := Except.ok.inj hs
  subst hs
  have hr : recs ≠ [] := by
    rintro rfl
    rw [hwh] at hw
    exact absurd hw (by simp [WH.lift])
  set w : WH K := ⟨arr1 (recs.map (·.hWave)), recs.length, arr1 (recs.map (·.tWave))⟩ with hwdef
  have wf : w.WF := ⟨by simp [hwdef, arr1, Arr.WF], by simp [hwdef, arr1, Arr.WF]⟩
  have hsame := waves_never_corrupted A.finite ops wf
  have wf' := hsame.wf wf
  rw [hwh, (nan_free_same A ops wf).1]
  obtain ⟨-, r1, r2, r3⟩ := nan_free_same A [] wf'
  have hlenh : ((w.run A.finite ops).hwave.data).length = recs.length := by
    rw [hsame.heights.length_eq]; simp [hwdef, arr1]
  have hlent : ((w.run A.finite ops).twave.data).length = recs.length := by
    rw [hsame.periods.length_eq]; simp [hwdef, arr1]
  have eh : (w.run A.finite ops).hwave = arr1 (w.run A.finite ops).hwave.data := by
    have := hsame.hshape
    rw [show w.hwave.shape = [recs.length] by simp [hwdef, arr1]] at this
    unfold arr1
    rw [hlenh, ← this]
  have et : (w.run A.finite ops).twave = arr1 (w.run A.finite ops).twave.data := by
    have := hsame.tshape
    rw [show w.twave.shape = [recs.length] by simp [hwdef, arr1]] at this
    unfold arr1
    rw [hlent, ← this]
  have hpos := List.length_pos_of_ne_nil hr
  generalize hq : w.run A.finite ops = q at *
  clear_value w
  obtain ⟨qh, qn, qt⟩ := q
  simp only at eh et hlenh hlent
  generalize hhd : qh.data = h at *
  generalize htd : qt.data = tt at *
  subst eh et
  have h0 : h ≠ [] := by rintro rfl; simp at hlenh; omega
  have hsrt := sort_vec A.finite (h := h) (t := tt) h0 (by rw [hlenh, hlent]) qn
  have hl1 : (A.finite.run h).length = h.length := by simpa using (A.finite.perm h).length_eq
  have hne : ((A.finite.run h).reverse.map fun i => h.getD i 0) ≠ [] := by
    intro e
    have := congrArg List.length e
    simp [hl1] at this
    exact h0 this
  have hsd : isSortedDesc ((A.finite.run h).reverse.map fun i => h.getD i 0) = true := by
    apply isSortedDesc_pairwise'
    rw [List.map_reverse, List.pairwise_reverse]
    exact A.finite.sorted h
  refine ⟨fun p p0 p1 => ?_, fun p p0 p1 => ?_, ?_⟩
  · rw [r1 p]
    unfold WH.highestWaves
    rw [hsrt]
    have := highest_vec_eq (p := p) (t := (A.finite.run h).reverse.map fun i => tt.getD i 0) hne (by simp) hsd p0 p1
    simp only [this]
    split_ifs
    · exact ⟨_, _, rfl⟩
    · exact ⟨_, _, rfl⟩
  · rw [r2 p]
    unfold WH.getExceedance
    rw [hsrt]
    obtain ⟨H, hH⟩ : ∃ H, exceedanceWaveHeight (.nd (arr1 ((A.finite.run h).reverse.map fun i => h.getD i 0))) p = .ok H := by
      generalize ((A.finite.run h).reverse.map fun i => h.getD i 0) = l at hne hsd
      have hlp := List.length_pos_of_ne_nil hne
      unfold exceedanceWaveHeight
      dsimp only
      rw [if_neg, if_neg, if_neg, if_neg]
      · show ∃ H, (if ¬ ⌊(l.length : K) * p / 100⌋ - 1 < 0 then getE l (⌊(l.length : K) * p / 100⌋ - 1).toNat else .ok 0) = .ok H
        split_ifs with hc
        · exact ⟨_, rfl⟩
        · have hle : (l.length : K) * p / 100 ≤ (l.length : K) := by
            have : (0 : K) ≤ l.length := Nat.cast_nonneg _
            rw [div_le_iff₀ (by norm_num)]
            exact mul_le_mul_of_nonneg_left p1 this
          have hfl : ⌊(l.length : K) * p / 100⌋ ≤ (l.length : Int) := by
            have := Int.floor_le_floor hle
            simpa using this
          exact ⟨_, getE_ok.2 (List.getElem?_eq_getElem (by omega))⟩
      · show ¬ (!isSortedDesc l) = true
        rw [hsd]; simp
      · show ¬ l.length < 1
        omega
      · rintro (h | h)
        · exact absurd p1 (not_le.2 h)
        · exact absurd p0 (not_le.2 h)
      · show ¬ (!isOneD (⟨[l.length], l⟩ : Arr K)) = true
        rw [isOneD_vec]; simp [hne]
    simp only [hH]
    exact ⟨H, rfl⟩
  · rw [r3]
    unfold WH.getHmax
    simp only [arr1]
    cases h with
    | nil => exact absurd rfl h0
    | cons a l => exact ⟨_, rfl⟩

/-- **C135 (missing samples only remove crossings).** Let `x` be the record `y` with some samples missing.  Every crossing
of `x` is a crossing of `y`, so `x` has no more crossings and no more waves than `y`. -/
theorem gaps_only_merge {y : List K} {x : List (Option K)} (hlen : x.length = y.length)
    (hxy : ∀ i v, HasValue x i v → y[i]? = some v) {idx idy : List Nat} (hx : ListsExactly idx (GapDown x))
    (hy : ListsExactly idy (DownCrossing y)) : idx.Sublist idy := by
  have hsub : ∀ i ∈ idx, i ∈ idy := by
    intro i hi
    obtain ⟨a, b, ha, hb, h1, h2⟩ := (hx.2 i).1 hi
    refine (hy.2 i).2 ⟨by have := hasValue_lt hb; omega, ?_, ?_⟩
    · rw [List.getD, hxy i a ha]; exact h1
    · rw [List.getD, hxy _ b hb]; exact h2
  exact List.sublist_of_subperm_of_pairwise ((List.Nodup.subperm (hx.1.imp (fun h => ne_of_lt h)) hsub)) hx.1 hy.1

/-! ## NaN in an axis -/

theorem nDiff_nan {t : List (Option K)} (h2 : 2 ≤ t.length) (hn : none ∈ t) : none ∈ nDiff t := by
  induction t with
  | nil => simp at hn
  | cons a t ih =>
    cases t with
    | nil => simp at h2
    | cons b t =>
      rcases List.mem_cons.1 hn with h | h
      · subst h; cases b <;> simp [nDiff, nSub]
      · cases t with
        | nil =>
          have : b = none := by simpa [eq_comm] using h
          subst this
          cases a <;> simp [nDiff, nSub]
        | cons d t => exact List.mem_cons_of_mem _ (ih (by simp) h)

/-- **C136 (Series).** A time axis with a NaN is always rejected with `AssertionError`, whatever the signal. -/
theorem nan_time_rejected {t x : List (Option K)} (hn : none ∈ t) : ∃ msg, SeriesN.init (vec t) (vec x) = .error (.assertionError msg) := by
  unfold SeriesN.init
  simp only [toVector_of_isVec (isVec_vec t), toVector_of_isVec (isVec_vec x)]
  by_cases hl : t.length ≠ x.length
  · rw [if_pos hl]; exact ⟨_, rfl⟩
  rw [if_neg hl, if_neg (by simp)]
  have hc : timeCheckN (nDiff t) = none := by
    unfold timeCheckN
    by_cases h2 : 2 ≤ t.length
    · rw [allFinite_none.2 (nDiff_nan h2 hn)]
    · rcases t with _ | ⟨a, _ | ⟨b, t⟩⟩
      · rfl
      · rfl
      · simp at h2
  simp only [hc]
  exact ⟨_, rfl⟩

/-- **C136 (frequency axes).** The axis check used by every `Spectrum` method returns False for every axis (of at least two
points) with a NaN. -/
theorem nan_axis_rejected {f : List (Option K)} (h2 : 2 ≤ f.length) (hn : none ∈ f) : monotonicN f = .ok false := by
  have hd := nDiff_nan h2 hn
  unfold monotonicN
  cases e : nDiff f with
  | nil => rw [e] at hd; simp at hd
  | cons d0 ds =>
    rw [e] at hd
    have : (d0 :: ds).all (fun d => nLt (some (0 : K)) d) = false := by
      rw [List.all_eq_false]
      exact ⟨none, hd, by simp [nLt]⟩
    simp only [this, Bool.false_and]

/-! ## Concrete cases -/

/-- A record with two missing samples: the crossing hidden by the first gap is lost and two waves merge; the missing sample
inside the last wave is ignored. -/
example : (SeriesN.init (K := ℚ) (vec [some 0, some 1, some 2, some 3, some 4, some 5, some 6, some 7, some 8, some 9, some 10])
    (vec [some 1, some (-1), some 2, none, some (-3), some 4, some (-4), none, some 9, some 1, some (-1)])).map
      (fun s => (s.tCross, s.wh.hwave.data, s.wh.twave.data)) =
    .ok ([some (1/2), some (11/2), some (19/2)], [some 7, some 13], [some 5, some 4]) := by
  decide +kernel

example : SeriesN.init (K := ℚ) (vec [some 0, none, some 2]) (vec [some 1, some (-1), some 2]) =
    .error (.assertionError "Input error: time step is not equidistant") := by decide +kernel

example : monotonicN (K := ℚ) [some 0, some 1, none] = .ok false := by decide +kernel

/-- An eleven-sample record with two missing samples. -/
abbrev gapT : List ℚ := [0, 1, 2, 3, 4, 5, 6, 7, 8, 9, 10]
/-- The samples of that record. -/
abbrev gapX : List (Option ℚ) := [some 1, some (-1), some 2, none, some (-3), some 4, some (-4), none, some 9, some 1, some (-1)]

theorem gapT_uniform : UniformAxis gapT 1 := uniformAxis_of_steps (by norm_num) (by decide +kernel)

example (ops : List (WHOp ℚ)) : ∃ s : SeriesN ℚ, SeriesN.init (vec (gapT.map some)) (vec gapX) = .ok s ∧ 0 < s.wh.nwave ∧
    ∃ H, (s.wh.run stableArgsortN ops).getHmax.1 = .ok (some H) := by
  have hn : (SeriesN.init (vec (gapT.map some)) (vec gapX)).map (fun s => s.wh.nwave) = .ok 2 := by decide +kernel
  obtain ⟨s, -, -, -, h, -⟩ := gap_series gapT_uniform (x := gapX) rfl (by simp)
  have hw : 0 < s.wh.nwave := by
    rw [h] at hn
    have : s.wh.nwave = 2 := by simpa [Except.map] using hn
    omega
  exact ⟨s, h, hw, (gap_series_stats stableArgsortN ops gapT_uniform rfl (by simp) h hw).2.2⟩

example : ∃ (s : SeriesN ℚ) (w : IndWaves (Option ℚ)) (s' : SeriesN ℚ) (c : List ℚ), SeriesN.init (vec (gapT.map some)) (vec gapX) = .ok s ∧
    determineIndividualWavesN s "up" 2 = .ok (w, c.map some, s') := by
  obtain ⟨s, -, -, -, h, h1, h2, -⟩ := gap_series gapT_uniform (x := gapX) rfl (by simp)
  obtain ⟨w, s', -, c, -, a, -⟩ := gap_analysis gapT_uniform rfl (by simp) h1 h2 (ty := "up") (.inl (by decide +kernel)) 2
  exact ⟨s, w, s', c, h, a⟩

example : ∃ idx idy, ListsExactly idx (GapDown gapX) ∧ ListsExactly idy (DownCrossing ([1, -1, 2, 5, -3, 4, -4, 1, 9, 1, -1] : List ℚ)) ∧ idx.Sublist idy := by
  refine ⟨_, _, crossIdxN_down _, crossIdx_down_listsExactly _, gaps_only_merge rfl (fun i v h => ?_) (crossIdxN_down _) (crossIdx_down_listsExactly _)⟩
  have hi : i < 11 := by
    have := List.getElem?_eq_some_iff.1 h
    exact this.1
  unfold HasValue at h
  obtain rfl | rfl | rfl | rfl | rfl | rfl | rfl | rfl | rfl | rfl | rfl :
    i = 0 ∨ i = 1 ∨ i = 2 ∨ i = 3 ∨ i = 4 ∨ i = 5 ∨ i = 6 ∨ i = 7 ∨ i = 8 ∨ i = 9 ∨ i = 10 := by omega
  all_goals simp at h ⊢
  all_goals exact h

example : ∃ msg, SeriesN.init (K := ℚ) (vec [some 0, none, some 2]) (vec [some 1, some (-1), some 2]) = .error (.assertionError msg) :=
  nan_time_rejected (by simp)

example : monotonicN (K := ℚ) [some 0, some 1, none] = .ok false := nan_axis_rejected (by simp) (by simp)

end Verif
