import Verif.Model.NaN
import Verif.Props.WaveHeights
import Verif.Props.SeriesInit

/-! # C134: wave heights with missing values -/

set_option linter.unusedSectionVars false

namespace Verif
variable {K : Type} [Field K] [LinearOrder K]

/-! ## Arrays without NaN: the model with NaN is the model without -/

theorem allFinite_some (l : List K) : allFinite (l.map some) = some l := by
  induction l with
  | nil => rfl
  | cons a l ih => simp [allFinite, ih]

theorem allFinite_none {l : List (Option K)} : allFinite l = none ↔ none ∈ l := by
  induction l with
  | nil => simp [allFinite]
  | cons a l ih => cases a <;> simp [allFinite, ih]

theorem allFinite_eq {l : List (Option K)} {v : List K} : allFinite l = some v ↔ l = v.map some := by
  constructor
  · intro h
    induction l generalizing v with
    | nil => simp [allFinite] at h; simp [h]
    | cons a l ih =>
      cases a with
      | none => simp [allFinite] at h
      | some a =>
        simp only [allFinite, Option.map_eq_some_iff] at h
        obtain ⟨w, h1, h2⟩ := h
        rw [← h2, ih h1]; rfl
  · rintro rfl; exact allFinite_some v

/-- The `np.argsort` of arrays without NaN. -/
def ArgsortN.finite (A : ArgsortN K) : Argsort K where
  run l := A.run (l.map some)
  perm l := by simpa using A.perm (l.map some)
  sorted l := by
    have h := A.sorted (l.map some)
    have hp := A.perm (l.map some)
    rw [List.pairwise_map] at h ⊢
    refine h.imp_of_mem ?_
    intro i j hi hj hij
    have hi : i < l.length := by simpa using hp.mem_iff.1 hi
    have hj : j < l.length := by simpa using hp.mem_iff.1 hj
    rw [List.getD, List.getD, List.getElem?_map, List.getElem?_map, List.getElem?_eq_getElem hi, List.getElem?_eq_getElem hj] at hij
    rw [List.getD, List.getD, List.getElem?_eq_getElem hi, List.getElem?_eq_getElem hj]
    exact hij

/-- The array with the same values, as an array that may contain NaN. -/
def Arr.lift (a : Arr K) : Arr (Option K) := ⟨a.shape, a.data.map some⟩

/-- The same object, as an object whose arrays may contain NaN. -/
def WH.lift (s : WH K) : WHN K := ⟨s.hwave.lift, s.nwave, s.twave.lift⟩

theorem getD_lift {l : List K} {i : Nat} (h : i < l.length) : (l.map some).getD i none = some (l.getD i 0) := by
  rw [List.getD, List.getD, List.getElem?_map, List.getElem?_eq_getElem h]; rfl

theorem isOneD_lift (a : Arr K) : isOneD a.lift = isOneD a := rfl

theorem len_lift (a : Arr K) : a.lift.len = a.len := rfl

theorem sort_lift (A : ArgsortN K) {s : WH K} (hw : s.WF) :
    (s.lift).sort A = ((s.sort A.finite).1, (s.sort A.finite).2.lift) := by
  have key : sortWaveParamsN A (.nd s.hwave.lift) (.nd s.twave.lift) =
      (sortWaveParams A.finite (.nd s.hwave) (.nd s.twave)).map fun r => (r.1.map some, r.2.map some) := by
    unfold sortWaveParamsN sortWaveParams
    dsimp only
    by_cases h1 : (!isOneD (toArr (PyIn.nd s.hwave))) = true
    · rw [if_pos h1, if_pos (show (!isOneD (toArr (PyIn.nd s.hwave.lift))) = true from h1)]; rfl
    rw [if_neg h1, if_neg (show ¬ (!isOneD (toArr (PyIn.nd s.hwave.lift))) = true from h1)]
    by_cases h2 : (!isOneD (toArr (PyIn.nd s.twave))) = true
    · rw [if_pos h2, if_pos (show (!isOneD (toArr (PyIn.nd s.twave.lift))) = true from h2)]; rfl
    rw [if_neg h2, if_neg (show ¬ (!isOneD (toArr (PyIn.nd s.twave.lift))) = true from h2)]
    by_cases h3 : (toArr (PyIn.nd s.hwave)).len ≠ (toArr (PyIn.nd s.twave)).len
    · rw [if_pos h3, if_pos (show (toArr (PyIn.nd s.hwave.lift)).len ≠ (toArr (PyIn.nd s.twave.lift)).len from h3)]; rfl
    rw [if_neg h3, if_neg (show ¬ (toArr (PyIn.nd s.hwave.lift)).len ≠ (toArr (PyIn.nd s.twave.lift)).len from h3)]
    by_cases h4 : (toArr (PyIn.nd s.hwave)).len < 1
    · rw [if_pos h4, if_pos (show (toArr (PyIn.nd s.hwave.lift)).len < 1 from h4)]; rfl
    rw [if_neg h4, if_neg (show ¬ (toArr (PyIn.nd s.hwave.lift)).len < 1 from h4)]
    simp only [toArr] at h1 h2 h3
    simp only [Bool.not_eq_true', Bool.not_eq_false] at h1 h2
    obtain ⟨n, hn, -⟩ := isOneD_shape h1
    obtain ⟨m, hm, -⟩ := isOneD_shape h2
    have l1 : s.hwave.data.length = n := by have := hw.1; unfold Arr.WF at this; rw [hn] at this; simpa using this
    have l2 : s.twave.data.length = m := by have := hw.2; unfold Arr.WF at this; rw [hm] at this; simpa using this
    have hnm : n = m := by unfold Arr.len at h3; rw [hn, hm] at h3; simpa using h3
    have hp := A.perm (s.hwave.data.map some)
    have hlt : ∀ i ∈ (A.run (s.hwave.data.map some)).reverse, i < n := by
      intro i hi
      have := hp.mem_iff.1 (List.mem_reverse.1 hi)
      rwa [List.mem_range, List.length_map, l1] at this
    refine congrArg Except.ok (Prod.ext ?_ ?_)
    · simp only [List.map_map, Arr.lift, ArgsortN.finite]
      exact List.map_congr_left fun i hi => getD_lift (by rw [l1]; exact hlt i hi)
    · simp only [List.map_map, Arr.lift, ArgsortN.finite]
      exact List.map_congr_left fun i hi => getD_lift (by rw [l2, ← hnm]; exact hlt i hi)
  have e : (s.lift).sort A = match sortWaveParamsN A (.nd s.hwave.lift) (.nd s.twave.lift) with
    | .ok (h, t) => (.ok (), { s.lift with hwave := arr1 h, twave := arr1 t })
    | .error e => (.error e, s.lift) := rfl
  rw [e, key]
  unfold WH.sort
  rcases sortWaveParams A.finite (.nd s.hwave) (.nd s.twave) with e | ⟨h, t⟩
  · rfl
  · simp [Except.map, WH.lift, arr1, Arr.lift]

theorem zipWith_nEq (l l' : List K) (h : l.length = l'.length) :
    (List.zipWith nEq (l.map some) (l'.map some)).all id = decide (l = l') := by
  induction l generalizing l' with
  | nil => cases l' with
    | nil => rfl
    | cons b l' => simp at h
  | cons a l ih =>
    cases l' with
    | nil => simp at h
    | cons b l' =>
      have := ih l' (by simpa using h)
      simp only [List.map_cons, List.zipWith_cons_cons, List.all_cons, this, id, nEq, List.cons.injEq,
        Bool.decide_and]

theorem npSortN_some (l : List K) : npSortN (l.map some) = (l.insertionSort (· ≤ ·)).map some := by
  have h1 : (l.map some).filterMap id = l := by induction l <;> simp_all
  have h2 : (l.map some).filter Option.isNone = [] := by induction l <;> simp_all
  simp only [npSortN, h1, h2, List.append_nil]

theorem isSortedDescN_some (h : List K) : isSortedDescN (h.map some) = isSortedDesc h := by
  unfold isSortedDescN isSortedDesc
  rw [npSortN_some, ← List.map_reverse, zipWith_nEq _ _ (by simp [List.length_insertionSort])]

theorem pySlice_map {α β : Type} (f : α → β) (l : List α) (a b : Nat) : pySlice (l.map f) a b = (pySlice l a b).map f := by
  simp [pySlice]

theorem nMean_some (l : List K) : nMean (l.map some) = some (mean l) := by simp [nMean, allFinite_some]

theorem highest_lift [FloorRing K] (h t : Arr K) (p : K) :
    highestWavesParamsN (.nd h.lift) (.nd t.lift) p =
      (highestWavesParams (.nd h) (.nd t) p).map fun r => (some r.1, some r.2) := by
  unfold highestWavesParamsN highestWavesParams
  dsimp only
  by_cases h1 : (!isOneD (toArr (PyIn.nd h))) = true
  · rw [if_pos h1, if_pos (show (!isOneD (toArr (PyIn.nd h.lift))) = true from h1)]; rfl
  rw [if_neg h1, if_neg (show ¬ (!isOneD (toArr (PyIn.nd h.lift))) = true from h1)]
  by_cases h2 : (!isOneD (toArr (PyIn.nd t))) = true
  · rw [if_pos h2, if_pos (show (!isOneD (toArr (PyIn.nd t.lift))) = true from h2)]; rfl
  rw [if_neg h2, if_neg (show ¬ (!isOneD (toArr (PyIn.nd t.lift))) = true from h2)]
  by_cases h3 : (toArr (PyIn.nd t)).len ≠ (toArr (PyIn.nd h)).len
  · rw [if_pos h3, if_pos (show (toArr (PyIn.nd t.lift)).len ≠ (toArr (PyIn.nd h.lift)).len from h3)]; rfl
  rw [if_neg h3, if_neg (show ¬ (toArr (PyIn.nd t.lift)).len ≠ (toArr (PyIn.nd h.lift)).len from h3)]
  by_cases h4 : p < 0 ∨ 1 < p
  · rw [if_pos h4, if_pos h4]; rfl
  rw [if_neg h4, if_neg h4]
  by_cases h5 : (toArr (PyIn.nd h)).len < 1
  · rw [if_pos h5, if_pos (show (toArr (PyIn.nd h.lift)).len < 1 from h5)]; rfl
  rw [if_neg h5, if_neg (show ¬ (toArr (PyIn.nd h.lift)).len < 1 from h5)]
  have e1 : isSortedDescN (toArr (PyIn.nd h.lift)).data = isSortedDesc (toArr (PyIn.nd h)).data := isSortedDescN_some _
  by_cases h6 : (!isSortedDesc (toArr (PyIn.nd h)).data) = true
  · rw [if_pos h6, if_pos (by rw [e1]; exact h6)]; rfl
  rw [if_neg h6, if_neg (by rw [e1]; exact h6)]
  have e2 : ∀ n, nMean (pySlice h.lift.data 0 n) = some (mean (pySlice h.data 0 n)) := fun n => by
    simp only [Arr.lift, pySlice_map, nMean_some]
  have e3 : ∀ n, nMean (pySlice t.lift.data 0 n) = some (mean (pySlice t.data 0 n)) := fun n => by
    simp only [Arr.lift, pySlice_map, nMean_some]
  by_cases h7 : 0 < ⌊((toArr (PyIn.nd h)).len : K) * p⌋
  · rw [if_pos h7, if_pos (show 0 < ⌊((toArr (PyIn.nd h.lift)).len : K) * p⌋ from h7)]
    exact congrArg Except.ok (Prod.ext (e2 _) (e3 _))
  · rw [if_neg h7, if_neg (show ¬ 0 < ⌊((toArr (PyIn.nd h.lift)).len : K) * p⌋ from h7)]; rfl

theorem getE_some (l : List K) (i : Nat) : getE (l.map some) i = (getE l i).map some := by
  unfold getE
  rw [List.getElem?_map]
  cases l[i]? <;> rfl

theorem exceedance_lift [FloorRing K] (h : Arr K) (p : K) :
    exceedanceWaveHeightN (.nd h.lift) p = (exceedanceWaveHeight (.nd h) p).map some := by
  unfold exceedanceWaveHeightN exceedanceWaveHeight
  dsimp only
  by_cases h1 : (!isOneD (toArr (PyIn.nd h))) = true
  · rw [if_pos h1, if_pos (show (!isOneD (toArr (PyIn.nd h.lift))) = true from h1)]; rfl
  rw [if_neg h1, if_neg (show ¬ (!isOneD (toArr (PyIn.nd h.lift))) = true from h1)]
  by_cases h4 : 100 < p ∨ p < 0
  · rw [if_pos h4, if_pos h4]; rfl
  rw [if_neg h4, if_neg h4]
  by_cases h5 : (toArr (PyIn.nd h)).len < 1
  · rw [if_pos h5, if_pos (show (toArr (PyIn.nd h.lift)).len < 1 from h5)]; rfl
  rw [if_neg h5, if_neg (show ¬ (toArr (PyIn.nd h.lift)).len < 1 from h5)]
  have e1 : isSortedDescN (toArr (PyIn.nd h.lift)).data = isSortedDesc (toArr (PyIn.nd h)).data := isSortedDescN_some _
  by_cases h6 : (!isSortedDesc (toArr (PyIn.nd h)).data) = true
  · rw [if_pos h6, if_pos (by rw [e1]; exact h6)]; rfl
  rw [if_neg h6, if_neg (by rw [e1]; exact h6)]
  have e2 : ∀ n, getE h.lift.data n = (getE h.data n).map some := fun n => getE_some _ n
  by_cases h7 : ¬ ⌊((toArr (PyIn.nd h)).len : K) * p / 100⌋ - 1 < 0
  · rw [if_pos h7, if_pos (show ¬ ⌊((toArr (PyIn.nd h.lift)).len : K) * p / 100⌋ - 1 < 0 from h7)]
    exact e2 _
  · rw [if_neg h7, if_neg (show ¬ ¬ ⌊((toArr (PyIn.nd h.lift)).len : K) * p / 100⌋ - 1 < 0 from h7)]; rfl

theorem step_lift [FloorRing K] (A : ArgsortN K) (op : WHOp K) {s : WH K} (hw : s.WF) :
    (s.lift).step A op = (s.step A.finite op).lift := by
  have hsort : ∀ {s : WH K}, s.WF → (s.lift.sort A).2 = (s.sort A.finite).2.lift := fun hw => by rw [sort_lift A hw]
  have hstate : ∀ (s : WHN K) p, (s.highestWaves A p).2 = (s.sort A).2 := by
    intro s p; unfold WHN.highestWaves; rcases s.sort A with ⟨_ | _, s'⟩ <;> rfl
  have hstate2 : ∀ (s : WHN K) p, (s.getExceedance A p).2 = (s.sort A).2 := by
    intro s p; unfold WHN.getExceedance; rcases s.sort A with ⟨_ | _, s'⟩ <;> rfl
  have hres : ∀ {s : WH K}, s.WF → s.lift.getHs A = ((s.getHs A.finite).1.map fun r => (some r.1, some r.2), (s.getHs A.finite).2.lift) := by
    intro s hw
    unfold WHN.getHs WH.getHs WHN.highestWaves WH.highestWaves
    rw [sort_lift A hw]
    rcases s.sort A.finite with ⟨_ | _, s'⟩
    · rfl
    · exact Prod.ext (highest_lift s'.hwave s'.twave (1 / 3)) rfl
  have wfs : ∀ {s : WH K}, s.WF → (s.getHs A.finite).2.WF := by
    intro s hw
    rw [show (s.getHs A.finite).2 = (s.sort A.finite).2 from s.highestWaves_state _ _]
    exact (s.sort_same A.finite hw).wf hw
  cases op with
  | sort => exact hsort hw
  | getHrms => rfl
  | getHmax => rfl
  | getHs => exact (hstate _ _).trans ((hsort hw).trans (congrArg WH.lift (s.highestWaves_state _ _).symm))
  | getH2pRayleigh => exact (hstate _ _).trans ((hsort hw).trans (congrArg WH.lift (s.highestWaves_state _ _).symm))
  | getExceedance p => exact (hstate2 _ _).trans ((hsort hw).trans (congrArg WH.lift (s.getExceedance_state _ _).symm))
  | highestWaves p => exact (hstate _ _).trans ((hsort hw).trans (congrArg WH.lift (s.highestWaves_state _ _).symm))
  | plotExceedance => exact hsort hw
  | plotHist => rfl
  | plotExceedanceRayleigh b =>
    have main : ∀ s1 : WH K, s1.WF → (match s1.lift.getHs A with
          | (.error _, s2) => s2
          | (.ok _, s2) => (s2.sort A).2) = WH.lift (match s1.getHs A.finite with
          | (.error _, s2) => s2
          | (.ok _, s2) => (s2.sort A.finite).2) := by
      intro s1 h1
      have h2 := wfs h1
      rw [hres h1]
      rcases hg : s1.getHs A.finite with ⟨r | r, s2⟩
      · rfl
      · rw [hg] at h2; exact hsort h2
    simp only [WHN.step, WH.step]
    cases b with
    | false => exact main s hw
    | true =>
      have h2 := wfs hw
      simp only [if_true]
      rw [hres hw]
      rcases hg : s.getHs A.finite with ⟨r | r, s2⟩
      · rfl
      · rw [hg] at h2; exact main s2 h2

/-- **C134 (no NaN).** For a `WaveHeights` object whose arrays contain no NaN, the model with NaN is the model used for all
other properties: after any sequence of calls the two objects hold the same values, and every method returns the same
value or raises the same exception.  So every property of `WaveHeights` proved for arrays of numbers carries over. -/
theorem nan_free_same [FloorRing K] (A : ArgsortN K) (ops : List (WHOp K)) {s : WH K} (hw : s.WF) :
    (s.lift).run A ops = (s.run A.finite ops).lift ∧
    (∀ p, ((s.lift).highestWaves A p).1 = (s.highestWaves A.finite p).1.map fun r => (some r.1, some r.2)) ∧
    (∀ p, ((s.lift).getExceedance A p).1 = (s.getExceedance A.finite p).1.map some) ∧
    (s.lift).getHmax.1 = s.getHmax.1.map some := by
  refine ⟨?_, ?_, ?_, ?_⟩
  · induction ops generalizing s with
    | nil => rfl
    | cons op ops ih =>
      have h1 := s.step_same A.finite op hw
      have := ih (h1.wf hw)
      simp only [WHN.run, WH.run, List.foldl_cons] at this ⊢
      rw [step_lift A op hw]; exact this
  · intro p
    unfold WHN.highestWaves WH.highestWaves
    rw [sort_lift A hw]
    rcases s.sort A.finite with ⟨_ | _, s'⟩
    · rfl
    · exact highest_lift s'.hwave s'.twave p
  · intro p
    unfold WHN.getExceedance WH.getExceedance
    rw [sort_lift A hw]
    rcases s.sort A.finite with ⟨_ | _, s'⟩
    · rfl
    · exact exceedance_lift s'.hwave p
  · unfold WHN.getHmax WH.getHmax
    simp only [WH.lift, Arr.lift]
    cases s.hwave.data with
    | nil => rfl
    | cons a l => simp only [List.map_cons, allFinite, allFinite_some, Option.map_some, Except.map, List.headD_cons, List.tail_cons]

/-! ## NaN among the heights -/

/-- The call ends in a `ValueError`. -/
def RaisesValueError {α : Type} (r : Except PyErr α) : Prop := ∃ msg, r = .error (.valueError msg)

theorem npSortN_length (l : List (Option K)) : (npSortN l).length = l.length := by
  simp only [npSortN, List.length_append, List.length_map, List.length_insertionSort]
  induction l with
  | nil => rfl
  | cons a l ih => cases a <;> simp_all <;> omega

theorem isSortedDescN_nan {h : List (Option K)} (hn : none ∈ h) : isSortedDescN h = false := by
  have key : ∀ l l' : List (Option K), l.length = l'.length → none ∈ l → (List.zipWith nEq l l').all id = false := by
    intro l
    induction l with
    | nil => intro l' _ hm; simp at hm
    | cons a l ih =>
      intro l' hl hm
      cases l' with
      | nil => simp at hl
      | cons b l' =>
        simp only [List.zipWith_cons_cons, List.all_cons]
        rcases List.mem_cons.1 hm with rfl | hm
        · rfl
        · rw [ih l' (by simpa using hl) hm, Bool.and_false]
  exact key _ _ (by rw [List.length_reverse, npSortN_length]) hn

theorem sortN_nan (A : ArgsortN K) {s : WHN K} (hn : none ∈ s.hwave.data) :
    none ∈ (s.sort A).2.hwave.data ∧ ((s.sort A).1 = .ok () ∨ RaisesValueError (s.sort A).1) ∧
      ((s.sort A).1 = .ok () → (s.sort A).2.hwave.len = s.hwave.data.length) := by
  unfold WHN.sort sortWaveParamsN
  dsimp only
  by_cases h1 : (!isOneD (toArr (PyIn.nd s.hwave))) = true
  · rw [if_pos h1]; exact ⟨hn, Or.inr ⟨_, rfl⟩, by intro h; cases h⟩
  by_cases h2 : (!isOneD (toArr (PyIn.nd s.twave))) = true
  · rw [if_neg h1, if_pos h2]; exact ⟨hn, Or.inr ⟨_, rfl⟩, by intro h; cases h⟩
  by_cases h3 : (toArr (PyIn.nd s.hwave)).len ≠ (toArr (PyIn.nd s.twave)).len
  · rw [if_neg h1, if_neg h2, if_pos h3]; exact ⟨hn, Or.inr ⟨_, rfl⟩, by intro h; cases h⟩
  by_cases h4 : (toArr (PyIn.nd s.hwave)).len < 1
  · exfalso
    simp only [Bool.not_eq_true', Bool.not_eq_false, toArr] at h1 h4
    obtain ⟨n, hs, h0⟩ := isOneD_shape h1
    unfold Arr.len at h4
    rw [hs] at h4
    simp at h4
    exact h0 h4
  rw [if_neg h1, if_neg h2, if_neg h3, if_neg h4]
  have hp := A.perm s.hwave.data
  refine ⟨?_, by simp, ?_⟩
  · obtain ⟨k, hk⟩ := List.mem_iff_getElem?.1 hn
    simp only [arr1, List.mem_map, List.mem_reverse]
    refine ⟨k, hp.mem_iff.2 (List.mem_range.2 (List.getElem?_eq_some_iff.1 hk).1), ?_⟩
    show (s.hwave.data.getD k none) = none
    rw [List.getD, hk]; rfl
  · intro _
    have : (A.run (toArr (PyIn.nd s.hwave)).data).length = s.hwave.data.length := by
      have := hp.length_eq
      rwa [List.length_range] at this
    simp only [arr1, Arr.len, List.headD_cons, List.length_map, List.length_reverse, this]

theorem highestN_nan [FloorRing K] (A : ArgsortN K) (p : K) {s : WHN K} (hn : none ∈ s.hwave.data) :
    RaisesValueError (s.highestWaves A p).1 := by
  obtain ⟨h1, h2, h3⟩ := sortN_nan A hn
  unfold WHN.highestWaves
  rcases hs : s.sort A with ⟨e | u, s'⟩
  · rw [hs] at h2
    rcases h2 with h2 | ⟨m, h2⟩
    · cases h2
    · exact ⟨m, by simp only at h2 ⊢; rw [Except.error.inj h2]⟩
  · rw [hs] at h1 h3
    have h3 := h3 rfl
    have hpos : 0 < s.hwave.data.length := List.length_pos_of_mem hn
    simp only [highestWavesParamsN]
    by_cases a1 : (!isOneD (toArr (PyIn.nd s'.hwave))) = true
    · rw [if_pos a1]; exact ⟨_, rfl⟩
    by_cases a2 : (!isOneD (toArr (PyIn.nd s'.twave))) = true
    · rw [if_neg a1, if_pos a2]; exact ⟨_, rfl⟩
    by_cases a3 : (toArr (PyIn.nd s'.twave)).len ≠ (toArr (PyIn.nd s'.hwave)).len
    · rw [if_neg a1, if_neg a2, if_pos a3]; exact ⟨_, rfl⟩
    by_cases a4 : p < 0 ∨ 1 < p
    · rw [if_neg a1, if_neg a2, if_neg a3, if_pos a4]; exact ⟨_, rfl⟩
    have a5 : ¬ (toArr (PyIn.nd s'.hwave)).len < 1 := by simp only [toArr] at h3 ⊢; omega
    have a6 : isSortedDescN (toArr (PyIn.nd s'.hwave)).data = false := isSortedDescN_nan h1
    rw [if_neg a1, if_neg a2, if_neg a3, if_neg a4, if_neg a5, if_pos (by rw [a6]; rfl)]
    exact ⟨_, rfl⟩

theorem exceedanceN_nan [FloorRing K] (A : ArgsortN K) (p : K) {s : WHN K} (hn : none ∈ s.hwave.data) :
    RaisesValueError (s.getExceedance A p).1 := by
  obtain ⟨h1, h2, h3⟩ := sortN_nan A hn
  unfold WHN.getExceedance
  rcases hs : s.sort A with ⟨e | u, s'⟩
  · rw [hs] at h2
    rcases h2 with h2 | ⟨m, h2⟩
    · cases h2
    · exact ⟨m, by simp only at h2 ⊢; rw [Except.error.inj h2]⟩
  · rw [hs] at h1 h3
    have h3 := h3 rfl
    have hpos : 0 < s.hwave.data.length := List.length_pos_of_mem hn
    simp only [exceedanceWaveHeightN]
    by_cases a1 : (!isOneD (toArr (PyIn.nd s'.hwave))) = true
    · rw [if_pos a1]; exact ⟨_, rfl⟩
    by_cases a4 : 100 < p ∨ p < 0
    · rw [if_neg a1, if_pos a4]; exact ⟨_, rfl⟩
    have a5 : ¬ (toArr (PyIn.nd s'.hwave)).len < 1 := by simp only [toArr] at h3 ⊢; omega
    have a6 : isSortedDescN (toArr (PyIn.nd s'.hwave)).data = false := isSortedDescN_nan h1
    rw [if_neg a1, if_neg a4, if_neg a5, if_pos (by rw [a6]; rfl)]
    exact ⟨_, rfl⟩

theorem stepN_nan [FloorRing K] (A : ArgsortN K) (op : WHOp K) {s : WHN K} (hn : none ∈ s.hwave.data) :
    none ∈ (s.step A op).hwave.data := by
  have hstate : ∀ (s : WHN K) p, (s.highestWaves A p).2 = (s.sort A).2 := by
    intro s p; unfold WHN.highestWaves; rcases s.sort A with ⟨_ | _, s'⟩ <;> rfl
  have hstate2 : ∀ (s : WHN K) p, (s.getExceedance A p).2 = (s.sort A).2 := by
    intro s p; unfold WHN.getExceedance; rcases s.sort A with ⟨_ | _, s'⟩ <;> rfl
  have hs := (sortN_nan A hn).1
  cases op with
  | sort => exact hs
  | getHrms => exact hn
  | getHmax => exact hn
  | getHs => simp only [WHN.step, WHN.getHs, hstate]; exact hs
  | getH2pRayleigh => simp only [WHN.step, WHN.getHs, hstate]; exact hs
  | getExceedance p => simp only [WHN.step, hstate2]; exact hs
  | highestWaves p => simp only [WHN.step, hstate]; exact hs
  | plotExceedance => exact hs
  | plotHist => exact hn
  | plotExceedanceRayleigh b =>
    have main : ∀ s1 : WHN K, none ∈ s1.hwave.data → none ∈ (match s1.getHs A with
          | (.error _, s2) => s2
          | (.ok _, s2) => (s2.sort A).2 : WHN K).hwave.data := by
      intro s1 h1
      have e := hstate s1 (1 / 3)
      have h2 := (sortN_nan A h1).1
      unfold WHN.getHs
      rcases hg : s1.highestWaves A (1 / 3) with ⟨r | r, s2⟩
      · rw [hg] at e; simp only at e; rw [e]; exact h2
      · rw [hg] at e; simp only at e; subst e; exact (sortN_nan A h2).1
    simp only [WHN.step]
    cases b with
    | false => exact main s hn
    | true =>
      have e := hstate s (1 / 3)
      simp only [if_true, WHN.getHs]
      rcases hg : s.highestWaves A (1 / 3) with ⟨r | r, s2⟩
      · rw [hg] at e; simp only at e; rw [e]; exact hs
      · rw [hg] at e; simp only at e; subst e; exact main _ hs

/-- **C134 (NaN height).** One NaN among the wave heights is enough: whatever the other arguments (any period array, any
shapes) and whatever calls were made before, `highest_waves`, `get_Hs` and `get_exceedance_waveheight` raise `ValueError` for
every fraction and percentage, `get_Hmax` returns NaN, and the NaN is still in the object. -/
theorem nan_height_fatal [FloorRing K] (A : ArgsortN K) (ops : List (WHOp K)) {ph pt : PyIn (Option K)} {s : WHN K}
    (h : WHN.init ph pt = .ok s) (hn : none ∈ (toArr ph).data) :
    none ∈ (s.run A ops).hwave.data ∧ (∀ p, RaisesValueError ((s.run A ops).highestWaves A p).1) ∧
    RaisesValueError ((s.run A ops).getHs A).1 ∧ (∀ p, RaisesValueError ((s.run A ops).getExceedance A p).1) ∧
    (s.run A ops).getHmax.1 = .ok none := by
  have h0 : none ∈ s.hwave.data := by
    simp only [WHN.init] at h
    split_ifs at h
    simp only [Except.ok.injEq] at h
    subst h
    simp only [toVector]
    split_ifs
    · exact hn
    · exact hn
  have hr : none ∈ (s.run A ops).hwave.data := by
    clear h hn
    induction ops generalizing s with
    | nil => exact h0
    | cons op ops ih => exact ih (stepN_nan A op h0)
  refine ⟨hr, fun p => highestN_nan A p hr, highestN_nan A _ hr, fun p => exceedanceN_nan A p hr, ?_⟩
  unfold WHN.getHmax
  cases e : (s.run A ops).hwave.data with
  | nil => rw [e] at hr; simp at hr
  | cons a l =>
    rw [e] at hr
    simp only [allFinite_none.2 hr, Option.map_none]

/-! ## NaN among the periods only -/

/-- The periods with NaN read as 0. -/
def fill (t : List (Option K)) : List K := t.map fun v => v.getD 0

theorem allFinite_fill {t : List (Option K)} (h : none ∉ t) : allFinite t = some (fill t) := by
  induction t with
  | nil => rfl
  | cons a t ih =>
    cases a with
    | none => simp at h
    | some a => simp [allFinite, ih (by simpa using h), fill]

theorem WHN_init_vec (h t : List (Option K)) : WHN.init (vec h) (vec t) = .ok ⟨arr1 h, h.length, arr1 t⟩ := by
  simp [WHN.init, toVector_of_isVec (isVec_vec h), toVector_of_isVec (isVec_vec t), arr1, Arr.len]

/-- The wave numbers in the order in which `sort` puts them (highest wave first). -/
def waveOrder (A : ArgsortN K) (h : List K) : List Nat := (A.run (h.map some)).reverse

theorem waveOrder_lt (A : ArgsortN K) {h : List K} {i : Nat} (hi : i ∈ waveOrder A h) : i < h.length := by
  have := (A.perm (h.map some)).mem_iff.1 (List.mem_reverse.1 hi)
  simpa using this

theorem sortN_vec (A : ArgsortN K) {h t : List (Option K)} (h0 : h ≠ []) (hlen : h.length = t.length) (n : Nat) :
    (⟨arr1 h, n, arr1 t⟩ : WHN K).sort A = (.ok (), ⟨arr1 ((A.run h).reverse.map fun i => h.getD i none), n,
      arr1 ((A.run h).reverse.map fun i => t.getD i none)⟩) := by
  have ht0 : t ≠ [] := by rintro rfl; simp at hlen; exact h0 hlen
  have e1 : toArr (PyIn.nd (arr1 h)) = ⟨[h.length], h⟩ := rfl
  have e2 : toArr (PyIn.nd (arr1 t)) = ⟨[t.length], t⟩ := rfl
  unfold WHN.sort sortWaveParamsN
  simp only [e1, e2, isOneD_vec, Arr.len]
  simp [h0, ht0, hlen]

theorem sort_vec (A : Argsort K) {h t : List K} (h0 : h ≠ []) (hlen : h.length = t.length) (n : Nat) :
    (⟨arr1 h, n, arr1 t⟩ : WH K).sort A = (.ok (), ⟨arr1 ((A.run h).reverse.map fun i => h.getD i 0), n,
      arr1 ((A.run h).reverse.map fun i => t.getD i 0)⟩) := by
  have := sortWaveParams_eq A (isVec_vec h) (isVec_vec t) h0 hlen
  unfold WH.sort
  rw [show sortWaveParams A (.nd (arr1 h)) (.nd (arr1 t)) = _ from this]

theorem isSortedDesc_pairwise' {h : List K} (hs : h.Pairwise (· ≥ ·)) : isSortedDesc h = true := by
  unfold isSortedDesc
  rw [decide_eq_true_eq]
  have h1 : (h.insertionSort (· ≤ ·)).reverse.Pairwise (· ≥ ·) := by
    rw [List.pairwise_reverse]; exact List.pairwise_insertionSort _ _
  exact List.Perm.eq_of_pairwise (fun a b _ _ h1 h2 => le_antisymm h2 h1) hs h1
    ((List.perm_insertionSort _ _).symm.trans (List.reverse_perm _).symm)

theorem highestN_eq [FloorRing K] {hs : List K} {tN : List (Option K)} {p : K} (h0 : hs ≠ []) (hlen : hs.length = tN.length)
    (hsorted : isSortedDesc hs = true) (p0 : 0 ≤ p) (p1 : p ≤ 1) :
    highestWavesParamsN (.nd (arr1 (hs.map some))) (.nd (arr1 tN)) p =
      if 0 < ⌊(hs.length : K) * p⌋ then
        .ok (nMean (pySlice (hs.map some) 0 ⌊(hs.length : K) * p⌋.toNat), nMean (pySlice tN 0 ⌊(hs.length : K) * p⌋.toNat))
      else .ok (some 0, some 0) := by
  have ht0 : tN ≠ [] := by rintro rfl; simp at hlen; exact h0 hlen
  have hpos := List.length_pos_of_ne_nil h0
  have hl : (arr1 (hs.map some)).len = hs.length := by simp [arr1, Arr.len]
  unfold highestWavesParamsN
  dsimp only
  rw [if_neg, if_neg, if_neg, if_neg, if_neg, if_neg]
  · simp only [toArr, hl]; rfl
  · show ¬ (!isSortedDescN (hs.map some)) = true
    rw [isSortedDescN_some, hsorted]; simp
  · show ¬ (arr1 (hs.map some)).len < 1
    rw [hl]; omega
  · rintro (h | h)
    · exact absurd p0 (not_le.2 h)
    · exact absurd p1 (not_le.2 h)
  · show ¬ tN.length ≠ (arr1 (hs.map some)).len
    rw [hl, hlen]; simp
  · show ¬ (!isOneD (⟨[tN.length], tN⟩ : Arr (Option K))) = true
    rw [isOneD_vec]; simp [ht0]
  · show ¬ (!isOneD (⟨[(hs.map some).length], hs.map some⟩ : Arr (Option K))) = true
    rw [isOneD_vec]; simp [h0]

theorem highest_vec_eq [FloorRing K] {hs t : List K} {p : K} (h0 : hs ≠ []) (hlen : hs.length = t.length)
    (hsorted : isSortedDesc hs = true) (p0 : 0 ≤ p) (p1 : p ≤ 1) :
    highestWavesParams (.nd (arr1 hs)) (.nd (arr1 t)) p =
      if 0 < ⌊(hs.length : K) * p⌋ then
        .ok (mean (pySlice hs 0 ⌊(hs.length : K) * p⌋.toNat), mean (pySlice t 0 ⌊(hs.length : K) * p⌋.toNat))
      else .ok (0, 0) := by
  have ht0 : t ≠ [] := by rintro rfl; simp at hlen; exact h0 hlen
  have hpos := List.length_pos_of_ne_nil h0
  unfold highestWavesParams
  dsimp only
  rw [if_neg, if_neg, if_neg, if_neg, if_neg, if_neg]
  · rfl
  · show ¬ (!isSortedDesc hs) = true
    rw [hsorted]; simp
  · show ¬ hs.length < 1
    omega
  · rintro (h | h)
    · exact absurd p0 (not_le.2 h)
    · exact absurd p1 (not_le.2 h)
  · show ¬ t.length ≠ hs.length
    rw [hlen]; simp
  · show ¬ (!isOneD (⟨[t.length], t⟩ : Arr K)) = true
    rw [isOneD_vec]; simp [ht0]
  · show ¬ (!isOneD (⟨[hs.length], hs⟩ : Arr K)) = true
    rw [isOneD_vec]; simp [h0]

/-- **C134 (NaN periods).** NaN only among the periods: for every fraction in [0, 1] `highest_waves` returns the same mean
height as without NaN, and the mean period is NaN exactly when a selected wave has no period, else the same as without
NaN.  `get_Hmax` and `get_exceedance_waveheight` do not look at the periods. -/
theorem nan_period_local [FloorRing K] [IsStrictOrderedRing K] (A : ArgsortN K) {h : List K} {t : List (Option K)} (h0 : h ≠ [])
    (hlen : h.length = t.length) :
    ∃ sN s, WHN.init (vec (h.map some)) (vec t) = .ok sN ∧ WH.init (vec h) (vec (fill t)) = .ok s ∧
      (∀ p, 0 ≤ p → p ≤ 1 → ∃ H T T', (s.highestWaves A.finite p).1 = .ok (H, T) ∧
        (sN.highestWaves A p).1 = .ok (some H, T') ∧
        (T' = none ↔ ∃ i ∈ (waveOrder A h).take ⌊(h.length : K) * p⌋₊, t.getD i none = none) ∧
        (T' ≠ none → T' = some T)) ∧
      (∀ p, (sN.getExceedance A p).1 = (s.getExceedance A.finite p).1.map some) ∧
      sN.getHmax.1 = s.getHmax.1.map some := by
  refine ⟨_, _, WHN_init_vec _ _, WH_init_vec, ?_, ?_, ?_⟩
  · intro p p0 p1
    have hlenN : (h.map some).length = t.length := by simpa using hlen
    have h0N : (h.map some) ≠ [] := by simpa using h0
    have hl : h.length = (fill t).length := by simpa [fill] using hlen
    have eh : ((A.run (h.map some)).reverse.map fun i => (h.map some).getD i none) =
        (((waveOrder A h).map fun i => h.getD i 0).map some : List (Option K)) := by
      rw [List.map_map]
      exact List.map_congr_left fun i hi => getD_lift (waveOrder_lt A hi)
    have hlo : (waveOrder A h).length = h.length := by
      have := (A.perm (h.map some)).length_eq
      simpa [waveOrder] using this
    have hpos : 1 ≤ h.length := List.length_pos_of_ne_nil h0
    have hsorted : isSortedDesc ((waveOrder A h).map fun i => h.getD i 0) = true := by
      apply isSortedDesc_pairwise'
      rw [waveOrder, List.map_reverse, List.pairwise_reverse]
      exact A.finite.sorted h
    have hne : waveOrder A h ≠ [] := by intro e; rw [e] at hlo; simp at hlo; omega
    set hs := (waveOrder A h).map fun i => h.getD i 0 with hhs
    set tN := (waveOrder A h).map fun i => t.getD i none with htN
    set ts := (waveOrder A h).map fun i => (fill t).getD i 0 with hts
    have l1 : hs.length = h.length := by simp [hhs, hlo]
    have l2 : tN.length = h.length := by simp [htN, hlo]
    have l3 : ts.length = h.length := by simp [hts, hlo]
    have ets : ts = fill tN := by
      rw [hts, htN, show fill (List.map (fun i => t.getD i none) (waveOrder A h)) = (List.map (fun i => t.getD i none) (waveOrder A h)).map (fun v => v.getD 0) from rfl, List.map_map]
      refine List.map_congr_left fun i hi => ?_
      have hi := waveOrder_lt A hi
      rw [hlen] at hi
      simp only [fill, Function.comp, List.getD, List.getElem?_map, List.getElem?_eq_getElem hi]
      rfl
    have hsne : hs ≠ [] := by simp [hhs, hne]
    have key1 := highestN_eq (p := p) (tN := tN) hsne (by rw [l1, l2]) hsorted p0 p1
    have key2 := highest_vec_eq (p := p) (t := ts) hsne (by rw [l1, l3]) hsorted p0 p1
    rw [l1] at key1 key2
    have r1 : ((⟨arr1 (h.map some), (h.map some).length, arr1 t⟩ : WHN K).highestWaves A p).1 =
        highestWavesParamsN (.nd (arr1 (hs.map some))) (.nd (arr1 tN)) p := by
      unfold WHN.highestWaves
      rw [sortN_vec A h0N hlenN]
      simp only [eh]
      rfl
    have r2 : ((⟨arr1 h, h.length, arr1 (fill t)⟩ : WH K).highestWaves A.finite p).1 =
        highestWavesParams (.nd (arr1 hs)) (.nd (arr1 ts)) p := by
      unfold WH.highestWaves
      rw [sort_vec A.finite h0 hl]
      rfl
    rw [r1, r2]
    by_cases hc : 0 < ⌊(h.length : K) * p⌋
    · refine ⟨_, _, nMean (pySlice tN 0 ⌊(h.length : K) * p⌋.toNat), (by rw [key2, if_pos hc]),
        (by rw [key1, if_pos hc, pySlice_map, nMean_some]), ?_, ?_⟩
      · simp only [nMean, Option.map_eq_none_iff, allFinite_none, pySlice, List.drop_zero, htN, ← List.map_take, List.mem_map]
        rfl
      · intro hT
        have hn : none ∉ pySlice tN 0 ⌊(h.length : K) * p⌋.toNat := by
          intro hn; exact hT (by simp [nMean, allFinite_none.2 hn])
        rw [nMean, allFinite_fill hn, ets, fill, ← pySlice_map]
        rfl
    · refine ⟨0, 0, some 0, (by rw [key2, if_neg hc]), (by rw [key1, if_neg hc]), ?_, by simp⟩
      have : ⌊(h.length : K) * p⌋₊ = 0 := by
        rw [Nat.floor_eq_zero]
        have h1 : ⌊(h.length : K) * p⌋ < 1 := by omega
        simpa using Int.floor_lt.1 h1
      rw [this]; simp
  · intro p
    have hlenN : (h.map some).length = t.length := by simpa using hlen
    have h0N : (h.map some) ≠ [] := by simpa using h0
    have hl : h.length = (fill t).length := by simpa [fill] using hlen
    unfold WHN.getExceedance WH.getExceedance
    rw [sortN_vec A h0N hlenN, sort_vec A.finite h0 hl]
    have eh : ((A.run (h.map some)).reverse.map fun i => (h.map some).getD i none) =
        (((A.finite.run h).reverse.map fun i => h.getD i 0).map some : List (Option K)) := by
      rw [List.map_map]
      exact List.map_congr_left fun i hi => getD_lift (waveOrder_lt A hi)
    have := exceedance_lift (arr1 ((A.finite.run h).reverse.map fun i => h.getD i 0)) p
    rw [← this]
    simp only [Arr.lift, arr1, eh, List.length_map]
  · unfold WHN.getHmax WH.getHmax
    simp only [arr1]
    cases h with
    | nil => rfl
    | cons a l => simp only [List.map_cons, allFinite, allFinite_some, Option.map_some, Except.map, List.headD_cons, List.tail_cons]

/-! ## Concrete cases -/

/-- Order of indices by value, NaN last. -/
def ByValN (l : List (Option K)) (i j : Nat) : Prop := nanLast (l.getD i none) (l.getD j none)

instance nanLastDec (a b : Option K) : Decidable (nanLast a b) :=
  match a, b with
  | some a, some b => inferInstanceAs (Decidable (a ≤ b))
  | none, some _ => inferInstanceAs (Decidable False)
  | none, none => inferInstanceAs (Decidable True)
  | some _, none => inferInstanceAs (Decidable True)

theorem nanLast_total (a b : Option K) : nanLast a b ∨ nanLast b a := by
  cases a <;> cases b <;> simp [nanLast, le_total]

theorem nanLast_trans {a b c : Option K} (h : nanLast a b) (g : nanLast b c) : nanLast a c := by
  cases a <;> cases b <;> cases c <;> simp_all [nanLast]
  exact le_trans h g

instance (l : List (Option K)) : DecidableRel (ByValN l) := fun i j => nanLastDec _ _
instance (l : List (Option K)) : Std.Total (ByValN l) := ⟨fun _ _ => nanLast_total _ _⟩
instance (l : List (Option K)) : IsTrans Nat (ByValN l) := ⟨fun _ _ _ => nanLast_trans⟩

/-- A stable argsort with NaN last. -/
def stableArgsortN : ArgsortN K where
  run l := (List.range l.length).insertionSort (ByValN l)
  perm l := List.perm_insertionSort _ _
  sorted l := by
    rw [List.pairwise_map]
    exact List.pairwise_insertionSort (ByValN l) _

/-- One NaN height: `get_Hs` raises, `get_Hmax` is NaN, `sort` puts the NaN first. -/
example : (do
    let s ← WHN.init (K := ℚ) (vec [some 1, none, some 3]) (vec [some 5, some 6, some 7])
    return ((s.getHs stableArgsortN).1, s.getHmax.1, (s.sort stableArgsortN).2.hwave.data)) =
    .ok (.error (.valueError "highest_waves_params: not sorted"), .ok none, [none, some 3, some 1]) := by
  decide +kernel

/-- One NaN period, among the highest third or not. -/
example : (do
    let s ← WHN.init (K := ℚ) (vec [some 1, some 2, some 3]) (vec [some 5, some 6, none])
    let s' ← WHN.init (K := ℚ) (vec [some 1, some 2, some 3]) (vec [none, some 6, some 7])
    return ((s.getHs stableArgsortN).1, (s'.getHs stableArgsortN).1)) =
    .ok (.ok (some 3, none), .ok (some 3, some 7)) := by
  decide +kernel

example : ∃ s : WHN ℚ, WHN.init (vec [some 1, none, some 3]) (vec [some 5, some 6, some 7]) = .ok s ∧ s.getHmax.1 = .ok none ∧
    ∀ p, RaisesValueError (s.highestWaves stableArgsortN p).1 := by
  obtain ⟨a, b, -, -, c⟩ := nan_height_fatal (K := ℚ) stableArgsortN [] (ph := vec [some 1, none, some 3]) (pt := vec [some 5, some 6, some 7]) rfl (by simp [vec, toArr])
  exact ⟨_, rfl, c, b⟩

example : ∃ (sN : WHN ℚ) (s : WH ℚ), WHN.init (vec (([1, 2, 3] : List ℚ).map some)) (vec [some 5, none, some 7]) = .ok sN ∧ WH.init (vec [1, 2, 3]) (vec (fill [some 5, none, some 7])) = .ok s ∧
    sN.getHmax.1 = s.getHmax.1.map some := by
  obtain ⟨sN, s, a, b, -, -, c⟩ := nan_period_local (K := ℚ) stableArgsortN (h := [1, 2, 3]) (t := [some 5, none, some 7]) (by simp) rfl
  exact ⟨sN, s, a, b, c⟩

example : (⟨⟨[3], [1, 2, 3]⟩, 3, ⟨[3], [5, 6, 7]⟩⟩ : WH ℚ).lift.getHmax.1 = .ok (some 3) := by
  rw [(nan_free_same (K := ℚ) stableArgsortN [] (s := ⟨⟨[3], [1, 2, 3]⟩, 3, ⟨[3], [5, 6, 7]⟩⟩) ⟨rfl, rfl⟩).2.2.2]
  decide +kernel

end Verif
