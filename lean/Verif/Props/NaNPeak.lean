import Verif.Props.NaNSpectrum
import Verif.Props.TpsTotal

/-! # C139, C140: peak periods and default cut-offs of a spectrum with missing densities -/

set_option linter.unusedSectionVars false

namespace Verif

variable {K : Type} [Field K] [LinearOrder K] [IsStrictOrderedRing K]

/-! ## Lists -/

/-- `v` is `S` with numbers below `a` in place of the NaNs. -/
def LowFill (a : K) (S : List (Option K)) (v : List K) : Prop :=
  List.Forall₂ (fun x y => x = some y ∨ (x = none ∧ y < a)) S v

theorem foldl_low {a m : K} {l : List (Option K)} {w : List K} (h : LowFill a l w) (ham : a ≤ m) :
    l.foldl (fun m v => if nLt m v then v else m) (some m) = some (w.foldl max m) := by
  induction h generalizing m with
  | nil => rfl
  | @cons x y l w hxy _ ih =>
    simp only [List.foldl_cons]
    rcases hxy with rfl | ⟨rfl, hy⟩
    · by_cases hlt : m < y
      · rw [show nLt (some m) (some y) = true from by simp [nLt, hlt], if_pos rfl, max_eq_right hlt.le]
        exact ih (ham.trans hlt.le)
      · rw [show nLt (some m) (some y) = false from by simp [nLt, hlt], if_neg (by simp), max_eq_left (not_lt.1 hlt)]
        exact ih ham
    · rw [show nLt (some m) none = false from rfl, if_neg (by simp), max_eq_left (hy.le.trans ham)]
      exact ih ham

theorem le_foldl_max_nan (w : List K) (m : K) : m ≤ w.foldl max m := by
  induction w generalizing m with
  | nil => exact le_refl _
  | cons a w ih => exact (le_max_left _ _).trans (ih _)

theorem pyMaxN_low {a : K} {l : List (Option K)} {w : List K} (h : LowFill a (some a :: l) (a :: w)) :
    ∃ M, pyMaxN (some a :: l) = .ok (some M) ∧ pyMax (a :: w) = .ok M ∧ a ≤ M := by
  cases h with
  | cons h1 h2 => exact ⟨_, by simp only [pyMaxN]; rw [foldl_low h2 (le_refl a)], rfl, le_foldl_max_nan _ _⟩

theorem whereIdx_low {a M : K} (ham : a ≤ M) {l : List (Option K)} {w : List K} (h : LowFill a l w) :
    whereIdx (fun v => nEq v (some M)) l = whereIdx (fun v => decide (v = M)) w := by
  have hl : l.length = w.length := h.length_eq
  unfold whereIdx
  rw [hl]
  apply List.filter_congr
  intro k hk
  rw [List.mem_range] at hk
  have hk' : k < l.length := by omega
  rw [List.getElem?_eq_getElem hk, List.getElem?_eq_getElem hk']
  have := List.Forall₂.get h hk' hk
  simp only [List.get_eq_getElem] at this
  simp only [Option.any_some]
  rcases this with e | ⟨e, hlt⟩
  · rw [e]; rfl
  · rw [e, show nEq none (some M) = false from rfl]
    simp only [Bool.false_eq, decide_eq_false_iff_not]
    exact (hlt.trans_le ham).ne

theorem peakPeriodN_low {a : K} {f : List K} {l : List (Option K)} {w : List K} (h : LowFill a (some a :: l) (a :: w)) :
    peakPeriodN f (some a :: l) = peakPeriod f (a :: w) := by
  obtain ⟨M, h1, h2, h3⟩ := pyMaxN_low h
  unfold peakPeriodN peakPeriod
  simp only [h1, h2, bind, Except.bind, whereIdx_low h3 h]
  rw [if_neg]
  intro he
  obtain ⟨hm, -⟩ := pyMax_spec h2
  obtain ⟨k, hk, ek⟩ := List.getElem_of_mem hm
  have : k ∈ whereIdx (fun v => decide (v = M)) (a :: w) := mem_whereIdx.2 ⟨M, by rw [List.getElem?_eq_getElem hk, ek], by simp⟩
  rw [he] at this; simp at this

theorem foldl_nan (l : List (Option K)) : l.foldl (fun m v => if nLt m v then v else m) none = none := by
  induction l with
  | nil => rfl
  | cons x l ih => simp only [List.foldl_cons]; rw [if_neg (by simp [nLt]), ih]

theorem whereIdx_nEq_nan (l : List (Option K)) : whereIdx (fun v => nEq v none) l = [] := by
  apply List.eq_nil_iff_forall_not_mem.2
  intro k hk
  obtain ⟨v, -, hv⟩ := mem_whereIdx.1 hk
  cases v <;> simp [nEq] at hv

/-! ## The range of the object -/

theorem bandSliceN_eq {f v : List ℝ} {S : List (Option ℝ)} {lo : ℝ} {hi : FMax ℝ} {r : List ℝ × List ℝ}
    (hp : f.Pairwise (· < ·)) (h : bandSlice f v lo hi = .ok r) :
    ∃ i j, j < f.length ∧ r = (pySlice f i (j + 1), pySlice v i (j + 1)) ∧
      (∀ k, (i ≤ k ∧ k ≤ j) ↔ (k < f.length ∧ lo ≤ f.getD k 0 ∧ hi.ge (f.getD k 0) = true)) ∧
      bandSliceN f S (some lo) hi.lim = .ok (pySlice f i (j + 1), pySlice S i (j + 1)) := by
  have h' := h
  unfold bandSlice at h
  rw [bind_ok] at h
  obtain ⟨i, hi', h⟩ := h
  rw [bind_ok] at h
  obtain ⟨j, hj', h⟩ := h
  obtain ⟨i2, j2, hj2, e2, hiff⟩ := bandSlice_spec hp h'
  have e : bandSliceN f S (some lo) hi.lim = .ok (pySlice f i (j + 1), pySlice S i (j + 1)) := by
    unfold bandSliceN
    rw [show (fun v => nLe (some lo) (some v)) = (fun v => decide (lo ≤ v)) from rfl, hi']
    have : (fun v => hi.lim.ge v) = (fun v => hi.ge v) := by cases hi <;> rfl
    rw [this, hj']; rfl
  have hr : r = (pySlice f i (j + 1), pySlice v i (j + 1)) := (Except.ok.inj h).symm
  obtain ⟨⟨vi, ai, bi⟩, ci⟩ := first_where_spec hi'
  obtain ⟨⟨vj, aj, bj⟩, cj⟩ := last_where_spec hj'
  obtain ⟨hjl, aj'⟩ := List.getElem?_eq_some_iff.1 aj
  obtain ⟨hil, ai'⟩ := List.getElem?_eq_some_iff.1 ai
  refine ⟨i, j, hjl, hr, fun k => ⟨?_, ?_⟩, e⟩
  · rintro ⟨h1, h2⟩
    have hk : k < f.length := by omega
    refine ⟨hk, ?_, ?_⟩
    · have := inc_le hp h1 hk
      rw [List.getD_eq_getElem _ _ hil, ai'] at this
      simp only [decide_eq_true_eq] at bi
      linarith
    · have := inc_le hp h2 hjl
      rw [List.getD_eq_getElem _ _ hjl, aj'] at this
      cases hi with
      | inf => rfl
      | fin F => simp only [FMax.ge, decide_eq_true_eq] at bj ⊢; linarith
  · rintro ⟨hk, h1, h2⟩
    have e : f[k]? = some (f.getD k 0) := by rw [List.getD_eq_getElem _ _ hk]; exact List.getElem?_eq_getElem hk
    exact ⟨ci k _ e (by simpa using h1), cj k _ e h2⟩

/-- The densities between the limits, `first` the index of the lowest frequency in the range. -/
structure BandOf (f : List ℝ) (S : List (Option ℝ)) (fmin : ℝ) (fmax : FMax ℝ) (i j : Nat) : Prop where
  le : i ≤ j
  lt : j < f.length
  iff : ∀ k, InRange f fmin fmax k ↔ i ≤ k ∧ k ≤ j
  slice : bandSliceN f S (setFlimN f (some fmin) fmax.lim).1 (setFlimN f (some fmin) fmax.lim).2 =
    .ok (pySlice f i (j + 1), pySlice S i (j + 1))
  finite : ∀ v : List ℝ, bandSlice f v (setFlim f fmin fmax).1 (setFlim f fmin fmax).2 =
    .ok (pySlice f i (j + 1), pySlice v i (j + 1))

theorem bandOf_exists {f : List ℝ} (S : List (Option ℝ)) (hp : f.Pairwise (· < ·)) {fmin : ℝ} {fmax : FMax ℝ} {k0 : Nat}
    (hk0 : InRange f fmin fmax k0) : ∃ i j, BandOf f S fmin fmax i j := by
  have hk := (inRange_iff hp fmin fmax k0).1 hk0
  obtain ⟨r, hr⟩ := bandSlice_defined (S := ([] : List ℝ)) hk
  obtain ⟨i, j, hj, e, hiff, hN⟩ := bandSliceN_eq (S := S) hp hr
  have hin : ∀ k, InRange f fmin fmax k ↔ i ≤ k ∧ k ≤ j := fun k => (inRange_iff hp fmin fmax k).trans (hiff k).symm
  have := (hin k0).1 hk0
  refine ⟨i, j, by omega, hj, hin, by rw [setFlimN_some]; exact hN, fun v => ?_⟩
  unfold bandSlice at hr ⊢
  rw [bind_ok] at hr
  obtain ⟨i', h1, hr⟩ := hr
  rw [bind_ok] at hr
  obtain ⟨j', h2, hr⟩ := hr
  rw [h1, h2]
  have e' := Except.ok.inj hr
  -- the indices agree
  obtain ⟨r2, hr2⟩ : ∃ r, bandSlice f f (setFlim f fmin fmax).1 (setFlim f fmin fmax).2 = .ok r := bandSlice_defined hk
  obtain ⟨i2, j2, hj2, e2, hiff2⟩ := bandSlice_spec hp hr2
  unfold bandSlice at hr2
  rw [h1, h2] at hr2
  obtain ⟨⟨vi, ai, bi⟩, ci⟩ := first_where_spec h1
  obtain ⟨⟨vj, aj, bj⟩, cj⟩ := last_where_spec h2
  have same : ∀ k, (i' ≤ k ∧ k ≤ j') ↔ (k < f.length ∧ (setFlim f fmin fmax).1 ≤ f.getD k 0 ∧ (setFlim f fmin fmax).2.ge (f.getD k 0) = true) := by
    obtain ⟨hjl, aj'⟩ := List.getElem?_eq_some_iff.1 aj
    obtain ⟨hil, ai'⟩ := List.getElem?_eq_some_iff.1 ai
    refine fun k => ⟨?_, ?_⟩
    · rintro ⟨h1, h2⟩
      have hk : k < f.length := by omega
      refine ⟨hk, ?_, ?_⟩
      · have := inc_le hp h1 hk
        rw [List.getD_eq_getElem _ _ hil, ai'] at this
        simp only [decide_eq_true_eq] at bi
        linarith
      · have := inc_le hp h2 hjl
        rw [List.getD_eq_getElem _ _ hjl, aj'] at this
        cases hmx : (setFlim f fmin fmax).2 with
        | inf => rfl
        | fin F =>
          rw [hmx] at bj
          simp only [FMax.ge, decide_eq_true_eq] at bj ⊢; linarith
    · rintro ⟨hk, h1, h2⟩
      have e : f[k]? = some (f.getD k 0) := by rw [List.getD_eq_getElem _ _ hk]; exact List.getElem?_eq_getElem hk
      exact ⟨ci k _ e (by simpa using h1), cj k _ e h2⟩
  have hh : ∀ k, (i' ≤ k ∧ k ≤ j') ↔ (i ≤ k ∧ k ≤ j) := fun k => (same k).trans (hiff k).symm
  have e1 : i' = i := by
    have a := (hh i).2 ⟨le_refl _, by omega⟩
    have b := (hh i').1 ⟨le_refl _, by omega⟩
    omega
  have e2 : j' = j := by
    have a := (hh j).2 ⟨by omega, le_refl _⟩
    have b := (hh j').1 ⟨by omega, le_refl _⟩
    omega
  rw [e1, e2]; rfl

/-! ## C139: `get_Tp` and `get_Tps` -/

theorem slice_lowFill {S : List (Option K)} {v : List K} (hc : Completes S v) {i j : Nat} (hj : j < S.length) {a : K}
    (hlow : ∀ k, i ≤ k → k ≤ j → S.getD k none = none → v.getD k 0 < a) :
    LowFill a (pySlice S i (j + 1)) (pySlice v i (j + 1)) := by
  have hl := pySlice_len1 (l := S) (i := i) hj
  have hl' := pySlice_len1 (l := v) (i := i) (j := j) (by rw [hc.1]; exact hj)
  refine List.forall₂_iff_get.2 ⟨by rw [hl, hl'], fun k h1 h2 => ?_⟩
  simp only [List.get_eq_getElem]
  have e1 := pySlice_getD_any (l := S) (none : Option K) (i := i) (j := j) (k := k) (by omega)
  have e2 := pySlice_getD_any (l := v) (0 : K) (i := i) (j := j) (k := k) (by omega)
  rw [List.getD, List.getElem?_eq_getElem h1] at e1
  rw [List.getD, List.getElem?_eq_getElem h2] at e2
  have e1' : (pySlice S i (j + 1))[k] = S.getD (i + k) none := e1
  have e2' : (pySlice v i (j + 1))[k] = v.getD (i + k) 0 := e2
  rw [e1', e2']
  rcases hc.2 (i + k) (by omega) with h | h
  · right; exact ⟨h, hlow _ (by omega) (by omega) h⟩
  · left; exact h

theorem slice_cons {α : Type} {l : List α} {i j : Nat} (d : α) (hij : i ≤ j) (hj : j < l.length) :
    ∃ t, pySlice l i (j + 1) = l.getD i d :: t := by
  have hl := pySlice_len1 (l := l) (i := i) hj
  have e := pySlice_getD_any (l := l) d (i := i) (j := j) (k := 0) (by omega)
  cases h : pySlice l i (j + 1) with
  | nil => rw [h] at hl; simp at hl; omega
  | cons b t => rw [h] at e; exact ⟨t, by rw [show b = l.getD i d from e]⟩

/-- `compute_tps` when the first density is NaN. -/
theorem computeTpsN_first_nan {f : List K} {l : List (Option K)} (hl : f.length = l.length + 1) (h3 : 3 ≤ f.length) :
    computeTpsN (vec f) (vec (none :: l)) = .error .indexError := by
  unfold computeTpsN
  simp only [vecIn_of_isArr (isArr_vec f), vecIn_of_isArr (isArr_vec (none :: l)), bind, Except.bind]
  rw [if_neg (by simpa using hl)]
  unfold computeTpsLN
  simp only [pyMaxN, foldl_nan, bind, Except.bind]
  rw [if_neg (by simp [nLt]), if_pos (by omega), whereIdx_nEq_nan]
  rfl

theorem peakPeriodN_first_nan {f : List K} {l : List (Option K)} : RaisesValueError (peakPeriodN f (none :: l)) := by
  unfold peakPeriodN
  simp only [pyMaxN, foldl_nan, bind, Except.bind, whereIdx_nEq_nan, if_true]
  exact ⟨_, rfl⟩

/-- **C139 (the first density in the range is NaN).**  `get_Tp` raises `ValueError` and `get_Tps`, with three or more frequencies in
the range, `IndexError`; the object is not changed. -/
theorem nan_first_peak {f : List ℝ} {S : List (Option ℝ)} {s : SpecObjN} (hs : SpecObjN.init (vec f) (vec S) = .ok s)
    {fmin : ℝ} {fmax : FMax ℝ} {i : Nat} (hi : InRange f fmin fmax i) (hfirst : ∀ k, InRange f fmin fmax k → i ≤ k)
    (hn : S.getD i none = none) :
    (RaisesValueError (s.getTp (some fmin) fmax.lim).1 ∧ (s.getTp (some fmin) fmax.lim).2 = s) ∧
      (InRange f fmin fmax (i + 2) → s.getTps (some fmin) fmax.lim = (.error .indexError, s)) := by
  obtain ⟨rfl, rfl, hm, hl, -⟩ := SpecObjN.init_vec hs
  have hp := uniform_check_increasing hm
  obtain ⟨i', j, hb⟩ := bandOf_exists s.sVarDens hp hi
  have hii : i' = i := by
    have a := (hb.iff i).1 hi
    have b := hfirst i' ((hb.iff i').2 ⟨le_refl _, hb.le⟩)
    omega
  subst hii
  obtain ⟨t, ht⟩ := slice_cons (l := s.sVarDens) none hb.le (by rw [← hl]; exact hb.lt)
  rw [hn] at ht
  have hlen := pySlice_len1 (l := s.f) (i := i') hb.lt
  have hlen' := pySlice_len1 (l := s.sVarDens) (i := i') (j := j) (by rw [← hl]; exact hb.lt)
  rw [ht] at hlen'
  simp only [List.length_cons] at hlen'
  constructor
  · obtain ⟨msg, e⟩ := peakPeriodN_first_nan (f := pySlice s.f i' (j + 1)) (l := t)
    have : calcTpN s.f s.sVarDens (some fmin) fmax.lim = .error (.valueError msg) := by
      unfold calcTpN
      simp only [hb.slice, bind, Except.bind, ht, e]; rfl
    unfold SpecObjN.getTp
    rw [this]
    exact ⟨⟨msg, rfl⟩, rfl⟩
  · intro h2
    have := (hb.iff _).1 h2
    have e : calcTpsN s.f s.sVarDens (some fmin) fmax.lim = .error .indexError := by
      unfold calcTpsN
      simp only [hb.slice, bind, Except.bind, ht]
      exact computeTpsN_first_nan (by omega) (by omega)
    unfold SpecObjN.getTps
    rw [e]; rfl

/-- **C139 (a NaN elsewhere).**  If the first density in the range is a number, `get_Tp` skips the NaNs: it returns what it would
return if they were numbers below the first density. -/
theorem nan_peak_skipped {f v : List ℝ} {S : List (Option ℝ)} {s : SpecObjN} {sv : SpecObj}
    (hs : SpecObjN.init (vec f) (vec S) = .ok s) (hv : SpecObj.init (vec f) (vec v) = .ok sv) (hc : Completes S v)
    {fmin : ℝ} {fmax : FMax ℝ} {i : Nat} {a : ℝ} (hi : InRange f fmin fmax i) (hfirst : ∀ k, InRange f fmin fmax k → i ≤ k)
    (ha : S.getD i none = some a) (hlow : ∀ k, InRange f fmin fmax k → S.getD k none = none → v.getD k 0 < a) :
    (s.getTp (some fmin) fmax.lim).1 = (sv.getTp fmin fmax).1.map some := by
  obtain ⟨rfl, rfl, hm, hl, -⟩ := SpecObjN.init_vec hs
  obtain ⟨-, -, rfl⟩ := (spectrum_init_iff_partial (isArr_vec s.f) (isArr_vec v)).1 hv
  have hp := uniform_check_increasing hm
  obtain ⟨i', j, hb⟩ := bandOf_exists s.sVarDens hp hi
  have hii : i' = i := by
    have a := (hb.iff i).1 hi
    have b := hfirst i' ((hb.iff i').2 ⟨le_refl _, hb.le⟩)
    omega
  subst hii
  have hjS : j < s.sVarDens.length := by rw [← hl]; exact hb.lt
  have hjv : j < v.length := by rw [hc.1]; exact hjS
  obtain ⟨t, ht⟩ := slice_cons (l := s.sVarDens) none hb.le hjS
  obtain ⟨w, hw⟩ := slice_cons (l := v) 0 hb.le hjv
  have hva : v.getD i' 0 = a := by
    rcases hc.2 i' (by have := hb.le; omega) with h | h
    · rw [ha] at h; cases h
    · rw [ha] at h; cases h; rfl
  have hLF := slice_lowFill hc hjS (i := i') (a := a) fun k h1 h2 h3 => hlow k ((hb.iff k).2 ⟨h1, h2⟩) h3
  rw [ht, hw, ha, hva] at hLF
  show calcTpN s.f s.sVarDens (some fmin) fmax.lim = _
  simp only [SpecObj.getTp, calcTp, List.length_cons, List.length_nil, ne_eq, zero_add, not_true_eq_false, if_false]
  unfold calcTpN
  simp only [hb.slice, hb.finite, bind, Except.bind, ht, hw, ha, hva]
  rw [peakPeriodN_low hLF]

/-! ### `compute_tps` -/

theorem fitAtN_lift {f : List K} {S : List (Option K)} {v : List K} (hc : Completes S v) {j : Nat}
    (h : ∀ k, j ≤ k + 1 → k ≤ j + 1 → S.getD k none ≠ none ∨ S.length ≤ k) :
    fitAtN f S j = (fitAt f v j).map some := by
  have g : ∀ k, j ≤ k + 1 → k ≤ j + 1 → getE S k = (getE v k).map some := by
    intro k h1 h2
    by_cases hk : k < S.length
    · have e1 : getE S k = .ok (S.getD k none) := by
        rw [getE_ok, List.getD_eq_getElem _ _ hk]; exact List.getElem?_eq_getElem hk
      rw [e1, getE_getD (by rw [hc.1]; exact hk)]
      rcases hc.2 k hk with e | e
      · rcases h k h1 h2 with h' | h'
        · exact absurd e h'
        · omega
      · rw [e]; rfl
    · have a : getE S k = .error .indexError := by
        unfold getE; rw [List.getElem?_eq_none (by omega)]
      have b : getE v k = .error .indexError := by
        unfold getE; rw [List.getElem?_eq_none (by rw [hc.1]; omega)]
      rw [a, b]; rfl
  unfold fitAtN fitAt
  rw [g (j - 1) (by omega) (by omega), g j (by omega) (by omega), g (j + 1) (by omega) (by omega)]
  cases getE f (j - 1) with
  | error e => rfl
  | ok x0 =>
  cases getE f j with
  | error e => rfl
  | ok x1 =>
  cases getE f (j + 1) with
  | error e => rfl
  | ok x2 =>
  cases getE v (j - 1) with
  | error e => rfl
  | ok y0 =>
  cases getE v j with
  | error e => rfl
  | ok y1 =>
  cases getE v (j + 1) with
  | error e => rfl
  | ok y2 => rfl

theorem LowFill.completes {a : K} {S : List (Option K)} {v : List K} (h : LowFill a S v) : Completes S v := by
  refine ⟨h.length_eq.symm, fun k hk => ?_⟩
  have hk' : k < v.length := by rw [← h.length_eq]; exact hk
  have := List.Forall₂.get h hk hk'
  simp only [List.get_eq_getElem] at this
  rw [List.getD_eq_getElem _ _ hk, List.getD_eq_getElem _ _ hk']
  rcases this with e | ⟨e, -⟩
  · right; exact e
  · left; exact e

/-- `compute_tps` when no density within two bins of a maximal one is NaN. -/
theorem computeTpsLN_low {a : K} {f : List K} {l : List (Option K)} {w : List K} (h : LowFill a (some a :: l) (a :: w))
    (hl : f.length = (a :: w).length)
    (hclean : ∀ i, IsMaxAt (a :: w) i → ∀ k < f.length, i ≤ k + 2 → k ≤ i + 2 → (some a :: l).getD k none ≠ none) :
    computeTpsLN f (some a :: l) = (computeTpsL f (a :: w)).map some := by
  obtain ⟨M, h1, h2, h3⟩ := pyMaxN_low h
  have hc := h.completes
  have hmax : ∀ i ∈ whereIdx (fun v => decide (v = M)) (a :: w), i < f.length ∧ IsMaxAt (a :: w) i := by
    intro i hi
    obtain ⟨hi, e⟩ := mem_imax.1 hi
    exact ⟨by omega, hi, by rw [e]; exact (pyMax_spec h2).2⟩
  obtain ⟨k0, hk0⟩ : ∃ k, k ∈ whereIdx (fun v => decide (v = M)) (a :: w) := by
    obtain ⟨hm, -⟩ := pyMax_spec h2
    obtain ⟨k, hk, ek⟩ := List.getElem_of_mem hm
    exact ⟨k, mem_whereIdx.2 ⟨M, by rw [List.getElem?_eq_getElem hk, ek], by simp⟩⟩
  have hpw := whereIdx_pairwise (fun v => decide (v = M)) (a :: w)
  unfold computeTpsLN computeTpsL
  simp only [h1, h2, bind, Except.bind, whereIdx_low h3 h]
  by_cases hs : M < 1 / 10 ^ 10
  · rw [if_pos (by simpa [nLt] using hs), if_pos hs]; rfl
  rw [if_neg (by simpa [nLt] using hs), if_neg hs]
  have hSl : (some a :: l).length = f.length := by rw [hl]; exact h.length_eq
  generalize whereIdx (fun v => decide (v = M)) (a :: w) = I at hmax hk0 hpw
  rcases I with _ | ⟨i, _ | ⟨j, I⟩⟩
  · simp at hk0
  · obtain ⟨hi, hMi⟩ := hmax i (by simp)
    simp only [getE, List.getElem?_cons_zero]
    by_cases h2n : 2 < f.length
    · rw [if_pos h2n, if_pos h2n]
      have : fitAtN f (some a :: l) (if i = 0 then 1 else if i = f.length - 1 then f.length - 2 else i) =
          (fitAt f (a :: w) (if i = 0 then 1 else if i = f.length - 1 then f.length - 2 else i)).map some := by
        apply fitAtN_lift hc
        intro k hk1 hk2
        by_cases hkl : k < f.length
        · left
          refine hclean i hMi k hkl ?_ ?_ <;> split_ifs at hk1 hk2 <;> omega
        · right; rw [hSl]; omega
      rw [this]
      cases fitAt f (a :: w) (if i = 0 then 1 else if i = f.length - 1 then f.length - 2 else i) with
      | error e => rfl
      | ok p =>
        obtain ⟨p, q⟩ := p
        simp only [Except.map]
        by_cases hp : p < 0
        · rw [if_pos hp, if_pos hp]
        · rw [if_neg hp, if_neg hp]
          cases f[i]? with
          | none => rfl
          | some z => rfl
    · rw [if_neg h2n, if_neg h2n]
      by_cases h2' : f.length = 2
      · rw [if_pos h2', if_pos h2', if_pos (by simp)]
        cases f[i]? with
        | none => rfl
        | some z => rfl
      · rw [if_neg h2', if_neg h2']
        cases f[0]? with
        | none => rfl
        | some z => rfl
  · obtain ⟨hi, hMi⟩ := hmax i (by simp)
    obtain ⟨hj, hMj⟩ := hmax j (by simp)
    have hij : i < j := (List.pairwise_cons.1 hpw).1 j (by simp)
    simp only [getE, List.getElem?_cons_zero]
    by_cases h2n : 2 < f.length
    · rw [if_pos h2n, if_pos h2n]
      cases I with
      | nil =>
        simp only
        by_cases hadj : j - i = 1
        · rw [if_pos hadj, if_pos hadj]
          have : fitAtN f (some a :: l) (if i = 0 then 1 else if j = f.length - 1 then f.length - 2 else i) =
              (fitAt f (a :: w) (if i = 0 then 1 else if j = f.length - 1 then f.length - 2 else i)).map some := by
            apply fitAtN_lift hc
            intro k hk1 hk2
            by_cases hkl : k < f.length
            · left
              refine hclean i hMi k hkl ?_ ?_ <;> split_ifs at hk1 hk2 <;> omega
            · right; rw [hSl]; omega
          rw [this]
          cases fitAt f (a :: w) (if i = 0 then 1 else if j = f.length - 1 then f.length - 2 else i) with
          | error e => rfl
          | ok p =>
            obtain ⟨p, q⟩ := p
            simp only [Except.map]
            cases divE (-q) (2 * p) with
            | error e => rfl
            | ok z => rfl
        · rw [if_neg hadj, if_neg hadj]
          cases f[i]? with
          | none => rfl
          | some z => rfl
      | cons k I =>
        simp only
        cases f[j]? with
        | none => simp_all [Except.map]
        | some z => simp_all [Except.map]
    · rw [if_neg h2n, if_neg h2n]
      by_cases h2' : f.length = 2
      · rw [if_pos h2', if_pos h2', if_neg (by simp)]
      · rw [if_neg h2', if_neg h2']
        cases f[0]? with
        | none => rfl
        | some z => rfl

/-- **C139 (`compute_tps`, NaN away from the peak).**  If the first density is a number and no density within two bins of a maximal
one is NaN, `compute_tps` returns what it would return with numbers below the first density in place of the NaNs. -/
theorem nan_tps_away {pf : PyIn K} {pS : PyIn (Option K)} {pv : PyIn K} {f : List K} {S : List (Option K)} {v : List K} {a : K}
    (hf : pf.IsArr f) (hS : pS.IsArr S) (hv : pv.IsArr v) (hl : f.length = S.length) (hc : Completes S v)
    (ha : S.head? = some (some a)) (hlow : ∀ k < S.length, S.getD k none = none → v.getD k 0 < a)
    (hclean : ∀ i, IsMaxAt v i → ∀ k < S.length, i ≤ k + 2 → k ≤ i + 2 → S.getD k none ≠ none) :
    computeTpsN pf pS = (computeTps pf pv).map some := by
  rw [computeTps_eq hf hv (by rw [hc.1, hl])]
  unfold computeTpsN
  simp only [vecIn_of_isArr hf, vecIn_of_isArr hS, bind, Except.bind]
  rw [if_neg (by simpa using hl)]
  cases S with
  | nil => simp at ha
  | cons b l =>
    simp only [List.head?_cons, Option.some.injEq] at ha
    subst ha
    cases v with
    | nil => simp [Completes] at hc
    | cons c w =>
      have hca : c = a := by
        rcases hc.2 0 (by simp) with h | h
        · simp at h
        · simpa using h.symm
      subst hca
      have hLF : LowFill c (some c :: l) (c :: w) := by
        have := slice_lowFill hc (i := 0) (j := l.length) (a := c) (by simp) fun k _ hk => hlow k (by simp; omega)
        have hw : w.length = l.length := by simpa using hc.1
        simpa [pySlice, hw, List.take_of_length_le (le_of_eq hw)] using this
      exact computeTpsLN_low hLF (by rw [hc.1, hl]) fun i hi k hk => hclean i hi k (by rw [← hl]; exact hk)

/-- **C139 (`compute_tps`, NaN next to the peak).**  If the maximum is attained at the grid point `i` only and one of the three
densities through which the parabola goes is NaN, no error is raised and the period is the unsmoothed `1 / f[i]`. -/
theorem nan_tps_beside {pf : PyIn K} {pS : PyIn (Option K)} {f : List K} {S : List (Option K)} {v : List K} {a : K} {i n : Nat}
    (hf : pf.IsArr f) (hS : pS.IsArr S) (hl : f.length = S.length) (h3 : 3 ≤ f.length) (hc : Completes S v)
    (ha : S.head? = some (some a)) (hlow : ∀ k < S.length, S.getD k none = none → v.getD k 0 < a)
    (hi : IsOnlyMaxAt v i) (hbig : 1 / 10 ^ 10 ≤ v.getD i 0)
    (hn : S.getD n none = none) (hin : 0 < i → i ≤ n + 1) (hni : i + 1 < f.length → n ≤ i + 1)
    (hi0 : i = 0 → n ≤ 2) (hil : i + 1 = f.length → f.length ≤ n + 3 ∧ n < f.length) :
    computeTpsN pf pS = (invE (f.getD i 0)).map some := by
  unfold computeTpsN
  simp only [vecIn_of_isArr hf, vecIn_of_isArr hS, bind, Except.bind]
  rw [if_neg (by simpa using hl)]
  cases S with
  | nil => simp at ha
  | cons b l =>
    simp only [List.head?_cons, Option.some.injEq] at ha
    subst ha
    cases v with
    | nil => simp [Completes] at hc
    | cons c w =>
      have hca : c = a := by
        rcases hc.2 0 (by simp) with h | h
        · simp at h
        · simpa using h.symm
      subst hca
      have hLF : LowFill c (some c :: l) (c :: w) := by
        have := slice_lowFill hc (i := 0) (j := l.length) (a := c) (by simp) fun k _ hk => hlow k (by simp; omega)
        have hw : w.length = l.length := by simpa using hc.1
        simpa [pySlice, hw, List.take_of_length_le (le_of_eq hw)] using this
      obtain ⟨M, h1, h2, h3'⟩ := pyMaxN_low hLF
      have hMx : IsMaxAt (c :: w) i := by
        refine ⟨hi.1, fun x hx => ?_⟩
        obtain ⟨k, hk, ek⟩ := List.getElem_of_mem hx
        by_cases hki : k = i
        · subst hki; rw [List.getD_eq_getElem _ _ hk, ek]
        · have := hi.2 k hk hki
          rw [List.getD_eq_getElem _ _ hk, ek] at this
          exact this.le
      rw [pyMax_of_isMaxAt hMx] at h2
      cases h2
      have hI : whereIdx (fun x => decide (x = (c :: w).getD i 0)) (c :: w) = [i] := by
        apply maximaAre_unique (maximaAre_where hMx)
        refine ⟨by simp, fun k => ?_⟩
        simp only [List.mem_singleton]
        refine ⟨fun h => by rw [h]; exact hMx, fun h => ?_⟩
        by_contra hne
        have := hi.2 k h.1 hne
        have h' := h.2 _ (getD_mem' hi.1)
        exact absurd this (not_lt.2 h')
      have hif : i < f.length := by rw [hl, ← hc.1]; exact hi.1
      unfold computeTpsLN
      simp only [h1, bind, Except.bind, whereIdx_low h3' hLF, hI]
      rw [if_neg (by simpa [nLt] using hbig), if_pos (by omega)]
      have hfit : fitAtN f (some c :: l) (if i = 0 then 1 else if i = f.length - 1 then f.length - 2 else i) = .ok none := by
        set j := (if i = 0 then 1 else if i = f.length - 1 then f.length - 2 else i) with hj
        have hj1 : 1 ≤ j ∧ j + 1 < f.length ∧ j ≤ n + 1 ∧ n ≤ j + 1 := by
          rw [hj]; split_ifs <;> omega
        have gS : ∀ k, k < f.length → getE (some c :: l) k = .ok ((some c :: l).getD k none) := by
          intro k hk
          rw [getE_ok, List.getD_eq_getElem _ _ (by rw [← hl]; exact hk)]; exact List.getElem?_eq_getElem _
        unfold fitAtN
        rw [getE_getD (by omega), getE_getD (by omega), getE_getD (by omega), gS _ (by omega), gS _ (by omega), gS _ (by omega)]
        simp only [bind, Except.bind]
        rcases (by omega : n = j - 1 ∨ n = j ∨ n = j + 1) with h | h | h
        · rw [← h, hn]; rfl
        · rw [← h, hn]; cases (some c :: l).getD (n - 1) none <;> rfl
        · rw [← h, hn]; cases (some c :: l).getD (j - 1) none <;> cases (some c :: l).getD j none <;> rfl
      rw [hfit, getE_getD hif]

/-- Non-vacuity: NaN as first density, away from the peak and next to it. -/
example : computeTpsN (K := ℚ) (vec [1, 2, 3, 4, 5, 6]) (vec [none, some 5, some 3, some 2, some 1, some 1]) = .error .indexError ∧
    computeTpsN (K := ℚ) (vec [1, 2, 3, 4, 5, 6]) (vec [some 1, some 5, some 3, some 2, none, some 1]) = .ok (some (1 / (2 + 1 / 6))) ∧
    computeTpsN (K := ℚ) (vec [1, 2, 3, 4, 5, 6]) (vec [some 1, some 5, none, some 2, some 1, some 1]) = .ok (some (1 / 2)) ∧
    computeTpsN (K := ℚ) (vec [1, 2, 3, 4, 5, 6]) (vec [some 1, some 5, some 5, none, some 1, some 1]) =
      computeTpsN (K := ℚ) (vec [1, 2, 3, 4, 5, 6]) (vec [some 1, some 5, some 5, some 0, some 1, some 1]) ∧
    computeTpsN (K := ℚ) (vec [1, 2, 3, 4, 5, 6]) (vec [some 5, some 5, none, some 2, some 1, some 1]) = .ok none := by
  decide +kernel

/-! ## Concrete cases: the hypotheses of the theorems above are met -/

example : computeTpsN (K := ℚ) (vec [1, 2, 3, 4, 5, 6]) (vec [some 1, some 5, some 3, some 2, none, some 1]) =
    (computeTps (K := ℚ) (vec [1, 2, 3, 4, 5, 6]) (vec [1, 5, 3, 2, 0, 1])).map some :=
  nan_tps_away (K := ℚ) (a := 1) (isArr_vec [1, 2, 3, 4, 5, 6]) (isArr_vec _) (isArr_vec [1, 5, 3, 2, 0, 1]) rfl
    ⟨rfl, by decide +kernel⟩ rfl (by decide +kernel) (by
      rintro i ⟨h1, h2⟩ k hk h3 h4
      have h6 : i < 6 := h1
      have hm := h2 5 (by simp)
      obtain rfl | rfl | rfl | rfl | rfl | rfl : i = 0 ∨ i = 1 ∨ i = 2 ∨ i = 3 ∨ i = 4 ∨ i = 5 := by omega
      · norm_num at hm
      · have : k < 4 := by omega
        obtain rfl | rfl | rfl | rfl : k = 0 ∨ k = 1 ∨ k = 2 ∨ k = 3 := by omega
        all_goals simp
      all_goals norm_num at hm)

example : computeTpsN (K := ℚ) (vec [1, 2, 3, 4, 5, 6]) (vec [some 1, some 5, none, some 2, some 1, some 1]) = (invE (2 : ℚ)).map some :=
  nan_tps_beside (K := ℚ) (a := 1) (v := [1, 5, 0, 2, 1, 1]) (i := 1) (n := 2) (isArr_vec [1, 2, 3, 4, 5, 6]) (isArr_vec _) rfl (by simp)
    ⟨rfl, by decide +kernel⟩ rfl (by decide +kernel) ⟨by simp, by decide +kernel⟩ (by norm_num) rfl (by simp) (by simp) (by simp) (by simp)

end Verif
