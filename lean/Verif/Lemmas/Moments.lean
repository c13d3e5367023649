import Verif.Lemmas.Simpson

/-! # Closed form of `compute_moment` on accepted inputs -/

set_option linter.unusedSectionVars false

namespace Verif
open Finset

variable {K : Type} [Field K] [LinearOrder K] [IsStrictOrderedRing K]

theorem inc_lt {f : List K} (hp : f.Pairwise (· < ·)) {i j : Nat} (hij : i < j) (hj : j < f.length) :
    f.getD i 0 < f.getD j 0 := by
  rw [List.getD_eq_getElem _ _ (by omega), List.getD_eq_getElem _ _ hj]
  exact List.pairwise_iff_getElem.1 hp i j _ hj hij

theorem inc_le {f : List K} (hp : f.Pairwise (· < ·)) {i j : Nat} (hij : i ≤ j) (hj : j < f.length) :
    f.getD i 0 ≤ f.getD j 0 := by
  rcases Nat.lt_or_eq_of_le hij with h | h
  · exact (inc_lt hp h hj).le
  · subst h; exact le_refl _

/-- Frequencies a moment of order `m` may use: all, except a leading zero frequency if `m < 0`. -/
def firstUsable (f : List K) (m : Int) : Nat := if m < 0 ∧ f.getD 0 0 = 0 then 1 else 0

/-- `i` is the first of the grid points from index `d` on that are nearest to `v`. -/
def IsNearest (f : List K) (d : Nat) (v : K) (i : Nat) : Prop :=
  d ≤ i ∧ i < f.length ∧ (∀ k, d ≤ k → k < f.length → |f.getD i 0 - v| ≤ |f.getD k 0 - v|) ∧
    ∀ k, d ≤ k → k < i → |f.getD i 0 - v| < |f.getD k 0 - v|

theorem isNearest_unique {f : List K} {d i j : Nat} {v : K} (hi : IsNearest f d v i) (hj : IsNearest f d v j) : i = j := by
  rcases lt_trichotomy i j with h | h | h
  · exact absurd (hj.2.2.2 i hi.1 h) (not_lt.2 (hi.2.2.1 j hj.1 hj.2.1))
  · exact h
  · exact absurd (hi.2.2.2 j hj.1 h) (not_lt.2 (hj.2.2.1 i hi.1 hi.2.1))

theorem getD_drop' (f : List K) (d k : Nat) : (f.drop d).getD k 0 = f.getD (d + k) 0 := by
  simp only [List.getD_eq_getElem?_getD, List.getElem?_drop]

theorem approx_drop {f : List K} {d : Nat} (hd : d < f.length) (v : K) :
    ∃ i, approxArrayIndex (f.drop d) v = .ok i ∧ IsNearest f d v (d + i) := by
  obtain ⟨i, h1, h2, h3, h4⟩ := nearest_index (a := f.drop d) (by
    intro h
    have := congrArg List.length h
    simp at this; omega) v
  rw [List.length_drop] at h2
  refine ⟨i, h1, by omega, by omega, ?_, ?_⟩
  · intro k hk hkl
    have := h3 (k - d) (by rw [List.length_drop]; omega)
    rwa [getD_drop', getD_drop', show d + (k - d) = k by omega] at this
  · intro k hk hki
    have := h4 (k - d) (by omega)
    rwa [getD_drop', getD_drop', show d + (k - d) = k by omega] at this

/-- A grid point is nearest to itself on an increasing axis. -/
theorem isNearest_self {f : List K} (hp : f.Pairwise (· < ·)) {d i : Nat} (hd : d ≤ i) (hi : i < f.length) :
    IsNearest f d (f.getD i 0) i := by
  refine ⟨hd, hi, fun k _ _ => by simp, fun k _ hk => ?_⟩
  have := inc_lt hp hk hi
  rw [sub_self, abs_zero]
  exact abs_pos.2 (sub_ne_zero.2 this.ne)

/-- Nearest grid points are in the order of the values. -/
theorem isNearest_mono {f : List K} (hp : f.Pairwise (· < ·)) {d i j : Nat} {v w : K} (hvw : v ≤ w) (hi : IsNearest f d v i)
    (hj : IsNearest f d w j) : i ≤ j := by
  by_contra hc
  have hlt := inc_lt hp (by omega : j < i) hi.2.1
  have h1 := hi.2.2.2 j hj.1 (by omega)
  have h2 := hj.2.2.1 i hi.1 hi.2.1
  have hv : (f.getD i 0 + f.getD j 0) / 2 < v := by
    rw [← sq_lt_sq] at h1
    nlinarith
  rw [← sq_le_sq] at h2
  nlinarith

/-- The last point is nearest to any value at or beyond it. -/
theorem isNearest_last {f : List K} (hp : f.Pairwise (· < ·)) {d : Nat} (hd : d < f.length) {v : K}
    (hv : f.getD (f.length - 1) 0 ≤ v) : IsNearest f d v (f.length - 1) := by
  refine ⟨by omega, by omega, fun k _ hk => ?_, fun k _ hk => ?_⟩
  · have := inc_le hp (by omega : k ≤ f.length - 1) (by omega)
    rw [abs_of_nonpos (by linarith), abs_of_nonpos (by linarith)]; linarith
  · have := inc_lt hp hk (by omega)
    rw [abs_of_nonpos (by linarith), abs_of_nonpos (by linarith)]; linarith

/-- The first usable point is nearest to any value at or below it. -/
theorem isNearest_first {f : List K} (hp : f.Pairwise (· < ·)) {d : Nat} (hd : d < f.length) {v : K}
    (hv : v ≤ f.getD d 0) : IsNearest f d v d := by
  refine ⟨le_refl _, hd, fun k hk hkl => ?_, fun k hk hkd => by omega⟩
  have := inc_le hp hk hkl
  rw [abs_of_nonneg (by linarith), abs_of_nonneg (by linarith)]; linarith

/-- The range of a moment: the indices `i..j` that are integrated, and whether the tail is added. -/
structure MomentRange (f : List K) (m : Int) (fmin : K) (fmax : FMax K) (i j : Nat) (tail : Bool) : Prop where
  whole : fmin = -1 ∨ fmax = .fin (-1) → i = firstUsable f m ∧ j = f.length - 1 ∧ tail = false
  lower : ¬ (fmin = -1 ∨ fmax = .fin (-1)) → IsNearest f (firstUsable f m) fmin i
  upper : ∀ F, ¬ (fmin = -1 ∨ fmax = .fin (-1)) → fmax = .fin F → F ≤ f.getD (f.length - 1) 0 →
    IsNearest f (firstUsable f m) F j ∧ tail = false
  beyond : ∀ F, ¬ (fmin = -1 ∨ fmax = .fin (-1)) → fmax = .fin F → f.getD (f.length - 1) 0 < F → j = f.length - 1 ∧ tail = true
  infinite : ¬ (fmin = -1 ∨ fmax = .fin (-1)) → fmax = .inf → j = f.length - 1 ∧ tail = true

/-- The moment as an integral over the indices `i..j` plus an optional tail. -/
def momentOn (m : Int) (f S : List K) (i j : Nat) (tail : Bool) (fmax : FMax K) : Except PyErr K := do
  let a ← momentSum m (pySlice f i (j + 1)) (pySlice S i (j + 1))
  if tail then do
    let b ← tailMoment m (f.getD (f.length - 1) 0) (S.getD (f.length - 1) 0) fmax
    return a + b
  else return a

theorem momentOn_false (m : Int) (f S : List K) (i j : Nat) (fmax : FMax K) :
    momentOn m f S i j false fmax = momentSum m (pySlice f i (j + 1)) (pySlice S i (j + 1)) := by
  unfold momentOn
  cases momentSum m (pySlice f i (j + 1)) (pySlice S i (j + 1)) <;> rfl

theorem pySlice_drop {α : Type} (l : List α) (d a b : Nat) : pySlice (l.drop d) a b = pySlice l (d + a) (d + b) := by
  unfold pySlice
  rw [List.take_drop, List.drop_drop, add_comm d b]

theorem lastE_drop {f : List K} {d : Nat} (hd : d < f.length) : lastE (f.drop d) = .ok (f.getD (f.length - 1) 0) := by
  rw [lastE_ok, List.getLast?_drop, if_neg (by omega), List.getLast?_eq_getElem?, List.getD_eq_getElem _ _ (by omega)]
  exact List.getElem?_eq_getElem (by omega)

/-- **Structure of `compute_moment`.**  The index range depends only on the axis, the order and the limits. -/
theorem computeMoment_structure {f : List K} (hm : monotonicIncreasingConstantStep f = .ok true) (m : Int) (fmin : K)
    (fmax : FMax K) : ∃ i j tail, MomentRange f m fmin fmax i j tail ∧ firstUsable f m ≤ i ∧ j < f.length ∧
      ∀ {pf pS : PyIn K} {S : List K}, pf.IsArr f → pS.IsArr S → f.length = S.length →
        computeMoment pf pS m fmin fmax = momentOn m f S i j tail fmax := by
  have h2 := mono_two_le hm
  have hp := uniform_check_increasing hm
  set d := firstUsable f m with hd
  have hd1 : d ≤ 1 := by rw [hd]; unfold firstUsable; split_ifs <;> omega
  have hdl : d < f.length := by omega
  -- reduce the call to the body with `f.drop d`
  have hbody : ∀ {pf pS : PyIn K} {S : List K}, pf.IsArr f → pS.IsArr S → f.length = S.length →
      computeMoment pf pS m fmin fmax =
        if fmin = -1 ∨ fmax = .fin (-1) then momentSum m (f.drop d) (S.drop d)
        else
          let fminn := if m < 0 ∧ f.getD 0 0 = 0 then (if fmin = 0 then f.getD 1 0 else fmin) else fmin
          match fmax with
          | .fin F => if F ≤ f.getD (f.length - 1) 0 then momentBetween m (f.drop d) (S.drop d) fminn F
            else momentWithTail m (f.drop d) (S.drop d) fminn (f.getD (f.length - 1) 0) (.fin F)
          | .inf => momentWithTail m (f.drop d) (S.drop d) fminn (f.getD (f.length - 1) 0) .inf := by
    intro pf pS S hf hS hl
    unfold computeMoment
    simp only [vecIn_of_isArr hf, vecIn_of_isArr hS, hm, bind, Except.bind]
    rw [if_neg (by simp), if_neg (by simpa using hl)]
    unfold computeMomentL
    have h0 : getE f 0 = .ok (f.getD 0 0) := by
      rw [getE_ok, List.getD_eq_getElem _ _ (by omega)]; exact List.getElem?_eq_getElem (by omega)
    simp only [h0, bind, Except.bind]
    have e1 : (if decide (m < 0 ∧ f.getD 0 0 = 0) = true then f.drop 1 else f) = f.drop d := by
      rw [hd]; unfold firstUsable
      by_cases hc : m < 0 ∧ f.getD 0 0 = 0
      · rw [if_pos (by simpa using hc), if_pos hc]
      · rw [if_neg (by simpa using hc), if_neg hc]; rfl
    have e2 : (if decide (m < 0 ∧ f.getD 0 0 = 0) = true then S.drop 1 else S) = S.drop d := by
      rw [hd]; unfold firstUsable
      by_cases hc : m < 0 ∧ f.getD 0 0 = 0
      · rw [if_pos (by simpa using hc), if_pos hc]
      · rw [if_neg (by simpa using hc), if_neg hc]; rfl
    rw [e1, e2]
    simp only [lastE_drop hdl, decide_eq_true_eq]
    rfl
  -- the lower limit used by the code selects the point nearest to `fmin`
  have hlow : ∀ i, IsNearest f d (if m < 0 ∧ f.getD 0 0 = 0 then (if fmin = 0 then f.getD 1 0 else fmin) else fmin) i →
      IsNearest f d fmin i := by
    intro i hi
    by_cases hc : m < 0 ∧ f.getD 0 0 = 0
    · rw [if_pos hc] at hi
      by_cases h0 : fmin = 0
      · rw [if_pos h0] at hi
        have hd' : d = 1 := by rw [hd]; unfold firstUsable; rw [if_pos hc]
        have : i = 1 := by
          refine isNearest_unique hi ?_
          rw [hd']; exact isNearest_self hp (le_refl _) (by omega)
        rw [this, hd']
        apply isNearest_first hp (by omega)
        have hle := (inc_lt hp (i := 0) (j := 1) (by omega) (by omega)).le
        rw [hc.2] at hle
        rw [h0]; exact hle
      · rwa [if_neg h0] at hi
    · rwa [if_neg hc] at hi
  by_cases hdef : fmin = -1 ∨ fmax = .fin (-1)
  · refine ⟨d, f.length - 1, false, ⟨fun _ => ⟨rfl, rfl, rfl⟩, fun h => absurd hdef h, fun _ h => absurd hdef h,
      fun _ h => absurd hdef h, fun h => absurd hdef h⟩, le_refl _, by omega, ?_⟩
    intro pf pS S hf hS hl
    rw [hbody hf hS hl, if_pos hdef, momentOn_false]
    have : ∀ l : List K, l.length = f.length → pySlice l d (f.length - 1 + 1) = l.drop d := by
      intro l hl'
      unfold pySlice
      rw [List.take_of_length_le (by omega)]
    rw [this f rfl, this S hl.symm]
  · obtain ⟨i, hi, hin⟩ := approx_drop hdl (if m < 0 ∧ f.getD 0 0 = 0 then (if fmin = 0 then f.getD 1 0 else fmin) else fmin)
    have hin' := hlow _ hin
    have tailcase : ∀ {S : List K}, f.length = S.length → momentWithTail m (f.drop d) (S.drop d)
        (if m < 0 ∧ f.getD 0 0 = 0 then (if fmin = 0 then f.getD 1 0 else fmin) else fmin) (f.getD (f.length - 1) 0) fmax =
        momentOn m f S (d + i) (f.length - 1) true fmax := by
      intro S hl
      obtain ⟨j, hj, hjn⟩ := approx_drop hdl (f.getD (f.length - 1) 0)
      have ej : d + j = f.length - 1 := isNearest_unique hjn (isNearest_self hp (by omega) (by omega))
      unfold momentWithTail momentBetween momentOn
      rw [hi, hj]
      simp only [bind, Except.bind]
      rw [pySlice_drop, pySlice_drop, show d + (j + 1) = f.length - 1 + 1 by omega]
      rw [lastE_drop (f := S) (by omega), ← hl]
      cases momentSum m (pySlice f (d + i) (f.length - 1 + 1)) (pySlice S (d + i) (f.length - 1 + 1)) <;> rfl
    rcases fmax with F | _
    · by_cases hF : F ≤ f.getD (f.length - 1) 0
      · obtain ⟨j, hj, hjn⟩ := approx_drop hdl F
        refine ⟨d + i, d + j, false, ⟨fun h => absurd h hdef, fun _ => hin', fun F' _ e _ => ?_, fun F' _ e h => ?_,
          fun _ h => by cases h⟩, by omega, hjn.2.1, ?_⟩
        · cases e; exact ⟨hjn, rfl⟩
        · cases e; exact absurd hF (not_le.2 h)
        intro pf pS S hf hS hl
        rw [hbody hf hS hl, if_neg hdef, momentOn_false]
        simp only [hF, if_true]
        unfold momentBetween
        rw [hi, hj]
        simp only [bind, Except.bind]
        rw [pySlice_drop, pySlice_drop, ← add_assoc]
      · refine ⟨d + i, f.length - 1, true, ⟨fun h => absurd h hdef, fun _ => hin', fun F' _ e h => ?_, fun F' _ e h => ⟨rfl, rfl⟩,
          fun _ h => by cases h⟩, by omega, by omega, ?_⟩
        · cases e; exact absurd h hF
        intro pf pS S hf hS hl
        rw [hbody hf hS hl, if_neg hdef]
        simp only [hF, if_false]
        exact tailcase hl
    · refine ⟨d + i, f.length - 1, true, ⟨fun h => absurd h hdef, fun _ => hin', fun F' _ e _ => (by cases e), fun F' _ e h => (by cases e),
          fun _ h => ⟨rfl, rfl⟩⟩, by omega, by omega, ?_⟩
      intro pf pS S hf hS hl
      rw [hbody hf hS hl, if_neg hdef]
      exact tailcase hl

/-- The range is determined by the axis, the order and the limits. -/
theorem momentRange_unique {f : List K} {m : Int} {fmin : K} {fmax : FMax K} {i j i' j' : Nat} {t t' : Bool}
    (h : MomentRange f m fmin fmax i j t) (h' : MomentRange f m fmin fmax i' j' t') : i = i' ∧ j = j' ∧ t = t' := by
  by_cases hdef : fmin = -1 ∨ fmax = .fin (-1)
  · obtain ⟨a, b, c⟩ := h.whole hdef
    obtain ⟨a', b', c'⟩ := h'.whole hdef
    exact ⟨a.trans a'.symm, b.trans b'.symm, c.trans c'.symm⟩
  · have e1 := isNearest_unique (h.lower hdef) (h'.lower hdef)
    refine ⟨e1, ?_⟩
    rcases fmax with F | _
    · by_cases hF : F ≤ f.getD (f.length - 1) 0
      · have a := h.upper F hdef rfl hF
        have b := h'.upper F hdef rfl hF
        exact ⟨isNearest_unique a.1 b.1, a.2.trans b.2.symm⟩
      · have a := h.beyond F hdef rfl (not_le.1 hF)
        have b := h'.beyond F hdef rfl (not_le.1 hF)
        exact ⟨a.1.trans b.1.symm, a.2.trans b.2.symm⟩
    · have a := h.infinite hdef rfl
      have b := h'.infinite hdef rfl
      exact ⟨a.1.trans b.1.symm, a.2.trans b.2.symm⟩

end Verif
