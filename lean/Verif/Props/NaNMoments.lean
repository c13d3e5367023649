import Verif.Model.NaNSpec
import Verif.Props.NaN
import Verif.Props.Moments

/-! # C137: spectral moments of a spectrum with missing densities -/

set_option linter.unusedSectionVars false

namespace Verif

variable {K : Type} [Field K] [LinearOrder K] [IsStrictOrderedRing K]

/-! ## Simpson's rule -/

theorem simpOddN_lift : ∀ (x v : List K), simpOddN x (v.map some) = some (simpOdd x v)
  | x0 :: x1 :: x2 :: xs, y0 :: y1 :: y2 :: ys => by
    have ih := simpOddN_lift (x2 :: xs) (y2 :: ys)
    simp only [List.map_cons] at ih ⊢
    simp only [simpOddN, simpOdd, ih, nScale, nAdd]
    congr 1
    ring
  | [], _ => by simp [simpOddN, simpOdd]
  | [_], _ => by simp [simpOddN, simpOdd]
  | [_, _], _ => by simp [simpOddN, simpOdd]
  | _ :: _ :: _ :: _, [] => by simp [simpOddN, simpOdd]
  | _ :: _ :: _ :: _, [_] => by simp [simpOddN, simpOdd]
  | _ :: _ :: _ :: _, [_, _] => by simp [simpOddN, simpOdd]

theorem nAdd_none_right (a : Option K) : nAdd a none = none := by cases a <;> rfl

theorem simpOddN_nan : ∀ (x : List K) (y : List (Option K)), x.length = y.length → x.length % 2 = 1 → 3 ≤ x.length → none ∈ y →
    simpOddN x y = none
  | x0 :: x1 :: x2 :: xs, y0 :: y1 :: y2 :: ys => by
    intro hl ho _ hn
    simp only [simpOddN]
    by_cases h3 : none ∈ ys
    · have hxs : xs.length = ys.length := by simpa using hl
      have h1 : 1 ≤ ys.length := List.length_pos_of_mem h3
      have ho' : xs.length % 2 = 0 := by
        have : (xs.length + 3) % 2 = 1 := by simpa using ho
        omega
      have h2 : 3 ≤ (x2 :: xs).length := by simp only [List.length_cons]; omega
      rw [simpOddN_nan (x2 :: xs) (y2 :: ys) (by simpa using hxs) (by simp only [List.length_cons]; omega) h2 (by simp [h3]),
        nAdd_none_right]
    · simp only [List.mem_cons, h3, or_false] at hn
      rcases hn with rfl | rfl | rfl
      · rfl
      · simp only [nScale, nAdd_none_right]; rfl
      · simp only [nScale, nAdd_none_right]; rfl
  | [], _ => by intro _ h; simp at h
  | [_], _ => by intro _ _ h; simp at h
  | [_, _], _ => by intro _ _ h; simp at h
  | _ :: _ :: _ :: _, [] => by intro h; simp at h
  | _ :: _ :: _ :: _, [_] => by intro h; simp at h
  | _ :: _ :: _ :: _, [_, _] => by intro h; simp at h

theorem getD_map_some {v : List K} {k : Nat} (h : k < v.length) : (v.map some).getD k none = some (v.getD k 0) := by
  rw [List.getD, List.getD, List.getElem?_map, List.getElem?_eq_getElem h]; rfl

theorem simpLastN_lift {x v : List K} (hl : x.length = v.length) (h4 : 3 ≤ x.length) :
    simpLastN x (v.map some) = some (simpLast x v) := by
  unfold simpLastN simpLast
  simp only
  rw [getD_map_some (by omega), getD_map_some (by omega), getD_map_some (by omega)]
  simp only [nScale, nAdd]
  congr 1
  ring

theorem simpsonN_lift (x v : List K) : simpsonN x (v.map some) = (simpson x v).map some := by
  unfold simpsonN simpson
  rw [List.length_map]
  by_cases h1 : x.length ≠ v.length
  · rw [if_pos h1, if_pos h1]; rfl
  rw [if_neg h1, if_neg h1]
  by_cases h2 : x = []
  · rw [if_pos h2, if_pos h2]; rfl
  rw [if_neg h2, if_neg h2]
  have hpos : 0 < x.length := List.length_pos_of_ne_nil h2
  have h1' : x.length = v.length := not_not.1 h1
  by_cases h3 : x.length % 2 = 1
  · rw [if_pos h3, if_pos h3, simpOddN_lift]; rfl
  rw [if_neg h3, if_neg h3]
  by_cases h4 : x.length = 2
  · rw [if_pos h4, if_pos h4, getD_map_some (by omega), getD_map_some (by omega)]; rfl
  rw [if_neg h4, if_neg h4, simpLastN_lift h1' (by omega), ← List.map_dropLast, simpOddN_lift]; rfl

theorem simpsonN_nan {x : List K} {y : List (Option K)} (hl : x.length = y.length) (h2 : 2 ≤ x.length) (hn : none ∈ y) :
    simpsonN x y = .ok none := by
  unfold simpsonN
  rw [if_neg (by simpa using hl), if_neg (by rintro rfl; simp at h2)]
  by_cases h3 : x.length % 2 = 1
  · rw [if_pos h3, simpOddN_nan x y hl h3 (by omega) hn]
  rw [if_neg h3]
  obtain ⟨k, hk, ek⟩ := List.getElem_of_mem hn
  have gk : y.getD k none = none := by rw [List.getD, List.getElem?_eq_getElem hk, ek]; rfl
  by_cases h4 : x.length = 2
  · rw [if_pos h4]
    rcases (by omega : k = 0 ∨ k = 1) with rfl | rfl
    · rw [gk, nAdd_none_right]; rfl
    · rw [gk]; rfl
  rw [if_neg h4]
  by_cases hk' : k < y.length - 1
  · have : none ∈ y.dropLast := by
      rw [List.mem_iff_getElem?]
      refine ⟨k, ?_⟩
      rw [List.getElem?_dropLast, if_pos hk', List.getElem?_eq_getElem hk, ek]
    rw [simpOddN_nan x.dropLast y.dropLast (by simp [hl]) (by simp only [List.length_dropLast]; omega)
      (by simp only [List.length_dropLast]; omega) this]
    rfl
  · have : k = x.length - 1 := by omega
    subst this
    unfold simpLastN
    simp only [gk, nScale]
    rw [show nAdd (none : Option K) _ = none from rfl, show nAdd (none : Option K) _ = none from rfl, nAdd_none_right]

/-- The Simpson sum over a single point is 0, whatever the value. -/
theorem simpsonN_single (x : K) (y : Option K) : simpsonN [x] [y] = .ok (some 0) := by
  simp [simpsonN, simpOddN]

theorem zipWith_scale_lift (m : Int) (f v : List K) :
    List.zipWith (fun a s => nScale (a ^ m) s) f (v.map some) = (List.zipWith (fun a s => a ^ m * s) f v).map some := by
  induction f generalizing v with
  | nil => simp
  | cons a f ih => cases v with
    | nil => simp
    | cons b v => rw [List.map_cons, List.zipWith_cons_cons, ih]; rfl

theorem zipWith_scale_nan (m : Int) (f : List K) (S : List (Option K)) (hl : f.length = S.length) (hn : none ∈ S) :
    none ∈ List.zipWith (fun a s => nScale (a ^ m) s) f S := by
  induction f generalizing S with
  | nil => cases S <;> simp_all
  | cons a f ih => cases S with
    | nil => simp at hl
    | cons b S =>
      simp only [List.zipWith_cons_cons, List.mem_cons] at hn ⊢
      rcases hn with rfl | hn
      · left; rfl
      · right; exact ih S (by simpa using hl) hn

theorem momentSumN_lift (m : Int) (f v : List K) : momentSumN m f (v.map some) = (momentSum m f v).map some := by
  unfold momentSumN momentSum
  by_cases h : m < 0 ∧ 0 ∈ f
  · rw [if_pos h, if_pos h]; rfl
  · rw [if_neg h, if_neg h, zipWith_scale_lift, simpsonN_lift]

/-! ## Structure -/

/-- `FMax` as `FLim`. -/
def FMax.lim : FMax K → FLim K
  | .fin x => .fin x
  | .inf => .inf

/-- The moment as an integral over the indices `i..j` plus an optional tail (see `momentOn`). -/
def momentOnN (m : Int) (f : List K) (S : List (Option K)) (i j : Nat) (tail : Bool) (fmax : FLim K) : Except PyErr (Option K) := do
  let a ← momentSumN m (pySlice f i (j + 1)) (pySlice S i (j + 1))
  if tail then do
    let b ← tailMomentN m (f.getD (f.length - 1) 0) (S.getD (f.length - 1) none) fmax
    return nAdd a b
  else return a

theorem momentOnN_false (m : Int) (f : List K) (S : List (Option K)) (i j : Nat) (fmax : FLim K) :
    momentOnN m f S i j false fmax = momentSumN m (pySlice f i (j + 1)) (pySlice S i (j + 1)) := by
  unfold momentOnN
  cases momentSumN m (pySlice f i (j + 1)) (pySlice S i (j + 1)) <;> rfl

theorem lastE_dropN {α : Type} {S : List (Option α)} {d : Nat} (hd : d < S.length) :
    lastE (S.drop d) = .ok (S.getD (S.length - 1) none) := by
  rw [lastE_ok, List.getLast?_drop, if_neg (by omega), List.getLast?_eq_getElem?, List.getD_eq_getElem _ _ (by omega)]
  exact List.getElem?_eq_getElem (by omega)

theorem lim_eq_neg_one {fmax : FMax K} : fmax.lim = .fin (-1) ↔ fmax = .fin (-1) := by
  cases fmax <;> simp [FMax.lim]

/-- The call, reduced to the usable part of the axis. -/
theorem computeMomentN_body {f : List K} (hm : monotonicIncreasingConstantStep f = .ok true) {m : Int} {fmin : Option K}
    {fmax : FLim K} {pf : PyIn K} {pS : PyIn (Option K)} {S : List (Option K)} (hf : pf.IsArr f) (hS : pS.IsArr S)
    (hl : f.length = S.length) :
    computeMomentN pf pS m fmin fmax =
      if fmin = some (-1) ∨ fmax = .fin (-1) then momentSumN m (f.drop (firstUsable f m)) (S.drop (firstUsable f m))
      else
        let fminn := if m < 0 ∧ f.getD 0 0 = 0 then (if fmin = some 0 then some (f.getD 1 0) else fmin) else fmin
        match fmax with
        | .fin F => if F ≤ f.getD (f.length - 1) 0 then momentBetweenN m (f.drop (firstUsable f m)) (S.drop (firstUsable f m)) fminn F
          else momentWithTailN m (f.drop (firstUsable f m)) (S.drop (firstUsable f m)) fminn (f.getD (f.length - 1) 0) (.fin F)
        | lim => momentWithTailN m (f.drop (firstUsable f m)) (S.drop (firstUsable f m)) fminn (f.getD (f.length - 1) 0) lim := by
  have h2 := mono_two_le hm
  have hd1 := firstUsable_le f m
  set d := firstUsable f m with hd
  unfold computeMomentN
  simp only [vecIn_of_isArr hf, vecIn_of_isArr hS, hm, bind, Except.bind]
  rw [if_neg (by simp), if_neg (by simpa using hl)]
  unfold computeMomentLN
  have h0 : getE f 0 = .ok (f.getD 0 0) := by
    rw [getE_ok, List.getD_eq_getElem _ _ (by omega)]; exact List.getElem?_eq_getElem (by omega)
  simp only [h0, bind, Except.bind]
  have e1 : (if decide (m < 0 ∧ f.getD 0 0 = 0) = true then f.drop 1 else f) = f.drop d := by
    rw [hd]; unfold firstUsable
    by_cases hc : m < 0 ∧ f.getD 0 0 = 0
    · rw [if_pos (by simpa using hc), if_pos hc]
    · rw [if_neg (by simpa using hc), if_neg hc]; rfl
  have e2 : (if decide (m < 0 ∧ f.getD 0 0 = 0) = true then S.drop 1 else S) = S.drop d := by
    rw [hd]; unfold firstUsable
    by_cases hc : m < 0 ∧ f.getD 0 0 = 0
    · rw [if_pos (by simpa using hc), if_pos hc]
    · rw [if_neg (by simpa using hc), if_neg hc]; rfl
  rw [e1, e2]
  simp only [lastE_drop (f := f) (d := d) (by omega), decide_eq_true_eq]
  rfl

/-- **Structure of `compute_moment` with NaN densities.**  The index range is the one of a spectrum without NaN. -/
theorem computeMomentN_structure {f : List K} (hm : monotonicIncreasingConstantStep f = .ok true) {m : Int} {fmin : K}
    {fmax : FMax K} {i j : Nat} {tail : Bool} (hr : MomentRange f m fmin fmax i j tail)
    {pf : PyIn K} {pS : PyIn (Option K)} {S : List (Option K)} (hf : pf.IsArr f) (hS : pS.IsArr S) (hl : f.length = S.length) :
    computeMomentN pf pS m (some fmin) fmax.lim = momentOnN m f S i j tail fmax.lim := by
  have h2 := mono_two_le hm
  have hp := uniform_check_increasing hm
  have hd1 := firstUsable_le f m
  rw [computeMomentN_body hm hf hS hl]
  set d := firstUsable f m with hd
  have hdl : d < f.length := by omega
  by_cases hdef : fmin = -1 ∨ fmax = .fin (-1)
  · obtain ⟨rfl, rfl, rfl⟩ := hr.whole hdef
    rw [if_pos (by rcases hdef with h | h; exacts [Or.inl (by rw [h]), Or.inr (by rw [h]; rfl)]), momentOnN_false, ← hd]
    have : ∀ {α : Type} (l : List α), l.length = f.length → pySlice l d (f.length - 1 + 1) = l.drop d := by
      intro α l hl'
      unfold pySlice
      rw [List.take_of_length_le (by omega)]
    rw [this f rfl, this S hl.symm]
  · have hin := hr.lower hdef
    rw [if_neg (by
      rintro (h | h)
      · exact hdef (Or.inl (Option.some.inj h))
      · exact hdef (Or.inr (lim_eq_neg_one.1 h)))]
    simp only
    have hlow : ∃ k, approxArrayIndexN (f.drop d)
        (if m < 0 ∧ f.getD 0 0 = 0 then (if some fmin = some 0 then some (f.getD 1 0) else some fmin) else some fmin) = .ok k ∧
        d + k = i := by
      by_cases hc : m < 0 ∧ f.getD 0 0 = 0
      · rw [if_pos hc]
        have hd' : d = 1 := by rw [hd]; unfold firstUsable; rw [if_pos hc]
        by_cases h0 : fmin = 0
        · rw [if_pos (by rw [h0])]
          obtain ⟨k, hk, hkn⟩ := approx_drop hdl (f.getD 1 0)
          refine ⟨k, hk, ?_⟩
          have e1 : d + k = 1 := by
            refine isNearest_unique hkn ?_
            rw [hd']; exact isNearest_self hp (le_refl _) (by omega)
          rw [e1]
          refine isNearest_unique ?_ hin
          rw [← hd, hd']
          apply isNearest_first hp (by omega)
          have hle := (inc_lt hp (i := 0) (j := 1) (by omega) (by omega)).le
          rw [hc.2] at hle
          rw [h0]; exact hle
        · rw [if_neg (fun h => h0 (Option.some.inj h))]
          obtain ⟨k, hk, hkn⟩ := approx_drop hdl fmin
          exact ⟨k, hk, isNearest_unique hkn hin⟩
      · rw [if_neg hc]
        obtain ⟨k, hk, hkn⟩ := approx_drop hdl fmin
        exact ⟨k, hk, isNearest_unique hkn hin⟩
    obtain ⟨k, hk, ek⟩ := hlow
    have tailcase : ∀ (lim : FLim K), momentWithTailN m (f.drop d) (S.drop d)
        (if m < 0 ∧ f.getD 0 0 = 0 then (if some fmin = some 0 then some (f.getD 1 0) else some fmin) else some fmin)
        (f.getD (f.length - 1) 0) lim = momentOnN m f S i (f.length - 1) true lim := by
      intro lim
      obtain ⟨j', hj', hjn⟩ := approx_drop hdl (f.getD (f.length - 1) 0)
      have ej : d + j' = f.length - 1 := isNearest_unique hjn (isNearest_self hp (by omega) (by omega))
      unfold momentWithTailN momentBetweenN momentOnN
      rw [hk, hj']
      simp only [bind, Except.bind]
      rw [pySlice_drop, pySlice_drop, show d + (j' + 1) = f.length - 1 + 1 by omega, ek]
      rw [lastE_dropN (S := S) (by omega), ← hl]
      cases momentSumN m (pySlice f i (f.length - 1 + 1)) (pySlice S i (f.length - 1 + 1)) <;> rfl
    rcases fmax with F | _
    · by_cases hF : F ≤ f.getD (f.length - 1) 0
      · obtain ⟨hjn, rfl⟩ := hr.upper F hdef rfl hF
        obtain ⟨j', hj', hjn'⟩ := approx_drop hdl F
        have ej := isNearest_unique hjn' hjn
        simp only [FMax.lim, hF, if_true]
        rw [momentOnN_false]
        unfold momentBetweenN
        rw [hk, hj']
        simp only [bind, Except.bind]
        rw [pySlice_drop, pySlice_drop, ← add_assoc, ek, ej]
      · obtain ⟨rfl, rfl⟩ := hr.beyond F hdef rfl (not_le.1 hF)
        simp only [FMax.lim, hF, if_false]
        exact tailcase _
    · obtain ⟨rfl, rfl⟩ := hr.infinite hdef rfl
      exact tailcase _

/-! ## C137 -/

/-- `v` is the spectrum `S` with some number in place of every NaN. -/
def Completes (S : List (Option K)) (v : List K) : Prop :=
  v.length = S.length ∧ ∀ k < S.length, S.getD k none = none ∨ S.getD k none = some (v.getD k 0)

/-- The grid points `i..j` that a moment uses: with a limit left at its default, all points except a zero frequency for a negative
order; otherwise the selected range. -/
def Integrated (f : List K) (m : Int) (fmin : K) (fmax : FMax K) (i j : Nat) : Prop :=
  if fmin = -1 ∨ fmax = .fin (-1) then i = firstUsable f m ∧ j = f.length - 1 else SelectedRange f m fmin fmax i j

/-- The upper limit lies beyond the last frequency, so that the moment includes the `f^-5` tail. -/
def Beyond (f : List K) (fmin : K) (fmax : FMax K) : Prop :=
  ¬ (fmin = -1 ∨ fmax = .fin (-1)) ∧ (fmax = .inf ∨ ∃ F, fmax = .fin F ∧ f.getD (f.length - 1) 0 < F)

theorem integrated_range {f : List K} (hm : monotonicIncreasingConstantStep f = .ok true) {m : Int} {fmin : K}
    {fmax : FMax K} {i j : Nat} (h : Integrated f m fmin fmax i j) :
    ∃ t, MomentRange f m fmin fmax i j t ∧ (t = true ↔ Beyond f fmin fmax) ∧ (t = true → j = f.length - 1) := by
  unfold Integrated at h
  by_cases hdef : fmin = -1 ∨ fmax = .fin (-1)
  · rw [if_pos hdef] at h
    refine ⟨false, ⟨fun _ => ⟨h.1, h.2, rfl⟩, fun h => absurd hdef h, fun _ h => absurd hdef h,
      fun _ h => absurd hdef h, fun h => absurd hdef h⟩, ?_, by simp⟩
    simp [Beyond, hdef]
  · rw [if_neg hdef] at h
    have h1 : fmin ≠ -1 := fun e => hdef (Or.inl e)
    have h2 : fmax ≠ .fin (-1) := fun e => hdef (Or.inr e)
    obtain ⟨t, hr⟩ := momentRange_of_selected hm h1 h2 h
    refine ⟨t, hr, ?_, ?_⟩
    · unfold Beyond
      rcases fmax with F | _
      · by_cases hF : F ≤ f.getD (f.length - 1) 0
        · rw [(hr.upper F hdef rfl hF).2]
          constructor
          · simp
          · rintro ⟨-, e | ⟨F', e, hlt⟩⟩
            · cases e
            · cases e; exact absurd hF (not_le.2 hlt)
        · rw [(hr.beyond F hdef rfl (not_le.1 hF)).2]
          exact ⟨fun _ => ⟨hdef, Or.inr ⟨F, rfl, not_le.1 hF⟩⟩, fun _ => rfl⟩
      · rw [(hr.infinite hdef rfl).2]
        exact ⟨fun _ => ⟨hdef, Or.inl rfl⟩, fun _ => rfl⟩
    · rintro rfl
      rcases fmax with F | _
      · by_cases hF : F ≤ f.getD (f.length - 1) 0
        · have := (hr.upper F hdef rfl hF).2; cases this
        · exact (hr.beyond F hdef rfl (not_le.1 hF)).1
      · exact (hr.infinite hdef rfl).1

theorem pySlice_getD_any {α : Type} {l : List α} {i j k : Nat} (d : α) (hk : i + k ≤ j) :
    (pySlice l i (j + 1)).getD k d = l.getD (i + k) d := by
  unfold pySlice
  rw [List.getD, List.getD, List.getElem?_drop, List.getElem?_take, if_pos (by omega)]

theorem mem_slice_nan {S : List (Option K)} {i j : Nat} (hj : j < S.length) :
    none ∈ pySlice S i (j + 1) ↔ ∃ k, i ≤ k ∧ k ≤ j ∧ S.getD k none = none := by
  have hl := pySlice_len1 (l := S) (i := i) hj
  constructor
  · intro h
    obtain ⟨k, hk, ek⟩ := List.getElem_of_mem h
    refine ⟨i + k, by omega, by omega, ?_⟩
    rw [← pySlice_getD_any none (j := j) (by omega), List.getD, List.getElem?_eq_getElem hk, ek]; rfl
  · rintro ⟨k, h1, h2, h3⟩
    have hk : k - i < (pySlice S i (j + 1)).length := by omega
    have := pySlice_getD_any (l := S) (none : Option K) (i := i) (j := j) (k := k - i) (by omega)
    rw [show i + (k - i) = k by omega, h3, List.getD, List.getElem?_eq_getElem hk] at this
    have e : (pySlice S i (j + 1))[k - i] = none := this
    rw [← e]; exact List.getElem_mem hk

theorem slice_completed {S : List (Option K)} {v : List K} (hc : Completes S v) {i j : Nat} (hj : j < S.length)
    (h : ∀ k, i ≤ k → k ≤ j → S.getD k none ≠ none) : pySlice S i (j + 1) = (pySlice v i (j + 1)).map some := by
  have hl := pySlice_len1 (l := S) (i := i) hj
  have hl' := pySlice_len1 (l := v) (i := i) (j := j) (by rw [hc.1]; exact hj)
  apply List.ext_getElem
  · rw [List.length_map, hl, hl']
  · intro k h1 h2
    rw [List.length_map] at h2
    have e1 := pySlice_getD_any (l := S) (none : Option K) (i := i) (j := j) (k := k) (by omega)
    have e2 := pySlice_getD_any (l := v) (0 : K) (i := i) (j := j) (k := k) (by omega)
    rw [List.getD, List.getElem?_eq_getElem h1] at e1
    rw [List.getD, List.getElem?_eq_getElem h2] at e2
    rw [List.getElem_map]
    have e1' : (pySlice S i (j + 1))[k] = S.getD (i + k) none := e1
    have e2' : (pySlice v i (j + 1))[k] = v.getD (i + k) 0 := e2
    rw [e1', e2']
    exact (hc.2 (i + k) (by omega)).resolve_left (h _ (by omega) (by omega))

theorem tailMomentN_lift (m : Int) (fe se : K) (fmax : FMax K) :
    tailMomentN m fe (some se) fmax.lim = (tailMoment m fe se fmax).map some := by
  unfold tailMomentN tailMoment
  simp only
  by_cases h : m + -5 + 1 = 0 ∨ fe = 0
  · rw [if_pos h, if_pos h]; rfl
  rw [if_neg h, if_neg h]
  cases fmax with
  | fin F =>
    simp only [FMax.lim]
    split_ifs <;> rfl
  | inf =>
    simp only [FMax.lim]
    split_ifs <;> rfl

theorem tailMomentN_nan {m : Int} {fe se r : K} {fmax : FMax K} (h : tailMoment m fe se fmax = .ok r) :
    tailMomentN m fe none fmax.lim = .ok none := by
  unfold tailMoment at h
  unfold tailMomentN
  simp only at h ⊢
  by_cases h0 : m + -5 + 1 = 0 ∨ fe = 0
  · rw [if_pos h0] at h; cases h
  rw [if_neg h0] at h ⊢
  cases fmax with
  | fin F =>
    simp only [FMax.lim] at h ⊢
    split_ifs at h ⊢ <;> first | rfl | cases h
  | inf =>
    simp only [FMax.lim] at h ⊢
    split_ifs at h ⊢ <;> first | rfl | cases h

theorem momentSum_ok_ne {m : Int} {f S : List K} {r : K} (h : momentSum m f S = .ok r) : f ≠ [] ∧ ¬ (m < 0 ∧ 0 ∈ f) := by
  unfold momentSum at h
  by_cases hz : m < 0 ∧ 0 ∈ f
  · rw [if_pos hz] at h; cases h
  refine ⟨?_, hz⟩
  rintro rfl
  rw [if_neg hz] at h
  simp [simpson] at h

/-- **C137.**  Take a spectrum with NaN densities for which the moment is defined (for some choice of numbers instead of the
NaNs).  The moment is NaN if a density that it integrates is NaN, and otherwise it is the moment that results from any numbers in
place of the NaNs. (A range of a single grid point has integral 0 whatever the density.) -/
theorem nan_moment {pf pv : PyIn K} {pS : PyIn (Option K)} {f v : List K} {S : List (Option K)} {m : Int} {fmin : K} {fmax : FMax K}
    {i j : Nat} {r : K} (hf : pf.IsArr f) (hS : pS.IsArr S) (hv : pv.IsArr v) (hc : Completes S v)
    (hsel : Integrated f m fmin fmax i j) (hr : computeMoment pf pv m fmin fmax = .ok r) :
    ((i < j ∨ Beyond f fmin fmax) → (∃ k, i ≤ k ∧ k ≤ j ∧ S.getD k none = none) →
        computeMomentN pf pS m (some fmin) fmax.lim = .ok none) ∧
      (¬ ((i < j ∨ Beyond f fmin fmax) ∧ ∃ k, i ≤ k ∧ k ≤ j ∧ S.getD k none = none) →
        computeMomentN pf pS m (some fmin) fmax.lim = .ok (some r)) := by
  obtain ⟨hm, hlv⟩ := computeMoment_ok_pre hf hv hr
  have hl : f.length = S.length := hlv.trans hc.1
  obtain ⟨t, hrange, ht, htj⟩ := integrated_range hm hsel
  obtain ⟨i', j', t', hr', hi', hj', hst⟩ := computeMoment_structure hm m fmin fmax
  obtain ⟨rfl, rfl, rfl⟩ := momentRange_unique hrange hr'
  have e := computeMomentN_structure hm hrange hf hS hl
  rw [hst hf hv hlv] at hr
  rw [e]
  have hjS : j < S.length := by omega
  have hlf := pySlice_len1 (l := f) (i := i) hj'
  have hlS := pySlice_len1 (l := S) (i := i) hjS
  -- the integral over the range succeeds
  obtain ⟨a, ha⟩ : ∃ a, momentSum m (pySlice f i (j + 1)) (pySlice v i (j + 1)) = .ok a := by
    unfold momentOn at hr
    cases h : momentSum m (pySlice f i (j + 1)) (pySlice v i (j + 1)) with
    | ok a => exact ⟨a, rfl⟩
    | error e => rw [h] at hr; cases hr
  obtain ⟨hne, hz⟩ := momentSum_ok_ne ha
  have hij : i ≤ j := by
    by_contra hc'
    exact hne (List.length_eq_zero_iff.1 (by omega))
  have hnan : i < j → (∃ k, i ≤ k ∧ k ≤ j ∧ S.getD k none = none) →
      momentSumN m (pySlice f i (j + 1)) (pySlice S i (j + 1)) = .ok none := by
    intro hlt hex
    unfold momentSumN
    rw [if_neg hz]
    have hmem := zipWith_scale_nan m (pySlice f i (j + 1)) (pySlice S i (j + 1)) (by omega) ((mem_slice_nan hjS).2 hex)
    apply simpsonN_nan _ (by omega) hmem
    rw [List.length_zipWith]; omega
  have hfin : (∀ k, i ≤ k → k ≤ j → S.getD k none ≠ none) →
      momentSumN m (pySlice f i (j + 1)) (pySlice S i (j + 1)) = .ok (some a) := by
    intro h
    rw [slice_completed hc hjS h, momentSumN_lift, ha]; rfl
  -- a single point
  have hone : i = j → momentSumN m (pySlice f i (j + 1)) (pySlice S i (j + 1)) = .ok (some 0) ∧ a = 0 := by
    rintro rfl
    have l1 : (pySlice f i (i + 1)).length = 1 := by omega
    have l2 : (pySlice S i (i + 1)).length = 1 := by omega
    have l3 : (pySlice v i (i + 1)).length = 1 := by rw [pySlice_len1 (by omega)]; omega
    obtain ⟨x, hx⟩ := List.length_eq_one_iff.1 l1
    obtain ⟨y, hy⟩ := List.length_eq_one_iff.1 l2
    obtain ⟨w, hw⟩ := List.length_eq_one_iff.1 l3
    rw [hx] at hz
    constructor
    · unfold momentSumN
      rw [hx, hy, if_neg hz]
      exact simpsonN_single _ _
    · rw [hx, hw] at ha
      unfold momentSum at ha
      rw [if_neg hz] at ha
      simp [simpson, simpOdd] at ha
      exact ha.symm
  cases t with
  | false =>
    have hb : ¬ Beyond f fmin fmax := fun h => by have := ht.2 h; cases this
    rw [momentOn_false, ha] at hr
    cases hr
    rw [momentOnN_false]
    refine ⟨fun h hex => hnan (h.resolve_right hb) hex, fun h => ?_⟩
    rcases Nat.lt_or_eq_of_le hij with hlt | heq
    · exact hfin fun k h1 h2 h3 => h ⟨Or.inl hlt, k, h1, h2, h3⟩
    · obtain ⟨h1, h2⟩ := hone heq
      rw [h1, h2]
  | true =>
    have hb := ht.1 rfl
    have hjl := htj rfl
    obtain ⟨b, htail, hab⟩ : ∃ b, tailMoment m (f.getD (f.length - 1) 0) (v.getD (f.length - 1) 0) fmax = .ok b ∧ r = a + b := by
      unfold momentOn at hr
      rw [ha] at hr
      cases h : tailMoment m (f.getD (f.length - 1) 0) (v.getD (f.length - 1) 0) fmax with
      | ok b => rw [h] at hr; exact ⟨b, rfl, (Except.ok.inj hr).symm⟩
      | error e => rw [h] at hr; cases hr
    have key : ∀ x y, momentSumN m (pySlice f i (j + 1)) (pySlice S i (j + 1)) = .ok x →
        tailMomentN m (f.getD (f.length - 1) 0) (S.getD (f.length - 1) none) fmax.lim = .ok y →
        momentOnN m f S i j true fmax.lim = .ok (nAdd x y) := by
      intro x y hx hy
      unfold momentOnN
      rw [hx]
      simp only [bind, Except.bind, if_true]
      rw [hy]; rfl
    have htN : ∃ y, tailMomentN m (f.getD (f.length - 1) 0) (S.getD (f.length - 1) none) fmax.lim = .ok y ∧
        (S.getD (f.length - 1) none = none → y = none) ∧ (S.getD (f.length - 1) none ≠ none → y = some b) := by
      rcases hc.2 (f.length - 1) (by omega) with h | h
      · refine ⟨none, by rw [h]; exact tailMomentN_nan htail, fun _ => rfl, fun h' => absurd h h'⟩
      · refine ⟨some b, by rw [h, tailMomentN_lift, htail]; rfl, fun h' => (by rw [h] at h'; cases h'), fun _ => rfl⟩
    obtain ⟨y, hy, hy1, hy2⟩ := htN
    constructor
    · intro _ hex
      rcases Nat.lt_or_eq_of_le hij with hlt | heq
      · rw [key none y (hnan hlt hex) hy]; rfl
      · obtain ⟨k, h1, h2, h3⟩ := hex
        obtain rfl : k = f.length - 1 := by omega
        rw [key _ y (hone heq).1 hy, hy1 h3]; rfl
    · intro h
      have hall : ∀ k, i ≤ k → k ≤ j → S.getD k none ≠ none := fun k h1 h2 h3 => h ⟨Or.inr hb, k, h1, h2, h3⟩
      rw [key _ y (hfin hall) hy, hy2 (hall _ (by omega) (by omega)), hab]; rfl

/-- Non-vacuity: a NaN in the range, outside it, in a range of one point, and in the tail. -/
example : computeMomentN (K := ℚ) (vec [1, 2, 3, 4]) (vec [some 1, some 2, none, some 1]) 0 (some 1) (.fin 3) = .ok none ∧
    computeMomentN (K := ℚ) (vec [1, 2, 3, 4]) (vec [some 1, some 2, none, some 1]) 0 (some 1) (.fin 2) = .ok (some (3 / 2)) ∧
    computeMoment (K := ℚ) (vec [1, 2, 3, 4]) (vec [1, 2, 77, 1]) 0 1 (.fin 2) = .ok (3 / 2) ∧
    computeMomentN (K := ℚ) (vec [1, 2, 3, 4]) (vec [some 1, some 2, none, some 1]) 0 (some 3) (.fin 3) = .ok (some 0) ∧
    computeMomentN (K := ℚ) (vec [1, 2, 3, 4]) (vec [some 1, some 2, some 1, none]) 0 (some 4) .inf = .ok none := by
  decide +kernel

/-! ## Concrete cases: the hypotheses of the theorems above are met -/

example : computeMomentN (K := ℚ) (vec [1, 2, 3, 4]) (vec [some 1, some 2, none, some 1]) 0 (some 1) (.fin 2) = .ok (some (3 / 2)) := by
  have hc : Completes ([some 1, some 2, none, some 1] : List (Option ℚ)) [1, 2, 77, 1] := ⟨rfl, fun i hi => by
    have h4 : i < 4 := hi
    obtain rfl | rfl | rfl | rfl : i = 0 ∨ i = 1 ∨ i = 2 ∨ i = 3 := by omega
    all_goals simp⟩
  have hr : computeMoment (K := ℚ) (vec [1, 2, 3, 4]) (vec [1, 2, 77, 1]) 0 1 (.fin 2) = .ok (3 / 2) := by decide +kernel
  have hm : monotonicIncreasingConstantStep ([1, 2, 3, 4] : List ℚ) = .ok true := by decide +kernel
  obtain ⟨i, j, h⟩ : ∃ i j, Integrated ([1, 2, 3, 4] : List ℚ) 0 1 (.fin 2) i j ∧ j ≤ 1 := by
    refine ⟨0, 1, ?_, le_refl _⟩
    unfold Integrated
    rw [if_neg (by norm_num)]
    have hp := uniform_check_increasing hm
    exact ⟨isNearest_self hp (i := 0) (by simp [firstUsable]) (by simp), isNearest_self hp (i := 1) (by simp [firstUsable]) (by simp)⟩
  obtain ⟨h, h1⟩ := h
  refine (nan_moment (K := ℚ) (isArr_vec [1, 2, 3, 4]) (isArr_vec _) (isArr_vec [1, 2, 77, 1]) hc h hr).2 ?_
  rintro ⟨-, k, -, hk, hn⟩
  obtain rfl | rfl : k = 0 ∨ k = 1 := by omega
  all_goals simp at hn

end Verif
