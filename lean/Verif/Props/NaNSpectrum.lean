import Verif.Props.NaNMoments
import Verif.Props.RecordHeight

/-! # C138, C139, C140: wave heights, periods and cut-offs of a spectrum with missing densities -/

set_option linter.unusedSectionVars false

namespace Verif

variable {K : Type} [Field K] [LinearOrder K] [IsStrictOrderedRing K]

/-! ## Moments over the whole axis -/

theorem simpson_some {x y : List K} (hl : x.length = y.length) (h : x ≠ []) : ∃ r, simpson x y = .ok r := by
  unfold simpson
  rw [if_neg (by simpa using hl), if_neg h]
  split_ifs <;> exact ⟨_, rfl⟩

/-- The range of the defaults `f[0]`, `f[-1]`. -/
theorem full_integrated {f : List K} (hm : monotonicIncreasingConstantStep f = .ok true) (m : Int) :
    Integrated f m (f.getD 0 0) (.fin (f.getD (f.length - 1) 0)) (firstUsable f m) (f.length - 1) := by
  have hp := uniform_check_increasing hm
  have h2 := mono_two_le hm
  have hd := firstUsable_le f m
  unfold Integrated
  split_ifs
  · exact ⟨rfl, rfl⟩
  · exact ⟨isNearest_first hp (by omega) (inc_le hp (Nat.zero_le _) (by omega)), isNearest_last hp (by omega) le_rfl⟩

theorem full_not_beyond (f : List K) : ¬ Beyond f (f.getD 0 0) (.fin (f.getD (f.length - 1) 0)) := by
  rintro ⟨-, h | ⟨F, h, h'⟩⟩
  · cases h
  · cases h; exact absurd h' (lt_irrefl _)

/-- Over the whole of a non-negative axis every moment is a number. -/
theorem full_moment_ok {pf pv : PyIn K} {f v : List K} (hf : pf.IsArr f) (hv : pv.IsArr v)
    (hm : monotonicIncreasingConstantStep f = .ok true) (hl : f.length = v.length) (h0 : 0 ≤ f.getD 0 0) (m : Int) :
    ∃ r, computeMoment pf pv m (f.getD 0 0) (.fin (f.getD (f.length - 1) 0)) = .ok r := by
  have hp := uniform_check_increasing hm
  have h2 := mono_two_le hm
  have hd := firstUsable_le f m
  obtain ⟨t, hr, ht, -⟩ := integrated_range hm (full_integrated hm m)
  have htf : t = false := by
    cases t with
    | false => rfl
    | true => exact absurd (ht.1 rfl) (full_not_beyond f)
  subst htf
  obtain ⟨i', j', t', hr', hi', hj', hst⟩ := computeMoment_structure hm m (f.getD 0 0) (.fin (f.getD (f.length - 1) 0))
  obtain ⟨rfl, rfl, rfl⟩ := momentRange_unique hr hr'
  rw [hst hf hv hl, momentOn_false]
  unfold momentSum
  have hlen := pySlice_len1 (l := f) (i := firstUsable f m) hj'
  have hlen' := pySlice_len1 (l := v) (i := firstUsable f m) (j := f.length - 1) (by omega)
  rw [if_neg]
  · apply simpson_some
    · rw [List.length_zipWith]; omega
    · intro h
      rw [h] at hlen
      simp at hlen; omega
  · rintro ⟨hneg, hmem⟩
    obtain ⟨k, hk, ek⟩ := List.getElem_of_mem hmem
    have e := pySlice_getD_any (l := f) (0 : K) (i := firstUsable f m) (j := f.length - 1) (k := k) (by omega)
    rw [List.getD, List.getElem?_eq_getElem hk] at e
    have e' : (pySlice f (firstUsable f m) (f.length - 1 + 1))[k] = f.getD (firstUsable f m + k) 0 := e
    rw [ek] at e'
    by_cases hz : f.getD 0 0 = 0
    · have hu : firstUsable f m = 1 := by unfold firstUsable; rw [if_pos ⟨hneg, hz⟩]
      have hk' : firstUsable f m + k < f.length := by omega
      rw [hu] at e' hk'
      have := inc_lt hp (i := 0) (j := 1 + k) (by omega) (by omega)
      rw [hz, ← e'] at this
      exact lt_irrefl _ this
    · have := inc_le hp (i := 0) (j := firstUsable f m + k) (by omega) (by omega)
      rw [← e'] at this
      exact hz (le_antisymm this h0)

/-- Every spectrum can be completed. -/
theorem completes_fill (S : List (Option K)) : Completes S (S.map fun v => v.getD 0) := by
  refine ⟨by simp, fun k hk => ?_⟩
  rw [List.getD, List.getD, List.getElem?_map, List.getElem?_eq_getElem hk]
  cases S[k] with
  | none => left; rfl
  | some a => right; rfl

theorem mem_nan_index {S : List (Option K)} (h : none ∈ S) : ∃ k, k < S.length ∧ S.getD k none = none := by
  obtain ⟨k, hk, ek⟩ := List.getElem_of_mem h
  exact ⟨k, hk, by rw [List.getD, List.getElem?_eq_getElem hk, ek]; rfl⟩

/-- Over the whole of a non-negative axis: moments of order 0 and higher are NaN if any density is, the other ones a number or NaN. -/
theorem full_moment_nan {pf : PyIn K} {pS : PyIn (Option K)} {f : List K} {S : List (Option K)} (hf : pf.IsArr f) (hS : pS.IsArr S)
    (hm : monotonicIncreasingConstantStep f = .ok true) (hl : f.length = S.length) (h0 : 0 ≤ f.getD 0 0) (hn : none ∈ S) (m : Int) :
    (∃ r, computeMomentN pf pS m (some (f.getD 0 0)) (.fin (f.getD (f.length - 1) 0)) = .ok r) ∧
      (0 ≤ m → computeMomentN pf pS m (some (f.getD 0 0)) (.fin (f.getD (f.length - 1) 0)) = .ok none) := by
  have h2 := mono_two_le hm
  have hc := completes_fill S
  obtain ⟨r, hr⟩ := full_moment_ok hf (isArr_vec (S.map fun v => v.getD 0)) hm (by simpa using hl) h0 m
  obtain ⟨a, b⟩ := nan_moment hf hS (isArr_vec _) hc (full_integrated hm m) hr
  constructor
  · by_cases h : (firstUsable f m < f.length - 1 ∨ Beyond f (f.getD 0 0) (.fin (f.getD (f.length - 1) 0))) ∧
        ∃ k, firstUsable f m ≤ k ∧ k ≤ f.length - 1 ∧ S.getD k none = none
    · exact ⟨_, a h.1 h.2⟩
    · exact ⟨_, b h⟩
  · intro h
    have hu : firstUsable f m = 0 := by unfold firstUsable; rw [if_neg (by omega)]
    rw [hu] at a
    obtain ⟨k, hk, ek⟩ := mem_nan_index hn
    exact a (Or.inl (by omega)) ⟨k, by omega, by omega, ek⟩

/-! ## The object -/

theorem SpecObjN.init_vec {f : List ℝ} {S : List (Option ℝ)} {s : SpecObjN} (h : SpecObjN.init (vec f) (vec S) = .ok s) :
    s.f = f ∧ s.sVarDens = S ∧ monotonicIncreasingConstantStep f = .ok true ∧ f.length = S.length ∧
      s = { f := f, sVarDens := S, nf := f.length } := by
  have h2 : ∀ {α : Type} (l : List α), (toVector (vec l)).1 = ⟨[l.length], l⟩ ∧ (toVector (vec l)).2 = (l.length, 0) := by
    intro α l
    simp only [toVector, vec, toArr, size2, Arr.size]
    by_cases hl : l.length = 0
    · simp [hl]
    · simp [hl]
  unfold SpecObjN.init at h
  simp only [(h2 f).1, (h2 f).2, (h2 S).1, (h2 S).2] at h
  cases hb : monotonicIncreasingConstantStep f with
  | error e => rw [hb] at h; cases h
  | ok b =>
    rw [hb] at h
    cases b with
    | false => simp at h
    | true =>
      simp only [Bool.true_eq_false, if_false] at h
      by_cases hc : f.length = S.length
      · rw [if_neg (by simpa using hc)] at h
        cases h
        exact ⟨rfl, rfl, rfl, hc, rfl⟩
      · rw [if_pos hc] at h; cases h

theorem setFlimN_default (f : List ℝ) :
    setFlimN f (some (-1)) (.fin (-1)) = (some (f.getD 0 0), .fin (f.getD (f.length - 1) 0)) := by
  unfold setFlimN
  rw [if_pos rfl, if_pos rfl]

/-- **C138.**  If any density of a spectrum on a non-negative axis is NaN, `get_Hm0`, `get_Tmm10`, `get_Tm01` and `get_Tm02` over
the whole axis return NaN (and store it), and `compute_spectrum_params` returns six NaNs; nothing is raised. -/
theorem nan_spectrum_params {f : List ℝ} {S : List (Option ℝ)} {s : SpecObjN} (hs : SpecObjN.init (vec f) (vec S) = .ok s)
    (h0 : 0 ≤ f.getD 0 0) (hn : none ∈ S) :
    s.getHm0 (some (-1)) (.fin (-1)) = (.ok none, { s with Hm0 := some .nan }) ∧
      s.getTmm10 (some (-1)) (.fin (-1)) = (.ok none, { s with Tmm10 := some .nan }) ∧
      s.getTm01 (some (-1)) (.fin (-1)) = (.ok none, { s with Tm01 := some .nan }) ∧
      s.getTm02 (some (-1)) (.fin (-1)) = (.ok none, { s with Tm02 := some .nan }) ∧
      computeSpectrumParamsN (vec f) (vec S) (-1) (.fin (-1)) = .ok ⟨none, none, none, none, none, none⟩ := by
  obtain ⟨rfl, rfl, hm, hl, -⟩ := SpecObjN.init_vec hs
  have M := fun m => full_moment_nan (isArr_vec s.f) (isArr_vec s.sVarDens) hm hl h0 hn m
  obtain ⟨q, hq⟩ := (M (-1)).1
  have m0 := (M 0).2 (le_refl _)
  have m1 := (M 1).2 (by omega)
  have m2 := (M 2).2 (by omega)
  have e1 : calcHm0N s.f s.sVarDens (some (-1)) (.fin (-1)) = .ok none := by
    unfold calcHm0N
    simp only [setFlimN_default, m0]; rfl
  have e2 : calcTmm10N s.f s.sVarDens (some (-1)) (.fin (-1)) = .ok none := by
    unfold calcTmm10N
    simp only [setFlimN_default, m0, hq]
    cases q <;> rfl
  have e3 : calcTm01N s.f s.sVarDens (some (-1)) (.fin (-1)) = .ok none := by
    unfold calcTm01N
    simp only [setFlimN_default, m0, m1]; rfl
  have e4 : calcTm02N s.f s.sVarDens (some (-1)) (.fin (-1)) = .ok none := by
    unfold calcTm02N
    simp only [setFlimN_default, m0, m2]; rfl
  refine ⟨?_, ?_, ?_, ?_, ?_⟩
  · unfold SpecObjN.getHm0; rw [e1]; rfl
  · unfold SpecObjN.getTmm10; rw [e2]; rfl
  · unfold SpecObjN.getTm01; rw [e3]; rfl
  · unfold SpecObjN.getTm02; rw [e4]; rfl
  · unfold computeSpectrumParamsN
    simp only [vecIn_of_isArr (isArr_vec s.f), vecIn_of_isArr (isArr_vec s.sVarDens), hm, bind, Except.bind]
    rw [if_neg (by simp), if_neg (by simpa using hl)]
    simp only [if_true, hq, m0, m1, m2]
    rfl

/-- No density that the moment of order `m` between the limits uses is NaN. -/
def CleanRange (f : List ℝ) (S : List (Option ℝ)) (m : Int) (fmin : ℝ) (fmax : FMax ℝ) : Prop :=
  ∃ i j, Integrated f m fmin fmax i j ∧ ∀ k, i ≤ k → k ≤ j → S.getD k none ≠ none

theorem clean_moment {f v : List ℝ} {S : List (Option ℝ)} {m : Int} {fmin : ℝ} {fmax : FMax ℝ} {r : ℝ} (hc : Completes S v)
    (h : CleanRange f S m fmin fmax) (hr : computeMoment (vec f) (vec v) m fmin fmax = .ok r) :
    computeMomentN (vec f) (vec S) m (some fmin) fmax.lim = .ok (some r) := by
  obtain ⟨i, j, hsel, hcl⟩ := h
  refine (nan_moment (isArr_vec f) (isArr_vec S) (isArr_vec v) hc hsel hr).2 ?_
  rintro ⟨-, k, h1, h2, h3⟩
  exact hcl k h1 h2 h3

theorem setFlimN_some (f : List ℝ) (a : ℝ) (b : FMax ℝ) :
    setFlimN f (some a) b.lim = (some (setFlim f a b).1, (setFlim f a b).2.lim) := by
  unfold setFlimN setFlim
  simp only [Option.some.injEq, lim_eq_neg_one]
  split_ifs <;> rfl

theorem nDiv_of_divE {a b r : ℝ} (h : divE a b = .ok r) : nDiv (some a) (some b) = .ok (some r) := by
  unfold divE at h
  unfold nDiv
  split_ifs at h with hb
  simp only [if_neg hb]
  cases h; rfl

/-- **C138 (NaN outside the range).**  If no density in the range that is used is NaN, the wave height and the mean periods are those
of the spectrum with any numbers in place of the NaNs. -/
theorem nan_outside_range {f v : List ℝ} {S : List (Option ℝ)} {s : SpecObjN} {sv : SpecObj}
    (hs : SpecObjN.init (vec f) (vec S) = .ok s) (hv : SpecObj.init (vec f) (vec v) = .ok sv) (hc : Completes S v)
    (fmin : ℝ) (fmax : FMax ℝ) (r : ℝ)
    (h0 : CleanRange f S 0 (setFlim f fmin fmax).1 (setFlim f fmin fmax).2) :
    ((sv.getHm0 fmin fmax).1 = .ok r → (s.getHm0 (some fmin) fmax.lim).1 = .ok (some r)) ∧
      ((sv.getTm01 fmin fmax).1 = .ok r → (s.getTm01 (some fmin) fmax.lim).1 = .ok (some r)) ∧
      ((sv.getTm02 fmin fmax).1 = .ok r → (s.getTm02 (some fmin) fmax.lim).1 = .ok (some r)) ∧
      (CleanRange f S (-1) (setFlim f fmin fmax).1 (setFlim f fmin fmax).2 →
        (sv.getTmm10 fmin fmax).1 = .ok r → (s.getTmm10 (some fmin) fmax.lim).1 = .ok (some r)) := by
  obtain ⟨rfl, rfl, hm, hl, -⟩ := SpecObjN.init_vec hs
  have hsv : sv.f = s.f ∧ sv.sVarDens = ⟨[v.length], v⟩ := by
    have h2 : ∀ (l : List ℝ), (toVector (vec l)).1 = ⟨[l.length], l⟩ := by
      intro l
      simp only [toVector, vec, toArr, size2, Arr.size]
      split_ifs <;> simp_all
    unfold SpecObj.init at hv
    simp only [h2, hm] at hv
    simp only [Bool.true_eq_false, if_false] at hv
    split_ifs at hv
    cases hv; exact ⟨rfl, rfl⟩
  obtain ⟨ef, eS⟩ := hsv
  have other : ∀ m : Int, 0 ≤ m → CleanRange s.f s.sVarDens m (setFlim s.f fmin fmax).1 (setFlim s.f fmin fmax).2 := by
    intro m hm0
    have e : firstUsable s.f m = firstUsable s.f 0 := by
      unfold firstUsable
      rw [if_neg (by omega), if_neg (by omega)]
    obtain ⟨i, j, h1, h2⟩ := h0
    refine ⟨i, j, ?_, h2⟩
    unfold Integrated SelectedRange at h1 ⊢
    rw [e]; exact h1
  have step : ∀ {m : Int} {q : ℝ}, CleanRange s.f s.sVarDens m (setFlim s.f fmin fmax).1 (setFlim s.f fmin fmax).2 →
      computeMoment (vec s.f) (.nd sv.sVarDens) m (setFlim s.f fmin fmax).1 (setFlim s.f fmin fmax).2 = .ok q →
      computeMomentN (vec s.f) (vec s.sVarDens) m (some (setFlim s.f fmin fmax).1) (setFlim s.f fmin fmax).2.lim = .ok (some q) := by
    intro m q h hr
    rw [eS] at hr
    exact clean_moment hc h hr
  refine ⟨fun h => ?_, fun h => ?_, fun h => ?_, fun h1 h => ?_⟩
  · have h : calcHm0 sv.f sv.sVarDens fmin fmax = .ok r := h
    show calcHm0N s.f s.sVarDens (some fmin) fmax.lim = _
    unfold calcHm0 at h
    unfold calcHm0N
    simp only [setFlimN_some, ef, bind, Except.bind] at h ⊢
    cases e0 : computeMoment (vec s.f) (.nd sv.sVarDens) 0 (setFlim s.f fmin fmax).1 (setFlim s.f fmin fmax).2 with
    | error e => rw [e0] at h; cases h
    | ok q =>
      rw [e0] at h
      rw [step h0 e0]
      simp only [heightOf] at h
      simp only [heightOfN]
      split_ifs at h with hq
      rw [if_neg hq]; cases h; rfl
  · have h : calcTm01 sv.f sv.sVarDens fmin fmax = .ok r := h
    show calcTm01N s.f s.sVarDens (some fmin) fmax.lim = _
    unfold calcTm01 at h
    unfold calcTm01N
    simp only [setFlimN_some, ef, bind, Except.bind] at h ⊢
    cases e0 : computeMoment (vec s.f) (.nd sv.sVarDens) 0 (setFlim s.f fmin fmax).1 (setFlim s.f fmin fmax).2 with
    | error e => rw [e0] at h; cases h
    | ok q =>
      rw [e0] at h
      rw [step h0 e0]
      cases e1 : computeMoment (vec s.f) (.nd sv.sVarDens) 1 (setFlim s.f fmin fmax).1 (setFlim s.f fmin fmax).2 with
      | error e => rw [e1] at h; cases h
      | ok q' =>
        rw [e1] at h
        rw [step (other 1 (by omega)) e1]
        exact nDiv_of_divE h
  · have h : calcTm02 sv.f sv.sVarDens fmin fmax = .ok r := h
    show calcTm02N s.f s.sVarDens (some fmin) fmax.lim = _
    unfold calcTm02 at h
    unfold calcTm02N
    simp only [setFlimN_some, ef, bind, Except.bind] at h ⊢
    cases e0 : computeMoment (vec s.f) (.nd sv.sVarDens) 0 (setFlim s.f fmin fmax).1 (setFlim s.f fmin fmax).2 with
    | error e => rw [e0] at h; cases h
    | ok q =>
      rw [e0] at h
      rw [step h0 e0]
      cases e1 : computeMoment (vec s.f) (.nd sv.sVarDens) 2 (setFlim s.f fmin fmax).1 (setFlim s.f fmin fmax).2 with
      | error e => rw [e1] at h; cases h
      | ok q' =>
        rw [e1] at h
        rw [step (other 2 (by omega)) e1]
        cases hd : divE q q' with
        | error e => simp only [hd] at h; cases h
        | ok z =>
          simp only [hd, sqrtE] at h
          simp only [nDiv_of_divE hd, nSqrt]
          split_ifs at h with hz
          rw [if_neg hz]; cases h; rfl
  · have h : calcTmm10 sv.f sv.sVarDens fmin fmax = .ok r := h
    show calcTmm10N s.f s.sVarDens (some fmin) fmax.lim = _
    unfold calcTmm10 at h
    unfold calcTmm10N
    simp only [setFlimN_some, ef, bind, Except.bind] at h ⊢
    cases e0 : computeMoment (vec s.f) (.nd sv.sVarDens) (-1) (setFlim s.f fmin fmax).1 (setFlim s.f fmin fmax).2 with
    | error e => rw [e0] at h; cases h
    | ok q =>
      rw [e0] at h
      rw [step h1 e0]
      cases e1 : computeMoment (vec s.f) (.nd sv.sVarDens) 0 (setFlim s.f fmin fmax).1 (setFlim s.f fmin fmax).2 with
      | error e => rw [e1] at h; cases h
      | ok q' =>
        rw [e1] at h
        rw [step h0 e1]
        exact nDiv_of_divE h

end Verif
