import Verif.Props.NaNPeak

/-! # C140: the default cut-off of a spectrum with missing densities -/

set_option linter.unusedSectionVars false

namespace Verif

variable {K : Type} [Field K] [LinearOrder K] [IsStrictOrderedRing K]

/-- **C140 (moments).**  A NaN lower limit is accepted by `compute_moment` and acts as no lower limit at all. -/
theorem nan_lower_limit {pf : PyIn K} {pS : PyIn (Option K)} {f : List K} {S : List (Option K)} (hf : pf.IsArr f) (hS : pS.IsArr S)
    (hm : monotonicIncreasingConstantStep f = .ok true) (hl : f.length = S.length) (m : Int) {x : K} (hx : x ≤ f.getD 0 0)
    (hx1 : x ≠ -1) {fmax : FLim K} (hfm : fmax ≠ .fin (-1)) :
    computeMomentN pf pS m none fmax = computeMomentN pf pS m (some x) fmax := by
  have hp := uniform_check_increasing hm
  have h2 := mono_two_le hm
  have hd1 := firstUsable_le f m
  have hdl : firstUsable f m < f.length := by omega
  rw [computeMomentN_body hm hf hS hl, computeMomentN_body hm hf hS hl]
  have c1 : ¬ ((none : Option K) = some (-1) ∨ fmax = .fin (-1)) := by simp [hfm]
  have c2 : ¬ (some x = some (-1) ∨ fmax = .fin (-1)) := by simp [hfm, hx1]
  rw [if_neg c1, if_neg c2]
  have hne : f.drop (firstUsable f m) ≠ [] := by
    intro h
    have := congrArg List.length h
    simp at this; omega
  have key : ∀ y : K, y ≤ f.getD (firstUsable f m) 0 → approxArrayIndexN (f.drop (firstUsable f m)) (some y) = .ok 0 := by
    intro y hy
    obtain ⟨k, hk, hkn⟩ := approx_drop hdl y
    have := isNearest_unique hkn (isNearest_first hp hdl hy)
    show approxArrayIndex _ y = _
    rw [hk, show k = 0 by omega]
  have h01 : f.getD 0 0 ≤ f.getD (firstUsable f m) 0 := inc_le hp (Nat.zero_le _) hdl
  have e : approxArrayIndexN (f.drop (firstUsable f m))
        (if m < 0 ∧ f.getD 0 0 = 0 then (if (none : Option K) = some 0 then some (f.getD 1 0) else none) else none) =
      approxArrayIndexN (f.drop (firstUsable f m))
        (if m < 0 ∧ f.getD 0 0 = 0 then (if some x = some 0 then some (f.getD 1 0) else some x) else some x) := by
    have l : (if m < 0 ∧ f.getD 0 0 = 0 then (if (none : Option K) = some 0 then some (f.getD 1 0) else none) else none) = (none : Option K) := by
      split_ifs <;> simp_all
    rw [l]
    have : approxArrayIndexN (f.drop (firstUsable f m)) none = .ok 0 := by
      show (if _ then _ else _) = _
      rw [if_neg hne]
    rw [this]
    by_cases hc : m < 0 ∧ f.getD 0 0 = 0
    · rw [if_pos hc]
      have hd' : firstUsable f m = 1 := by unfold firstUsable; rw [if_pos hc]
      by_cases h0 : some x = some 0
      · rw [if_pos h0]; exact (key _ (by rw [hd'])).symm
      · rw [if_neg h0]; exact (key _ (hx.trans h01)).symm
    · rw [if_neg hc]; exact (key _ (hx.trans h01)).symm
  have eb : ∀ F, momentBetweenN m (f.drop (firstUsable f m)) (S.drop (firstUsable f m))
        (if m < 0 ∧ f.getD 0 0 = 0 then (if (none : Option K) = some 0 then some (f.getD 1 0) else none) else none) F =
      momentBetweenN m (f.drop (firstUsable f m)) (S.drop (firstUsable f m))
        (if m < 0 ∧ f.getD 0 0 = 0 then (if some x = some 0 then some (f.getD 1 0) else some x) else some x) F := by
    intro F; unfold momentBetweenN; rw [e]
  have et : ∀ fe lim, momentWithTailN m (f.drop (firstUsable f m)) (S.drop (firstUsable f m))
        (if m < 0 ∧ f.getD 0 0 = 0 then (if (none : Option K) = some 0 then some (f.getD 1 0) else none) else none) fe lim =
      momentWithTailN m (f.drop (firstUsable f m)) (S.drop (firstUsable f m))
        (if m < 0 ∧ f.getD 0 0 = 0 then (if some x = some 0 then some (f.getD 1 0) else some x) else some x) fe lim := by
    intro fe lim; unfold momentWithTailN; rw [eb]
  cases fmax with
  | fin F =>
    simp only [eb, et]
  | nan => exact et _ _
  | inf => exact et _ _

/-- With a NaN upper limit the zeroth moment is NaN. -/
theorem nan_upper_limit {pf : PyIn K} {pS : PyIn (Option K)} {f : List K} {S : List (Option K)} (hf : pf.IsArr f) (hS : pS.IsArr S)
    (hm : monotonicIncreasingConstantStep f = .ok true) (hl : f.length = S.length) (h0 : 0 ≤ f.getD 0 0) {x : K} (hx1 : x ≠ -1) :
    computeMomentN pf pS 0 (some x) .nan = .ok none := by
  have hp := uniform_check_increasing hm
  have h2 := mono_two_le hm
  have hu : firstUsable f 0 = 0 := by unfold firstUsable; rw [if_neg (by omega)]
  rw [computeMomentN_body hm hf hS hl, if_neg (by simp [hx1]), hu]
  simp only [lt_irrefl, false_and, if_false, List.drop_zero]
  obtain ⟨i, hi, hin⟩ := approx_drop (f := f) (d := 0) (by omega) x
  obtain ⟨j, hj, hjn⟩ := approx_drop (f := f) (d := 0) (by omega) (f.getD (f.length - 1) 0)
  rw [List.drop_zero] at hi hj
  rw [zero_add] at hin hjn
  have ej : j = f.length - 1 := isNearest_unique hjn (isNearest_self hp (by omega) (by omega))
  have hil : i < f.length := hin.2.1
  have hlast := inc_lt hp (i := 0) (j := f.length - 1) (by omega) (by omega)
  unfold momentWithTailN momentBetweenN
  simp only [approxArrayIndexN, hi, hj, bind, Except.bind, momentSumN, lt_irrefl, false_and, if_false]
  have l1 := pySlice_len1 (l := f) (i := i) (j := j) (by omega)
  have l2 := pySlice_len1 (l := S) (i := i) (j := j) (by omega)
  have hz : (List.zipWith (fun a s => nScale (a ^ (0 : ℤ)) s) (pySlice f i (j + 1)) (pySlice S i (j + 1))).length =
      (pySlice f i (j + 1)).length := by rw [List.length_zipWith]; omega
  have : ∃ q, simpsonN (pySlice f i (j + 1))
      (List.zipWith (fun a s => nScale (a ^ (0 : ℤ)) s) (pySlice f i (j + 1)) (pySlice S i (j + 1))) = .ok q := by
    unfold simpsonN
    rw [if_neg (by omega), if_neg]
    · split_ifs <;> exact ⟨_, rfl⟩
    · intro h
      rw [h] at l1
      simp at l1; omega
  obtain ⟨q, hq⟩ := this
  rw [hq]
  have := lastE_dropN (S := S) (d := 0) (by omega)
  rw [List.drop_zero] at this
  rw [this]
  simp only [tailMomentN]
  rw [if_neg (by
    rintro (h | h)
    · omega
    · rw [h] at hlast; exact absurd h0 (not_le.2 hlast))]
  simp only [pure, Except.pure, nAdd_none_right]

/-! ## The object -/

theorem nan_cutoff {s : SpecObjN} (h : s.Tmm10 = some .nan) : s.cutoff = (.ok none, s) := by
  unfold SpecObjN.cutoff
  rw [h]
  simp only [h]

theorem nan_limits (f : List ℝ) (fmax : FMax ℝ) :
    setFlimN f none fmax.lim = (none, (setFlimN f (some (-1)) fmax.lim).2) ∧ (setFlimN f (some (-1)) fmax.lim).1 = some (f.getD 0 0) := by
  unfold setFlimN
  constructor
  · rw [if_neg (by simp)]
  · rw [if_pos rfl]

/-- The object holds a valid axis and a NaN mean period. -/
structure NaNPeriod (s : SpecObjN) : Prop where
  axis : monotonicIncreasingConstantStep s.f = .ok true
  len : s.f.length = s.sVarDens.length
  start : 0 ≤ s.f.getD 0 0
  tm : s.Tmm10 = some .nan

theorem nan_hf_moment {s : SpecObjN} (h : NaNPeriod s) (fmax : FMax ℝ) (m : Int) :
    computeMomentN (vec s.f) (vec s.sVarDens) m (setFlimN s.f none fmax.lim).1 (setFlimN s.f none fmax.lim).2 =
      computeMomentN (vec s.f) (vec s.sVarDens) m (setFlimN s.f (some (-1)) fmax.lim).1 (setFlimN s.f (some (-1)) fmax.lim).2 := by
  have h2 := mono_two_le h.axis
  have hp := uniform_check_increasing h.axis
  have hs := h.start
  rw [(nan_limits s.f fmax).1, (nan_limits s.f fmax).2]
  refine nan_lower_limit (isArr_vec _) (isArr_vec _) h.axis h.len m (le_refl _) (by intro e; rw [e] at hs; linarith) ?_
  unfold setFlimN
  simp only
  split_ifs with hc
  · intro e
    have := inc_lt hp (i := 0) (j := s.f.length - 1) (by omega) (by omega)
    rw [FLim.fin.injEq] at e
    linarith
  · exact hc

/-- **C140.**  When the mean period of the spectrum is NaN, the default cut-off is NaN, and this raises no error: the 'high frequency'
wave height and mean period with the default lower limit are those of the whole range up to `fmax`, while the 'low frequency' ones
with the default upper limit are NaN. -/
theorem nan_default_cutoff {s : SpecObjN} (h : NaNPeriod s) :
    (∀ fmax : FMax ℝ, (s.getHm0HF (some (-1)) fmax.lim).1 = (s.getHm0 (some (-1)) fmax.lim).1 ∧
      (s.getTmm10HF (some (-1)) fmax.lim).1 = (s.getTmm10 (some (-1)) fmax.lim).1) ∧
    (∀ fmin : ℝ, (s.getHm0LF (some fmin) (.fin (-1))).1 = .ok none) := by
  constructor
  · intro fmax
    constructor
    · unfold SpecObjN.getHm0HF
      rw [if_pos rfl, nan_cutoff h.tm]
      show calcHm0N s.f s.sVarDens none fmax.lim = calcHm0N s.f s.sVarDens (some (-1)) fmax.lim
      unfold calcHm0N
      simp only [nan_hf_moment h]
    · unfold SpecObjN.getTmm10HF
      rw [if_pos rfl, nan_cutoff h.tm]
      show calcTmm10N s.f s.sVarDens none fmax.lim = calcTmm10N s.f s.sVarDens (some (-1)) fmax.lim
      unfold calcTmm10N
      simp only [nan_hf_moment h]
  · intro fmin
    unfold SpecObjN.getHm0LF
    rw [if_pos rfl, nan_cutoff h.tm]
    show calcHm0N s.f s.sVarDens (some fmin) .nan = .ok none
    unfold calcHm0N
    have hl : setFlimN s.f (some fmin) .nan = (some (if fmin = -1 then s.f.getD 0 0 else fmin), .nan) := by
      unfold setFlimN
      by_cases hc : fmin = -1
      · rw [if_pos (by rw [hc]), if_pos hc, if_neg (by simp)]
      · rw [if_neg (fun e => hc (Option.some.inj e)), if_neg hc, if_neg (by simp)]
    have hs := h.start
    simp only [hl]
    rw [nan_upper_limit (isArr_vec _) (isArr_vec _) h.axis h.len h.start (by
      split_ifs with hc
      · intro e; rw [e] at hs; linarith
      · exact hc)]
    rfl

/-- **C140 (in use).**  After `Spectrum(f, S)` with a NaN density on a non-negative axis, `get_Hm0_HF(fmax=fmax)` returns the total
wave height up to `fmax`. -/
theorem nan_hf_is_total {f : List ℝ} {S : List (Option ℝ)} {s : SpecObjN} (hs : SpecObjN.init (vec f) (vec S) = .ok s)
    (h0 : 0 ≤ f.getD 0 0) (hn : none ∈ S) (fmax : FMax ℝ) :
    (s.getHm0HF (some (-1)) fmax.lim).1 = (s.getHm0 (some (-1)) fmax.lim).1 ∧
      (s.getHm0HF (some (-1)) fmax.lim).2.Tmm10 = some .nan := by
  obtain ⟨-, hT, -⟩ := nan_spectrum_params hs h0 hn
  obtain ⟨rfl, rfl, hm, hl, hse⟩ := SpecObjN.init_vec hs
  have hnone : s.Tmm10 = none := by rw [hse]
  have hc : s.cutoff = (.ok none, { s with Tmm10 := some .nan }) := by
    unfold SpecObjN.cutoff
    rw [hnone]
    simp only [hT]
  have hp : NaNPeriod { s with Tmm10 := some .nan } := ⟨hm, hl, h0, rfl⟩
  have hc' := nan_cutoff (s := { s with Tmm10 := some .nan }) rfl
  have e : s.getHm0HF (some (-1)) fmax.lim = ({ s with Tmm10 := some .nan } : SpecObjN).getHm0HF (some (-1)) fmax.lim := by
    unfold SpecObjN.getHm0HF
    rw [if_pos rfl, if_pos rfl, hc, hc']
  rw [e]
  refine ⟨((nan_default_cutoff hp).1 fmax).1, ?_⟩
  unfold SpecObjN.getHm0HF
  rw [if_pos rfl, hc']

/-! ## A concrete case -/

theorem axis4_uniform : UniformAxis ([0, 1, 2, 3] : List ℝ) 1 := by
  refine ⟨by norm_num, ?_⟩
  intro i hi
  simp only [List.length_cons, List.length_nil] at hi
  have : i = 0 ∨ i = 1 ∨ i = 2 := by omega
  rcases this with rfl | rfl | rfl <;> norm_num

theorem axis4_check : monotonicIncreasingConstantStep ([0, 1, 2, 3] : List ℝ) = .ok true :=
  uniform_check_accepts_uniform (by simp) axis4_uniform

theorem SpecObjN.init_ok {f : List ℝ} {S : List (Option ℝ)} (hm : monotonicIncreasingConstantStep f = .ok true)
    (hl : f.length = S.length) : SpecObjN.init (vec f) (vec S) = .ok { f := f, sVarDens := S, nf := f.length } := by
  have h2 : ∀ {α : Type} (l : List α), (toVector (vec l)).1 = ⟨[l.length], l⟩ ∧ (toVector (vec l)).2 = (l.length, 0) := by
    intro α l
    simp only [toVector, vec, toArr, size2, Arr.size]
    by_cases hl : l.length = 0
    · simp [hl]
    · simp [hl]
  unfold SpecObjN.init
  simp only [(h2 f).1, (h2 f).2, (h2 S).1, (h2 S).2, hm, Bool.true_eq_false, if_false]
  rw [if_neg (by simpa using hl)]
  rfl

/-- The NaN cut-off does not show in the result: the moment from NaN to 2 Hz is the whole one, 2. -/
example : computeMomentN (K := ℚ) (vec [0, 1, 2, 3]) (vec [some 1, some 1, some 1, none]) 0 none (.fin 2) = .ok (some 2) ∧
    computeMomentN (K := ℚ) (vec [0, 1, 2, 3]) (vec [some 1, some 1, some 1, none]) (-1) none (.fin 2) = .ok (some (3 / 4)) ∧
    computeMomentN (K := ℚ) (vec [0, 1, 2, 3]) (vec [some 1, some 1, some 1, some 1]) 0 (some 1) .nan = .ok none := by
  decide +kernel

/-- Non-vacuity of `nan_first_peak`, `nan_spectrum_params` and `nan_hf_is_total`: the axis 0, 1, 2, 3 Hz. -/
example : ∃ s, SpecObjN.init (vec [0, 1, 2, 3]) (vec [some 1, some 1, some 1, none]) = .ok s ∧
    (s.getHm0 (some (-1)) (.fin (-1))).1 = .ok none ∧
    (s.getHm0HF (some (-1)) (.fin 2)).1 = (s.getHm0 (some (-1)) (.fin 2)).1 := by
  have hs := SpecObjN.init_ok (S := [some 1, some 1, some 1, none]) axis4_check (by simp)
  refine ⟨_, hs, ?_, ?_⟩
  · rw [(nan_spectrum_params hs (by simp) (by simp)).1]
  · exact (nan_hf_is_total hs (by simp) (by simp) (.fin 2)).1

/-! ## Concrete cases: the hypotheses of the theorems above are met -/

example : computeMomentN (K := ℚ) (vec [0, 1, 2, 3]) (vec [some 1, some 1, some 1, none]) 2 none (.fin 2) =
    computeMomentN (K := ℚ) (vec [0, 1, 2, 3]) (vec [some 1, some 1, some 1, none]) 2 (some 0) (.fin 2) :=
  nan_lower_limit (isArr_vec ([0, 1, 2, 3] : List ℚ)) (isArr_vec _) (by decide +kernel) rfl 2 (by norm_num) (by norm_num) (by simp; norm_num)

example : (({ f := [0, 1, 2, 3], sVarDens := [some 1, some 1, some 1, none], nf := 4, Tmm10 := some .nan } : SpecObjN).getHm0LF (some 0) (.fin (-1))).1 = .ok none :=
  (nan_default_cutoff (s := { f := [0, 1, 2, 3], sVarDens := [some 1, some 1, some 1, none], nf := 4, Tmm10 := some .nan })
    ⟨axis4_check, rfl, by simp, rfl⟩).2 0

theorem axis6_nan : monotonicIncreasingConstantStep ([1, 2, 3, 4, 5, 6] : List ℝ) = .ok true :=
  uniform_check_accepts_uniform (x := [1, 2, 3, 4, 5, 6]) (dx := 1) (by simp) ⟨by norm_num, fun i hi => by
    obtain rfl | rfl | rfl | rfl | rfl : i = 0 ∨ i = 1 ∨ i = 2 ∨ i = 3 ∨ i = 4 := by simp only [List.length_cons, List.length_nil] at hi; omega
    all_goals norm_num⟩

example : RaisesValueError (({ f := [1, 2, 3, 4, 5, 6], sVarDens := [none, some 5, some 3, some 2, some 1, some 1], nf := 6 } : SpecObjN).getTp (some 1) (.fin 6)).1 :=
  (nan_first_peak (f := [1, 2, 3, 4, 5, 6]) (S := [none, some 5, some 3, some 2, some 1, some 1]) (SpecObjN.init_ok axis6_nan rfl) (fmin := 1) (fmax := .fin 6) (i := 0)
    ⟨by simp, .inr (by simp), .inr (by norm_num)⟩ (fun k _ => Nat.zero_le k) rfl).1.1

example : ∃ sv, SpecObj.init (vec [1, 2, 3, 4, 5, 6]) (vec [1, 5, 3, 2, 0, 1]) = .ok sv ∧
    (({ f := [1, 2, 3, 4, 5, 6], sVarDens := [some 1, some 5, some 3, some 2, none, some 1], nf := 6 } : SpecObjN).getTp (some 1) (.fin 6)).1 = (sv.getTp 1 (.fin 6)).1.map some := by
  have hs := (spectrum_init_iff_partial (isArr_vec ([1, 2, 3, 4, 5, 6] : List ℝ)) (isArr_vec [1, 5, 3, 2, 0, 1])).2 ⟨axis6_nan, by simp, rfl⟩
  refine ⟨_, hs, nan_peak_skipped (f := [1, 2, 3, 4, 5, 6]) (S := [some 1, some 5, some 3, some 2, none, some 1]) (SpecObjN.init_ok axis6_nan rfl) hs ⟨rfl, fun i hi => ?_⟩
    (fmin := 1) (fmax := .fin 6) (i := 0) (a := 1) ⟨by simp, .inr (by simp), .inr (by norm_num)⟩ (fun k _ => Nat.zero_le k) rfl (fun k hk hn => ?_)⟩
  · have h6 : i < 6 := hi
    obtain rfl | rfl | rfl | rfl | rfl | rfl : i = 0 ∨ i = 1 ∨ i = 2 ∨ i = 3 ∨ i = 4 ∨ i = 5 := by omega
    all_goals simp
  · have h6 : k < 6 := hk.1
    obtain rfl | rfl | rfl | rfl | rfl | rfl : k = 0 ∨ k = 1 ∨ k = 2 ∨ k = 3 ∨ k = 4 ∨ k = 5 := by omega
    all_goals simp at hn ⊢

example (r : ℝ) : ∃ s sv, SpecObjN.init (vec [1, 2, 3, 4, 5, 6]) (vec [some 1, some 1, some 1, none, none, some 1]) = .ok s ∧
    SpecObj.init (vec [1, 2, 3, 4, 5, 6]) (vec [1, 1, 1, 1, 1, 1]) = .ok sv ∧
    ((sv.getHm0 1 (.fin 3)).1 = .ok r → (s.getHm0 (some 1) (.fin 3)).1 = .ok (some r)) := by
  have hv := (spectrum_init_iff_partial (isArr_vec ([1, 2, 3, 4, 5, 6] : List ℝ)) (isArr_vec [1, 1, 1, 1, 1, 1])).2 ⟨axis6_nan, by simp, rfl⟩
  have hs : SpecObjN.init (vec [1, 2, 3, 4, 5, 6]) (vec [some 1, some 1, some 1, none, none, some 1]) = .ok _ := SpecObjN.init_ok axis6_nan rfl
  have hp := uniform_check_increasing axis6_nan
  refine ⟨_, _, hs, hv, (nan_outside_range hs hv ⟨rfl, fun i hi => ?_⟩ 1 (.fin 3) r ⟨0, 2, ?_, fun k _ hk => ?_⟩).1⟩
  · have h6 : i < 6 := hi
    obtain rfl | rfl | rfl | rfl | rfl | rfl : i = 0 ∨ i = 1 ∨ i = 2 ∨ i = 3 ∨ i = 4 ∨ i = 5 := by omega
    all_goals simp
  · have e : setFlim ([1, 2, 3, 4, 5, 6] : List ℝ) 1 (.fin 3) = (1, .fin 3) := by
      norm_num [setFlim]
    rw [e]
    unfold Integrated
    rw [if_neg (by norm_num)]
    exact ⟨isNearest_self hp (i := 0) (by simp [firstUsable]) (by simp), isNearest_self hp (i := 2) (by simp [firstUsable]) (by simp)⟩
  · obtain rfl | rfl | rfl : k = 0 ∨ k = 1 ∨ k = 2 := by omega
    all_goals simp

end Verif
