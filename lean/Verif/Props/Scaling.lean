import Verif.Props.SeriesInit

/-! # C11: scaling and shifting laws -/

set_option linter.unusedSectionVars false

namespace Verif
variable {K : Type} [Field K] [LinearOrder K] [IsStrictOrderedRing K]

/-- Affine time transformation. -/
def aff (c s : K) (v : K) : K := c * v + s

theorem getD_map_scale (c : K) (x : List K) (i : Nat) : (x.map (c * ·)).getD i 0 = c * x.getD i 0 := by
  simp only [List.getD_eq_getElem?_getD, List.getElem?_map]
  cases x[i]? <;> simp

theorem getD_map_aff (c s : K) {x : List K} {i : Nat} (h : i < x.length) :
    (x.map (aff c s)).getD i 0 = aff c s (x.getD i 0) := by
  simp [h]

theorem crossLoop_scale {cond : K → K → Bool} {c : K} (hc : 0 < c)
    (hcond : ∀ a b, cond (c * a) (c * b) = cond a b) (t x : List K) (hlen : t.length = x.length) :
    crossLoop cond t (x.map (c * ·)) = crossLoop cond t x := by
  have hidx : crossIdx cond (x.map (c * ·)) = crossIdx cond x := by
    simp only [crossIdx, List.length_map]
    congr 1
    funext i
    rw [getD_map_scale, getD_map_scale, hcond]
  rw [crossLoop_eq _ _ _ hlen, crossLoop_eq _ _ _ (by simpa using hlen), hidx]
  congr 1
  apply List.map_congr_left
  intro i _
  simp only [crossTime, getD_map_scale]
  congr 1
  rw [← mul_sub, mul_left_comm, mul_div_mul_left _ _ hc.ne']

theorem upCond_scale {c : K} (hc : 0 < c) (a b : K) : upCond (c * a) (c * b) = upCond a b := by
  have h1 : c * a ≤ 0 ↔ a ≤ 0 := by
    have := mul_le_mul_iff_right₀ (b := a) (c := 0) hc
    rwa [mul_zero] at this
  simp only [upCond, h1, mul_pos_iff_of_pos_left hc]

theorem downCond_scale {c : K} (hc : 0 < c) (a b : K) : downCond (c * a) (c * b) = downCond a b := by
  have := upCond_scale hc (-a) (-b)
  simp only [upCond, downCond, mul_neg, neg_nonpos, neg_pos] at *
  simpa [Left.neg_nonpos_iff] using this

/-- **C11 (amplitude, crossings).** Multiplying the signal by `c > 0` does not change the crossings (any type string,
any time axis). -/
theorem crossings_amplitude_invariant {pt : PyIn K} {t x : List K} {c : K} (ht : pt.IsVec t) (hc : 0 < c)
    (h2 : 2 ≤ t.length) (hlen : t.length = x.length) (ty : String) :
    determineZeroCrossing pt (vec (x.map (c * ·))) ty = determineZeroCrossing pt (vec x) ty := by
  rw [determineZeroCrossing_eq ht (isVec_vec _) h2 (by simpa using hlen),
    determineZeroCrossing_eq ht (isVec_vec _) h2 hlen,
    crossLoop_scale hc (upCond_scale hc) t x hlen, crossLoop_scale hc (downCond_scale hc) t x hlen]

theorem crossLoop_aff {cond : K → K → Bool} (c s : K) (t x : List K) (h2 : 2 ≤ t.length) (hlen : t.length = x.length) :
    crossLoop cond (t.map (aff c s)) x = ((crossLoop cond t x).1, (crossLoop cond t x).2.map (aff c s)) := by
  rw [crossLoop_eq _ _ _ hlen, crossLoop_eq _ _ _ (by simpa using hlen)]
  congr 1
  rw [List.map_map]
  apply List.map_congr_left
  intro i hi
  have hi := (mem_crossIdx.1 hi).1
  simp only [crossTime, Function.comp]
  rw [getD_map_aff c s (by omega), getD_map_aff c s (by omega), getD_map_aff c s (by omega)]
  simp only [aff]
  ring

/-- **C11 (time axis, crossings).** Shifting by `s` and rescaling by `c` the time axis does the same to the crossing times
and leaves the wave count unchanged. -/
theorem crossings_time_equivariant {px : PyIn K} {t x : List K} {c s : K} (hx : px.IsVec x)
    (h2 : 2 ≤ t.length) (hlen : t.length = x.length) (ty : String) :
    determineZeroCrossing (vec (t.map (aff c s))) px ty =
      (determineZeroCrossing (vec t) px ty).map fun r => (r.1, r.2.map (aff c s)) := by
  rw [determineZeroCrossing_eq (isVec_vec _) hx (by simpa using h2) (by simpa using hlen),
    determineZeroCrossing_eq (isVec_vec _) hx h2 hlen, crossLoop_aff c s t x h2 hlen, crossLoop_aff c s t x h2 hlen]
  split_ifs <;> rfl

/-! ## Individual waves -/

theorem getE_map {α β : Type} (f : α → β) (l : List α) (i : Nat) : getE (l.map f) i = (getE l i).map f := by
  simp only [getE, List.getElem?_map]
  cases l[i]? <;> rfl

theorem pySlice_map {α β : Type} (f : α → β) (l : List α) (a b : Nat) :
    pySlice (l.map f) a b = (pySlice l a b).map f := by
  simp [pySlice, List.map_take, List.map_drop]

theorem whereIdx_map {α β : Type} (f : α → β) (p : β → Bool) (l : List α) :
    whereIdx p (l.map f) = whereIdx (fun v => p (f v)) l := by
  simp only [whereIdx, List.length_map, List.getElem?_map, Option.any_map]

theorem pyMax_map {f : K → K} (hf : Monotone f) (l : List K) : pyMax (l.map f) = (pyMax l).map f := by
  cases l with
  | nil => rfl
  | cons a l =>
    simp only [List.map_cons, pyMax, Except.map]
    congr 1
    induction l generalizing a with
    | nil => rfl
    | cons b l ih => simp only [List.map_cons, List.foldl_cons, ← hf.map_max, ih]

theorem pyMin_map {f : K → K} (hf : Monotone f) (l : List K) : pyMin (l.map f) = (pyMin l).map f := by
  cases l with
  | nil => rfl
  | cons a l =>
    simp only [List.map_cons, pyMin, Except.map]
    congr 1
    induction l generalizing a with
    | nil => rfl
    | cons b l ih => simp only [List.map_cons, List.foldl_cons, ← hf.map_min, ih]

/-- A wave record with amplitudes multiplied by `a` and times mapped by `c * · + s`. -/
def WaveRec.rescale (a c s : K) (r : WaveRec K) : WaveRec K :=
  { hWave := a * r.hWave, tWave := c * r.tWave, aCrest := a * r.aCrest, aTrough := a * r.aTrough,
    tCrest := aff c s r.tCrest, tTrough := aff c s r.tTrough }

theorem map_bind_except {α β γ : Type} (f : α → β) (m : Except PyErr α) (g : β → Except PyErr γ) :
    (m.map f) >>= g = m >>= fun a => g (f a) := by
  cases m <;> rfl

theorem bind_map_except {α β γ : Type} (f : β → γ) (m : Except PyErr α) (g : α → Except PyErr β) :
    (m >>= g).map f = m >>= fun a => (g a).map f := by
  cases m <;> rfl

theorem oneWave_rescale {a c s : K} (ha : 0 < a) (hc : 0 < c) (tCross t x : List K) (k : Nat) :
    oneWave (tCross.map (aff c s)) (t.map (aff c s)) (x.map (a * ·)) k =
      (oneWave tCross t x k).map (WaveRec.rescale a c s) := by
  have hle : ∀ u v, aff c s u ≤ aff c s v ↔ u ≤ v := by
    intro u v; simp only [aff, add_le_add_iff_right, mul_le_mul_iff_right₀ hc]
  have hmono : Monotone (a * ·) := fun u v h => mul_le_mul_of_nonneg_left h ha.le
  have heq : ∀ u v, (a * u = a * v) ↔ u = v := fun u v => mul_right_inj' ha.ne'
  unfold oneWave
  simp only [getE_map, map_bind_except, bind_map_except, whereIdx_map, hle, pySlice_map, pyMax_map hmono,
    pyMin_map hmono, heq]
  refine bind_congr fun tIni => ?_
  refine bind_congr fun tEnd => ?_
  refine bind_congr fun iIni => ?_
  refine bind_congr fun iEnd => ?_
  refine bind_congr fun mx => ?_
  refine bind_congr fun iMax => ?_
  refine bind_congr fun mn => ?_
  refine bind_congr fun iMin => ?_
  refine bind_congr fun cr => ?_
  refine bind_congr fun tr => ?_
  refine bind_congr fun tc => ?_
  refine bind_congr fun tt => ?_
  have e1 : a * cr - a * tr = a * (cr - tr) := by ring
  have e2 : aff c s tEnd - aff c s tIni = c * (tEnd - tIni) := by simp only [aff]; ring
  simp only [pure, Except.pure, Except.map, WaveRec.rescale, e1, e2]

/-- The six arrays with amplitudes multiplied by `a` and times mapped by `c * · + s`. -/
def IndWaves.rescale (a c s : K) (w : IndWaves K) : IndWaves K :=
  { hWave := w.hWave.map (a * ·), tWave := w.tWave.map (c * ·), aCrest := w.aCrest.map (a * ·),
    aTrough := w.aTrough.map (a * ·), tCrest := w.tCrest.map (aff c s), tTrough := w.tTrough.map (aff c s) }

theorem mapM_map_except {α β γ : Type} (f : α → Except PyErr β) (g : β → γ) (l : List α) :
    l.mapM (fun a => (f a).map g) = (l.mapM f).map (List.map g) := by
  induction l with
  | nil => rfl
  | cons a l ih =>
    rw [List.mapM_cons, List.mapM_cons, map_bind_except, bind_map_except]
    congr 1; funext b
    rw [ih, map_bind_except, bind_map_except]
    rfl

/-- **C11 (waves).** Multiplying the signal by `a > 0` multiplies heights, crests and troughs by `a` and leaves all times
unchanged; mapping the time axis (and crossings) by `v ↦ c v + s`, `c > 0`, multiplies the periods by `c` and moves the
crest and trough times accordingly (`c = 1`: a pure shift leaves periods unchanged).  Any crossing list, any 1D inputs;
exceptions are preserved too. -/
theorem individual_waves_rescale {t x tc : List K} {a c s : K} (ha : 0 < a) (hc : 0 < c)
    (hlen : t.length = x.length) (ht0 : t ≠ []) :
    determineParamsIndividualWaves (vec (tc.map (aff c s))) (vec (t.map (aff c s))) (vec (x.map (a * ·))) =
      (determineParamsIndividualWaves (vec tc) (vec t) (vec x)).map (IndWaves.rescale a c s) := by
  rw [individualWaves_eq (isVec_vec _) (isVec_vec _) (isVec_vec _) (by simpa using hlen) (by simpa using ht0),
    individualWaves_eq (isVec_vec _) (isVec_vec _) (isVec_vec _) hlen ht0]
  have : oneWave (tc.map (aff c s)) (t.map (aff c s)) (x.map (a * ·)) =
      fun k => (oneWave tc t x k).map (WaveRec.rescale a c s) := by
    funext k; exact oneWave_rescale ha hc tc t x k
  rw [this, mapM_map_except, List.length_map]
  cases (List.range (tc.length - 1)).mapM (oneWave tc t x) with
  | error e => rfl
  | ok recs =>
    simp only [Except.map, IndWaves.ofRecs, IndWaves.rescale, List.map_map]
    rfl

/-- **C11 (whole object).** The wave heights and periods stored by `Series(c t + s, a x)` are those of `Series(t, x)`
multiplied by `a` and `c`, for every uniform series. -/
theorem series_rescale {t x : List K} {dt a c s : K} (h2 : 2 ≤ t.length) (hlen : t.length = x.length)
    (hu : UniformAxis t dt) (ha : 0 < a) (hc : 0 < c) :
    ∃ S S', SeriesObj.init (vec t) (vec x) = .ok S ∧
      SeriesObj.init (vec (t.map (aff c s))) (vec (x.map (a * ·))) = .ok S' ∧
      S'.wh.hwave = arr1 (S.wh.hwave.data.map (a * ·)) ∧ S'.wh.twave = arr1 (S.wh.twave.data.map (c * ·)) ∧
      S'.tCross = S.tCross.map (aff c s) ∧ S'.wh.nwave = S.wh.nwave := by
  have hu' : UniformAxis (t.map (aff c s)) (c * dt) := by
    refine ⟨mul_pos hc hu.1, ?_⟩
    intro i hi
    rw [List.length_map] at hi
    rw [getD_map_aff c s (by omega), getD_map_aff c s (by omega), hu.2 i hi]
    simp only [aff]; ring
  obtain ⟨S, n, tc, w, h1, -, -, -, -, h3, h4, h5, h6, h7, -⟩ :=
    series_never_fails (isVec_vec t) (isVec_vec x) h2 hlen hu
  obtain ⟨S', n', tc', w', h1', -, -, -, -, h3', h4', h5', h6', h7', -⟩ :=
    series_never_fails (isVec_vec (t.map (aff c s))) (isVec_vec (x.map (a * ·))) (by simpa using h2)
      (by simpa using hlen) hu'
  rw [crossings_amplitude_invariant (isVec_vec _) ha (by simpa using h2) (by simpa using hlen),
    crossings_time_equivariant (isVec_vec _) h2 hlen, h3] at h3'
  simp only [Except.map, Except.ok.injEq, Prod.mk.injEq] at h3'
  obtain ⟨_, rfl⟩ := h3'
  rw [individual_waves_rescale ha hc hlen (by rintro rfl; simp at h2), h4] at h4'
  simp only [Except.map, Except.ok.injEq] at h4'
  subst h4'
  refine ⟨S, S', h1, h1', ?_, ?_, ?_, ?_⟩
  · rw [h6, h6']; rfl
  · rw [h6, h6']; rfl
  · rw [h5, h5']
  · rw [h6, h6']; simp [IndWaves.rescale]

/-! ## Concrete cases: the hypotheses of the theorems above are met -/

example := crossings_amplitude_invariant (isVec_vec ([0, 1, 2, 3] : List ℚ)) (x := [1, -1, 2, -3]) (c := 2) (by norm_num) (by simp) rfl "down"
example := crossings_time_equivariant (isVec_vec ([1, -1, 2, -3] : List ℚ)) (t := [0, 1, 2, 3]) (c := 2) (s := 5) (by simp) rfl "up"
example := individual_waves_rescale (t := ([0, 1, 2, 3, 4, 5, 6] : List ℚ)) (x := [1, -1, 1, -1, 2, -1, 1]) (tc := [1 / 2, 5 / 2, 14 / 3])
  (a := 3) (c := 60) (s := 100) (by norm_num) (by norm_num) rfl (by simp)
/-- Metres to feet and seconds to minutes. -/
example := series_rescale (t := ([0, 1, 2, 3, 4, 5, 6] : List ℚ)) (x := [1, -1, 1, -1, 2, -1, 1]) (dt := 1) (a := 3281 / 1000) (c := 1 / 60) (s := 7)
  (by simp) rfl (uniformAxis_of_steps (by norm_num) (by decide +kernel)) (by norm_num) (by norm_num)

end Verif
