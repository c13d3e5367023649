import Verif.Props.WaveSigns
import Verif.Model.Series

/-! # C10, C21, C59: the Series constructor and filtering of small waves -/

set_option linter.unusedSectionVars false

namespace Verif
variable {K : Type} [Field K] [LinearOrder K]

theorem toVector_of_isVec {α : Type} {p : PyIn α} {xs : List α} (h : p.IsVec xs) :
    toVector p = (⟨[xs.length], xs⟩, (xs.length, 0)) := by
  simp only [toVector, toArr_of_isVec h, size2, Arr.size, List.prod_cons, List.prod_nil, mul_one]
  by_cases h0 : xs.length = 0
  · simp [h0]
  · simp [h0]

theorem WH_init_vec {h t : List K} : WH.init (vec h) (vec t) = .ok ⟨arr1 h, h.length, arr1 t⟩ := by
  simp [WH.init, toVector_of_isVec (isVec_vec h), toVector_of_isVec (isVec_vec t), arr1, Arr.len]

theorem zipWith_sub_zeros (x : List K) : List.zipWith (· - ·) x (x.map fun _ => (0 : K)) = x := by
  induction x with
  | nil => rfl
  | cons a x ih => rw [List.map_cons, List.zipWith_cons_cons, ih, sub_zero]

theorem diff_length (t : List K) : (diff t).length = t.length - 1 := by
  fun_induction diff t with
  | case1 a b l ih => simp [ih]
  | case2 l h =>
    rcases l with _ | ⟨a, _ | ⟨b, l⟩⟩ <;> simp_all

theorem diff_uniform {t : List K} {dt : K} (hu : ∀ i, i + 1 < t.length → t.getD (i + 1) 0 = t.getD i 0 + dt) :
    diff t = List.replicate (t.length - 1) dt := by
  fun_induction diff t with
  | case1 a b l ih =>
    have h0 := hu 0 (by simp)
    simp at h0
    have := ih (fun i hi => by
      have := hu (i + 1) (by simp at hi ⊢; omega)
      rwa [List.getD_cons_succ, List.getD_cons_succ] at this)
    rw [this, h0]
    simp [List.replicate_succ]
  | case2 l h =>
    rcases l with _ | ⟨a, _ | ⟨b, l⟩⟩ <;> simp_all

/-- All steps of an exactly uniform axis with at least two points are accepted by the variance test. -/
theorem variance_check_uniform [IsStrictOrderedRing K] {t : List K} {dt : K} (h2 : 2 ≤ t.length)
    (hu : UniformAxis t dt) :
    diff t ≠ [] ∧ variance (diff t) < mean ((diff t).map (· / 100)) ∧ mean (diff t) = dt := by
  have hd := diff_uniform hu.2
  have hn : (0 : K) < ((t.length - 1 : Nat) : K) := by
    have : 0 < t.length - 1 := by omega
    exact_mod_cast this
  have hdt := hu.1
  have hm : mean (diff t) = dt := by
    rw [hd]; simp only [mean, List.sum_replicate, List.length_replicate, nsmul_eq_mul]
    field_simp
  refine ⟨?_, ?_, hm⟩
  · rw [hd]; intro h
    have := congrArg List.length h
    simp at this; omega
  · have hv : variance (diff t) = 0 := by
      simp only [variance, hm]
      rw [hd]; simp [mean]
    rw [hv, hd]
    simp only [mean, List.map_replicate, List.sum_replicate, List.length_replicate, nsmul_eq_mul]
    positivity

theorem whereIdx_false {α : Type} {p : α → Bool} {l : List α} (h : ∀ v ∈ l, p v = false) : whereIdx p l = [] := by
  apply List.eq_nil_iff_forall_not_mem.2
  intro i hi
  obtain ⟨v, hv, hp⟩ := mem_whereIdx.1 hi
  rw [h v (List.mem_of_getElem? hv)] at hp
  cases hp

theorem npDelete_nil {α : Type} (l : List α) : npDelete l [] = l := by
  simp [npDelete]

/-- **C10.** `Series(time, x)` on a uniform increasing axis with at least two samples and a signal of the same length
never raises; the object holds the given arrays, the time step, and the zero-down-crossing waves of the signal, all with
positive height. -/
theorem series_never_fails [IsStrictOrderedRing K] {pt px : PyIn K} {t x : List K} {dt : K} (ht : pt.IsVec t)
    (hx : px.IsVec x) (h2 : 2 ≤ t.length) (hlen : t.length = x.length) (hu : UniformAxis t dt) :
    ∃ s n tc w, SeriesObj.init pt px = .ok s ∧ s.time = arr1 t ∧ s.xTime = arr1 x ∧ s.nt = t.length ∧ s.dt = dt ∧
      determineZeroCrossing (vec t) (vec x) "down" = .ok (n, tc) ∧
      determineParamsIndividualWaves (vec tc) (vec t) (vec x) = .ok w ∧
      s.tCross = tc ∧ s.wh = ⟨arr1 w.hWave, w.hWave.length, arr1 w.tWave⟩ ∧ (s.wh.nwave : Int) = n ∧
      ∀ v ∈ w.hWave, 0 < v := by
  obtain ⟨n, tc, w, h1, h3, h4, h5, h6, h7⟩ := down_waves_signs (isVec_vec t) (isVec_vec x) h2 hlen hu
  obtain ⟨v1, v2, v3⟩ := variance_check_uniform h2 hu
  have hrm : removeIndex w.hWave 0 = [] := whereIdx_false fun v hv => by
    simp only [decide_eq_false_iff_not, not_lt]; exact (h7 v hv).le
  have hxl : List.zipWith (· - ·) x (zerosLike ⟨[x.length], x⟩) = x := zipWith_sub_zeros x
  have hdet : ∀ s0 : SeriesObj K, s0.time = ⟨[t.length], t⟩ → s0.xTime = ⟨[x.length], x⟩ →
      determineIndividualWaves s0 "down" (zerosLike ⟨[x.length], x⟩) 0 =
        .ok (w, tc, { s0 with tCross := tc, wh := ⟨arr1 w.hWave, w.hWave.length, arr1 w.tWave⟩ }) := by
    intro s0 e1 e2
    unfold determineIndividualWaves
    simp only [e1, e2, hxl]
    rw [show (PyIn.nd ⟨[t.length], t⟩ : PyIn K) = vec t from rfl, show (PyIn.nd ⟨[x.length], x⟩ : PyIn K) = vec x from rfl,
      h1]
    simp only [bind, Except.bind, h3, hrm, npDelete_nil, WH_init_vec]
    rfl
  refine ⟨{ time := arr1 t, xTime := arr1 x, nt := t.length, dt := dt, tCross := tc,
            wh := ⟨arr1 w.hWave, w.hWave.length, arr1 w.tWave⟩ }, n, tc, w, ?_, rfl, rfl, rfl, rfl, h1, h3, rfl, rfl,
            h4, h7⟩
  simp only [SeriesObj.init, timeSteps, toVector_of_isVec ht, toVector_of_isVec hx, hlen, ne_eq, not_true_eq_false, if_false]
  simp only [bind, Except.bind]
  rw [if_pos ⟨v1, v2⟩, hdet _ (by simp only [hlen]) rfl]
  simp only [bind, Except.bind, WH_init_vec, v3, pure, Except.pure, arr1, Arr.len, List.headD_cons, hlen]

/-! ## C21 -/

theorem sum_map_div' (l : List K) (c : K) : (l.map (· / c)).sum = l.sum / c := by
  induction l with
  | nil => simp
  | cons a l ih => simp only [List.map_cons, List.sum_cons, ih]; ring

theorem isOneD_shape {α : Type} {a : Arr α} (h : isOneD a = true) : ∃ n, a.shape = [n] ∧ n ≠ 0 := by
  have key : ∀ p : Nat × Nat, size2 a = p → p.1 ≠ 0 ∧ p.2 = 0 → ∃ n, a.shape = [n] ∧ n ≠ 0 := by
    intro p hp h
    unfold size2 at hp
    by_cases hs : a.size ≠ 0
    · rw [if_pos hs] at hp
      rcases hsh : a.shape with _ | ⟨n, _ | ⟨m, _ | ⟨k, l⟩⟩⟩
      · rw [hsh] at hp; rw [← hp] at h; exact absurd rfl h.1
      · rw [hsh] at hp; rw [← hp] at h; exact ⟨n, rfl, h.1⟩
      · rw [hsh] at hp
        rw [← hp] at h
        exfalso
        apply hs
        have hm : m = 0 := h.2
        unfold Arr.size
        rw [hsh, hm]
        simp
      · rw [hsh] at hp; rw [← hp] at h; exact absurd rfl h.1
    · rw [if_neg hs] at hp; rw [← hp] at h; exact absurd rfl h.1
  unfold isOneD at h
  exact key _ rfl (by simpa using h)

/-- The wave analysis only succeeds on 1D arrays of equal lengths with at least two samples. -/
theorem analysis_ok_shape {s : SeriesObj K} {ty : String} {xlow : List K} {mw : K} {r : IndWaves K × List K × SeriesObj K}
    (h : determineIndividualWaves s ty xlow mw = .ok r) : ∃ n, s.time.shape = [n] ∧ s.xTime.shape = [n] ∧ 2 ≤ n := by
  unfold determineIndividualWaves at h
  rw [bind_ok] at h
  obtain ⟨⟨_, tc⟩, h, -⟩ := h
  unfold determineZeroCrossing at h
  dsimp only at h
  by_cases a : (!isOneD (toArr (PyIn.nd s.time))) = true
  · rw [if_pos a] at h; cases h
  rw [if_neg a] at h
  by_cases b : (!isOneD (toArr (PyIn.nd (⟨s.xTime.shape, List.zipWith (· - ·) s.xTime.data xlow⟩ : Arr K)))) = true
  · rw [if_pos b] at h; cases h
  rw [if_neg b] at h
  simp only [Bool.not_eq_true', Bool.not_eq_false] at a b
  obtain ⟨n, hn, -⟩ := isOneD_shape a
  obtain ⟨m, hm, -⟩ := isOneD_shape b
  have en : (toArr (PyIn.nd s.time)).len = n := by unfold Arr.len; rw [hn]; rfl
  have em : (toArr (PyIn.nd (⟨s.xTime.shape, List.zipWith (· - ·) s.xTime.data xlow⟩ : Arr K))).len = m := by unfold Arr.len; rw [hm]; rfl
  rw [en, em] at h
  by_cases c : n ≠ m
  · rw [if_pos c] at h; cases h
  rw [if_neg c] at h
  by_cases d : n < 2
  · rw [if_pos d] at h; cases h
  have c := not_not.1 c
  simp only [toArr] at hn hm
  exact ⟨n, hn, by rw [c]; exact hm, by omega⟩

/-- **C21 (partial).** Whatever the inputs: if the constructor succeeds then the time axis has at least two samples, the
signal has as many, and the *mean* time step is positive.  (That every single step is positive does not follow:
see `series_accepts_decreasing`.) -/
theorem series_mean_step_positive_partial [IsStrictOrderedRing K] {pt px : PyIn K} {s : SeriesObj K}
    (h : SeriesObj.init pt px = .ok s) :
    ∃ t, s.time = ⟨s.time.shape, t⟩ ∧ s.dt = mean (diff t) ∧ 0 < s.dt ∧ 2 ≤ t.length := by
  unfold SeriesObj.init at h
  rcases hvt : toVector pt with ⟨t, tS⟩
  rcases hvx : toVector px with ⟨x, xS⟩
  rw [hvt, hvx] at h
  simp only at h
  by_cases h1 : tS.1 ≠ xS.1
  · simp [h1] at h
  rw [if_neg h1] at h
  rw [bind_ok] at h
  obtain ⟨d, hd, h⟩ := h
  · by_cases h2 : d ≠ [] ∧ variance d < mean (d.map (· / 100))
    swap
    · rw [if_neg h2] at h; simp at h
    rw [if_pos h2] at h
    rw [bind_ok] at h
    obtain ⟨⟨w, tc, s1⟩, h3, h⟩ := h
    obtain ⟨n, hn, -, -⟩ := analysis_ok_shape h3
    unfold timeSteps at hd
    simp only at hn
    rw [hn] at hd
    have hd := (Except.ok.inj hd).symm
    subst hd
    simp only at h
    rw [bind_ok] at h
    obtain ⟨wh, h4, h⟩ := h
    simp only [pure, Except.pure, Except.ok.injEq] at h
    have hs1 : s1.time = t ∧ s1.dt = mean (diff t.data) := by
      unfold determineIndividualWaves at h3
      rw [bind_ok] at h3
      obtain ⟨⟨_, tc'⟩, _, h3⟩ := h3
      simp only at h3
      rw [bind_ok] at h3
      obtain ⟨w', _, h3⟩ := h3
      rw [bind_ok] at h3
      obtain ⟨wh', _, h3⟩ := h3
      simp only [pure, Except.pure, Except.ok.injEq, Prod.mk.injEq] at h3
      obtain ⟨_, _, h3⟩ := h3
      rw [← h3]
      exact ⟨rfl, rfl⟩
    subst h
    refine ⟨t.data, ?_, hs1.2, ?_, ?_⟩
    · simp only [hs1.1]
    · simp only [hs1.2]
      have hv : 0 ≤ variance (diff t.data) := by
        simp only [variance, mean]
        apply div_nonneg
        · apply List.sum_nonneg
          intro v hv
          obtain ⟨y, _, rfl⟩ := List.mem_map.1 hv
          positivity
        · positivity
      have h3 := lt_of_le_of_lt hv h2.2
      have h4 : mean ((diff t.data).map (· / 100)) = mean (diff t.data) / 100 := by
        simp only [mean, List.length_map, sum_map_div']
        ring
      rw [h4] at h3
      linarith
    · have := List.length_pos_of_ne_nil h2.1
      rw [diff_length] at this
      omega

/-- **C21 is false as stated**: the test compares a variance (s²) with a mean (s), so an axis with small time steps is
accepted although it decreases. -/
theorem series_accepts_decreasing :
    ∃ s, SeriesObj.init (K := ℚ) (vec [0, -2/1000, 2/1000]) (vec [1, 2, 3]) = .ok s ∧
      s.time = arr1 [0, -2/1000, 2/1000] := by
  refine ⟨⟨arr1 [0, -2/1000, 2/1000], arr1 [1, 2, 3], 3, 1/1000, [], ⟨arr1 [], 0, arr1 []⟩⟩, ?_, rfl⟩
  decide +kernel

/-- ... and a uniformly increasing axis with large steps and small relative jitter is rejected (steps 1000 and 1010). -/
theorem series_rejects_small_jitter :
    SeriesObj.init (K := ℚ) (vec [0, 1000, 2010, 3010, 4020]) (vec [1, 2, 3, 4, 5]) =
      .error (.assertionError "Input error: time step is not equidistant") := by
  decide +kernel

/-- What the test does guarantee: each step deviates from the mean step by at most sqrt(n * mean/100), i.e. the squared
deviations of the steps add up to less than `n * dt / 100`. -/
theorem series_step_deviation_partial [IsStrictOrderedRing K] {d : List K}
    (hd : d ≠ []) (h : variance d < mean (d.map (· / 100))) :
    ∀ v ∈ d, (v - mean d) ^ 2 < d.length * (mean d / 100) := by
  intro v hv
  have hn : (0 : K) < d.length := by exact_mod_cast List.length_pos_of_ne_nil hd
  have h4 : mean (d.map (· / 100)) = mean d / 100 := by
    simp only [mean, List.length_map, sum_map_div']
    ring
  rw [h4, variance] at h
  unfold mean at h
  rw [List.length_map, div_lt_iff₀ hn] at h
  have h5 : (v - mean d) ^ 2 ≤ (d.map fun x => (x - mean d) ^ 2).sum := by
    apply List.single_le_sum
    · intro y hy
      obtain ⟨z, _, rfl⟩ := List.mem_map.1 hy
      positivity
    · exact List.mem_map_of_mem hv
  calc (v - mean d) ^ 2 ≤ _ := h5
    _ < _ := h
    _ = _ := by unfold mean; ring

/-- **C21 (size check).** Different numbers of samples always raise `AssertionError`. -/
theorem series_length_mismatch {pt px : PyIn K} {t x : List K} (ht : pt.IsVec t) (hx : px.IsVec x)
    (h : t.length ≠ x.length) :
    SeriesObj.init pt px = .error (.assertionError "Input error: array sizes differ in dimension") := by
  simp [SeriesObj.init, toVector_of_isVec ht, toVector_of_isVec hx, h]

/-! ## C59 -/

theorem npDelete_filter (l : List K) (g : Nat → Bool) (idx : List Nat) (hidx : ∀ i < l.length, idx.contains i = g i) :
    npDelete l idx = ((List.range l.length).filter fun i => !(g i)).map fun i => l.getD i 0 := by
  have : l.zipIdx = (List.range l.length).map fun i => (l.getD i 0, i) := by
    apply List.ext_getElem
    · simp
    · intro i h1 h2
      simp at h1
      simp [h1]
  rw [npDelete, this, List.filter_map, List.map_map]
  have h2 : ∀ i ∈ List.range l.length, ((fun p : K × Nat => !idx.contains p.2) ∘ fun i => (l.getD i 0, i)) i = !(g i) := by
    intro i hi
    simp only [List.mem_range] at hi
    simp only [Function.comp, hidx i hi]
  rw [List.filter_congr h2]
  rfl

theorem eq_filterMap_range {α : Type} (l : List α) : l = (List.range l.length).filterMap fun i => l[i]? := by
  induction l using List.reverseRecOn with
  | nil => simp
  | append_singleton l a ih =>
    simp only [List.length_append, List.length_cons, List.length_nil, Nat.zero_add, List.range_succ,
      List.filterMap_append]
    have : (List.range l.length).filterMap (fun i => (l ++ [a])[i]?) =
        (List.range l.length).filterMap fun i => l[i]? := by
      apply List.filterMap_congr
      intro j hj
      simp only [List.mem_range] at hj
      rw [List.getElem?_append_left hj]
    rw [this, ← ih]
    simp

/-- Deleting the flagged waves from a column = the column of the remaining waves. -/
theorem npDelete_column (recs : List (WaveRec K)) (m : K) (f : WaveRec K → K) :
    npDelete (recs.map f) (removeIndex (recs.map (·.hWave)) m) =
      (recs.filter fun r => decide (m ≤ r.hWave)).map f := by
  have hidx : ∀ i < (recs.map f).length, (removeIndex (recs.map (·.hWave)) m).contains i =
      decide (∃ r, recs[i]? = some r ∧ r.hWave < m) := by
    intro i _
    rw [Bool.eq_iff_iff]
    simp only [List.contains_iff_mem, removeIndex, mem_whereIdx, List.getElem?_map, decide_eq_true_eq]
    constructor
    · rintro ⟨v, h1, h2⟩
      cases hr : recs[i]? with
      | none => rw [hr] at h1; simp at h1
      | some r => rw [hr] at h1; simp at h1; exact ⟨r, rfl, by rw [h1]; exact h2⟩
    · rintro ⟨r, h1, h2⟩
      exact ⟨r.hWave, by simp [h1], h2⟩
  rw [npDelete_filter _ _ _ hidx]
  have hrec := eq_filterMap_range recs
  conv_rhs => rw [hrec]
  rw [List.length_map, List.filter_filterMap, List.map_filterMap, ← List.filterMap_eq_filter, List.map_filterMap]
  apply List.filterMap_congr
  intro i hi
  simp only [List.mem_range] at hi
  have hs : recs[i]? = some recs[i] := List.getElem?_eq_getElem hi
  by_cases hc : recs[i].hWave < m
  · have : ∃ r, recs[i]? = some r ∧ r.hWave < m := ⟨_, hs, hc⟩
    simp [Option.guard, hi, not_le.2 hc, Option.filter]
  · have : ¬ ∃ r, recs[i]? = some r ∧ r.hWave < m := by
      rintro ⟨r, h1, h2⟩
      rw [hs] at h1
      simp only [Option.some.injEq] at h1
      rw [h1] at hc
      exact hc h2
    simp [Option.guard, hi, not_lt.1 hc, Option.filter]

/-- **C59.** `_determine_individual_waves(typeCross, minimum_wave = m)` (with any subtracted low-frequency signal) returns
and stores exactly the rows with height at least `m`, in order, with all six parameters; the wave count is updated and
the series itself untouched. -/
theorem small_waves_filtered {s s' : SeriesObj K} {ty : String} {xlow tc : List K} {m : K} {w' : IndWaves K}
    (h : determineIndividualWaves s ty xlow m = .ok (w', tc, s')) :
    ∃ recs, (∃ n, determineZeroCrossing (.nd s.time)
        (.nd ⟨s.xTime.shape, List.zipWith (· - ·) s.xTime.data xlow⟩) ty = .ok (n, tc)) ∧
      determineParamsIndividualWaves (vec tc) (.nd s.time) (.nd s.xTime) = .ok (IndWaves.ofRecs recs) ∧
      Columns w' (recs.filter fun r => decide (m ≤ r.hWave)) ∧
      s'.wh = ⟨arr1 w'.hWave, w'.hWave.length, arr1 w'.tWave⟩ ∧
      s'.time = s.time ∧ s'.xTime = s.xTime ∧ s'.nt = s.nt ∧ s'.dt = s.dt := by
  unfold determineIndividualWaves at h
  rw [bind_ok] at h
  obtain ⟨⟨n, tc'⟩, h1, h⟩ := h
  simp only at h
  rw [bind_ok] at h
  obtain ⟨w, h2, h⟩ := h
  rw [WH_init_vec] at h
  simp only [bind, Except.bind, pure, Except.pure, Except.ok.injEq, Prod.mk.injEq] at h
  obtain ⟨h3, h4, h5⟩ := h
  subst h4
  have hw : ∃ recs, w = IndWaves.ofRecs recs := by
    unfold determineParamsIndividualWaves at h2
    simp only at h2
    split_ifs at h2
    · simp only [Except.ok.injEq] at h2; exact ⟨_, h2.symm⟩
    · rw [bind_ok] at h2
      obtain ⟨recs, _, h2⟩ := h2
      simp only [pure, Except.pure, Except.ok.injEq] at h2; exact ⟨_, h2.symm⟩
  obtain ⟨recs, rfl⟩ := hw
  refine ⟨recs, ⟨n, h1⟩, h2, ?_, ?_, ?_⟩
  · rw [← h3]
    simp only [IndWaves.ofRecs]
    exact ⟨npDelete_column .., npDelete_column .., npDelete_column .., npDelete_column .., npDelete_column ..,
      npDelete_column ..⟩
  · rw [← h5, ← h3]
  · rw [← h5]; exact ⟨rfl, rfl, rfl, rfl⟩

/-- **C10, C59 (totality).** On a valid series the (re-)analysis never fails: any crossing type "up"/"down" in any case, any
low-frequency signal subtracted first (`fcutoff`), any minimum height. -/
theorem reanalysis_never_fails [IsStrictOrderedRing K] {s : SeriesObj K} {t x xlow : List K} {dt : K}
    (hst : s.time = arr1 t) (hsx : s.xTime = arr1 x) (h2 : 2 ≤ t.length) (hlen : t.length = x.length)
    (hlow : xlow.length = x.length) (hu : UniformAxis t dt) {ty : String}
    (hty : ty.toLower = "up" ∨ ty.toLower = "down") (m : K) :
    ∃ r, determineIndividualWaves s ty xlow m = .ok r := by
  have hyl : t.length = (List.zipWith (· - ·) x xlow).length := by simp [hlow, hlen]
  have hxd : (PyIn.nd ⟨(arr1 x).shape, List.zipWith (· - ·) (arr1 x).data xlow⟩ : PyIn K) =
      vec (List.zipWith (· - ·) x xlow) := by
    simp [arr1, vec, hlow]
  have key : ∃ n tc w, determineZeroCrossing (vec t) (vec (List.zipWith (· - ·) x xlow)) ty = .ok (n, tc) ∧
      determineParamsIndividualWaves (vec tc) (vec t) (vec x) = .ok w := by
    rcases hty with hty | hty
    · obtain ⟨n, tc, idx, h1, hidx, hf, _⟩ :=
        up_crossing_times (isVec_vec t) (isVec_vec (List.zipWith (· - ·) x xlow)) h2 hyl hu
      obtain ⟨w, recs, hw, _⟩ :=
        waves_of_zeros (isVec_vec t) (isVec_vec x) h2 hlen hu hidx.1
          (fun i hi => by have := ((hidx.2 i).1 hi).1; omega) hf
      exact ⟨n, tc, w, by rw [← h1]; exact typeCross_case_insensitive _ _ (by rw [hty]; decide +kernel), hw⟩
    · obtain ⟨n, tc, idx, h1, hidx, hf, _⟩ :=
        down_crossing_times (isVec_vec t) (isVec_vec (List.zipWith (· - ·) x xlow)) h2 hyl hu
      obtain ⟨w, recs, hw, _⟩ :=
        waves_of_zeros (isVec_vec t) (isVec_vec x) h2 hlen hu hidx.1
          (fun i hi => by have := ((hidx.2 i).1 hi).1; omega) hf
      exact ⟨n, tc, w, by rw [← h1]; exact typeCross_case_insensitive _ _ (by rw [hty]; decide +kernel), hw⟩
  obtain ⟨n, tc, w, h3, h4⟩ := key
  unfold determineIndividualWaves
  rw [hst, hsx]
  simp only [hxd]
  rw [show (PyIn.nd (arr1 t) : PyIn K) = vec t from rfl, show (PyIn.nd (arr1 x) : PyIn K) = vec x from rfl]
  simp only [bind, Except.bind, h3, h4, WH_init_vec]
  exact ⟨_, rfl⟩

/-- Non-vacuity of C59: the three waves of the test signal have heights 0.5, 0.2 and 0.7; with `minimum_wave = 0.4` the
second one is dropped. -/
example : (do
    let s ← SeriesObj.init (K := ℚ) (vec tNasty)
      (vec [1, 0, -2/10, 3/10, -2/10, 0, 0, 0, -2/10, 0, 0, 0, 5/10, -2/10, 3/10, 0])
    let r ← determineIndividualWaves s "down" (zerosLike s.xTime) (4/10)
    return (r.1.hWave, r.1.aCrest, r.2.2.wh.nwave)) = .ok ([5/10, 7/10], [3/10, 5/10], 2) := by
  decide +kernel

/-! ## Concrete cases: the hypotheses of the theorems above are met -/

example : ∃ s, SeriesObj.init (K := ℚ) (vec [0, 1, 2, 3]) (vec [1, -1, 2, -3]) = .ok s ∧ 0 < s.dt ∧
    ∃ r, determineIndividualWaves s "up" (zerosLike s.xTime) 0 = .ok r ∧ r.2.2.time = s.time := by
  have hu : UniformAxis ([0, 1, 2, 3] : List ℚ) 1 := uniformAxis_of_steps (by norm_num) (by decide +kernel)
  obtain ⟨s, -, -, -, h, ht, hx, -⟩ := series_never_fails (isVec_vec ([0, 1, 2, 3] : List ℚ)) (isVec_vec [1, -1, 2, -3]) (by simp) rfl hu
  obtain ⟨t, -, -, h2, -⟩ := series_mean_step_positive_partial h
  obtain ⟨⟨w, tc, s'⟩, hr⟩ := reanalysis_never_fails (s := s) (xlow := zerosLike s.xTime) ht hx (by simp) (by simp)
    (by rw [hx]; simp [zerosLike, arr1]) hu (ty := "up") (Or.inl (by decide +kernel)) 0
  obtain ⟨-, -, -, -, -, h3, -⟩ := small_waves_filtered hr
  exact ⟨s, h, h2, _, hr, h3⟩
example := series_step_deviation_partial (d := ([1, 1, 101 / 100] : List ℚ)) (by simp) (by decide +kernel)
example := series_length_mismatch (isVec_vec ([0, 1, 2] : List ℚ)) (isVec_vec [1, -1]) (by simp)

end Verif
