import Verif.Props.Wrappers

/-! # C170: synthesising a series with a time step that is zero or negative -/

open Finset

namespace Verif

/-- Number of points of `start, start + dt, …` up to, excluding, `tEnd + dt`. -/
theorem arange_length (a b c : ℝ) : (arange a b c).length = ⌈(b - a) / c⌉.toNat := by simp [arange]

theorem arange_getD {a b c : ℝ} {j : Nat} (hj : j < (arange a b c).length) : (arange a b c).getD j 0 = a + j * c := by
  rw [arange_length] at hj
  unfold arange
  rw [getD_map_range _ _ j 0 hj]

/-- `Series` refuses any evenly spaced axis that runs backwards. -/
theorem series_backwards {a b c : ℝ} (hc : c < 0) (x : List ℝ) :
    ∃ msg, SeriesObj.init (vec (arange a b c)) (vec x) = .error (.assertionError msg) := by
  rw [series_assertion_iff (isVec_vec _) (isVec_vec _)]
  by_cases h2 : (arange a b c).length < 2
  · exact Or.inr (Or.inl h2)
  refine Or.inr (Or.inr ?_)
  push Not at h2
  have hl : (0 : ℝ) < (((arange a b c).length - 1 : Nat) : ℝ) := by exact_mod_cast (by omega)
  have hm : meanStep (arange a b c) = c := by
    unfold meanStep
    rw [arange_getD (by omega), arange_getD (by omega)]
    field_simp
    simp
  have hv : stepVariance (arange a b c) = 0 := by
    unfold stepVariance
    rw [Finset.sum_eq_zero, zero_div]
    intro i hi
    have := Finset.mem_range.1 hi
    rw [arange_getD (by omega), arange_getD (by omega), hm]
    push_cast
    ring
  rw [hm, hv]
  linarith

/-- The time axis of a synthesis that succeeds is `np.arange(tInit, tEnd + dt, dt)`. -/
theorem synth_axis (R : Rng) {f S : PyIn ℝ} {tInit tEnd dt : ℝ} {seed : Int} {s s' : R.State} {t x : List ℝ}
    (h : spectrum2timeseries R f S tInit tEnd dt seed s = (.ok (t, x), s')) : dt ≠ 0 ∧ t = arange tInit (tEnd + dt) dt := by
  unfold spectrum2timeseries at h
  split at h
  · simp at h
  · simp at h
  · dsimp only at h
    split_ifs at h with h1 h2 h3
    all_goals try (simp at h; done)
    refine ⟨h2, ?_⟩
    split at h
    · simp at h
    · split at h
      · simp at h
      · split_ifs at h with h4
        · simp at h
        · simp only [Prod.mk.injEq, Except.ok.injEq] at h
          exact h.1.1.symm

/-- **C170.**  Whatever the spectrum, the start, the end, the seed and the state of the generator: a time step that is not positive never gives
a series object. -/
theorem synth_no_backwards (R : Rng) (f S : PyIn ℝ) (tInit tEnd : ℝ) {dt : ℝ} (hdt : dt ≤ 0) (seed : Int) (s : R.State) :
    ∃ e s', spectrum2timeseriesObject R f S tInit tEnd dt seed s = (.error e, s') := by
  unfold spectrum2timeseriesObject
  rcases h : spectrum2timeseries R f S tInit tEnd dt seed s with ⟨_ | ⟨t, x⟩, s'⟩
  · exact ⟨_, _, rfl⟩
  · obtain ⟨h0, rfl⟩ := synth_axis R h
    obtain ⟨msg, hm⟩ := series_backwards (a := tInit) (b := tEnd + dt) (lt_of_le_of_ne hdt h0) x
    exact ⟨.assertionError msg, s', by simp only [hm]⟩

/-- **C170.**  The method `create_series` of any spectrum object. -/
theorem create_series_no_backwards (R : Rng) (sp : SpecObj) (tstart tend : ℝ) {dt : ℝ} (hdt : dt ≤ 0) (g : R.State) :
    ∃ e g', sp.createSeries R tstart tend dt g = (.error e, g') := synth_no_backwards R _ _ tstart tend hdt (-1) g

/-- **C170.**  The function itself: with a negative step it returns a signal.  The times are `tInit, tInit + dt, …`, at least one of them when
`tEnd < tInit - dt` and none otherwise (then it divides by zero); for non-negative frequencies the signal is identically zero, whatever the
densities; the generator is advanced as for a positive step.  With step zero it divides by zero and leaves the generator alone. -/
theorem synth_backwards (R : Rng) {f S : PyIn ℝ} {fs Ss : List ℝ} (hf : f.IsArr fs) (hS : S.IsFlat Ss)
    (hl : fs.length = Ss.length) (hne : fs ≠ []) (hinc : fs.Pairwise (· < ·)) (hf0 : ∀ v ∈ fs, 0 ≤ v)
    (tInit tEnd : ℝ) {dt : ℝ} {seed : Int} (hseed : seed < 2 ^ 32) (s : R.State) :
    (dt = 0 → spectrum2timeseries R f S tInit tEnd dt seed s = (.error .zeroDivisionError, s)) ∧
      (dt < 0 → tInit ≤ tEnd + dt → spectrum2timeseries R f S tInit tEnd dt seed s = (.error .zeroDivisionError, s)) ∧
      (dt < 0 → tEnd + dt < tInit → ∃ t x, spectrum2timeseries R f S tInit tEnd dt seed s =
          (.ok (t, x), (R.rand (seededState R seed s) ((t.length + 1) / 2)).2) ∧
        0 < t.length ∧ x.length = t.length ∧ (∀ j, j < t.length → t.getD j 0 = tInit + j * dt) ∧
        (∀ j, j < t.length → tEnd + dt < t.getD j 0) ∧ tInit + t.length * dt ≤ tEnd + dt ∧
        ∀ j, x.getD j 0 = 0) := by
  refine ⟨fun h0 => ?_, fun hneg ht => ?_, fun hneg ht => ?_⟩
  · unfold spectrum2timeseries
    simp only [vecIn_of_isArr hf, vecIn_of_isArr hS.isArr]
    rw [if_neg (by simpa using hl), if_pos h0]
  · have hlen : (arange tInit (tEnd + dt) dt).length = 0 := by
      rw [arange_length]
      have : ⌈(tEnd + dt - tInit) / dt⌉ ≤ 0 := by
        rw [Int.ceil_le]; push_cast
        exact div_nonpos_of_nonneg_of_nonpos (by linarith) hneg.le
      exact Int.toNat_of_nonpos this
    unfold spectrum2timeseries
    simp only [vecIn_of_isArr hf, vecIn_of_isArr hS.isArr]
    rw [if_neg (by simpa using hl), if_neg hneg.ne, hlen]
    rfl
  · have hq : 0 < (tEnd + dt - tInit) / dt := div_pos_of_neg_of_neg (by linarith) hneg
    have hc : 0 < ⌈(tEnd + dt - tInit) / dt⌉ := Int.ceil_pos.2 hq
    set t := arange tInit (tEnd + dt) dt with htd
    have hlt : (t.length : ℤ) = ⌈(tEnd + dt - tInit) / dt⌉ := by rw [htd, arange_length]; exact Int.toNat_of_nonneg hc.le
    have hn0 : 0 < t.length := by omega
    set n := (t.length + 1) / 2 with hn
    have hnpos : 0 < n := by omega
    have hdf : genDf n dt < 0 := by
      unfold genDf
      have : (0 : ℝ) < n := by exact_mod_cast hnpos
      exact one_div_neg.2 (mul_neg_of_pos_of_neg (by positivity) hneg)
    have hz : ∀ i : Nat, npInterp fs Ss (((i : ℝ) + 1) * genDf n dt) = 0 := by
      intro i
      refine (npInterp_spec hinc hl).1 _ (Or.inl fun v hv => lt_of_lt_of_le ?_ (hf0 v hv))
      exact mul_neg_of_pos_of_neg (by positivity) hdf
    set rs := R.rand (seededState R seed s) n with hrs
    have hrl : rs.1.length = n := R.rand_length _ _
    set A : List ℝ := (List.range n).map (fun _ => (0 : ℝ)) with hA
    set φl : List ℝ := rs.1.map fun u => 2 * Real.pi * u with hφl
    have hmain : spectrum2timeseries R f S tInit tEnd dt seed s =
        (.ok (t, ((npIfft (fourierComponents (2 * n) n A φl)).map fun z => (z * ((2 * n : ℕ) : ℂ)).re).take t.length), rs.2) := by
      unfold spectrum2timeseries
      simp only [vecIn_of_isArr hf, vecIn_of_isArr hS.isArr]
      rw [if_neg (by simpa using hl), if_neg hneg.ne, ← htd]
      rw [if_neg (by omega), ← hn, genAxis_eq hnpos hneg.ne]
      simp only [List.length_map, List.length_range]
      rw [interpArg_eq hS hne (hinc.imp fun h => h.le), reseed_eq R hseed]
      simp only [drawPhases, List.map_map]
      have hA0 : (List.range n).map (npInterp fs Ss ∘ fun (i : Nat) => ((i : ℝ) + 1) * genDf n dt) = A := by
        rw [hA]
        exact List.map_congr_left fun i _ => hz i
      rw [← hrs, if_neg]
      · have hA2 : (List.range n).map ((fun v => Real.sqrt (2 * v * genDf n dt)) ∘ npInterp fs Ss ∘ fun (i : Nat) => ((i : ℝ) + 1) * genDf n dt) = A := by
          rw [hA]
          refine List.map_congr_left fun i _ => ?_
          simp only [Function.comp]
          rw [hz i]
          simp
        rw [hA2]
      · rw [hA0, hA]
        simp
    refine ⟨t, _, hmain, hn0, ?_, fun j hj => arange_getD hj, fun j hj => ?_, ?_, ?_⟩
    · rw [List.length_take, List.length_map, npIfft, fourierComponents_eq hnpos (by simp [hA]) (by simp [hφl, hrl])]
      simp
      omega
    · rw [htd, arange_getD hj]
      have h1 : ((j : ℤ) : ℝ) < (tEnd + dt - tInit) / dt := by
        have : (j : ℤ) < ⌈(tEnd + dt - tInit) / dt⌉ := by rw [← hlt]; exact_mod_cast hj
        exact Int.lt_ceil.1 this
      rw [lt_div_iff_of_neg hneg] at h1
      push_cast at h1
      linarith
    · have h1 : (tEnd + dt - tInit) / dt ≤ ((t.length : ℤ) : ℝ) := by rw [hlt]; exact Int.le_ceil _
      rw [div_le_iff_of_neg hneg] at h1
      push_cast at h1
      linarith
    · have hx0 : ∀ z ∈ (npIfft (fourierComponents (2 * n) n A φl)).map (fun z => (z * ((2 * n : ℕ) : ℂ)).re), z = 0 := by
        intro z hz'
        obtain ⟨w, hw, rfl⟩ := List.mem_map.1 hz'
        rw [fourierComponents_eq hnpos (by simp [hA]) (by simp [hφl, hrl])] at hw
        unfold npIfft at hw
        obtain ⟨j, hj, rfl⟩ := List.mem_map.1 hw
        have hc0 : ∀ k, compAt A φl k = 0 := by
          intro k
          unfold compAt
          have : A.getD (k - 1) 0 = 0 := by
            by_cases hk : k - 1 < A.length
            · rw [List.getD_eq_getElem _ _ hk]; simp [hA]
            · exact List.getD_eq_default _ _ (by omega)
          rw [this]
          simp
        have hs0 : symExt (2 * n) (compAt A φl) = fun _ => 0 := by
          funext k
          unfold symExt
          simp only [hc0]
          simp
        rw [hs0]
        simp [inv]
      intro j
      by_cases hj : j < (List.take t.length ((npIfft (fourierComponents (2 * n) n A φl)).map fun z => (z * ((2 * n : ℕ) : ℂ)).re)).length
      · rw [List.getD_eq_getElem _ _ hj]
        exact hx0 _ (List.mem_of_mem_take (List.getElem_mem hj))
      · exact List.getD_eq_default _ _ (by omega)

/-! Three frequencies, step −1 s from 3 s down to 0 s: four times and a signal of zeros; `create_series` refuses. -/

example : ∃ t x, spectrum2timeseries quarterRng (vec [1 / 8, 2 / 8, 3 / 8]) (.list [1, 3, 2]) 3 0 (-1) 7 (5 : Nat) =
      (.ok (t, x), (quarterRng.rand (seededState quarterRng 7 (5 : Nat)) ((t.length + 1) / 2)).2) ∧ t.length = 4 ∧ ∀ j, x.getD j 0 = 0 := by
  obtain ⟨t, x, h1, h2, h3, h4, h5, h6, h7⟩ := (synth_backwards quarterRng (isArr_vec [1 / 8, 2 / 8, 3 / 8]) (.list [1, 3, 2]) rfl (by simp)
    (by norm_num) (by norm_num) 3 0 (dt := -1) (seed := 7) (by norm_num) (5 : Nat)).2.2 (by norm_num) (by norm_num)
  refine ⟨t, x, h1, ?_, h7⟩
  have ha : (t.length : ℝ) ≥ 4 := by linarith
  have hb := h5 (t.length - 1) (by omega)
  rw [h4 _ (by omega), Nat.cast_sub (by omega)] at hb
  push_cast at hb
  have hc : (t.length : ℝ) < 5 := by linarith
  have ha' : 4 ≤ t.length := by exact_mod_cast ha
  have hc' : t.length < 5 := by exact_mod_cast hc
  omega
example := (synth_backwards quarterRng (isArr_vec [1 / 8, 2 / 8, 3 / 8]) (.list [1, 3, 2]) rfl (by simp)
    (by norm_num) (by norm_num) 0 3 (dt := -1) (seed := 7) (by norm_num) (5 : Nat)).2.1 (by norm_num) (by norm_num)
example := (synth_backwards quarterRng (isArr_vec [1 / 8, 2 / 8, 3 / 8]) (.list [1, 3, 2]) rfl (by simp)
    (by norm_num) (by norm_num) 0 3 (dt := 0) (seed := 7) (by norm_num) (5 : Nat)).1 rfl
example : ∃ sp, SpecObj.init (vec [1 / 8, 2 / 8, 3 / 8]) (vec [1, 3, 2]) = .ok sp ∧
    ∃ e g, sp.createSeries quarterRng 3 0 (-1) (5 : Nat) = (.error e, g) := by
  have hu : UniformAxis ([1 / 8, 2 / 8, 3 / 8] : List ℝ) (1 / 8) :=
    uniformAxis_of_steps (by norm_num) fun i hi => by have : i < 2 := hi; interval_cases i <;> norm_num
  have h := (spectrum_init_iff_partial (isArr_vec ([1 / 8, 2 / 8, 3 / 8] : List ℝ)) (isArr_vec [1, 3, 2])
    (s := _)).2 ⟨uniform_check_accepts_uniform (by simp) hu, rfl, rfl⟩
  exact ⟨_, h, create_series_no_backwards quarterRng _ 3 0 (by norm_num) _⟩

end Verif
