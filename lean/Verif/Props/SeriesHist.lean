import Verif.Model.SeriesHist
import Verif.Props.WaveHeights

/-! # C70: a `Series` object under arbitrary call histories -/

namespace Verif

/-- The two objects hold the same signal (time axis, samples, number of samples, time step). -/
structure SameSignal (s s' : SeriesObj ℝ) : Prop where
  time : s'.time = s.time
  xTime : s'.xTime = s.xTime
  nt : s'.nt = s.nt
  dt : s'.dt = s.dt

theorem SameSignal.refl (s : SeriesObj ℝ) : SameSignal s s := ⟨rfl, rfl, rfl, rfl⟩

theorem SameSignal.trans {a b c : SeriesObj ℝ} (h : SameSignal a b) (g : SameSignal b c) : SameSignal a c :=
  ⟨g.time.trans h.time, g.xTime.trans h.xTime, g.nt.trans h.nt, g.dt.trans h.dt⟩

/-- An analysis only depends on the signal: its result, including the object afterwards, is the same for two objects
with the same signal. -/
theorem determineIndividualWaves_sameSignal {s s' : SeriesObj ℝ} (h : SameSignal s s') (ty : String) (xlow : List ℝ) (m : ℝ) :
    determineIndividualWaves s' ty xlow m = determineIndividualWaves s ty xlow m := by
  obtain ⟨h1, h2, h3, h4⟩ := h
  obtain ⟨t, x, n, d, c, w⟩ := s
  obtain ⟨t', x', n', d', c', w'⟩ := s'
  simp only at h1 h2 h3 h4
  subst h1 h2 h3 h4
  rfl

theorem individualWaves_sameSignal {s s' : SeriesObj ℝ} (h : SameSignal s s') (ty : String) (fc m : ℝ) :
    s'.individualWaves ty fc m = s.individualWaves ty fc m := by
  unfold SeriesObj.individualWaves
  rw [h.time, h.xTime]
  split_ifs
  · rcases bandpassfilter (PyIn.nd s.time) (PyIn.nd s.xTime) 0 fc with e | y
    · rfl
    · exact determineIndividualWaves_sameSignal h ty y m
  · exact determineIndividualWaves_sameSignal h ty _ m

theorem individualWaves_keeps_signal {s s' : SeriesObj ℝ} {ty : String} {fc m : ℝ} {w : IndWaves ℝ} {tc : List ℝ}
    (h : s.individualWaves ty fc m = .ok (w, tc, s')) :
    SameSignal s s' ∧ s'.wh = ⟨arr1 w.hWave, w.hWave.length, arr1 w.tWave⟩ := by
  unfold SeriesObj.individualWaves at h
  split_ifs at h with hc
  · rw [bind_ok] at h
    obtain ⟨y, _, h⟩ := h
    obtain ⟨_, _, _, _, h5, h1, h2, h3, h4⟩ := small_waves_filtered h
    exact ⟨⟨h1, h2, h3, h4⟩, h5⟩
  · obtain ⟨_, _, _, _, h5, h1, h2, h3, h4⟩ := small_waves_filtered h
    exact ⟨⟨h1, h2, h3, h4⟩, h5⟩

theorem step_sameSignal (A : Argsort ℝ) (s : SeriesObj ℝ) (op : SeriesOp) : SameSignal s (s.step A op) := by
  cases op with
  | determineIndividualWaves ty fc m =>
    show SameSignal s (match s.individualWaves ty fc m with | .ok (_, _, s') => s' | .error _ => s)
    rcases h : s.individualWaves ty fc m with e | ⟨w, tc, s'⟩
    · exact SameSignal.refl s
    · exact (individualWaves_keeps_signal h).1
  | _ => exact ⟨rfl, rfl, rfl, rfl⟩

/-- **C70.** Whatever methods are called, in whatever order and with whatever arguments (including calls that raise), the time
axis, the samples, `nt` and `dt` of a `Series` never change. -/
theorem series_signal_never_changes (A : Argsort ℝ) (hist : List SeriesOp) (s : SeriesObj ℝ) :
    (s.run A hist).time = s.time ∧ (s.run A hist).xTime = s.xTime ∧ (s.run A hist).nt = s.nt ∧ (s.run A hist).dt = s.dt := by
  have : SameSignal s (s.run A hist) := by
    unfold SeriesObj.run
    induction hist generalizing s with
    | nil => exact SameSignal.refl s
    | cons op l ih => exact (step_sameSignal A s op).trans (ih _)
  exact ⟨this.time, this.xTime, this.nt, this.dt⟩

theorem run_sameSignal (A : Argsort ℝ) (hist : List SeriesOp) (s : SeriesObj ℝ) : SameSignal s (s.run A hist) :=
  let ⟨a, b, c, d⟩ := series_signal_never_changes A hist s
  ⟨a, b, c, d⟩

/-- **C70.** Every method of `Series` that analyses the signal returns the same result as on the fresh object, whatever was called
before: crossings, skewness, asymmetry, both spectra, extremes, mean, variance, filtered series, Fourier components. -/
theorem series_results_history_independent (A : Argsort ℝ) (hist : List SeriesOp) (s : SeriesObj ℝ) :
    (∀ ty, (s.run A hist).getCrossing ty = s.getCrossing ty) ∧
    (s.run A hist).getSkewness = s.getSkewness ∧
    (s.run A hist).getAsymmetry = s.getAsymmetry ∧
    (∀ a b c w df u, (s.run A hist).getSpectrum a b c w df u = s.getSpectrum a b c w df u) ∧
    (∀ df, (s.run A hist).getSpectrumRaw df = s.getSpectrumRaw df) ∧
    (s.run A hist).max = s.max ∧ (s.run A hist).min = s.min ∧
    (s.run A hist).mean = s.mean ∧ (s.run A hist).var = s.var ∧
    (∀ a b, (s.run A hist).getBandpassfilter a b = s.getBandpassfilter a b) ∧
    (s.run A hist).getFourierComp = s.getFourierComp := by
  obtain ⟨h1, h2, h3, h4⟩ := run_sameSignal A hist s
  refine ⟨fun ty => ?_, ?_, ?_, fun a b c w df u => ?_, fun df => ?_, ?_, ?_, ?_, ?_, fun a b => ?_, ?_⟩
  · unfold SeriesObj.getCrossing; rw [h1, h2]
  · unfold SeriesObj.getSkewness; rw [h2]
  · unfold SeriesObj.getAsymmetry SeriesObj.sig; rw [h2]
  · unfold SeriesObj.getSpectrum SeriesObj.sig; rw [h2, h4]
  · unfold SeriesObj.getSpectrumRaw; rw [h1, h2]
  · unfold SeriesObj.max; rw [h2]
  · unfold SeriesObj.min; rw [h2]
  · unfold SeriesObj.mean; rw [h2]
  · unfold SeriesObj.var; rw [h2]
  · unfold SeriesObj.getBandpassfilter; rw [h1, h2]
  · unfold SeriesObj.getFourierComp; rw [h1, h2]

/-- **C70.** A re-analysis `_determine_individual_waves(typeCross, fcutoff, minimum_wave)` forgets the history: its result and the
object it leaves are those of the same call on the fresh object. -/
theorem reanalysis_history_independent (A : Argsort ℝ) (hist : List SeriesOp) (s : SeriesObj ℝ) (ty : String) (fc m : ℝ) :
    (s.run A hist).individualWaves ty fc m = s.individualWaves ty fc m :=
  individualWaves_sameSignal (run_sameSignal A hist s) ty fc m

/-- The operation does not store a new set of waves in `s`: it is no analysis, or it is one that raises. -/
def SeriesOp.NoNewWaves (s : SeriesObj ℝ) : SeriesOp → Prop
  | .determineIndividualWaves ty fc m => ∃ e, s.individualWaves ty fc m = .error e
  | _ => True

theorem WF_of_lists (h t : List ℝ) : (⟨arr1 h, h.length, arr1 t⟩ : WH ℝ).WF := by
  constructor <;> simp [Arr.WF, arr1]

theorem run_sameWaves (A : Argsort ℝ) (hist : List SeriesOp) {s0 s : SeriesObj ℝ} (h0 : SameSignal s0 s) (hw : s.wh.WF)
    (h : ∀ op ∈ hist, op.NoNewWaves s0) : SameWaves s.wh (s.run A hist).wh := by
  unfold SeriesObj.run
  induction hist generalizing s with
  | nil => exact SameWaves.refl _
  | cons op l ih =>
    have hs : SameWaves s.wh (s.step A op).wh := by
      have hn := h op (List.mem_cons_self ..)
      cases op with
      | determineIndividualWaves ty fc m =>
        obtain ⟨e, he⟩ := hn
        rw [← individualWaves_sameSignal h0] at he
        show SameWaves s.wh (match s.individualWaves ty fc m with | .ok (_, _, s') => s' | .error _ => s).wh
        rw [he]
        exact SameWaves.refl _
      | waves o => exact WH.step_same A o hw
      | _ => exact SameWaves.refl _
    exact hs.trans (ih (h0.trans (step_sameSignal A s op)) (hs.wf hw) fun o ho => h o (List.mem_cons_of_mem _ ho))

/-- **C70.** The waves an object holds are always those of the last successful analysis, each height with its period: after
any history, an analysis returning the waves `w`, and then any further calls that do not analyse again (or do so and raise), the stored
(height, period) pairs are a rearrangement of those of `w`, and `nwave` is their number. -/
theorem series_holds_last_analysis (A : Argsort ℝ) (hist hist' : List SeriesOp) {s s1 : SeriesObj ℝ} {ty : String} {fc m : ℝ}
    {w : IndWaves ℝ} {tc : List ℝ} (h : (s.run A hist).individualWaves ty fc m = .ok (w, tc, s1))
    (h' : ∀ op ∈ hist', op.NoNewWaves s) :
    let e := s.run A (hist ++ .determineIndividualWaves ty fc m :: hist')
    (e.wh.hwave.data.zip e.wh.twave.data).Perm (w.hWave.zip w.tWave) ∧ e.wh.nwave = w.hWave.length := by
  obtain ⟨k1, k2⟩ := individualWaves_keeps_signal h
  have hs : SameSignal s s1 := (run_sameSignal A hist s).trans k1
  have hrun : s.run A (hist ++ .determineIndividualWaves ty fc m :: hist') = s1.run A hist' := by
    show List.foldl _ s (hist ++ _ :: hist') = _
    rw [List.foldl_append, List.foldl_cons]
    show (((s.run A hist).step A (.determineIndividualWaves ty fc m)).run A hist') = _
    congr 1
    show (match (s.run A hist).individualWaves ty fc m with | .ok (_, _, s') => s' | .error _ => s.run A hist) = s1
    rw [h]
  have hf := run_sameWaves A hist' hs (by rw [k2]; exact WF_of_lists _ _) h'
  rw [k2] at hf
  dsimp only
  rw [hrun]
  exact ⟨hf.pairs, hf.count⟩

/-- Non-vacuity: on a real series the analysis in the middle of a history succeeds. -/
example (A : Argsort ℝ) : ∃ s w tc s1, SeriesObj.init (vec [0, 1, 2, 3]) (vec [1, -1, 1, -1]) = .ok s ∧
    (s.run A [.waves .getHs, .determineIndividualWaves "sideways" 0 0, .waves .sort]).individualWaves "down" 0 0 = .ok (w, tc, s1) := by
  have hu : UniformAxis ([0, 1, 2, 3] : List ℝ) 1 := ⟨one_pos, fun i hi => by
    have : i = 0 ∨ i = 1 ∨ i = 2 := by simp at hi; omega
    rcases this with rfl | rfl | rfl <;> norm_num⟩
  obtain ⟨s, _, _, _, h1, h2, h3, _⟩ := series_never_fails (isVec_vec [0, 1, 2, 3]) (isVec_vec [1, -1, 1, -1]) (by simp) (by simp) hu
  obtain ⟨⟨w, tc, s1⟩, hr⟩ := reanalysis_never_fails (s := s) (xlow := zerosLike s.xTime) h2 h3 (by simp) (by simp)
    (by rw [h3]; simp [zerosLike, arr1]) hu (ty := "down") (Or.inr (by decide +kernel)) 0
  refine ⟨s, w, tc, s1, h1, ?_⟩
  rw [reanalysis_history_independent]
  unfold SeriesObj.individualWaves
  rw [if_neg (by simp)]
  exact hr

/-! ## Concrete cases: the hypotheses of the theorems above are met -/

/-- After any of these calls the series has the signal it was built from, and holds the waves of the last analysis. -/
example (A : Argsort ℝ) : ∃ s, SeriesObj.init (vec [0, 1, 2, 3]) (vec [1, -1, 1, -1]) = .ok s ∧
    (s.run A [.waves .getHs, .determineIndividualWaves "up" 0 0]).time = s.time ∧
    (s.run A [.waves .getHs, .determineIndividualWaves "up" 0 0]).getSkewness = s.getSkewness ∧
    ∃ w tc s1, (s.run A [.waves .getHs]).individualWaves "down" 0 0 = .ok (w, tc, s1) ∧
      (s.run A ([.waves .getHs] ++ .determineIndividualWaves "down" 0 0 :: [.waves .sort])).wh.nwave = w.hWave.length := by
  have hu : UniformAxis ([0, 1, 2, 3] : List ℝ) 1 :=
    uniformAxis_of_steps (by norm_num) fun i hi => by
      have : i = 0 ∨ i = 1 ∨ i = 2 := by simp at hi; omega
      rcases this with rfl | rfl | rfl <;> norm_num
  obtain ⟨s, _, _, _, h1, h2, h3, _⟩ := series_never_fails (isVec_vec [0, 1, 2, 3]) (isVec_vec [1, -1, 1, -1]) (by simp) (by simp) hu
  obtain ⟨⟨w, tc, s1⟩, hr⟩ := reanalysis_never_fails (s := s) (xlow := zerosLike s.xTime) h2 h3 (by simp) (by simp)
    (by rw [h3]; simp [zerosLike, arr1]) hu (ty := "down") (Or.inr (by decide +kernel)) 0
  have h : (s.run A [.waves .getHs]).individualWaves "down" 0 0 = .ok (w, tc, s1) := by
    rw [reanalysis_history_independent]
    unfold SeriesObj.individualWaves
    rw [if_neg (by simp)]
    exact hr
  exact ⟨s, h1, (series_signal_never_changes A _ s).1, (series_results_history_independent A _ s).2.1, w, tc, s1, h,
    (series_holds_last_analysis A [.waves .getHs] [.waves .sort] h (by simp [SeriesOp.NoNewWaves])).2⟩

end Verif
