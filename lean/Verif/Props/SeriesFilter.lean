import Verif.Props.SeriesStats
import Verif.Props.SeriesHist
import Verif.Props.Filter
import Verif.Props.Decomp

/-! # C72, C74: band-pass filtered series, and waves of a series without its low-frequency part -/

set_option linter.unusedSectionVars false

namespace Verif
open Finset

/-- `s` is a series on a uniform axis (what `Series(t, x)` builds, see `series_never_fails`). -/
structure ValidSeries (s : SeriesObj ℝ) (t x : List ℝ) (dt : ℝ) : Prop where
  time : s.time = arr1 t
  xTime : s.xTime = arr1 x
  two : 2 ≤ t.length
  len : t.length = x.length
  axis : UniformAxis t dt

theorem validSeries_of_init {pt px : PyIn ℝ} {t x : List ℝ} {dt : ℝ} {s : SeriesObj ℝ} (ht : pt.IsVec t) (hx : px.IsVec x)
    (h2 : 2 ≤ t.length) (hlen : t.length = x.length) (hu : UniformAxis t dt) (h : SeriesObj.init pt px = .ok s) :
    ValidSeries s t x dt ∧ s.nt = t.length ∧ s.dt = dt := by
  obtain ⟨s', _, _, _, h1, a, b, c, d, _⟩ := series_never_fails ht hx h2 hlen hu
  rw [h] at h1
  simp only [Except.ok.injEq] at h1
  subst h1
  exact ⟨⟨a, b, h2, hlen, hu⟩, c, d⟩

theorem ValidSeries.isArr_time {s : SeriesObj ℝ} {t x : List ℝ} {dt : ℝ} (h : ValidSeries s t x dt) :
    (PyIn.nd s.time).IsArr t := by rw [h.time]; exact isArr_vec t

theorem ValidSeries.isArr_x {s : SeriesObj ℝ} {t x : List ℝ} {dt : ℝ} (h : ValidSeries s t x dt) :
    (PyIn.nd s.xTime).IsArr x := by rw [h.xTime]; exact isArr_vec x

theorem ValidSeries.accepted {s : SeriesObj ℝ} {t x : List ℝ} {dt : ℝ} (h : ValidSeries s t x dt) : AcceptedAxis t :=
  uniform_check_accepts_uniform h.two h.axis

theorem ValidSeries.ne {s : SeriesObj ℝ} {t x : List ℝ} {dt : ℝ} (h : ValidSeries s t x dt) : s.xTime.data ≠ [] := by
  rw [h.xTime]
  intro h0
  have := h.two
  have h1 := h.len
  have h0 : x = [] := h0
  rw [h0] at h1
  simp only [List.length_nil] at h1; omega

theorem mean_of {s : SeriesObj ℝ} {x : List ℝ} (h : s.xTime = arr1 x) (hx : x ≠ []) : s.mean = .ok (mean x) := by
  unfold SeriesObj.mean
  rw [h]
  exact if_neg hx

theorem var_of {s : SeriesObj ℝ} {x : List ℝ} (h : s.xTime = arr1 x) (hx : x ≠ []) : s.var = .ok (variance x) := by
  unfold SeriesObj.var
  rw [h]
  exact if_neg hx

/-- **C72.** `get_bandpassfilter(fmin, fmax)` of a valid series never fails: it is a series on the same time axis, with zero mean, with
at most the variance of the original, and filtering it again with the same limits gives the same object. -/
theorem bandpass_series {s : SeriesObj ℝ} {t x : List ℝ} {dt : ℝ} (h : ValidSeries s t x dt) (fmin fmax : ℝ) :
    ∃ s' y v v', s.getBandpassfilter fmin fmax = .ok s' ∧ ValidSeries s' t y dt ∧ s'.nt = t.length ∧ s'.dt = dt ∧
      s'.mean = .ok 0 ∧ s.var = .ok v ∧ s'.var = .ok v' ∧ v' ≤ v ∧ s'.getBandpassfilter fmin fmax = .ok s' := by
  have hm := h.accepted
  have hx0 : x ≠ [] := by have := h.ne; rwa [h.xTime] at this
  have hn : 0 < x.length := List.length_pos_of_ne_nil hx0
  obtain ⟨y, hy, hyl, hys, -⟩ := bandpass_zero_mean_contraction h.isArr_time h.isArr_x hm h.len fmin fmax
  obtain ⟨y1, hy1, hyy⟩ := bandpass_idempotent h.isArr_time h.isArr_x hm h.len fmin fmax
  have e1 : y1 = y := by rw [hy] at hy1; simpa using hy1.symm
  subst e1
  -- energy: filter `x - mean`
  set c := mean x with hc
  obtain ⟨x', z', g1, g2, g3⟩ := bandpass_linear h.isArr_time hm h.len (ys := List.replicate t.length c) (by simp) fmin fmax 1 (-1)
  rw [bandpass_drops_mean h.isArr_time hm] at g2
  have ex : (PyIn.nd s.xTime) = vec x := by rw [h.xTime]; rfl
  rw [ex] at hy
  rw [hy] at g1
  simp only [Except.ok.injEq] at g1 g2
  subst g1 g2
  have hyl' : y1.length = t.length := by rw [hyl, h.len]
  have e2 : lincomb 1 (-1) y1 (List.replicate t.length 0) = y1 := by
    apply List.ext_getElem
    · simp [lincomb, hyl']
    · intro i _ _; simp [lincomb]
  rw [e2] at g3
  have e3 : lincomb 1 (-1) x (List.replicate t.length c) = x.map fun v => v - c := by
    apply List.ext_getElem
    · simp [lincomb, h.len]
    · intro i _ _; simp [lincomb]; ring
  rw [e3] at g3
  obtain ⟨y2, k1, -, -, k2⟩ := bandpass_zero_mean_contraction h.isArr_time (isArr_vec (x.map fun v => v - c)) hm
    (by simpa using h.len) fmin fmax
  rw [g3] at k1
  simp only [Except.ok.injEq] at k1
  subst k1
  obtain ⟨s', _, _, _, i1, i2, i3, i4, i5, _⟩ := series_never_fails (isVec_vec t) (isVec_vec y1) h.two hyl'.symm h.axis
  have hy0 : y1 ≠ [] := by intro h0; rw [h0] at hyl; simp at hyl; omega
  have et : (PyIn.nd s.time) = vec t := by rw [h.time]; rfl
  have et' : (PyIn.nd s'.time) = vec t := by rw [i2]; rfl
  have ex' : (PyIn.nd s'.xTime) = vec y1 := by rw [i3]; rfl
  have hmean0 : mean y1 = 0 := by unfold mean; rw [hys]; simp
  refine ⟨s', y1, variance x, variance y1, ?_, ⟨i2, i3, h.two, hyl'.symm, h.axis⟩, i4, i5, ?_, ?_, ?_, ?_, ?_⟩
  · unfold SeriesObj.getBandpassfilter
    rw [ex, hy]
    show SeriesObj.init (PyIn.nd s.time) (vec y1) = _
    rw [et]; exact i1
  · rw [mean_of i3 hy0, hmean0]
  · exact var_of h.xTime hx0
  · exact var_of i3 hy0
  · unfold variance
    rw [hmean0]
    unfold mean
    simp only [List.length_map, sub_zero]
    rw [hyl]
    apply div_le_div_of_nonneg_right _ (by positivity)
    rw [List.map_map] at k2
    exact k2
  · unfold SeriesObj.getBandpassfilter
    rw [ex', et']
    rw [et] at hyy
    rw [hyy]
    exact i1

/-! ## C74 -/

/-- The signal without its part below `fcutoff` (`x - xlow`). -/
def highPart (x xlow : List ℝ) : List ℝ := List.zipWith (· - ·) x xlow

/-- **C74.** `_determine_individual_waves(typeCross, fcutoff, minimum_wave)` with `fcutoff ≠ 0` never fails on a valid series.  The crossings
it reports are those of the signal minus its part below the cut-off; the waves between them are measured in the full
signal, and exactly those of height at least `minimum_wave` are kept. -/
theorem fcutoff_waves {s : SeriesObj ℝ} {t x : List ℝ} {dt : ℝ} (h : ValidSeries s t x dt) {fc : ℝ} (hfc : fc ≠ 0) (m : ℝ)
    {ty : String} (hty : ty.toLower = "up" ∨ ty.toLower = "down") :
    ∃ xlow w tc s' n recs, bandpassfilter (vec t) (vec x) 0 fc = .ok xlow ∧ xlow.length = x.length ∧
      s.individualWaves ty fc m = .ok (w, tc, s') ∧
      determineZeroCrossing (vec t) (vec (highPart x xlow)) ty = .ok (n, tc) ∧
      WavesBetween t x tc recs ∧ Columns w (recs.filter fun r => decide (m ≤ r.hWave)) ∧
      s'.wh = ⟨arr1 w.hWave, w.hWave.length, arr1 w.tWave⟩ := by
  obtain ⟨xlow, hb, hl, -⟩ := bandpass_zero_mean_contraction (isArr_vec t) (isArr_vec x) h.accepted h.len 0 fc
  obtain ⟨⟨w, tc, s'⟩, hr⟩ := reanalysis_never_fails h.time h.xTime h.two h.len hl h.axis hty m
  have ht0 : t ≠ [] := by have := h.two; rintro rfl; simp at this
  obtain ⟨recs, a1, a2, a3, -⟩ := analysis_spec h.time h.xTime ht0 h.len (uniform_pairwise h.axis) hr
  obtain ⟨_, ⟨n, hz⟩, -⟩ := small_waves_filtered hr
  refine ⟨xlow, w, tc, s', n, recs, hb, hl, ?_, ?_, a1, a2, a3⟩
  · unfold SeriesObj.individualWaves
    rw [if_pos hfc, h.time, h.xTime]
    show (bandpassfilter (vec t) (vec x) 0 fc >>= _) = _
    rw [hb]
    exact hr
  · rw [h.time, h.xTime] at hz
    have : (PyIn.nd ⟨(arr1 x).shape, List.zipWith (· - ·) (arr1 x).data xlow⟩ : PyIn ℝ) = vec (highPart x xlow) := by
      simp [arr1, vec, highPart, hl]
    rw [this] at hz
    exact hz

/-- A cut-off at or above the Nyquist frequency leaves no waves at all: the remaining signal is constant. -/
theorem fcutoff_above_nyquist {s : SeriesObj ℝ} {t x : List ℝ} {dt : ℝ} (h : ValidSeries s t x dt) {fc : ℝ} (hfc : 1 / (2 * dt) ≤ fc)
    (m : ℝ) : ∃ w s', s.individualWaves "down" fc m = .ok (w, [], s') ∧ w.hWave = [] ∧ s'.wh.nwave = 0 := by
  have hdt := h.axis.1
  have hfc0 : fc ≠ 0 := by have : 0 < 1 / (2 * dt) := by positivity
                           linarith
  obtain ⟨xlow, w, tc, s', n, recs, b1, b2, b3, b4, ⟨b5, -⟩, b6, b7⟩ := fcutoff_waves h hfc0 m (ty := "down") (Or.inr (by decide +kernel))
  have hstep := uniform_first_step h.two h.axis
  rw [bandpass_full_band (isArr_vec t) (isArr_vec x) h.accepted h.len le_rfl (by rw [hstep]; exact hfc)] at b1
  simp only [Except.ok.injEq] at b1
  have hhp : highPart x xlow = List.replicate x.length (mean x) := by
    rw [← b1]
    apply List.ext_getElem
    · simp [highPart]
    · intro i _ _; simp [highPart]
  rw [hhp, determine_down_eq (isVec_vec t) (isVec_vec _) h.two (by simpa using h.len)] at b4
  have hnil : crossIdx downCond (List.replicate x.length (mean x)) = [] := by
    rw [List.eq_nil_iff_forall_not_mem]
    intro i hi
    rw [mem_crossIdx, List.length_replicate] at hi
    obtain ⟨h1, h2⟩ := hi
    rw [List.getD_replicate _ (by omega), List.getD_replicate _ (by omega)] at h2
    simp only [downCond, Bool.and_eq_true, decide_eq_true_eq] at h2
    linarith [h2.1, h2.2]
  rw [hnil] at b4
  simp only [List.map_nil, Except.ok.injEq, Prod.mk.injEq] at b4
  obtain ⟨-, rfl⟩ := b4
  have hr0 : recs = [] := List.length_eq_zero_iff.1 (by simpa using b5)
  subst hr0
  refine ⟨w, s', b3, b6.1, ?_⟩
  rw [b7]; simp only; rw [b6.1]; rfl

/-- A primitive sixth root of unity satisfies `w^2 = w - 1`. -/
theorem twiddle_six : twiddle 6 (-1) ^ 2 = twiddle 6 (-1) - 1 := by
  have h3 : twiddle 6 (-1) ^ 3 = -1 := by
    rw [twiddle_pow]
    have h6 : twiddle 6 (-3) * twiddle 6 3 = 1 := twiddle_neg_mul 6 3
    have hh : twiddle 6 3 = -1 := by have := twiddle_half (n := 3) (by norm_num); simpa using this
    rw [hh] at h6
    have e : ((3 : ℕ) : ℤ) * (-1) = -3 := by norm_num
    rw [e]; linear_combination -h6
  have hne : twiddle 6 (-1) + 1 ≠ 0 := by
    intro h0
    have h1 : twiddle 6 (-2) = 1 := by
      have e : (-2 : ℤ) = ((2 : ℕ) : ℤ) * (-1) := by norm_num
      rw [e, ← twiddle_pow]
      linear_combination (twiddle 6 (-1) - 1) * h0
    rw [twiddle_eq_one_iff (by norm_num)] at h1
    norm_num at h1
  have hp : (twiddle 6 (-1) + 1) * (twiddle 6 (-1) ^ 2 - twiddle 6 (-1) + 1) = 0 := by linear_combination h3
  have := (mul_eq_zero.1 hp).resolve_left hne
  linear_combination this

theorem axis6u : UniformAxis ([0, 1, 2, 3, 4, 5] : List ℝ) 1 := ⟨one_pos, fun i hi => by
  have : i = 0 ∨ i = 1 ∨ i = 2 ∨ i = 3 ∨ i = 4 := by simp at hi; omega
  rcases this with rfl | rfl | rfl | rfl | rfl <;> norm_num⟩

theorem low_part_example :
    bandpassfilter (vec [0, 1, 2, 3, 4, 5]) (vec [-3, -3, 3, 3, 3, -3]) 0 (2/5) = .ok [-4, -2, 2, 4, 2, -2] := by
  have hacc : AcceptedAxis ([0, 1, 2, 3, 4, 5] : List ℝ) := uniform_check_accepts_uniform (by simp) axis6u
  rw [bandpassfilter_eq (isArr_vec _) (isArr_vec [-3, -3, 3, 3, 3, -3]) hacc rfl]
  congr 1
  have hk : ∀ k, keptBins [0, 1, 2, 3, 4, 5] 0 (2/5) k ↔ k = 1 := by
    intro k
    constructor
    · rintro ⟨h1, -, -, h | ⟨h3, h4⟩⟩
      · norm_num [freqAxis, dfOf, List.range_succ] at h
      · have hk1 : k = 1 ∨ k = 2 := by simp [freqAxis] at h3; omega
        rcases hk1 with rfl | rfl
        · rfl
        · norm_num [freqAxis, dfOf, List.range_succ] at h4
    · rintro rfl
      refine ⟨le_rfl, ?_, ?_, .inr ⟨?_, ?_⟩⟩ <;> norm_num [freqAxis, dfOf, List.range_succ]
  have hw := twiddle_six
  have hpow : ∀ j k : ℕ, twiddle 6 (-((j : ℤ) * k)) = twiddle 6 (-1) ^ (j * k) := by
    intro j k; rw [twiddle_pow]; congr 1; push_cast; ring
  set w := twiddle 6 (-1) with hwdef
  have h3 : w ^ 3 = -1 := by linear_combination (w + 1) * hw
  apply eq_of_coef_half
  · simp [maskFilt_length]
  · intro k hk'
    have hk4 : k = 0 ∨ k = 1 ∨ k = 2 ∨ k = 3 := by
      simp [maskFilt_length] at hk'; omega
    rw [coef_maskFilt _ _ (by rcases hk4 with rfl | rfl | rfl | rfl <;> simp), hk]
    unfold coef fwd
    simp only [List.length_cons, List.length_nil, Nat.zero_add, Nat.reduceAdd, hpow, sum_range_succ, range_zero, sum_empty]
    rcases hk4 with rfl | rfl | rfl | rfl
    · norm_num
    · norm_num
      linear_combination (1 - w ^ 3) * hw
    · norm_num
      linear_combination (-4 - 2 * w ^ 2 + 2 * w ^ 4) * (w ^ 3 - 1) * h3
    · norm_num
      linear_combination (2 * w ^ 12 - 4 * w ^ 9 - 2 * w ^ 3 + 4) * h3

/-- **C74: troughs need not be negative, heights need not be positive with `fcutoff`.** The signal -3, -3, 3, 3, 3, -3 (1 Hz) with
`fcutoff = 0.4`: the second wave has crest 3, trough 3 and height 0, contrary to the note "values of aTrough are always smaller than
zero". -/
theorem fcutoff_positive_trough : ∃ s w tc s', SeriesObj.init (vec [0, 1, 2, 3, 4, 5]) (vec [-3, -3, 3, 3, 3, -3]) = .ok s ∧
    s.individualWaves "down" (2/5) 0 = .ok (w, tc, s') ∧ w.aTrough[1]? = some 3 ∧ w.hWave[1]? = some 0 := by
  obtain ⟨s, _, _, _, hs, -⟩ := series_never_fails (isVec_vec ([0, 1, 2, 3, 4, 5] : List ℝ)) (isVec_vec [-3, -3, 3, 3, 3, -3])
    (by simp) (by simp) axis6u
  obtain ⟨hv, -⟩ := validSeries_of_init (isVec_vec ([0, 1, 2, 3, 4, 5] : List ℝ)) (isVec_vec [-3, -3, 3, 3, 3, -3]) (by simp) (by simp)
    axis6u hs
  obtain ⟨xlow, w, tc, s', n, recs, b1, b2, b3, b4, ⟨b5, b6⟩, b7, b8⟩ :=
    fcutoff_waves hv (fc := 2/5) (by norm_num) 0 (ty := "down") (Or.inr (by decide +kernel))
  rw [low_part_example] at b1
  simp only [Except.ok.injEq] at b1
  subst b1
  have hhp : highPart [-3, -3, 3, 3, 3, -3] [-4, -2, 2, 4, 2, -2] = [1, -1, 1, -1, 1, -1] := by
    norm_num [highPart]
  rw [hhp, determine_down_eq (isVec_vec _) (isVec_vec _) (by simp) (by simp)] at b4
  have hidx : crossIdx downCond ([1, -1, 1, -1, 1, -1] : List ℝ) = [0, 2, 4] := by
    norm_num [crossIdx, downCond, List.range_succ]
  rw [hidx] at b4
  simp only [Except.ok.injEq, Prod.mk.injEq] at b4
  obtain ⟨-, b4⟩ := b4
  have htc : tc = [1/2, 5/2, 9/2] := by
    rw [← b4]; norm_num [crossTime]
  subst htc
  have hl : recs.length = 2 := by simpa using b5
  obtain ⟨r0, r1, rfl⟩ : ∃ r0 r1, recs = [r0, r1] := by
    rcases recs with _ | ⟨a, _ | ⟨b, _ | ⟨c, l⟩⟩⟩ <;> simp_all
  have hsamp : ∀ {i}, InWave ([0, 1, 2, 3, 4, 5] : List ℝ) (5/2) (9/2) i → ([-3, -3, 3, 3, 3, -3] : List ℝ).getD i 0 = 3 := by
    rintro i ⟨h1, h2, h3⟩
    have : i = 0 ∨ i = 1 ∨ i = 2 ∨ i = 3 ∨ i = 4 ∨ i = 5 := by simp at h1; omega
    rcases this with rfl | rfl | rfl | rfl | rfl | rfl <;>
      first | rfl | (exfalso; revert h2; norm_num; done) | (exfalso; revert h3; norm_num; done)
  have hlow : ∀ {r : WaveRec ℝ} {a b : ℝ}, IsWave [0, 1, 2, 3, 4, 5] [-3, -3, 3, 3, 3, -3] a b r → 0 ≤ r.hWave := by
    intro r a b hw
    obtain ⟨i, wi, ei, -, mi, -⟩ := hw.crest
    obtain ⟨j, wj, ej, -, mj, -⟩ := hw.trough
    have := mi j wj
    rw [hw.height]; linarith
  obtain ⟨a0, b0, -, -, w0⟩ := b6 0 r0 rfl
  obtain ⟨a1, b1, e1, e2, w1⟩ := b6 1 r1 rfl
  simp only [List.getElem?_cons_succ, List.getElem?_cons_zero, Option.some.injEq] at e1 e2
  subst e1 e2
  have ht : r1.aTrough = 3 := by obtain ⟨i, wi, ei, -⟩ := w1.trough; rw [← ei]; exact hsamp wi
  have hc : r1.aCrest = 3 := by obtain ⟨i, wi, ei, -⟩ := w1.crest; rw [← ei]; exact hsamp wi
  have hh : r1.hWave = 0 := by rw [w1.height, ht, hc]; norm_num
  have hf : [r0, r1].filter (fun r => decide ((0 : ℝ) ≤ r.hWave)) = [r0, r1] := by
    simp [hlow w0, hlow w1]
  rw [hf] at b7
  refine ⟨s, w, _, s', hs, b3, ?_, ?_⟩
  · rw [b7.2.2.2.1]; simp [ht]
  · rw [b7.1]; simp [hh]

/-- Non-vacuity of C72 and C74: a valid series. -/
example : ∃ s, ValidSeries s [0, 1, 2, 3, 4, 5] [-3, -3, 3, 3, 3, -3] 1 := by
  obtain ⟨s, _, _, _, hs, -⟩ := series_never_fails (isVec_vec ([0, 1, 2, 3, 4, 5] : List ℝ)) (isVec_vec [-3, -3, 3, 3, 3, -3])
    (by simp) (by simp) axis6u
  exact ⟨s, (validSeries_of_init (isVec_vec _) (isVec_vec _) (by simp) (by simp) axis6u hs).1⟩

/-! ## Concrete cases: the hypotheses of the theorems above are met -/

example : ∃ s, SeriesObj.init (vec [0, 1, 2, 3, 4, 5]) (vec [-3, -3, 3, 3, 3, -3]) = .ok s ∧
    (∃ s', s.getBandpassfilter (1 / 6) (1 / 3) = .ok s' ∧ s'.mean = .ok 0) ∧ (∃ r, s.individualWaves "up" (1 / 6) 0 = .ok r) ∧
    (∃ w s', s.individualWaves "down" (1 / 2) 0 = .ok (w, [], s')) := by
  obtain ⟨s, _, _, _, hs, -⟩ := series_never_fails (isVec_vec ([0, 1, 2, 3, 4, 5] : List ℝ)) (isVec_vec [-3, -3, 3, 3, 3, -3])
    (by simp) (by simp) axis6u
  have h := (validSeries_of_init (isVec_vec _) (isVec_vec _) (by simp) (by simp) axis6u hs).1
  obtain ⟨s', -, -, -, e1, -, -, -, e2, -⟩ := bandpass_series h (1 / 6) (1 / 3)
  obtain ⟨-, w, tc, s'', -, -, -, -, e3, -⟩ := fcutoff_waves h (fc := 1 / 6) (by norm_num) 0 (ty := "up") (.inl (by decide +kernel))
  obtain ⟨w', s3, e4, -⟩ := fcutoff_above_nyquist h (fc := 1 / 2) (by norm_num) 0
  exact ⟨s, hs, ⟨s', e1, e2⟩, ⟨_, e3⟩, w', s3, e4⟩

end Verif
