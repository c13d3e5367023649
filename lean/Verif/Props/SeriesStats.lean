import Verif.Model.SeriesSig
import Verif.Props.SeriesInit
import Mathlib.Data.List.GetD

/-! # C71, C73: elementary statistics of a series, bounds on its waves, and the stored crossings -/

set_option linter.unusedSectionVars false

namespace Verif
variable {K : Type} [Field K] [LinearOrder K] [IsStrictOrderedRing K]

theorem sum_le_card {l : List K} {c : K} (h : ∀ v ∈ l, v ≤ c) : l.sum ≤ l.length * c := by
  induction l with
  | nil => simp
  | cons a l ih =>
    have h1 := h a (List.mem_cons_self ..)
    have h2 := ih fun v hv => h v (List.mem_cons_of_mem _ hv)
    rw [List.sum_cons, List.length_cons]
    push_cast
    linarith

theorem sum_nonneg_list {l : List K} (h : ∀ v ∈ l, 0 ≤ v) : 0 ≤ l.sum := by
  induction l with
  | nil => simp
  | cons a l ih =>
    have h1 := h a (List.mem_cons_self ..)
    have h2 := ih fun v hv => h v (List.mem_cons_of_mem _ hv)
    rw [List.sum_cons]; linarith

theorem sum_eq_zero_list {l : List K} (h : ∀ v ∈ l, 0 ≤ v) (h0 : l.sum = 0) : ∀ v ∈ l, v = 0 := by
  induction l with
  | nil => simp
  | cons a l ih =>
    have h1 := h a (List.mem_cons_self ..)
    have h2 := sum_nonneg_list fun v hv => h v (List.mem_cons_of_mem _ hv)
    rw [List.sum_cons] at h0
    intro v hv
    rcases List.mem_cons.1 hv with rfl | hv
    · linarith
    · exact ih (fun v hv => h v (List.mem_cons_of_mem _ hv)) (by linarith) v hv

/-- The sum of squared deviations, by the identity `y^2 = H L + y (H - L) - (H - y) (y + L)`. -/
theorem sum_dev (l : List K) (mu H L : K) :
    (l.map fun v => (v - mu) ^ 2).sum = l.length * (H * L) + (l.sum - l.length * mu) * (H - L) -
      (l.map fun v => (H - (v - mu)) * ((v - mu) + L)).sum := by
  induction l with
  | nil => simp
  | cons a l ih =>
    simp only [List.map_cons, List.sum_cons, List.length_cons, ih]
    push_cast
    ring

/-- **C71.** The statistics of a series with at least one sample: `min` and `max` are samples bounding all others, the mean lies
between them, the variance is between 0 and `(max - mean) (mean - min)`, hence at most a quarter of the squared range, and it
is 0 exactly for a constant signal. -/
theorem series_statistics {s : SeriesObj K} (hne : s.xTime.data ≠ []) :
    ∃ lo hi mu v, s.min = .ok lo ∧ s.max = .ok hi ∧ s.mean = .ok mu ∧ s.var = .ok v ∧
      lo ∈ s.xTime.data ∧ hi ∈ s.xTime.data ∧ (∀ a ∈ s.xTime.data, lo ≤ a ∧ a ≤ hi) ∧
      lo ≤ mu ∧ mu ≤ hi ∧ 0 ≤ v ∧ v ≤ (hi - mu) * (mu - lo) ∧ 4 * v ≤ (hi - lo) ^ 2 ∧
      (v = 0 ↔ ∀ a ∈ s.xTime.data, a = mu) := by
  set l := s.xTime.data with hl
  obtain ⟨lo, h1⟩ := pyMin_exists hne
  obtain ⟨hi, h2⟩ := pyMax_exists hne
  obtain ⟨m1, b1⟩ := pyMin_spec h1
  obtain ⟨m2, b2⟩ := pyMax_spec h2
  have hn : (0 : K) < l.length := by exact_mod_cast List.length_pos_of_ne_nil hne
  set mu := Verif.mean l with hmu
  have hsum : l.sum = l.length * mu := by rw [hmu]; unfold Verif.mean; field_simp
  have hlo : lo ≤ mu := by
    have := sum_le_card (l := l.map Neg.neg) (c := -lo) (by
      intro v hv; obtain ⟨a, ha, rfl⟩ := List.mem_map.1 hv; exact neg_le_neg (b1 a ha))
    rw [← List.sum_neg, List.length_map, hsum] at this
    by_contra hc
    nlinarith [mul_lt_mul_of_pos_left (not_le.1 hc) hn]
  have hhi : mu ≤ hi := by
    have := sum_le_card b2
    rw [hsum] at this
    exact le_of_mul_le_mul_left this hn
  have hv : variance l = (l.map fun v => (v - mu) ^ 2).sum / l.length := by
    unfold variance Verif.mean; rw [List.length_map]; rfl
  have hdev := sum_dev l mu (hi - mu) (mu - lo)
  rw [hsum, sub_self, zero_mul, add_zero] at hdev
  have hnn : 0 ≤ (l.map fun v => ((hi - mu) - (v - mu)) * ((v - mu) + (mu - lo))).sum := by
    apply sum_nonneg_list
    intro w hw
    obtain ⟨a, ha, rfl⟩ := List.mem_map.1 hw
    have := b1 a ha
    have := b2 a ha
    exact mul_nonneg (by linarith) (by linarith)
  have hsq : ∀ w ∈ l.map fun v => (v - mu) ^ 2, 0 ≤ w := by
    intro w hw; obtain ⟨a, _, rfl⟩ := List.mem_map.1 hw; exact sq_nonneg _
  have hv0 : 0 ≤ variance l := by rw [hv]; exact div_nonneg (sum_nonneg_list hsq) hn.le
  have hvb : variance l ≤ (hi - mu) * (mu - lo) := by
    rw [hv, div_le_iff₀ hn]; nlinarith
  refine ⟨lo, hi, mu, variance l, h1, h2, ?_, ?_, m1, m2, fun a ha => ⟨b1 a ha, b2 a ha⟩, hlo, hhi, hv0, hvb, ?_, ?_⟩
  · unfold SeriesObj.mean; rw [if_neg hne]
  · unfold SeriesObj.var; rw [if_neg hne]
  · nlinarith [sq_nonneg ((hi - mu) - (mu - lo))]
  · constructor
    · intro h a ha
      rw [hv, div_eq_zero_iff] at h
      have h := h.resolve_right hn.ne'
      have := sum_eq_zero_list hsq h _ (List.mem_map.2 ⟨a, ha, rfl⟩)
      have := pow_eq_zero_iff (two_ne_zero) |>.1 this
      linarith
    · intro h
      rw [hv, show (l.map fun v => (v - mu) ^ 2) = l.map fun _ => 0 from
        List.map_congr_left fun a ha => by rw [h a ha]; ring]
      simp

/-- An empty series has none of the statistics. -/
theorem series_statistics_empty {s : SeriesObj K} (h : s.xTime.data = []) :
    (∃ m, s.min = .error (.valueError m)) ∧ (∃ m, s.max = .error (.valueError m)) ∧ s.mean = .error .nonFinite ∧
      s.var = .error .nonFinite := by
  unfold SeriesObj.min SeriesObj.max SeriesObj.mean SeriesObj.var
  rw [h]
  exact ⟨⟨_, rfl⟩, ⟨_, rfl⟩, rfl, rfl⟩

/-- The waves of an analysis with the times of their first and last crossing: row `k` of `recs` is the wave between the
crossings `k` and `k + 1`. -/
def WavesBetween (t x tc : List K) (recs : List (WaveRec K)) : Prop :=
  recs.length = tc.length - 1 ∧
    ∀ k r, recs[k]? = some r → ∃ a b, tc[k]? = some a ∧ tc[k + 1]? = some b ∧ IsWave t x a b r

/-- The analysis of a valid series, fully specified, including the stored `tCross`. -/
theorem analysis_spec {s s' : SeriesObj K} {t x : List K} (hst : s.time = arr1 t) (hsx : s.xTime = arr1 x)
    (ht0 : t ≠ []) (hlen : t.length = x.length) (hs : t.Pairwise (· < ·)) {ty : String} {xlow tc : List K} {m : K}
    {w : IndWaves K} (h : determineIndividualWaves s ty xlow m = .ok (w, tc, s')) :
    ∃ recs, WavesBetween t x tc recs ∧ Columns w (recs.filter fun r => decide (m ≤ r.hWave)) ∧
      s'.wh = ⟨arr1 w.hWave, w.hWave.length, arr1 w.tWave⟩ ∧
      s'.tCross = npDelete tc (removeIndex (recs.map (·.hWave)) m) := by
  have h0 := h
  obtain ⟨recs, _, hp, hcol, hwh, _⟩ := small_waves_filtered h
  rw [hst, hsx] at hp
  obtain ⟨recs', hc', hl, hk⟩ := individual_waves_spec (isVec_vec tc) (isVec_vec t) (isVec_vec x) hlen ht0 hs
    (show determineParamsIndividualWaves (vec tc) (vec t) (vec x) = _ from hp)
  have hrec : recs' = recs := by
    obtain ⟨a1, a2, a3, a4, a5, a6⟩ := hc'
    simp only [IndWaves.ofRecs] at a1 a2 a3 a4 a5 a6
    have hll : recs'.length = recs.length := by simpa using (congrArg List.length a1).symm
    apply List.ext_getElem hll
    intro i i1 i2
    have g : ∀ {f : WaveRec K → K}, recs.map f = recs'.map f → f recs'[i] = f recs[i] := by
      intro f hf
      have := congrArg (·[i]?) hf
      simp only [List.getElem?_map, List.getElem?_eq_getElem i1, List.getElem?_eq_getElem i2, Option.map_some,
        Option.some.injEq] at this
      exact this.symm
    have b1 := g a1
    have b2 := g a2
    have b3 := g a3
    have b4 := g a4
    have b5 := g a5
    have b6 := g a6
    cases hA : recs'[i]; cases hB : recs[i]
    rw [hA, hB] at b1 b2 b3 b4 b5 b6
    simp only at b1 b2 b3 b4 b5 b6
    subst b1 b2 b3 b4 b5 b6
    rfl
  subst hrec
  refine ⟨recs', ⟨hl, hk⟩, hcol, hwh, ?_⟩
  unfold determineIndividualWaves at h0
  rw [bind_ok] at h0
  obtain ⟨⟨n, tc'⟩, h1, h0⟩ := h0
  simp only at h0
  rw [bind_ok] at h0
  obtain ⟨w0, h2, h0⟩ := h0
  rw [WH_init_vec] at h0
  simp only [bind, Except.bind, pure, Except.pure, Except.ok.injEq, Prod.mk.injEq] at h0
  obtain ⟨h3, h4, h5⟩ := h0
  subst h4
  have : w0 = IndWaves.ofRecs recs' := by
    rw [hst, hsx] at h2
    have : Except.ok w0 = Except.ok (ε := PyErr) (IndWaves.ofRecs recs') := h2.symm.trans hp
    simpa using this
  rw [← h5, this]
  rfl

/-- **C71 (waves).** No wave leaves the range of the signal: for every analysis of a valid series (any crossing type, low-frequency
cut-off and minimum height) crests are at most the maximum, troughs at least the minimum, and heights between 0 and
maximum minus minimum; in particular `get_Hmax` of the object is at most `max - min`. -/
theorem waves_within_signal_range {s s' : SeriesObj K} {t x : List K} (hst : s.time = arr1 t) (hsx : s.xTime = arr1 x)
    (ht0 : t ≠ []) (hlen : t.length = x.length) (hs : t.Pairwise (· < ·)) {ty : String} {xlow tc : List K} {m lo hi : K}
    {w : IndWaves K} (h : determineIndividualWaves s ty xlow m = .ok (w, tc, s')) (hlo : s.min = .ok lo) (hhi : s.max = .ok hi) :
    (∀ v ∈ w.aCrest, lo ≤ v ∧ v ≤ hi) ∧ (∀ v ∈ w.aTrough, lo ≤ v ∧ v ≤ hi) ∧ (∀ v ∈ w.hWave, 0 ≤ v ∧ v ≤ hi - lo) ∧
    (∀ H, s'.wh.getHmax.1 = .ok H → H ≤ hi - lo) := by
  obtain ⟨recs, ⟨hl, hk⟩, ⟨c1, c2, c3, c4, c5, c6⟩, hwh, _⟩ := analysis_spec hst hsx ht0 hlen hs h
  have hx : s.xTime.data = x := by rw [hsx]; rfl
  unfold SeriesObj.min at hlo
  unfold SeriesObj.max at hhi
  rw [hx] at hlo hhi
  have blo := (pyMin_spec hlo).2
  have bhi := (pyMax_spec hhi).2
  have key : ∀ r ∈ recs, (lo ≤ r.aCrest ∧ r.aCrest ≤ hi) ∧ (lo ≤ r.aTrough ∧ r.aTrough ≤ hi) ∧ (0 ≤ r.hWave ∧ r.hWave ≤ hi - lo) := by
    intro r hr
    obtain ⟨k, hr⟩ := List.mem_iff_getElem?.1 hr
    obtain ⟨a, b, _, _, hw⟩ := hk k r hr
    obtain ⟨i, wi, ei, _, mi, _⟩ := hw.crest
    obtain ⟨j, wj, ej, _, mj, _⟩ := hw.trough
    have hm : ∀ i, InWave t a b i → x.getD i 0 ∈ x := by
      intro i hi
      have : i < x.length := by rw [← hlen]; exact hi.1
      rw [List.getD_eq_getElem _ _ this]; exact List.getElem_mem _
    have e1 := blo _ (hm i wi)
    have e2 := bhi _ (hm i wi)
    have e3 := blo _ (hm j wj)
    have e4 := bhi _ (hm j wj)
    have e5 := mi j wj
    rw [ei] at e1 e2
    rw [ej] at e3 e4 e5
    rw [hw.height]
    exact ⟨⟨e1, e2⟩, ⟨e3, e4⟩, by linarith, by linarith⟩
  have kf : ∀ {f : WaveRec K → K} {v}, v ∈ (recs.filter fun r => decide (m ≤ r.hWave)).map f → ∃ r ∈ recs, f r = v := by
    intro f v hv
    obtain ⟨r, hr, rfl⟩ := List.mem_map.1 hv
    exact ⟨r, (List.mem_filter.1 hr).1, rfl⟩
  have hH : ∀ v ∈ w.hWave, 0 ≤ v ∧ v ≤ hi - lo := by
    intro v hv; rw [c1] at hv; obtain ⟨r, hr, rfl⟩ := kf hv; exact (key r hr).2.2
  refine ⟨?_, ?_, hH, ?_⟩
  · intro v hv; rw [c3] at hv; obtain ⟨r, hr, rfl⟩ := kf hv; exact (key r hr).1
  · intro v hv; rw [c4] at hv; obtain ⟨r, hr, rfl⟩ := kf hv; exact (key r hr).2.1
  · intro H hHm
    rw [hwh] at hHm
    unfold WH.getHmax at hHm
    simp only [arr1] at hHm
    cases hw' : w.hWave with
    | nil => rw [hw'] at hHm; simp at hHm
    | cons a l =>
      rw [hw'] at hHm
      have : pyMax (a :: l) = .ok H := by simpa [pyMax] using hHm
      exact (hH H (by rw [hw']; exact (pyMax_spec this).1)).2

/-! ## C73 -/

theorem npDelete_crossings (tc : List K) (recs : List (WaveRec K)) (m : K) (hl : recs.length + 1 = tc.length) :
    npDelete tc (removeIndex (recs.map (·.hWave)) m) =
      (((tc.take recs.length).zip recs).filter fun p => decide (m ≤ p.2.hWave)).map Prod.fst ++ [tc.getD recs.length 0] := by
  have hidx : ∀ i < tc.length, (removeIndex (recs.map (·.hWave)) m).contains i =
      decide (∃ r, recs[i]? = some r ∧ r.hWave < m) := by
    intro i _
    rw [Bool.eq_iff_iff]
    simp only [List.contains_iff_mem, removeIndex, mem_whereIdx, List.getElem?_map, decide_eq_true_eq]
    constructor
    · rintro ⟨v, h1, h2⟩
      cases hr : recs[i]? with
      | none => rw [hr] at h1; simp at h1
      | some r => rw [hr] at h1; simp at h1; exact ⟨r, rfl, by rw [h1]; exact h2⟩
    · rintro ⟨r, h1, h2⟩
      exact ⟨r.hWave, by simp [h1], h2⟩
  rw [npDelete_filter _ _ _ hidx, ← hl, List.range_succ, List.filter_append, List.map_append]
  congr 1
  · have hz : (tc.take recs.length).zip recs = (List.range recs.length).filterMap fun i => (recs[i]?).map fun r => (tc.getD i 0, r) := by
      have hzl : ((tc.take recs.length).zip recs).length = recs.length := by simp; omega
      rw [eq_filterMap_range ((tc.take recs.length).zip recs), hzl]
      apply List.filterMap_congr
      intro i hi
      simp only [List.mem_range] at hi
      rw [List.getElem?_eq_getElem (by omega), List.getElem?_eq_getElem hi, List.getElem_zip]
      simp only [List.getElem_take, Option.map_some]
      rw [List.getD_eq_getElem _ _ (by omega)]
    rw [hz, List.filter_filterMap, List.map_filterMap, ← List.filterMap_eq_filter, List.map_filterMap]
    apply List.filterMap_congr
    intro i hi
    simp only [List.mem_range] at hi
    have hs : recs[i]? = some recs[i] := List.getElem?_eq_getElem hi
    by_cases hc : recs[i].hWave < m
    · have : ∃ r, recs[i]? = some r ∧ r.hWave < m := ⟨_, hs, hc⟩
      simp [Option.guard, hi, not_le.2 hc, Option.filter]
    · simp [Option.guard, hi, not_lt.1 hc, Option.filter]
  · simp

/-- **C73.** The crossings stored by an analysis are the first crossing of every kept wave, in order, followed by the last crossing of
the record; so there are `nwave + 1` of them (none if the signal has no crossing). -/
theorem stored_crossings {s s' : SeriesObj K} {t x : List K} (hst : s.time = arr1 t) (hsx : s.xTime = arr1 x)
    (ht0 : t ≠ []) (hlen : t.length = x.length) (hs : t.Pairwise (· < ·)) {ty : String} {xlow tc : List K} {m : K}
    {w : IndWaves K} (h : determineIndividualWaves s ty xlow m = .ok (w, tc, s')) :
    (tc = [] → s'.tCross = [] ∧ s'.wh.nwave = 0) ∧
    (tc ≠ [] → s'.tCross.length = s'.wh.nwave + 1 ∧ ∃ recs, WavesBetween t x tc recs ∧
      Columns w (recs.filter fun r => decide (m ≤ r.hWave)) ∧
      s'.tCross = (((tc.take recs.length).zip recs).filter fun p => decide (m ≤ p.2.hWave)).map Prod.fst ++
        [tc.getD (tc.length - 1) 0]) := by
  obtain ⟨recs, ⟨hl, hk⟩, hc, hwh, ht⟩ := analysis_spec hst hsx ht0 hlen hs h
  constructor
  · rintro rfl
    have : recs = [] := List.length_eq_zero_iff.1 (by simpa using hl)
    subst this
    refine ⟨by rw [ht]; rfl, ?_⟩
    rw [hwh]; simp only; rw [hc.1]; rfl
  · intro hne
    have hpos := List.length_pos_of_ne_nil hne
    have hl' : recs.length + 1 = tc.length := by omega
    rw [npDelete_crossings tc recs m hl'] at ht
    refine ⟨?_, recs, ⟨hl, hk⟩, hc, by rw [ht, ← hl]⟩
    rw [ht, hwh]
    simp only [List.length_append, List.length_map, List.length_cons, List.length_nil, Nat.zero_add]
    congr 1
    rw [hc.1, List.length_map]
    have h2 : recs = ((tc.take recs.length).zip recs).map Prod.snd := by
      rw [List.map_snd_zip]; simp; omega
    conv_rhs => rw [h2, List.filter_map, List.length_map]
    rfl

/-- **C73.** If no wave is below `minimum_wave`, all crossings are stored, and they bound the stored waves: the period of wave `k` is the
time between the stored crossings `k` and `k + 1`. -/
theorem stored_crossings_periods {s s' : SeriesObj K} {t x : List K} (hst : s.time = arr1 t) (hsx : s.xTime = arr1 x)
    (ht0 : t ≠ []) (hlen : t.length = x.length) (hs : t.Pairwise (· < ·)) {ty : String} {xlow tc : List K} {m : K}
    {w : IndWaves K} (h : determineIndividualWaves s ty xlow m = .ok (w, tc, s')) (hm : ∀ v recs, WavesBetween t x tc recs →
      v ∈ recs → m ≤ v.hWave) :
    s'.tCross = tc ∧ ∀ k v, w.tWave[k]? = some v →
      ∃ a b, s'.tCross[k]? = some a ∧ s'.tCross[k + 1]? = some b ∧ v = b - a := by
  have key : s'.tCross = tc := by
    by_cases hne : tc = []
    · rw [((stored_crossings hst hsx ht0 hlen hs h).1 hne).1, hne]
    · obtain ⟨-, recs, hw, -, ht⟩ := (stored_crossings hst hsx ht0 hlen hs h).2 hne
      have hpos := List.length_pos_of_ne_nil hne
      have hl' : recs.length = tc.length - 1 := hw.1
      rw [List.filter_eq_self.2 (by
        rintro ⟨a, r⟩ hp
        exact decide_eq_true (hm r recs hw (List.of_mem_zip hp).2)), List.map_fst_zip (by simp [hl'])] at ht
      rw [ht, hl']
      apply List.ext_getElem
      · simp; omega
      · intro i h1 h2
        by_cases hi : i < tc.length - 1
        · rw [List.getElem_append_left (by simp; omega), List.getElem_take]
        · have : i = tc.length - 1 := by omega
          subst this
          rw [List.getElem_append_right (by simp)]
          simp only [List.length_take, List.getElem_singleton]
          rw [List.getD_eq_getElem _ _ h2]
  refine ⟨key, ?_⟩
  rw [key]
  obtain ⟨recs, hw, hc, -⟩ := analysis_spec hst hsx ht0 hlen hs h
  rw [List.filter_eq_self.2 (fun r hr => decide_eq_true (hm r recs hw hr))] at hc
  intro k v hv
  rw [hc.2.1, List.getElem?_map] at hv
  obtain ⟨r, hr, rfl⟩ := Option.map_eq_some_iff.1 hv
  obtain ⟨a, b, ha, hb, hi⟩ := hw.2 k r hr
  exact ⟨a, b, ha, hb, hi.period⟩

/-- **C73: the stored crossings need not bound the stored waves.** Three waves of heights 8, 2 and 8 with `minimum_wave = 3`: both kept
waves have period 2.3, but the first two stored crossings are 3.7 apart (the crossing between the dropped wave and its predecessor is
gone). -/
theorem stored_crossings_misleading : (do
    let s ← SeriesObj.init (K := ℚ) (vec [0, 1, 2, 3, 4, 5, 6, 7]) (vec [4, -4, 4, -1, 1, -4, 4, -4])
    let r ← determineIndividualWaves s "down" (zerosLike s.xTime) 3
    return (r.1.tWave, r.2.2.tCross)) = .ok ([23/10, 23/10], [1/2, 21/5, 13/2]) := by
  decide +kernel

/-- Non-vacuity of the statistics and of the bounds: a series with three waves. -/
example : (do
    let s ← SeriesObj.init (K := ℚ) (vec [0, 1, 2, 3, 4, 5, 6, 7]) (vec [4, -4, 4, -1, 1, -4, 4, -4])
    let lo ← s.min
    let hi ← s.max
    let mu ← s.mean
    let v ← s.var
    return (lo, hi, mu, v, s.wh.hwave.data)) = .ok (-4, 4, 0, 98/8, [8, 2, 8]) := by
  decide +kernel

/-! ## Concrete cases: the hypotheses of the theorems above are met -/

/-- A series with three waves, of which the middle one is small. -/
def threeSeries : SeriesObj ℚ := ⟨arr1 [0, 1, 2, 3, 4, 5, 6, 7], arr1 [4, -4, 4, -1, 1, -4, 4, -4], 8, 1, [1 / 2, 14 / 5, 21 / 5, 13 / 2],
  ⟨arr1 [8, 2, 8], 3, arr1 [23 / 10, 7 / 5, 23 / 10]⟩⟩

theorem threeSeries_init : SeriesObj.init (K := ℚ) (vec [0, 1, 2, 3, 4, 5, 6, 7]) (vec [4, -4, 4, -1, 1, -4, 4, -4]) = .ok threeSeries := by
  unfold threeSeries; decide +kernel

/-- Waves smaller than 3 are dropped. -/
theorem threeSeries_big : determineIndividualWaves threeSeries "down" (zerosLike threeSeries.xTime) 3 =
    .ok (⟨[8, 8], [23 / 10, 23 / 10], [4, 4], [-4, -4], [2, 6], [1, 5]⟩, [1 / 2, 14 / 5, 21 / 5, 13 / 2],
      { threeSeries with tCross := [1 / 2, 21 / 5, 13 / 2], wh := ⟨arr1 [8, 8], 2, arr1 [23 / 10, 23 / 10]⟩ }) := by
  unfold threeSeries; decide +kernel

/-- All waves are kept. -/
theorem threeSeries_all : determineIndividualWaves threeSeries "down" (zerosLike threeSeries.xTime) 0 =
    .ok (⟨[8, 2, 8], [23 / 10, 7 / 5, 23 / 10], [4, 1, 4], [-4, -1, -4], [2, 4, 6], [1, 3, 5]⟩, [1 / 2, 14 / 5, 21 / 5, 13 / 2], threeSeries) := by
  unfold threeSeries; decide +kernel

example := series_statistics (s := threeSeries) (by simp [threeSeries, arr1])
example := series_statistics_empty (s := ⟨arr1 [], arr1 ([] : List ℚ), 0, 1, [], ⟨arr1 [], 0, arr1 []⟩⟩) rfl
example := waves_within_signal_range (s := threeSeries) (t := [0, 1, 2, 3, 4, 5, 6, 7]) (x := [4, -4, 4, -1, 1, -4, 4, -4]) (lo := -4) (hi := 4) rfl rfl (by simp) rfl
  (by decide +kernel) threeSeries_big (by unfold threeSeries; decide +kernel) (by unfold threeSeries; decide +kernel)
example := stored_crossings (s := threeSeries) (t := [0, 1, 2, 3, 4, 5, 6, 7]) (x := [4, -4, 4, -1, 1, -4, 4, -4]) rfl rfl (by simp) rfl
  (by decide +kernel) threeSeries_big
example := stored_crossings_periods (s := threeSeries) (t := [0, 1, 2, 3, 4, 5, 6, 7]) (x := [4, -4, 4, -1, 1, -4, 4, -4]) rfl rfl (by simp) rfl
  (by decide +kernel) threeSeries_all fun r recs h hr => by
    obtain ⟨k, hr⟩ := List.mem_iff_getElem?.1 hr
    obtain ⟨a, b, _, _, hw⟩ := h.2 k r hr
    obtain ⟨i, wi, ei, _, mi, _⟩ := hw.crest
    obtain ⟨j, wj, ej, _, mj, _⟩ := hw.trough
    have e5 := mi j wj
    rw [ej] at e5
    rw [hw.height]
    linarith

end Verif
