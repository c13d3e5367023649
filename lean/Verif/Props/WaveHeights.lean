import Verif.Props.Highest
import Verif.Props.SeriesInit
import Verif.Model.SeriesReal

/-! # C17 - C20: the WaveHeights object under arbitrary call histories -/

set_option linter.unusedSectionVars false

namespace Verif
variable {K : Type} [Field K] [LinearOrder K]

/-- The (height, period) pairs held by the object. -/
def WH.pairs (s : WH K) : List (K × K) := s.hwave.data.zip s.twave.data

/-- Well-formed attribute arrays. -/
def WH.WF (s : WH K) : Prop := s.hwave.WF ∧ s.twave.WF

/-- `s'` holds the same waves as `s`, in some order. -/
structure SameWaves (s s' : WH K) : Prop where
  pairs : s'.pairs.Perm s.pairs
  heights : s'.hwave.data.Perm s.hwave.data
  periods : s'.twave.data.Perm s.twave.data
  count : s'.nwave = s.nwave
  hshape : s'.hwave.shape = s.hwave.shape
  tshape : s'.twave.shape = s.twave.shape

theorem SameWaves.refl (s : WH K) : SameWaves s s := ⟨.refl _, .refl _, .refl _, rfl, rfl, rfl⟩

theorem SameWaves.trans {a b c : WH K} (h : SameWaves a b) (g : SameWaves b c) : SameWaves a c :=
  ⟨g.pairs.trans h.pairs, g.heights.trans h.heights, g.periods.trans h.periods, g.count.trans h.count,
    g.hshape.trans h.hshape, g.tshape.trans h.tshape⟩

theorem SameWaves.wf {s s' : WH K} (h : SameWaves s s') (hw : s.WF) : s'.WF := by
  refine ⟨?_, ?_⟩
  · have := hw.1; simp only [Arr.WF] at *; rw [h.heights.length_eq, h.hshape]; exact this
  · have := hw.2; simp only [Arr.WF] at *; rw [h.periods.length_eq, h.tshape]; exact this

/-- The two possible outcomes of `sort`. -/
theorem WH.sort_cases (A : Argsort K) {s : WH K} (hw : s.WF) :
    (∃ e, s.sort A = (.error e, s)) ∨
    (∃ h t hs ts, s.hwave = arr1 h ∧ s.twave = arr1 t ∧ h ≠ [] ∧ h.length = t.length ∧
      s.sort A = (.ok (), { s with hwave := arr1 hs, twave := arr1 ts }) ∧ hs.length = h.length ∧ ts.length = h.length ∧
      hs.Pairwise (· ≥ ·) ∧ (hs.zip ts).Perm (h.zip t)) := by
  by_cases hok : (PyIn.nd s.hwave).OneDim ∧ (PyIn.nd s.twave).OneDim ∧
      (PyIn.nd s.hwave).count = (PyIn.nd s.twave).count
  · right
    obtain ⟨⟨h, h0, hv⟩, ⟨t, t0, tv⟩, hc⟩ := hok
    rw [hv.count_eq, tv.count_eq] at hc
    obtain ⟨hs, ts, e, l1, l2, hd, hp⟩ := sort_keeps_waves A hv tv h0 hc
    have e1 : s.hwave = arr1 h := toArr_of_isVec hv
    have e2 : s.twave = arr1 t := toArr_of_isVec tv
    refine ⟨h, t, hs, ts, e1, e2, h0, hc, ?_, l1, l2, hd, hp⟩
    simp only [WH.sort, e]
  · left
    obtain ⟨e, he, _⟩ := (sort_shape_contract A (ph := .nd s.hwave) (pt := .nd s.twave) hw.1 hw.2).2 hok
    exact ⟨e, by simp only [WH.sort, he]⟩

theorem perm_of_zip {h t hs ts : List K} (h1 : h.length = t.length) (h2 : hs.length = h.length)
    (h3 : ts.length = h.length) (hp : (hs.zip ts).Perm (h.zip t)) : hs.Perm h ∧ ts.Perm t := by
  constructor
  · have := hp.map Prod.fst
    rwa [List.map_fst_zip (by omega), List.map_fst_zip (by omega)] at this
  · have := hp.map Prod.snd
    rwa [List.map_snd_zip (by omega), List.map_snd_zip (by omega)] at this

theorem WH.sort_same (A : Argsort K) {s : WH K} (hw : s.WF) : SameWaves s (s.sort A).2 := by
  rcases s.sort_cases A hw with ⟨e, he⟩ | ⟨h, t, hs, ts, e1, e2, h0, hc, e, l1, l2, hd, hp⟩
  · rw [he]; exact .refl s
  · rw [e]
    obtain ⟨p1, p2⟩ := perm_of_zip hc l1 l2 hp
    exact ⟨by simpa [WH.pairs, e1, e2, arr1] using hp, by simpa [e1, arr1] using p1, by simpa [e2, arr1] using p2, rfl,
      by simp [e1, arr1, l1], by simp [e2, arr1, l2, hc]⟩

theorem WH.highestWaves_state [FloorRing K] (A : Argsort K) (p : K) (s : WH K) :
    (s.highestWaves A p).2 = (s.sort A).2 := by
  unfold WH.highestWaves
  rcases hs : s.sort A with ⟨_ | _, s'⟩ <;> rfl

theorem WH.getExceedance_state [FloorRing K] (A : Argsort K) (p : K) (s : WH K) :
    (s.getExceedance A p).2 = (s.sort A).2 := by
  unfold WH.getExceedance
  rcases hs : s.sort A with ⟨_ | _, s'⟩ <;> rfl

theorem WH.step_same [FloorRing K] (A : Argsort K) (op : WHOp K) {s : WH K} (hw : s.WF) :
    SameWaves s (s.step A op) := by
  have hHs : ∀ s : WH K, (s.getHs A).2 = (s.sort A).2 := fun s => s.highestWaves_state A _
  cases op with
  | sort => exact s.sort_same A hw
  | getHrms => exact .refl s
  | getHmax => exact .refl s
  | getHs => simp only [WH.step, hHs]; exact s.sort_same A hw
  | getH2pRayleigh => simp only [WH.step, hHs]; exact s.sort_same A hw
  | getExceedance p => simp only [WH.step, WH.getExceedance_state]; exact s.sort_same A hw
  | highestWaves p => simp only [WH.step, WH.highestWaves_state]; exact s.sort_same A hw
  | plotExceedance => exact s.sort_same A hw
  | plotHist => exact .refl s
  | plotExceedanceRayleigh b =>
    simp only [WH.step]
    have main : ∀ s1 : WH K, SameWaves s s1 →
        SameWaves s (match s1.getHs A with
          | (.error _, s2) => s2
          | (.ok _, s2) => (s2.sort A).2) := by
      intro s1 h1
      have h2 := h1.trans (s1.sort_same A (h1.wf hw))
      have e := hHs s1
      rcases hg : s1.getHs A with ⟨r | r, s2⟩
      · rw [hg] at e; simp only at e; rw [e]; exact h2
      · rw [hg] at e; simp only at e; subst e
        exact h2.trans (WH.sort_same A (h2.wf hw))
    cases b with
    | false => exact main s (.refl s)
    | true =>
      simp only [if_true]
      have e := hHs s
      rcases hg : s.getHs A with ⟨r | r, s1⟩
      · rw [hg] at e; simp only at e; rw [e]; exact s.sort_same A hw
      · rw [hg] at e; simp only at e; subst e
        exact main _ (s.sort_same A hw)

/-- **C17.** After any sequence of method calls, including calls that raise, the object holds the same multiset of
(height, period) pairs and the same wave count - for every initial object (any array shapes). -/
theorem waves_never_corrupted [FloorRing K] (A : Argsort K) (ops : List (WHOp K)) {s : WH K} (hw : s.WF) :
    SameWaves s (s.run A ops) := by
  induction ops generalizing s with
  | nil => exact .refl s
  | cons op ops ih =>
    have h1 := s.step_same A op hw
    exact h1.trans (ih (h1.wf hw))

/-- Objects made by the constructor are well-formed. -/
theorem WH.init_wf {ph pt : PyIn K} (hh : ph.WF) (ht : pt.WF) {s : WH K} (h : WH.init ph pt = .ok s) : s.WF := by
  have key : ∀ p : PyIn K, p.WF → (toVector p).1.WF := by
    intro p hp
    have h1 : (toArr p).WF := by cases p <;> simp_all [toArr, Arr.WF, PyIn.WF]
    simp only [toVector]
    split_ifs
    · simp [Arr.WF]
    · exact h1
  simp only [WH.init] at h
  split_ifs at h
  simp only [Except.ok.injEq] at h
  subst h
  exact ⟨key ph hh, key pt ht⟩

/-! ## C18 -/

theorem foldl_max_perm {a b : K} {l m : List K} (h : (a :: l).Perm (b :: m)) : l.foldl max a = m.foldl max b := by
  have h1 := pyMax_spec (l := a :: l) rfl
  have h2 := pyMax_spec (l := b :: m) rfl
  exact le_antisymm (h2.2 _ (h.subset h1.1)) (h1.2 _ (h.symm.subset h2.1))

theorem getHmax_same {s s' : WH K} (h : SameWaves s s') : s'.getHmax.1 = s.getHmax.1 := by
  have hp := h.heights
  simp only [WH.getHmax]
  cases e : s.hwave.data with
  | nil => rw [e] at hp; rw [List.perm_nil.1 hp]
  | cons a l =>
    cases e' : s'.hwave.data with
    | nil => rw [e, e'] at hp; simp at hp
    | cons b m =>
      rw [e, e'] at hp
      simp only [foldl_max_perm hp]

/-- `sort` succeeds on both or fails on both with the same error; the sorted heights are the same. -/
theorem sort_same_result (A A' : Argsort K) {s s' : WH K} (hw : s.WF) (h : SameWaves s s') :
    (∃ e, (s.sort A).1 = .error e ∧ (s'.sort A').1 = .error e) ∨
    (∃ hs ts ts', s.sort A = (.ok (), { s with hwave := arr1 hs, twave := arr1 ts }) ∧
      s'.sort A' = (.ok (), { s' with hwave := arr1 hs, twave := arr1 ts' }) ∧ hs ≠ [] ∧
      hs.length = ts.length ∧ hs.length = ts'.length ∧ hs.Pairwise (· ≥ ·) ∧ (hs.zip ts').Perm (hs.zip ts)
      ∧ (hs.zip ts).Perm s.pairs) := by
  have hw' := h.wf hw
  have hlen1 := h.heights.length_eq
  have hlen2 := h.periods.length_eq
  rcases s.sort_cases A hw with ⟨e, he⟩ | ⟨h1, t1, hs, ts, e1, e2, h0, hc, e, l1, l2, hd, hp⟩
  · left
    refine ⟨e, by rw [he], ?_⟩
    have key : ∀ (B B' : Argsort K) (a a' b b' : Arr K), a.shape = a'.shape → b.shape = b'.shape → ∀ e,
        sortWaveParams B (.nd a) (.nd b) = .error e → sortWaveParams B' (.nd a') (.nd b') = .error e := by
      intro B B' a a' b b' q1 q2 e he
      unfold sortWaveParams at *
      simp only [toArr, isOneD, size2, Arr.size, Arr.len, ← q1, ← q2] at *
      split_ifs at * <;> simp_all
    simp only [WH.sort] at he ⊢
    split at he
    · simp at he
    · rename_i e' heq
      simp only [Prod.mk.injEq, Except.error.injEq, and_true] at he
      subst he
      rw [key A A' _ _ _ _ h.hshape.symm h.tshape.symm _ heq]
  · right
    rcases s'.sort_cases A' hw' with ⟨e', he'⟩ | ⟨h1', t1', hs', ts', e1', e2', h0', hc', e', l1', l2', hd', hp'⟩
    · exfalso
      have hv : (PyIn.nd s'.hwave).IsVec s'.hwave.data := by
        have := h.hshape; rw [e1] at this
        have h3 : s'.hwave = ⟨[s'.hwave.data.length], s'.hwave.data⟩ := by
          cases hh : s'.hwave with
          | mk sh d =>
            rw [hh] at this hlen1; simp only [arr1] at this; rw [e1] at hlen1
            simp only [arr1] at hlen1
            simp [this, hlen1]
        conv_lhs => rw [h3]
        exact .nd _
      have tv : (PyIn.nd s'.twave).IsVec s'.twave.data := by
        have := h.tshape; rw [e2] at this
        have h3 : s'.twave = ⟨[s'.twave.data.length], s'.twave.data⟩ := by
          cases hh : s'.twave with
          | mk sh d =>
            rw [hh] at this hlen2; simp only [arr1] at this; rw [e2] at hlen2
            simp only [arr1] at hlen2
            simp [this, hlen2]
        conv_lhs => rw [h3]
        exact .nd _
      rw [e1] at hlen1; rw [e2] at hlen2
      simp only [arr1] at hlen1 hlen2
      have hne : s'.hwave.data ≠ [] := by
        intro hn; rw [hn] at hlen1; simp at hlen1; exact h0 (List.length_eq_zero_iff.1 hlen1.symm)
      have := sortWaveParams_eq A' hv tv hne (by omega)
      simp [WH.sort, this] at he'
    · have q := h.pairs
      simp only [WH.pairs, e1, e2, e1', e2', arr1] at q
      have z : (hs'.zip ts').Perm (hs.zip ts) := hp'.trans (q.trans hp.symm)
      have hl : h1'.length = h1.length := by rw [e1, e1'] at hlen1; exact hlen1
      have : hs' = hs := by
        apply desc_unique hd' hd
        have := z.map Prod.fst
        rwa [List.map_fst_zip (by omega), List.map_fst_zip (by omega)] at this
      subst this
      refine ⟨hs', ts, ts', e, e', ?_, by omega, by omega, hd, z, ?_⟩
      · rintro rfl; simp at l1; exact h0 (List.length_eq_zero_iff.1 l1.symm)
      · simpa [WH.pairs, e1, e2, arr1] using hp

theorem highest_fst_indep [FloorRing K] {hs ts ts' : List K} (hne : hs ≠ []) (h1 : hs.length = ts.length)
    (h2 : hs.length = ts'.length) (p : K) :
    (highestWavesParams (vec hs) (vec ts') p).map Prod.fst = (highestWavesParams (vec hs) (vec ts) p).map Prod.fst := by
  rw [highest_eq (isVec_vec hs) (isVec_vec ts) hne h1, highest_eq (isVec_vec hs) (isVec_vec ts') hne h2]
  split_ifs <;> rfl

theorem highestWaves_same [FloorRing K] (A A' : Argsort K) {s s' : WH K} (hw : s.WF) (h : SameWaves s s') (p : K) :
    (s'.highestWaves A' p).1.map Prod.fst = (s.highestWaves A p).1.map Prod.fst := by
  rcases sort_same_result A A' hw h with ⟨e, h1, h2⟩ | ⟨hs, ts, ts', h1, h2, hne, l1, l2, _⟩
  · unfold WH.highestWaves
    rcases hs : s.sort A with ⟨r, s1⟩
    rcases hs' : s'.sort A' with ⟨r', s1'⟩
    rw [hs] at h1; rw [hs'] at h2
    simp only at h1 h2
    subst h1 h2
    rfl
  · unfold WH.highestWaves
    rw [h1, h2]
    exact highest_fst_indep hne l1 l2 p

theorem exceedance_same [FloorRing K] (A A' : Argsort K) {s s' : WH K} (hw : s.WF) (h : SameWaves s s') (p : K) :
    (s'.getExceedance A' p).1 = (s.getExceedance A p).1 := by
  rcases sort_same_result A A' hw h with ⟨e, h1, h2⟩ | ⟨hs, ts, ts', h1, h2, hne, l1, l2, _⟩
  · unfold WH.getExceedance
    rcases hs : s.sort A with ⟨r, s1⟩
    rcases hs' : s'.sort A' with ⟨r', s1'⟩
    rw [hs] at h1; rw [hs'] at h2
    simp only at h1 h2
    subst h1 h2
    rfl
  · unfold WH.getExceedance
    rw [h1, h2]

/-- **C18.** Whatever methods were called before, `get_Hmax`, the height part of `get_Hs` and `highest_waves(p)`, and
`get_exceedance_waveheight(p)` return (or raise) the same as on the fresh object. -/
theorem height_statistics_history_independent [FloorRing K] (A : Argsort K) (ops : List (WHOp K)) {s : WH K}
    (hw : s.WF) (p : K) :
    (s.run A ops).getHmax.1 = s.getHmax.1 ∧
    ((s.run A ops).getHs A).1.map Prod.fst = (s.getHs A).1.map Prod.fst ∧
    ((s.run A ops).highestWaves A p).1.map Prod.fst = (s.highestWaves A p).1.map Prod.fst ∧
    ((s.run A ops).getExceedance A p).1 = (s.getExceedance A p).1 := by
  have h := waves_never_corrupted A ops hw
  exact ⟨getHmax_same h, highestWaves_same A A hw h _, highestWaves_same A A hw h p, exceedance_same A A hw h p⟩

/-- **C18 (Hrms and H2% Rayleigh).** -/
theorem hrms_h2p_history_independent (A : Argsort ℝ) (ops : List (WHOp ℝ)) {s : WH ℝ} (hw : s.WF) :
    (s.run A ops).getHrms = s.getHrms ∧ ((s.run A ops).getH2pRayleigh A).1 = (s.getH2pRayleigh A).1 := by
  have h := waves_never_corrupted A ops hw
  constructor
  · have hp := h.heights
    unfold WH.getHrms
    have e1 : ((s.run A ops).hwave.data = []) ↔ (s.hwave.data = []) :=
      ⟨fun hn => by rw [hn] at hp; exact (List.nil_perm.1 hp), fun hn => by rw [hn] at hp; exact (List.perm_nil.1 hp)⟩
    have e2 : mean ((s.run A ops).hwave.data.map (· ^ 2)) = mean (s.hwave.data.map (· ^ 2)) := by
      unfold mean
      rw [(hp.map _).sum_eq, (hp.map _).length_eq]
    simp only [e1, e2]
  · have h1 := highestWaves_same A A hw h (1 / 3)
    change ((s.run A ops).getHs A).1.map Prod.fst = (s.getHs A).1.map Prod.fst at h1
    unfold WH.getH2pRayleigh
    rcases e1 : (s.run A ops).getHs A with ⟨r1 | r1, s1⟩ <;> rcases e2 : s.getHs A with ⟨r2 | r2, s2⟩ <;>
      rw [e1, e2] at h1 <;> simp [Except.map] at h1 <;> simp [h1]

/-! ## C19 -/

/-- Waves of equal height have equal periods (in particular: all heights distinct). -/
def HeightsDeterminePeriods (s : WH K) : Prop := ∀ a ∈ s.pairs, ∀ b ∈ s.pairs, a.1 = b.1 → a.2 = b.2

/-- **C19 (partial).** If equal heights have equal periods (e.g. all heights are distinct), then the complete result of
`highest_waves(p)` / `get_Hs`, period included, does not depend on the call history.  With ties it may:
see `significant_period_alternates`. -/
theorem significant_period_history_independent_partial [FloorRing K] (A : Argsort K) (ops : List (WHOp K)) {s : WH K}
    (hw : s.WF) (hd : HeightsDeterminePeriods s) (p : K) :
    ((s.run A ops).highestWaves A p).1 = (s.highestWaves A p).1 ∧ ((s.run A ops).getHs A).1 = (s.getHs A).1 := by
  have h := waves_never_corrupted A ops hw
  have main : ∀ q, ((s.run A ops).highestWaves A q).1 = (s.highestWaves A q).1 := by
    intro q
    rcases sort_same_result A A hw h with ⟨e, h1, h2⟩ | ⟨hs, ts, ts', h1, h2, hne, l1, l2, hdesc, z, zs⟩
    · unfold WH.highestWaves
      rcases hs : s.sort A with ⟨r, s1⟩
      rcases hs' : (s.run A ops).sort A with ⟨r', s1'⟩
      rw [hs] at h1; rw [hs'] at h2
      simp only at h1 h2
      subst h1 h2
      rfl
    · unfold WH.highestWaves
      rw [h1, h2]
      have hpw : ∀ us : List K, hs.length = us.length → (hs.zip us).Pairwise (fun a b => b.1 ≤ a.1) := by
        intro us hu
        rw [List.pairwise_iff_getElem]
        intro i j hi hj hij
        simp only [List.length_zip] at hi hj
        simp only [List.getElem_zip]
        exact List.pairwise_iff_getElem.1 hdesc i j (by omega) (by omega) hij
      have heq : hs.zip ts' = hs.zip ts := by
        refine List.Perm.eq_of_pairwise ?_ (hpw ts' l2) (hpw ts l1) z
        intro a b ha hb h1 h2
        have ha' := zs.subset (z.subset ha)
        have hb' := zs.subset hb
        exact Prod.ext (le_antisymm h2 h1) (hd a ha' b hb' (le_antisymm h2 h1))
      have : ts' = ts := by
        have := congrArg (List.map Prod.snd) heq
        rwa [List.map_snd_zip (by omega), List.map_snd_zip (by omega)] at this
      subst this
      rfl
  exact ⟨main p, main _⟩

/-- **C19 is false as stated**: with two waves of equal height and a stable argsort, successive `get_Hs()` calls return
the period 7, then 5, then 7 (each sort reverses the order of the ties). -/
theorem significant_period_alternates :
    let A := stableArgsort (K := ℚ)
    let s : WH ℚ := ⟨arr1 [2, 2, 1], 3, arr1 [5, 7, 1]⟩
    (s.getHs A).1 = .ok (2, 7) ∧ ((s.run A [.getHs]).getHs A).1 = .ok (2, 5) ∧
      ((s.run A [.getHs, .getHs]).getHs A).1 = .ok (2, 7) := by
  refine ⟨?_, ?_, ?_⟩ <;> decide +kernel

/-- Non-vacuity of C17-C19: a concrete history with an exception in the middle. -/
example :
    let A := stableArgsort (K := ℚ)
    let s : WH ℚ := ⟨arr1 [1, 3, 2], 3, arr1 [10, 30, 20]⟩
    s.run A [.highestWaves 2, .plotExceedanceRayleigh true, .getExceedance 50] =
      ⟨arr1 [3, 2, 1], 3, arr1 [30, 20, 10]⟩ := by
  decide +kernel

/-! ## C20 -/

/-- **C20.** For non-negative heights: mean height ≤ Hrms ≤ Hmax, and Hrms ≥ 0. -/
theorem hrms_bounds {s : WH ℝ} {hmax hrms : ℝ} (hpos : ∀ v ∈ s.hwave.data, 0 ≤ v)
    (h1 : s.getHmax.1 = .ok hmax) (h2 : s.getHrms = .ok hrms) :
    0 ≤ hrms ∧ hrms ≤ hmax ∧ mean s.hwave.data ≤ hrms := by
  unfold WH.getHrms at h2
  split_ifs at h2 with hne
  simp only [Except.ok.injEq] at h2
  subst h2
  have hm : hmax ∈ s.hwave.data ∧ ∀ v ∈ s.hwave.data, v ≤ hmax := by
    unfold WH.getHmax at h1
    cases e : s.hwave.data with
    | nil => exact absurd e hne
    | cons a l =>
      rw [e] at h1
      exact pyMax_spec h1
  have hn : (0 : ℝ) < s.hwave.data.length := by exact_mod_cast List.length_pos_of_ne_nil hne
  refine ⟨Real.sqrt_nonneg _, ?_, ?_⟩
  · apply Real.sqrt_le_iff.2
    refine ⟨hpos _ hm.1, ?_⟩
    unfold mean
    rw [List.length_map, div_le_iff₀ hn]
    have := sum_le_of_forall_le (l := s.hwave.data.map (· ^ 2)) (c := hmax ^ 2) (by
      intro v hv
      obtain ⟨w, hw, rfl⟩ := List.mem_map.1 hv
      have := hpos w hw
      have := hm.2 w hw
      nlinarith)
    rw [List.length_map] at this
    linarith
  · apply Real.le_sqrt_of_sq_le
    have hv : 0 ≤ (s.hwave.data.map fun x => (x - mean s.hwave.data) ^ 2).sum :=
      List.sum_nonneg fun v hv => by
        obtain ⟨w, _, rfl⟩ := List.mem_map.1 hv
        positivity
    have expand : ∀ (l : List ℝ) (c : ℝ), (l.map fun x => (x - c) ^ 2).sum =
        (l.map (· ^ 2)).sum - 2 * c * l.sum + l.length * c ^ 2 := by
      intro l c
      induction l with
      | nil => simp
      | cons a l ih => simp only [List.map_cons, List.sum_cons, ih, List.length_cons, Nat.cast_add, Nat.cast_one]; ring
    rw [expand] at hv
    have hs : s.hwave.data.sum = s.hwave.data.length * mean s.hwave.data := by
      unfold mean; field_simp
    rw [hs] at hv
    have : mean (s.hwave.data.map (· ^ 2)) =
        (s.hwave.data.map (· ^ 2)).sum / (s.hwave.data.length : ℝ) := by
      simp [mean]
    rw [this, le_div_iff₀ hn]
    nlinarith

/-- **C20 (Rayleigh).** The value of `get_H2p_Rayleigh` has exceedance probability `exp(-2 (H/Hs)²) = 2%`. -/
theorem h2p_rayleigh_exceedance (A : Argsort ℝ) {s s1 s2 : WH ℝ} {hs ts h2p : ℝ}
    (h1 : s.getHs A = (.ok (hs, ts), s1)) (h2 : s.getH2pRayleigh A = (.ok h2p, s2)) (hpos : 0 < hs) :
    Real.exp (-2 * (h2p / hs) ^ 2) = 2 / 100 := by
  unfold WH.getH2pRayleigh at h2
  rw [h1] at h2
  simp only [Prod.mk.injEq, Except.ok.injEq] at h2
  rw [← h2.1]
  unfold rayleighPpf
  have e1 : Real.sqrt 2 ^ 2 = 2 := Real.sq_sqrt (by norm_num)
  have hl : Real.log (1 - 98 / 100) ≤ 0 := Real.log_nonpos (by norm_num) (by norm_num)
  have e2 : Real.sqrt (-2 * Real.log (1 - 98 / 100)) ^ 2 = -2 * Real.log (1 - 98 / 100) :=
    Real.sq_sqrt (by linarith)
  have e3 : (hs * (1 / Real.sqrt 2 * Real.sqrt (-2 * Real.log (1 - 98 / 100))) / Real.sqrt 2 / hs) ^ 2 =
      Real.sqrt (-2 * Real.log (1 - 98 / 100)) ^ 2 / (Real.sqrt 2 ^ 2 * Real.sqrt 2 ^ 2) := by
    field_simp
  rw [e3, e1, e2]
  have e4 : -2 * (-2 * Real.log (1 - 98 / 100) / (2 * 2)) = Real.log (1 - 98 / 100) := by ring
  rw [e4, Real.exp_log (by norm_num)]
  norm_num

/-! ## Concrete cases: the hypotheses of the theorems above are met -/

example := waves_never_corrupted (stableArgsort (K := ℚ)) [.highestWaves (1 / 3), .getHs, .getExceedance 2] (s := ⟨arr1 [1, 3, 2], 3, arr1 [10, 30, 20]⟩) ⟨rfl, rfl⟩
example := height_statistics_history_independent (stableArgsort (K := ℚ)) [.highestWaves (1 / 3), .getHs] (s := ⟨arr1 [1, 3, 2], 3, arr1 [10, 30, 20]⟩) ⟨rfl, rfl⟩ (1 / 3)
example (A : Argsort ℝ) := hrms_h2p_history_independent A [.highestWaves (1 / 3), .getHs] (s := ⟨arr1 [1, 3, 2], 3, arr1 [10, 30, 20]⟩) ⟨rfl, rfl⟩
example := significant_period_history_independent_partial (stableArgsort (K := ℚ)) [.highestWaves (1 / 3), .getHs]
  (s := ⟨arr1 [1, 3, 2], 3, arr1 [10, 30, 20]⟩) ⟨rfl, rfl⟩ (by unfold HeightsDeterminePeriods; decide +kernel) (1 / 3)
/-- Heights 1 and 7: root-mean-square height 5, between their mean 4 and their maximum 7. -/
example : 0 ≤ (5 : ℝ) ∧ (5 : ℝ) ≤ 7 ∧ mean [(1 : ℝ), 7] ≤ 5 :=
  hrms_bounds (s := ⟨arr1 [1, 7], 2, arr1 [10, 30]⟩) (by simp [arr1]) (by simp [WH.getHmax, arr1])
    (by
      have e : mean [(1 : ℝ) ^ 2, 7 ^ 2] = 5 ^ 2 := by norm_num [mean]
      simp only [WH.getHrms, arr1, List.map_cons, List.map_nil]
      rw [e, if_neg (by simp), Real.sqrt_sq (by norm_num)])

end Verif
