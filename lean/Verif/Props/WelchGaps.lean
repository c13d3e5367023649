import Verif.Props.NaNWelch
import Verif.Props.WelchBoxcar

/-! # C174: the Welch spectrum is the mean of the spectra of its segments, also with gaps between them -/

set_option linter.unusedSectionVars false

namespace Verif
open Finset

/-- The periodogram of a record with a window, at bin `k` of a transform of `M` samples. -/
noncomputable def windowBin (w x : List ℝ) (dt : ℝ) (M k : Nat) : ℝ :=
  (if k = 0 then 1 else if M % 2 = 0 ∧ k = M / 2 then 1 else 2) *
    Complex.normSq (fwd M (fun j => ((tapered w x j : ℝ) : ℂ)) k) * dt / ∑ j ∈ range w.length, w.getD j 0 ^ 2

theorem mean_singleton (a : ℝ) : mean [a] = a := by unfold mean; simp

/-- The Welch spectrum of a record of one segment. -/
theorem single_segment {x w f S : List ℝ} {dt : ℝ} {v : Int} {M : Nat} (hw : w.length = x.length) (h : IsWelch x dt w x.length v M f S) :
    S = (List.range (M / 2 + 1)).map (windowBin w x dt M) := by
  refine List.ext_getElem (by rw [h.len]; simp) fun k hk hk' => ?_
  have hk : k < M / 2 + 1 := by simpa using hk'
  have e := h.dens k hk
  rw [List.getD, List.getElem?_eq_getElem (by rw [h.len]; exact hk), Option.getD_some] at e
  rw [e, List.getElem_map, List.getElem_range]
  have e1 : nSegments x.length x.length v = 1 := by unfold nSegments; simp
  have e2 : segment x x.length v 0 = x := by unfold segment pySlice; simp
  rw [e1]
  change mean [_] = _
  rw [mean_singleton]
  beta_reduce
  rw [e2]
  unfold windowBin
  rw [hw]

/-- Indices of the segments that fit. -/
theorem fits_iff {L n step i : Nat} (hs : 0 < step) (hn : n ≤ L) : i < (L - n) / step + 1 ↔ i * step + n ≤ L := by
  rw [Nat.lt_succ_iff, Nat.le_div_iff_mul_le hs]
  omega

/-- **C174 (mean of segments).**  `get_spectrum` with explicit settings (segments of `n` samples, any overlap below `n`: 0 stands for half a
segment, a negative one for a gap) of a record of at least `n` samples.  Cut the record into the segments that start every `step` samples, `n` minus the overlap,
and that fit; make each a `Series` of its own and call `get_spectrum` with the same arguments on each: all these calls succeed, on the same frequencies, and the
density of the record is, frequency by frequency, the mean of theirs. -/
theorem welch_of_segments {pt px : PyIn ℝ} {t x : List ℝ} {dt : ℝ} (ht : pt.IsVec t) (hx : px.IsVec x) (h2 : 2 ≤ t.length)
    (hlen : t.length = x.length) (hu : UniformAxis t dt) {n nfft step : Nat} {nov : Int} {window : String} (hwin : window ∈ windowNames)
    (hn : 2 ≤ n) (hnx : n ≤ x.length) (hnfft : nfft = 0 ∨ n ≤ nfft) (hnov : nov < n) (hstep : (step : Int) = n - if nov = 0 then ((n / 2 : Nat) : Int) else nov)
    (df : ℝ) :
    ∃ s sp S, ∃ G : Nat → List ℝ, SeriesObj.init pt px = .ok s ∧ s.getSpectrum n nov nfft window df false = .ok sp ∧ sp.sVarDens = arr1 S ∧ (∀ i, (G i).length = S.length) ∧
      (∀ i, i * step + n ≤ x.length → ∃ si spi, SeriesObj.init (vec (pySlice t (i * step) (i * step + n))) (vec (pySlice x (i * step) (i * step + n))) = .ok si ∧
        si.getSpectrum n nov nfft window df false = .ok spi ∧ spi.f = sp.f ∧ spi.sVarDens = arr1 (G i)) ∧
      ∀ k, S.getD k 0 = mean ((List.range ((x.length - n) / step + 1)).map fun i => (G i).getD k 0) := by
  obtain ⟨w, hw⟩ := window_known hwin n
  have hwl : w.length = n := getWindow_length hw
  set v : Int := if nov = 0 then ((n / 2 : Nat) : Int) else nov with hv
  have hvn : v < n := by rw [hv]; split_ifs <;> omega
  have hst : ((n : Int) - v).toNat = step := by omega
  have hs0 : 0 < step := by omega
  have hM : ∃ M : Nat, M = (if nfft = 0 then n else nfft) ∧ n ≤ M := ⟨_, rfl, by split_ifs <;> omega⟩
  obtain ⟨M, hM, hnM⟩ := hM
  obtain ⟨s, sp, S, h1, h3, h4, h5⟩ := get_spectrum_explicit ht hx h2 hlen hu (nps := n) (nov := nov) (nfft := nfft) (N := n) (M := M) (v := v) (w := w)
    (window := window) (by rw [if_neg (by omega), Nat.min_eq_left hnx]) hM hv (by omega) (by omega) hnM hvn hw df
  have hsegn : nSegments x.length n v = (x.length - n) / step + 1 := by unfold nSegments; rw [hst]
  have hseg : ∀ i, segment x n v i = pySlice x (i * step) (i * step + n) := by intro i; unfold segment; rw [hst]
  have hsegt : ∀ i, segment t n v i = pySlice t (i * step) (i * step + n) := by intro i; unfold segment; rw [hst]
  refine ⟨s, sp, S, fun i => (List.range (M / 2 + 1)).map (windowBin w (segment x n v i) dt M), h1, h3, h4, fun i => by rw [h5.len]; simp, fun i hi => ?_, fun k => ?_⟩
  · have hl : (segment x n v i).length = n := (segment_length hnx (by rw [hsegn]; exact (fits_iff hs0 hnx).2 hi)).1
    have hlt : (segment t n v i).length = n := by
      refine (segment_length (by omega) ?_).1
      rw [hlen, hsegn]; exact (fits_iff hs0 hnx).2 hi
    have hax := segment_axis hu (N := n) (v := v) (i := i) (by rw [hst, hlen]; exact hi)
    obtain ⟨si, spi, Si, q1, q2, q3, q4⟩ := get_spectrum_explicit (isVec_vec (segment t n v i)) (isVec_vec (segment x n v i)) (by omega) (by omega) hax
      (nps := n) (nov := nov) (nfft := nfft) (N := n) (M := M) (v := v) (w := w) (window := window) (by rw [if_neg (by omega), hl, Nat.min_self]) hM hv
      (by omega) (by omega) hnM hvn hw df
    rw [hseg, hsegt] at q1
    refine ⟨si, spi, q1, q2, by rw [q4.freq, h5.freq], ?_⟩
    rw [q3]
    congr 1
    exact single_segment (by rw [hwl, hl]) (by rw [hl]; exact q4)
  · by_cases hk : k < M / 2 + 1
    · rw [h5.dens k hk, hsegn]
      congr 1
      refine List.map_congr_left fun i _ => ?_
      rw [getD_map_range _ _ _ _ hk]
      unfold windowBin
      rw [hwl]
    · rw [List.getD_eq_default _ _ (by rw [h5.len]; omega)]
      have e : ∀ l : List Nat, mean (l.map fun i => ((List.range (M / 2 + 1)).map (windowBin w (segment x n v i) dt M)).getD k 0) = 0 := by
        intro l
        have : (l.map fun i => ((List.range (M / 2 + 1)).map (windowBin w (segment x n v i) dt M)).getD k 0) = List.replicate l.length 0 := by
          rw [List.eq_replicate_iff]
          refine ⟨by simp, fun b hb => ?_⟩
          obtain ⟨i, -, rfl⟩ := List.mem_map.1 hb
          exact List.getD_eq_default _ _ (by simp; omega)
        rw [this]
        unfold mean
        simp
      exact (e _).symm

/-- **C174 (unused samples).**  Two records on one time axis that agree on every sample that lies in a segment (`UsedSample`) have the same
spectrum, or raise the same error, whatever the settings of `get_spectrum` (with `use_dfDesired = False`): samples in the gaps and
after the last segment have no influence. -/
theorem welch_unused {x y : List ℝ} (hl : x.length = y.length) (dt : ℝ) (nperseg noverlap nfft : Int) (window : String)
    (h : ∀ j, UsedSample x.length nperseg noverlap j → x.getD j 0 = y.getD j 0) :
    welchWrapper x dt nperseg noverlap nfft window = welchWrapper y dt nperseg noverlap nfft window := by
  have hnil : x = [] ↔ y = [] := by rw [← List.length_eq_zero_iff, ← List.length_eq_zero_iff, hl]
  unfold welchWrapper
  by_cases hdt : dt = 0
  · rw [if_pos hdt, if_pos hdt]
  rw [if_neg hdt, if_neg hdt]
  dsimp only
  unfold welch
  by_cases hx : x = []
  · rw [if_pos hx, if_pos (hnil.1 hx)]
  rw [if_neg hx, if_neg (fun h => hx (hnil.2 h))]
  set np : Option Int := if nperseg = 0 then none else some nperseg with hnp
  set no : Option Int := if noverlap = 0 then none else some noverlap with hno
  set nff : Option Int := if nfft = 0 then none else some nfft with hnff
  by_cases h1 : np.getD 256 < 1
  · rw [if_pos h1, if_pos h1]
  rw [if_neg h1, if_neg h1]
  dsimp only
  rw [← hl]
  set N := min (np.getD 256).toNat x.length with hN
  cases hw : getWindow window N with
  | error e => rfl
  | ok w =>
    dsimp only
    by_cases h2 : nff.getD N < N
    · rw [if_pos h2, if_pos h2]
    rw [if_neg h2, if_neg h2]
    by_cases h3 : (N : Int) ≤ no.getD (N / 2 : Nat)
    · rw [if_pos h3, if_pos h3]
    rw [if_neg h3, if_neg h3]
    have hs : segments x N ((N : Int) - no.getD (N / 2 : Nat)).toNat = segments y N ((N : Int) - no.getD (N / 2 : Nat)).toNat := by
      unfold segments
      rw [← hl]
      refine List.map_congr_left fun i hi => ?_
      have hi := (fits_iff (by omega) (Nat.min_le_right _ _)).1 (List.mem_range.1 hi)
      rw [pySlice_eq x 0 hi, pySlice_eq y 0 (by rw [← hl]; exact hi)]
      refine List.map_congr_left fun j hj => h _ ?_
      have hj := List.mem_range.1 hj
      have a : min (if nperseg = 0 then 256 else nperseg.toNat) x.length = N := by
        rw [hN, hnp]; by_cases h : nperseg = 0 <;> simp [h]
      have b : (if noverlap = 0 then ((N / 2 : Nat) : Int) else noverlap) = no.getD (N / 2 : Nat) := by
        rw [hno]
        by_cases h : noverlap = 0
        · rw [if_pos h, if_pos h]; rfl
        · rw [if_neg h, if_neg h]; rfl
      unfold UsedSample
      dsimp only
      rw [a, b]
      exact ⟨i, hi, by omega, by omega⟩
    rw [hs]

/-- **C174 (unused samples, objects).** -/
theorem welch_unused_object {pt px py : PyIn ℝ} {t x y : List ℝ} {dt : ℝ} (ht : pt.IsVec t) (hx : px.IsVec x) (hy : py.IsVec y) (h2 : 2 ≤ t.length)
    (hlx : t.length = x.length) (hly : t.length = y.length) (hu : UniformAxis t dt) (nperseg noverlap nfft : Int) (window : String) (df : ℝ)
    (h : ∀ j, UsedSample x.length nperseg noverlap j → x.getD j 0 = y.getD j 0) :
    ∃ s s', SeriesObj.init pt px = .ok s ∧ SeriesObj.init pt py = .ok s' ∧
      s.getSpectrum nperseg noverlap nfft window df false = s'.getSpectrum nperseg noverlap nfft window df false := by
  obtain ⟨s, -, -, -, hs, -, hsx, -, hsd, -⟩ := series_never_fails ht hx h2 hlx hu
  obtain ⟨s', -, -, -, hs', -, hsx', -, hsd', -⟩ := series_never_fails ht hy h2 hly hu
  refine ⟨s, s', hs, hs', ?_⟩
  unfold SeriesObj.getSpectrum
  rw [sig_of hsx, sig_of hsx']
  simp only [bind, Except.bind, Bool.false_eq_true, if_false]
  rw [hsd, hsd', welch_unused (by omega) dt nperseg noverlap nfft window h]

/-- **C174 (large gap).**  With segments of `n` samples and gaps of `g`, the record shorter than two segments and a gap: the spectrum of the first
`n` samples, whatever follows. -/
theorem welch_large_gap {pt px : PyIn ℝ} {t x : List ℝ} {dt : ℝ} (ht : pt.IsVec t) (hx : px.IsVec x) (h2 : 2 ≤ t.length)
    (hlen : t.length = x.length) (hu : UniformAxis t dt) {n nfft g : Nat} {window : String} (hwin : window ∈ windowNames)
    (hn : 2 ≤ n) (hnx : n ≤ x.length) (hnfft : nfft = 0 ∨ n ≤ nfft) (hg : 0 < g) (hL : x.length < 2 * n + g) (df : ℝ) :
    ∃ s sp s1 sp1, SeriesObj.init pt px = .ok s ∧ s.getSpectrum n (-(g : Int)) nfft window df false = .ok sp ∧
      SeriesObj.init (vec (t.take n)) (vec (x.take n)) = .ok s1 ∧ s1.getSpectrum n (-(g : Int)) nfft window df false = .ok sp1 ∧
      sp1.f = sp.f ∧ sp1.sVarDens = sp.sVarDens := by
  obtain ⟨s, sp, S, G, h1, h3, h4, hG, h5, h6⟩ := welch_of_segments ht hx h2 hlen hu (n := n) (nfft := nfft) (step := n + g) (nov := -(g : Int)) hwin hn hnx hnfft
    (by omega) (by rw [if_neg (by omega)]; push_cast; ring) df
  obtain ⟨s1, sp1, q1, q2, q3, q4⟩ := h5 0 (by omega)
  rw [show 0 * (n + g) = 0 by omega, Nat.zero_add] at q1
  refine ⟨s, sp, s1, sp1, h1, h3, ?_, q2, q3, ?_⟩
  · simpa [pySlice] using q1
  · rw [q4, h4]
    have e0 : (x.length - n) / (n + g) = 0 := Nat.div_eq_of_lt (by omega)
    rw [e0] at h6
    congr 1
    refine List.ext_getElem (hG 0) fun k hk hk' => ?_
    have e := h6 k
    rw [List.getD, List.getElem?_eq_getElem hk', Option.getD_some] at e
    rw [e]
    change _ = mean [_]
    rw [mean_singleton]
    exact (List.getD_eq_getElem _ _ hk).symm

/-- **C174 (zero resolution).**  `get_spectrum` with a desired resolution of 0 (and `use_dfDesired = True`, the default) raises `ValueError` for
every `Series` of one row, whatever the other arguments. -/
theorem welch_zero_resolution {pt px : PyIn ℝ} {t x : List ℝ} {dt : ℝ} (ht : pt.IsVec t) (hx : px.IsVec x) (h2 : 2 ≤ t.length)
    (hlen : t.length = x.length) (hu : UniformAxis t dt) (nperseg noverlap nfft : Int) (window : String) :
    ∃ s msg, SeriesObj.init pt px = .ok s ∧ s.getSpectrum nperseg noverlap nfft window 0 true = .error (.valueError msg) := by
  obtain ⟨s, -, -, -, hs, -, hsx, -, hsd, -⟩ := series_never_fails ht hx h2 hlen hu
  refine ⟨s, "nperseg must be a positive integer", hs, ?_⟩
  unfold SeriesObj.getSpectrum
  rw [sig_of hsx]
  simp only [bind, Except.bind, if_true, true_or, hsd, hu.1.ne', if_false]

/-- **C174 (negative resolution).**  So does a negative one, as soon as `1 / (dt df)` does not round to 0 (if it does, `nperseg = 0` stands for the
default of 256 samples). -/
theorem welch_negative_resolution {pt px : PyIn ℝ} {t x : List ℝ} {dt : ℝ} (ht : pt.IsVec t) (hx : px.IsVec x) (h2 : 2 ≤ t.length)
    (hlen : t.length = x.length) (hu : UniformAxis t dt) {df : ℝ} (hdf : df < 0) (h : 1 / 2 < 1 / (dt * -df)) (nperseg noverlap nfft : Int) (window : String) :
    ∃ s msg, SeriesObj.init pt px = .ok s ∧ s.getSpectrum nperseg noverlap nfft window df true = .error (.valueError msg) := by
  obtain ⟨s, -, -, -, hs, -, hsx, -, hsd, -⟩ := series_never_fails ht hx h2 hlen hu
  have hxne : x ≠ [] := by rintro rfl; rw [List.length_nil] at hlen; omega
  have hdt := hu.1
  have hneg : roundHalfEven (1 / dt / df) < 0 := by
    obtain ⟨r1, -⟩ := roundHalfEven_spec (1 / dt / df)
    have e : 1 / dt / df = -(1 / (dt * -df)) := by
      have := hdt.ne'; have := hdf.ne; field_simp
    rw [e] at r1
    rw [abs_le] at r1
    rw [e]
    have : ((roundHalfEven (-(1 / (dt * -df))) : ℤ) : ℝ) < 0 := by linarith [r1.1, r1.2]
    exact_mod_cast this
  refine ⟨s, "nperseg must be a positive integer", hs, ?_⟩
  unfold SeriesObj.getSpectrum
  rw [sig_of hsx]
  simp only [bind, Except.bind, if_true, hsd]
  rw [if_neg (by rintro (h | h); exacts [hdf.ne h, hdt.ne' h])]
  unfold welchWrapper welch
  rw [if_neg hdt.ne']
  dsimp only
  have hlt : (if roundHalfEven (1 / dt / df) = 0 then none else some (roundHalfEven (1 / dt / df)) : Option Int).getD 256 < 1 := by
    rw [if_neg hneg.ne, Option.getD_some]; omega
  rw [if_neg hxne, if_pos hlt]

/-- **C174 (empty signal).**  `compute_spectrum_welch_wrapper` of an empty signal returns two empty arrays, before it looks at any other argument. -/
theorem welch_empty {dt : ℝ} (hdt : dt ≠ 0) (nperseg noverlap nfft : Int) (window : String) :
    welchWrapper [] dt nperseg noverlap nfft window = .ok ([], []) := by
  unfold welchWrapper welch
  rw [if_neg hdt]
  dsimp only
  rw [if_pos rfl]

/-! ## Concrete cases -/

theorem axis8 : UniformAxis ([0, 1, 2, 3, 4, 5, 6, 7] : List ℝ) 1 :=
  ⟨by norm_num, fun i hi => by
    simp only [List.length_cons, List.length_nil] at hi
    obtain rfl | rfl | rfl | rfl | rfl | rfl | rfl : i = 0 ∨ i = 1 ∨ i = 2 ∨ i = 3 ∨ i = 4 ∨ i = 5 ∨ i = 6 := by omega
    all_goals norm_num⟩

/-- Eight samples in segments of two with gaps of one: the segments start at samples 0, 3 and 6, and the samples 2 and 5 have no influence. -/
example : ∃ s s', SeriesObj.init (vec [0, 1, 2, 3, 4, 5, 6, 7]) (vec [1, 0, 100, 2, 5, 100, 1, (7 : ℝ)]) = .ok s ∧
    SeriesObj.init (vec [0, 1, 2, 3, 4, 5, 6, 7]) (vec [1, 0, -3, 2, 5, 8, 1, (7 : ℝ)]) = .ok s' ∧
    s.getSpectrum 2 (-1) 0 "hann" 0 false = s'.getSpectrum 2 (-1) 0 "hann" 0 false := by
  refine welch_unused_object (isVec_vec [0, 1, 2, 3, 4, 5, 6, 7]) (isVec_vec [1, 0, 100, 2, 5, 100, 1, (7 : ℝ)]) (isVec_vec [1, 0, -3, 2, 5, 8, 1, (7 : ℝ)]) (by simp) rfl rfl axis8 _ _ _ _ _ fun j hj => ?_
  obtain ⟨i, h1, h3, h4⟩ := hj
  simp only [List.length_cons, List.length_nil] at h1 h3 h4
  norm_num at h1 h3 h4
  rw [show (3 : Int).toNat = 3 from rfl] at h1 h3 h4
  obtain rfl | rfl | rfl : i = 0 ∨ i = 1 ∨ i = 2 := by omega
  · obtain rfl | rfl : j = 0 ∨ j = 1 := by omega
    all_goals simp
  · obtain rfl | rfl : j = 3 ∨ j = 4 := by omega
    all_goals simp
  · obtain rfl | rfl : j = 6 ∨ j = 7 := by omega
    all_goals simp

/-- The same eight samples: the spectrum is the mean of three periodograms. -/
example : ∃ s sp S, ∃ G : Nat → List ℝ, SeriesObj.init (vec [0, 1, 2, 3, 4, 5, 6, 7]) (vec [1, 0, 100, 2, 5, 100, 1, (7 : ℝ)]) = .ok s ∧
    s.getSpectrum (2 : Nat) (-1) (0 : Nat) "hann" 0 false = .ok sp ∧ sp.sVarDens = arr1 S ∧ S.getD 1 0 = ((G 0).getD 1 0 + (G 1).getD 1 0 + (G 2).getD 1 0) / 3 := by
  obtain ⟨s, sp, S, G, h1, h2, h3, -, -, h6⟩ := welch_of_segments (isVec_vec [0, 1, 2, 3, 4, 5, 6, 7]) (isVec_vec [1, 0, 100, 2, 5, 100, 1, (7 : ℝ)])
    (by simp) rfl axis8 (n := 2) (nfft := 0) (step := 3) (nov := -1) (window := "hann") (by decide) le_rfl (by simp) (Or.inl rfl) (by norm_num) (by norm_num) 0
  refine ⟨s, sp, S, G, h1, h2, h3, ?_⟩
  rw [h6 1]
  change mean [_, _, _] = _
  unfold mean
  simp only [List.sum_cons, List.sum_nil, List.length_cons, List.length_nil]
  norm_num
  ring

example : ∃ s msg, SeriesObj.init (vec [0, 1, 2, 3, 4, 5, 6, 7]) (vec [1, 0, 100, 2, 5, 100, 1, (7 : ℝ)]) = .ok s ∧
    s.getSpectrum 256 0 0 "hann" 0 true = .error (.valueError msg) :=
  welch_zero_resolution (isVec_vec [0, 1, 2, 3, 4, 5, 6, 7]) (isVec_vec [1, 0, 100, 2, 5, 100, 1, (7 : ℝ)]) (by simp) rfl axis8 _ _ _ _

/-- A gap of five after segments of two: only the first two of eight samples count. -/
example : ∃ s sp s1 sp1, SeriesObj.init (vec [0, 1, 2, 3, 4, 5, 6, 7]) (vec [1, 0, 100, 2, 5, 100, 1, (7 : ℝ)]) = .ok s ∧
    s.getSpectrum (2 : Nat) (-(5 : Nat)) (4 : Nat) "hamming" 0 false = .ok sp ∧ SeriesObj.init (vec [0, 1]) (vec [1, (0 : ℝ)]) = .ok s1 ∧
    s1.getSpectrum (2 : Nat) (-(5 : Nat)) (4 : Nat) "hamming" 0 false = .ok sp1 ∧ sp1.f = sp.f ∧ sp1.sVarDens = sp.sVarDens :=
  welch_large_gap (isVec_vec [0, 1, 2, 3, 4, 5, 6, 7]) (isVec_vec [1, 0, 100, 2, 5, 100, 1, (7 : ℝ)]) (by simp) rfl axis8 (by decide) le_rfl (by simp)
    (Or.inr (by norm_num)) (by norm_num) (by simp) 0

example : ∃ s msg, SeriesObj.init (vec [0, 1, 2, 3, 4, 5, 6, 7]) (vec [1, 0, 100, 2, 5, 100, 1, (7 : ℝ)]) = .ok s ∧
    s.getSpectrum 256 0 0 "hann" (-1 / 4) true = .error (.valueError msg) :=
  welch_negative_resolution (isVec_vec [0, 1, 2, 3, 4, 5, 6, 7]) (isVec_vec [1, 0, 100, 2, 5, 100, 1, (7 : ℝ)]) (by simp) rfl axis8 (by norm_num) (by norm_num) _ _ _ _

end Verif
