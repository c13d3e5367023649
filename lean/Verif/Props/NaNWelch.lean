import Verif.Props.WelchTotal
import Verif.Props.NaNRaw
import Verif.Props.Welch

/-! # C145: Welch spectra of a record with missing samples -/

namespace Verif
open Finset Complex

set_option linter.unusedSectionVars false

/-! ## Specification -/

/-- Sample `j` of a record of `n` samples is used by a Welch spectrum: it lies in a whole segment of `N` samples (256, or what is asked for, at
most all of them); the segments start every `N - v` samples (`v` half a segment, or what is asked for; a negative `v` is a gap). -/
def UsedSample (n : Nat) (nperseg noverlap : Int) (j : Nat) : Prop :=
  let N := min (if nperseg = 0 then 256 else nperseg.toNat) n
  let v : Int := if noverlap = 0 then ((N / 2 : Nat) : Int) else noverlap
  let step := ((N : Int) - v).toNat
  ∃ i, i * step + N ≤ n ∧ i * step ≤ j ∧ j < i * step + N

/-- Without gaps the used samples are the first ones, this many. -/
def usedSamples (n : Nat) (nperseg noverlap : Int) : Nat :=
  let N := min (if nperseg = 0 then 256 else nperseg.toNat) n
  let v := if noverlap = 0 then N / 2 else noverlap.toNat
  N + (n - N) / (N - v) * (N - v)

theorem usedSamples_le (n : Nat) (nperseg noverlap : Int) : usedSamples n nperseg noverlap ≤ n := by
  unfold usedSamples
  dsimp only
  have h := Nat.div_mul_le_self (n - min (if nperseg = 0 then 256 else nperseg.toNat) n)
    (min (if nperseg = 0 then 256 else nperseg.toNat) n - if noverlap = 0 then min (if nperseg = 0 then 256 else nperseg.toNat) n / 2 else noverlap.toNat)
  have h2 : min (if nperseg = 0 then 256 else nperseg.toNat) n ≤ n := Nat.min_le_right _ _
  omega

/-- Every sample a Welch spectrum uses is a sample of the record. -/
theorem usedSample_lt {n : Nat} {nperseg noverlap : Int} {j : Nat} (h : UsedSample n nperseg noverlap j) : j < n := by
  obtain ⟨i, h1, -, h3⟩ := h
  exact lt_of_lt_of_le h3 h1

/-- With an overlap (none asked for, or one of at least 0 and less than the segment) the used samples are those before `usedSamples`. -/
theorem usedSample_iff {n : Nat} {nperseg noverlap : Int} (h0 : 0 ≤ noverlap)
    (hlt : (if noverlap = 0 then min (if nperseg = 0 then 256 else nperseg.toNat) n / 2 else noverlap.toNat) <
      min (if nperseg = 0 then 256 else nperseg.toNat) n) (j : Nat) :
    UsedSample n nperseg noverlap j ↔ j < usedSamples n nperseg noverlap := by
  unfold UsedSample usedSamples
  dsimp only
  have hNn : min (if nperseg = 0 then 256 else nperseg.toNat) n ≤ n := Nat.min_le_right _ _
  generalize min (if nperseg = 0 then 256 else nperseg.toNat) n = N at hlt hNn ⊢
  have e : ((N : Int) - if noverlap = 0 then ((N / 2 : Nat) : Int) else noverlap).toNat = N - if noverlap = 0 then N / 2 else noverlap.toNat := by
    split_ifs at hlt ⊢ <;> omega
  rw [e]
  generalize (if noverlap = 0 then N / 2 else noverlap.toNat) = o at hlt ⊢
  have hstep : 0 < N - o := by omega
  constructor
  · rintro ⟨i, h1, -, h3⟩
    have h5 : i ≤ (n - N) / (N - o) := (Nat.le_div_iff_mul_le hstep).2 (by omega)
    have h6 : i * (N - o) ≤ (n - N) / (N - o) * (N - o) := Nat.mul_le_mul_right _ h5
    omega
  · intro hj
    have hq' := Nat.div_mul_le_self (n - N) (N - o)
    by_cases hc : j / (N - o) ≤ (n - N) / (N - o)
    · have h6 : j / (N - o) * (N - o) ≤ (n - N) / (N - o) * (N - o) := Nat.mul_le_mul_right _ hc
      refine ⟨j / (N - o), by omega, Nat.div_mul_le_self _ _, ?_⟩
      have := Nat.lt_div_mul_add (a := j) hstep
      omega
    · refine ⟨(n - N) / (N - o), by omega, ?_, by omega⟩
      have h5 : (n - N) / (N - o) * (N - o) ≤ j / (N - o) * (N - o) := Nat.mul_le_mul_right _ (by omega)
      have h6 := Nat.div_mul_le_self j (N - o)
      omega

/-! ## One segment -/

theorem segmentPsdN_some (A : FftN) (fs : ℝ) (w : List ℝ) (nf : Nat) (seg : List ℝ) :
    segmentPsdN A fs w nf (seg.map some) = (segmentPsd fs w nf seg).map some := by
  unfold segmentPsdN segmentPsd
  dsimp only
  rw [nMean_some]
  have e1 : (seg.map some).map (fun v => nSub v (some (mean seg))) = (seg.map fun v => v - mean seg).map some := by
    rw [List.map_map, List.map_map]; rfl
  have e2 : List.zipWith nScale w ((seg.map fun v => v - mean seg).map some) = (List.zipWith (· * ·) w (seg.map fun v => v - mean seg)).map some := by
    rw [List.zipWith_map_right, List.map_zipWith]; rfl
  rw [e1, e2, List.length_map]
  have e3 : ∀ k, (List.zipWith (· * ·) w (seg.map fun v => v - mean seg)).map some ++ List.replicate k (some 0) =
      (List.zipWith (· * ·) w (seg.map fun v => v - mean seg) ++ List.replicate k 0).map some := by
    intro k; rw [List.map_append, List.map_replicate]
  rw [e3, A.fwd_num, List.map_map]
  refine List.map_congr_left fun k _ => ?_
  have e4 : ∀ Y : List ℂ, (Y.map cnum).getD k (some 0, some 0) = cnum (Y.getD k 0) := by
    intro Y
    rw [List.getD, List.getElem?_map, List.getD]
    cases Y[k]? <;> rfl
  simp only [Function.comp]
  rw [e4]
  simp only [cnum, Complex.normSq_apply, nScale]
  split_ifs
  · rfl
  · rfl
  · rw [mul_comm (2 : ℝ)]

theorem segmentPsdN_none (A : FftN) (fs : ℝ) {w : List ℝ} {nf : Nat} {seg : List (Option ℝ)} (hw : w.length = seg.length) (hn : none ∈ seg)
    (hf : seg.length ≤ nf) : segmentPsdN A fs w nf seg = List.replicate (nf / 2 + 1) none := by
  have hpos : 0 < seg.length := List.length_pos_of_mem hn
  unfold segmentPsdN
  dsimp only
  have e0 : nMean seg = none := by
    unfold nMean; rw [allFinite_none.2 hn]; rfl
  set d := List.zipWith nScale w (seg.map fun v => nSub v (nMean seg)) with hd
  have hdl : d.length = seg.length := by simp [hd, hw]
  have hdn : none ∈ d ++ List.replicate (nf - d.length) (some 0) := by
    refine List.mem_append_left _ (List.mem_iff_getElem.2 ⟨0, by omega, ?_⟩)
    simp only [hd, List.getElem_zipWith, List.getElem_map, e0]
    cases seg[0] <;> rfl
  refine List.ext_getElem (by simp) fun k hk _ => ?_
  rw [List.getElem_map, List.getElem_range, List.getElem_replicate]
  have hk' : k < nf / 2 + 1 := by simpa using hk
  obtain ⟨c, hc, hcn⟩ := A.fwd_all hdn (k := k) (by rw [List.length_append, List.length_replicate]; omega)
  have e5 : (A.fwd (d ++ List.replicate (nf - d.length) (some 0))).getD k (some 0, some 0) = c := by rw [List.getD, hc]; rfl
  rw [e5]
  obtain ⟨a, b⟩ := c
  rcases hcn with h | h
  · simp only at h; subst h; simp only [nScale, ite_self]
  · simp only at h; subst h
    cases a <;> simp only [nScale, ite_self]

/-! ## All segments -/

theorem pySlice_completes {x : List (Option ℝ)} {v : List ℝ} (hv : Completes x v) {a b : Nat} (hb : b ≤ x.length) (hab : a ≤ b)
    (hno : ∀ j : Nat, a ≤ j → j < b → x.getD j none ≠ none) : pySlice x a b = (pySlice v a b).map some := by
  rw [pySlice_eq x none hb, pySlice_eq v 0 (by rw [hv.1]; exact hb), List.map_map]
  refine List.map_congr_left fun j hj => ?_
  have hj := List.mem_range.1 hj
  rcases hv.2 (a + j) (by omega) with h | h
  · exact absurd h (hno (a + j) (by omega) (by omega))
  · exact h

theorem mem_pySlice_none {x : List (Option ℝ)} {a b j : Nat} (hb : b ≤ x.length) (h1 : a ≤ j) (h2 : j < b) (hj : x.getD j none = none) :
    none ∈ pySlice x a b := by
  rw [pySlice_eq x none hb]
  refine List.mem_map.2 ⟨j - a, List.mem_range.2 (by omega), ?_⟩
  rw [show a + (j - a) = j by omega, hj]

/-- **C145.** `compute_spectrum_welch_wrapper` of a record with missing samples raises exactly when it does for a filled record, and otherwise
returns the same frequencies.  If one of the samples it uses is missing, every density is NaN; samples that lie in the part of the
record it does not use have no influence. -/
theorem gap_welch (A : FftN) {x : List (Option ℝ)} {v : List ℝ} (hv : Completes x v) (dt : ℝ) (nperseg noverlap nfft : Int) (window : String) :
    (∀ e, welchWrapper v dt nperseg noverlap nfft window = .error e → welchWrapperN A x dt nperseg noverlap nfft window = .error e) ∧
    ∀ f S, welchWrapper v dt nperseg noverlap nfft window = .ok (f, S) →
      ((∃ j, UsedSample x.length nperseg noverlap j ∧ x.getD j none = none) →
        welchWrapperN A x dt nperseg noverlap nfft window = .ok (f, List.replicate f.length none)) ∧
      ((∀ j, UsedSample x.length nperseg noverlap j → x.getD j none ≠ none) →
        welchWrapperN A x dt nperseg noverlap nfft window = .ok (f, S.map some)) := by
  have hnil : x = [] ↔ v = [] := by rw [← List.length_eq_zero_iff, ← List.length_eq_zero_iff, hv.1]
  unfold welchWrapper welchWrapperN
  by_cases hdt : dt = 0
  · rw [if_pos hdt, if_pos hdt]
    exact ⟨fun e h => by cases h; rfl, fun f S h => by cases h⟩
  rw [if_neg hdt, if_neg hdt]
  dsimp only
  unfold welch welchN
  by_cases hx : x = []
  · rw [if_pos hx, if_pos (hnil.1 hx)]
    refine ⟨fun e h => (by cases h), fun f S h => ?_⟩
    cases h
    exact ⟨fun _ => rfl, fun _ => rfl⟩
  rw [if_neg hx, if_neg (fun h => hx (hnil.2 h))]
  set np : Option Int := if nperseg = 0 then none else some nperseg with hnp
  set no : Option Int := if noverlap = 0 then none else some noverlap with hno
  set nff : Option Int := if nfft = 0 then none else some nfft with hnff
  by_cases h1 : np.getD 256 < 1
  · rw [if_pos h1, if_pos h1]
    exact ⟨fun e h => by cases h; rfl, fun f S h => by cases h⟩
  rw [if_neg h1, if_neg h1]
  dsimp only
  rw [hv.1]
  set N := min (np.getD 256).toNat x.length with hN
  cases hw : getWindow window N with
  | error e => exact ⟨fun e h => by cases h; rfl, fun f S h => by cases h⟩
  | ok w =>
    dsimp only
    by_cases h2 : nff.getD N < N
    · rw [if_pos h2, if_pos h2]
      exact ⟨fun e h => by cases h; rfl, fun f S h => by cases h⟩
    rw [if_neg h2, if_neg h2]
    by_cases h3 : (N : Int) ≤ no.getD (N / 2 : Nat)
    · rw [if_pos h3, if_pos h3]
      exact ⟨fun e h => by cases h; rfl, fun f S h => by cases h⟩
    rw [if_neg h3, if_neg h3]
    refine ⟨fun e h => (by cases h), fun f S h => ?_⟩
    simp only [Except.ok.injEq, Prod.mk.injEq] at h
    obtain ⟨hf, hS⟩ := h
    set st := ((N : Int) - no.getD (N / 2 : Nat)).toNat with hst
    set M := (nff.getD N).toNat with hM
    have hNM : N ≤ M := by omega
    have hNx : N ≤ x.length := Nat.min_le_right _ _
    have hN1 : 1 ≤ N := by
      have : 0 < x.length := List.length_pos_iff.2 hx
      omega
    have hwl := getWindow_length hw
    have hstep : 0 < st := by omega
    set q := (x.length - N) / st with hq
    have hq' : q * st ≤ x.length - N := Nat.div_mul_le_self _ _
    have hused : ∀ j, UsedSample x.length nperseg noverlap j ↔ ∃ i < q + 1, i * st ≤ j ∧ j < i * st + N := by
      intro j
      have a : min (if nperseg = 0 then 256 else nperseg.toNat) x.length = N := by
        rw [hN, hnp]; by_cases h : nperseg = 0 <;> simp [h]
      have b : (if noverlap = 0 then ((N / 2 : Nat) : Int) else noverlap) = no.getD (N / 2 : Nat) := by
        rw [hno]
        by_cases h : noverlap = 0
        · rw [if_pos h, if_pos h]; rfl
        · rw [if_neg h, if_neg h]; rfl
      unfold UsedSample
      dsimp only
      rw [a, b, ← hst]
      have hc : ∀ i, i * st + N ≤ x.length ↔ i < q + 1 := by
        intro i
        rw [Nat.lt_succ_iff, hq, Nat.le_div_iff_mul_le hstep]
        omega
      simp only [hc]
    have hseg : ∀ i, i < q + 1 → i * st + N ≤ x.length := by
      intro i hi
      have : i * st ≤ q * st := Nat.mul_le_mul_right _ (by omega)
      omega
    have hsl : ∀ i, i < q + 1 → (pySlice x (i * st) (i * st + N)).length = N := by
      intro i hi
      rw [pySlice_eq x none (hseg i hi), List.length_map, List.length_range]; omega
    have hfl : f.length = M / 2 + 1 := by rw [← hf]; simp
    refine ⟨?_, ?_⟩
    · rintro ⟨j, hj, hjn⟩
      congr 1
      refine Prod.ext hf ?_
      rw [hfl]
      refine List.ext_getElem (by simp) fun k hk _ => ?_
      rw [List.getElem_map, List.getElem_range, List.getElem_replicate]
      obtain ⟨i, hi, hi1, hi2⟩ := (hused j).1 hj
      unfold nMean
      rw [allFinite_none.2]
      · rfl
      · rw [List.map_map, List.map_map]
        refine List.mem_map.2 ⟨i, List.mem_range.2 hi, ?_⟩
        simp only [Function.comp]
        rw [segmentPsdN_none A _ (by rw [hwl, hsl i hi]) (mem_pySlice_none (hseg i hi) hi1 hi2 hjn) (by rw [hsl i hi]; exact hNM)]
        rw [List.getD, List.getElem?_replicate]
        split_ifs <;> rfl
    · intro hall
      congr 1
      refine Prod.ext hf ?_
      rw [← hS]
      conv_rhs => rw [List.map_map]
      refine List.map_congr_left fun k hk => ?_
      have hk' := List.mem_range.1 hk
      simp only [Function.comp]
      unfold segments
      rw [hv.1, ← nMean_some]
      simp only [List.map_map]
      congr 1
      refine List.map_congr_left fun i hi => ?_
      have hi' := List.mem_range.1 hi
      simp only [Function.comp]
      rw [pySlice_completes hv (hseg i hi') (by omega) (fun j hj1 hj => hall j ((hused j).2 ⟨i, hi', hj1, hj⟩)), segmentPsdN_some]
      rw [List.getD, List.getElem?_map, List.getElem?_eq_getElem (by rw [segmentPsd_length]; exact hk'),
        List.getD_eq_getElem _ _ (by rw [segmentPsd_length]; exact hk')]
      rfl

/-- **C145 (object).** `Series.get_spectrum` of a record with missing samples, with the segment settings given (`use_dfDesired = False`): if the
call on a filled record returns an object, this call returns one with the same frequencies; its densities are all NaN if a used sample
is missing, and those of the filled record otherwise. -/
theorem gap_welch_object (A : FftN) {s : SeriesN ℝ} {t : List ℝ} {x : List (Option ℝ)} {dt : ℝ} (hu : UniformAxis t dt) (h2 : 2 ≤ t.length)
    (hl : t.length = x.length) (hsx : s.xTime = arr1 x) (hsd : s.dt = some dt) {v : List ℝ} (hv : Completes x v)
    {c : SeriesObj ℝ} (hc : SeriesObj.init (vec t) (vec v) = .ok c) (nperseg noverlap nfft : Int) (window : String) (df : ℝ) {g : SpecObj}
    (hg : c.getSpectrum nperseg noverlap nfft window df false = .ok g) :
    ((∃ j, UsedSample x.length nperseg noverlap j ∧ x.getD j none = none) → ∃ g', s.getSpectrum A nperseg noverlap nfft window df false = .ok g' ∧
      g'.f = g.f ∧ g'.sVarDens = List.replicate g.f.length none) ∧
    ((∀ j, UsedSample x.length nperseg noverlap j → x.getD j none ≠ none) → ∃ g', s.getSpectrum A nperseg noverlap nfft window df false = .ok g' ∧
      g'.f = g.f ∧ g'.sVarDens = g.sVarDens.data.map some) := by
  have hvl : t.length = v.length := by rw [hv.1, hl]
  obtain ⟨hvs, -, hcd⟩ := validSeries_of_init (isVec_vec t) (isVec_vec v) h2 hvl hu hc
  obtain ⟨-, hok⟩ := gap_welch A hv dt nperseg noverlap nfft window
  have e1 : c.getSpectrum nperseg noverlap nfft window df false =
      (welchWrapper v dt nperseg noverlap nfft window >>= fun p => SpecObj.init (vec p.1) (vec p.2)) := by
    unfold SeriesObj.getSpectrum SeriesObj.sig
    rw [hvs.xTime, hcd]
    rfl
  have e2 : s.getSpectrum A nperseg noverlap nfft window df false =
      (welchWrapperN A x dt nperseg noverlap nfft window >>= fun p => SpecObjN.init (vec p.1) (vec p.2)) := by
    unfold SeriesN.getSpectrum
    rw [hsx, hsd]
    rfl
  rw [e1] at hg
  cases hw : welchWrapper v dt nperseg noverlap nfft window with
  | error e => rw [hw] at hg; cases hg
  | ok p =>
    obtain ⟨f, S⟩ := p
    rw [hw] at hg
    obtain ⟨a, b, rfl⟩ := (spectrum_init_iff_partial (isArr_vec f) (isArr_vec S)).1 hg
    obtain ⟨q1, q2⟩ := hok f S hw
    refine ⟨fun h => ?_, fun h => ?_⟩
    · rw [e2, q1 h]
      exact ⟨_, SpecObjN.init_ok (S := List.replicate f.length none) a (by simp), rfl, rfl⟩
    · rw [e2, q2 h]
      exact ⟨_, SpecObjN.init_ok (S := S.map some) a (by simpa using b), rfl, rfl⟩

/-- **C145 (object, by resolution).** `Series.get_spectrum` with `use_dfDesired = True` (the default): the segment length is `1 / (dt df)` rounded,
the overlap half of it rounded, and the dichotomy of `gap_welch_object` holds with these; `nperseg` and `noverlap` have no influence. -/
theorem gap_welch_resolution (A : FftN) {s : SeriesN ℝ} {t : List ℝ} {x : List (Option ℝ)} {dt : ℝ} (hu : UniformAxis t dt) (h2 : 2 ≤ t.length)
    (hl : t.length = x.length) (hsx : s.xTime = arr1 x) (hsd : s.dt = some dt) {v : List ℝ} (hv : Completes x v)
    {c : SeriesObj ℝ} (hc : SeriesObj.init (vec t) (vec v) = .ok c) (nperseg noverlap nfft : Int) (window : String) (df : ℝ) {g : SpecObj}
    (hg : c.getSpectrum nperseg noverlap nfft window df true = .ok g) :
    ∃ N o : Int, IsRounded N (1 / (dt * df)) ∧ IsRounded o ((N : ℝ) / 2) ∧
      ((∃ j, UsedSample x.length N o j ∧ x.getD j none = none) → ∃ g', s.getSpectrum A nperseg noverlap nfft window df true = .ok g' ∧
        g'.f = g.f ∧ g'.sVarDens = List.replicate g.f.length none) ∧
      ((∀ j, UsedSample x.length N o j → x.getD j none ≠ none) → ∃ g', s.getSpectrum A nperseg noverlap nfft window df true = .ok g' ∧
        g'.f = g.f ∧ g'.sVarDens = g.sVarDens.data.map some) := by
  have hvl : t.length = v.length := by rw [hv.1, hl]
  obtain ⟨hvs, -, hcd⟩ := validSeries_of_init (isVec_vec t) (isVec_vec v) h2 hvl hu hc
  have hdf : ¬ (df = 0 ∨ dt = 0) := by
    intro h
    unfold SeriesObj.getSpectrum SeriesObj.sig at hg
    rw [hvs.xTime, hcd] at hg
    simp only [bind, Except.bind, if_true, arr1] at hg
    rw [if_pos h] at hg
    cases hg
  refine ⟨roundHalfEven (1 / dt / df), roundHalfEven ((roundHalfEven (1 / dt / df) : ℝ) / 2), ?_, roundHalfEven_spec _, ?_⟩
  · rw [← div_div]; exact roundHalfEven_spec _
  have e1 : c.getSpectrum nperseg noverlap nfft window df true =
      c.getSpectrum (roundHalfEven (1 / dt / df)) (roundHalfEven ((roundHalfEven (1 / dt / df) : ℝ) / 2)) nfft window df false := by
    unfold SeriesObj.getSpectrum SeriesObj.sig
    rw [hvs.xTime, hcd]
    simp only [bind, Except.bind, if_true, Bool.false_eq_true, if_false, arr1]
    rw [if_neg hdf]
  have e2 : s.getSpectrum A nperseg noverlap nfft window df true =
      s.getSpectrum A (roundHalfEven (1 / dt / df)) (roundHalfEven ((roundHalfEven (1 / dt / df) : ℝ) / 2)) nfft window df false := by
    unfold SeriesN.getSpectrum
    rw [hsx, hsd]
    simp only [bind, Except.bind, if_true, Bool.false_eq_true, if_false, arr1]
    rw [if_neg hdf]
  rw [e1] at hg
  rw [e2]
  exact gap_welch_object A hu h2 hl hsx hsd hv hc _ _ nfft window df hg

/-! ## Concrete cases -/

/-- Nine samples in segments of 4 with overlap 2: eight samples are used. -/
example : usedSamples 9 4 2 = 8 ∧ usedSamples 9 4 0 = 8 ∧ usedSamples 9 0 0 = 9 := by decide +kernel

/-- Five samples in segments of 2, overlap 0 (none asked for: half a segment, 1): with an overlap of 1 all samples are used; the missing
sample in the middle erases everything. -/
example : ∃ s g, SeriesN.init (vec (([0, 1, 2, 3, 4] : List ℝ).map some)) (vec [some 1, some 0, none, some 0, some 2]) = .ok s ∧
    s.getSpectrum FftN.strict (2 : Nat) (1 : Nat) (4 : Nat) "boxcar" 0 false = .ok g ∧ g.sVarDens = List.replicate g.f.length none := by
  obtain ⟨s, -, -, -, h1, h3, h4, -, h5, -⟩ := gap_series (x := ([some 1, some 0, none, some 0, some 2] : List (Option ℝ))) axis5 rfl (by simp)
  obtain ⟨c, g, S, hc, hg, -⟩ := get_spectrum_explicit (isVec_vec ([0, 1, 2, 3, 4] : List ℝ)) (isVec_vec ([1, 0, 9, 0, 2] : List ℝ))
    (by simp) (by simp) axis5 (nps := 2) (nov := 1) (nfft := 4) (N := 2) (v := 1) (M := 4) (window := "boxcar") (w := [1, 1]) (by simp) (by simp) (by simp) (by norm_num) (by norm_num) (by norm_num) (by norm_num) rfl 0
  obtain ⟨g', a, b, d⟩ := (gap_welch_object FftN.strict axis5 (by simp) (x := [some 1, some 0, none, some 0, some 2]) rfl h4 h5
    (v := [1, 0, 9, 0, 2]) ⟨rfl, fun i hi => by
      have : i < 5 := hi
      interval_cases i <;> simp⟩ hc _ _ _ _ 0 hg).1 ⟨2, (usedSample_iff (by decide +kernel) (by decide +kernel) 2).2 (by decide +kernel), rfl⟩
  exact ⟨s, g', h1, a, by rw [b]; exact d⟩

/-- Segments of 2, 3 samples apart is not possible; segments of 4 with overlap 2 leave the last of five samples unused: missing there, it has
no influence. -/
example : usedSamples 5 4 2 = 4 ∧ ∃ s g g' c, SeriesN.init (vec (([0, 1, 2, 3, 4] : List ℝ).map some)) (vec [some 1, some 0, some 9, some 0, none]) = .ok s ∧
    SeriesObj.init (vec [0, 1, 2, 3, 4]) (vec [1, 0, 9, 0, (2 : ℝ)]) = .ok c ∧
    c.getSpectrum (4 : Nat) (2 : Nat) (4 : Nat) "boxcar" 0 false = .ok g ∧
    s.getSpectrum FftN.strict (4 : Nat) (2 : Nat) (4 : Nat) "boxcar" 0 false = .ok g' ∧ g'.f = g.f ∧ g'.sVarDens = g.sVarDens.data.map some := by
  refine ⟨by decide +kernel, ?_⟩
  obtain ⟨s, -, -, -, h1, h3, h4, -, h5, -⟩ := gap_series (x := ([some 1, some 0, some 9, some 0, none] : List (Option ℝ))) axis5 rfl (by simp)
  obtain ⟨c, g, S, hc, hg, -⟩ := get_spectrum_explicit (isVec_vec ([0, 1, 2, 3, 4] : List ℝ)) (isVec_vec ([1, 0, 9, 0, 2] : List ℝ))
    (by simp) (by simp) axis5 (nps := 4) (nov := 2) (nfft := 4) (N := 4) (v := 2) (M := 4) (window := "boxcar") (w := [1, 1, 1, 1]) (by simp) (by simp) (by simp) (by norm_num) (by norm_num) (by norm_num) (by norm_num) rfl 0
  obtain ⟨g', a, b, d⟩ := (gap_welch_object FftN.strict axis5 (by simp) (x := [some 1, some 0, some 9, some 0, none]) rfl h4 h5
    (v := [1, 0, 9, 0, 2]) ⟨rfl, fun i hi => by
      have : i < 5 := hi
      interval_cases i <;> simp⟩ hc _ _ _ _ 0 hg).2 (fun j hj => by
      have hj : j < 4 := by have : usedSamples 5 4 2 = 4 := by decide +kernel
                            have h6 := (usedSample_iff (by decide +kernel) (by decide +kernel) j).1 hj
                            exact this ▸ h6
      interval_cases j <;> simp)
  exact ⟨s, g, g', c, h1, hc, hg, a, b, d⟩

/-- The resolution 1/2 with a step of 1: segments of 2 samples with overlap 1, all five samples are used. -/
example : ∃ s g, SeriesN.init (vec (([0, 1, 2, 3, 4] : List ℝ).map some)) (vec [some 1, some 0, none, some 0, some 2]) = .ok s ∧
    s.getSpectrum FftN.strict 0 0 0 "hann" (1 / 2) true = .ok g ∧ g.sVarDens = List.replicate g.f.length none := by
  obtain ⟨s, -, -, -, h1, h3, h4, -, h5, -⟩ := gap_series (x := ([some 1, some 0, none, some 0, some 2] : List (Option ℝ))) axis5 rfl (by simp)
  obtain ⟨c, N, v, hc, hN, hv, -, -, hg, -⟩ := get_spectrum_total (isVec_vec ([0, 1, 2, 3, 4] : List ℝ)) (isVec_vec ([1, 0, 9, 0, 2] : List ℝ))
    (by simp) (by simp) axis5 (df := 1 / 2) (by norm_num) 0 0
  have e : ∀ (k : ℤ) (y : ℝ), y = k → IsRounded k y := by
    intro k y h; rw [h]; unfold IsRounded; norm_num
  have hN2 : N = 2 := by
    have := isRounded_unique hN (e 2 _ (by norm_num))
    omega
  subst hN2
  have hv1 : v = 1 := by
    have := isRounded_unique hv (e 1 _ (by norm_num))
    omega
  subst hv1
  obtain ⟨g, S, hg, -⟩ := hg le_rfl (by simp)
  obtain ⟨N, o, hN', ho, a, -⟩ := gap_welch_resolution FftN.strict axis5 (by simp) (x := [some 1, some 0, none, some 0, some 2]) rfl h4 h5
    (v := [1, 0, 9, 0, 2]) ⟨rfl, fun i hi => by
      have : i < 5 := hi
      interval_cases i <;> simp⟩ hc _ _ _ _ _ hg
  have hN2 : N = 2 := isRounded_unique hN' (e 2 _ (by norm_num))
  subst hN2
  have ho1 : o = 1 := isRounded_unique ho (e 1 _ (by norm_num))
  subst ho1
  obtain ⟨g', p, q, r⟩ := a ⟨2, (usedSample_iff (by decide +kernel) (by decide +kernel) 2).2 (by decide +kernel), rfl⟩
  exact ⟨s, g', h1, p, by rw [q]; exact r⟩

example : ∃ f S, welchWrapper [1, 0, 9, 0, 2] 1 (2 : Nat) (1 : Nat) (4 : Nat) "boxcar" = .ok (f, S) ∧
    welchWrapperN FftN.strict [some 1, some 0, none, some 0, some 2] 1 (2 : Nat) (1 : Nat) (4 : Nat) "boxcar" = .ok (f, List.replicate f.length none) := by
  obtain ⟨f, S, h, -⟩ := welch_ok (x := [1, 0, 9, 0, 2]) (by simp) (dt := 1) (window := "boxcar") (nperseg := some 2) (noverlap := some 1) (nfft := some 4)
    (N := 2) (v := 1) (M := 4) (w := [1, 1]) (by simp) (by simp) rfl rfl rfl (by norm_num) rfl (by norm_num)
  have hw : welchWrapper [1, 0, 9, 0, 2] 1 (2 : Nat) (1 : Nat) (4 : Nat) "boxcar" = .ok (f, S) := by
    unfold welchWrapper
    rw [if_neg (by norm_num)]
    exact h
  refine ⟨f, S, hw, ((gap_welch FftN.strict (x := [some 1, some 0, none, some 0, some 2]) (v := [1, 0, 9, 0, 2]) ⟨rfl, fun i hi => ?_⟩ 1 _ _ _ _).2 f S hw).1 ⟨2, (usedSample_iff (by decide +kernel) (by decide +kernel) 2).2 ?_, rfl⟩⟩
  · have h6 : i < 5 := hi
    obtain rfl | rfl | rfl | rfl | rfl : i = 0 ∨ i = 1 ∨ i = 2 ∨ i = 3 ∨ i = 4 := by omega
    all_goals simp
  · decide +kernel

end Verif
