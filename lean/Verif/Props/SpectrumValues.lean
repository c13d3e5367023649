import Verif.Props.Spectrum

/-! # C44–C46: values returned by the `Spectrum` getters -/

set_option linter.unusedSectionVars false

namespace Verif
open Finset

/-! ## C46: the peak period -/

/-- Grid point `k` is in the requested range; `-1` means no bound. -/
def InRange (f : List ℝ) (fmin : ℝ) (fmax : FMax ℝ) (k : Nat) : Prop :=
  k < f.length ∧ (fmin = -1 ∨ fmin ≤ f.getD k 0) ∧
    match fmax with
    | .fin F => F = -1 ∨ f.getD k 0 ≤ F
    | .inf => True

theorem inRange_iff {f : List ℝ} (hp : f.Pairwise (· < ·)) (fmin : ℝ) (fmax : FMax ℝ) (k : Nat) :
    InRange f fmin fmax k ↔ k < f.length ∧ (setFlim f fmin fmax).1 ≤ f.getD k 0 ∧ (setFlim f fmin fmax).2.ge (f.getD k 0) = true := by
  unfold InRange setFlim
  by_cases hk : k < f.length
  · have h1 := inc_le hp (Nat.zero_le k) hk
    have h2 := inc_le hp (show k ≤ f.length - 1 by omega) (by omega)
    have a : (fmin = -1 ∨ fmin ≤ f.getD k 0) ↔ (if fmin = -1 then f.getD 0 0 else fmin) ≤ f.getD k 0 := by
      split_ifs with h
      · exact ⟨fun _ => h1, fun _ => Or.inl h⟩
      · exact ⟨fun h' => h'.resolve_left h, fun h' => Or.inr h'⟩
    simp only [hk, true_and]
    apply and_congr a
    cases fmax with
    | inf => simp [FMax.ge]
    | fin F =>
      by_cases h : F = -1
      · subst h; simp only [true_or, if_true, FMax.ge, decide_eq_true_eq, true_iff]; exact h2
      · simp [h, FMax.ge]
  · simp [hk]

/-- The slice between two limits consists exactly of the grid points in the range. -/
theorem bandSlice_spec {f S : List ℝ} (hp : f.Pairwise (· < ·)) {lo : ℝ} {hi : FMax ℝ} {r : List ℝ × List ℝ}
    (h : bandSlice f S lo hi = .ok r) : ∃ i j, j < f.length ∧ r = (pySlice f i (j + 1), pySlice S i (j + 1)) ∧
      ∀ k, (i ≤ k ∧ k ≤ j) ↔ (k < f.length ∧ lo ≤ f.getD k 0 ∧ hi.ge (f.getD k 0) = true) := by
  unfold bandSlice at h
  rw [bind_ok] at h
  obtain ⟨i, hi', h⟩ := h
  rw [bind_ok] at h
  obtain ⟨j, hj', h⟩ := h
  obtain ⟨⟨vi, ai, bi⟩, ci⟩ := first_where_spec hi'
  obtain ⟨⟨vj, aj, bj⟩, cj⟩ := last_where_spec hj'
  obtain ⟨hil, ai⟩ := List.getElem?_eq_some_iff.1 ai
  obtain ⟨hjl, aj⟩ := List.getElem?_eq_some_iff.1 aj
  have ei : f.getD i 0 = vi := by rw [List.getD_eq_getElem _ _ hil, ai]
  have ej : f.getD j 0 = vj := by rw [List.getD_eq_getElem _ _ hjl, aj]
  simp only [decide_eq_true_eq] at bi
  refine ⟨i, j, hjl, (Except.ok.inj h).symm, fun k => ⟨?_, ?_⟩⟩
  · rintro ⟨hik, hkj⟩
    have h1 := inc_le hp hik (by omega)
    have h2 := inc_le hp hkj hjl
    refine ⟨by omega, by rw [ei] at h1; linarith, ?_⟩
    rw [ej] at h2
    cases hi with
    | inf => rfl
    | fin F => simp only [FMax.ge, decide_eq_true_eq] at bj ⊢; linarith
  · rintro ⟨hk, h1, h2⟩
    have e : f[k]? = some (f.getD k 0) := by rw [List.getD_eq_getElem _ _ hk]; exact List.getElem?_eq_getElem hk
    exact ⟨ci k _ e (by simpa using h1), cj k _ e h2⟩

theorem bandSlice_defined {f S : List ℝ} {lo : ℝ} {hi : FMax ℝ} {k : Nat}
    (hk : k < f.length ∧ lo ≤ f.getD k 0 ∧ hi.ge (f.getD k 0) = true) : ∃ r, bandSlice f S lo hi = .ok r := by
  obtain ⟨hk, h1, h2⟩ := hk
  have e : f[k]? = some (f.getD k 0) := by rw [List.getD_eq_getElem _ _ hk]; exact List.getElem?_eq_getElem hk
  obtain ⟨i, hi'⟩ := first_where_exists (p := fun v => decide (lo ≤ v)) ⟨k, _, e, by simpa using h1⟩
  obtain ⟨j, hj'⟩ := last_where_exists (p := fun v => hi.ge v) ⟨k, _, e, h2⟩
  refine ⟨(pySlice f i (j + 1), pySlice S i (j + 1)), ?_⟩
  unfold bandSlice
  rw [hi', hj']; rfl

theorem getElem?_of_getD {l : List ℝ} {k : Nat} (hk : k < l.length) : l[k]? = some (l.getD k 0) := by
  rw [List.getD_eq_getElem _ _ hk]; exact List.getElem?_eq_getElem hk

/-- What `get_Tp` should return: the inverse of the last frequency in the range whose density is maximal there. -/
def IsPeakPeriod (f S : List ℝ) (fmin : ℝ) (fmax : FMax ℝ) (T : ℝ) : Prop :=
  ∃ k, InRange f fmin fmax k ∧ f.getD k 0 ≠ 0 ∧ T = 1 / f.getD k 0 ∧
    ∀ l, InRange f fmin fmax l → S.getD l 0 ≤ S.getD k 0 ∧ (k < l → S.getD l 0 < S.getD k 0)

/-- **C46.**  `get_Tp` returns the inverse of a frequency in the range at which the density is maximal among all grid
frequencies in the range, the highest such frequency in case of ties. -/
theorem get_Tp_spec {pf pS : PyIn ℝ} {f S : List ℝ} (hf : pf.IsArr f) (hS : pS.IsArr S) {s : SpecObj}
    (hs : SpecObj.init pf pS = .ok s) {fmin : ℝ} {fmax : FMax ℝ} {T : ℝ} (h : (s.getTp fmin fmax).1 = .ok T) :
    IsPeakPeriod f S fmin fmax T := by
  obtain ⟨hm, hl, rfl⟩ := (spectrum_init_iff_partial hf hS).1 hs
  have hp := uniform_check_increasing hm
  simp only [SpecObj.getTp, calcTp, List.length_cons, List.length_nil, ne_eq, zero_add, not_true_eq_false, if_false] at h
  rw [bind_ok] at h
  obtain ⟨r, hr, h⟩ := h
  obtain ⟨i, j, hj, rfl, hiff⟩ := bandSlice_spec hp hr
  have hin : ∀ k, InRange f fmin fmax k ↔ i ≤ k ∧ k ≤ j := fun k => (inRange_iff hp fmin fmax k).trans (hiff k).symm
  unfold peakPeriod at h
  dsimp only at h
  rw [bind_ok] at h
  obtain ⟨Smax, hmax, h⟩ := h
  rw [bind_ok] at h
  obtain ⟨ifp, hifp, h⟩ := h
  rw [bind_ok] at h
  obtain ⟨fp, hfp, h⟩ := h
  obtain ⟨-, hmax⟩ := pyMax_spec hmax
  obtain ⟨⟨v, hv, ev⟩, hlast⟩ := last_where_spec hifp
  simp only [decide_eq_true_eq] at ev
  subst ev
  rw [getE_ok] at hfp
  rw [pySlice_getElem?] at hv hfp
  split_ifs at hv with hlt
  rw [if_pos hlt] at hfp
  have hkf : i + ifp < f.length := by omega
  rw [getElem?_of_getD hkf] at hfp
  rw [getElem?_of_getD (by omega)] at hv
  have hfp := Option.some.inj hfp
  have hv := Option.some.inj hv
  unfold invE at h
  split_ifs at h with h0
  refine ⟨i + ifp, (hin _).2 ⟨by omega, by omega⟩, by rw [hfp]; exact h0, by rw [hfp]; exact (Except.ok.inj h).symm, ?_⟩
  intro l hlr
  obtain ⟨hil, hlj⟩ := (hin l).1 hlr
  have hmem : (pySlice S i (j + 1))[l - i]? = some (S.getD l 0) := by
    rw [pySlice_getElem?, if_pos (by omega), show i + (l - i) = l by omega]
    exact getElem?_of_getD (by omega)
  have hle : S.getD l 0 ≤ S.getD (i + ifp) 0 := by rw [hv]; exact hmax _ (List.mem_of_getElem? hmem)
  refine ⟨hle, fun hkl => lt_of_le_of_ne hle fun heq => ?_⟩
  have := hlast (l - i) _ hmem (by rw [heq, hv]; simp)
  omega

/-- **C46 (converse).**  Whenever the specified value exists, `get_Tp` returns it. -/
theorem get_Tp_complete {pf pS : PyIn ℝ} {f S : List ℝ} (hf : pf.IsArr f) (hS : pS.IsArr S) {s : SpecObj}
    (hs : SpecObj.init pf pS = .ok s) {fmin : ℝ} {fmax : FMax ℝ} {T : ℝ} (h : IsPeakPeriod f S fmin fmax T) :
    (s.getTp fmin fmax).1 = .ok T := by
  obtain ⟨hm, hl, rfl⟩ := (spectrum_init_iff_partial hf hS).1 hs
  obtain ⟨k, hk, hfk, rfl, hbest⟩ := h
  have hp := uniform_check_increasing hm
  simp only [SpecObj.getTp, calcTp, List.length_cons, List.length_nil, ne_eq, zero_add, not_true_eq_false, if_false]
  obtain ⟨r, hr⟩ := bandSlice_defined (S := S) ((inRange_iff hp fmin fmax k).1 hk)
  rw [hr]
  obtain ⟨i, j, hj, rfl, hiff⟩ := bandSlice_spec hp hr
  have hin : ∀ k, InRange f fmin fmax k ↔ i ≤ k ∧ k ≤ j := fun k => (inRange_iff hp fmin fmax k).trans (hiff k).symm
  obtain ⟨hik, hkj⟩ := (hin k).1 hk
  simp only [bind, Except.bind, peakPeriod]
  have hne : pySlice S i (j + 1) ≠ [] := by
    intro h
    have := congrArg List.length h
    rw [pySlice_len1 (by omega)] at this
    simp at this; omega
  obtain ⟨Smax, hmax⟩ := pyMax_exists hne
  rw [hmax]
  obtain ⟨hmem, hub⟩ := pyMax_spec hmax
  have hSk : (pySlice S i (j + 1))[k - i]? = some (S.getD k 0) := by
    rw [pySlice_getElem?, if_pos (by omega), show i + (k - i) = k by omega]
    exact getElem?_of_getD (by omega)
  obtain ⟨q, hq, eq⟩ := List.getElem_of_mem hmem
  obtain ⟨ifp, hifp⟩ := last_where_exists (p := fun v => decide (v = Smax)) (l := pySlice S i (j + 1))
    ⟨q, Smax, by rw [List.getElem?_eq_getElem hq, eq], by simp⟩
  dsimp only
  rw [hifp]
  obtain ⟨⟨v, hv, ev⟩, hlast⟩ := last_where_spec hifp
  simp only [decide_eq_true_eq] at ev
  subst ev
  rw [pySlice_getElem?] at hv
  split_ifs at hv with hlt
  rw [getElem?_of_getD (by omega)] at hv
  have hv := Option.some.inj hv
  have hkf : i + ifp < f.length := by omega
  have hb := hbest (i + ifp) ((hin _).2 ⟨by omega, by omega⟩)
  have heq : S.getD k 0 = v := le_antisymm (hub _ (List.mem_of_getElem? hSk)) (by rw [← hv]; exact hb.1)
  have hle := hlast (k - i) _ hSk (by simpa using heq)
  have hik' : i + ifp = k := by
    by_contra hne'
    have := hb.2 (by omega)
    rw [hv, heq] at this
    exact lt_irrefl _ this
  have : getE (pySlice f i (j + 1)) ifp = .ok (f.getD k 0) := by
    rw [getE_ok, pySlice_getElem?, if_pos hlt, hik']
    exact getElem?_of_getD hk.1
  dsimp only
  rw [this]
  unfold invE
  dsimp only
  rw [if_neg hfk]

/-- **C46 (definedness).**  If some grid frequency is in the range and none of those is zero, `get_Tp` returns. -/
theorem get_Tp_defined {pf pS : PyIn ℝ} {f S : List ℝ} (hf : pf.IsArr f) (hS : pS.IsArr S) {s : SpecObj}
    (hs : SpecObj.init pf pS = .ok s) {fmin : ℝ} {fmax : FMax ℝ} {k : Nat} (hk : InRange f fmin fmax k)
    (hnz : ∀ l, InRange f fmin fmax l → f.getD l 0 ≠ 0) : ∃ T, (s.getTp fmin fmax).1 = .ok T := by
  have : ∃ k, InRange f fmin fmax k ∧ ∀ l, InRange f fmin fmax l → S.getD l 0 ≤ S.getD k 0 ∧ (k < l → S.getD l 0 < S.getD k 0) := by
    classical
    have hfin : (Finset.filter (InRange f fmin fmax) (range f.length)).Nonempty := ⟨k, mem_filter.2 ⟨mem_range.2 hk.1, hk⟩⟩
    obtain ⟨q, hq, hqm⟩ := exists_max_image _ (fun l => S.getD l 0) hfin
    have hne2 : (Finset.filter (fun l => InRange f fmin fmax l ∧ S.getD l 0 = S.getD q 0) (range f.length)).Nonempty :=
      ⟨q, mem_filter.2 ⟨(mem_filter.1 hq).1, (mem_filter.1 hq).2, rfl⟩⟩
    obtain ⟨z, hz, hzm⟩ := exists_max_image _ (fun l => l) hne2
    obtain ⟨-, hzr, hze⟩ := mem_filter.1 hz
    refine ⟨z, hzr, fun l hl => ?_⟩
    have h1 : S.getD l 0 ≤ S.getD z 0 := by rw [hze]; exact hqm l (mem_filter.2 ⟨mem_range.2 hl.1, hl⟩)
    refine ⟨h1, fun hlt => lt_of_le_of_ne h1 fun e => ?_⟩
    have := hzm l (mem_filter.2 ⟨mem_range.2 hl.1, hl, by rw [e, hze]⟩)
    omega
  obtain ⟨q, hq, hb⟩ := this
  exact ⟨_, get_Tp_complete hf hS hs ⟨q, hq, hnz q hq, rfl, hb⟩⟩

/-- **C46 (uniqueness).**  The specified value is unique. -/
theorem isPeakPeriod_unique {f S : List ℝ} {fmin : ℝ} {fmax : FMax ℝ} {T T' : ℝ} (h : IsPeakPeriod f S fmin fmax T)
    (h' : IsPeakPeriod f S fmin fmax T') : T = T' := by
  obtain ⟨k, hk, -, rfl, hmax⟩ := h
  obtain ⟨k', hk', -, rfl, hmax'⟩ := h'
  rcases lt_trichotomy k k' with hlt | rfl | hlt
  · exact absurd ((hmax k' hk').2 hlt) (not_lt.2 (hmax' k hk).1)
  · rfl
  · exact absurd ((hmax' k hk).2 hlt) (not_lt.2 (hmax k' hk').1)

/-! ## C44: ordering of the mean periods -/

/-- If the zeroth moment over a range exists, all moments of order at most three do (axis of positive frequencies). -/
theorem moment_orders_defined {pf pS : PyIn ℝ} {f S : List ℝ} {fmin v : ℝ} {fmax : FMax ℝ} (hf : pf.IsArr f)
    (hS : pS.IsArr S) (h0 : 0 < f.getD 0 0 ∨ 0 ≤ f.getD 0 0) (hv : computeMoment pf pS 0 fmin fmax = .ok v) {m : Int} (hm3 : m ≤ 3)
    (hm : 0 ≤ m ∨ 0 < f.getD 0 0) : ∃ w, computeMoment pf pS m fmin fmax = .ok w := by
  have h0' : 0 ≤ f.getD 0 0 := by rcases h0 with h | h; exacts [h.le, h]
  obtain ⟨hmono, hl⟩ := computeMoment_ok_pre hf hS hv
  have hp := uniform_check_increasing hmono
  have h2 := mono_two_le hmono
  have hfe : 0 < f.getD (f.length - 1) 0 := lt_of_le_of_lt h0' (inc_lt hp (by omega) (by omega))
  obtain ⟨i, j, t, hr, hi, hj, hst⟩ := computeMoment_structure hmono 0 fmin fmax
  have fu : ∀ k : Int, 0 ≤ k ∨ 0 < f.getD 0 0 → firstUsable f k = 0 := by
    intro k hk
    unfold firstUsable
    rw [if_neg]
    rintro ⟨a, b⟩
    rcases hk with h | h
    · omega
    · exact h.ne' b
  have hr' : MomentRange f m fmin fmax i j t := by
    have e : firstUsable f m = firstUsable f 0 := by rw [fu m hm, fu 0 (Or.inl (le_refl _))]
    exact ⟨by rw [e]; exact hr.whole, by rw [e]; exact hr.lower, by rw [e]; exact hr.upper, hr.beyond, hr.infinite⟩
  obtain ⟨i', j', t', hr'', -, -, hst'⟩ := computeMoment_structure hmono m fmin fmax
  obtain ⟨rfl, rfl, rfl⟩ := momentRange_unique hr' hr''
  rw [hst' hf hS hl]
  have hij : i ≤ j := by
    by_contra hc
    rw [hst hf hS hl] at hv
    unfold momentOn momentSum at hv
    rw [pySlice_empty (l := f) (by omega), pySlice_empty (l := S) (by omega)] at hv
    simp [simpson, bind, Except.bind] at hv
  obtain ⟨w, -, hsum⟩ := momentSum_slice_weights hij hj
  have hz : ¬ (m < 0 ∧ 0 ∈ pySlice f i (j + 1)) := by
    rintro ⟨hm0, hmem⟩
    have hf0 : 0 < f.getD 0 0 := hm.resolve_left (by omega)
    obtain ⟨k, hk, ek⟩ := List.getElem_of_mem hmem
    have hk' := hk
    rw [pySlice_len1 hj] at hk'
    rw [← List.getD_eq_getElem _ 0 hk, pySlice_getD (by omega)] at ek
    have b := inc_le hp (Nat.zero_le (i + k)) (by omega)
    rw [ek] at b
    exact absurd hf0 (not_lt.2 b)
  unfold momentOn
  rw [hsum m S hl.symm hz]
  cases t with
  | false => exact ⟨_, rfl⟩
  | true =>
    have hab := range_above hr
    have : ∃ q, tailMoment m (f.getD (f.length - 1) 0) (S.getD (f.length - 1) 0) fmax = .ok q := by
      unfold tailMoment
      dsimp only
      rw [if_neg (by rintro (h | h); · omega
                     · exact hfe.ne' h)]
      cases fmax with
      | fin F =>
        have hF : 0 < F := lt_of_lt_of_le hfe hab
        exact ⟨_, by dsimp only; rw [if_neg (by rintro ⟨h, -⟩; exact hF.ne' h)]⟩
      | inf => exact ⟨_, by dsimp only; rw [if_pos (by omega)]⟩
    obtain ⟨q, hq⟩ := this
    simp only [bind, Except.bind, hq, if_true]
    exact ⟨_, rfl⟩

theorem div_ge_sqrt {m0 m1 m2 : ℝ} (h0 : 0 < m0) (h1 : 0 < m1) (h2 : 0 < m2) (h : m1 ^ 2 ≤ m0 * m2) :
    Real.sqrt (m0 / m2) ≤ m0 / m1 := by
  apply Real.sqrt_le_iff.2
  refine ⟨by positivity, ?_⟩
  rw [div_pow, div_le_div_iff₀ h2 (by positivity)]
  nlinarith

/-- **C44.**  On a uniform axis of positive frequencies and for non-negative densities, whenever the range contains energy
(`get_Hm0 > 0`), all three mean periods are defined and `Tm-1,0 ≥ Tm01 ≥ Tm02 > 0`; the range may be the default, a
sub-range or extend beyond the axis (with tail). -/
theorem mean_period_ordering {pf pS : PyIn ℝ} {f S : List ℝ} {h : ℝ} (hf : pf.IsArr f) (hS : pS.IsArr S) {s : SpecObj}
    (hs : SpecObj.init pf pS = .ok s) (hu : UniformAxis f h) (h0 : 0 < f.getD 0 0) (hpos : ∀ v ∈ S, 0 ≤ v)
    {fmin : ℝ} {fmax : FMax ℝ} {H : ℝ} (hH : (s.getHm0 fmin fmax).1 = .ok H) (hHpos : 0 < H) :
    ∃ Tmm10 Tm01 Tm02, (s.getTmm10 fmin fmax).1 = .ok Tmm10 ∧ (s.getTm01 fmin fmax).1 = .ok Tm01 ∧
      (s.getTm02 fmin fmax).1 = .ok Tm02 ∧ Tm01 ≤ Tmm10 ∧ Tm02 ≤ Tm01 ∧ 0 < Tm02 := by
  obtain ⟨hm, hl, rfl⟩ := (spectrum_init_iff_partial hf hS).1 hs
  simp only [SpecObj.getHm0, SpecObj.getTmm10, SpecObj.getTm01, SpecObj.getTm02, calcHm0, calcTmm10, calcTm01, calcTm02] at hH ⊢
  rw [bind_ok] at hH
  obtain ⟨m0, e0, hH⟩ := hH
  have af := isArr_vec f
  have aS : (PyIn.nd (⟨[S.length], S⟩ : Arr ℝ)).IsArr S := .nd S
  have hm0 : 0 < m0 := by
    unfold heightOf at hH
    split_ifs at hH with hneg
    rw [← Except.ok.inj hH] at hHpos
    by_contra hc
    rw [Real.sqrt_eq_zero_of_nonpos (not_lt.1 hc)] at hHpos
    simp at hHpos
  obtain ⟨m_1, e_1⟩ := moment_orders_defined af aS (Or.inl h0) e0 (m := -1) (by norm_num) (Or.inr h0)
  obtain ⟨m1, e1⟩ := moment_orders_defined af aS (Or.inl h0) e0 (m := 1) (by norm_num) (Or.inr h0)
  obtain ⟨m2, e2⟩ := moment_orders_defined af aS (Or.inl h0) e0 (m := 2) (by norm_num) (Or.inr h0)
  have c1 : m0 ^ 2 ≤ m_1 * m1 := moment_cs af aS hu h0.le hpos (m := -1) (Or.inl ⟨rfl, h0⟩) e_1 e0 e1
  have c2 : m1 ^ 2 ≤ m0 * m2 := moment_cs af aS hu h0.le hpos (m := 0) (Or.inr rfl) e0 e1 e2
  have n_1 := moment_nonneg af aS hu h0.le hpos e_1
  have n1 := moment_nonneg af aS hu h0.le hpos e1
  have n2 := moment_nonneg af aS hu h0.le hpos e2
  have p1 : 0 < m1 := by
    rcases n1.lt_or_eq with h | h
    · exact h
    · rw [← h] at c1; nlinarith [pow_pos hm0 2]
  have p2 : 0 < m2 := by
    rcases n2.lt_or_eq with h | h
    · exact h
    · rw [← h] at c2; nlinarith [pow_pos p1 2]
  refine ⟨m_1 / m0, m0 / m1, Real.sqrt (m0 / m2), ?_, ?_, ?_, ?_, div_ge_sqrt hm0 p1 p2 c2, ?_⟩
  · rw [e_1, e0]; simp only [bind, Except.bind, divE, if_neg hm0.ne']
  · rw [e1, e0]; simp only [bind, Except.bind, divE, if_neg p1.ne']
  · rw [e2, e0]
    simp only [bind, Except.bind, divE, if_neg p2.ne', sqrtE]
    rw [if_neg (not_lt.2 (by positivity))]
  · rw [div_le_div_iff₀ p1 hm0]; nlinarith
  · exact Real.sqrt_pos.2 (by positivity)

/-- **C44 (axes that start at zero).**  `Tm01 ≥ Tm02` also holds when the first frequency is zero. -/
theorem mean_period_ordering_from_zero {pf pS : PyIn ℝ} {f S : List ℝ} {h : ℝ} (hf : pf.IsArr f) (hS : pS.IsArr S) {s : SpecObj}
    (hs : SpecObj.init pf pS = .ok s) (hu : UniformAxis f h) (h0 : 0 ≤ f.getD 0 0) (hpos : ∀ v ∈ S, 0 ≤ v)
    {fmin : ℝ} {fmax : FMax ℝ} {T : ℝ} (hT : (s.getTm01 fmin fmax).1 = .ok T) :
    ∃ Tm02, (s.getTm02 fmin fmax).1 = .ok Tm02 ∧ Tm02 ≤ T ∧ 0 < Tm02 := by
  obtain ⟨hm, hl, rfl⟩ := (spectrum_init_iff_partial hf hS).1 hs
  simp only [SpecObj.getTm01, SpecObj.getTm02, calcTm01, calcTm02] at hT ⊢
  rw [bind_ok] at hT
  obtain ⟨m0, e0, hT⟩ := hT
  rw [bind_ok] at hT
  obtain ⟨m1, e1, hT⟩ := hT
  have af := isArr_vec f
  have aS : (PyIn.nd (⟨[S.length], S⟩ : Arr ℝ)).IsArr S := .nd S
  unfold divE at hT
  split_ifs at hT with hz
  have hT := Except.ok.inj hT
  obtain ⟨m2, e2⟩ := moment_orders_defined af aS (Or.inr h0) e0 (m := 2) (by norm_num) (Or.inl (by norm_num))
  have c2 : m1 ^ 2 ≤ m0 * m2 := moment_cs af aS hu h0 hpos (m := 0) (Or.inr rfl) e0 e1 e2
  have n0 := moment_nonneg af aS hu h0 hpos e0
  have n1 := moment_nonneg af aS hu h0 hpos e1
  have n2 := moment_nonneg af aS hu h0 hpos e2
  have p1 : 0 < m1 := lt_of_le_of_ne n1 (Ne.symm hz)
  have p0 : 0 < m0 := by
    rcases n0.lt_or_eq with h | h
    · exact h
    · rw [← h] at c2; nlinarith [pow_pos p1 2]
  have p2 : 0 < m2 := by
    rcases n2.lt_or_eq with h | h
    · exact h
    · rw [← h] at c2; nlinarith [pow_pos p1 2]
  refine ⟨Real.sqrt (m0 / m2), ?_, ?_, Real.sqrt_pos.2 (by positivity)⟩
  · rw [e2, e0]
    simp only [bind, Except.bind, divE, if_neg p2.ne', sqrtE]
    rw [if_neg (not_lt.2 (by positivity))]
  · rw [← hT]; exact div_ge_sqrt p0 p1 p2 c2

/-! ## C45: `compute_spectrum_params` -/

theorem params_cases {pf pS : PyIn ℝ} {f S : List ℝ} (hf : pf.IsArr f) (hS : pS.IsArr S)
    (hm : monotonicIncreasingConstantStep f = .ok true) (hl : f.length = S.length) {fmin : ℝ} {fmax : FMax ℝ} {P : SpecParams}
    (hP : computeSpectrumParams pf pS fmin fmax = .ok P) : ∃ m_1 m0 m1 m2,
      computeMoment (vec f) (vec S) (-1) (setFlim f fmin fmax).1 (setFlim f fmin fmax).2 = .ok m_1 ∧
      computeMoment (vec f) (vec S) 0 (setFlim f fmin fmax).1 (setFlim f fmin fmax).2 = .ok m0 ∧
      computeMoment (vec f) (vec S) 1 (setFlim f fmin fmax).1 (setFlim f fmin fmax).2 = .ok m1 ∧
      computeMoment (vec f) (vec S) 2 (setFlim f fmin fmax).1 (setFlim f fmin fmax).2 = .ok m2 ∧
      (((m0 < 0 ∨ 4 * Real.sqrt m0 < 1 / 10 ^ 6) ∧ P = ⟨none, none, none, none, none, none⟩) ∨
       (0 ≤ m0 ∧ 1 / 10 ^ 6 ≤ 4 * Real.sqrt m0 ∧ P.Hm0 = some (4 * Real.sqrt m0) ∧ valE (divE m_1 m0) = .ok P.Tmm10 ∧
        valE (divE m0 m1) = .ok P.Tm01 ∧ valE (do let q ← divE m0 m2; sqrtE q) = .ok P.Tm02 ∧
        ∃ r, bandSlice f S (setFlim f fmin fmax).1 (setFlim f fmin fmax).2 = .ok r ∧ valE (peakPeriod r.1 r.2) = .ok P.Tp ∧
          valE (computeTps (vec r.1) (vec r.2)) = .ok P.Tps)) := by
  unfold computeSpectrumParams at hP
  simp only [vecIn_of_isArr hf, vecIn_of_isArr hS] at hP
  rw [bind_ok] at hP
  obtain ⟨_, e, hP⟩ := hP
  cases e
  rw [bind_ok] at hP
  obtain ⟨_, e, hP⟩ := hP
  cases e
  rw [bind_ok] at hP
  obtain ⟨b, e, hP⟩ := hP
  have e := e.symm.trans hm
  cases e
  rw [if_neg (by simp), if_neg (by simpa using hl)] at hP
  rw [bind_ok] at hP
  obtain ⟨m_1, e_1, hP⟩ := hP
  rw [bind_ok] at hP
  obtain ⟨m0, e0, hP⟩ := hP
  rw [bind_ok] at hP
  obtain ⟨m1, e1, hP⟩ := hP
  rw [bind_ok] at hP
  obtain ⟨m2, e2, hP⟩ := hP
  refine ⟨m_1, m0, m1, m2, e_1, e0, e1, e2, ?_⟩
  by_cases hsmall : m0 < 0 ∨ 4 * Real.sqrt m0 < 1 / 10 ^ 6
  · rw [if_pos hsmall] at hP
    exact Or.inl ⟨hsmall, (Except.ok.inj hP).symm⟩
  right
  rw [if_neg hsmall] at hP
  rw [bind_ok] at hP
  obtain ⟨tmm, k1, hP⟩ := hP
  rw [bind_ok] at hP
  obtain ⟨tm01, k2, hP⟩ := hP
  rw [bind_ok] at hP
  obtain ⟨tm02, k3, hP⟩ := hP
  rw [bind_ok] at hP
  obtain ⟨⟨fm, Sm⟩, k4, hP⟩ := hP
  rw [bind_ok] at hP
  obtain ⟨tp, k5, hP⟩ := hP
  rw [bind_ok] at hP
  obtain ⟨tps, k6, hP⟩ := hP
  have hP := Except.ok.inj hP
  subst hP
  push Not at hsmall
  exact ⟨hsmall.1, hsmall.2, rfl, k1, k2, k3, (fm, Sm), k4, k5, k6⟩

/-- **C45.**  When `compute_spectrum_params` returns a wave height, the six getters of a `Spectrum` of the same arrays return
exactly the same six values (non-finite ones included), for every range. -/
theorem getters_agree_with_params {pf pS : PyIn ℝ} {f S : List ℝ} (hf : pf.IsArr f) (hS : pS.IsArr S) {s : SpecObj}
    (hs : SpecObj.init pf pS = .ok s) {fmin : ℝ} {fmax : FMax ℝ} {P : SpecParams}
    (hP : computeSpectrumParams pf pS fmin fmax = .ok P) (hen : P.Hm0 ≠ none) :
    valE (s.getHm0 fmin fmax).1 = .ok P.Hm0 ∧ valE (s.getTp fmin fmax).1 = .ok P.Tp ∧
    valE (s.getTps fmin fmax).1 = .ok P.Tps ∧ valE (s.getTmm10 fmin fmax).1 = .ok P.Tmm10 ∧
    valE (s.getTm01 fmin fmax).1 = .ok P.Tm01 ∧ valE (s.getTm02 fmin fmax).1 = .ok P.Tm02 := by
  obtain ⟨hm, hl, rfl⟩ := (spectrum_init_iff_partial hf hS).1 hs
  obtain ⟨m_1, m0, m1, m2, e_1, e0, e1, e2, h | ⟨h0, -, hH, k1, k2, k3, r, k4, k5, k6⟩⟩ := params_cases hf hS hm hl hP
  · rw [h.2] at hen; exact absurd rfl hen
  simp only [SpecObj.getHm0, SpecObj.getTp, SpecObj.getTps, SpecObj.getTmm10, SpecObj.getTm01, SpecObj.getTm02, calcHm0, calcTp,
    calcTps, calcTmm10, calcTm01, calcTm02, List.length_cons, List.length_nil, ne_eq, zero_add, not_true_eq_false, if_false]
  rw [show (PyIn.nd (⟨[S.length], S⟩ : Arr ℝ)) = vec S from rfl, e0, e_1, e1, e2, k4]
  refine ⟨?_, k5, k6, k1, k2, k3⟩
  rw [hH]
  simp only [bind, Except.bind, heightOf, if_neg (not_lt.2 h0), valE]

/-- **C45 (negligible energy).**  All six results of `compute_spectrum_params` are NaN exactly when `get_Hm0` gives NaN or a
value below `1e-6`; in every other case the wave height is reported. -/
theorem params_nan_iff {pf pS : PyIn ℝ} {f S : List ℝ} (hf : pf.IsArr f) (hS : pS.IsArr S) {s : SpecObj}
    (hs : SpecObj.init pf pS = .ok s) {fmin : ℝ} {fmax : FMax ℝ} {P : SpecParams}
    (hP : computeSpectrumParams pf pS fmin fmax = .ok P) :
    (P = ⟨none, none, none, none, none, none⟩ ↔
      (s.getHm0 fmin fmax).1 = .error .nonFinite ∨ ∃ H, (s.getHm0 fmin fmax).1 = .ok H ∧ H < 1 / 10 ^ 6) ∧
    (P = ⟨none, none, none, none, none, none⟩ ∨ P.Hm0 ≠ none) := by
  obtain ⟨hm, hl, rfl⟩ := (spectrum_init_iff_partial hf hS).1 hs
  obtain ⟨m_1, m0, m1, m2, e_1, e0, e1, e2, hc⟩ := params_cases hf hS hm hl hP
  have hget : calcHm0 f ⟨[S.length], S⟩ fmin fmax = heightOf m0 := by
    unfold calcHm0
    rw [show (PyIn.nd (⟨[S.length], S⟩ : Arr ℝ)) = vec S from rfl]
    simp only [e0, bind, Except.bind]
  simp only [SpecObj.getHm0, hget]
  unfold heightOf
  rcases hc with ⟨hs, rfl⟩ | ⟨h0, h1, hH, -⟩
  · refine ⟨⟨fun _ => ?_, fun _ => rfl⟩, Or.inl rfl⟩
    by_cases hn : m0 < 0
    · left; rw [if_pos hn]
    · right; rw [if_neg hn]; exact ⟨_, rfl, hs.resolve_left hn⟩
  · refine ⟨⟨fun h => ?_, fun h => ?_⟩, Or.inr (by rw [hH]; simp)⟩
    · rw [h] at hH; cases hH
    · rw [if_neg (not_lt.2 h0)] at h
      rcases h with h | ⟨H, h, hlt⟩
      · cases h
      · rw [← Except.ok.inj h] at hlt
        exact absurd h1 (not_le.2 hlt)

section concrete

theorem tri_m_1 : computeMoment (K := ℝ) (vec [1, 2, 3]) (vec [1, 2, 1]) (-1) 1 (.fin 3) = .ok (16 / 9) := by
  norm_num [computeMoment, vecIn, vec, toVector, toArr, size2, Arr.size, monotonicIncreasingConstantStep, diff, stepTol,
    computeMomentL, getE, lastE, momentBetween, approxArrayIndex, argminAux, momentSum, simpson, simpOdd, pySlice, bind, Except.bind]
  try simp

theorem tri_m0 : computeMoment (K := ℝ) (vec [1, 2, 3]) (vec [1, 2, 1]) 0 1 (.fin 3) = .ok (10 / 3) := by
  norm_num [computeMoment, vecIn, vec, toVector, toArr, size2, Arr.size, monotonicIncreasingConstantStep, diff, stepTol,
    computeMomentL, getE, lastE, momentBetween, approxArrayIndex, argminAux, momentSum, simpson, simpOdd, pySlice, bind, Except.bind]
  try simp

theorem tri_m1 : computeMoment (K := ℝ) (vec [1, 2, 3]) (vec [1, 2, 1]) 1 1 (.fin 3) = .ok (20 / 3) := by
  norm_num [computeMoment, vecIn, vec, toVector, toArr, size2, Arr.size, monotonicIncreasingConstantStep, diff, stepTol,
    computeMomentL, getE, lastE, momentBetween, approxArrayIndex, argminAux, momentSum, simpson, simpOdd, pySlice, bind, Except.bind]
  try simp

theorem tri_m2 : computeMoment (K := ℝ) (vec [1, 2, 3]) (vec [1, 2, 1]) 2 1 (.fin 3) = .ok (14) := by
  norm_num [computeMoment, vecIn, vec, toVector, toArr, size2, Arr.size, monotonicIncreasingConstantStep, diff, stepTol,
    computeMomentL, getE, lastE, momentBetween, approxArrayIndex, argminAux, momentSum, simpson, simpOdd, pySlice, bind, Except.bind]
  try simp

/-- Non-vacuity of C44–C46: a triangular spectrum on 1, 2, 3 Hz, over the default range. -/
theorem tri_params : computeSpectrumParams (vec [1, 2, 3]) (vec [1, 2, 1]) (-1) (.fin (-1)) =
    .ok ⟨some (4 * Real.sqrt (10 / 3)), some (1 / 2), some (1 / 2), some (8 / 15), some (1 / 2), some (Real.sqrt (5 / 21))⟩ := by
  have hm : monotonicIncreasingConstantStep ([1, 2, 3] : List ℝ) = .ok true := by
    norm_num [monotonicIncreasingConstantStep, diff, stepTol]
  have hb : bandSlice ([1, 2, 3] : List ℝ) [1, 2, 1] 1 (.fin 3) = .ok ([1, 2, 3], [1, 2, 1]) := by
    norm_num [bandSlice, whereIdx, getE, lastE, FMax.ge, pySlice, bind, Except.bind, pure, Except.pure, List.range, List.range.loop, List.filter]
  have hp : peakPeriod ([1, 2, 3] : List ℝ) [1, 2, 1] = .ok (1 / 2) := by
    norm_num [peakPeriod, pyMax, whereIdx, getE, lastE, invE, bind, Except.bind, List.range, List.range.loop, List.filter]
  have ht : computeTps (vec ([1, 2, 3] : List ℝ)) (vec [1, 2, 1]) = .ok (1 / 2) := by
    unfold computeTps
    rw [vecIn_of_isArr (isArr_vec [1, 2, 3]), vecIn_of_isArr (isArr_vec [1, 2, 1])]
    norm_num [computeTpsL, pyMax, whereIdx, getE, fitAt, polyfit2, invE, bind, Except.bind, List.range, List.range.loop, List.filter]
  have hq : ¬ ((10 / 3 : ℝ) < 0 ∨ 4 * Real.sqrt (10 / 3) < 1 / 10 ^ 6) := by
    rintro (h | h)
    · norm_num at h
    · have : (1 : ℝ) ≤ Real.sqrt (10 / 3) := by
        rw [show (1 : ℝ) = Real.sqrt 1 by simp]
        exact Real.sqrt_le_sqrt (by norm_num)
      have h2 : (1 : ℝ) / 10 ^ 6 < 4 := by norm_num
      linarith
  unfold computeSpectrumParams
  rw [vecIn_of_isArr (isArr_vec [1, 2, 3]), vecIn_of_isArr (isArr_vec [1, 2, 1])]
  simp only [bind, Except.bind, hm]
  rw [if_neg (by simp), if_neg (by simp)]
  simp only [if_true, List.getD_cons_zero, List.length_cons, List.length_nil, Nat.zero_add, Nat.reduceAdd, Nat.reduceSub, List.getD_cons_succ]
  rw [tri_m_1, tri_m0, tri_m1, tri_m2]
  dsimp only
  rw [if_neg hq]
  rw [hb]
  dsimp only
  rw [hp, ht]
  norm_num [divE, valE, sqrtE, pure, Except.pure]

theorem tri_init : ∃ s, SpecObj.init (vec [1, 2, 3]) (vec [1, 2, 1]) = .ok s :=
  ⟨_, (spectrum_init_iff_partial (isArr_vec [1, 2, 3]) (isArr_vec [1, 2, 1])).2
    ⟨by norm_num [monotonicIncreasingConstantStep, diff, stepTol], rfl, rfl⟩⟩

/-- The hypotheses of C44 and the conclusions of C45 on the triangular spectrum. -/
example : ∃ s, SpecObj.init (vec [1, 2, 3]) (vec [1, 2, 1]) = .ok s ∧ UniformAxis ([1, 2, 3] : List ℝ) 1 ∧
    (s.getHm0 (-1) (.fin (-1))).1 = .ok (4 * Real.sqrt (10 / 3)) ∧ 0 < 4 * Real.sqrt (10 / 3) ∧
    (s.getTp (-1) (.fin (-1))).1 = .ok (1 / 2) ∧ (s.getTmm10 (-1) (.fin (-1))).1 = .ok (8 / 15) := by
  obtain ⟨s, hs⟩ := tri_init
  have h := getters_agree_with_params (isArr_vec [1, 2, 3]) (isArr_vec [1, 2, 1]) hs tri_params (by simp)
  have val : ∀ {r : Except PyErr ℝ} {v : ℝ}, valE r = .ok (some v) → r = .ok v := by
    intro r v h
    rcases r with e | w
    · cases e <;> cases h
    · cases h; rfl
  refine ⟨s, hs, ⟨by norm_num, ?_⟩, val h.1, by positivity, val h.2.1, val h.2.2.2.1⟩
  intro i hi
  simp only [List.length_cons, List.length_nil] at hi
  have : i < 2 := by omega
  interval_cases i <;> norm_num

theorem zero_m_1 : computeMoment (K := ℝ) (vec [0, 1, 2]) (vec [0, 1, 0]) (-1) 0 (.fin 2) = .ok (1 / 2) := by
  norm_num [computeMoment, vecIn, vec, toVector, toArr, size2, Arr.size, monotonicIncreasingConstantStep, diff, stepTol,
    computeMomentL, getE, lastE, momentBetween, approxArrayIndex, argminAux, momentSum, simpson, simpOdd, pySlice, bind, Except.bind]
  try simp

theorem zero_m0 : computeMoment (K := ℝ) (vec [0, 1, 2]) (vec [0, 1, 0]) 0 0 (.fin 2) = .ok (4 / 3) := by
  norm_num [computeMoment, vecIn, vec, toVector, toArr, size2, Arr.size, monotonicIncreasingConstantStep, diff, stepTol,
    computeMomentL, getE, lastE, momentBetween, approxArrayIndex, argminAux, momentSum, simpson, simpOdd, pySlice, bind, Except.bind]
  try simp

theorem zero_m1 : computeMoment (K := ℝ) (vec [0, 1, 2]) (vec [0, 1, 0]) 1 0 (.fin 2) = .ok (4 / 3) := by
  norm_num [computeMoment, vecIn, vec, toVector, toArr, size2, Arr.size, monotonicIncreasingConstantStep, diff, stepTol,
    computeMomentL, getE, lastE, momentBetween, approxArrayIndex, argminAux, momentSum, simpson, simpOdd, pySlice, bind, Except.bind]
  try simp

/-- **C44 (finding).**  On an axis that starts at zero frequency the ordering `Tm-1,0 ≥ Tm01` can fail: `m_-1` leaves out
the first bin.  Here `Tm-1,0 = 3/8` and `Tm01 = 1`. -/
theorem mean_period_ordering_fails_at_zero : ∃ s, SpecObj.init (vec [0, 1, 2]) (vec [0, 1, 0]) = .ok s ∧
    (s.getTmm10 (-1) (.fin (-1))).1 = .ok (3 / 8) ∧ (s.getTm01 (-1) (.fin (-1))).1 = .ok 1 := by
  refine ⟨_, (spectrum_init_iff_partial (isArr_vec [0, 1, 2]) (isArr_vec [0, 1, 0])).2
    ⟨by norm_num [monotonicIncreasingConstantStep, diff, stepTol], rfl, rfl⟩, ?_, ?_⟩
  · simp only [SpecObj.getTmm10, calcTmm10, setFlim, if_true]
    have a := zero_m_1
    have b := zero_m0
    simp only [vec] at a b
    simp only [vec, List.getD_cons_zero, List.length_cons, List.length_nil, Nat.zero_add, Nat.reduceAdd, Nat.reduceSub, List.getD_cons_succ] at a b ⊢
    rw [a, b]
    norm_num [bind, Except.bind, divE]
  · simp only [SpecObj.getTm01, calcTm01, setFlim, if_true]
    have a := zero_m1
    have b := zero_m0
    simp only [vec, List.getD_cons_zero, List.length_cons, List.length_nil, Nat.zero_add, Nat.reduceAdd, Nat.reduceSub, List.getD_cons_succ] at a b ⊢
    rw [a, b]
    norm_num [bind, Except.bind, divE]

end concrete

/-! ## Concrete cases: the hypotheses of the theorems above are met -/

/-- The triangular spectrum `[1, 2, 1]` on `[1, 2, 3]` Hz and the values of its parameters. -/
theorem tri_values : ∃ s, SpecObj.init (vec [1, 2, 3]) (vec [1, 2, 1]) = .ok s ∧
    (s.getHm0 (-1) (.fin (-1))).1 = .ok (4 * Real.sqrt (10 / 3)) ∧ (s.getTp (-1) (.fin (-1))).1 = .ok (1 / 2) ∧
    (s.getTps (-1) (.fin (-1))).1 = .ok (1 / 2) ∧ (s.getTmm10 (-1) (.fin (-1))).1 = .ok (8 / 15) ∧
    (s.getTm01 (-1) (.fin (-1))).1 = .ok (1 / 2) := by
  obtain ⟨s, hs⟩ := tri_init
  have h := getters_agree_with_params (isArr_vec [1, 2, 3]) (isArr_vec [1, 2, 1]) hs tri_params (by simp)
  have val : ∀ {r : Except PyErr ℝ} {v : ℝ}, valE r = .ok (some v) → r = .ok v := by
    intro r v h
    rcases r with e | w
    · cases e <;> cases h
    · cases h; rfl
  exact ⟨s, hs, val h.1, val h.2.1, val h.2.2.1, val h.2.2.2.1, val h.2.2.2.2.1⟩

theorem tri_uniform : UniformAxis ([1, 2, 3] : List ℝ) 1 :=
  uniformAxis_of_steps (by norm_num) fun i hi => by have : i < 2 := hi; interval_cases i <;> norm_num

example : ∃ s, SpecObj.init (vec [1, 2, 3]) (vec [1, 2, 1]) = .ok s ∧ ∃ Tm02, (s.getTm02 (-1) (.fin (-1))).1 = .ok Tm02 ∧ Tm02 ≤ 1 / 2 := by
  obtain ⟨s, hs, hH, hp, -, h10, h01⟩ := tri_values
  obtain ⟨-, -, -, -, -, -, -⟩ := mean_period_ordering (isArr_vec [1, 2, 3]) (isArr_vec [1, 2, 1]) hs tri_uniform (by norm_num) (by simp) hH (by positivity)
  obtain ⟨T, h, h', -⟩ := mean_period_ordering_from_zero (isArr_vec [1, 2, 3]) (isArr_vec [1, 2, 1]) hs tri_uniform (by norm_num) (by simp) h01
  have := params_nan_iff (isArr_vec [1, 2, 3]) (isArr_vec [1, 2, 1]) hs tri_params
  exact ⟨s, hs, T, h, h'⟩

example : IsPeakPeriod [1, 2, 3] [1, 2, 1] (-1) (.fin (-1)) (1 / 2) ∧ ∃ s, SpecObj.init (vec [1, 2, 3]) (vec [1, 2, 1]) = .ok s ∧
    (∃ T, (s.getTp (-1) (.fin (-1))).1 = .ok T) := by
  obtain ⟨s, hs, -, hp, -⟩ := tri_values
  have h := get_Tp_spec (isArr_vec [1, 2, 3]) (isArr_vec [1, 2, 1]) hs hp
  have : (s.getTp (-1) (.fin (-1))).1 = .ok (1 / 2) := get_Tp_complete (isArr_vec [1, 2, 3]) (isArr_vec [1, 2, 1]) hs h
  have : (1 / 2 : ℝ) = 1 / 2 := isPeakPeriod_unique h h
  exact ⟨h, s, hs, get_Tp_defined (isArr_vec [1, 2, 3]) (isArr_vec [1, 2, 1]) hs (k := 1) ⟨by simp, .inl rfl, .inl rfl⟩
    fun l hl => by have : l < 3 := hl.1; interval_cases l <;> norm_num⟩

end Verif
