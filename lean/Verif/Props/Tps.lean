import Verif.Props.Moments

/-! # C47: the smoothed peak period -/

set_option linter.unusedSectionVars false

namespace Verif

variable {K : Type} [Field K] [LinearOrder K] [IsStrictOrderedRing K]

/-- Grid point `i` has the maximal density. -/
def IsMaxAt (S : List K) (i : Nat) : Prop := i < S.length ∧ ∀ v ∈ S, v ≤ S.getD i 0

/-- The maximum is attained at grid point `i` only. -/
def IsOnlyMaxAt (S : List K) (i : Nat) : Prop := i < S.length ∧ ∀ k < S.length, k ≠ i → S.getD k 0 < S.getD i 0

/-- The maximum is attained at the neighbouring grid points `i` and `i + 1` only. -/
def IsTwinMaxAt (S : List K) (i : Nat) : Prop :=
  i + 1 < S.length ∧ S.getD (i + 1) 0 = S.getD i 0 ∧ ∀ k < S.length, k ≠ i → k ≠ i + 1 → S.getD k 0 < S.getD i 0

theorem getE_getD {l : List K} {i : Nat} (h : i < l.length) : getE l i = .ok (l.getD i 0) := by
  rw [getE_ok, List.getD_eq_getElem _ _ h]; exact List.getElem?_eq_getElem h

theorem mem_imax {S : List K} {M : K} {k : Nat} : k ∈ whereIdx (fun v => decide (v = M)) S ↔ k < S.length ∧ S.getD k 0 = M := by
  rw [mem_whereIdx]
  constructor
  · rintro ⟨v, hv, e⟩
    obtain ⟨hk, rfl⟩ := List.getElem?_eq_some_iff.1 hv
    exact ⟨hk, by rw [List.getD_eq_getElem _ _ hk]; simpa using e⟩
  · rintro ⟨hk, e⟩
    exact ⟨_, by rw [List.getElem?_eq_getElem hk], by rw [List.getD_eq_getElem _ _ hk] at e; simpa using e⟩

theorem getD_mem' {S : List K} {k : Nat} (h : k < S.length) : S.getD k 0 ∈ S := by
  rw [List.getD_eq_getElem _ _ h]; exact List.getElem_mem h

theorem pyMax_of_isMaxAt {S : List K} {i : Nat} (h : IsMaxAt S i) : pyMax S = .ok (S.getD i 0) := by
  obtain ⟨m, hm⟩ := pyMax_exists (l := S) (by intro e; rw [e] at h; exact absurd h.1 (by simp))
  obtain ⟨h1, h2⟩ := pyMax_spec hm
  rw [hm, le_antisymm (h.2 m h1) (h2 _ (getD_mem' h.1))]

theorem isMaxAt_of_only {S : List K} {i : Nat} (h : IsOnlyMaxAt S i) : IsMaxAt S i := by
  refine ⟨h.1, fun v hv => ?_⟩
  obtain ⟨k, hk, rfl⟩ := List.getElem_of_mem hv
  rw [← List.getD_eq_getElem _ 0 hk]
  by_cases e : k = i
  · rw [e]
  · exact (h.2 k hk e).le

theorem isMaxAt_of_twin {S : List K} {i : Nat} (h : IsTwinMaxAt S i) : IsMaxAt S i := by
  refine ⟨by have := h.1; omega, fun v hv => ?_⟩
  obtain ⟨k, hk, rfl⟩ := List.getElem_of_mem hv
  rw [← List.getD_eq_getElem _ 0 hk]
  by_cases e : k = i
  · rw [e]
  · by_cases e' : k = i + 1
    · rw [e', h.2.1]
    · exact (h.2.2 k hk e e').le

/-- Sorted lists with the same members are equal. -/
theorem eq_of_pairwise_mem {l l' : List Nat} (h : l.Pairwise (· < ·)) (h' : l'.Pairwise (· < ·)) (hm : ∀ k, k ∈ l ↔ k ∈ l') : l = l' := by
  have hp : l.Perm l' := (List.perm_ext_iff_of_nodup (h.imp (fun h => Nat.ne_of_lt h)) (h'.imp (fun h => Nat.ne_of_lt h))).2 hm
  exact hp.eq_of_pairwise' (h.imp Nat.le_of_lt) (h'.imp Nat.le_of_lt)

theorem imax_only {S : List K} {i : Nat} (h : IsOnlyMaxAt S i) : whereIdx (fun v => decide (v = S.getD i 0)) S = [i] := by
  apply eq_of_pairwise_mem (whereIdx_pairwise _ _) (by simp)
  intro k
  rw [mem_imax, List.mem_singleton]
  constructor
  · rintro ⟨hk, e⟩
    by_contra hne
    exact absurd e (h.2 k hk hne).ne
  · rintro rfl
    exact ⟨h.1, rfl⟩

theorem imax_twin {S : List K} {i : Nat} (h : IsTwinMaxAt S i) : whereIdx (fun v => decide (v = S.getD i 0)) S = [i, i + 1] := by
  apply eq_of_pairwise_mem (whereIdx_pairwise _ _) (by simp)
  intro k
  rw [mem_imax]
  simp only [List.mem_cons, List.not_mem_nil, or_false]
  constructor
  · rintro ⟨hk, e⟩
    by_contra hne
    rw [not_or] at hne
    exact absurd e (h.2.2 k hk hne.1 hne.2).ne
  · rintro (rfl | rfl)
    · exact ⟨by have := h.1; omega, rfl⟩
    · exact ⟨h.1, h.2.1⟩

/-- The parabola through three neighbouring points of a uniform axis. -/
theorem fitAt_uniform {f S : List K} {h : K} (hu : UniformAxis f h) (hl : f.length = S.length) {j : Nat} (h1 : 1 ≤ j)
    (h2 : j + 1 < f.length) : ∃ a b, fitAt f S j = .ok (a, b) ∧
      2 * h ^ 2 * a = S.getD (j - 1) 0 - 2 * S.getD j 0 + S.getD (j + 1) 0 ∧
      2 * h * (2 * a * f.getD j 0 + b) = S.getD (j + 1) 0 - S.getD (j - 1) 0 := by
  have hh := hu.1
  have e0 : f.getD j 0 = f.getD (j - 1) 0 + h := by
    have := hu.2 (j - 1) (by omega); rwa [show j - 1 + 1 = j by omega] at this
  have e2 : f.getD (j + 1) 0 = f.getD j 0 + h := hu.2 j h2
  unfold fitAt
  rw [getE_getD (show j - 1 < f.length by omega), getE_getD (show j < f.length by omega), getE_getD h2,
    getE_getD (show j - 1 < S.length by omega), getE_getD (show j < S.length by omega), getE_getD (show j + 1 < S.length by omega)]
  simp only [bind, Except.bind, polyfit2]
  rw [if_neg (by
    rintro (h | h | h) <;> rw [e2] at * <;> rw [e0] at h <;> linarith)]
  have k1 : f.getD j 0 - f.getD (j - 1) 0 = h := by rw [e0]; ring
  have k2 : f.getD (j + 1) 0 - f.getD j 0 = h := by rw [e2]; ring
  have k3 : f.getD (j + 1) 0 - f.getD (j - 1) 0 = 2 * h := by rw [e2, e0]; ring
  have k4 : f.getD (j - 1) 0 + f.getD j 0 = 2 * f.getD j 0 - h := by rw [e0]; ring
  refine ⟨_, _, rfl, ?_, ?_⟩
  · rw [k1, k2, k3]
    field_simp
    ring
  · rw [k1, k2, k3, k4]
    field_simp
    ring

/-- Vertex of a concave parabola through three points. -/
theorem vertex_eq {h a b x y0 y1 y2 : K} (hh : 0 < h) (ha : 2 * h ^ 2 * a = y0 - 2 * y1 + y2) (hb : 2 * h * (2 * a * x + b) = y2 - y0)
    (hneg : y0 + y2 < 2 * y1) : a < 0 ∧ -b / (2 * a) = x + h * (y2 - y0) / (2 * (2 * y1 - y0 - y2)) := by
  have hh2 : 0 < 2 * h ^ 2 := by positivity
  have ha' : a < 0 := by
    by_contra hc
    have := mul_nonneg hh2.le (not_lt.1 hc)
    linarith
  refine ⟨ha', ?_⟩
  have hd : (2 * y1 - y0 - y2) = -(2 * h ^ 2 * a) := by rw [ha]; ring
  have hb' : b = (y2 - y0) / (2 * h) - 2 * a * x := by
    field_simp
    linarith
  rw [hd, hb']
  have := ha'.ne
  field_simp
  ring

theorem computeTps_eq {pf pS : PyIn K} {f S : List K} (hf : pf.IsArr f) (hS : pS.IsArr S) (hl : f.length = S.length) :
    computeTps pf pS = computeTpsL f S := by
  unfold computeTps
  rw [vecIn_of_isArr hf, vecIn_of_isArr hS]
  simp only [bind, Except.bind]
  rw [if_neg (by simpa using hl)]

theorem axis_pos {f : List K} {h : K} (hu : UniformAxis f h) {k : Nat} (hk : k < f.length) :
    f.getD 0 0 + k * h = f.getD k 0 := by
  induction k with
  | zero => simp
  | succ k ih =>
    rw [hu.2 k hk, ← ih (by omega)]
    push_cast; ring

/-- **C47 (interior maximum).**  If the maximum is attained at one interior grid point only, the smoothed peak frequency is
strictly within half a step of it, and it is the vertex of the parabola through the three points around it. -/
theorem tps_interior {pf pS : PyIn K} {f S : List K} {h : K} (hf : pf.IsArr f) (hS : pS.IsArr S) (hl : f.length = S.length)
    (hu : UniformAxis f h) (h0 : 0 ≤ f.getD 0 0) {i : Nat} (hm : IsOnlyMaxAt S i) (hi : 0 < i) (hi' : i + 1 < f.length)
    (hbig : 1 / 10 ^ 10 ≤ S.getD i 0) : ∃ F, computeTps pf pS = .ok (1 / F) ∧ 0 < F ∧ |F - f.getD i 0| < h / 2 ∧
      F = f.getD i 0 + h * (S.getD (i + 1) 0 - S.getD (i - 1) 0) / (2 * (2 * S.getD i 0 - S.getD (i - 1) 0 - S.getD (i + 1) 0)) := by
  have hh := hu.1
  have y0 := hm.2 (i - 1) (by omega) (by omega)
  have y2 := hm.2 (i + 1) (by omega) (by omega)
  obtain ⟨a, b, hfit, ea, eb⟩ := fitAt_uniform hu hl (show 1 ≤ i by omega) hi'
  obtain ⟨ha, hv⟩ := vertex_eq hh ea eb (by linarith)
  set F := f.getD i 0 + h * (S.getD (i + 1) 0 - S.getD (i - 1) 0) / (2 * (2 * S.getD i 0 - S.getD (i - 1) 0 - S.getD (i + 1) 0)) with hF
  have hD : 0 < 2 * (2 * S.getD i 0 - S.getD (i - 1) 0 - S.getD (i + 1) 0) := by linarith
  have habs : |F - f.getD i 0| < h / 2 := by
    rw [hF, add_sub_cancel_left, abs_lt]
    constructor
    · rw [lt_div_iff₀ hD]; nlinarith
    · rw [div_lt_iff₀ hD]; nlinarith
  have hfi : h ≤ f.getD i 0 := by
    have := axis_pos hu (show i < f.length by omega)
    have h1 : (1 : K) ≤ i := by exact_mod_cast hi
    nlinarith
  have hFpos : 0 < F := by
    have := (abs_lt.1 habs).1
    linarith
  refine ⟨F, ?_, hFpos, habs, rfl⟩
  rw [computeTps_eq hf hS hl]
  unfold computeTpsL
  rw [pyMax_of_isMaxAt (isMaxAt_of_only hm)]
  simp only [bind, Except.bind]
  rw [if_neg (not_lt.2 hbig), imax_only hm]
  simp only [getE, List.getElem?_cons_zero]
  rw [if_pos (by omega), if_neg (by omega), if_neg (by omega), hfit]
  dsimp only
  rw [if_pos ha, hv]
  unfold invE
  rw [if_neg hFpos.ne']

/-- **C47 (two equal neighbours).**  If the maximum is attained at two neighbouring grid points only, the smoothed peak
frequency is exactly midway between them (at the ends of the axis too). -/
theorem tps_twin {pf pS : PyIn K} {f S : List K} {h : K} (hf : pf.IsArr f) (hS : pS.IsArr S) (hl : f.length = S.length)
    (hu : UniformAxis f h) (h0 : 0 ≤ f.getD 0 0) {i : Nat} (hm : IsTwinMaxAt S i) (hbig : 1 / 10 ^ 10 ≤ S.getD i 0) :
    computeTps pf pS = .ok (1 / ((f.getD i 0 + f.getD (i + 1) 0) / 2)) ∧ 0 < (f.getD i 0 + f.getD (i + 1) 0) / 2 := by
  have hh := hu.1
  obtain ⟨hi1, htie, hoth⟩ := hm
  have hstep := hu.2 i (by omega)
  have hfi : 0 ≤ f.getD i 0 := by
    have := axis_pos hu (show i < f.length by omega)
    have h1 : (0 : K) ≤ i := by exact_mod_cast Nat.zero_le i
    nlinarith
  have hFpos : 0 < (f.getD i 0 + f.getD (i + 1) 0) / 2 := by rw [hstep]; linarith
  refine ⟨?_, hFpos⟩
  rw [computeTps_eq hf hS hl]
  unfold computeTpsL
  rw [pyMax_of_isMaxAt (isMaxAt_of_twin ⟨hi1, htie, hoth⟩)]
  simp only [bind, Except.bind]
  rw [if_neg (not_lt.2 hbig), imax_twin ⟨hi1, htie, hoth⟩]
  simp only [getE, List.getElem?_cons_zero]
  by_cases hn : 2 < f.length
  · rw [if_pos hn, if_pos (by omega)]
    have key : ∃ a b, fitAt f S (if i = 0 then 1 else if i + 1 = f.length - 1 then f.length - 2 else i) = .ok (a, b) ∧ 2 * a ≠ 0 ∧
        -b / (2 * a) = (f.getD i 0 + f.getD (i + 1) 0) / 2 := by
      by_cases hi0 : i = 0
      · subst hi0
        rw [if_pos rfl]
        obtain ⟨a, b, hfit, ea, eb⟩ := fitAt_uniform hu hl (le_refl 1) (by omega)
        have y2 := hoth 2 (by omega) (by omega) (by omega)
        simp only [Nat.sub_self, Nat.reduceAdd, zero_add] at ea eb htie hstep ⊢
        have hneg : S.getD 0 0 + S.getD 2 0 < 2 * S.getD 1 0 := by rw [htie]; linarith
        obtain ⟨ha, hv⟩ := vertex_eq hh ea eb hneg
        refine ⟨a, b, hfit, (mul_neg_of_pos_of_neg two_pos ha).ne, ?_⟩
        rw [hv, htie, hstep]
        have : S.getD 0 0 - S.getD 2 0 ≠ 0 := (sub_pos.2 y2).ne'
        have e : 2 * S.getD 0 0 - S.getD 0 0 - S.getD 2 0 = S.getD 0 0 - S.getD 2 0 := by ring
        rw [e]
        field_simp
        ring
      · rw [if_neg hi0]
        have e : (if i + 1 = f.length - 1 then f.length - 2 else i) = i := by split_ifs <;> omega
        rw [e]
        obtain ⟨a, b, hfit, ea, eb⟩ := fitAt_uniform hu hl (show 1 ≤ i by omega) (by omega)
        have y0 := hoth (i - 1) (by omega) (by omega) (by omega)
        obtain ⟨ha, hv⟩ := vertex_eq hh ea eb (by rw [htie]; linarith)
        refine ⟨a, b, hfit, (mul_neg_of_pos_of_neg two_pos ha).ne, ?_⟩
        rw [hv, htie, hstep]
        have : S.getD i 0 - S.getD (i - 1) 0 ≠ 0 := (sub_pos.2 y0).ne'
        have e : 2 * S.getD i 0 - S.getD (i - 1) 0 - S.getD i 0 = S.getD i 0 - S.getD (i - 1) 0 := by ring
        rw [e]
        field_simp
        ring
    obtain ⟨a, b, hfit, ha, hv⟩ := key
    rw [hfit]
    simp only [divE, if_neg ha, hv]
    unfold invE
    rw [if_neg hFpos.ne']
  · have hi0 : i = 0 := by omega
    subst hi0
    rw [if_neg hn, if_pos (by omega), if_neg (by simp)]
    unfold invE
    have e : (1 : K) / 2 * (f.getD 0 0 + f.getD 1 0) = (f.getD 0 0 + f.getD (0 + 1) 0) / 2 := by ring
    rw [e, if_neg hFpos.ne']

theorem exists_isMaxAt {S : List K} (h : S ≠ []) : ∃ i, IsMaxAt S i := by
  obtain ⟨m, hm⟩ := pyMax_exists h
  obtain ⟨h1, h2⟩ := pyMax_spec hm
  obtain ⟨i, hi, rfl⟩ := List.getElem_of_mem h1
  exact ⟨i, hi, fun v hv => by rw [List.getD_eq_getElem _ _ hi]; exact h2 v hv⟩

/-- **C47 (partial).**  For a uniform axis of positive frequencies and non-negligible densities `compute_tps` returns a positive
period whose frequency is within half a step of a grid point with maximal density.  Missing: a maximum at the first or
last grid point only (with at least three points), for which the claim is false (`tps_edge_negative`). -/
theorem tps_near_peak_partial {pf pS : PyIn K} {f S : List K} {h : K} (hf : pf.IsArr f) (hS : pS.IsArr S) (hl : f.length = S.length)
    (hu : UniformAxis f h) (h0 : 0 < f.getD 0 0) (hbig : ∃ v ∈ S, 1 / 10 ^ 10 ≤ v)
    (hedge : 2 < f.length → ¬ IsOnlyMaxAt S 0 ∧ ¬ IsOnlyMaxAt S (f.length - 1)) :
    ∃ i F, IsMaxAt S i ∧ computeTps pf pS = .ok (1 / F) ∧ 0 < F ∧ |F - f.getD i 0| ≤ h / 2 := by
  have hh := hu.1
  obtain ⟨v, hv, hvb⟩ := hbig
  obtain ⟨m, hm⟩ := exists_isMaxAt (S := S) (by intro e; rw [e] at hv; simp at hv)
  have hbig : 1 / 10 ^ 10 ≤ S.getD m 0 := le_trans hvb (hm.2 v hv)
  have hfpos : ∀ k < f.length, 0 < f.getD k 0 := by
    intro k hk
    have := axis_pos hu hk
    have h1 : (0 : K) ≤ k := by exact_mod_cast Nat.zero_le k
    nlinarith
  -- a grid point of the list of maxima is a maximum
  have hmem : ∀ k ∈ whereIdx (fun v => decide (v = S.getD m 0)) S, IsMaxAt S k ∧ 1 / 10 ^ 10 ≤ S.getD k 0 := by
    intro k hk
    obtain ⟨hk, e⟩ := mem_imax.1 hk
    exact ⟨⟨hk, by rw [e]; exact hm.2⟩, by rw [e]; exact hbig⟩
  -- a result that is the inverse of a grid frequency
  have grid : ∀ k, IsMaxAt S k → computeTpsL f S = invE (f.getD k 0) →
      ∃ i F, IsMaxAt S i ∧ computeTps pf pS = .ok (1 / F) ∧ 0 < F ∧ |F - f.getD i 0| ≤ h / 2 := by
    intro k hk e
    have hp := hfpos k (by have := hk.1; omega)
    refine ⟨k, f.getD k 0, hk, ?_, hp, by rw [sub_self, abs_zero]; linarith⟩
    rw [computeTps_eq hf hS hl, e]
    unfold invE
    rw [if_neg hp.ne']
  have hpair := whereIdx_pairwise (fun v => decide (v = S.getD m 0)) S
  have hm' : m ∈ whereIdx (fun v => decide (v = S.getD m 0)) S := mem_imax.2 ⟨hm.1, rfl⟩
  have hiff := fun k => mem_imax (S := S) (M := S.getD m 0) (k := k)
  have hform : computeTpsL f S = computeTpsL f S := rfl
  conv at hform => rhs; unfold computeTpsL
  rw [pyMax_of_isMaxAt hm] at hform
  simp only [bind, Except.bind] at hform
  rw [if_neg (not_lt.2 hbig)] at hform
  rcases hI : whereIdx (fun v => decide (v = S.getD m 0)) S with _ | ⟨i, _ | ⟨j, _ | ⟨k, rest⟩⟩⟩ <;>
    rw [hI] at hm' hpair hmem hform <;> simp only [hI] at hiff
  · simp at hm'
  · -- one maximum
    have honly : IsOnlyMaxAt S i := by
      obtain ⟨hi, hib⟩ := hmem i (by simp)
      have ei := ((hiff i).1 (by simp)).2
      refine ⟨hi.1, fun k hk hne => lt_of_le_of_ne (hi.2 _ (getD_mem' hk)) fun e => hne ?_⟩
      have := (hiff k).2 ⟨hk, by rw [e, ei]⟩
      simpa using this
    obtain ⟨hi, hib⟩ := hmem i (by simp)
    by_cases hn : 2 < f.length
    · obtain ⟨e1, e2⟩ := hedge hn
      have hi0 : 0 < i := by
        rcases Nat.eq_zero_or_pos i with h | h
        · subst h; exact absurd honly e1
        · exact h
      have hi1 : i + 1 < f.length := by
        have := honly.1
        by_contra hc
        have : i = f.length - 1 := by omega
        rw [this] at honly; exact e2 honly
      obtain ⟨F, hF, hp, hab, -⟩ := tps_interior hf hS hl hu h0.le honly hi0 hi1 hib
      exact ⟨i, F, hi, hF, hp, hab.le⟩
    · apply grid i hi
      rw [hform]
      simp only [getE, List.getElem?_cons_zero]
      rw [if_neg hn]
      have hi2 := hi.1
      by_cases hn2 : f.length = 2
      · rw [if_pos hn2, if_pos (by simp)]
        have := getE_getD (l := f) (i := i) (by omega)
        unfold getE at this
        rw [this]
      · rw [if_neg hn2]
        have e : i = 0 := by omega
        subst e
        have := getE_getD (l := f) (i := 0) (by omega)
        unfold getE at this
        rw [this]
  · -- two maxima
    obtain ⟨hi, hib⟩ := hmem i (by simp)
    obtain ⟨hj, hjb⟩ := hmem j (by simp)
    have ei := ((hiff i).1 (by simp)).2
    have ej := ((hiff j).1 (by simp)).2
    have hij : i < j := by simpa using hpair
    by_cases hadj : j - i = 1
    · have e : j = i + 1 := by omega
      subst e
      have htwin : IsTwinMaxAt S i := by
        refine ⟨hj.1, by rw [ei, ej], fun k hk h1 h2 => lt_of_le_of_ne (hi.2 _ (getD_mem' hk)) fun e => ?_⟩
        have := (hiff k).2 ⟨hk, by rw [e, ei]⟩
        simp only [List.mem_cons, List.not_mem_nil, or_false] at this
        tauto
      obtain ⟨hF, hp⟩ := tps_twin hf hS hl hu h0.le htwin hib
      refine ⟨i, _, hi, hF, hp, ?_⟩
      rw [hu.2 i (by have := hj.1; omega)]
      rw [show (f.getD i 0 + (f.getD i 0 + h)) / 2 - f.getD i 0 = h / 2 by ring, abs_of_pos (by linarith)]
    · apply grid i hi
      have := hj.1
      rw [hform]
      simp only [getE, List.getElem?_cons_zero]
      rw [if_pos (by omega), if_neg hadj]
      have := getE_getD (l := f) (i := i) (by omega)
      unfold getE at this
      rw [this]
  · -- three or more maxima
    obtain ⟨hj, -⟩ := hmem j (by simp)
    obtain ⟨hk, -⟩ := hmem k (by simp)
    have hij : i < j ∧ j < k := by
      simp only [List.pairwise_cons] at hpair
      exact ⟨hpair.1 j (by simp), hpair.2.1 k (by simp)⟩
    apply grid j hj
    have := hk.1
    rw [hform]
    simp only [getE, List.getElem?_cons_zero, List.getElem?_cons_succ]
    rw [if_pos (by omega)]
    have := getE_getD (l := f) (i := j) (by omega)
    unfold getE at this
    rw [this]

/-! ## Scale invariance -/

theorem fitAt_scale {f S : List K} (c : K) (j : Nat) : fitAt f (S.map (c * ·)) j =
    match fitAt f S j with
    | .ok (a, b) => .ok (c * a, c * b)
    | .error e => .error e := by
  have g : ∀ k, getE (S.map (c * ·)) k = match getE S k with | .ok v => .ok (c * v) | .error e => .error e := by
    intro k
    unfold getE
    rw [List.getElem?_map]
    cases S[k]? <;> rfl
  unfold fitAt
  rw [g, g, g]
  cases h1 : getE f (j - 1) <;> cases h2 : getE f j <;> cases h3 : getE f (j + 1) <;> cases h4 : getE S (j - 1) <;>
    cases h5 : getE S j <;> cases h6 : getE S (j + 1) <;> simp only [bind, Except.bind] <;> try rfl
  unfold polyfit2
  split_ifs
  · rfl
  · dsimp only
    congr 2
    · ring
    · ring

/-- **C47 (scale invariance).**  Multiplying the densities by a positive factor does not change the result (as long as the
maximum stays above the threshold `1e-10`, below which `-999` is returned), whatever the result is. -/
theorem tps_scale {pf pS pS' : PyIn K} {f S : List K} {c : K} (hf : pf.IsArr f) (hS : pS.IsArr S) (hS' : pS'.IsArr (S.map (c * ·)))
    (hc : 0 < c) (hbig : ∃ v ∈ S, 1 / 10 ^ 10 ≤ v) (hbig' : ∃ v ∈ S, 1 / 10 ^ 10 ≤ c * v) : computeTps pf pS' = computeTps pf pS := by
  unfold computeTps
  rw [vecIn_of_isArr hf, vecIn_of_isArr hS, vecIn_of_isArr hS']
  simp only [bind, Except.bind, List.length_map]
  split_ifs with hl
  · rfl
  obtain ⟨v, hv, hvb⟩ := hbig
  obtain ⟨v', hv', hvb'⟩ := hbig'
  obtain ⟨m, hm⟩ := exists_isMaxAt (S := S) (by intro e; rw [e] at hv; simp at hv)
  have hget : ∀ k < S.length, (S.map (c * ·)).getD k 0 = c * S.getD k 0 := by
    intro k hk
    rw [List.getD_eq_getElem _ _ (by simpa using hk), List.getD_eq_getElem _ _ hk, List.getElem_map]
  have hm' : IsMaxAt (S.map (c * ·)) m := by
    refine ⟨by simpa using hm.1, fun w hw => ?_⟩
    obtain ⟨u, hu, rfl⟩ := List.mem_map.1 hw
    rw [hget m hm.1]
    exact mul_le_mul_of_nonneg_left (hm.2 u hu) hc.le
  have hI : whereIdx (fun v => decide (v = c * S.getD m 0)) (S.map (c * ·)) = whereIdx (fun v => decide (v = S.getD m 0)) S := by
    apply eq_of_pairwise_mem (whereIdx_pairwise _ _) (whereIdx_pairwise _ _)
    intro k
    rw [mem_imax, mem_imax, List.length_map]
    constructor
    · rintro ⟨hk, e⟩
      rw [hget k hk] at e
      exact ⟨hk, mul_left_cancel₀ hc.ne' e⟩
    · rintro ⟨hk, e⟩
      exact ⟨hk, by rw [hget k hk, e]⟩
  unfold computeTpsL
  rw [pyMax_of_isMaxAt hm, pyMax_of_isMaxAt hm', hget m hm.1]
  simp only [bind, Except.bind]
  rw [if_neg (not_lt.2 (le_trans hvb (hm.2 v hv))),
    if_neg (not_lt.2 (le_trans hvb' (mul_le_mul_of_nonneg_left (hm.2 v' hv') hc.le))), hI]
  have hq : ∀ a b : K, -(c * b) / (2 * (c * a)) = -b / (2 * a) := by
    intro a b
    rw [show -(c * b) = c * -b by ring, show 2 * (c * a) = c * (2 * a) by ring, mul_div_mul_left _ _ hc.ne']
  have hlt : ∀ a : K, (c * a < 0) = (a < 0) := fun a => propext ⟨fun h => by by_contra hn; exact absurd (mul_nonneg hc.le (not_lt.1 hn)) (not_le.2 h), fun h => mul_neg_of_pos_of_neg hc h⟩
  rcases whereIdx (fun v => decide (v = S.getD m 0)) S with _ | ⟨i, _ | ⟨j, _ | ⟨k, rest⟩⟩⟩
  · rfl
  · simp only [fitAt_scale]
    cases fitAt f S (if i = 0 then 1 else if i = f.length - 1 then f.length - 2 else i) with
    | error e => rfl
    | ok r => obtain ⟨a, b⟩ := r; simp only [hlt, hq]
  · simp only [fitAt_scale]
    cases fitAt f S (if i = 0 then 1 else if j = f.length - 1 then f.length - 2 else i) with
    | error e => rfl
    | ok r =>
      obtain ⟨a, b⟩ := r
      have : ((2 : K) * (c * a) = 0) = (2 * a = 0) := by
        apply propext
        rw [show 2 * (c * a) = c * (2 * a) by ring]
        simp [hc.ne']
      simp only [divE, this, hq]
  · rfl

/-! ## Findings -/

/-- **C47 (refuted for a maximum at the edge).**  On the axis 0.1, 0.2, 0.3 Hz with slowly decreasing densities the result is
negative: the vertex of the parabola lies far outside the axis. -/
theorem tps_edge_negative : computeTps (K := ℚ) (vec [1 / 10, 2 / 10, 3 / 10]) (vec [1000, 986, 970]) = .ok (-20 / 11) := by
  decide +kernel

/-- **C47 (remark).**  Densities that are everywhere below `1e-10` give the sentinel `-999`, not a period. -/
theorem tps_sentinel {pf pS : PyIn K} {f S : List K} (hf : pf.IsArr f) (hS : pS.IsArr S) (hl : f.length = S.length) (hne : S ≠ [])
    (hsmall : ∀ v ∈ S, v < 1 / 10 ^ 10) : computeTps pf pS = .ok (-999) := by
  obtain ⟨m, hm⟩ := exists_isMaxAt hne
  rw [computeTps_eq hf hS hl]
  unfold computeTpsL
  rw [pyMax_of_isMaxAt hm]
  simp only [bind, Except.bind]
  rw [if_pos (hsmall _ (getD_mem' hm.1))]
  rfl

section concrete

/-- Non-vacuity: an interior maximum, two equal neighbours, a tie of distant points. -/
example : computeTps (K := ℚ) (vec [1, 2, 3, 4]) (vec [1, 5, 3, 2]) = .ok (1 / (2 + 1 / 6)) ∧
    computeTps (K := ℚ) (vec [1, 2, 3, 4]) (vec [1, 5, 5, 2]) = .ok (1 / (5 / 2)) ∧
    computeTps (K := ℚ) (vec [1, 2, 3, 4]) (vec [1, 5, 3, 5]) = .ok (1 / 2) ∧
    computeTps (K := ℚ) (vec [1, 2, 3, 4]) (vec [3, 15, 9, 6]) = .ok (1 / (2 + 1 / 6)) := by decide +kernel

example : IsOnlyMaxAt ([1, 5, 3, 2] : List ℚ) 1 ∧ IsTwinMaxAt ([1, 5, 5, 2] : List ℚ) 1 := by
  refine ⟨⟨by simp, fun k hk hne => ?_⟩, by simp, by simp, fun k hk h1 h2 => ?_⟩ <;>
  · simp only [List.length_cons, List.length_nil] at hk
    interval_cases k <;> first | (norm_num; done) | (exact absurd rfl ‹_›)

end concrete

/-! ## Concrete cases: the hypotheses of the theorems above are met -/

theorem onlyMax_second : IsOnlyMaxAt ([1, 5, 3, 2] : List ℚ) 1 := by
  refine ⟨by simp, fun k hk hne => ?_⟩
  have : k < 4 := hk
  interval_cases k <;> first | (norm_num; done) | (exact absurd rfl ‹_›)

theorem twinMax_second : IsTwinMaxAt ([1, 5, 5, 2] : List ℚ) 1 := by
  refine ⟨by simp, by simp, fun k hk h1 h2 => ?_⟩
  have : k < 4 := hk
  interval_cases k <;> first | (norm_num; done) | (exact absurd rfl ‹_›)

example := tps_near_peak_partial (f := ([1, 2, 3, 4] : List ℚ)) (S := [1, 5, 3, 2]) (h := 1) (isArr_vec _) (isArr_vec _) rfl
  (uniformAxis_of_steps (by norm_num) (by decide +kernel)) (by norm_num) ⟨5, by simp, by norm_num⟩
  fun _ => ⟨fun h => absurd (h.2 1 (by decide) (by decide)) (by decide +kernel), fun h => absurd (h.2 1 (by decide) (by decide)) (by decide +kernel)⟩
example := tps_interior (f := ([1, 2, 3, 4] : List ℚ)) (S := [1, 5, 3, 2]) (h := 1) (isArr_vec _) (isArr_vec _) rfl
  (uniformAxis_of_steps (by norm_num) (by decide +kernel)) (by norm_num) onlyMax_second (by norm_num) (by norm_num) (by norm_num)
example := tps_twin (f := ([1, 2, 3, 4] : List ℚ)) (S := [1, 5, 5, 2]) (h := 1) (isArr_vec _) (isArr_vec _) rfl
  (uniformAxis_of_steps (by norm_num) (by decide +kernel)) (by norm_num) twinMax_second (by norm_num)
example := tps_scale (f := ([1, 2, 3, 4] : List ℚ)) (S := [1, 5, 3, 2]) (c := 1 / 100) (isArr_vec _) (isArr_vec _) (isArr_vec _) (by norm_num)
  ⟨5, by simp, by norm_num⟩ ⟨5, by simp, by norm_num⟩
example := tps_sentinel (f := ([1, 2, 3] : List ℚ)) (S := [0, 1 / 10 ^ 11, 0]) (isArr_vec _) (isArr_vec _) rfl (by simp) (by decide +kernel)

end Verif
