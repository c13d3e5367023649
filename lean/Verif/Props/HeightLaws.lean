import Verif.Props.WaveExact

/-! # C109, C110: how the height statistics react to changes of the individual heights -/

set_option linter.unusedSectionVars false

namespace Verif

variable {K : Type} [Field K] [LinearOrder K] [IsStrictOrderedRing K]

/-- The three order statistics in terms of the descending list of heights, after any history. -/
theorem object_stats [FloorRing K] (A : Argsort K) (ops : List (WHOp K)) {h t hs : List K} (hne : h ≠ []) (hlen : h.length = t.length)
    (hp : hs.Perm h) (hd : hs.Pairwise (· ≥ ·)) {p q : K} (h0 : 0 ≤ p) (h1 : p ≤ 1) (q0 : 0 ≤ q) (q1 : q ≤ 100) :
    ∃ s T, WH.init (vec h) (vec t) = .ok s ∧ (s.run A ops).getHmax.1 = .ok (hs.getD 0 0) ∧
      ((s.run A ops).highestWaves A p).1 =
        .ok (if ⌊(h.length : K) * p⌋ = 0 then 0 else mean (hs.take ⌊(h.length : K) * p⌋.toNat), T) ∧
      ((s.run A ops).getExceedance A q).1 =
        .ok (if ⌊(h.length : K) * q / 100⌋ = 0 then 0 else hs.getD (⌊(h.length : K) * q / 100⌋.toNat - 1) 0) := by
  set s : WH K := ⟨arr1 h, h.length, arr1 t⟩ with hsdef
  have hw : s.WF := ⟨by simp [hsdef, Arr.WF, arr1], by simp [hsdef, Arr.WF, arr1]⟩
  obtain ⟨i1, -, i3, i4⟩ := height_statistics_history_independent A ops hw p
  obtain ⟨-, -, -, j4⟩ := height_statistics_history_independent A ops hw q
  obtain ⟨hs', ts', e, l1, l2, hd', hz⟩ := sort_keeps_waves A (isVec_vec h) (isVec_vec t) hne hlen
  have hp' := (perm_of_zip hlen l1 l2 hz).1
  have : hs' = hs := desc_unique hd' hd (hp'.trans hp.symm)
  subst this
  have hne' : hs' ≠ [] := fun c => by rw [c] at l1; exact hne (List.length_eq_zero_iff.1 l1.symm)
  have es : s.sort A = (.ok (), { s with hwave := arr1 hs', twave := arr1 ts' }) := by
    unfold WH.sort
    have : sortWaveParams A (.nd s.hwave) (.nd s.twave) = .ok (hs', ts') := e
    rw [this]
  have hmax : s.getHmax.1 = .ok (hs'.getD 0 0) := by
    have h1 : ∃ m, pyMax h = .ok m := by
      cases h with
      | nil => exact absurd rfl hne
      | cons a l => exact ⟨_, rfl⟩
    obtain ⟨m, hm⟩ := h1
    have e1 : s.getHmax.1 = .ok m := by
      rw [← hm]
      cases h with
      | nil => exact absurd rfl hne
      | cons a l => rfl
    rw [e1]
    congr 1
    obtain ⟨m1, m2⟩ := pyMax_spec hm
    cases hs' with
    | nil => exact absurd rfl hne'
    | cons a l =>
      rw [List.getD_cons_zero]
      refine le_antisymm ?_ (m2 _ (hp.subset (List.mem_cons_self ..)))
      rcases List.mem_cons.1 (hp.symm.subset m1) with rfl | hmem
      · exact le_refl _
      · exact (List.pairwise_cons.1 hd).1 m hmem
  have hhigh : (s.highestWaves A p).1.map Prod.fst =
      .ok (if ⌊(h.length : K) * p⌋ = 0 then 0 else mean (hs'.take ⌊(h.length : K) * p⌋.toNat)) := by
    unfold WH.highestWaves
    rw [es]
    have := highest_is_mean_of_top (isVec_vec hs') (isVec_vec ts') hne' (l1.trans l2.symm) hd h0 h1
    have e2 : highestWavesParams (.nd (arr1 hs')) (.nd (arr1 ts')) p = highestWavesParams (vec hs') (vec ts') p := rfl
    dsimp only
    rw [e2, this, l1]
    split_ifs <;> rfl
  have hexc : (s.getExceedance A q).1 =
      .ok (if ⌊(h.length : K) * q / 100⌋ = 0 then 0 else hs'.getD (⌊(h.length : K) * q / 100⌋.toNat - 1) 0) := by
    unfold WH.getExceedance
    rw [es]
    have e2 : exceedanceWaveHeight (.nd (arr1 hs')) q = exceedanceWaveHeight (vec hs') q := rfl
    dsimp only
    rw [e2, exceed_eq (isVec_vec hs') hne', if_neg (by push Not; exact ⟨q1, q0⟩), (isSortedDesc_iff hs').2 hd, if_neg (by simp), l1]
    have hn : (0 : K) ≤ h.length := Nat.cast_nonneg _
    have hge : 0 ≤ ⌊(h.length : K) * q / 100⌋ := Int.floor_nonneg.2 (by positivity)
    have hle : ⌊(h.length : K) * q / 100⌋ ≤ (h.length : Int) := by
      have h3 : (⌊(h.length : K) * q / 100⌋ : K) ≤ h.length :=
        le_trans (Int.floor_le _) (by rw [div_le_iff₀ (by norm_num)]; nlinarith)
      exact_mod_cast h3
    by_cases hz0 : ⌊(h.length : K) * q / 100⌋ = 0
    · rw [if_pos hz0, if_neg (by omega)]
    · rw [if_neg hz0, if_pos (by omega)]
      have hi : (⌊(h.length : K) * q / 100⌋ - 1).toNat < hs'.length := by omega
      rw [getE_ok.2 (List.getElem?_eq_getElem hi), show ⌊(h.length : K) * q / 100⌋.toNat - 1 = (⌊(h.length : K) * q / 100⌋ - 1).toNat by omega,
        List.getD_eq_getElem _ _ hi]
  rw [hhigh] at i3
  rcases hr : ((s.run A ops).highestWaves A p).1 with e3 | r
  · rw [hr] at i3; cases i3
  · rw [hr] at i3
    have i3 : Except.ok (ε := PyErr) r.1 = .ok _ := i3
    refine ⟨s, r.2, WH_init_vec, by rw [i1, hmax], ?_, by rw [j4, hexc]⟩
    rw [hr, ← Except.ok.inj i3]

theorem exists_desc (h : List K) : ∃ hs : List K, hs.Perm h ∧ hs.Pairwise (· ≥ ·) := by
  refine ⟨(h.insertionSort (· ≤ ·)).reverse, (List.reverse_perm _).trans (List.perm_insertionSort _ h), ?_⟩
  rw [List.pairwise_reverse]
  exact List.pairwise_insertionSort (· ≤ ·) h

/-- Sorting preserves pointwise bounds. -/
theorem sorted_le {h h' hs hs' : List K} {ε : K} (hl : h'.length = h.length) (hd : ∀ i < h.length, h.getD i 0 ≤ h'.getD i 0 + ε)
    (p : hs.Perm h) (p' : hs'.Perm h') (s : hs.Pairwise (· ≥ ·)) (s' : hs'.Pairwise (· ≥ ·)) :
    ∀ k < h.length, hs.getD k 0 ≤ hs'.getD k 0 + ε := by
  intro k hk
  have l1 := p.length_eq
  have l2 := p'.length_eq
  by_contra hc
  push Not at hc
  set c := hs.getD k 0 with hcdef
  have count : ∀ (a b : List K), b.length = a.length → (∀ i < a.length, a.getD i 0 ≤ b.getD i 0 + ε) →
      a.countP (fun v => decide (c ≤ v)) ≤ b.countP (fun v => decide (c - ε ≤ v)) := by
    intro a
    induction a with
    | nil => intro b hb _; simp
    | cons x a ih =>
      intro b hb hle
      cases b with
      | nil => simp at hb
      | cons y b =>
        have h1 := ih b (by simpa using hb) (fun i hi => by
          have := hle (i + 1) (by simpa using hi)
          rwa [List.getD_cons_succ, List.getD_cons_succ] at this)
        have h2 := hle 0 (by simp)
        rw [List.getD_cons_zero, List.getD_cons_zero] at h2
        rw [List.countP_cons, List.countP_cons]
        by_cases hx : c ≤ x
        · have hy : c - ε ≤ y := by linarith
          simp only [hx, hy, decide_true, if_true]
          omega
        · simp only [hx, decide_false]
          have : (0 : Nat) ≤ if decide (c - ε ≤ y) = true then 1 else 0 := Nat.zero_le _
          simp only [Bool.false_eq_true, if_false]
          omega
  have c1 := count h h' hl hd
  rw [← p.countP_eq, ← p'.countP_eq] at c1
  have hkl : k < hs.length := by omega
  have hkl' : k < hs'.length := by omega
  have c2 : k + 1 ≤ hs.countP (fun v => decide (c ≤ v)) := by
    have e1 : (hs.take (k + 1)).countP (fun v => decide (c ≤ v)) = (hs.take (k + 1)).length := by
      rw [List.countP_eq_length]
      intro a ha
      obtain ⟨i, hil, rfl⟩ := List.mem_iff_getElem.1 ha
      simp only [List.length_take] at hil
      simp only [List.getElem_take, decide_eq_true_eq]
      rw [hcdef, List.getD_eq_getElem _ _ hkl]
      rcases Nat.lt_or_eq_of_le (by omega : i ≤ k) with h | h
      · exact List.pairwise_iff_getElem.1 s _ _ (by omega) hkl h
      · subst h; exact le_refl _
    have e2 := List.Sublist.countP_le (p := fun w => decide (c ≤ w)) (List.take_sublist (k + 1) hs)
    rw [e1, List.length_take] at e2
    omega
  have c3 : hs'.countP (fun v => decide (c - ε ≤ v)) ≤ k := by
    have happ : hs'.countP (fun v => decide (c - ε ≤ v)) =
        (hs'.take k).countP (fun v => decide (c - ε ≤ v)) + (hs'.drop k).countP (fun v => decide (c - ε ≤ v)) := by
      rw [← List.countP_append, List.take_append_drop]
    have hz : (hs'.drop k).countP (fun v => decide (c - ε ≤ v)) = 0 := by
      rw [List.countP_eq_zero]
      intro a ha
      obtain ⟨i, hil, rfl⟩ := List.mem_iff_getElem.1 ha
      simp only [List.length_drop] at hil
      simp only [List.getElem_drop, decide_eq_true_eq, not_le]
      have : hs'[k + i]'(by omega) ≤ hs'[k] := by
        rcases Nat.eq_zero_or_pos i with rfl | h
        · simp
        · exact List.pairwise_iff_getElem.1 s' _ _ hkl' (by omega) (by omega)
      rw [List.getD_eq_getElem _ _ hkl'] at hc
      linarith
    have hle := List.countP_le_length (p := fun w => decide (c - ε ≤ w)) (l := hs'.take k)
    rw [List.length_take] at hle
    omega
  omega

theorem mean_take_le {a b : List K} {ε : K} {k n : Nat} (hk : 0 < k) (hkn : k ≤ n) (la : a.length = n) (lb : b.length = n)
    (h : ∀ i < n, a.getD i 0 ≤ b.getD i 0 + ε) : mean (a.take k) ≤ mean (b.take k) + ε := by
  have hk0 : (0 : K) < k := by exact_mod_cast hk
  have key : ∀ (k : Nat) (a b : List K), k ≤ a.length → k ≤ b.length → (∀ i < k, a.getD i 0 ≤ b.getD i 0 + ε) →
      (a.take k).sum ≤ (b.take k).sum + k * ε := by
    intro k
    induction k with
    | zero => intro a b _ _ _; simp
    | succ k ih =>
      intro a b h1 h2 h3
      cases a with
      | nil => simp at h1
      | cons x a =>
        cases b with
        | nil => simp at h2
        | cons y b =>
          have e1 := ih a b (by simpa using h1) (by simpa using h2) (fun i hi => by
            have := h3 (i + 1) (by omega)
            rwa [List.getD_cons_succ, List.getD_cons_succ] at this)
          have e2 := h3 0 (by omega)
          rw [List.getD_cons_zero, List.getD_cons_zero] at e2
          simp only [List.take_succ_cons, List.sum_cons]
          push_cast
          linarith
  have := key k a b (by omega) (by omega) fun i hi => h i (by omega)
  unfold mean
  rw [List.length_take, List.length_take, la, lb, min_eq_left hkn]
  rw [div_add' _ _ _ hk0.ne', div_le_div_iff_of_pos_right hk0]
  linarith

/-- **C109.**  Two wave trains with the same number of waves; no height of the first exceeds the corresponding height of the second by more
than `ε`.  Then none of `get_Hmax`, `highest_waves(p)` (so `get_Hs`) and `get_exceedance_waveheight(q)` of the first exceeds that of the second
by more than `ε`, after any history on either side. -/
theorem heights_stable [FloorRing K] (A A' : Argsort K) (ops ops' : List (WHOp K)) {h t h' t' : List K} {ε : K} (hε : 0 ≤ ε) (hne : h ≠ [])
    (hlen : h.length = t.length) (hl : h'.length = h.length) (hlen' : h'.length = t'.length)
    (hd : ∀ i < h.length, h.getD i 0 ≤ h'.getD i 0 + ε) {p q : K} (h0 : 0 ≤ p) (h1 : p ≤ 1) (q0 : 0 ≤ q) (q1 : q ≤ 100) :
    ∃ s s' m m' r r' e e', WH.init (vec h) (vec t) = .ok s ∧ WH.init (vec h') (vec t') = .ok s' ∧
      (s.run A ops).getHmax.1 = .ok m ∧ (s'.run A' ops').getHmax.1 = .ok m' ∧ m ≤ m' + ε ∧
      ((s.run A ops).highestWaves A p).1 = .ok r ∧ ((s'.run A' ops').highestWaves A' p).1 = .ok r' ∧ r.1 ≤ r'.1 + ε ∧
      ((s.run A ops).getExceedance A q).1 = .ok e ∧ ((s'.run A' ops').getExceedance A' q).1 = .ok e' ∧ e ≤ e' + ε := by
  have hne' : h' ≠ [] := fun c => by rw [c] at hl; exact hne (List.length_eq_zero_iff.1 hl.symm)
  obtain ⟨hs, P, S⟩ := exists_desc h
  obtain ⟨hs', P', S'⟩ := exists_desc h'
  obtain ⟨s, T, e1, e2, e3, e4⟩ := object_stats A ops hne hlen P S h0 h1 q0 q1
  obtain ⟨s', T', f1, f2, f3, f4⟩ := object_stats A' ops' hne' hlen' P' S' h0 h1 q0 q1
  have hb := sorted_le hl hd P P' S S'
  have hpos : 0 < h.length := List.length_pos_of_ne_nil hne
  rw [hl] at f3 f4
  refine ⟨s, s', _, _, _, _, _, _, e1, f1, e2, f2, hb 0 hpos, e3, f3, ?_, e4, f4, ?_⟩
  · dsimp only
    have := floor_np_bounds (n := h.length) h0 h1
    split_ifs with hz
    · linarith
    · exact mean_take_le (by omega) this.2 P.length_eq (P'.length_eq.trans hl) hb
  · split_ifs with hz
    · linarith
    · have hn : (0 : K) ≤ h.length := Nat.cast_nonneg _
      have hge : 0 ≤ ⌊(h.length : K) * q / 100⌋ := Int.floor_nonneg.2 (by positivity)
      have hle : ⌊(h.length : K) * q / 100⌋ ≤ (h.length : Int) := by
        have h3 : (⌊(h.length : K) * q / 100⌋ : K) ≤ h.length :=
          le_trans (Int.floor_le _) (by rw [div_le_iff₀ (by norm_num)]; nlinarith)
        exact_mod_cast h3
      exact hb _ (by omega)

/-- **C109 (noise).**  If every height is off by at most `ε`, so are the statistics. -/
theorem heights_noise [FloorRing K] (A A' : Argsort K) (ops ops' : List (WHOp K)) {h t h' t' : List K} {ε : K} (hne : h ≠ [])
    (hlen : h.length = t.length) (hl : h'.length = h.length) (hlen' : h'.length = t'.length)
    (hd : ∀ i < h.length, |h.getD i 0 - h'.getD i 0| ≤ ε) {p q : K} (h0 : 0 ≤ p) (h1 : p ≤ 1) (q0 : 0 ≤ q) (q1 : q ≤ 100) :
    ∃ s s' m m' r r' e e', WH.init (vec h) (vec t) = .ok s ∧ WH.init (vec h') (vec t') = .ok s' ∧
      (s.run A ops).getHmax.1 = .ok m ∧ (s'.run A' ops').getHmax.1 = .ok m' ∧ |m - m'| ≤ ε ∧
      ((s.run A ops).highestWaves A p).1 = .ok r ∧ ((s'.run A' ops').highestWaves A' p).1 = .ok r' ∧ |r.1 - r'.1| ≤ ε ∧
      ((s.run A ops).getExceedance A q).1 = .ok e ∧ ((s'.run A' ops').getExceedance A' q).1 = .ok e' ∧ |e - e'| ≤ ε := by
  have hne' : h' ≠ [] := fun c => by rw [c] at hl; exact hne (List.length_eq_zero_iff.1 hl.symm)
  have hε : 0 ≤ ε := le_trans (abs_nonneg _) (hd 0 (List.length_pos_of_ne_nil hne))
  obtain ⟨s, s', m, m', r, r', e, e', a1, a2, a3, a4, a5, a6, a7, a8, a9, a10, a11⟩ :=
    heights_stable A A' ops ops' hε hne hlen hl hlen' (fun i hi => by have := (abs_le.1 (hd i hi)).2; linarith) h0 h1 q0 q1
  obtain ⟨z', z, n', n, u', u, w', w, b1, b2, b3, b4, b5, b6, b7, b8, b9, b10, b11⟩ :=
    heights_stable A' A ops' ops hε hne' hlen' hl.symm hlen (fun i hi => by have := (abs_le.1 (hd i (by omega))).1; linarith) h0 h1 q0 q1
  rw [a1] at b2; rw [a2] at b1
  cases b1; cases b2
  rw [a3] at b4; rw [a4] at b3; cases b3; cases b4
  rw [a6] at b7; rw [a7] at b6; cases b6; cases b7
  rw [a9] at b10; rw [a10] at b9; cases b9; cases b10
  refine ⟨s, s', m, m', r, r', e, e', a1, a2, a3, a4, ?_, a6, a7, ?_, a9, a10, ?_⟩ <;> rw [abs_le] <;> constructor <;> linarith

/-! ## C109: Hrms -/

theorem mean_abs_le_rms {u : List ℝ} (hne : u ≠ []) : mean (u.map fun v => |v|) ≤ Real.sqrt (mean (u.map (· ^ 2))) := by
  apply Real.le_sqrt_of_sq_le
  have hn : (0 : ℝ) < u.length := by exact_mod_cast List.length_pos_of_ne_nil hne
  have key : ∀ (u : List ℝ) (m : ℝ), 2 * m * (u.map fun v => |v|).sum - u.length * m ^ 2 ≤ (u.map (· ^ 2)).sum := by
    intro u m
    induction u with
    | nil => simp
    | cons a u ih =>
      simp only [List.map_cons, List.sum_cons, List.length_cons]
      push_cast
      nlinarith [sq_nonneg (|a| - m), sq_abs a]
  have := key u (mean (u.map fun v => |v|))
  unfold mean at this ⊢
  rw [List.length_map] at this ⊢
  rw [List.length_map, le_div_iff₀ hn]
  have e : (u.map fun v => |v|).sum / u.length * u.length = (u.map fun v => |v|).sum := by field_simp
  generalize (u.map fun v => |v|).sum / (u.length : ℝ) = m at this e ⊢
  rw [← e] at this
  linarith

/-- **C109 (Hrms).**  If every height is off by at most `ε`, so is `get_Hrms`. -/
theorem hrms_noise (A A' : Argsort ℝ) (ops ops' : List (WHOp ℝ)) {h t h' t' : List ℝ} {ε : ℝ} (hne : h ≠ [])
    (hl : h'.length = h.length) (hd : ∀ i < h.length, |h.getD i 0 - h'.getD i 0| ≤ ε) :
    ∃ s s' r r', WH.init (vec h) (vec t) = .ok s ∧ WH.init (vec h') (vec t') = .ok s' ∧
      (s.run A ops).getHrms = .ok r ∧ (s'.run A' ops').getHrms = .ok r' ∧ |r - r'| ≤ ε := by
  have hne' : h' ≠ [] := fun c => by rw [c] at hl; exact hne (List.length_eq_zero_iff.1 hl.symm)
  have hε : 0 ≤ ε := le_trans (abs_nonneg _) (hd 0 (List.length_pos_of_ne_nil hne))
  have wf : ∀ h t : List ℝ, (⟨arr1 h, h.length, arr1 t⟩ : WH ℝ).WF := fun h t => ⟨by simp [Arr.WF, arr1], by simp [Arr.WF, arr1]⟩
  have val : ∀ {h t : List ℝ}, h ≠ [] → (⟨arr1 h, h.length, arr1 t⟩ : WH ℝ).getHrms = .ok (Real.sqrt (mean (h.map (· ^ 2)))) := by
    intro h t hn
    unfold WH.getHrms
    exact if_neg hn
  have one : ∀ u v : List ℝ, u ≠ [] → v.length = u.length → (∀ i < u.length, |v.getD i 0 - u.getD i 0| ≤ ε) →
      Real.sqrt (mean (v.map (· ^ 2))) ≤ Real.sqrt (mean (u.map (· ^ 2))) + ε := by
    intro u v hu hlv hb
    have hn : (0 : ℝ) < u.length := by exact_mod_cast List.length_pos_of_ne_nil hu
    have key : ∀ u v : List ℝ, v.length = u.length → (∀ i < u.length, |v.getD i 0 - u.getD i 0| ≤ ε) →
        (v.map (· ^ 2)).sum ≤ (u.map (· ^ 2)).sum + 2 * ε * (u.map fun x => |x|).sum + u.length * ε ^ 2 := by
      intro u
      induction u with
      | nil => intro v hv _; rw [List.length_eq_zero_iff.1 hv]; simp
      | cons x u ih =>
        intro v hv hb
        cases v with
        | nil => simp at hv
        | cons y v =>
          have e1 := ih v (by simpa using hv) (fun i hi => by
            have := hb (i + 1) (by simpa using hi)
            rwa [List.getD_cons_succ, List.getD_cons_succ] at this)
          have e2 := hb 0 (by simp)
          rw [List.getD_cons_zero, List.getD_cons_zero] at e2
          simp only [List.map_cons, List.sum_cons, List.length_cons]
          push_cast
          have e3 : |y| ≤ |x| + ε := by
            have := abs_add_le (y - x) x
            rw [sub_add_cancel] at this
            linarith
          have e4 : y ^ 2 ≤ (|x| + ε) ^ 2 := by
            rw [← sq_abs y]
            exact pow_le_pow_left₀ (abs_nonneg _) e3 2
          nlinarith [sq_abs x]
    have k := key u v hlv hb
    have hm := mean_abs_le_rms hu
    rw [Real.sqrt_le_left (by positivity), add_sq, Real.sq_sqrt (by
      unfold mean
      apply div_nonneg
      · apply List.sum_nonneg
        intro w hw
        obtain ⟨z, -, rfl⟩ := List.mem_map.1 hw
        positivity
      · positivity)]
    have k' : mean (v.map (· ^ 2)) ≤ mean (u.map (· ^ 2)) + 2 * ε * mean (u.map fun x => |x|) + ε ^ 2 := by
      unfold mean
      rw [List.length_map, List.length_map, List.length_map, hlv, div_le_iff₀ hn]
      have e1 : ((u.map (· ^ 2)).sum / u.length + 2 * ε * ((u.map fun x => |x|).sum / u.length) + ε ^ 2) * u.length =
          (u.map (· ^ 2)).sum + 2 * ε * (u.map fun x => |x|).sum + u.length * ε ^ 2 := by field_simp
      rw [e1]
      exact k
    nlinarith
  refine ⟨_, _, _, _, WH_init_vec, WH_init_vec, (hrms_h2p_history_independent A ops (wf h t)).1.trans (val hne),
    (hrms_h2p_history_independent A' ops' (wf h' t')).1.trans (val hne'), ?_⟩
  have a := one h' h hne' hl.symm (fun i hi => hd i (by omega))
  have b := one h h' hne hl (fun i hi => by rw [abs_sub_comm]; exact hd i hi)
  rw [abs_le]
  constructor <;> linarith

/-! ## C110: unit of length -/

/-- **C110.**  Expressing all heights in another unit (factor `a > 0`; the periods do not matter) multiplies `get_Hmax`, `highest_waves(p)` and
`get_exceedance_waveheight(q)` by `a`, after any history on either side. -/
theorem heights_scale [FloorRing K] (A A' : Argsort K) (ops ops' : List (WHOp K)) {h t t' : List K} {a : K} (ha : 0 < a) (hne : h ≠ [])
    (hlen : h.length = t.length) (hlen' : h.length = t'.length) {p q : K} (h0 : 0 ≤ p) (h1 : p ≤ 1) (q0 : 0 ≤ q) (q1 : q ≤ 100) :
    ∃ s s' m r r' e, WH.init (vec h) (vec t) = .ok s ∧ WH.init (vec (h.map fun v => a * v)) (vec t') = .ok s' ∧
      (s.run A ops).getHmax.1 = .ok m ∧ (s'.run A' ops').getHmax.1 = .ok (a * m) ∧
      ((s.run A ops).highestWaves A p).1 = .ok r ∧ ((s'.run A' ops').highestWaves A' p).1 = .ok r' ∧ r'.1 = a * r.1 ∧
      ((s.run A ops).getExceedance A q).1 = .ok e ∧ ((s'.run A' ops').getExceedance A' q).1 = .ok (a * e) := by
  obtain ⟨hs, P, S⟩ := exists_desc h
  have S' : (hs.map fun v => a * v).Pairwise (· ≥ ·) := by
    rw [List.pairwise_map]
    exact S.imp fun {x y} hxy => mul_le_mul_of_nonneg_left hxy ha.le
  obtain ⟨s, T, e1, e2, e3, e4⟩ := object_stats A ops hne hlen P S h0 h1 q0 q1
  obtain ⟨s', T', f1, f2, f3, f4⟩ := object_stats A' ops' (h := h.map fun v => a * v) (by simpa using hne) (by simpa using hlen')
    (P.map fun v => a * v) S' h0 h1 q0 q1
  have gd : ∀ k, (hs.map fun v => a * v).getD k 0 = a * hs.getD k 0 := by
    intro k
    rcases lt_or_ge k hs.length with hk | hk
    · rw [List.getD_eq_getElem _ _ (by simpa using hk), List.getElem_map, List.getD_eq_getElem _ _ hk]
    · rw [List.getD_eq_default _ _ (by simpa using hk), List.getD_eq_default _ _ hk, mul_zero]
  rw [List.length_map] at f3 f4
  rw [gd] at f2 f4
  refine ⟨s, s', _, _, _, _, e1, f1, e2, f2, e3, f3, ?_, e4, ?_⟩
  · dsimp only
    split_ifs
    · rw [mul_zero]
    · unfold mean
      rw [← List.map_take, List.sum_map_mul_left, List.length_map, mul_div_assoc]
      simp
  · rw [f4]
    split_ifs
    · rw [mul_zero]
    · rfl

/-! ## Instances -/

example : ∃ s s' r r', WH.init (vec ([3, 1, 2] : List ℚ)) (vec [5, 4, 6]) = .ok s ∧
    WH.init (vec ([29 / 10, 11 / 10, 2] : List ℚ)) (vec [5, 4, 6]) = .ok s' ∧ (s.getHs stableArgsort).1 = .ok r ∧
    (s'.getHs stableArgsort).1 = .ok r' ∧ |r.1 - r'.1| ≤ 1 / 10 := by
  obtain ⟨s, s', m, m', r, r', e, e', a1, a2, -, -, -, a6, a7, a8, -⟩ :=
    heights_noise (K := ℚ) stableArgsort stableArgsort [] [] (h := [3, 1, 2]) (t := [5, 4, 6]) (h' := [29 / 10, 11 / 10, 2]) (t' := [5, 4, 6])
      (ε := 1 / 10) (by simp) rfl rfl rfl (by decide +kernel) (p := 1 / 3) (q := 0) (by norm_num) (by norm_num) (by norm_num) (by norm_num)
  exact ⟨s, s', r, r', a1, a2, a6, a7, a8⟩

/-! ## Concrete cases: the hypotheses of the theorems above are met -/

example : ∃ s s' m m' r r' e e', WH.init (vec ([3, 1, 2] : List ℚ)) (vec [5, 4, 6]) = .ok s ∧ WH.init (vec ([4, 1, 2] : List ℚ)) (vec [5, 5, 5]) = .ok s' ∧
    (s.run stableArgsort [.sort]).getHmax.1 = .ok m ∧ (s'.run stableArgsort []).getHmax.1 = .ok m' ∧ m ≤ m' + 1 / 2 ∧
    ((s.run stableArgsort [.sort]).highestWaves stableArgsort (1 / 3)).1 = .ok r ∧ ((s'.run stableArgsort []).highestWaves stableArgsort (1 / 3)).1 = .ok r' ∧ r.1 ≤ r'.1 + 1 / 2 ∧
    ((s.run stableArgsort [.sort]).getExceedance stableArgsort 2).1 = .ok e ∧ ((s'.run stableArgsort []).getExceedance stableArgsort 2).1 = .ok e' ∧ e ≤ e' + 1 / 2 :=
  heights_stable (K := ℚ) stableArgsort stableArgsort [.sort] [] (h := [3, 1, 2]) (t := [5, 4, 6]) (h' := [4, 1, 2]) (t' := [5, 5, 5])
    (by norm_num) (by simp) rfl rfl rfl (by decide +kernel) (by norm_num) (by norm_num) (by norm_num) (by norm_num)

example : ∃ s s' r r', WH.init (vec ([3, 1, 2] : List ℝ)) (vec [5, 4, 6]) = .ok s ∧ WH.init (vec ([4, 1, 2] : List ℝ)) (vec [5, 5, 5]) = .ok s' ∧
    s.getHrms = .ok r ∧ s'.getHrms = .ok r' ∧ |r - r'| ≤ 1 :=
  hrms_noise stableArgsort stableArgsort [] [] (h := [3, 1, 2]) (t := [5, 4, 6]) (h' := [4, 1, 2]) (t' := [5, 5, 5]) (by simp) rfl
    (fun i hi => by have : i < 3 := hi; interval_cases i <;> norm_num)

example : ∃ s s' m r r' e, WH.init (vec ([3, 1, 2] : List ℚ)) (vec [5, 4, 6]) = .ok s ∧ WH.init (vec (([3, 1, 2] : List ℚ).map fun v => 10 * v)) (vec [5, 5, 5]) = .ok s' ∧
    s.getHmax.1 = .ok m ∧ s'.getHmax.1 = .ok (10 * m) ∧
    (s.highestWaves stableArgsort (1 / 3)).1 = .ok r ∧ (s'.highestWaves stableArgsort (1 / 3)).1 = .ok r' ∧ r'.1 = 10 * r.1 ∧
    (s.getExceedance stableArgsort 2).1 = .ok e ∧ (s'.getExceedance stableArgsort 2).1 = .ok (10 * e) :=
  heights_scale (K := ℚ) stableArgsort stableArgsort [] [] (h := [3, 1, 2]) (t := [5, 4, 6]) (t' := [5, 5, 5]) (a := 10)
    (by norm_num) (by simp) rfl rfl (by norm_num) (by norm_num) (by norm_num) (by norm_num)

end Verif
