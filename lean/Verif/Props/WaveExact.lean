import Verif.Props.WaveHeights
import Verif.Model.Hist
import Verif.Lemmas.Spectral

/-! # C88, C89: highest waves with ties; the histogram -/

set_option linter.unusedSectionVars false

namespace Verif
variable {K : Type} [Field K] [LinearOrder K] [IsStrictOrderedRing K]

/-! ## C88 -/

/-- If exactly `k` waves are at least as high as `c`, every set of `k` highest waves consists of these. -/
theorem isTop_threshold {k : Nat} {pairs top : List (K × K)} (ht : IsTop k pairs top) {c : K}
    (hc : pairs.countP (fun w => decide (c ≤ w.1)) = k) : top.Perm (pairs.filter fun w => decide (c ≤ w.1)) := by
  obtain ⟨hl, rest, hp, hle⟩ := ht
  have hcount : top.countP (fun w => decide (c ≤ w.1)) + rest.countP (fun w => decide (c ≤ w.1)) = k := by
    rw [← List.countP_append, hp.countP_eq, hc]
  have hall : ∀ a ∈ top, c ≤ a.1 := by
    by_contra hcon
    push Not at hcon
    obtain ⟨a, ha, hac⟩ := hcon
    have h0 : rest.countP (fun w => decide (c ≤ w.1)) = 0 := by
      rw [List.countP_eq_zero]
      intro b hb
      simp only [decide_eq_true_eq, not_le]
      exact lt_of_le_of_lt (hle a ha b hb) hac
    have h1 : top.countP (fun w => decide (c ≤ w.1)) < top.length := by
      rcases Nat.lt_or_eq_of_le (List.countP_le_length (p := fun w : K × K => decide (c ≤ w.1)) (l := top)) with h | h
      · exact h
      · have := List.countP_eq_length.1 h a ha
        simp only [decide_eq_true_eq] at this
        exact absurd this (not_le.2 hac)
    omega
  have h1 : top.countP (fun w => decide (c ≤ w.1)) = top.length := List.countP_eq_length.2 fun a ha => by simpa using hall a ha
  have h2 : rest.countP (fun w => decide (c ≤ w.1)) = 0 := by omega
  have f1 : top.filter (fun w => decide (c ≤ w.1)) = top := List.filter_eq_self.2 fun a ha => by simpa using hall a ha
  have f2 : rest.filter (fun w => decide (c ≤ w.1)) = [] := by
    rw [List.filter_eq_nil_iff]
    exact fun a ha => List.countP_eq_zero.1 h2 a ha
  have := hp.filter (fun w => decide (c ≤ w.1))
  rw [List.filter_append, f1, f2, List.append_nil] at this
  exact this

theorem averages_perm {a b : List (K × K)} (h : a.Perm b) : averages a = averages b := by
  unfold averages
  have hn : a = [] ↔ b = [] := ⟨fun e => by subst e; exact List.nil_perm.1 h, fun e => by subst e; exact List.perm_nil.1 h⟩
  have e1 : mean (a.map Prod.fst) = mean (b.map Prod.fst) := by unfold mean; rw [(h.map _).sum_eq, (h.map _).length_eq]
  have e2 : mean (a.map Prod.snd) = mean (b.map Prod.snd) := by unfold mean; rw [(h.map _).sum_eq, (h.map _).length_eq]
  simp only [hn, e1, e2]

/-- **C88.**  After any history of calls `highest_waves(p)` with `0 ≤ p ≤ 1` returns the mean height and mean period of a set of `⌊n p⌋` highest
waves among the waves the object was created with - some such set if there are equal heights at the cut, whatever `np.argsort` does. -/
theorem highest_waves_any_history [FloorRing K] (A : Argsort K) (ops : List (WHOp K)) {h t : List K} (hne : h ≠ []) (hlen : h.length = t.length)
    {p : K} (h0 : 0 ≤ p) (h1 : p ≤ 1) :
    ∃ s top, WH.init (vec h) (vec t) = .ok s ∧ IsTop ⌊(h.length : K) * p⌋.toNat (h.zip t) top ∧
      ((s.run A ops).highestWaves A p).1 = .ok (averages top) := by
  have e0 : WH.init (vec h) (vec t) = .ok ⟨arr1 h, h.length, arr1 t⟩ := by
    unfold WH.init
    rw [toVector_of_isVec (isVec_vec h), toVector_of_isVec (isVec_vec t)]
    rfl
  set s : WH K := ⟨arr1 h, h.length, arr1 t⟩ with hs
  have hw : s.WF := ⟨by simp [hs, Arr.WF, arr1], by simp [hs, Arr.WF, arr1]⟩
  have hsame := waves_never_corrupted A ops hw
  have hw' := hsame.wf hw
  rcases WH.sort_cases A hw' with ⟨e, he⟩ | ⟨h', t', hs', ts', e1, e2, n', l', e3, l1, l2, hd, hp⟩
  · exfalso
    have hh : (PyIn.nd (s.run A ops).hwave).OneDim ∧ (PyIn.nd (s.run A ops).twave).OneDim ∧
        (PyIn.nd (s.run A ops).hwave).count = (PyIn.nd (s.run A ops).twave).count := by
      have a1 : (s.run A ops).hwave = arr1 (s.run A ops).hwave.data := by
        have q1 := hsame.hshape
        have q2 := hsame.heights.length_eq
        rcases hh : (s.run A ops).hwave with ⟨sh, d⟩
        rw [hh] at q1 q2
        simp only [hs, arr1] at q1 q2 ⊢
        rw [q1, q2]
      have a2 : (s.run A ops).twave = arr1 (s.run A ops).twave.data := by
        have q1 := hsame.tshape
        have q2 := hsame.periods.length_eq
        rcases hh : (s.run A ops).twave with ⟨sh, d⟩
        rw [hh] at q1 q2
        simp only [hs, arr1] at q1 q2 ⊢
        rw [q1, q2]
      have q1 := hsame.heights.length_eq
      have q2 := hsame.periods.length_eq
      have q1 : (s.run A ops).hwave.data.length = h.length := q1
      have q2 : (s.run A ops).twave.data.length = t.length := q2
      have v1 : (PyIn.nd (s.run A ops).hwave).IsVec (s.run A ops).hwave.data := by rw [a1]; exact isVec_vec _
      have v2 : (PyIn.nd (s.run A ops).twave).IsVec (s.run A ops).twave.data := by rw [a2]; exact isVec_vec _
      refine ⟨⟨_, ?_, v1⟩, ⟨_, ?_, v2⟩, ?_⟩
      · intro hn; rw [hn] at q1; exact hne (List.length_eq_zero_iff.1 q1.symm)
      · intro hn; rw [hn] at q2; exact hne (List.length_eq_zero_iff.1 (hlen.trans q2.symm))
      · rw [v1.count_eq, v2.count_eq]; omega
    obtain ⟨⟨h', h0', hv⟩, ⟨t', t0', tv⟩, hc⟩ := hh
    rw [hv.count_eq, tv.count_eq] at hc
    obtain ⟨hs', ts', e', -⟩ := sort_keeps_waves A hv tv h0' hc
    simp only [WH.sort, e'] at he
    cases he
  · have hz : (h'.zip t').Perm (h.zip t) := by
      have := hsame.pairs
      rw [WH.pairs, WH.pairs, e1, e2] at this
      exact this
    have hl : h'.length = h.length := by
      have := hsame.heights.length_eq
      rw [e1] at this
      exact this
    obtain ⟨top, ht, hr⟩ := sorted_highest_spec (h := h) (t := t) hlen hne (l1.trans hl) (l2.trans hl) hd (hp.trans hz) h0 h1
    refine ⟨s, top, e0, ht, ?_⟩
    unfold WH.highestWaves
    rw [e3]
    exact hr

/-- **C88 (clear cut).**  If a height `c` separates the `⌊n p⌋` highest waves from the others (no tie across the cut), the complete result of
`highest_waves(p)`, period included, is the same for every history and every `np.argsort`: the averages over the waves of at least height `c`. -/
theorem highest_waves_clear_cut [FloorRing K] (A : Argsort K) (ops : List (WHOp K)) {h t : List K} (hne : h ≠ []) (hlen : h.length = t.length)
    {p : K} (h0 : 0 ≤ p) (h1 : p ≤ 1) {c : K} (hc : h.countP (fun v => decide (c ≤ v)) = ⌊(h.length : K) * p⌋.toNat) :
    ∃ s, WH.init (vec h) (vec t) = .ok s ∧
      ((s.run A ops).highestWaves A p).1 = .ok (averages ((h.zip t).filter fun w => decide (c ≤ w.1))) := by
  obtain ⟨s, top, e, ht, hr⟩ := highest_waves_any_history A ops hne hlen h0 h1
  refine ⟨s, e, ?_⟩
  rw [hr, averages_perm (isTop_threshold ht (c := c) ?_)]
  rw [← hc]
  have : h = (h.zip t).map Prod.fst := (List.map_fst_zip (by omega)).symm
  conv_rhs => rw [this, List.countP_map]
  rfl

/-- Three waves, two of them of equal height: the two highest are separated by the height 2, although their order is not determined. -/
example (A : Argsort ℚ) (ops : List (WHOp ℚ)) : ∃ s, WH.init (vec [2, 1, 2]) (vec [5, 1, 7]) = .ok s ∧
    ((s.run A ops).highestWaves A (2 / 3)).1 = .ok (2, 6) := by
  obtain ⟨s, e, h⟩ := highest_waves_clear_cut A ops (h := [2, 1, 2]) (t := [5, 1, 7]) (p := 2 / 3) (c := 2) (by simp) rfl (by norm_num) (by norm_num)
    (by decide +kernel)
  refine ⟨s, e, h.trans ?_⟩
  decide +kernel

/-! ## C89: the histogram -/

theorem foldl_min_le (l : List K) (a : K) : l.foldl min a ≤ a ∧ ∀ v ∈ l, l.foldl min a ≤ v := by
  induction l generalizing a with
  | nil => exact ⟨le_refl _, by simp⟩
  | cons b l ih =>
    obtain ⟨h1, h2⟩ := ih (min a b)
    refine ⟨h1.trans (min_le_left _ _), fun v hv => ?_⟩
    rcases List.mem_cons.1 hv with rfl | hv
    · exact h1.trans (min_le_right _ _)
    · exact h2 v hv

theorem le_foldl_max (l : List K) (a : K) : a ≤ l.foldl max a ∧ ∀ v ∈ l, v ≤ l.foldl max a := by
  induction l generalizing a with
  | nil => exact ⟨le_refl _, by simp⟩
  | cons b l ih =>
    obtain ⟨h1, h2⟩ := ih (max a b)
    refine ⟨(le_max_left _ _).trans h1, fun v hv => ?_⟩
    rcases List.mem_cons.1 hv with rfl | hv
    · exact (le_max_right _ _).trans h1
    · exact h2 v hv

theorem histRange_spec (x : List K) : (histRange x).1 < (histRange x).2 ∧ ∀ v ∈ x, (histRange x).1 ≤ v ∧ v ≤ (histRange x).2 := by
  cases x with
  | nil => exact ⟨by simp [histRange], by simp⟩
  | cons a l =>
    obtain ⟨m1, m2⟩ := foldl_min_le l a
    obtain ⟨M1, M2⟩ := le_foldl_max l a
    have hv : ∀ v ∈ a :: l, l.foldl min a ≤ v ∧ v ≤ l.foldl max a := by
      intro v hv
      rcases List.mem_cons.1 hv with rfl | hv
      · exact ⟨m1, M1⟩
      · exact ⟨m2 v hv, M2 v hv⟩
    unfold histRange
    dsimp only
    split_ifs with h
    · refine ⟨by dsimp only; linarith, fun v hm => ?_⟩
      obtain ⟨h1, h2⟩ := hv v hm
      exact ⟨by dsimp only; linarith, by dsimp only; linarith⟩
    · exact ⟨lt_of_le_of_ne (m1.trans M1) h, hv⟩

theorem foldl_min_mem (l : List K) : ∀ a, l.foldl min a ∈ a :: l := by
  induction l with
  | nil => intro a; simp
  | cons b l ih =>
    intro a
    rcases List.mem_cons.1 (ih (min a b)) with h | h
    · rw [List.foldl_cons, h]
      rcases min_choice a b with e | e <;> rw [e] <;> simp
    · exact List.mem_cons_of_mem _ (List.mem_cons_of_mem _ h)

theorem foldl_max_mem (l : List K) : ∀ a, l.foldl max a ∈ a :: l := by
  induction l with
  | nil => intro a; simp
  | cons b l ih =>
    intro a
    rcases List.mem_cons.1 (ih (max a b)) with h | h
    · rw [List.foldl_cons, h]
      rcases max_choice a b with e | e <;> rw [e] <;> simp
    · exact List.mem_cons_of_mem _ (List.mem_cons_of_mem _ h)

/-- The outer edges: two of the values if they differ; half a unit on either side of the common value otherwise; 0 and 1 without values. -/
theorem histRange_exact (x : List K) : (∀ u ∈ x, ∀ v ∈ x, u ≠ v → (histRange x).1 ∈ x ∧ (histRange x).2 ∈ x) ∧
    (∀ a ∈ x, (∀ v ∈ x, v = a) → (histRange x).1 = a - 1 / 2 ∧ (histRange x).2 = a + 1 / 2) ∧ (x = [] → histRange x = (0, 1)) := by
  cases x with
  | nil => exact ⟨by simp, by simp, fun _ => rfl⟩
  | cons a l =>
    obtain ⟨m1, m2⟩ := foldl_min_le l a
    obtain ⟨M1, M2⟩ := le_foldl_max l a
    refine ⟨fun u hu v hv hne => ?_, fun b hb hall => ?_, by simp⟩
    · have hne' : l.foldl min a ≠ l.foldl max a := by
        intro e
        have : ∀ w ∈ a :: l, w = l.foldl min a := by
          intro w hw
          rcases List.mem_cons.1 hw with rfl | hw
          · exact le_antisymm (M1.trans_eq e.symm) m1
          · exact le_antisymm ((M2 w hw).trans_eq e.symm) (m2 w hw)
        exact hne ((this u hu).trans (this v hv).symm)
      unfold histRange
      dsimp only
      rw [if_neg hne']
      exact ⟨foldl_min_mem l a, foldl_max_mem l a⟩
    · have e1 := hall _ (foldl_min_mem l a)
      have e2 := hall _ (foldl_max_mem l a)
      unfold histRange
      dsimp only
      rw [e1, e2, if_pos rfl]
      exact ⟨rfl, rfl⟩

/-- `np.histogram(x, bins=n)` returns `n` counts and `n + 1` edges. -/
theorem histogram_sizes [FloorRing K] (n : Nat) (x : List K) : (npHistogram n x).1.length = n ∧ (npHistogram n x).2.length = n + 1 := by
  simp [npHistogram]

theorem histIndex_lt [FloorRing K] {n : Nat} (hn : 0 < n) {lo hi x : K} (hlo : lo < hi) (h1 : lo ≤ x) (h2 : x ≤ hi) : histIndex n lo hi x < n := by
  have hd : 0 < hi - lo := by linarith
  have hnK : (0 : K) < n := by exact_mod_cast hn
  have hqn : (x - lo) / (hi - lo) * n ≤ n := by
    have : (x - lo) / (hi - lo) ≤ 1 := (div_le_one hd).2 (by linarith)
    calc (x - lo) / (hi - lo) * n ≤ 1 * n := mul_le_mul_of_nonneg_right this hnK.le
      _ = n := one_mul _
  have : ⌊(x - lo) / (hi - lo) * n⌋ ≤ (n : Int) := by
    have h3 : (⌊(x - lo) / (hi - lo) * n⌋ : K) ≤ n := (Int.floor_le _).trans hqn
    exact_mod_cast h3
  unfold histIndex
  dsimp only
  split_ifs with h
  · omega
  · omega

/-- The bar of a value within the range: between its left edge and its right edge, the right edge excluded except in the last bar. -/
theorem histIndex_spec [FloorRing K] {n : Nat} (hn : 0 < n) {lo hi x : K} (hlo : lo < hi) (h1 : lo ≤ x) (h2 : x ≤ hi) (b : Nat) (hb : b < n) :
    histIndex n lo hi x = b ↔ (lo + (b : K) * ((hi - lo) / n) ≤ x ∧ (x < lo + ((b + 1 : Nat) : K) * ((hi - lo) / n) ∨ b + 1 = n)) := by
  have hd : 0 < hi - lo := by linarith
  have hnK : (0 : K) < n := by exact_mod_cast hn
  have hn0 : (n : K) ≠ 0 := hnK.ne'
  set q := (x - lo) / (hi - lo) * n with hq
  have hq0 : 0 ≤ q := by
    have : 0 ≤ x - lo := by linarith
    positivity
  have hqn : q ≤ n := by
    have : (x - lo) / (hi - lo) ≤ 1 := (div_le_one hd).2 (by linarith)
    calc q ≤ 1 * n := mul_le_mul_of_nonneg_right this hnK.le
      _ = n := one_mul _
  have hx : x = lo + q * ((hi - lo) / n) := by
    rw [hq]; field_simp; ring
  have hw : 0 < (hi - lo) / n := div_pos hd hnK
  have e1 : ∀ c : K, lo + c * ((hi - lo) / n) ≤ x ↔ c ≤ q := by
    intro c
    constructor
    · intro h
      rw [hx] at h
      exact le_of_mul_le_mul_right (by linarith) hw
    · intro h
      rw [hx]
      have := mul_le_mul_of_nonneg_right h hw.le
      linarith
  have e2 : ∀ c : K, x < lo + c * ((hi - lo) / n) ↔ q < c := by
    intro c
    rw [← not_le, e1, not_le]
  rw [e1, e2]
  unfold histIndex
  rw [← hq]
  dsimp only
  have hf0 : 0 ≤ ⌊q⌋ := Int.floor_nonneg.2 hq0
  have hfq : ((⌊q⌋.toNat : Nat) : Int) = ⌊q⌋ := Int.toNat_of_nonneg hf0
  have hle : ∀ c : Nat, ((c : K) ≤ q) ↔ c ≤ ⌊q⌋.toNat := by
    intro c
    have : ((c : Int) : K) ≤ q ↔ (c : Int) ≤ ⌊q⌋ := Int.le_floor.symm
    rw [Int.cast_natCast] at this
    rw [this, ← hfq]
    exact_mod_cast Iff.rfl
  have hlt : ∀ c : Nat, (q < (c : K)) ↔ ⌊q⌋.toNat < c := by
    intro c
    rw [← not_le, hle, not_le]
  rw [hle, hlt]
  have hfn : ⌊q⌋.toNat ≤ n := by
    by_contra hc
    push Not at hc
    have := (hle (n + 1)).2 hc
    push_cast at this
    linarith
  split_ifs with h
  · omega
  · omega

theorem countP_mod_sum {α : Type} (l : List α) (n : Nat) (i : α → Nat) (h : ∀ v ∈ l, i v < n) :
    ((List.range n).map fun b => l.countP fun v => decide (i v = b)).sum = l.length := by
  induction l with
  | nil => simp
  | cons a l ih =>
    have e : ∀ b, (a :: l).countP (fun v => decide (i v = b)) = l.countP (fun v => decide (i v = b)) + if i a = b then 1 else 0 := by
      intro b
      rw [List.countP_cons]
      simp
    simp only [e]
    rw [List.sum_map_add, ih fun v hv => h v (List.mem_cons_of_mem _ hv)]
    have ha := h a List.mem_cons_self
    have : ((List.range n).map fun b => if i a = b then 1 else 0).sum = 1 := by
      have : ∀ m, ((List.range m).map fun b => if i a = b then 1 else 0).sum = if i a < m then 1 else 0 := by
        intro m
        induction m with
        | zero => simp
        | succ m ihm =>
          rw [List.range_succ, List.map_append, List.sum_append, ihm]
          simp only [List.map_cons, List.map_nil, List.sum_cons, List.sum_nil]
          split_ifs <;> omega
      rw [this, if_pos ha]
    rw [this, List.length_cons]

/-- **C89.**  `plot_hist_waveheight` on a 1D set of waves, after any history, draws ten adjacent bars of equal positive width; bar `b` is as high as
the number of waves in `[left, right)` (the last bar includes its right edge), every wave is in one of the bars, and the bar heights add up to the
number of waves.  The outer edges are the lowest and the highest wave, or half a unit around the common height if all waves are equally high, or
0 and 1 without waves.  (Finding: the vertical axis is labelled `P`, but the bars are counts: they add up to `n`, not to 1.) -/
theorem plot_hist [FloorRing K] (A : Argsort K) (ops : List (WHOp K)) (h t : List K) :
    ∃ s bars lo w, WH.init (vec h) (vec t) = .ok s ∧ (s.run A ops).plotHist = .ok bars ∧ bars.length = 10 ∧ 0 < w ∧
      (∀ v ∈ h, lo ≤ v ∧ v ≤ lo + 10 * w) ∧
      (∀ b : Nat, b < 10 → ∃ c, bars[b]? = some (lo + (b : K) * w, lo + ((b + 1 : Nat) : K) * w, c) ∧
        c = h.countP fun v => decide (lo + (b : K) * w ≤ v ∧ (v < lo + ((b + 1 : Nat) : K) * w ∨ b = 9))) ∧
      (bars.map fun x => x.2.2).sum = h.length ∧
      (∀ u ∈ h, ∀ v ∈ h, u ≠ v → lo ∈ h ∧ lo + 10 * w ∈ h) ∧
      (∀ a ∈ h, (∀ v ∈ h, v = a) → lo = a - 1 / 2 ∧ lo + 10 * w = a + 1 / 2) ∧ (h = [] → lo = 0 ∧ lo + 10 * w = 1) := by
  have e0 : WH.init (vec h) (vec t) = .ok ⟨arr1 h, h.length, arr1 t⟩ := by
    unfold WH.init
    rw [toVector_of_isVec (isVec_vec h), toVector_of_isVec (isVec_vec t)]
    rfl
  refine ⟨⟨arr1 h, h.length, arr1 t⟩, ?_⟩
  have hw : (⟨arr1 h, h.length, arr1 t⟩ : WH K).WF := ⟨by simp [Arr.WF, arr1], by simp [Arr.WF, arr1]⟩
  have hsame := waves_never_corrupted A ops hw
  set s' := (⟨arr1 h, h.length, arr1 t⟩ : WH K).run A ops with hs'
  have hsh : s'.hwave.shape = [h.length] := hsame.hshape
  have hperm : s'.hwave.data.Perm h := hsame.heights
  set x := s'.hwave.data with hx
  obtain ⟨r1, r2⟩ := histRange_spec x
  set lo := (histRange x).1 with hlo
  set hi := (histRange x).2 with hhi
  have hw10 : 0 < (hi - lo) / 10 := div_pos (by linarith) (by norm_num)
  have hidx : ∀ v ∈ x, ∀ b : Nat, b < 10 → (histIndex 10 lo hi v = b ↔
      (lo + (b : K) * ((hi - lo) / 10) ≤ v ∧ (v < lo + ((b + 1 : Nat) : K) * ((hi - lo) / 10) ∨ b = 9))) := by
    intro v hv b hb
    have := histIndex_spec (n := 10) (by norm_num) r1 (r2 v hv).1 (r2 v hv).2 b hb
    rw [this]
    have : b + 1 = 10 ↔ b = 9 := by omega
    rw [this]
    norm_num
  refine ⟨(List.range 10).map fun b => ((npHistogram 10 x).2.getD b 0, (npHistogram 10 x).2.getD (b + 1) 0, (npHistogram 10 x).1.getD b 0), lo,
    (hi - lo) / 10, e0, ?_, ?_, hw10, ?_, ?_, ?_, ?_⟩
  · unfold WH.plotHist
    rw [hsh]
  · simp
  · intro v hv
    obtain ⟨a, b⟩ := r2 v (hperm.mem_iff.2 hv)
    exact ⟨a, by linarith⟩
  · intro b hb
    refine ⟨_, ?_, rfl⟩
    rw [List.getElem?_map, List.getElem?_range hb, Option.map_some]
    unfold npHistogram
    dsimp only
    rw [getD_map_range _ _ _ _ (by omega), getD_map_range _ _ _ _ (by omega), getD_map_range _ _ _ _ (by omega), ← hlo, ← hhi,
      show ((10 : Nat) : K) = 10 by norm_num, ← hperm.countP_eq]
    congr 3
    apply List.countP_congr
    intro v hv
    simp only [decide_eq_true_eq]
    exact hidx v hv b hb
  · rw [List.map_map]
    unfold npHistogram
    dsimp only
    rw [← hperm.length_eq]
    rw [← countP_mod_sum x 10 (fun v => histIndex 10 lo hi v)]
    · rfl
    · exact fun v hv => histIndex_lt (by norm_num) r1 (r2 v hv).1 (r2 v hv).2
  · have ehi : lo + 10 * ((hi - lo) / 10) = hi := by ring
    obtain ⟨q1, q2, q3⟩ := histRange_exact x
    rw [ehi]
    refine ⟨fun u hu v hv hne => ?_, fun a ha hall => ?_, fun e => ?_⟩
    · obtain ⟨a, b⟩ := q1 u (hperm.mem_iff.2 hu) v (hperm.mem_iff.2 hv) hne
      exact ⟨hperm.mem_iff.1 a, hperm.mem_iff.1 b⟩
    · exact q2 a (hperm.mem_iff.2 ha) fun v hv => hall v (hperm.mem_iff.1 hv)
    · have : x = [] := by rw [e] at hperm; exact hperm.eq_nil
      have := q3 this
      exact ⟨congrArg Prod.fst this, congrArg Prod.snd this⟩

/-- Four waves in the ten bars: the three lowest are in the first, third and fourth bar, the highest in the last. -/
example : (⟨arr1 [2, 1, 6, 5 / 2], 4, arr1 [1, 1, 1, 1]⟩ : WH ℚ).plotHist =
    .ok [(1, 3 / 2, 1), (3 / 2, 2, 0), (2, 5 / 2, 1), (5 / 2, 3, 1), (3, 7 / 2, 0), (7 / 2, 4, 0), (4, 9 / 2, 0), (9 / 2, 5, 0), (5, 11 / 2, 0),
      (11 / 2, 6, 1)] := by
  decide +kernel

/-! ## Concrete cases: the hypotheses of the theorems above are met -/

example := highest_waves_any_history (stableArgsort (K := ℚ)) [.getHs, .sort] (h := [2, 1, 2]) (t := [5, 1, 7]) (by simp) rfl (p := 2 / 3) (by norm_num) (by norm_num)

/-- Three waves of heights 1, 3 and 2: `Hs` is 3 and the 2 % Rayleigh height is exceeded with probability 2 %. -/
example (A : Argsort ℝ) : ∃ s h2p, WH.init (vec [1, 3, 2]) (vec [10, 30, 20]) = .ok s ∧ (s.getH2pRayleigh A).1 = .ok h2p ∧
    Real.exp (-2 * (h2p / 3) ^ 2) = 2 / 100 := by
  obtain ⟨s, e, h⟩ := highest_waves_clear_cut A [] (h := [1, 3, 2]) (t := [10, 30, 20]) (p := 1 / 3) (c := 3) (by simp) rfl (by norm_num) (by norm_num)
    (by norm_num)
  have h' : (s.getHs A).1 = .ok (3, 30) := by
    refine Eq.trans h ?_
    norm_num [averages, mean]
  refine ⟨s, 3 * rayleighPpf (98 / 100) (1 / Real.sqrt 2) / Real.sqrt 2, e, ?_, h2p_rayleigh_exceedance A (s := s) (hs := 3) (ts := 30) (s1 := (s.getHs A).2) (s2 := (s.getHs A).2) ?_ ?_ (by norm_num)⟩
  · unfold WH.getH2pRayleigh
    rw [show s.getHs A = (.ok (3, 30), (s.getHs A).2) by rw [← h']]
  · rw [← h']
  · unfold WH.getH2pRayleigh
    rw [show s.getHs A = (.ok (3, 30), (s.getHs A).2) by rw [← h']]

end Verif
