import Verif.Model.NaNSig
import Verif.Props.NaNMoments
import Verif.Props.NaNSeries
import Verif.Props.SeriesFilter

/-! # C146: extremes, mean, variance, skewness and asymmetry of a record with missing samples -/

namespace Verif

set_option linter.unusedSectionVars false

section
variable {K : Type} [Field K] [LinearOrder K] [IsStrictOrderedRing K]

theorem foldl_nMax_none (l : List (Option K)) : l.foldl nMax none = none := by
  induction l with
  | nil => rfl
  | cons a l ih => rw [List.foldl_cons]; exact ih

theorem foldl_nMin_none (l : List (Option K)) : l.foldl nMin none = none := by
  induction l with
  | nil => rfl
  | cons a l ih => rw [List.foldl_cons]; exact ih

theorem foldl_nAdd_none (l : List (Option K)) : l.foldl nAdd none = none := by
  induction l with
  | nil => rfl
  | cons a l ih => rw [List.foldl_cons]; exact ih

theorem foldl_nMax_mem {l : List (Option K)} (a : Option K) (h : none ∈ a :: l) : l.foldl nMax a = none := by
  induction l generalizing a with
  | nil => simp at h; exact h.symm
  | cons b l ih =>
    rw [List.foldl_cons]
    cases a with
    | none => exact foldl_nMax_none l
    | some a =>
      cases b with
      | none => exact foldl_nMax_none l
      | some b => exact ih _ (List.mem_cons_of_mem _ (by simpa using h))

theorem foldl_nMin_mem {l : List (Option K)} (a : Option K) (h : none ∈ a :: l) : l.foldl nMin a = none := by
  induction l generalizing a with
  | nil => simp at h; exact h.symm
  | cons b l ih =>
    rw [List.foldl_cons]
    cases a with
    | none => exact foldl_nMin_none l
    | some a =>
      cases b with
      | none => exact foldl_nMin_none l
      | some b => exact ih _ (List.mem_cons_of_mem _ (by simpa using h))

theorem foldl_nAdd_mem {l : List (Option K)} (a : Option K) (h : none ∈ a :: l) : l.foldl nAdd a = none := by
  induction l generalizing a with
  | nil => simp at h; exact h.symm
  | cons b l ih =>
    rw [List.foldl_cons]
    cases a with
    | none => exact foldl_nAdd_none l
    | some a =>
      cases b with
      | none => exact foldl_nAdd_none l
      | some b => exact ih _ (List.mem_cons_of_mem _ (by simpa using h))

theorem foldl_nMax_some (l : List K) (a : K) : (l.map some).foldl nMax (some a) = some (l.foldl max a) := by
  induction l generalizing a with
  | nil => rfl
  | cons b l ih => rw [List.map_cons, List.foldl_cons, List.foldl_cons]; exact ih _

theorem foldl_nMin_some (l : List K) (a : K) : (l.map some).foldl nMin (some a) = some (l.foldl min a) := by
  induction l generalizing a with
  | nil => rfl
  | cons b l ih => rw [List.map_cons, List.foldl_cons, List.foldl_cons]; exact ih _

theorem foldl_nAdd_some (l : List K) (a : K) : (l.map some).foldl nAdd (some a) = some (a + l.sum) := by
  induction l generalizing a with
  | nil => simp
  | cons b l ih =>
    rw [List.map_cons, List.foldl_cons, List.sum_cons, ← add_assoc]
    exact ih _

theorem foldl_largest (l : List K) (a : K) : l.foldl max a ∈ a :: l ∧ ∀ v ∈ a :: l, v ≤ l.foldl max a := by
  induction l generalizing a with
  | nil => simp
  | cons b l ih =>
    rw [List.foldl_cons]
    obtain ⟨h1, h2⟩ := ih (max a b)
    have hm : max a b ≤ l.foldl max (max a b) := h2 _ List.mem_cons_self
    refine ⟨?_, fun v hv => ?_⟩
    · rcases List.mem_cons.1 h1 with h | h
      · rw [h]; rcases max_choice a b with c | c <;> rw [c] <;> simp
      · simp [h]
    · rcases List.mem_cons.1 hv with rfl | hv
      · exact le_trans (le_max_left _ _) hm
      · rcases List.mem_cons.1 hv with rfl | hv
        · exact le_trans (le_max_right _ _) hm
        · exact h2 _ (List.mem_cons_of_mem _ hv)

theorem foldl_smallest (l : List K) (a : K) : l.foldl min a ∈ a :: l ∧ ∀ v ∈ a :: l, l.foldl min a ≤ v := by
  induction l generalizing a with
  | nil => simp
  | cons b l ih =>
    rw [List.foldl_cons]
    obtain ⟨h1, h2⟩ := ih (min a b)
    have hm : l.foldl min (min a b) ≤ min a b := h2 _ List.mem_cons_self
    refine ⟨?_, fun v hv => ?_⟩
    · rcases List.mem_cons.1 h1 with h | h
      · rw [h]; rcases min_choice a b with c | c <;> rw [c] <;> simp
      · simp [h]
    · rcases List.mem_cons.1 hv with rfl | hv
      · exact le_trans hm (min_le_left _ _)
      · rcases List.mem_cons.1 hv with rfl | hv
        · exact le_trans hm (min_le_right _ _)
        · exact h2 _ (List.mem_cons_of_mem _ hv)

/-- **C146 (extremes, mean, variance).** `Series.max()`, `min()`, `mean()` and `var()` of a non-empty record are NaN if a sample is missing;
otherwise they are the largest and smallest sample, the mean and the mean squared deviation from it. -/
theorem gap_values {s : SeriesN K} {x : List (Option K)} (hsx : s.xTime.data = x) (hx : x ≠ []) :
    (none ∈ x → s.max = .ok none ∧ s.min = .ok none ∧ s.mean = none ∧ s.var = none) ∧
    ∀ v : List K, x = v.map some →
      (∃ M ∈ v, s.max = .ok (some M) ∧ ∀ u ∈ v, u ≤ M) ∧ (∃ m ∈ v, s.min = .ok (some m) ∧ ∀ u ∈ v, m ≤ u) ∧
      s.mean = some (v.sum / (v.length : K)) ∧ s.var = some ((v.map fun u => (u - v.sum / (v.length : K)) ^ 2).sum / (v.length : K)) := by
  obtain ⟨a, l, rfl⟩ := List.exists_cons_of_ne_nil hx
  constructor
  · intro hn
    have hmean : s.mean = none := by
      unfold SeriesN.mean
      rw [hsx, if_neg hx, foldl_nAdd_mem (some 0) (List.mem_cons_of_mem _ hn)]; rfl
    refine ⟨?_, ?_, hmean, ?_⟩
    · unfold SeriesN.max; rw [hsx]; exact congrArg Except.ok (foldl_nMax_mem a hn)
    · unfold SeriesN.min; rw [hsx]; exact congrArg Except.ok (foldl_nMin_mem a hn)
    · unfold SeriesN.var SeriesN.centralMean
      rw [hsx, if_neg hx, hmean, foldl_nAdd_mem]
      · rfl
      · refine List.mem_cons_of_mem _ (List.mem_map.2 ⟨a, List.mem_cons_self, ?_⟩)
        cases a <;> rfl
  · intro v hv
    cases v with
    | nil => cases hv
    | cons b v =>
      simp only [List.map_cons, List.cons.injEq] at hv
      obtain ⟨rfl, rfl⟩ := hv
      have hmean : s.mean = some ((b :: v).sum / (b :: v).length) := by
        unfold SeriesN.mean
        rw [hsx, if_neg hx, ← List.map_cons, foldl_nAdd_some, zero_add, List.length_map]
        rfl
      refine ⟨⟨_, (foldl_largest v b).1, ?_, (foldl_largest v b).2⟩, ⟨_, (foldl_smallest v b).1, ?_, (foldl_smallest v b).2⟩, hmean, ?_⟩
      · unfold SeriesN.max; rw [hsx]; exact congrArg Except.ok (foldl_nMax_some v b)
      · unfold SeriesN.min; rw [hsx]; exact congrArg Except.ok (foldl_nMin_some v b)
      · unfold SeriesN.var SeriesN.centralMean
        rw [hsx, if_neg hx, hmean, ← List.map_cons, List.map_map]
        have e2 : (b :: v).map (((fun u => (nSub u (some ((b :: v).sum / ((b :: v).length : K)))).map fun d => d ^ 2) ∘ some : K → Option K)) =
            (((b :: v).map fun u => (u - (b :: v).sum / ((b :: v).length : K)) ^ 2)).map some := by
          rw [List.map_map]; rfl
        rw [e2, foldl_nAdd_some, zero_add, List.length_map]
        rfl

end

/-- **C146 (skewness, asymmetry).** `Series.get_skewness()` and `get_asymmetry()` of a record with a missing sample do not raise and return NaN. -/
theorem gap_skewness (H : HilbertN) {s : SeriesN ℝ} {x : List (Option ℝ)} (hsx : s.xTime = arr1 x) (hn : none ∈ x) :
    s.getSkewness = .ok none ∧ s.getAsymmetry H = .ok none := by
  have hx : x ≠ [] := List.ne_nil_of_mem hn
  have hd : s.xTime.data = x := by rw [hsx]; rfl
  have hsh : s.xTime.shape = [x.length] := by rw [hsx]; rfl
  have hmean := ((gap_values hd hx).1 hn).2.2.1
  have hc : ∀ p, s.centralMean p = none := by
    intro p
    unfold SeriesN.centralMean
    rw [hd, hmean, foldl_nAdd_mem]
    · rfl
    · obtain ⟨a, l, rfl⟩ := List.exists_cons_of_ne_nil hx
      refine List.mem_cons_of_mem _ (List.mem_map.2 ⟨a, List.mem_cons_self, ?_⟩)
      cases a <;> rfl
  constructor
  · unfold SeriesN.getSkewness
    rw [hd, if_neg hx, hc, hc]; rfl
  · unfold SeriesN.getAsymmetry
    rw [hsh]
    simp only
    rw [hd, if_neg hx, hc]
    unfold nOver15
    split <;> simp_all

/-- **C146 (no gap).** Without a missing sample, skewness and asymmetry are those of the number model (there a constant record, whose ratio
is 0/0, is an error; here it is NaN). -/
theorem gap_skewness_none (H : HilbertN) {s : SeriesN ℝ} {c : SeriesObj ℝ} {v : List ℝ} (hv : v ≠ []) (hsx : s.xTime = arr1 (v.map some))
    (hcx : c.xTime = arr1 v) :
    (∀ r, c.getSkewness = .ok r → s.getSkewness = .ok (some r)) ∧ (∀ r, c.getAsymmetry = .ok r → s.getAsymmetry H = .ok (some r)) ∧
    ((∀ u ∈ v, u = v.sum / v.length) → s.getSkewness = .ok none) := by
  have hx : v.map some ≠ [] := by simpa using hv
  have hd : s.xTime.data = v.map some := by rw [hsx]; rfl
  have hsh : s.xTime.shape = [v.length] := by rw [hsx]; simp [arr1]
  have hcd : c.xTime.data = v := by rw [hcx]; rfl
  have hcs : c.xTime.shape = [v.length] := by rw [hcx]; rfl
  have hmean : s.mean = some (mean v) := ((gap_values hd hx).2 v rfl).2.2.1
  have hc : ∀ p, s.centralMean p = some (mean (v.map fun u => (u - mean v) ^ p)) := by
    intro p
    unfold SeriesN.centralMean
    rw [hd, hmean]
    have e2 : (v.map some).map (fun u => (nSub u (some (mean v))).map fun d => d ^ p) = (v.map fun u => (u - mean v) ^ p).map some := by
      rw [List.map_map, List.map_map]; rfl
    rw [e2, foldl_nAdd_some, zero_add, List.length_map]
    simp only [Option.map_some]
    unfold mean
    rw [List.length_map]
  refine ⟨fun r hr => ?_, fun r hr => ?_, fun hconst => ?_⟩
  · unfold SeriesObj.getSkewness skewnessL over15 at hr
    rw [hcd, if_neg hv] at hr
    unfold SeriesN.getSkewness
    rw [hd, if_neg hx, hc, hc]
    unfold nOver15
    simp only
    split_ifs at hr with h0
    rw [if_neg h0]
    rw [← Except.ok.inj hr]
  · unfold SeriesObj.getAsymmetry SeriesObj.sig at hr
    rw [hcs] at hr
    simp only [bind, Except.bind] at hr
    unfold asymmetryL over15 at hr
    rw [hcd, if_neg hv] at hr
    unfold SeriesN.getAsymmetry
    rw [hsh]
    simp only
    rw [hd, if_neg hx, hc, H.run_num]
    have hlen : (hilbert v).length = v.length := by simp [hilbert, npIfft]
    have e : ((hilbert v).map fun z => some z.im).map (fun u => u.map fun d => d ^ 3) = (((hilbert v).map Complex.im).map fun u => u ^ 3).map some := by
      rw [List.map_map, List.map_map, List.map_map]; rfl
    rw [e]
    unfold meanEN
    rw [if_neg (by
      intro h
      have := congrArg List.length h
      simp only [List.length_map, hlen, List.length_nil] at this
      exact hv (List.length_eq_zero_iff.1 this)), nMean_some]
    unfold nOver15
    simp only
    dsimp only at hr
    split_ifs at hr with h0
    rw [if_neg h0]
    rw [← Except.ok.inj hr]
  · have z : ∀ p, 0 < p → mean (v.map fun u => (u - mean v) ^ p) = 0 := by
      intro p hp
      have : (v.map fun u => (u - mean v) ^ p) = v.map fun _ => (0 : ℝ) := by
        refine List.map_congr_left fun u hu => ?_
        rw [hconst u hu]
        unfold mean
        rw [sub_self, zero_pow (by omega)]
      rw [this]
      unfold mean
      simp
    unfold SeriesN.getSkewness
    rw [hd, if_neg hx, hc, hc, z 3 (by omega), z 2 (by omega)]
    unfold nOver15
    simp

/-! ## Concrete cases -/

open Classical in
/-- One Hilbert transform with the assumed behaviour. -/
noncomputable def HilbertN.strict : HilbertN where
  run x := if h : ∃ l : List ℝ, x = l.map some then (hilbert h.choose).map fun z => some z.im else List.replicate x.length none
  run_num x := by
    have h : ∃ l : List ℝ, x.map some = l.map some := ⟨x, rfl⟩
    have e : h.choose = x := (List.map_injective_iff.2 (Option.some_injective ℝ) h.choose_spec).symm
    rw [dif_pos h, e]

example : ∃ s : SeriesN ℚ, SeriesN.init (vec [some 0, some 1, some (2 : ℚ)]) (vec [some 1, none, some 4]) = .ok s ∧ s.max = .ok none ∧ s.mean = none := by
  have hu : UniformAxis ([0, 1, 2] : List ℚ) 1 := ⟨by norm_num, fun i hi => by
    have : i < 2 := by simp only [List.length_cons, List.length_nil] at hi; omega
    interval_cases i <;> norm_num⟩
  obtain ⟨s, -, -, -, h1, -, h4, -⟩ := gap_series (t := [0, 1, (2 : ℚ)]) (x := [some 1, none, some 4]) hu rfl (by simp)
  obtain ⟨a, -, b, -⟩ := (gap_values (s := s) (x := [some 1, none, some 4]) (by rw [h4]; rfl) (by simp)).1 (by simp)
  exact ⟨s, h1, a, b⟩

example : ∃ s : SeriesN ℝ, s.xTime = arr1 [some 1, none, some 4] ∧ s.getSkewness = .ok none ∧ s.getAsymmetry HilbertN.strict = .ok none :=
  ⟨⟨arr1 [some 0, some 1, some 2], arr1 [some 1, none, some 4], 3, some 1, [], ⟨arr1 [], 0, arr1 []⟩⟩, rfl, gap_skewness HilbertN.strict rfl (by simp)⟩

example (H : HilbertN) : (⟨arr1 (([0, 1, 2] : List ℝ).map some), arr1 (([5, 5, 5] : List ℝ).map some), 3, some 1, [], ⟨arr1 [], 0, arr1 []⟩⟩ : SeriesN ℝ).getSkewness = .ok none :=
  (gap_skewness_none H (v := [5, 5, 5]) (c := ⟨arr1 [0, 1, 2], arr1 [5, 5, 5], 3, 1, [], ⟨arr1 [], 0, arr1 []⟩⟩) (by simp) rfl rfl).2.2
    (fun u hu => by simp at hu; subst hu; norm_num)

end Verif
