import Verif.Props.NaNPeak
import Verif.Props.Tpd
import Verif.Props.NaNSeries

/-! # C147: missing densities and the period TpD -/

set_option linter.unusedSectionVars false

namespace Verif
open Finset

variable {K : Type} [Field K] [LinearOrder K] [IsStrictOrderedRing K]

theorem fill_getD (S : List (Option K)) (k : Nat) : (fill S).getD k 0 = (S.getD k none).getD 0 := by
  unfold fill
  rw [List.getD, List.getElem?_map, List.getD]
  cases S[k]? <;> rfl

theorem fill_completes (S : List (Option K)) : Completes S (fill S) := by
  refine ⟨by simp [fill], fun k _ => ?_⟩
  rw [fill_getD]
  cases S.getD k none <;> simp

theorem fill_lowFill {S : List (Option K)} {a : K} (ha : 0 < a) : LowFill a S (fill S) := by
  unfold LowFill fill
  rw [List.forall₂_map_right_iff, List.forall₂_same]
  intro x _
  cases x with
  | none => exact .inr ⟨rfl, ha⟩
  | some v => exact .inl rfl

/-- Selecting against a positive maximum: a missing density is selected as little as a zero one. -/
theorem tpd_selected_nan {S : List (Option K)} {M : K} {p : Option K → Bool} (h1 : ∀ v, p (some v) = decide (8 / 10 ≤ v / (M * (8 / 10))))
    (h2 : p none = false) : whereIdx p S = whereIdx (fun v => decide (8 / 10 ≤ v / (M * (8 / 10)))) (fill S) := by
  unfold whereIdx
  have hl : (fill S).length = S.length := by simp [fill]
  rw [hl]
  apply List.filter_congr
  intro k hk
  have hk' := List.mem_range.1 hk
  unfold fill
  rw [List.getElem?_map, List.getElem?_eq_getElem hk']
  simp only [Option.map_some]
  cases S[k] with
  | none =>
    simp only [Option.any_some, Option.getD_none, zero_div, h2]
    rw [eq_comm, decide_eq_false_iff_not]
    norm_num
  | some v =>
    simp only [Option.any_some, Option.getD_some, h1]

theorem pyMaxN_fill {S : List (Option K)} {a : K} (h0 : S.getD 0 none = some a) (hpos : ∀ v, some v ∈ S → 0 ≤ v) :
    ∃ M, pyMaxN S = .ok (some M) ∧ pyMax (fill S) = .ok M := by
  obtain ⟨M, h1, h2, h3⟩ := pyMaxN_spec (l := S) (a := a) (by
    rw [List.getD] at h0
    cases hh : S[0]? with
    | none => rw [hh] at h0; cases h0
    | some w => rw [hh] at h0; exact congrArg some h0)
  refine ⟨M, h1, ?_⟩
  have hne : fill S ≠ [] := by
    intro h
    have : S = [] := by simpa [fill] using h
    rw [this] at h0; cases h0
  obtain ⟨M', hM'⟩ := pyMax_exists hne
  obtain ⟨q1, q2⟩ := pyMax_spec hM'
  rw [hM']
  congr 1
  apply le_antisymm
  · obtain ⟨w, hw, rfl⟩ := List.mem_map.1 (by unfold fill at q1; exact q1)
    cases w with
    | none => exact hpos M h2
    | some w => exact h3 w hw
  · exact q2 M (List.mem_map.2 ⟨some M, h2, rfl⟩)

/-- **C147.** `tpd` of a spectrum whose first density is missing raises `ValueError`.  Otherwise take the first and last frequency `i`, `j` whose
density is at least 64% of the largest one (missing densities counting as zero): if a density between them is missing, the
result is NaN; if none is, it is that of the spectrum with zeros for the missing densities; and it is NaN if `i = j`. -/
theorem nan_tpd {pf : PyIn K} {pS : PyIn (Option K)} {f : List K} {S : List (Option K)} {h : K} (hf : pf.IsArr f) (hS : pS.IsArr S)
    (hu : UniformAxis f h) (h2 : 2 ≤ f.length) (hl : f.length = S.length) (h0 : 0 ≤ f.getD 0 0) :
    (S.getD 0 none = none → RaisesValueError (tpdN pf pS)) ∧
    ∀ i j : Nat, S.getD 0 none ≠ none → (∀ v, some v ∈ S → 0 ≤ v) → (∃ v, some v ∈ S ∧ 0 < v) → BandEdges (fill S) (64 / 100) i j →
      ((∃ k, i ≤ k ∧ k ≤ j ∧ S.getD k none = none) → tpdN pf pS = .ok none) ∧
      ((∀ k, i ≤ k → k ≤ j → S.getD k none ≠ none) → i < j → ∃ r, tpd pf (vec (fill S)) = .ok r ∧ tpdN pf pS = .ok (some r)) ∧
      (i = j → tpdN pf pS = .ok none) := by
  have hm : monotonicIncreasingConstantStep f = .ok true := uniform_check_accepts_uniform h2 hu
  have hp := uniform_check_increasing hm
  constructor
  · intro hn
    unfold tpdN
    rw [vecIn_of_isArr hf, vecIn_of_isArr hS]
    simp only [bind, Except.bind]
    rcases S with _ | ⟨a, l⟩
    · rw [List.length_nil] at hl; omega
    · have ha : a = none := hn
      subst ha
      have hfold : ∀ l : List (Option K), l.foldl (fun m v => if nLt m v then v else m) none = none := by
        intro l
        induction l with
        | nil => rfl
        | cons b l ih =>
          rw [List.foldl_cons]
          have : nLt none b = false := by cases b <;> rfl
          rw [this]; exact ih
      have : pyMaxN (none :: l) = (.ok none : Except PyErr (Option K)) := by simp only [pyMaxN, hfold]
      rw [this]
      simp only [List.mapM_nil, pure, Except.pure, pyMin]
      exact ⟨_, rfl⟩
  · intro i j hfirst hpos hen hb
    have hfl : (fill S).length = S.length := by simp [fill]
    have hpos' : ∀ s ∈ fill S, 0 ≤ s := by
      intro s hs
      obtain ⟨w, hw, rfl⟩ := List.mem_map.1 hs
      cases w with
      | none => exact le_refl _
      | some w => exact hpos w hw
    have hen' : ∃ s ∈ fill S, 0 < s := by
      obtain ⟨v, hv, hv0⟩ := hen
      exact ⟨v, List.mem_map.2 ⟨some v, hv, rfl⟩, hv0⟩
    have hlf : f.length = (fill S).length := by rw [hfl]; exact hl
    obtain ⟨a, ha⟩ := Option.ne_none_iff_exists'.1 hfirst
    obtain ⟨M, hM, hM'⟩ := pyMaxN_fill ha hpos
    obtain ⟨hMm, hMl⟩ := pyMax_spec hM'
    have hM0 : 0 < M := by
      obtain ⟨s, hs, hs0⟩ := hen'
      exact lt_of_lt_of_le hs0 (hMl s hs)
    have hjl : j < f.length := by have := hb.lt; omega
    have hij := hb.le
    -- the limits of integration
    have key : tpdN pf pS = (do
        let m0 ← computeMomentN (vec f) (vec S) 0 (some (f.getD i 0)) (.fin (f.getD j 0))
        let m1 ← computeMomentN (vec f) (vec S) 1 (some (f.getD i 0)) (.fin (f.getD j 0))
        nDiv m0 m1) := by
      unfold tpdN
      rw [vecIn_of_isArr hf, vecIn_of_isArr hS]
      simp only [bind, Except.bind, hM]
      rw [if_neg (by positivity), tpd_selected_nan (M := M) (fun _ => rfl) rfl]
      have hsub : ∀ k ∈ whereIdx (fun v => decide (8 / 10 ≤ v / (M * (8 / 10)))) (fill S), k < f.length := by
        intro k hk; rw [tpd_selected hM0] at hk; omega
      rw [mapM_getE hsub]
      dsimp only
      have hil : i < (fill S).length := lt_of_le_of_lt hb.le hb.lt
      have hmi := (tpd_selected (S := fill S) hM0).2 ⟨hil, hb.left M hMm⟩
      have hmj := (tpd_selected (S := fill S) hM0).2 ⟨hb.lt, hb.right M hMm⟩
      have hin : ∀ k ∈ whereIdx (fun v => decide (8 / 10 ≤ v / (M * (8 / 10)))) (fill S), i ≤ k ∧ k ≤ j := by
        intro k hk
        rw [tpd_selected hM0] at hk
        by_contra hc
        obtain ⟨v, hv, hlt⟩ := hb.outside k hk.1 (by omega)
        have := hMl v hv
        linarith [hk.2]
      generalize whereIdx (fun v => decide (8 / 10 ≤ v / (M * (8 / 10)))) (fill S) = L at *
      have hne : (L.map fun k => f.getD k 0) ≠ [] := by
        intro h; rw [List.map_eq_nil_iff] at h; rw [h] at hmi; cases hmi
      obtain ⟨lo, hlo⟩ := pyMin_exists hne
      obtain ⟨hi, hhi⟩ := pyMax_exists hne
      have elo : lo = f.getD i 0 := by
        obtain ⟨a, b⟩ := pyMin_spec hlo
        obtain ⟨k, hk, rfl⟩ := List.mem_map.1 a
        exact le_antisymm (b _ (List.mem_map.2 ⟨i, hmi, rfl⟩)) (inc_le hp (hin k hk).1 (hsub k hk))
      have ehi : hi = f.getD j 0 := by
        obtain ⟨a, b⟩ := pyMax_spec hhi
        obtain ⟨k, hk, rfl⟩ := List.mem_map.1 a
        exact le_antisymm (inc_le hp (hin k hk).2 hjl) (b _ (List.mem_map.2 ⟨j, hmj, rfl⟩))
      rw [hlo, hhi, elo, ehi]
    have hfn : ∀ k, k < f.length → 0 ≤ f.getD k 0 := fun k hk => h0.trans (inc_le hp (Nat.zero_le _) hk)
    have hfi : 0 ≤ f.getD i 0 := hfn i (by omega)
    have hfj : 0 ≤ f.getD j 0 := hfn j (by omega)
    have hje : f.getD j 0 ≤ f.getD (f.length - 1) 0 := inc_le hp (by omega) (by omega)
    have hn : ¬ (f.getD i 0 = -1 ∨ (FMax.fin (f.getD j 0)) = .fin (-1)) := by
      rintro (e | e)
      · linarith
      · have := FMax.fin.inj e; linarith
    have sel : ∀ m : Int, 0 ≤ m → Integrated f m (f.getD i 0) (.fin (f.getD j 0)) i j := by
      intro m hm0
      unfold Integrated
      rw [if_neg hn]
      have fu : firstUsable f m = 0 := by unfold firstUsable; rw [if_neg (by omega)]
      refine ⟨?_, ?_⟩
      · rw [fu]; exact isNearest_self hp (Nat.zero_le _) (by omega)
      · rw [fu]; exact isNearest_self hp (Nat.zero_le _) hjl
    have def' : ∀ m : Int, ∃ v, computeMoment (vec f) (vec (fill S)) m (f.getD i 0) (.fin (f.getD j 0)) = .ok v ∧ 0 ≤ v := fun m =>
      moment_defined (isArr_vec f) (isArr_vec _) hu h2 hlf h0 hpos' (Or.inl (inc_le hp hij hjl)) (Or.inr (Or.inr ⟨_, rfl, hje⟩))
    obtain ⟨m0, e0, -⟩ := def' 0
    obtain ⟨m1, e1, -⟩ := def' 1
    have M0 := nan_moment (isArr_vec f) (isArr_vec S) (isArr_vec (fill S)) (fill_completes S) (sel 0 (le_refl _)) e0
    have M1 := nan_moment (isArr_vec f) (isArr_vec S) (isArr_vec (fill S)) (fill_completes S) (sel 1 (by omega)) e1
    simp only [FMax.lim] at M0 M1
    have known : ∀ k, k = i ∨ k = j → S.getD k none ≠ none := by
      intro k hk hnk
      have e : (fill S).getD k 0 = 0 := by rw [fill_getD, hnk]; rfl
      have : 64 / 100 * M ≤ (fill S).getD k 0 := by
        rcases hk with rfl | rfl
        · exact hb.left M hMm
        · exact hb.right M hMm
      rw [e] at this
      have : 0 < 64 / 100 * M := by positivity
      linarith
    refine ⟨?_, ?_, ?_⟩
    · rintro ⟨k, k1, k2, kn⟩
      have hlt : i < j := by
        rcases Nat.lt_or_ge i j with h | h
        · exact h
        · exact absurd kn (known k (.inl (by omega)))
      rw [key, M0.1 (.inl hlt) ⟨k, k1, k2, kn⟩, M1.1 (.inl hlt) ⟨k, k1, k2, kn⟩]
      rfl
    · intro hall hlt
      have hno : ¬ ((i < j ∨ Beyond f (f.getD i 0) (.fin (f.getD j 0))) ∧ ∃ k, i ≤ k ∧ k ≤ j ∧ S.getD k none = none) := by
        rintro ⟨-, k, k1, k2, kn⟩
        exact hall k k1 k2 kn
      obtain ⟨n0, n1, a0, a1, a2, -⟩ := tpd_spec_partial hf (isArr_vec (fill S)) hu hlf h0 hpos' hen' hb hlt
      have same : ∀ m, computeMoment (vec f) (vec (fill S)) m (f.getD i 0) (.fin (f.getD j 0)) =
          computeMoment pf (vec (fill S)) m (f.getD i 0) (.fin (f.getD j 0)) := by
        intro m
        unfold computeMoment
        rw [vecIn_of_isArr hf, vecIn_of_isArr (isArr_vec f)]
      rw [same, a0] at e0
      rw [same, a1] at e1
      have e0 := Except.ok.inj e0
      have e1 := Except.ok.inj e1
      subst e0 e1
      refine ⟨_, a2, ?_⟩
      rw [key, M0.2 hno, M1.2 hno]
      have hm1 : n1 ≠ 0 := by
        rw [tpd_eq hf (isArr_vec (fill S)) hp hlf hpos' hen' hb, same, same, a0, a1] at a2
        intro hz
        rw [hz] at a2
        simp only [bind, Except.bind, divE, if_true] at a2
        cases a2
      simp only [bind, Except.bind, nDiv]
      rw [if_neg hm1]
    · rintro rfl
      have hno : ¬ ((i < i ∨ Beyond f (f.getD i 0) (.fin (f.getD i 0))) ∧ ∃ k, i ≤ k ∧ k ≤ i ∧ S.getD k none = none) := by
        rintro ⟨-, k, k1, k2, kn⟩
        exact known k (.inl (by omega)) kn
      have hz : ∀ m r, 0 ≤ m → computeMoment (vec f) (vec (fill S)) m (f.getD i 0) (.fin (f.getD i 0)) = .ok r → r = 0 := by
        intro m r hm0 hr
        obtain ⟨t, hrange, ht, -⟩ := integrated_range hm (sel m hm0)
        have htf : t = false := by
          cases t with
          | false => rfl
          | true =>
            have := ht.1 rfl
            obtain ⟨-, e | ⟨F, e, hF⟩⟩ := this
            · cases e
            · rw [← FMax.fin.inj e] at hF; exact absurd hje (not_le.2 hF)
        subst htf
        obtain ⟨i', j', t', hr', -, -, hst⟩ := computeMoment_structure hm m (f.getD i 0) (.fin (f.getD i 0))
        obtain ⟨rfl, rfl, rfl⟩ := momentRange_unique hrange hr'
        rw [hst (isArr_vec f) (isArr_vec _) hlf, momentOn_false] at hr
        have l1 := pySlice_len1 (l := f) (i := i) (j := i) hjl
        have l2 := pySlice_len1 (l := fill S) (i := i) (j := i) (by omega)
        rw [show i + 1 - i = 1 by omega] at l1 l2
        obtain ⟨u, hu1⟩ := List.length_eq_one_iff.1 l1
        obtain ⟨w, hw1⟩ := List.length_eq_one_iff.1 l2
        rw [hu1, hw1] at hr
        unfold momentSum at hr
        by_cases hz : m < 0 ∧ u = 0
        · omega
        · simp [simpson] at hr
          first
          | exact hr.symm
          | (split_ifs at hr; exact (Except.ok.inj hr).symm)
      rw [key, M0.2 hno, M1.2 hno, hz 0 m0 (le_refl _) e0, hz 1 m1 (by omega) e1]
      simp only [bind, Except.bind, nDiv, if_true]

/-! ## Concrete cases -/

theorem axisQ5 : UniformAxis ([0, 1, 2, 3, 4] : List ℚ) 1 := ⟨by norm_num, fun i hi => by
  have : i < 4 := by simp only [List.length_cons, List.length_nil] at hi; omega
  interval_cases i <;> norm_num⟩

/-- A missing density within the peak. -/
example : tpdN (vec [0, 1, 2, 3, 4]) (vec [some 1, some 4, none, some 4, some (1 : ℚ)]) = .ok none := by
  refine ((nan_tpd (isArr_vec _) (isArr_vec _) axisQ5 (by simp) rfl (by simp)).2 1 3 (by simp) ?_ ⟨4, by simp, by norm_num⟩ ?_).1 ⟨2, by omega, by omega, rfl⟩
  · intro v hv
    simp at hv
    rcases hv with rfl | rfl | rfl <;> norm_num
  · refine ⟨by omega, by simp [fill], ?_, ?_, ?_⟩
    · intro v hv; simp [fill] at hv ⊢; rcases hv with rfl | rfl | rfl | rfl | rfl <;> norm_num
    · intro v hv; simp [fill] at hv ⊢; rcases hv with rfl | rfl | rfl | rfl | rfl <;> norm_num
    · intro k hk ho
      refine ⟨4, by simp [fill], ?_⟩
      have : k < 5 := by simpa [fill] using hk
      have hk' : k = 0 ∨ k = 4 := by omega
      rcases hk' with rfl | rfl <;> norm_num [fill]

/-- ... beside it, and at the start. -/
example : tpdN (vec [0, 1, 2, 3, 4]) (vec [some 1, some 4, some 4, none, some (1 : ℚ)]) = .ok (some (2 / 3)) ∧
    tpdN (vec [0, 1, 2, 3, 4]) (vec [none, some 4, some 4, some 1, some (1 : ℚ)]) = .error (.valueError "min() arg is an empty sequence") := by
  decide +kernel

end Verif
