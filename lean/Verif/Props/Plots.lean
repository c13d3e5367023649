import Verif.Model.Plots
import Verif.Props.WaveHeights
import Verif.Props.SpectrumCache
import Verif.Props.BG

/-! # C76, C78: what the plots show -/

namespace Verif

open Finset

set_option linter.unusedSectionVars false

variable {K : Type} [Field K] [LinearOrder K] [IsStrictOrderedRing K]

/-- The object holds the wave heights `h` with the periods `t` (at least one wave). -/
structure HasWaves (s : WH K) (h t : List K) : Prop where
  heights : s.hwave = arr1 h
  periods : s.twave = arr1 t
  count : s.nwave = h.length
  same : h.length = t.length
  ne : h ≠ []

theorem HasWaves.wf {s : WH K} {h t : List K} (hw : HasWaves s h t) : s.WF := by
  refine ⟨?_, ?_⟩
  · rw [hw.heights]; simp [Arr.WF, arr1]
  · rw [hw.periods]; simp [Arr.WF, arr1]

/-- Sorting succeeds and orders the waves by height. -/
theorem HasWaves.sort (A : Argsort K) {s : WH K} {h t : List K} (hw : HasWaves s h t) :
    ∃ hs ts, s.sort A = (.ok (), { s with hwave := arr1 hs, twave := arr1 ts }) ∧
      HasWaves { s with hwave := arr1 hs, twave := arr1 ts } hs ts ∧ hs.length = h.length ∧ hs.Pairwise (· ≥ ·) ∧ (hs.zip ts).Perm (h.zip t) := by
  have e0 : sortWaveParams A (.nd s.hwave) (.nd s.twave) = _ :=
    sortWaveParams_eq A (h := h) (t := t) (by rw [hw.heights]; exact .nd _) (by rw [hw.periods]; exact .nd _) hw.ne hw.same
  rcases s.sort_cases A hw.wf with ⟨e', he'⟩ | ⟨h1, t1, hs, ts, e1, e2, h0, hc, e, l1, l2, hd, hp⟩
  · exfalso
    unfold WH.sort at he'
    rw [e0] at he'
    cases he'
  · have q1 : h1 = h := by have := e1.symm.trans hw.heights; simpa [arr1] using congrArg Arr.data this
    have q2 : t1 = t := by have := e2.symm.trans hw.periods; simpa [arr1] using congrArg Arr.data this
    subst q1 q2
    refine ⟨hs, ts, e, ⟨rfl, rfl, ?_, by omega, ?_⟩, l1, hd, hp⟩
    · show s.nwave = hs.length
      rw [hw.count, l1]
    · intro hn; rw [hn] at l1; exact h0 (List.length_eq_zero_iff.1 l1.symm)

/-- In a non-increasing list, the elements strictly above the `k`-th are at most `k`; those at least as large are at least `k + 1`. -/
theorem sorted_counts {l : List K} (hl : l.Pairwise (· ≥ ·)) {k : Nat} (hk : k < l.length) :
    (l.filter fun v => decide (l.getD k 0 < v)).length ≤ k ∧ k + 1 ≤ (l.filter fun v => decide (l.getD k 0 ≤ v)).length := by
  set a := l.getD k 0 with ha
  have hak : a = l[k] := by rw [ha, List.getD_eq_getElem _ _ hk]
  have hpw := List.pairwise_iff_getElem.1 hl
  constructor
  · conv_lhs => rw [← List.take_append_drop k l]
    rw [List.filter_append, List.length_append]
    have h0 : (l.drop k).filter (fun v => decide (a < v)) = [] := by
      rw [List.filter_eq_nil_iff]
      intro v hv
      obtain ⟨i, hi, rfl⟩ := List.getElem_of_mem hv
      rw [List.length_drop] at hi
      rw [List.getElem_drop, hak]
      simp only [decide_eq_true_eq, not_lt]
      rcases Nat.eq_zero_or_pos i with h | h
      · subst h; simp
      · exact hpw k (k + i) hk (by omega) (by omega)
    rw [h0, List.length_nil, add_zero]
    exact (List.length_filter_le _ _).trans (by rw [List.length_take]; omega)
  · conv_rhs => rw [← List.take_append_drop (k + 1) l]
    rw [List.filter_append, List.length_append]
    have h0 : (l.take (k + 1)).filter (fun v => decide (a ≤ v)) = l.take (k + 1) := by
      rw [List.filter_eq_self]
      intro v hv
      obtain ⟨i, hi, rfl⟩ := List.getElem_of_mem hv
      rw [List.length_take] at hi
      rw [List.getElem_take, hak]
      simp only [decide_eq_true_eq]
      rcases Nat.lt_or_ge i k with h | h
      · exact hpw i k (by omega) hk h
      · have : i = k := by omega
        subst this; exact le_rfl
    rw [h0, List.length_take]
    omega

/-- **C76 (exceedance plot).**  `plot_exceedance_waveheight` of an object with the waves `h` draws one point per wave: the heights
are `h` in non-increasing order, the probabilities grow from 0 at the highest wave (a point that a logarithmic axis cannot show) to 1 at
the lowest one in equal steps, and the probability drawn at a height lies between the fraction of strictly higher waves and the
fraction of waves at least as high.  The object keeps its waves, each with its period. -/
theorem plot_exceedance (A : Argsort K) {s : WH K} {h t : List K} (hw : HasWaves s h t) :
    ∃ pts s' ts, s.plotExceedance A = (.ok pts, s') ∧ pts.length = h.length ∧ (pts.map Prod.fst).Perm h ∧
      (pts.map Prod.fst).Pairwise (· ≥ ·) ∧ HasWaves s' (pts.map Prod.fst) ts ∧ ((pts.map Prod.fst).zip ts).Perm (h.zip t) ∧
      (∀ p ∈ pts.head?, p.2 = 0) ∧ (∀ p ∈ pts.getLast?, 2 ≤ h.length → p.2 = 1) ∧
      (∀ k, k < h.length → (pts.getD k (0, 0)).2 = if h.length = 1 then 0 else (k : K) / (h.length - 1)) ∧
      ∀ p ∈ pts, ((h.filter fun v => decide (p.1 < v)).length : K) / h.length ≤ p.2 ∧
        p.2 ≤ ((h.filter fun v => decide (p.1 ≤ v)).length : K) / h.length := by
  obtain ⟨hs, ts, e, hw', l1, hd, hp⟩ := hw.sort A
  have hperm : hs.Perm h := (perm_of_zip hw.same l1 (by have := hw'.same; omega) hp).1
  have hn : 0 < h.length := List.length_pos_iff.2 hw.ne
  have hnK : (0 : K) < h.length := by exact_mod_cast hn
  set y : List K := (linspace0 (K := K) h.length).map (· / (h.length : K)) with hy
  have hyl : y.length = h.length := by
    rw [hy]; unfold linspace0
    split_ifs with h1
    · simp [h1]
    · simp
  have hyk : ∀ k, k < h.length → y.getD k 0 = if h.length = 1 then 0 else (k : K) / (h.length - 1) := by
    intro k hk
    rw [hy]; unfold linspace0
    split_ifs with h1
    · have : k = 0 := by omega
      subst this; simp
    · rw [List.map_map, getD_map_range _ _ _ _ hk]
      have : (h.length : K) - 1 ≠ 0 := by
        have : (1 : K) < h.length := by exact_mod_cast (by omega : 1 < h.length)
        exact (sub_pos.2 this).ne'
      simp only [Function.comp]
      field_simp
  have hpl : s.plotExceedance A = (.ok (hs.zip y), { s with hwave := arr1 hs, twave := arr1 ts }) := by
    unfold WH.plotExceedance
    rw [e]
    dsimp only
    rw [hw.count]
    unfold pltPlot
    rw [if_neg (by simp only [not_not]; show hs.length = y.length; omega)]
    rfl
  have hfst : (hs.zip y).map Prod.fst = hs := List.map_fst_zip (by omega)
  have hlen : (hs.zip y).length = h.length := by rw [List.length_zip]; omega
  have hget : ∀ k, k < h.length → (hs.zip y).getD k (0, 0) = (hs.getD k 0, y.getD k 0) := by
    intro k hk
    rw [List.getD_eq_getElem _ _ (by omega), List.getElem_zip, List.getD_eq_getElem _ _ (by omega), List.getD_eq_getElem _ _ (by omega)]
  have hmem : ∀ p ∈ hs.zip y, ∃ k, k < h.length ∧ p = (hs.getD k 0, y.getD k 0) := by
    intro p hp
    obtain ⟨k, hk, rfl⟩ := List.getElem_of_mem hp
    refine ⟨k, by omega, ?_⟩
    rw [← hget k (by omega), List.getD_eq_getElem _ _ hk]
  refine ⟨hs.zip y, _, ts, hpl, hlen, by rw [hfst]; exact hperm, by rw [hfst]; exact hd, by rw [hfst]; exact hw', by rw [hfst]; exact hp,
    ?_, ?_, ?_, ?_⟩
  · intro p hp
    rw [List.head?_eq_getElem?] at hp
    rw [List.getElem?_eq_getElem (by omega)] at hp
    have hp' : (hs.zip y)[0] = p := by simpa using hp
    rw [← hp', ← List.getD_eq_getElem _ (0, 0) (by omega), hget 0 hn]
    show y.getD 0 0 = 0
    rw [hyk 0 hn]; simp
  · intro p hp h2
    rw [List.getLast?_eq_getElem?, hlen, List.getElem?_eq_getElem (by omega)] at hp
    have hp' : (hs.zip y)[h.length - 1] = p := by simpa using hp
    rw [← hp', ← List.getD_eq_getElem _ (0, 0) (by omega), hget _ (by omega)]
    show y.getD _ 0 = 1
    rw [hyk _ (by omega), if_neg (by omega)]
    have : (1 : K) < h.length := by exact_mod_cast (by omega : 1 < h.length)
    rw [Nat.cast_sub (by omega), Nat.cast_one, div_self (sub_pos.2 this).ne']
  · intro k hk
    rw [hget k hk]
    exact hyk k hk
  · intro p hp
    obtain ⟨k, hk, rfl⟩ := hmem p hp
    dsimp only
    have hc := sorted_counts hd (k := k) (by omega)
    rw [(hperm.filter _).length_eq, (hperm.filter _).length_eq] at hc
    have c1 : ((h.filter fun v => decide (hs.getD k 0 < v)).length : K) ≤ k := by exact_mod_cast hc.1
    have c2 : (k : K) + 1 ≤ (h.filter fun v => decide (hs.getD k 0 ≤ v)).length := by exact_mod_cast hc.2
    have hk1 : (k : K) + 1 ≤ h.length := by exact_mod_cast hk
    rw [hyk k hk]
    split_ifs with h1
    · have hk0 : k = 0 := by omega
      subst hk0
      refine ⟨?_, by positivity⟩
      have : ((h.filter fun v => decide (hs.getD 0 0 < v)).length : K) = 0 := le_antisymm (by simpa using c1) (by positivity)
      rw [this, zero_div]
    · have hm : (0 : K) < (h.length : K) - 1 := by
        have : (1 : K) < h.length := by exact_mod_cast (by omega : 1 < h.length)
        exact sub_pos.2 this
      constructor
      · rw [div_le_div_iff₀ hnK hm]
        have : (0 : K) ≤ k := by positivity
        nlinarith
      · rw [div_le_div_iff₀ hm hnK]
        nlinarith

/-- Four waves: the points drawn. -/
example : ((⟨arr1 [1, 4, 2, 3], 4, arr1 [10, 40, 20, 30]⟩ : WH ℚ).plotExceedance stableArgsort).1 =
    .ok [(4, 0), (3, 1 / 3), (2, 2 / 3), (1, 1)] := by decide +kernel

/-- The significant wave height, from the sorted waves or not. -/
theorem getHs_sorted (A : Argsort ℝ) {s : WH ℝ} (hwf : s.WF) {s' : WH ℝ} (h : SameWaves s s') {Hs Ts : ℝ} {s1 : WH ℝ}
    (hH : s.getHs A = (.ok (Hs, Ts), s1)) : ∃ Ts', s'.getHs A = (.ok (Hs, Ts'), (s'.sort A).2) := by
  have q : (s'.getHs A).1.map Prod.fst = (s.getHs A).1.map Prod.fst := highestWaves_same A A hwf h _
  rw [hH] at q
  have q2 : (s'.getHs A).2 = (s'.sort A).2 := s'.highestWaves_state A _
  rcases e : s'.getHs A with ⟨r, s2⟩
  rw [e] at q q2
  rcases r with er | ⟨a, b⟩
  · cases q
  · have : a = Hs := by simpa [Except.map] using q
    subst this
    exact ⟨b, by rw [← q2]⟩

/-- A positive height whose Rayleigh exceedance probability `exp(-2 (H/Hs)^2)` is `p`: `Hs sqrt(-ln p / 2)`. -/
theorem sqrt_neg_log_spec {p : ℝ} (hp : 0 < p) (hp1 : p ≤ 1) : Real.exp (-(Real.sqrt (-Real.log p)) ^ 2) = p := by
  rw [Real.sq_sqrt (by have := Real.log_nonpos hp.le hp1; linarith), neg_neg, Real.exp_log hp]

/-- The three ways `plot_exceedance_waveheight_Rayleigh` can go for an object with waves of positive significant height. -/
theorem plotRayleigh_eq (A : Argsort ℝ) {s : WH ℝ} {h t : List ℝ} (hw : HasWaves s h t) {Hs Ts : ℝ} {s1 : WH ℝ}
    (hH : s.getHs A = (.ok (Hs, Ts), s1)) (hpos : 0 < Hs) (normalize : Bool) :
    ∃ hs ts h2p s3, HasWaves s3 hs ts ∧ hs.length = h.length ∧ hs.Pairwise (· ≥ ·) ∧ (hs.zip ts).Perm (h.zip t) ∧ 0 ≤ h2p ∧
      Real.exp (-2 * (h2p / Hs) ^ 2) = 2 / 100 ∧
      ∀ (depth cota hm0 : ℝ) (fuel : Nat), let c : ℝ := if normalize then Hs else 1
        let theory := (rayleighX h.length).zip ((rayleighTheory h.length h2p).map (· / c))
        let waves := (rayleighX h.length).zip (hs.map (· / c))
        let ticks := xtickPositions.map fun p => (rayleighPpf (1 - p / 100) (1 / Real.sqrt 2), p)
        s.plotRayleigh A normalize false depth cota hm0 fuel = some (.ok ⟨theory, none, waves, ticks⟩, s3) ∧
        (hm0 = -1 → s.plotRayleigh A normalize true depth cota hm0 fuel =
          some (.error (.valueError "Please provide Hm0 when using Battjes & Groenendijk distribution"), s3)) ∧
        ∀ R, hm0 ≠ -1 → battjesGroenendijk hm0 h.length depth cota (fuel := fuel) = some (.ok R) → R.probs.length = R.heights.length →
          s.plotRayleigh A normalize true depth cota hm0 fuel =
            some (.ok ⟨theory, some ((R.probs.map fun p => Real.sqrt (-Real.log p)).zip (R.heights.map (· / c))), waves, ticks⟩, s3) := by
  have hn : 0 < h.length := List.length_pos_iff.2 hw.ne
  obtain ⟨hs0, ts0, e0, hw0, l0, hd0, hp0⟩ := hw.sort A
  have same0 := s.sort_same A hw.wf
  rw [e0] at same0
  set c : ℝ := if normalize then Hs else 1 with hc
  have hcpos : 0 < c := by rw [hc]; split_ifs; exacts [hpos, one_pos]
  obtain ⟨r, sA, eA, rA, sameA⟩ : ∃ r sA, (if normalize then s.getHs A else (.ok (1, 0), s)) = ((.ok r : Except PyErr (ℝ × ℝ)), sA) ∧
      r.1 = c ∧ SameWaves s sA := by
    cases hnrm : normalize with
    | true =>
      obtain ⟨Ts', e⟩ := getHs_sorted A hw.wf (.refl s) hH
      rw [e0] at e
      exact ⟨_, _, by rw [if_pos rfl]; exact e, by rw [hc, hnrm]; rfl, same0⟩
    | false => exact ⟨(1, 0), s, by simp, by rw [hc, hnrm]; rfl, .refl s⟩
  obtain ⟨TsB, eB⟩ := getHs_sorted A hw.wf sameA hH
  have sameB : SameWaves s (sA.sort A).2 := sameA.trans (sA.sort_same A (sameA.wf hw.wf))
  set sB := (sA.sort A).2 with hsB
  have eH2 : sA.getH2pRayleigh A = (.ok (Hs * rayleighPpf (98 / 100) (1 / Real.sqrt 2) / Real.sqrt 2), sB) := by
    unfold WH.getH2pRayleigh; rw [eB]
  set h2p := Hs * rayleighPpf (98 / 100) (1 / Real.sqrt 2) / Real.sqrt 2 with hh2p
  have h2pexp : Real.exp (-2 * (h2p / Hs) ^ 2) = 2 / 100 := h2p_rayleigh_exceedance A eB eH2 hpos
  have h2pnn : 0 ≤ h2p := by rw [hh2p]; unfold rayleighPpf; positivity
  rcases sort_same_result A A hw.wf sameB with ⟨er, q1, -⟩ | ⟨hs, ts, ts', q1, q2, hne, q3, q4, q5, q6, q7⟩
  · rw [e0] at q1; cases q1
  have hhs : hs = hs0 := by
    rw [e0] at q1
    have := congrArg (fun z => z.2.hwave.data) q1
    exact this.symm
  have hlen : hs.length = h.length := by rw [hhs]; exact l0
  have hcnt : sB.nwave = h.length := by rw [sameB.count]; exact hw.count
  have hx : (rayleighX h.length).length = h.length := by simp [rayleighX]
  have ht : ((rayleighTheory h.length h2p).map (· / c)).length = h.length := by simp [rayleighTheory]
  have hv : (hs.map (· / c)).length = h.length := by simp [hlen]
  have p1 : pltPlot (rayleighX h.length) ((rayleighTheory h.length h2p).map (· / c)) =
      .ok ((rayleighX h.length).zip ((rayleighTheory h.length h2p).map (· / c))) := by
    unfold pltPlot; exact if_neg (by simp only [not_not]; omega)
  have p2 : pltPlot (rayleighX h.length) ((arr1 hs).data.map (· / c)) = .ok ((rayleighX h.length).zip (hs.map (· / c))) := by
    unfold pltPlot; exact if_neg (by simp only [not_not]; show _ = (hs.map (· / c)).length; omega)
  refine ⟨hs, ts', h2p, { sB with hwave := arr1 hs, twave := arr1 ts' },
    ⟨rfl, rfl, by show sB.nwave = hs.length; omega, q4, hne⟩, hlen, q5, ?_, h2pnn, h2pexp, ?_⟩
  · refine q6.trans (q7.trans ?_)
    unfold WH.pairs; rw [hw.heights, hw.periods]; exact .refl _
  · intro depth cota hm0 fuel
    dsimp only
    refine ⟨?_, ?_, ?_⟩
    · unfold WH.plotRayleigh
      rw [eA]
      dsimp only
      rw [eH2]
      dsimp only
      rw [q2]
      dsimp only
      rw [if_neg (by rw [rA]; exact hcpos.ne'), hcnt, rA, p1, p2]
      rfl
    · intro hm
      unfold WH.plotRayleigh
      rw [eA]
      dsimp only
      rw [eH2]
      dsimp only
      rw [q2]
      dsimp only
      rw [if_neg (by rw [rA]; exact hcpos.ne'), hcnt, rA, p1, p2]
      dsimp only
      rw [if_pos rfl, if_pos hm]
    · intro R hm hR hl
      unfold WH.plotRayleigh
      rw [eA]
      dsimp only
      rw [eH2]
      dsimp only
      rw [q2]
      dsimp only
      rw [if_neg (by rw [rA]; exact hcpos.ne'), hcnt, rA, p1, p2]
      dsimp only
      rw [if_pos rfl, if_neg hm, hR]
      dsimp only
      have p3 : pltPlot (R.probs.map fun p => Real.sqrt (-Real.log p)) (R.heights.map (· / c)) =
          .ok ((R.probs.map fun p => Real.sqrt (-Real.log p)).zip (R.heights.map (· / c))) := by
        unfold pltPlot; exact if_neg (by simp [hl])
      rw [p3]
      rfl

/-- **C76 (Rayleigh plot).**  `plot_exceedance_waveheight_Rayleigh` of an object with `n` waves and positive significant height `Hs`
(without the Battjes-Groenendijk curve) never fails.  The horizontal position of a probability `P` is the `x ≥ 0` with
`exp(-x^2) = P`, also at the tick labels; the waves are drawn by decreasing height, the `k`-th at probability `k / n`, heights divided
by `Hs` if asked for; the "theoretical" curve is drawn at the same probabilities `k / n`, but its height there is the one a Rayleigh
distribution exceeds with probability `k / (n + 1)`.  The object keeps its waves, each with its period. -/
theorem plot_rayleigh (A : Argsort ℝ) {s : WH ℝ} {h t : List ℝ} (hw : HasWaves s h t) {Hs Ts : ℝ} {s1 : WH ℝ}
    (hH : s.getHs A = (.ok (Hs, Ts), s1)) (hpos : 0 < Hs) (normalize : Bool) (depth cota hm0 : ℝ) (fuel : Nat) :
    ∃ p s' hs ts, s.plotRayleigh A normalize false depth cota hm0 fuel = some (.ok p, s') ∧
      HasWaves s' hs ts ∧ hs.Pairwise (· ≥ ·) ∧ (hs.zip ts).Perm (h.zip t) ∧ p.bg = none ∧
      p.waves.length = h.length ∧ p.theory.length = h.length ∧
      (∀ k, k < h.length →
        0 ≤ (p.waves.getD k (0, 0)).1 ∧ Real.exp (-(p.waves.getD k (0, 0)).1 ^ 2) = (k + 1) / h.length ∧
        (p.waves.getD k (0, 0)).2 * (if normalize then Hs else 1) = hs.getD k 0 ∧
        (p.theory.getD k (0, 0)).1 = (p.waves.getD k (0, 0)).1 ∧ 0 ≤ (p.theory.getD k (0, 0)).2 ∧
        Real.exp (-2 * ((p.theory.getD k (0, 0)).2 * (if normalize then Hs else 1) / Hs) ^ 2) = (k + 1) / (h.length + 1)) ∧
      (p.ticks.map Prod.snd = [100, 50, 20, 10, 5, 2, 1, 1 / 10, 1 / 100, 1 / 1000]) ∧
      ∀ q ∈ p.ticks, 0 ≤ q.1 ∧ Real.exp (-q.1 ^ 2) = q.2 / 100 := by
  have hn : 0 < h.length := List.length_pos_iff.2 hw.ne
  have hnR : (0 : ℝ) < h.length := by exact_mod_cast hn
  set c : ℝ := if normalize then Hs else 1 with hc
  have hcpos : 0 < c := by rw [hc]; split_ifs; exacts [hpos, one_pos]
  obtain ⟨hs, ts, h2p, s3, hw3, hlen, hd, hp, h2pnn, h2pexp, hall⟩ := plotRayleigh_eq A hw hH hpos normalize
  obtain ⟨e, -, -⟩ := hall depth cota hm0 fuel
  rw [← hc] at e
  have hx : (rayleighX h.length).length = h.length := by simp [rayleighX]
  have ht : ((rayleighTheory h.length h2p).map (· / c)).length = h.length := by simp [rayleighTheory]
  have hv : (hs.map (· / c)).length = h.length := by simp [hlen]
  refine ⟨_, s3, hs, ts, e, hw3, hd, hp, rfl, ?_, ?_, ?_, ?_, ?_⟩
  · simp only [List.length_zip]; omega
  · simp only [List.length_zip]; omega
  · intro k hk
    have hk1 : ((k : ℝ) + 1) ≤ h.length := by exact_mod_cast hk
    have gx : (rayleighX h.length)[k]'(by omega) = Real.sqrt (-Real.log (((k : ℝ) + 1) / h.length)) := by simp [rayleighX]
    have gt : ((rayleighTheory h.length h2p).map (· / c))[k]'(by omega) =
        h2p * Real.sqrt (Real.log (1 - ((h.length : ℝ) - k) / (h.length + 1)) / Real.log (2 / 100)) / c := by simp [rayleighTheory]
    have gv : (hs.map (· / c))[k]'(by omega) = hs.getD k 0 / c := by
      rw [List.getElem_map, List.getD_eq_getElem _ _ (by omega)]
    dsimp only
    have z1 : ((rayleighX h.length).zip (hs.map (· / c))).getD k (0, 0) =
        (Real.sqrt (-Real.log (((k : ℝ) + 1) / h.length)), hs.getD k 0 / c) := by
      rw [List.getD_eq_getElem _ _ (by rw [List.length_zip]; omega), List.getElem_zip, gx, gv]
    have z2 : ((rayleighX h.length).zip ((rayleighTheory h.length h2p).map (· / c))).getD k (0, 0) =
        (Real.sqrt (-Real.log (((k : ℝ) + 1) / h.length)),
          h2p * Real.sqrt (Real.log (1 - ((h.length : ℝ) - k) / (h.length + 1)) / Real.log (2 / 100)) / c) := by
      rw [List.getD_eq_getElem _ _ (by rw [List.length_zip]; omega), List.getElem_zip, gx, gt]
    rw [z1, z2]
    dsimp only
    have hpk : 0 < ((k : ℝ) + 1) / h.length := by positivity
    have hpk1 : ((k : ℝ) + 1) / h.length ≤ 1 := (div_le_one hnR).2 hk1
    have hl2 : Real.log (2 / 100) < 0 := Real.log_neg (by norm_num) (by norm_num)
    have hq : 1 - ((h.length : ℝ) - k) / (h.length + 1) = (k + 1) / (h.length + 1) := by field_simp; ring
    have hqk : 0 < ((k : ℝ) + 1) / (h.length + 1) := by positivity
    have hqk1 : ((k : ℝ) + 1) / (h.length + 1) ≤ 1 := (div_le_one (by linarith)).2 (by linarith)
    refine ⟨Real.sqrt_nonneg _, sqrt_neg_log_spec hpk hpk1, div_mul_cancel₀ _ hcpos.ne', rfl, by positivity, ?_⟩
    rw [hq, div_mul_cancel₀ _ hcpos.ne']
    have hlq : Real.log (((k : ℝ) + 1) / (h.length + 1)) ≤ 0 := Real.log_nonpos hqk.le hqk1
    have e2 : -2 * (h2p / Hs) ^ 2 = Real.log (2 / 100) := by
      rw [← Real.log_exp (-2 * (h2p / Hs) ^ 2), h2pexp]
    have e3 : -2 * (h2p * Real.sqrt (Real.log (((k : ℝ) + 1) / (h.length + 1)) / Real.log (2 / 100)) / Hs) ^ 2 =
        Real.log (((k : ℝ) + 1) / (h.length + 1)) := by
      rw [mul_div_right_comm, mul_pow, Real.sq_sqrt (div_nonneg_of_nonpos hlq hl2.le), ← mul_assoc, e2]
      field_simp
    rw [e3, Real.exp_log hqk]
  · simp [xtickPositions]
  · intro q hq
    rw [List.mem_map] at hq
    obtain ⟨p, hp, rfl⟩ := hq
    dsimp only
    have hp' : 0 < p ∧ p ≤ 100 := by
      simp only [xtickPositions, List.mem_cons, List.not_mem_nil, or_false] at hp
      rcases hp with rfl | rfl | rfl | rfl | rfl | rfl | rfl | rfl | rfl | rfl <;> norm_num
    unfold rayleighPpf
    have e1 : 1 - (1 - p / 100) = p / 100 := by ring
    have hl : Real.log (p / 100) ≤ 0 := Real.log_nonpos (by linarith [hp'.1]) (by linarith [hp'.2])
    refine ⟨by positivity, ?_⟩
    rw [e1, mul_pow, Real.sq_sqrt (by linarith), div_pow, Real.sq_sqrt (by norm_num)]
    have : -(1 ^ 2 / 2 * (-2 * Real.log (p / 100))) = Real.log (p / 100) := by ring
    rw [this, Real.exp_log (by linarith [hp'.1])]

/-- **C76 (finding).**  The curve drawn as the theoretical Rayleigh distribution lies strictly above the Rayleigh line
`H = Hs x / sqrt 2` (the height with exceedance probability `exp(-x^2)`) at every plotted probability, e.g. it is not 0 at 100%. -/
theorem rayleigh_curve_above (A : Argsort ℝ) {s : WH ℝ} {h t : List ℝ} (hw : HasWaves s h t) {Hs Ts : ℝ} {s1 : WH ℝ}
    (hH : s.getHs A = (.ok (Hs, Ts), s1)) (hpos : 0 < Hs) (fuel : Nat) :
    ∃ p s', s.plotRayleigh A (fuel := fuel) = some (.ok p, s') ∧ p.theory.length = h.length ∧ ∀ q ∈ p.theory, Hs * q.1 / Real.sqrt 2 < q.2 := by
  obtain ⟨p, s', hs, ts, e, -, -, -, -, hl1, hl, hk, -, -⟩ := plot_rayleigh A hw hH hpos false (-1) 250 (-1) fuel
  refine ⟨p, s', e, hl, fun q hq => ?_⟩
  obtain ⟨k, hkl, rfl⟩ := List.getElem_of_mem hq
  obtain ⟨x0, x1, -, x2, y0, y1⟩ := hk k (by omega)
  rw [List.getD_eq_getElem _ _ hkl] at x2 y0 y1
  rw [← x2] at x1
  rw [← x2] at x0
  have hn : (0 : ℝ) < h.length := by exact_mod_cast List.length_pos_iff.2 hw.ne
  set x := (p.theory[k]).1
  set y := (p.theory[k]).2
  simp only [Bool.false_eq_true, if_false, mul_one] at y1
  have lt : Real.exp (-2 * (y / Hs) ^ 2) < Real.exp (-x ^ 2) := by
    rw [x1, y1]
    exact div_lt_div_of_pos_left (by positivity) hn (by linarith)
  have lt2 := Real.exp_lt_exp.1 lt
  have h2 : (x / Real.sqrt 2) ^ 2 < (y / Hs) ^ 2 := by
    rw [div_pow x, Real.sq_sqrt (by norm_num)]; linarith
  have h3 := lt_of_pow_lt_pow_left₀ 2 (by positivity) h2
  rw [lt_div_iff₀ hpos] at h3
  calc Hs * x / Real.sqrt 2 = x / Real.sqrt 2 * Hs := by ring
    _ < y := h3

/-- **C76 (Battjes-Groenendijk).**  With `plot_BG` but without `hm0` the call raises `ValueError` (the waves of the object are sorted by
then); with `hm0` and a positive depth and slope it draws what it draws without, and additionally the points of the
Battjes-Groenendijk distribution (height divided by `Hs` if asked for, at the position of its probability). -/
theorem plot_rayleigh_bg (A : Argsort ℝ) {s : WH ℝ} {h t : List ℝ} (hw : HasWaves s h t) {Hs Ts : ℝ} {s1 : WH ℝ}
    (hH : s.getHs A = (.ok (Hs, Ts), s1)) (hpos : 0 < Hs) (normalize : Bool) :
    (∀ depth cota fuel, ∃ msg s', s.plotRayleigh A normalize true depth cota (fuel := fuel) = some (.error (.valueError msg), s') ∧
      ∃ hs ts, HasWaves s' hs ts ∧ hs.Pairwise (· ≥ ·) ∧ (hs.zip ts).Perm (h.zip t)) ∧
    ∀ depth cota hm0, 0 < depth → 0 < cota → hm0 ≠ 0 → hm0 ≠ -1 → ∃ fuel R p s' pts,
      battjesGroenendijk hm0 h.length depth cota (1 / 10 ^ 5) fuel = some (.ok R) ∧
      s.plotRayleigh A normalize false depth cota hm0 fuel = some (.ok p, s') ∧
      s.plotRayleigh A normalize true depth cota hm0 fuel = some (.ok { p with bg := some pts }, s') ∧
      pts.map (fun q => (q.2 * (if normalize then Hs else 1), Real.exp (-q.1 ^ 2))) = R.heights.zip R.probs ∧ ∀ q ∈ pts, 0 ≤ q.1 := by
  have hn : 0 < h.length := List.length_pos_iff.2 hw.ne
  have hnR : (1 : ℝ) ≤ h.length := by exact_mod_cast hn
  obtain ⟨hs, ts, h2p, s3, hw3, hlen, hd, hp, h2pnn, h2pexp, hall⟩ := plotRayleigh_eq A hw hH hpos normalize
  refine ⟨fun depth cota fuel => ⟨_, s3, (hall depth cota (-1) fuel).2.1 rfl, hs, ts, hw3, hd, hp⟩, ?_⟩
  intro depth cota hm0 hdep hcot h0 h1
  obtain ⟨fuel, R, hR, -⟩ := bg_returns (tol := 1 / 10 ^ 5) (nwave := h.length) h0 hn hdep hcot (by norm_num) (by norm_num)
  have hP : R.probs.length = R.heights.length ∧ ∀ P ∈ R.probs, 0 < P ∧ P ≤ 1 := by
    by_cases hne : R.heights = []
    · have : R = ⟨[], []⟩ := bg_empty hR hne
      rw [this]; simp
    · obtain ⟨H1, H2, Htr, Hrms, x, xR, a1, a2, a3, a4, -, -, -, -, -, -, -, -, b1, b2, b3⟩ := bg_consistent hdep hR hne
      rw [b1, b2]
      refine ⟨rfl, fun P hPm => ?_⟩
      simp only [List.mem_cons, List.not_mem_nil, or_false] at hPm
      rcases hPm with rfl | rfl | rfl
      · rw [b3]; norm_num
      · unfold compositeExc weibullExc
        have hq : 0 ≤ Htr / Hrms := by positivity
        split_ifs
        · exact ⟨Real.exp_pos _, Real.exp_le_one_iff.2 (by rw [neg_nonpos]; positivity)⟩
        · exact ⟨Real.exp_pos _, Real.exp_le_one_iff.2 (by rw [neg_nonpos]; positivity)⟩
      · exact ⟨by positivity, (div_le_one (by linarith)).2 hnR⟩
  obtain ⟨e1, -, e3⟩ := hall depth cota hm0 fuel
  refine ⟨fuel, R, _, s3, _, hR, e1, e3 R h1 hR hP.1, ?_, ?_⟩
  · set c : ℝ := if normalize then Hs else 1 with hc
    have hcpos : 0 < c := by rw [hc]; split_ifs; exacts [hpos, one_pos]
    refine List.ext_getElem (by simp [hP.1]) fun i hi1 hi2 => ?_
    simp only [List.length_map, List.length_zip] at hi1 hi2
    simp only [List.getElem_map, List.getElem_zip]
    have hm := hP.2 _ (List.getElem_mem (show i < R.probs.length by omega))
    rw [div_mul_cancel₀ _ hcpos.ne', sqrt_neg_log_spec hm.1 hm.2]
  · intro q hq
    have := List.of_mem_zip hq
    obtain ⟨P, -, hP'⟩ := List.mem_map.1 this.1
    rw [← hP']; exact Real.sqrt_nonneg _

/-- Three waves of heights 1, 3, 2: the significant height is 3 and the hypotheses hold. -/
theorem plot_three : ∃ s : WH ℝ, HasWaves s [1, 3, 2] [5, 6, 7] ∧ ∃ s1, s.getHs stableArgsort = (.ok (3, 6), s1) := by
  refine ⟨⟨arr1 [1, 3, 2], 3, arr1 [5, 6, 7]⟩, ⟨rfl, rfl, rfl, rfl, by simp⟩, ?_⟩
  have hw : HasWaves (⟨arr1 [1, 3, 2], 3, arr1 [5, 6, 7]⟩ : WH ℝ) [1, 3, 2] [5, 6, 7] := ⟨rfl, rfl, rfl, rfl, by simp⟩
  obtain ⟨hs, ts, e, hw', hl, hd, hp⟩ := hw.sort stableArgsort
  refine ⟨{ (⟨arr1 [1, 3, 2], 3, arr1 [5, 6, 7]⟩ : WH ℝ) with hwave := arr1 hs, twave := arr1 ts }, ?_⟩
  have hl' : ts.length = 3 := by have := hw'.same; simp at hl; omega
  obtain ⟨a, b, c, rfl⟩ := List.length_eq_three.1 (show hs.length = 3 from hl)
  obtain ⟨u, v, w, rfl⟩ := List.length_eq_three.1 hl'
  have hmem : ∀ q ∈ [(a, u), (b, v), (c, w)], q = (1, 5) ∨ q = (3, 6) ∨ q = (2, 7) := by
    intro q hq
    have := hp.subset hq
    simpa using this
  have h3 : ((3 : ℝ), (6 : ℝ)) ∈ [(a, u), (b, v), (c, w)] := hp.symm.subset (by simp)
  simp only [List.pairwise_cons, List.mem_cons, List.not_mem_nil, or_false, forall_eq_or_imp, forall_eq] at hd
  have hau : a = 3 ∧ u = 6 := by
    have h1 := hmem (a, u) (by simp)
    simp only [Prod.mk.injEq] at h1
    have ha : 3 ≤ a := by
      simp only [List.mem_cons, Prod.mk.injEq, List.not_mem_nil, or_false] at h3
      rcases h3 with ⟨h, -⟩ | ⟨h, -⟩ | ⟨h, -⟩
      · exact h.le
      · rw [h]; exact hd.1.1
      · rw [h]; exact hd.1.2
    rcases h1 with ⟨h, -⟩ | h | ⟨h, -⟩
    · linarith
    · exact h
    · linarith
  obtain ⟨rfl, rfl⟩ := hau
  unfold WH.getHs WH.highestWaves
  rw [e]
  dsimp only
  unfold arr1
  rw [highest_eq (h := [3, b, c]) (t := [6, v, w]) (.nd _) (.nd _) (by simp) rfl]
  have hfl : ⌊(([3, b, c] : List ℝ).length : ℝ) * (1 / 3)⌋ = 1 := by
    rw [Int.floor_eq_iff]; norm_num
  rw [hfl, if_neg (by norm_num), if_neg, if_pos (by norm_num)]
  · simp [mean]
  · have : isSortedDesc ([3, b, c] : List ℝ) = true := by
      rw [isSortedDesc_iff]
      simp only [List.pairwise_cons, List.mem_cons, List.not_mem_nil, or_false, forall_eq_or_imp, forall_eq]
      exact hd
    rw [this]; simp

/-! ## Concrete cases: the hypotheses of the theorems above are met -/

example := plot_exceedance (stableArgsort (K := ℚ)) (s := ⟨arr1 [1, 4, 2, 3], 4, arr1 [10, 40, 20, 30]⟩) (h := [1, 4, 2, 3]) (t := [10, 40, 20, 30]) ⟨rfl, rfl, rfl, rfl, by simp⟩
/-- Three waves with `Hs = 3`: both plots exist, also with the shallow-water distribution for a depth of 10 and a slope of 1:100. -/
example : ∃ s : WH ℝ, (∃ p s', s.plotRayleigh stableArgsort true false 10 100 2 0 = some (.ok p, s') ∧ p.theory.length = 3) ∧
    (∃ p s', s.plotRayleigh stableArgsort (fuel := 0) = some (.ok p, s') ∧ ∀ q ∈ p.theory, 3 * q.1 / Real.sqrt 2 < q.2) ∧
    ∃ fuel p s', s.plotRayleigh stableArgsort true true 10 100 2 fuel = some (.ok p, s') := by
  obtain ⟨s, hw, s1, hs⟩ := plot_three
  obtain ⟨p, s', -, -, e, -, -, -, -, -, l, -⟩ := plot_rayleigh stableArgsort hw hs (by norm_num) true 10 100 2 0
  obtain ⟨p2, s2, e2, -, h2⟩ := rayleigh_curve_above stableArgsort hw hs (by norm_num) 0
  obtain ⟨fuel, R, p3, s3, pts, -, -, e3, -⟩ := (plot_rayleigh_bg stableArgsort hw hs (by norm_num) true).2 10 100 2 (by norm_num) (by norm_num) (by norm_num) (by norm_num)
  exact ⟨s, ⟨p, s', e, l⟩, ⟨p2, s2, e2, h2⟩, fuel, _, s3, e3⟩

end Verif
