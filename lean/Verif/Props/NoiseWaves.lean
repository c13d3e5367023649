import Verif.Props.HeightLaws
import Verif.Props.Prefix

/-! # C116: wave-by-wave analysis under measurement noise -/

set_option linter.unusedSectionVars false

namespace Verif
variable {K : Type} [Field K] [LinearOrder K] [IsStrictOrderedRing K]

/-- Specification: `y` is `x` with noise of at most `ε` that changes the sign of no sample. -/
structure Noisy (x y : List K) (ε : K) : Prop where
  len : y.length = x.length
  close : ∀ i < x.length, |x.getD i 0 - y.getD i 0| ≤ ε
  sign : ∀ i < x.length, (0 < x.getD i 0 ∧ 0 < y.getD i 0) ∨ (x.getD i 0 < 0 ∧ y.getD i 0 < 0) ∨ (x.getD i 0 = 0 ∧ y.getD i 0 = 0)

theorem noisy_crossIdx {x y : List K} {ε : K} (h : Noisy x y ε) : crossIdx downCond y = crossIdx downCond x := by
  unfold crossIdx
  rw [h.len]
  refine List.filter_congr fun i hi => ?_
  have hi := List.mem_range.1 hi
  have s1 := h.sign i (by omega)
  have s2 := h.sign (i + 1) (by omega)
  unfold downCond
  congr 1 <;> rw [decide_eq_decide]
  · rcases s1 with ⟨a, b⟩ | ⟨a, b⟩ | ⟨a, b⟩
    · exact ⟨fun _ => a.le, fun _ => b.le⟩
    · exact ⟨fun c => absurd b (not_lt.2 c), fun c => absurd a (not_lt.2 c)⟩
    · rw [a, b]
  · rcases s2 with ⟨a, b⟩ | ⟨a, b⟩ | ⟨a, b⟩
    · exact ⟨fun c => absurd b (not_lt.2 c.le), fun c => absurd a (not_lt.2 c.le)⟩
    · exact ⟨fun _ => a, fun _ => b⟩
    · rw [a, b]

/-- The samples before and after a crossing. -/
theorem crossing_window {t x : List K} {dt : K} (hu : UniformAxis t dt) (hlen : t.length = x.length) {i : Nat} (hi : i ∈ crossIdx downCond x)
    {j : Nat} (hj : j < t.length) :
    (crossTime dt t x i ≤ t.getD j 0 ↔ (if x.getD i 0 = 0 then i else i + 1) ≤ j) ∧ (t.getD j 0 ≤ crossTime dt t x i ↔ j ≤ i) := by
  obtain ⟨hil, hc⟩ := mem_crossIdx.1 hi
  simp only [downCond, Bool.and_eq_true, decide_eq_true_eq] at hc
  obtain ⟨c1, c2⟩ := hc
  have hdt := hu.1
  have hD : 0 < x.getD i 0 - x.getD (i + 1) 0 := by linarith
  have hnext := hu.2 i (by omega)
  have hlt : crossTime dt t x i < t.getD (i + 1) 0 := by
    unfold crossTime
    rw [hnext, add_lt_add_iff_left, div_lt_iff₀ hD]
    nlinarith
  have hmono : ∀ a b, a ≤ b → b < t.length → t.getD a 0 ≤ t.getD b 0 := fun a b hab hb => axis_mono hu hab hb
  have hge : t.getD i 0 ≤ crossTime dt t x i := by
    unfold crossTime
    exact le_add_of_nonneg_right (div_nonneg (mul_nonneg hdt.le c1) hD.le)
  refine ⟨?_, ?_⟩
  · by_cases h0 : x.getD i 0 = 0
    · rw [if_pos h0]
      have e : crossTime dt t x i = t.getD i 0 := by unfold crossTime; rw [h0]; simp
      rw [e]
      exact incr_le_iff (uniform_pairwise hu) (by omega) hj
    · rw [if_neg h0]
      have hgt : t.getD i 0 < crossTime dt t x i := by
        unfold crossTime
        exact lt_add_of_pos_right _ (div_pos (mul_pos hdt (lt_of_le_of_ne c1 (Ne.symm h0))) hD)
      constructor
      · intro h
        by_contra hc
        have := hmono j i (by omega) (by omega)
        linarith
      · intro h
        exact hlt.le.trans (hmono _ _ h hj)
  · constructor
    · intro h
      by_contra hc
      have := hmono (i + 1) j (by omega) hj
      linarith
    · intro h
      exact (hmono j i h (by omega)).trans hge

/-- How far noise moves one crossing. -/
theorem crossTime_noise {t x y : List K} {ε dt : K} (hdt : 0 < dt) (h : Noisy x y ε) {i : Nat} (hi : i ∈ crossIdx downCond x) :
    |crossTime dt t x i - crossTime dt t y i| ≤ dt * (ε / (y.getD i 0 - y.getD (i + 1) 0)) := by
  have hi' := hi
  rw [← noisy_crossIdx h] at hi'
  obtain ⟨hil, hc⟩ := mem_crossIdx.1 hi
  obtain ⟨-, hc'⟩ := mem_crossIdx.1 hi'
  simp only [downCond, Bool.and_eq_true, decide_eq_true_eq] at hc hc'
  have k1 := h.close i (by omega)
  have k2 := h.close (i + 1) (by omega)
  unfold crossTime
  set a := x.getD i 0
  set b := x.getD (i + 1) 0
  set c := y.getD i 0
  set d := y.getD (i + 1) 0
  have h1 : 0 < a - b := by linarith
  have h2 : 0 < c - d := by linarith
  have e : t.getD i 0 + dt * a / (a - b) - (t.getD i 0 + dt * c / (c - d)) = dt * (((a - c) * (-b) + (b - d) * a) / ((a - b) * (c - d))) := by
    field_simp
    ring
  rw [e, abs_mul, abs_of_pos hdt]
  refine mul_le_mul_of_nonneg_left ?_ hdt.le
  rw [abs_div, abs_of_pos (mul_pos h1 h2), div_le_div_iff₀ (mul_pos h1 h2) h2]
  have hnum : |(a - c) * (-b) + (b - d) * a| ≤ ε * (a - b) := by
    refine (abs_add_le _ _).trans ?_
    rw [abs_mul, abs_mul, abs_of_nonneg (by linarith : 0 ≤ -b), abs_of_nonneg hc.1]
    have p1 := mul_le_mul_of_nonneg_right k1 (by linarith : 0 ≤ -b)
    have p2 := mul_le_mul_of_nonneg_right k2 hc.1
    linarith
  calc _ ≤ ε * (a - b) * (c - d) := mul_le_mul_of_nonneg_right hnum h2.le
    _ = _ := by ring

/-- Highest and lowest points of the same samples of `x` and `y`. -/
theorem extreme_noise {t x y : List K} {ε a b a' b' τ v τ' v' : K} (hl : t.length = x.length) (h : Noisy x y ε)
    (hw : ∀ j, InWave t a b j ↔ InWave t a' b' j) :
    (FirstExtreme (· ≤ ·) t x a b τ v → FirstExtreme (· ≤ ·) t y a' b' τ' v' → |v - v'| ≤ ε) ∧
    (FirstExtreme (· ≥ ·) t x a b τ v → FirstExtreme (· ≥ ·) t y a' b' τ' v' → |v - v'| ≤ ε) := by
  constructor <;> rintro ⟨i, hi, e1, -, m1, -⟩ ⟨j, hj, e2, -, m2, -⟩
  all_goals
    have q1 := m1 j ((hw j).2 hj)
    have q2 := m2 i ((hw i).1 hi)
    have k1 := abs_le.1 (h.close i (by have := hi.1; omega))
    have k2 := abs_le.1 (h.close j (by have := hj.1; omega))
    simp only [ge_iff_le] at q1 q2
    rw [abs_le]
    constructor <;> linarith

/-- **C116.**  Noise of at most `ε` that changes the sign of no sample leaves the number of waves as it is; it moves the crossing after sample `i` by at
most `dt ε / (y_i - y_(i+1))`; crests and troughs move by at most `ε` and heights by at most `2 ε`. -/
theorem waves_noise {t x y : List K} {dt ε : K} (h2 : 2 ≤ t.length) (hlen : t.length = x.length) (hu : UniformAxis t dt) (h : Noisy x y ε) :
    ∃ (s s' : SeriesObj K) (w w' : IndWaves K), SeriesObj.init (vec t) (vec x) = .ok s ∧ SeriesObj.init (vec t) (vec y) = .ok s' ∧
      determineParamsIndividualWaves (vec s.tCross) (vec t) (vec x) = .ok w ∧ determineParamsIndividualWaves (vec s'.tCross) (vec t) (vec y) = .ok w' ∧
      s.wh = ⟨arr1 w.hWave, w.hWave.length, arr1 w.tWave⟩ ∧ s'.wh = ⟨arr1 w'.hWave, w'.hWave.length, arr1 w'.tWave⟩ ∧
      s'.tCross.length = s.tCross.length ∧ s'.wh.nwave = s.wh.nwave ∧
      (∀ k < s.tCross.length, ∃ i, i + 1 < x.length ∧ 0 ≤ y.getD i 0 ∧ y.getD (i + 1) 0 < 0 ∧
        |s.tCross.getD k 0 - s'.tCross.getD k 0| ≤ dt * (ε / (y.getD i 0 - y.getD (i + 1) 0))) ∧
      (∀ k < w.hWave.length, |w.aCrest.getD k 0 - w'.aCrest.getD k 0| ≤ ε ∧ |w.aTrough.getD k 0 - w'.aTrough.getD k 0| ≤ ε ∧
        |w.hWave.getD k 0 - w'.hWave.getD k 0| ≤ 2 * ε) := by
  have hlen' : t.length = y.length := by rw [h.len]; exact hlen
  have ht0 : t ≠ [] := by rintro rfl; simp at h2
  have hstep : t.getD 1 0 - t.getD 0 0 = dt := by
    have := hu.2 0 (by omega)
    rw [this]; ring
  obtain ⟨s, n, tc, w, i1, -, -, -, -, i2, i3, i4, i5, -, -⟩ := series_never_fails (isVec_vec t) (isVec_vec x) h2 hlen hu
  obtain ⟨s', n', tc', w', j1, -, -, -, -, j2, j3, j4, j5, -, -⟩ := series_never_fails (isVec_vec t) (isVec_vec y) h2 hlen' hu
  rw [determine_down_eq (isVec_vec t) (isVec_vec x) h2 hlen, hstep] at i2
  rw [determine_down_eq (isVec_vec t) (isVec_vec y) h2 hlen', hstep, noisy_crossIdx h] at j2
  simp only [Except.ok.injEq, Prod.mk.injEq] at i2 j2
  have etc := i2.2
  have etc' := j2.2
  subst etc etc'
  obtain ⟨recs, c1, l1, k1⟩ := individual_waves_spec (isVec_vec _) (isVec_vec t) (isVec_vec x) hlen ht0 (uniform_pairwise hu) i3
  obtain ⟨recs', c1', l1', k1'⟩ := individual_waves_spec (isVec_vec _) (isVec_vec t) (isVec_vec y) hlen' ht0 (uniform_pairwise hu) j3
  simp only [List.length_map] at l1 l1'
  have lw : w.hWave.length = recs.length := by rw [c1.1, List.length_map]
  have lw' : w'.hWave.length = recs'.length := by rw [c1'.1, List.length_map]
  refine ⟨s, s', w, w', i1, j1, by rw [i4]; exact i3, by rw [j4]; exact j3, i5, j5, by rw [i4, j4]; simp, ?_, ?_, ?_⟩
  · rw [i5, j5, lw, lw', l1, l1']
  · intro k hk
    rw [i4, List.length_map] at hk
    have hm : (crossIdx downCond x)[k] ∈ crossIdx downCond x := List.getElem_mem hk
    have hm' : (crossIdx downCond x)[k] ∈ crossIdx downCond y := by rw [noisy_crossIdx h]; exact hm
    obtain ⟨hl, -⟩ := mem_crossIdx.1 hm
    obtain ⟨-, hc⟩ := mem_crossIdx.1 hm'
    simp only [downCond, Bool.and_eq_true, decide_eq_true_eq] at hc
    refine ⟨(crossIdx downCond x)[k], hl, hc.1, hc.2, ?_⟩
    rw [i4, j4, List.getD_eq_getElem _ _ (by simpa using hk), List.getD_eq_getElem _ _ (by simpa using hk), List.getElem_map, List.getElem_map]
    exact crossTime_noise hu.1 h hm
  · intro k hk
    rw [lw] at hk
    have hk' : k < recs'.length := by rw [l1', ← l1]; exact hk
    obtain ⟨a, b, ea, eb, hW⟩ := k1 k _ (List.getElem?_eq_getElem hk)
    obtain ⟨a', b', ea', eb', hW'⟩ := k1' k _ (List.getElem?_eq_getElem hk')
    have hka : k < (crossIdx downCond x).length := by omega
    have hkb : k + 1 < (crossIdx downCond x).length := by omega
    rw [List.getElem?_map, List.getElem?_eq_getElem hka, Option.map_some, Option.some.injEq] at ea ea'
    rw [List.getElem?_map, List.getElem?_eq_getElem hkb, Option.map_some, Option.some.injEq] at eb eb'
    have m1 : (crossIdx downCond x)[k] ∈ crossIdx downCond x := List.getElem_mem hka
    have m2 : (crossIdx downCond x)[k + 1] ∈ crossIdx downCond x := List.getElem_mem hkb
    have hwin : ∀ j, InWave t a b j ↔ InWave t a' b' j := by
      intro j
      unfold InWave
      refine and_congr_right fun hj => ?_
      have w1 := (crossing_window hu hlen m1 hj).1
      have w2 := (crossing_window hu hlen m2 hj).2
      have m1' : (crossIdx downCond x)[k] ∈ crossIdx downCond y := by rw [noisy_crossIdx h]; exact m1
      have m2' : (crossIdx downCond x)[k + 1] ∈ crossIdx downCond y := by rw [noisy_crossIdx h]; exact m2
      have w1' := (crossing_window hu hlen' m1' hj).1
      have w2' := (crossing_window hu hlen' m2' hj).2
      have hz : x.getD (crossIdx downCond x)[k] 0 = 0 ↔ y.getD (crossIdx downCond x)[k] 0 = 0 := by
        have hl := (mem_crossIdx.1 (List.getElem_mem hka : (crossIdx downCond x)[k] ∈ _)).1
        rcases h.sign (crossIdx downCond x)[k] (by omega) with ⟨p, q⟩ | ⟨p, q⟩ | ⟨p, q⟩
        · exact ⟨fun e => absurd e p.ne', fun e => absurd e q.ne'⟩
        · exact ⟨fun e => absurd e p.ne, fun e => absurd e q.ne⟩
        · exact ⟨fun _ => q, fun _ => p⟩
      rw [← ea, ← eb, ← ea', ← eb', w1, w2, w1', w2']
      simp only [hz]
    have cr := (extreme_noise hlen h hwin).1 hW.crest hW'.crest
    have tr := (extreme_noise hlen h hwin).2 hW.trough hW'.trough
    have g : ∀ (f : WaveRec K → K), (recs.map f).getD k 0 = f recs[k] ∧ (recs'.map f).getD k 0 = f recs'[k] := by
      intro f
      constructor
      · rw [List.getD_eq_getElem _ _ (by simpa using hk), List.getElem_map]
      · rw [List.getD_eq_getElem _ _ (by simpa using hk'), List.getElem_map]
    rw [c1.2.2.1, c1'.2.2.1, c1.2.2.2.1, c1'.2.2.2.1, c1.1, c1'.1, (g _).1, (g _).2, (g _).1, (g _).2, (g _).1, (g _).2, hW.height, hW'.height]
    refine ⟨cr, tr, ?_⟩
    have p := abs_le.1 cr
    have q := abs_le.1 tr
    rw [abs_le]
    constructor <;> linarith

/-- **C116 (statistics).**  Such noise changes Hmax, the mean height of the highest fraction and the exceeded height by at most `2 ε`, whatever was
called before. -/
theorem statistics_noise [FloorRing K] (A A' : Argsort K) (ops ops' : List (WHOp K)) {t x y : List K} {dt ε : K} (h2 : 2 ≤ t.length)
    (hlen : t.length = x.length) (hu : UniformAxis t dt) (h : Noisy x y ε) {p q : K} (h0 : 0 ≤ p) (h1 : p ≤ 1) (q0 : 0 ≤ q) (q1 : q ≤ 100) :
    ∃ s s' : SeriesObj K, SeriesObj.init (vec t) (vec x) = .ok s ∧ SeriesObj.init (vec t) (vec y) = .ok s' ∧ s'.wh.nwave = s.wh.nwave ∧
      (0 < s.wh.nwave → ∃ m m' r r' e e',
        (s.wh.run A ops).getHmax.1 = .ok m ∧ (s'.wh.run A' ops').getHmax.1 = .ok m' ∧ |m - m'| ≤ 2 * ε ∧
        ((s.wh.run A ops).highestWaves A p).1 = .ok r ∧ ((s'.wh.run A' ops').highestWaves A' p).1 = .ok r' ∧ |r.1 - r'.1| ≤ 2 * ε ∧
        ((s.wh.run A ops).getExceedance A q).1 = .ok e ∧ ((s'.wh.run A' ops').getExceedance A' q).1 = .ok e' ∧ |e - e'| ≤ 2 * ε) := by
  have ht0 : t ≠ [] := by rintro rfl; simp at h2
  obtain ⟨s, s', w, w', i1, j1, i2, j2, i3, j3, -, hn, -, hh⟩ := waves_noise h2 hlen hu h
  refine ⟨s, s', i1, j1, hn, fun hpos => ?_⟩
  have hw0 : w.hWave ≠ [] := by
    rintro e
    rw [i3, e] at hpos
    simp at hpos
  have hl : w'.hWave.length = w.hWave.length := by rw [i3, j3] at hn; exact hn
  have cl : w.hWave.length = w.tWave.length := by
    obtain ⟨recs, c1, -, -⟩ := individual_waves_spec (isVec_vec _) (isVec_vec t) (isVec_vec x) hlen ht0 (uniform_pairwise hu) i2
    rw [c1.1, c1.2.1, List.length_map, List.length_map]
  have cl' : w'.hWave.length = w'.tWave.length := by
    obtain ⟨recs, c1, -, -⟩ := individual_waves_spec (isVec_vec _) (isVec_vec t) (isVec_vec y) (by rw [h.len]; exact hlen) ht0
      (uniform_pairwise hu) j2
    rw [c1.1, c1.2.1, List.length_map, List.length_map]
  obtain ⟨z, z', m, m', r, r', e, e', a1, a2, rest⟩ := heights_noise A A' ops ops' hw0 cl hl cl' (ε := 2 * ε)
    (fun i hi => (hh i hi).2.2) h0 h1 q0 q1
  rw [WH_init_vec] at a1 a2
  cases a1; cases a2
  rw [i3, j3]
  exact ⟨m, m', r, r', e, e', rest⟩

/-- Two waves with noise. -/
theorem noisy_nine : Noisy ([3, 1, -2, -1, 2, 1, -3, 4, -1] : List ℚ) [3 + 1 / 4, 1 / 2, -2, -1, 5 / 2, 1, -3, 7 / 2, -1 / 2] (1 / 2) := by
  have key : ∀ i < 9, |([3, 1, -2, -1, 2, 1, -3, 4, -1] : List ℚ).getD i 0 - ([3 + 1 / 4, 1 / 2, -2, -1, 5 / 2, 1, -3, 7 / 2, -1 / 2] : List ℚ).getD i 0| ≤ 1 / 2 ∧
    ((0 < ([3, 1, -2, -1, 2, 1, -3, 4, -1] : List ℚ).getD i 0 ∧ 0 < ([3 + 1 / 4, 1 / 2, -2, -1, 5 / 2, 1, -3, 7 / 2, -1 / 2] : List ℚ).getD i 0) ∨
      (([3, 1, -2, -1, 2, 1, -3, 4, -1] : List ℚ).getD i 0 < 0 ∧ ([3 + 1 / 4, 1 / 2, -2, -1, 5 / 2, 1, -3, 7 / 2, -1 / 2] : List ℚ).getD i 0 < 0) ∨
      (([3, 1, -2, -1, 2, 1, -3, 4, -1] : List ℚ).getD i 0 = 0 ∧ ([3 + 1 / 4, 1 / 2, -2, -1, 5 / 2, 1, -3, 7 / 2, -1 / 2] : List ℚ).getD i 0 = 0)) := by
    decide +kernel
  exact ⟨rfl, fun i hi => (key i hi).1, fun i hi => (key i hi).2⟩

/-! ## Concrete cases: the hypotheses of the theorems above are met -/

example := noisy_crossIdx noisy_nine
example := crossTime_noise (t := [0, 1, 2, 3, 4, 5, 6, 7, 8]) (dt := 1) (by norm_num) noisy_nine (i := 5) (by decide +kernel)
example := waves_noise (t := ([0, 1, 2, 3, 4, 5, 6, 7, 8] : List ℚ)) (x := [3, 1, -2, -1, 2, 1, -3, 4, -1]) (dt := 1) (by simp) rfl (uniformAxis_of_steps (by norm_num) (by decide +kernel)) noisy_nine
example := statistics_noise stableArgsort stableArgsort [.sort] [] (t := ([0, 1, 2, 3, 4, 5, 6, 7, 8] : List ℚ)) (x := [3, 1, -2, -1, 2, 1, -3, 4, -1]) (dt := 1) (by simp) rfl
  (uniformAxis_of_steps (by norm_num) (by decide +kernel)) noisy_nine (p := 1 / 2) (q := 50) (by norm_num) (by norm_num) (by norm_num) (by norm_num)

end Verif
