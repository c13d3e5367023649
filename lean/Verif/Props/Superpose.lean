import Verif.Props.Bands

/-! # C94: superposed sea states and larger spectra -/

set_option linter.unusedSectionVars false

namespace Verif
open Finset

section field
variable {K : Type} [Field K] [LinearOrder K] [IsStrictOrderedRing K]

/-- **C94 (moments grow with the densities).**  On a uniform axis of non-negative frequencies, if no density of the first spectrum exceeds that of
the second one, then every moment over every range is at most that of the second spectrum (both are defined, or neither is). -/
theorem moment_mono {pf p1 p2 : PyIn K} {f S1 S2 : List K} {h : K} {m : Int} {fmin : K} {fmax : FMax K} {v1 : K}
    (hf : pf.IsArr f) (h1 : p1.IsArr S1) (h2 : p2.IsArr S2) (hu : UniformAxis f h) (h0 : 0 ≤ f.getD 0 0)
    (hle : List.Forall₂ (· ≤ ·) S1 S2) (e1 : computeMoment pf p1 m fmin fmax = .ok v1) :
    ∃ v2, computeMoment pf p2 m fmin fmax = .ok v2 ∧ v1 ≤ v2 := by
  have hl := hle.length_eq
  cases e2 : computeMoment pf p2 m fmin fmax with
  | error e => rw [moment_raises_independent hf h2 h1 hl.symm e2] at e1; cases e1
  | ok v2 =>
    refine ⟨v2, rfl, ?_⟩
    have hd := moment_linear 1 (-1) hf h2 h1 (isArr_vec (specComb 1 (-1) S2 S1)) e2 e1
    have := moment_nonneg hf (isArr_vec _) hu h0 (fun s hs => ?_) hd
    · linarith
    · obtain ⟨k, hk, ek⟩ := List.getElem_of_mem hs
      unfold specComb at hk ek
      rw [List.length_zipWith] at hk
      rw [List.getElem_zipWith] at ek
      have := (List.forall₂_iff_get.1 hle).2 k (by omega) (by omega)
      simp only [List.get_eq_getElem] at this
      rw [← ek]; linarith

/-- **C94 (finding).**  Extending the band does not always add energy: for the densities 0, 1, 0, 0 at 1, 2, 3, 4 Hz the zeroth moment between 1 and
3 Hz exceeds the one between 1 and 4 Hz (Simpson's rule with an odd number of intervals). -/
theorem larger_band_less_energy :
    computeMoment (K := ℚ) (vec [1, 2, 3, 4]) (vec [0, 1, 0, 0]) 0 1 (.fin 3) = .ok (4 / 3) ∧
    computeMoment (K := ℚ) (vec [1, 2, 3, 4]) (vec [0, 1, 0, 0]) 0 1 (.fin 4) = .ok (5 / 4) := by
  constructor <;> decide +kernel

end field

/-- The moment of the superposed densities. -/
theorem moment_add {f S1 S2 : List ℝ} {m : Int} {fmin : ℝ} {fmax : FMax ℝ} {v1 v2 : ℝ}
    (e1 : computeMoment (vec f) (.nd ⟨[S1.length], S1⟩) m fmin fmax = .ok v1)
    (e2 : computeMoment (vec f) (.nd ⟨[S2.length], S2⟩) m fmin fmax = .ok v2) :
    computeMoment (vec f) (.nd ⟨[(List.zipWith (· + ·) S1 S2).length], List.zipWith (· + ·) S1 S2⟩) m fmin fmax = .ok (v1 + v2) := by
  have e : List.zipWith (· + ·) S1 S2 = specComb 1 1 S1 S2 := by
    unfold specComb; congr 1; funext a b; ring
  have := moment_linear 1 1 (isArr_vec f) (.nd S1) (.nd S2) (p := .nd ⟨[(specComb 1 1 S1 S2).length], specComb 1 1 S1 S2⟩) (.nd _) e1 e2
  rw [e, this]
  congr 1; ring

theorem divE_ok {a b c : ℝ} (h : divE a b = .ok c) : b ≠ 0 ∧ c = a / b := by
  unfold divE at h
  split_ifs at h with hb
  exact ⟨hb, (Except.ok.inj h).symm⟩

/-- A weighted mean lies between its terms. -/
theorem between_weighted {a b x y z : ℝ} (ha : 0 < a) (hb : 0 < b) (h : (a + b) * z = a * x + b * y) : min x y ≤ z ∧ z ≤ max x y := by
  have h1 := min_le_left x y
  have h2 := min_le_right x y
  have h3 := le_max_left x y
  have h4 := le_max_right x y
  constructor
  · by_contra hc; push Not at hc; nlinarith
  · by_contra hc; push Not at hc; nlinarith

/-- **C94 (superposition).**  For two spectra on the same axis and the spectrum whose densities are their sum, after any histories of calls and for every
range: the squares of the heights `Hm0` add up; `Tm-1,0` of the sum is the mean of the two periods weighted by the energies, `1 / Tm01` the so weighted
mean of the two `1 / Tm01`, and `1 / Tm02²` that of the two `1 / Tm02²`. -/
theorem superposition {pf p1 p2 p : PyIn ℝ} {f S1 S2 : List ℝ} (hf : pf.IsArr f) (h1 : p1.IsArr S1) (h2 : p2.IsArr S2)
    (h : p.IsArr (List.zipWith (· + ·) S1 S2)) {s1 s2 s : SpecObj} (hs1 : SpecObj.init pf p1 = .ok s1) (hs2 : SpecObj.init pf p2 = .ok s2)
    (hs : SpecObj.init pf p = .ok s) (hist1 hist2 hist : List SpecOp) {fmin : ℝ} {fmax : FMax ℝ} {H1 H2 : ℝ}
    (e1 : ((s1.after hist1).getHm0 fmin fmax).1 = .ok H1) (e2 : ((s2.after hist2).getHm0 fmin fmax).1 = .ok H2) :
    ∃ H, ((s.after hist).getHm0 fmin fmax).1 = .ok H ∧ H ^ 2 = H1 ^ 2 + H2 ^ 2 ∧
      (∀ T1 T2, ((s1.after hist1).getTmm10 fmin fmax).1 = .ok T1 → ((s2.after hist2).getTmm10 fmin fmax).1 = .ok T2 →
        ∃ T, ((s.after hist).getTmm10 fmin fmax).1 = .ok T ∧ H ^ 2 * T = H1 ^ 2 * T1 + H2 ^ 2 * T2 ∧ min T1 T2 ≤ T ∧ T ≤ max T1 T2) ∧
      (∀ T1 T2, ((s1.after hist1).getTm01 fmin fmax).1 = .ok T1 → ((s2.after hist2).getTm01 fmin fmax).1 = .ok T2 → 0 < T1 → 0 < T2 →
        ∃ T, ((s.after hist).getTm01 fmin fmax).1 = .ok T ∧ 0 < T ∧ H ^ 2 / T = H1 ^ 2 / T1 + H2 ^ 2 / T2 ∧
          min (1 / T1) (1 / T2) ≤ 1 / T ∧ 1 / T ≤ max (1 / T1) (1 / T2)) ∧
      (∀ T1 T2, ((s1.after hist1).getTm02 fmin fmax).1 = .ok T1 → ((s2.after hist2).getTm02 fmin fmax).1 = .ok T2 → 0 < T1 → 0 < T2 →
        ∃ T, ((s.after hist).getTm02 fmin fmax).1 = .ok T ∧ 0 < T ∧ H ^ 2 / T ^ 2 = H1 ^ 2 / T1 ^ 2 + H2 ^ 2 / T2 ^ 2 ∧
          min (1 / T1 ^ 2) (1 / T2 ^ 2) ≤ 1 / T ^ 2 ∧ 1 / T ^ 2 ≤ max (1 / T1 ^ 2) (1 / T2 ^ 2)) := by
  obtain ⟨d1, d1'⟩ := spectrum_after_data s1 hist1
  obtain ⟨d2, d2'⟩ := spectrum_after_data s2 hist2
  obtain ⟨d, d'⟩ := spectrum_after_data s hist
  obtain ⟨-, -, q1⟩ := (spectrum_init_iff_partial hf h1).1 hs1
  obtain ⟨-, -, q2⟩ := (spectrum_init_iff_partial hf h2).1 hs2
  obtain ⟨-, -, q⟩ := (spectrum_init_iff_partial hf h).1 hs
  replace d1 := d1.trans (congrArg SpecObj.f q1)
  replace d1' := d1'.trans (congrArg SpecObj.sVarDens q1)
  replace d2 := d2.trans (congrArg SpecObj.f q2)
  replace d2' := d2'.trans (congrArg SpecObj.sVarDens q2)
  replace d := d.trans (congrArg SpecObj.f q)
  replace d' := d'.trans (congrArg SpecObj.sVarDens q)
  dsimp only at d1 d1' d2 d2' d d'
  simp only [SpecObj.getHm0, SpecObj.getTmm10, SpecObj.getTm01, SpecObj.getTm02, d1, d1', d2, d2', d, d'] at e1 e2 ⊢
  rcases hlim : setFlim f fmin fmax with ⟨lo, hi⟩
  simp only [calcHm0, calcTmm10, calcTm01, calcTm02, hlim, bind_ok] at e1 e2 ⊢
  obtain ⟨a, ea, e1⟩ := e1
  obtain ⟨b, eb, e2⟩ := e2
  obtain ⟨pa, ha⟩ := height_sq e1
  obtain ⟨pb, hb⟩ := height_sq e2
  have eab := moment_add ea eb
  have hh : (4 * √(a + b)) ^ 2 = 16 * (a + b) := by rw [mul_pow, Real.sq_sqrt (by positivity)]; norm_num
  refine ⟨4 * √(a + b), ⟨_, eab, height_def (by positivity)⟩, by rw [hh, ha, hb]; ring, ?_, ?_, ?_⟩
  · rintro T1 T2 ⟨u, eu, a', ea', k1⟩ ⟨v, ev, b', eb', k2⟩
    rw [ea] at ea'; cases ea'
    rw [eb] at eb'; cases eb'
    obtain ⟨za, rfl⟩ := divE_ok k1
    obtain ⟨zb, rfl⟩ := divE_ok k2
    have pa : 0 < a := lt_of_le_of_ne pa (Ne.symm za)
    have pb : 0 < b := lt_of_le_of_ne pb (Ne.symm zb)
    have hz : a + b ≠ 0 := by positivity
    refine ⟨(u + v) / (a + b), ⟨_, moment_add eu ev, _, eab, by unfold divE; rw [if_neg hz]⟩, ?_, ?_⟩
    · rw [hh, ha, hb]; field_simp
    · exact between_weighted pa pb (by field_simp)
  · rintro T1 T2 ⟨a', ea', u, eu, k1⟩ ⟨b', eb', v, ev, k2⟩ t1 t2
    rw [ea] at ea'; cases ea'
    rw [eb] at eb'; cases eb'
    obtain ⟨zu, rfl⟩ := divE_ok k1
    obtain ⟨zv, rfl⟩ := divE_ok k2
    have pu : 0 < a ∧ 0 < u := by
      rcases div_pos_iff.1 t1 with h | h
      · exact h
      · exact absurd h.1 (not_lt.2 pa)
    have pv : 0 < b ∧ 0 < v := by
      rcases div_pos_iff.1 t2 with h | h
      · exact h
      · exact absurd h.1 (not_lt.2 pb)
    obtain ⟨pa, pu⟩ := pu
    obtain ⟨pb, pv⟩ := pv
    refine ⟨(a + b) / (u + v), ⟨_, eab, _, moment_add eu ev, by unfold divE; rw [if_neg (by positivity)]⟩, by positivity, ?_, ?_⟩
    · rw [hh, ha, hb]; field_simp
    · refine between_weighted pa pb ?_
      field_simp
  · rintro T1 T2 ⟨a', ea', u, eu, w1, k1, g1⟩ ⟨b', eb', v, ev, w2, k2, g2⟩ t1 t2
    rw [ea] at ea'; cases ea'
    rw [eb] at eb'; cases eb'
    obtain ⟨zu, rfl⟩ := divE_ok k1
    obtain ⟨zv, rfl⟩ := divE_ok k2
    unfold sqrtE at g1 g2
    split_ifs at g1 g2 with n1 n2
    have g1 := Except.ok.inj g1
    have g2 := Except.ok.inj g2
    have r1 : T1 ^ 2 = a / u := by rw [← g1, Real.sq_sqrt (not_lt.1 n1)]
    have r2 : T2 ^ 2 = b / v := by rw [← g2, Real.sq_sqrt (not_lt.1 n2)]
    have pu : 0 < a ∧ 0 < u := by
      have : 0 < a / u := by rw [← r1]; positivity
      rcases div_pos_iff.1 this with h | h
      · exact h
      · exact absurd h.1 (not_lt.2 pa)
    have pv : 0 < b ∧ 0 < v := by
      have : 0 < b / v := by rw [← r2]; positivity
      rcases div_pos_iff.1 this with h | h
      · exact h
      · exact absurd h.1 (not_lt.2 pb)
    obtain ⟨pa, pu⟩ := pu
    obtain ⟨pb, pv⟩ := pv
    have r : √((a + b) / (u + v)) ^ 2 = (a + b) / (u + v) := Real.sq_sqrt (by positivity)
    refine ⟨√((a + b) / (u + v)), ⟨_, eab, _, moment_add eu ev, _, by unfold divE; rw [if_neg (by positivity)], ?_⟩, by positivity, ?_, ?_⟩
    · unfold sqrtE; rw [if_neg (not_lt.2 (by positivity))]
    · rw [hh, ha, hb, r, r1, r2]; field_simp
    · rw [r, r1, r2]
      refine between_weighted pa pb ?_
      field_simp

/-- **C94 (larger densities).**  On a uniform axis of non-negative frequencies a spectrum that nowhere exceeds another one has, over every range and after
any histories, at most its height. -/
theorem height_mono {pf p1 p2 : PyIn ℝ} {f S1 S2 : List ℝ} {h : ℝ} (hf : pf.IsArr f) (h1 : p1.IsArr S1) (h2 : p2.IsArr S2)
    (hu : UniformAxis f h) (h0 : 0 ≤ f.getD 0 0) (hle : List.Forall₂ (· ≤ ·) S1 S2) {s1 s2 : SpecObj} (hs1 : SpecObj.init pf p1 = .ok s1)
    (hs2 : SpecObj.init pf p2 = .ok s2) (hist1 hist2 : List SpecOp) {fmin : ℝ} {fmax : FMax ℝ} {H1 : ℝ}
    (e1 : ((s1.after hist1).getHm0 fmin fmax).1 = .ok H1) : ∃ H2, ((s2.after hist2).getHm0 fmin fmax).1 = .ok H2 ∧ H1 ≤ H2 := by
  obtain ⟨d1, d1'⟩ := spectrum_after_data s1 hist1
  obtain ⟨d2, d2'⟩ := spectrum_after_data s2 hist2
  obtain ⟨-, -, q1⟩ := (spectrum_init_iff_partial hf h1).1 hs1
  obtain ⟨-, -, q2⟩ := (spectrum_init_iff_partial hf h2).1 hs2
  replace d1 := d1.trans (congrArg SpecObj.f q1)
  replace d1' := d1'.trans (congrArg SpecObj.sVarDens q1)
  replace d2 := d2.trans (congrArg SpecObj.f q2)
  replace d2' := d2'.trans (congrArg SpecObj.sVarDens q2)
  dsimp only at d1 d1' d2 d2'
  simp only [SpecObj.getHm0, d1, d1', d2, d2'] at e1 ⊢
  rcases hlim : setFlim f fmin fmax with ⟨lo, hi⟩
  simp only [calcHm0, hlim, bind_ok] at e1 ⊢
  obtain ⟨a, ea, e1⟩ := e1
  obtain ⟨pa, -⟩ := height_sq e1
  rw [height_def pa] at e1
  obtain ⟨b, eb, hab⟩ := moment_mono (isArr_vec f) (.nd S1) (.nd S2) (p2 := .nd ⟨[S2.length], S2⟩) hu h0 hle ea
  refine ⟨4 * √b, ⟨b, eb, height_def (pa.trans hab)⟩, ?_⟩
  rw [← Except.ok.inj e1]
  exact mul_le_mul_of_nonneg_left (Real.sqrt_le_sqrt hab) (by norm_num)

/-- Non-vacuity: the triangular spectrum superposed on itself has twice its energy and the same mean period; and it has the larger height. -/
example : ∃ s H, SpecObj.init (vec [1, 2, 3]) (vec [2, 4, 2]) = .ok s ∧ (s.getHm0 (-1) (.fin (-1))).1 = .ok H ∧ H ^ 2 = 320 / 3 ∧
    (s.getTmm10 (-1) (.fin (-1))).1 = .ok (8 / 15) ∧ 4 * √(10 / 3) ≤ H := by
  obtain ⟨s1, hs1⟩ := tri_init
  have h := getters_agree_with_params (isArr_vec [1, 2, 3]) (isArr_vec [1, 2, 1]) hs1 tri_params (by simp)
  have val : ∀ {r : Except PyErr ℝ} {v : ℝ}, valE r = .ok (some v) → r = .ok v := by
    intro r v h
    rcases r with e | w
    · cases e <;> cases h
    · cases h; rfl
  have hu : UniformAxis ([1, 2, 3] : List ℝ) 1 := by
    refine ⟨by norm_num, ?_⟩
    intro i hi
    simp only [List.length_cons, List.length_nil] at hi
    have : i = 0 ∨ i = 1 := by omega
    rcases this with rfl | rfl <;> norm_num
  have hz : ([2, 4, 2] : List ℝ) = List.zipWith (· + ·) [1, 2, 1] [1, 2, 1] := by norm_num
  obtain ⟨s, hs⟩ : ∃ s, SpecObj.init (vec [1, 2, 3]) (vec [2, 4, 2]) = .ok s := ⟨_, (spectrum_init_iff_partial (isArr_vec [1, 2, 3]) (isArr_vec [2, 4, 2])).2
    ⟨by norm_num [monotonicIncreasingConstantStep, diff, stepTol], rfl, rfl⟩⟩
  obtain ⟨H, e1, e2, e3, -⟩ := superposition (isArr_vec [1, 2, 3]) (isArr_vec [1, 2, 1]) (isArr_vec [1, 2, 1]) (p := vec [2, 4, 2])
    (by rw [hz]; exact isArr_vec _) hs1 hs1 hs [] [] [] (val h.1) (val h.1)
  obtain ⟨T, t1, -, t2, t3⟩ := e3 _ _ (val h.2.2.2.1) (val h.2.2.2.1)
  rw [min_self] at t2
  rw [max_self] at t3
  obtain ⟨H', g1, g2⟩ := height_mono (isArr_vec [1, 2, 3]) (isArr_vec [1, 2, 1]) (isArr_vec [2, 4, 2]) hu (by norm_num)
    (.cons (by norm_num) (.cons (by norm_num) (.cons (by norm_num) .nil))) hs1 hs [] [] (val h.1)
  have : H' = H := Except.ok.inj (g1.symm.trans e1)
  refine ⟨s, H, hs, e1, ?_, ?_, this ▸ g2⟩
  · rw [e2, mul_pow, Real.sq_sqrt (by norm_num)]; norm_num
  · rw [← le_antisymm t3 t2]; exact t1

/-! ## Concrete cases: the hypotheses of the theorems above are met -/

example := moment_mono (f := ([1, 2, 3, 4] : List ℚ)) (S1 := [0, 1, 2, 1]) (S2 := [1, 1, 3, 1]) (h := 1) (m := -1) (fmin := 1) (fmax := .fin 3) (v1 := 8 / 9)
  (isArr_vec _) (isArr_vec _) (isArr_vec _) (uniformAxis_of_steps (by norm_num) (by decide +kernel)) (by norm_num)
  (.cons (by norm_num) (.cons (by norm_num) (.cons (by norm_num) (.cons (by norm_num) .nil)))) (by decide +kernel)

end Verif
