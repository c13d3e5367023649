import Verif.Props.TpsWave
import Verif.Props.JonswapLaws
import Mathlib.Analysis.Calculus.MeanValue

/-! # C168: how close `get_Tp` and `get_Tps` come to the peak of the density that was sampled -/

set_option linter.unusedSectionVars false

namespace Verif

/-- The vertex of the parabola through `(x - h, y0)`, `(x, y1)`, `(x + h, y2)`. -/
noncomputable def parabolaVertex (x h y0 y1 y2 : ℝ) : ℝ := x + h * (y2 - y0) / (2 * (2 * y1 - y0 - y2))

/-- **C168 (smoothing).**  If `G` has a stationary point `F0` between `x - h` and `x + h`, where its second derivative is at most `-m < 0` and its third
derivative at most `M` in absolute value, then the vertex of the parabola through three samples is within `4 M h² / m` of it. -/
theorem parabola_vertex_close {G G1 G2 G3 : ℝ → ℝ} {x h F0 m M : ℝ} (hh : 0 < h) (hm : 0 < m)
    (h1 : ∀ u ∈ Set.Icc (x - h) (x + h), HasDerivAt G (G1 u) u) (h2 : ∀ u ∈ Set.Icc (x - h) (x + h), HasDerivAt G1 (G2 u) u)
    (h3 : ∀ u ∈ Set.Icc (x - h) (x + h), HasDerivAt G2 (G3 u) u) (hc : ∀ u ∈ Set.Icc (x - h) (x + h), G2 u ≤ -m)
    (hM : ∀ u ∈ Set.Icc (x - h) (x + h), |G3 u| ≤ M) (hF : F0 ∈ Set.Icc (x - h) (x + h)) (h0 : G1 F0 = 0) :
    |parabolaVertex x h (G (x - h)) (G x) (G (x + h)) - F0| ≤ 4 * M * h ^ 2 / m := by
  set a := (G (x - h) - 2 * G x + G (x + h)) / (2 * h ^ 2) with ha
  set b := (G (x + h) - G (x - h)) / (2 * h) with hb
  set e : ℝ → ℝ := fun u => G u - (G x + b * (u - x) + a * (u - x) ^ 2) with he
  set e1 : ℝ → ℝ := fun u => G1 u - (b + 2 * a * (u - x)) with he1
  set e2 : ℝ → ℝ := fun u => G2 u - 2 * a with he2
  have d1 : ∀ u ∈ Set.Icc (x - h) (x + h), HasDerivAt e (e1 u) u := by
    intro u hu
    have p : HasDerivAt (fun u : ℝ => G x + b * (u - x) + a * (u - x) ^ 2) (b + 2 * a * (u - x)) u := by
      have q := (hasDerivAt_id u).sub_const x
      have := ((hasDerivAt_const u (G x)).add (q.const_mul b)).add ((q.pow 2).const_mul a)
      refine this.congr_deriv ?_
      simp; ring
    exact (h1 u hu).sub p
  have d2 : ∀ u ∈ Set.Icc (x - h) (x + h), HasDerivAt e1 (e2 u) u := by
    intro u hu
    have p : HasDerivAt (fun u : ℝ => b + 2 * a * (u - x)) (2 * a) u := by
      have q := (hasDerivAt_id u).sub_const x
      have := (hasDerivAt_const u b).add (q.const_mul (2 * a))
      refine this.congr_deriv ?_
      simp
    exact (h2 u hu).sub p
  have z0 : e (x - h) = 0 := by
    simp only [he, ha, hb]; field_simp; ring
  have z1 : e x = 0 := by simp [he]
  have z2 : e (x + h) = 0 := by
    simp only [he, ha, hb]; field_simp; ring
  have sub1 : Set.Icc (x - h) x ⊆ Set.Icc (x - h) (x + h) := Set.Icc_subset_Icc le_rfl (by linarith)
  have sub2 : Set.Icc x (x + h) ⊆ Set.Icc (x - h) (x + h) := Set.Icc_subset_Icc (by linarith) le_rfl
  obtain ⟨ξ1, i1, q1⟩ := exists_hasDerivAt_eq_zero (f := e) (f' := e1) (show x - h < x by linarith)
    (fun u hu => (d1 u (sub1 hu)).continuousAt.continuousWithinAt) (z0.trans z1.symm) (fun u hu => d1 u (sub1 (Set.Ioo_subset_Icc_self hu)))
  obtain ⟨ξ2, i2, q2⟩ := exists_hasDerivAt_eq_zero (f := e) (f' := e1) (show x < x + h by linarith)
    (fun u hu => (d1 u (sub2 hu)).continuousAt.continuousWithinAt) (z1.trans z2.symm) (fun u hu => d1 u (sub2 (Set.Ioo_subset_Icc_self hu)))
  have sub3 : Set.Icc ξ1 ξ2 ⊆ Set.Icc (x - h) (x + h) := Set.Icc_subset_Icc i1.1.le i2.2.le
  obtain ⟨η, i3, q3⟩ := exists_hasDerivAt_eq_zero (f := e1) (f' := e2) (show ξ1 < ξ2 by linarith [i1.2, i2.1])
    (fun u hu => (d2 u (sub3 hu)).continuousAt.continuousWithinAt) (q1.trans q2.symm) (fun u hu => d2 u (sub3 (Set.Ioo_subset_Icc_self hu)))
  have hη : η ∈ Set.Icc (x - h) (x + h) := sub3 (Set.Ioo_subset_Icc_self i3)
  have h2a : G2 η = 2 * a := by have : G2 η - 2 * a = 0 := q3; linarith
  have hneg : 2 * a ≤ -m := h2a ▸ hc η hη
  have hM0 : 0 ≤ M := (abs_nonneg _).trans (hM η hη)
  have b2 : ∀ u ∈ Set.Icc (x - h) (x + h), |e2 u| ≤ M * (2 * h) := by
    intro u hu
    have := Convex.norm_image_sub_le_of_norm_hasDerivWithin_le (f := G2) (f' := G3) (s := Set.Icc (x - h) (x + h)) (C := M)
      (fun v hv => (h3 v hv).hasDerivWithinAt) (fun v hv => hM v hv) (convex_Icc _ _) hη hu
    rw [Real.norm_eq_abs, Real.norm_eq_abs] at this
    have hd : |u - η| ≤ 2 * h := by rw [abs_le]; constructor <;> linarith [hu.1, hu.2, hη.1, hη.2]
    calc |e2 u| = |G2 u - G2 η| := by rw [h2a]
      _ ≤ M * |u - η| := this
      _ ≤ M * (2 * h) := mul_le_mul_of_nonneg_left hd hM0
  have b1 : |e1 F0| ≤ M * (2 * h) * (2 * h) := by
    have hξ : ξ1 ∈ Set.Icc (x - h) (x + h) := sub1 (Set.Ioo_subset_Icc_self i1)
    have := Convex.norm_image_sub_le_of_norm_hasDerivWithin_le (f := e1) (f' := e2) (s := Set.Icc (x - h) (x + h)) (C := M * (2 * h))
      (fun v hv => (d2 v hv).hasDerivWithinAt) (fun v hv => b2 v hv) (convex_Icc _ _) hξ hF
    rw [Real.norm_eq_abs, Real.norm_eq_abs, q1, sub_zero] at this
    have hd : |F0 - ξ1| ≤ 2 * h := by rw [abs_le]; constructor <;> linarith [hF.1, hF.2, hξ.1, hξ.2]
    exact this.trans (mul_le_mul_of_nonneg_left hd (by positivity))
  have hy : 2 * h ^ 2 * a = G (x - h) - 2 * G x + G (x + h) := by rw [ha]; field_simp
  have hy' : 2 * h * b = G (x + h) - G (x - h) := by rw [hb]; field_simp
  have hane : a ≠ 0 := by intro h; rw [h] at hneg; linarith
  have hV : parabolaVertex x h (G (x - h)) (G x) (G (x + h)) = x - b / (2 * a) := by
    unfold parabolaVertex
    rw [← hy', show 2 * G x - G (x - h) - G (x + h) = -(2 * h ^ 2 * a) by rw [hy]; ring]
    field_simp
    ring
  have key : (parabolaVertex x h (G (x - h)) (G x) (G (x + h)) - F0) * (2 * a) = e1 F0 := by
    rw [hV]
    simp only [he1, h0]
    field_simp
    ring
  have : |parabolaVertex x h (G (x - h)) (G x) (G (x + h)) - F0| * m ≤ M * (2 * h) * (2 * h) := by
    calc _ ≤ |parabolaVertex x h (G (x - h)) (G x) (G (x + h)) - F0| * |2 * a| :=
          mul_le_mul_of_nonneg_left (by rw [abs_of_neg (by linarith)]; linarith) (abs_nonneg _)
      _ = |e1 F0| := by rw [← abs_mul, key]
      _ ≤ _ := b1
  rw [le_div_iff₀ hm]
  linarith [this, show M * (2 * h) * (2 * h) = 4 * M * h ^ 2 by ring]

/-- The densities rise up to the frequency `F0` and fall beyond it. -/
structure RisesThenFalls (f S : List ℝ) (F0 : ℝ) : Prop where
  up : ∀ k, k + 1 < f.length → f.getD (k + 1) 0 ≤ F0 → S.getD k 0 < S.getD (k + 1) 0
  down : ∀ k, k + 1 < f.length → F0 ≤ f.getD k 0 → S.getD (k + 1) 0 < S.getD k 0

theorem RisesThenFalls.up_lt {f S : List ℝ} {F0 : ℝ} (hr : RisesThenFalls f S F0) (hp : f.Pairwise (· < ·)) {k l : Nat} (hkl : k < l) (hl : l < f.length)
    (hF : f.getD l 0 ≤ F0) : S.getD k 0 < S.getD l 0 := by
  induction l, hkl using Nat.le_induction with
  | base => exact hr.up k hl hF
  | succ l hkl ih =>
    have := inc_lt hp (Nat.lt_succ_self l) hl
    exact (ih (by omega) (this.le.trans hF)).trans (hr.up l hl hF)

theorem RisesThenFalls.down_lt {f S : List ℝ} {F0 : ℝ} (hr : RisesThenFalls f S F0) (hp : f.Pairwise (· < ·)) {k l : Nat} (hkl : k < l) (hl : l < f.length)
    (hF : F0 ≤ f.getD k 0) : S.getD l 0 < S.getD k 0 := by
  induction l, hkl using Nat.le_induction with
  | base => exact hr.down k hl hF
  | succ l hkl ih =>
    have := inc_lt hp (show k < l by omega) (by omega)
    exact (hr.down l hl (hF.trans this.le)).trans (ih (by omega))

theorem exists_below {f : List ℝ} {F0 : ℝ} (hp : f.Pairwise (· < ·)) (h2 : 2 ≤ f.length) (hlo : f.getD 1 0 ≤ F0)
    (hhi : F0 ≤ f.getD (f.length - 2) 0) :
    ∃ j, 1 ≤ j ∧ j + 1 < f.length ∧ f.getD j 0 ≤ F0 ∧ F0 < f.getD (j + 1) 0 ∧ (j + 2 = f.length → F0 = f.getD j 0) := by
  have h3 : 1 ≤ f.length - 2 := by
    by_contra hc
    have e : f.length - 2 = 0 := by omega
    rw [e] at hhi
    have := inc_lt hp (show 0 < 1 by omega) (by omega)
    linarith
  have main : ∀ n, 1 ≤ n → n ≤ f.length - 2 → F0 ≤ f.getD n 0 →
      ∃ j, 1 ≤ j ∧ j ≤ n ∧ f.getD j 0 ≤ F0 ∧ F0 < f.getD (j + 1) 0 ∧ (j = n → F0 = f.getD j 0) := by
    intro n h1 hn hF
    induction n, h1 using Nat.le_induction with
    | base => exact ⟨1, le_rfl, le_rfl, hlo, lt_of_le_of_lt hF (inc_lt hp (by omega) (by omega)), fun _ => le_antisymm hF hlo⟩
    | succ n h1 ih =>
      by_cases hc : F0 ≤ f.getD n 0
      · obtain ⟨j, a, b, c, d, _⟩ := ih (by omega) hc
        exact ⟨j, a, by omega, c, d, fun e => by omega⟩
      · rcases hF.lt_or_eq with h | h
        · exact ⟨n, h1, by omega, (not_le.1 hc).le, h, fun e => by omega⟩
        · exact ⟨n + 1, by omega, le_rfl, h.ge, h ▸ inc_lt hp (by omega) (by omega), fun _ => h⟩
  obtain ⟨j, a, b, c, d, e⟩ := main _ h3 le_rfl hhi
  exact ⟨j, a, by omega, c, d, fun e' => e (by omega)⟩

/-- **C168.**  A spectrum on an equidistant axis whose densities rise up to a frequency `F0` (not beyond the last but one grid point on either
side) and fall beyond it: `get_Tp()` is the inverse of a grid frequency less than one step from `F0`, and `get_Tps()` that of a frequency less than
one and a half steps from it: the vertex of the parabola through three successive grid points that enclose `F0`. -/
theorem peak_of_samples {pf pS : PyIn ℝ} {f S : List ℝ} {h F0 : ℝ} (hf : pf.IsArr f) (hS : pS.IsArr S) (hu : UniformAxis f h) (h0 : 0 ≤ f.getD 0 0)
    {s : SpecObj} (hs : SpecObj.init pf pS = .ok s) (hr : RisesThenFalls f S F0) (hlo : f.getD 1 0 ≤ F0) (hhi : F0 ≤ f.getD (f.length - 2) 0)
    (hbig : ∃ v ∈ S, 1 / 10 ^ 10 ≤ v) :
    ∃ Fp F i, (s.getTp (-1) (.fin (-1))).1 = .ok (1 / Fp) ∧ (s.getTps (-1) (.fin (-1))).1 = .ok (1 / F) ∧ |Fp - F0| < h ∧ 0 < F ∧ |F - F0| < 3 / 2 * h ∧
      0 < i ∧ i + 1 < f.length ∧ f.getD (i - 1) 0 < F0 ∧ F0 < f.getD (i + 1) 0 ∧
      F = parabolaVertex (f.getD i 0) h (S.getD (i - 1) 0) (S.getD i 0) (S.getD (i + 1) 0) := by
  obtain ⟨hmono, hl, -⟩ := (spectrum_init_iff_partial hf hS).1 hs
  have hp := uniform_check_increasing hmono
  have h2 := mono_two_le hmono
  have hh := hu.1
  obtain ⟨j, j1, j2, j3, j4, j5⟩ := exists_below hp h2 hlo hhi
  have hs1 : f.getD (j + 1) 0 = f.getD j 0 + h := hu.2 j j2
  have hs0 : f.getD j 0 = f.getD (j - 1) 0 + h := by
    have := hu.2 (j - 1) (by omega)
    rwa [Nat.sub_add_cancel j1] at this
  have hleft : ∀ k < j, S.getD k 0 < S.getD j 0 := fun k hk => hr.up_lt hp hk (by omega) j3
  have hright : ∀ k, j + 1 < k → k < f.length → S.getD k 0 < S.getD (j + 1) 0 := fun k hk hk' => hr.down_lt hp hk hk' j4.le
  have hbig' : ∀ i, (∀ k < S.length, S.getD k 0 ≤ S.getD i 0) → 1 / 10 ^ 10 ≤ S.getD i 0 := by
    intro i hi
    obtain ⟨v, hv, hb⟩ := hbig
    obtain ⟨k, hk, rfl⟩ := List.getElem_of_mem hv
    have := hi k hk
    rw [List.getD_eq_getElem _ _ hk] at this
    exact hb.trans this
  -- a single largest density
  have single : ∀ i, 0 < i → i + 1 < f.length → IsOnlyMaxAt S i → |f.getD i 0 - F0| < h → f.getD (i - 1) 0 < F0 → F0 < f.getD (i + 1) 0 →
      ∃ Fp F i, (s.getTp (-1) (.fin (-1))).1 = .ok (1 / Fp) ∧ (s.getTps (-1) (.fin (-1))).1 = .ok (1 / F) ∧ |Fp - F0| < h ∧ 0 < F ∧ |F - F0| < 3 / 2 * h ∧
      0 < i ∧ i + 1 < f.length ∧ f.getD (i - 1) 0 < F0 ∧ F0 < f.getD (i + 1) 0 ∧
      F = parabolaVertex (f.getD i 0) h (S.getD (i - 1) 0) (S.getD i 0) (S.getD (i + 1) 0) := by
    intro i hi hi' hm hd ha hb
    have hb' := hbig' i (fun k hk => by
      by_cases e : k = i
      · rw [e]
      · exact (hm.2 k hk e).le)
    obtain ⟨F, e1, e2, -, -⟩ := tps_side hf hS hu h0 hm hi hi' hb' hs
    obtain ⟨F', g1, g2, g3, g4⟩ := tps_interior (isArr_vec f) (isArr_vec S) hl hu h0 hm hi hi' hb'
    refine ⟨f.getD i 0, F', i, e1, (getTps_default hf hS hs).trans g1, hd, g2, ?_, hi, hi', ha, hb, g4⟩
    have := abs_sub_le F' (f.getD i 0) F0
    linarith
  rcases lt_trichotomy (S.getD j 0) (S.getD (j + 1) 0) with hc | hc | hc
  · have hj : j + 2 ≠ f.length := by
      intro e
      have := hr.down j j2 (j5 e).le
      linarith
    have hs2 : f.getD (j + 1 + 1) 0 = f.getD (j + 1) 0 + h := hu.2 (j + 1) (by omega)
    have hne : f.getD j 0 < F0 := by
      rcases j3.lt_or_eq with h | h
      · exact h
      · have := hr.down j j2 h.ge; linarith
    refine single (j + 1) (by omega) (by omega) ⟨by omega, fun k hk hne => ?_⟩ ?_ (by simpa using hne) (by linarith)
    · rcases lt_trichotomy k j with h | h | h
      · exact (hleft k h).trans hc
      · rw [h]; exact hc
      · exact hright k (by omega) (by omega)
    · rw [abs_of_pos (by linarith)]; linarith
  · have hj : j + 2 ≠ f.length := by
      intro e
      have := hr.down j j2 (j5 e).le
      linarith
    have hm : IsTwinMaxAt S j := ⟨by omega, hc.symm, fun k hk h1 h2 => by
      rcases lt_trichotomy k j with h | h | h
      · exact hleft k h
      · exact absurd h h1
      · rw [hc]; exact hright k (by omega) (by omega)⟩
    have hb' := hbig' j (fun k hk => by
      by_cases e : k = j
      · rw [e]
      · by_cases e' : k = j + 1
        · rw [e', hc]
        · exact (hm.2.2 k hk e e').le)
    have hne : f.getD j 0 < F0 := by
      rcases j3.lt_or_eq with h | h
      · exact h
      · have := hr.down j j2 h.ge; linarith
    have hf0 : 0 ≤ f.getD (j - 1) 0 := h0.trans (inc_le hp (Nat.zero_le _) (by omega))
    obtain ⟨t1, t2⟩ := tps_twin (isArr_vec f) (isArr_vec S) hl hu h0 hm hb'
    refine ⟨f.getD (j + 1) 0, _, j, ?_, (getTps_default hf hS hs).trans t1, ?_, t2, ?_, by omega, by omega, ?_, j4, ?_⟩
    · refine get_Tp_complete hf hS hs ⟨j + 1, ⟨by omega, Or.inl rfl, Or.inl rfl⟩, by linarith, rfl, fun l hlr => ?_⟩
      have hll : l < f.length := hlr.1
      rcases lt_trichotomy l (j + 1) with h | h | h
      · refine ⟨?_, fun h' => by omega⟩
        rw [← hc]
        rcases Nat.lt_succ_iff_lt_or_eq.1 h with h | h
        · exact (hleft l h).le
        · rw [h]
      · rw [h]; exact ⟨le_rfl, fun h' => absurd h' (lt_irrefl _)⟩
      · have := hright l h hll; exact ⟨this.le, fun _ => this⟩
    · rw [abs_of_pos (by linarith)]; linarith
    · rw [hs1, abs_lt]; constructor <;> linarith
    · linarith
    · unfold parabolaVertex
      have := hleft (j - 1) (by omega)
      have hne : S.getD j 0 - S.getD (j - 1) 0 ≠ 0 := (sub_pos.2 this).ne'
      rw [← hc, hs1, show 2 * S.getD j 0 - S.getD (j - 1) 0 - S.getD j 0 = S.getD j 0 - S.getD (j - 1) 0 by ring]
      field_simp
      ring
  · refine single j j1 j2 ⟨by omega, fun k hk hne => ?_⟩ ?_ (by linarith) j4
    · rcases lt_trichotomy k j with h | h | h
      · exact hleft k h
      · exact absurd h hne
      · rcases Nat.lt_or_eq_of_le (show j + 1 ≤ k from h) with h | h
        · exact (hright k h (by omega)).trans hc
        · rw [← h]; exact hc
    · rw [abs_lt]; constructor <;> linarith

/-- **C168 (peak period).**  Without a condition on the size of the densities: `get_Tp()` is the inverse of a grid frequency less than one step from
`F0`. -/
theorem peak_of_samples_tp {pf pS : PyIn ℝ} {f S : List ℝ} {h F0 : ℝ} (hf : pf.IsArr f) (hS : pS.IsArr S) (hu : UniformAxis f h) (h0 : 0 ≤ f.getD 0 0)
    {s : SpecObj} (hs : SpecObj.init pf pS = .ok s) (hr : RisesThenFalls f S F0) (hlo : f.getD 1 0 ≤ F0) (hhi : F0 ≤ f.getD (f.length - 2) 0) :
    ∃ Fp, (s.getTp (-1) (.fin (-1))).1 = .ok (1 / Fp) ∧ |Fp - F0| < h := by
  obtain ⟨hmono, hl, -⟩ := (spectrum_init_iff_partial hf hS).1 hs
  have hp := uniform_check_increasing hmono
  have h2 := mono_two_le hmono
  have hh := hu.1
  obtain ⟨m, hm⟩ := exists_isMaxAt (S := S) (by intro e; rw [e] at hl; simp at hl; rw [hl] at h2; simp at h2)
  have hmax : ∀ k < f.length, S.getD k 0 ≤ S.getD m 0 := fun k hk =>
    hm.2 _ (by rw [List.getD_eq_getElem _ _ (by omega)]; exact List.getElem_mem _)
  have hP : (fun k => k < f.length ∧ S.getD k 0 = S.getD m 0) m := ⟨by have := hm.1; omega, rfl⟩
  classical
  set k := Nat.findGreatest (fun k => k < f.length ∧ S.getD k 0 = S.getD m 0) f.length with hk
  have hPk : k < f.length ∧ S.getD k 0 = S.getD m 0 :=
    Nat.findGreatest_spec (P := fun k => k < f.length ∧ S.getD k 0 = S.getD m 0) (le_of_lt hP.1) hP
  have hgt : ∀ l, k < l → l < f.length → S.getD l 0 < S.getD k 0 := by
    intro l hkl hll
    have := Nat.findGreatest_is_greatest (P := fun k => k < f.length ∧ S.getD k 0 = S.getD m 0) hkl hll.le
    rcases (hmax l hll).lt_or_eq with h | h
    · rw [hPk.2]; exact h
    · exact absurd ⟨hll, h⟩ this
  have hk1 : 1 ≤ k := by
    by_contra hc
    have e : k = 0 := by omega
    have := hr.up 0 (by omega) hlo
    rw [e] at hPk
    have := hmax 1 (by omega)
    rw [← hPk.2] at this
    simp only [Nat.zero_add] at *
    linarith
  have hpos : 0 < f.getD k 0 := lt_of_le_of_lt h0 (inc_lt hp (by omega) hPk.1)
  refine ⟨f.getD k 0, get_Tp_complete hf hS hs ⟨k, ⟨hPk.1, Or.inl rfl, Or.inl rfl⟩, hpos.ne', rfl, fun l hlr => ?_⟩, ?_⟩
  · exact ⟨by rw [hPk.2]; exact hmax l hlr.1, fun h => hgt l h hlr.1⟩
  · have hs0 : f.getD k 0 = f.getD (k - 1) 0 + h := by
      have := hu.2 (k - 1) (by omega)
      rwa [Nat.sub_add_cancel hk1] at this
    rw [abs_lt]
    constructor
    · by_contra hc
      have hk2 : k + 1 < f.length := by
        by_contra hc'
        have e : k = f.length - 1 := by omega
        have := inc_lt hp (show f.length - 2 < k by omega) hPk.1
        linarith
      have hs1 := hu.2 k hk2
      have := hr.up k hk2 (by linarith)
      have := hgt (k + 1) (by omega) hk2
      linarith
    · by_contra hc
      have := hr.down (k - 1) (by omega) (by linarith)
      rw [Nat.sub_add_cancel hk1, hPk.2] at this
      have := hmax (k - 1) (by omega)
      linarith

/-- **C168 (samples of a smooth density).**  If the densities are samples of a function `G` that strictly increases up to `F0` and strictly decreases
beyond, and near the peak its second derivative is at most `-m < 0` and its third at most `M` in absolute value, then the frequency of `get_Tps()` is
within `4 M df² / m` of the true peak frequency: the smoothing gains one order. -/
theorem smooth_peak_of_samples {pf pS : PyIn ℝ} {f S : List ℝ} {h F0 m M : ℝ} {G G1 G2 G3 : ℝ → ℝ} (hf : pf.IsArr f) (hS : pS.IsArr S)
    (hu : UniformAxis f h) (h0 : 0 ≤ f.getD 0 0) {s : SpecObj} (hs : SpecObj.init pf pS = .ok s) (hG : ∀ k < f.length, S.getD k 0 = G (f.getD k 0))
    (hup : StrictMonoOn G (Set.Icc (f.getD 0 0) F0)) (hdown : StrictAntiOn G (Set.Icc F0 (f.getD (f.length - 1) 0)))
    (hlo : f.getD 1 0 ≤ F0) (hhi : F0 ≤ f.getD (f.length - 2) 0) (hbig : ∃ v ∈ S, 1 / 10 ^ 10 ≤ v) (hm : 0 < m)
    (h1 : ∀ u, |u - F0| ≤ 2 * h → HasDerivAt G (G1 u) u) (h2 : ∀ u, |u - F0| ≤ 2 * h → HasDerivAt G1 (G2 u) u)
    (h3 : ∀ u, |u - F0| ≤ 2 * h → HasDerivAt G2 (G3 u) u) (hc : ∀ u, |u - F0| ≤ 2 * h → G2 u ≤ -m) (hM : ∀ u, |u - F0| ≤ 2 * h → |G3 u| ≤ M) :
    ∃ Fp F, (s.getTp (-1) (.fin (-1))).1 = .ok (1 / Fp) ∧ (s.getTps (-1) (.fin (-1))).1 = .ok (1 / F) ∧ |Fp - F0| < h ∧
      |F - F0| ≤ 4 * M * h ^ 2 / m := by
  obtain ⟨hmono, hl, -⟩ := (spectrum_init_iff_partial hf hS).1 hs
  have hp := uniform_check_increasing hmono
  have h2' := mono_two_le hmono
  have hh := hu.1
  have hr : RisesThenFalls f S F0 := by
    constructor
    · intro k hk hF
      rw [hG k (by omega), hG (k + 1) hk]
      have a1 := inc_lt hp (Nat.lt_succ_self k) hk
      have a2 := inc_le hp (Nat.zero_le k) (by omega)
      exact hup ⟨a2, a1.le.trans hF⟩ ⟨a2.trans a1.le, hF⟩ a1
    · intro k hk hF
      rw [hG k (by omega), hG (k + 1) hk]
      have a1 := inc_lt hp (Nat.lt_succ_self k) hk
      have a2 := inc_le hp (show k + 1 ≤ f.length - 1 by omega) (by omega)
      exact hdown ⟨hF, a1.le.trans a2⟩ ⟨hF.trans a1.le, a2⟩ a1
  obtain ⟨Fp, F, i, e1, e2, e3, -, -, i1, i2, i3, i4, e4⟩ := peak_of_samples hf hS hu h0 hs hr hlo hhi hbig
  have hs1 : f.getD (i + 1) 0 = f.getD i 0 + h := hu.2 i i2
  have hs0 : f.getD i 0 = f.getD (i - 1) 0 + h := by
    have := hu.2 (i - 1) (by omega)
    rwa [Nat.sub_add_cancel i1] at this
  have hin : ∀ u ∈ Set.Icc (f.getD i 0 - h) (f.getD i 0 + h), |u - F0| ≤ 2 * h := by
    intro u hu
    rw [abs_le]; constructor <;> linarith [hu.1, hu.2]
  have hstat : G1 F0 = 0 := by
    have hd := h1 F0 (by simp; linarith)
    refine IsLocalMax.hasDerivAt_eq_zero ?_ hd
    have l0 : f.getD 0 0 < F0 := lt_of_lt_of_le (inc_lt hp (show 0 < 1 by omega) (by omega)) hlo
    have l1 : F0 < f.getD (f.length - 1) 0 := lt_of_le_of_lt hhi (inc_lt hp (by omega) (by omega))
    filter_upwards [Ioo_mem_nhds l0 l1] with u hu
    rcases le_total u F0 with h | h
    · exact hup.monotoneOn ⟨hu.1.le, h⟩ ⟨l0.le, le_rfl⟩ h
    · exact hdown.antitoneOn ⟨le_rfl, l1.le⟩ ⟨h, hu.2.le⟩ h
  refine ⟨Fp, F, e1, e2, e3, ?_⟩
  have := parabola_vertex_close hh hm (fun u hu => h1 u (hin u hu)) (fun u hu => h2 u (hin u hu)) (fun u hu => h3 u (hin u hu))
    (fun u hu => hc u (hin u hu)) (fun u hu => hM u (hin u hu)) (x := f.getD i 0) (F0 := F0) ⟨by linarith, by linarith⟩ hstat
  rw [e4, hG _ (by omega), hG _ (by omega), hG _ (by omega), hs1, show f.getD (i - 1) 0 = f.getD i 0 - h by linarith]
  exact this

/-! ## JONSWAP spectra -/

theorem moskowitz_up {fp x y : ℝ} (hx : 0 < x) (hxy : x < y) (hy : y ≤ fp) :
    Real.exp (-(5 / 4) * (fp / x) ^ 4) / x ^ 5 < Real.exp (-(5 / 4) * (fp / y) ^ 4) / y ^ 5 := by
  have hy0 : 0 < y := hx.trans hxy
  have hfp : 0 < fp := hy0.trans_le hy
  have hlog : ∀ z : ℝ, 0 < z → Real.exp (-(5 / 4) * (fp / z) ^ 4) / z ^ 5 = Real.exp (-(5 / 4) * (fp / z) ^ 4 - 5 * Real.log z) := by
    intro z hz
    rw [Real.exp_sub, show 5 * Real.log z = ((5 : ℕ) : ℝ) * Real.log z by norm_num, Real.exp_nat_mul, Real.exp_log hz]
  rw [hlog x hx, hlog y hy0, Real.exp_lt_exp]
  set u := (fp / y) ^ 4 with hu
  set v := (fp / x) ^ 4 with hv
  have hu1 : 1 ≤ u := one_le_pow₀ ((one_le_div hy0).2 hy)
  have huv : u < v := by
    rw [hu, hv]
    exact pow_lt_pow_left₀ (div_lt_div_of_pos_left hfp hx hxy) (by positivity) (by norm_num)
  have hq : Real.log (v / u) = 4 * (Real.log y - Real.log x) := by
    rw [hu, hv, ← div_pow, Real.log_pow, show fp / x / (fp / y) = y / x by field_simp, Real.log_div hy0.ne' hx.ne']
    norm_num
  have hlt : Real.log (v / u) < v / u - 1 := Real.log_lt_sub_one_of_pos (by positivity) (by
    intro e
    have := (div_eq_one_iff_eq (show u ≠ 0 by positivity)).1 e
    linarith)
  have hle : v / u - 1 ≤ v - u := by
    rw [div_sub_one (by positivity), div_le_iff₀ (by positivity)]
    nlinarith
  linarith

theorem moskowitz_down {fp x y : ℝ} (hfp : 0 < fp) (hx : fp ≤ x) (hxy : x < y) :
    Real.exp (-(5 / 4) * (fp / y) ^ 4) / y ^ 5 < Real.exp (-(5 / 4) * (fp / x) ^ 4) / x ^ 5 := by
  have hx0 : 0 < x := hfp.trans_le hx
  have hy0 : 0 < y := hx0.trans hxy
  have hlog : ∀ z : ℝ, 0 < z → Real.exp (-(5 / 4) * (fp / z) ^ 4) / z ^ 5 = Real.exp (-(5 / 4) * (fp / z) ^ 4 - 5 * Real.log z) := by
    intro z hz
    rw [Real.exp_sub, show 5 * Real.log z = ((5 : ℕ) : ℝ) * Real.log z by norm_num, Real.exp_nat_mul, Real.exp_log hz]
  rw [hlog x hx0, hlog y hy0, Real.exp_lt_exp]
  set u := (fp / y) ^ 4 with hu
  set v := (fp / x) ^ 4 with hv
  have hv1 : v ≤ 1 := pow_le_one₀ (by positivity) ((div_le_one hx0).2 hx)
  have huv : u < v := by
    rw [hu, hv]
    exact pow_lt_pow_left₀ (div_lt_div_of_pos_left hfp hx0 hxy) (by positivity) (by norm_num)
  have hq : Real.log (u / v) = -(4 * (Real.log y - Real.log x)) := by
    rw [hu, hv, ← div_pow, Real.log_pow, show fp / y / (fp / x) = x / y by field_simp, Real.log_div hx0.ne' hy0.ne']
    push_cast; ring
  have hlt : Real.log (u / v) < u / v - 1 := Real.log_lt_sub_one_of_pos (by positivity) (by
    intro e
    have := (div_eq_one_iff_eq (show v ≠ 0 by positivity)).1 e
    linarith)
  have hle : u / v - 1 ≤ u - v := by
    rw [div_sub_one (by positivity), div_le_iff₀ (by positivity)]
    nlinarith
  linarith

theorem specJonswap_split (fp γ x : ℝ) : specJonswap fp γ x = 9.81 ^ 2 / (2 * Real.pi) ^ 4 * (Real.exp (-(5 / 4) * (fp / x) ^ 4) / x ^ 5) *
    γ ^ Real.exp (-(x - fp) ^ 2 / (2 * specSigma fp x ^ 2 * fp ^ 2)) := by
  unfold specJonswap; ring

/-- **C168 (JONSWAP, shape).**  For `γ ≥ 1` the formula strictly increases up to the peak frequency ... -/
theorem specJonswap_up {fp γ x y : ℝ} (hγ : 1 ≤ γ) (hx : 0 < x) (hxy : x < y) (hy : y ≤ fp) : specJonswap fp γ x < specJonswap fp γ y := by
  have hy0 : 0 < y := hx.trans hxy
  have hfp : 0 < fp := hy0.trans_le hy
  rw [specJonswap_split, specJonswap_split]
  have hA : Real.exp (-(x - fp) ^ 2 / (2 * specSigma fp x ^ 2 * fp ^ 2)) ≤ Real.exp (-(y - fp) ^ 2 / (2 * specSigma fp y ^ 2 * fp ^ 2)) := by
    rw [Real.exp_le_exp]
    rcases hy.lt_or_eq with h | h
    · unfold specSigma
      rw [if_pos (hxy.trans h), if_pos h]
      apply div_le_div_of_nonneg_right _ (by positivity)
      nlinarith
    · rw [h, sub_self]
      have : -(0 : ℝ) ^ 2 / (2 * specSigma fp fp ^ 2 * fp ^ 2) = 0 := by simp
      rw [this]
      exact div_nonpos_of_nonpos_of_nonneg (by nlinarith [sq_nonneg (x - fp)]) (by positivity)
  have hg := Real.rpow_le_rpow_of_exponent_le hγ hA
  refine mul_lt_mul (mul_lt_mul_of_pos_left (moskowitz_up hx hxy hy) (by positivity)) hg (by positivity) (by positivity)

/-- ... and strictly decreases beyond it. -/
theorem specJonswap_down {fp γ x y : ℝ} (hγ : 1 ≤ γ) (hfp : 0 < fp) (hx : fp ≤ x) (hxy : x < y) : specJonswap fp γ y < specJonswap fp γ x := by
  have hx0 : 0 < x := hfp.trans_le hx
  have hy0 : 0 < y := hx0.trans hxy
  rw [specJonswap_split, specJonswap_split]
  have hA : Real.exp (-(y - fp) ^ 2 / (2 * specSigma fp y ^ 2 * fp ^ 2)) ≤ Real.exp (-(x - fp) ^ 2 / (2 * specSigma fp x ^ 2 * fp ^ 2)) := by
    rw [Real.exp_le_exp]
    unfold specSigma
    rw [if_neg (not_lt.2 hx), if_neg (not_lt.2 (hx.trans hxy.le))]
    apply div_le_div_of_nonneg_right _ (by positivity)
    nlinarith
  have hg := Real.rpow_le_rpow_of_exponent_le hγ hA
  refine mul_lt_mul (mul_lt_mul_of_pos_left (moskowitz_down hfp hx hxy) (by positivity)) hg (by positivity) (by positivity)

/-- **C168 (JONSWAP).**  For a spectrum created with peak frequency `fp` (not necessarily on the grid, but not beyond the second and the last but
one frequency) and `γ ≥ 1`, `get_Tp()` differs from `1/fp` by less than one step in frequency and `get_Tps()` by less than one and a half. -/
theorem jonswap_peak_of_samples {pf : PyIn ℝ} {f : List ℝ} {h fp hm0 γ lF : ℝ} (hf : pf.IsArr f) (hu : UniformAxis f h) (h2 : 2 ≤ f.length)
    (h0 : 0 ≤ f.getD 0 0) (heps : 1 / 2 ^ 52 < f.getD 1 0) (hlo : f.getD 1 0 ≤ fp) (hhi : fp ≤ f.getD (f.length - 2) 0) (hγ : 1 ≤ γ) (hH : 0 < hm0)
    (hlF : lF = 0 ∨ lF = 1) : ∃ S s Fp, createSpectrumJonswap pf fp hm0 γ lF = .ok S ∧ createSpectrumObjectJonswap pf fp hm0 γ lF = .ok s ∧
      (s.getTp (-1) (.fin (-1))).1 = .ok (1 / Fp) ∧ |Fp - fp| < h ∧
      ((∃ v ∈ S, 1 / 10 ^ 10 ≤ v) → ∃ F, (s.getTps (-1) (.fin (-1))).1 = .ok (1 / F) ∧ 0 < F ∧ |F - fp| < 3 / 2 * h) := by
  have hp := uniform_check_increasing (uniform_check_accepts_uniform h2 hu)
  have hfp0 : 0 < fp := lt_of_lt_of_le (lt_trans (by positivity) heps) hlo
  have hγ0 : 0 < γ := by linarith
  have hlast : 1 / 2 ^ 52 < f.getD (f.length - 1) 0 := lt_of_lt_of_le heps (inc_le hp (by omega) (by omega))
  obtain ⟨S, c, s, hcr, hob, hsf, hsS, ⟨hl, hS⟩, hc0, hcp, -, -⟩ := jonswap_height hf hu h2 h0 hlast hfp0 hγ0 hH.le hlF
  have hcpos := hcp hH
  have hinit : SpecObj.init pf (vec S) = .ok s := by
    unfold createSpectrumObjectJonswap at hob
    rw [hcr] at hob; exact hob
  have hpos : ∀ k < f.length, 1 ≤ k → 1 / 2 ^ 52 < f.getD k 0 := fun k hk h1 => lt_of_lt_of_le heps (inc_le hp h1 hk)
  have hr : RisesThenFalls f S fp := by
    constructor
    · intro k hk hF
      have e1 := (hS (k + 1) hk).1 (hpos _ hk (by omega))
      have hx1 : 0 < f.getD (k + 1) 0 := lt_trans (by positivity) (hpos _ hk (by omega))
      rw [e1]
      rcases lt_or_ge (1 / 2 ^ 52) (f.getD k 0) with hx | hx
      · rw [(hS k (by omega)).1 hx]
        exact mul_lt_mul_of_pos_left (specJonswap_up hγ (lt_trans (by positivity) hx) (inc_lt hp (Nat.lt_succ_self k) hk) hF) hcpos
      · rw [(hS k (by omega)).2 hx]
        have : 0 < specJonswap fp γ (f.getD (k + 1) 0) := by
          rw [specJonswap_split]; positivity
        positivity
    · intro k hk hF
      have hxk : 1 / 2 ^ 52 < f.getD k 0 := lt_of_lt_of_le heps (hlo.trans hF)
      have hxk' := inc_lt hp (Nat.lt_succ_self k) hk
      rw [(hS k (by omega)).1 hxk, (hS (k + 1) hk).1 (hxk.trans hxk')]
      exact mul_lt_mul_of_pos_left (specJonswap_down hγ hfp0 hF hxk') hcpos
  obtain ⟨Fp, e1, e2⟩ := peak_of_samples_tp hf (isArr_vec S) hu h0 hinit hr hlo hhi
  refine ⟨S, s, Fp, hcr, hob, e1, e2, fun hbig => ?_⟩
  obtain ⟨-, F, -, -, g2, -, g3, g4, -⟩ := peak_of_samples hf (isArr_vec S) hu h0 hinit hr hlo hhi hbig
  exact ⟨F, g2, g3, g4⟩

/-! ## Concrete cases: the hypotheses of the theorems above are met -/

theorem fiveAxis : UniformAxis ([0, 1, 2, 3, 4] : List ℝ) 1 :=
  ⟨by norm_num, fun i hi => by
    simp only [List.length_cons, List.length_nil] at hi
    rcases i with _ | _ | _ | _ | i
    · norm_num
    · norm_num
    · norm_num
    · norm_num
    · omega⟩

/-- Samples of the parabola `25 - (x - 2.2)²`: the smoothed peak period is exact, the peak period is not. -/
example : ∃ s Fp, SpecObj.init (vec [0, 1, 2, 3, 4]) (vec [25 - (11 / 5) ^ 2, 25 - (6 / 5) ^ 2, 25 - (1 / 5) ^ 2, 25 - (4 / 5) ^ 2, 25 - (9 / 5) ^ 2]) = .ok s ∧
    (s.getTps (-1) (.fin (-1))).1 = .ok (1 / (11 / 5)) ∧ (s.getTp (-1) (.fin (-1))).1 = .ok (1 / Fp) ∧ |Fp - 11 / 5| < 1 := by
  obtain ⟨s, hs⟩ : ∃ s, SpecObj.init (vec ([0, 1, 2, 3, 4] : List ℝ))
      (vec [25 - (11 / 5) ^ 2, 25 - (6 / 5) ^ 2, 25 - (1 / 5) ^ 2, 25 - (4 / 5) ^ 2, 25 - (9 / 5) ^ 2]) = .ok s :=
    ⟨_, (spectrum_init_iff_partial (isArr_vec _) (isArr_vec _)).2 ⟨uniform_check_accepts_uniform (by simp) fiveAxis, rfl, rfl⟩⟩
  have hd : ∀ u : ℝ, HasDerivAt (fun x : ℝ => 25 - (x - 11 / 5) ^ 2) (-(2 * (u - 11 / 5))) u := by
    intro u
    refine (((hasDerivAt_id u).sub_const (11 / 5 : ℝ)).pow 2 |>.const_sub 25).congr_deriv ?_
    simp
  have hd2 : ∀ u : ℝ, HasDerivAt (fun x : ℝ => -(2 * (x - 11 / 5))) (-2) u := by
    intro u
    refine (((hasDerivAt_id u).sub_const (11 / 5 : ℝ)).const_mul 2 |>.neg).congr_deriv ?_
    simp
  obtain ⟨Fp, F, e1, e2, e3, e4⟩ := smooth_peak_of_samples (G := fun x => 25 - (x - 11 / 5) ^ 2) (G1 := fun x => -(2 * (x - 11 / 5))) (G2 := fun _ => -2)
    (G3 := fun _ => 0) (F0 := 11 / 5) (m := 2) (M := 0) (isArr_vec _) (isArr_vec _) fiveAxis (by norm_num) hs
    (by
      intro k hk
      simp only [List.length_cons, List.length_nil] at hk
      rcases k with _ | _ | _ | _ | _ | k
      · norm_num
      · norm_num
      · norm_num
      · norm_num
      · norm_num
      · omega)
    (by intro x hx y hy hxy; have := hy.2; dsimp only; nlinarith)
    (by intro x hx y hy hxy; have := hx.1; dsimp only; nlinarith)
    (by norm_num) (by norm_num) ⟨25 - (11 / 5) ^ 2, by simp, by norm_num⟩ (by norm_num) (fun u _ => hd u) (fun u _ => hd2 u)
    (fun u _ => hasDerivAt_const u _) (fun u _ => le_refl _) (fun u _ => by simp)
  have hF : F = 11 / 5 := by
    have : |F - 11 / 5| ≤ 0 := by simpa using e4
    have := abs_nonpos_iff.1 this
    linarith
  exact ⟨s, Fp, hs, hF ▸ e2, e1, e3⟩

/-- A JONSWAP spectrum with the peak between two grid points. -/
example : ∃ S s Fp, createSpectrumJonswap (vec [0, 1, 2, 3, 4]) (3 / 2) 2 (33 / 10) 0 = .ok S ∧
    createSpectrumObjectJonswap (vec [0, 1, 2, 3, 4]) (3 / 2) 2 (33 / 10) 0 = .ok s ∧ (s.getTp (-1) (.fin (-1))).1 = .ok (1 / Fp) ∧ |Fp - 3 / 2| < 1 := by
  obtain ⟨S, s, Fp, a, b, c, d, -⟩ := jonswap_peak_of_samples (isArr_vec [0, 1, 2, 3, 4]) fiveAxis (by simp) (by norm_num) (by norm_num)
    (fp := 3 / 2) (hm0 := 2) (γ := 33 / 10) (lF := 0) (by norm_num) (by norm_num) (by norm_num) (by norm_num) (Or.inl rfl)
  exact ⟨S, s, Fp, a, b, c, d⟩

end Verif
