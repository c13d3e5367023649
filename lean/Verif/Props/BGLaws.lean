import Verif.Props.BG

/-! # C111: the Battjes–Groenendijk distribution: unit of length, number of waves -/

namespace Verif

theorem bgTransition_scale (a depth cota : ℝ) : bgTransition (a * depth) cota = a * bgTransition depth cota := by
  unfold bgTransition; ring

theorem bgHrms_scale {a : ℝ} (ha : 0 < a) (hm0 depth : ℝ) : bgHrms (a * hm0) (a * depth) = a * bgHrms hm0 depth := by
  rw [bgHrms_eq, bgHrms_eq]
  unfold bgSpecHrms
  rw [abs_mul, abs_of_pos ha]
  have : 3.24 * (a * |hm0| / 4) / (a * depth) = 3.24 * (|hm0| / 4) / depth := by
    rw [show 3.24 * (a * |hm0| / 4) = a * (3.24 * (|hm0| / 4)) by ring, mul_div_mul_left _ _ ha.ne']
  rw [this]
  ring

theorem bgFinish_scale {a : ℝ} (ha : 0 < a) (hm0 : ℝ) (n : ℕ) (Htr Hrms N : ℝ) (r : ℝ × ℝ × ℝ) :
    bgFinish (a * hm0) n (a * Htr) (a * Hrms) N r =
      ⟨(bgFinish hm0 n Htr Hrms N r).heights.map (a * ·), (bgFinish hm0 n Htr Hrms N r).probs⟩ := by
  obtain ⟨r1, r2, r3⟩ := r
  unfold bgFinish
  dsimp only
  have e1 : ∀ y : ℝ, a * Htr / (y * (a * Hrms)) = Htr / (y * Hrms) := by
    intro y
    rw [show y * (a * Hrms) = a * (y * Hrms) by ring, mul_div_mul_left _ _ ha.ne']
  have e2 : (a * hm0 < a * Htr) = (hm0 < Htr) := by
    rw [mul_lt_mul_iff_right₀ ha]
  have e3 : ∀ y z : ℝ, min (y * (a * Hrms)) (z / 4 * (a * hm0)) = a * min (y * Hrms) (z / 4 * hm0) := by
    intro y z
    rw [mul_min_of_nonneg _ _ ha.le]
    congr 1 <;> ring
  simp only [List.map_cons, List.map_nil, mul_zero, e1, e2, e3]

/-- **C111 (unit of length).**  Multiplying the wave height and the depth by `a > 0` (another unit of length) multiplies the returned heights
by `a` and leaves the probabilities, exceptions and non-termination as they are. -/
theorem bg_unit {a : ℝ} (ha : 0 < a) (hm0 depth cota tol : ℝ) (nwave fuel : ℕ) :
    battjesGroenendijk (a * hm0) nwave (a * depth) cota tol fuel =
      (battjesGroenendijk hm0 nwave depth cota tol fuel).map (Except.map fun R => ⟨R.heights.map (a * ·), R.probs⟩) := by
  unfold battjesGroenendijk
  have e3 : bgTransition (a * depth) cota / bgHrms (a * hm0) (a * depth) = bgTransition depth cota / bgHrms hm0 depth := by
    rw [bgTransition_scale, bgHrms_scale ha, mul_div_mul_left _ _ ha.ne']
  have e1 : bgRayleigh (a * hm0) (a * depth) cota = bgRayleigh hm0 depth cota := by
    unfold bgRayleigh
    rw [e3, bgTransition_scale, bgHrms_scale ha, mul_pos_iff_of_pos_left ha]
    simp [ha.ne']
  by_cases h0 : cota = 0
  · rw [if_pos h0, if_pos h0]; rfl
  rw [if_neg h0, if_neg h0]
  by_cases h1 : bgRayleigh hm0 depth cota
  · rw [if_pos h1, if_pos (e1.symm ▸ h1)]; rfl
  rw [if_neg h1, if_neg (e1.symm ▸ h1)]
  dsimp only
  rw [e3]
  by_cases h2 : tol < |(10 : ℝ) - 1|
  swap
  · rw [if_neg h2, if_neg h2]; rfl
  rw [if_pos h2, if_pos h2]
  by_cases h3 : bgTransition depth cota / bgHrms hm0 depth ≤ 0
  · rw [if_pos h3, if_pos h3]; rfl
  rw [if_neg h3, if_neg h3]
  rcases bgLoop tol (bgTransition depth cota / bgHrms hm0 depth) fuel 100 with _ | e | r
  · rfl
  · rfl
  · dsimp only
    by_cases h4 : nwave = 0
    · rw [if_pos h4, if_pos h4]; rfl
    · rw [if_neg h4, if_neg h4, bgTransition_scale, bgHrms_scale ha, bgFinish_scale ha]
      rfl

/-- The height with exceedance probability `1/n` grows with `n`. -/
theorem composite_point_mono {H1 Htr : ℝ} (h : 0 < Htr) (h1 : 0 < H1) {n m : ℕ} (hn : 1 ≤ n) (hnm : n ≤ m) :
    (if H1 * (Real.log n) ^ (1 / bgK1) < Htr then H1 * (Real.log n) ^ (1 / bgK1) else bgH2 Htr H1 * (Real.log n) ^ (1 / bgK2)) ≤
      if H1 * (Real.log m) ^ (1 / bgK1) < Htr then H1 * (Real.log m) ^ (1 / bgK1) else bgH2 Htr H1 * (Real.log m) ^ (1 / bgK2) := by
  have hn0 : (0 : ℝ) < n := by exact_mod_cast hn
  have hl : 0 ≤ Real.log n := Real.log_natCast_nonneg n
  have hlm : Real.log n ≤ Real.log m := Real.log_le_log hn0 (by exact_mod_cast hnm)
  have h2 := bgH2_pos h h1
  have k1 : (0 : ℝ) ≤ 1 / bgK1 := by unfold bgK1; norm_num
  have k2 : (0 : ℝ) ≤ 1 / bgK2 := by unfold bgK2; norm_num
  have m1 : H1 * (Real.log n) ^ (1 / bgK1) ≤ H1 * (Real.log m) ^ (1 / bgK1) :=
    mul_le_mul_of_nonneg_left (Real.rpow_le_rpow hl hlm k1) h1.le
  have m2 : bgH2 Htr H1 * (Real.log n) ^ (1 / bgK2) ≤ bgH2 Htr H1 * (Real.log m) ^ (1 / bgK2) :=
    mul_le_mul_of_nonneg_left (Real.rpow_le_rpow hl hlm k2) h2.le
  -- the upper branch lies above the transition height
  have up : ∀ k : ℕ, ¬ H1 * (Real.log k) ^ (1 / bgK1) < Htr → 1 ≤ k → Htr ≤ bgH2 Htr H1 * (Real.log k) ^ (1 / bgK2) := by
    intro k hc hk
    by_contra hlt
    push Not at hlt
    have hk0 : (0 : ℝ) < k := by exact_mod_cast hk
    have hlk : 0 ≤ Real.log k := Real.log_natCast_nonneg k
    have tr := bgH2_transition h h1
    have a1 : (Real.log k) ^ (1 / bgK2) < Htr / bgH2 Htr H1 := by rw [lt_div_iff₀' h2]; exact hlt
    have a2 : Htr / H1 ≤ (Real.log k) ^ (1 / bgK1) := by rw [div_le_iff₀' h1]; exact not_lt.1 hc
    have b1 : Real.log k < (Htr / bgH2 Htr H1) ^ (36 / 10 : ℝ) := by
      have := Real.rpow_lt_rpow (Real.rpow_nonneg hlk _) a1 (show (0 : ℝ) < 36 / 10 by norm_num)
      rwa [← Real.rpow_mul hlk, show (1 / bgK2 * (36 / 10) : ℝ) = 1 by unfold bgK2; norm_num, Real.rpow_one] at this
    have b2 : (Htr / H1) ^ 2 ≤ Real.log k := by
      have := pow_le_pow_left₀ (div_pos h h1).le a2 2
      rwa [← Real.rpow_natCast ((Real.log k) ^ (1 / bgK1)), ← Real.rpow_mul hlk,
        show (1 / bgK1 * ((2 : ℕ) : ℝ)) = 1 by unfold bgK1; norm_num, Real.rpow_one] at this
    rw [tr] at b1
    linarith
  split_ifs with c1 c2 c2
  · exact m1
  · exact c1.le.trans (up m c2 (hn.trans hnm))
  · exact absurd (m1.trans_lt c2) c1
  · exact m2

/-- **C111 (number of waves).**  With more waves the same distribution is used: the transition height and its probability stay, and the
height with exceedance probability `1/nwave` does not decrease. -/
theorem bg_more_waves {hm0 depth cota tol : ℝ} {n m fuel : ℕ} (hpos : 0 < hm0) (hd : 0 < depth) (hn : 1 ≤ n) (hnm : n ≤ m) {R : BGResult}
    (hR : battjesGroenendijk hm0 n depth cota tol fuel = some (.ok R)) :
    ∃ R', battjesGroenendijk hm0 m depth cota tol fuel = some (.ok R') ∧
      ((R.heights = [] ∧ R'.heights = []) ∨
        ∃ Htr P x x' : ℝ, R.heights = [0, Htr, x] ∧ R'.heights = [0, Htr, x'] ∧ x ≤ x' ∧
          R.probs = [1, P, 1 / n] ∧ R'.probs = [1, P, 1 / m]) := by
  by_cases hr : bgRayleigh hm0 depth cota
  · unfold battjesGroenendijk at hR ⊢
    by_cases h0 : cota = 0
    · rw [if_pos h0] at hR; cases hR
    rw [if_neg h0, if_pos hr] at hR ⊢
    cases hR
    exact ⟨_, rfl, Or.inl ⟨rfl, rfl⟩⟩
  have hne : R.heights ≠ [] := by
    intro he
    rw [bg_empty hR he] at hR
    unfold battjesGroenendijk at hR
    dsimp only at hR
    rw [if_neg hr] at hR
    split_ifs at hR
    all_goals try (cases hR; done)
    all_goals (split at hR <;> simp [bgFinish] at hR)
  obtain ⟨h0, h2, hn0, ht⟩ := bg_regular_of_result hd hR hne
  rw [bg_regular tol fuel h2 hn0 hd h0 ht] at hR
  rw [bg_regular tol fuel h2 (by omega) hd h0 ht]
  split_ifs at hR ⊢ with h3 h4
  · cases hR; exact ⟨_, rfl, Or.inl ⟨rfl, rfl⟩⟩
  · cases hL : bgLoop tol (bgTransition depth cota / bgHrms hm0 depth) fuel 100 with
    | none => rw [hL] at hR; cases hR
    | some v =>
      rw [hL] at hR
      rcases v with e | r
      · cases hR
      · cases hR
        refine ⟨_, rfl, Or.inr ?_⟩
        have hrms : 0 < bgHrms hm0 depth := by
          rw [bgHrms_eq]
          unfold bgSpecHrms
          have : 0 < |hm0| := abs_pos.2 h2
          positivity
        obtain ⟨Hf, hf, e1, e2, -⟩ := bgLoop_spec hL
        have htr : 0 < bgTransition depth cota / bgHrms hm0 depth := div_pos ht hrms
        obtain ⟨r1, r2, r3⟩ := r
        dsimp only at e1 e2
        unfold bgFinish
        dsimp only
        rw [e1, e2]
        refine ⟨_, _, _, _, rfl, rfl, ?_, rfl, rfl⟩
        have hn0 : (0 : ℝ) < n := by exact_mod_cast hn
        have hlm : Real.log n ≤ Real.log m := Real.log_le_log hn0 (by exact_mod_cast hnm)
        refine min_le_min (mul_le_mul_of_nonneg_right (composite_point_mono htr hf hn hnm) hrms.le) ?_
        refine mul_le_mul_of_nonneg_right (div_le_div_of_nonneg_right ?_ (by norm_num)) hpos.le
        unfold exponweibPpf
        refine mul_le_mul_of_nonneg_left (Real.sqrt_le_sqrt ?_) (Real.sqrt_nonneg _)
        rw [one_div, one_div, Real.log_inv, Real.log_inv, neg_neg, neg_neg]
        exact hlm
  · cases hR

/-- The documented example with twice the waves: a longer record gives the same transition point and a height that is not smaller. -/
example : ∃ fuel R R' Htr x x', battjesGroenendijk 2 700 4.5 50 (1 / 10 ^ 5) fuel = some (.ok R) ∧
    battjesGroenendijk 2 1400 4.5 50 (1 / 10 ^ 5) fuel = some (.ok R') ∧ R.heights = [0, Htr, x] ∧ R'.heights = [0, Htr, x'] ∧ x ≤ x' := by
  obtain ⟨fuel, R, h, hiff⟩ := bg_returns (hm0 := 2) (depth := 4.5) (cota := 50) (tol := 1 / 10 ^ 5) (nwave := 700) (by norm_num) (by norm_num)
    (by norm_num) (by norm_num) (by norm_num) (by norm_num)
  obtain ⟨R', h', hc⟩ := bg_more_waves (by norm_num) (by norm_num) (by norm_num) (show 700 ≤ 1400 by norm_num) h
  rcases hc with ⟨c, -⟩ | ⟨Htr, P, x, x', a, b, c, -⟩
  · exfalso
    have := hiff.1 c
    unfold bgSpecHrms at this
    norm_num at this
  · exact ⟨fuel, R, R', Htr, x, x', h, h', a, b, c⟩

/-! ## Concrete cases: the hypotheses of the theorems above are met -/

/-- In centimetres. -/
example := bg_unit (a := 100) (by norm_num) 2 4.5 50 (1 / 10 ^ 5) 700 12

end Verif
