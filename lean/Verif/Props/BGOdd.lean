import Verif.Props.BG

/-! # C171: the Battjes-Groenendijk routine for depths and wave counts outside the physical range -/

namespace Verif

/-- The quantity `hm0 / 4` (the standard deviation) at which the formula for `H_rms` changes sign for a negative depth. -/
theorem bgHrms_sign {hm0 depth : ℝ} (hh : hm0 ≠ 0) (hd : depth < 0) :
    (0 < bgHrms hm0 depth ↔ 3.24 * (|hm0| / 4) < 2.69 * -depth) ∧ (bgHrms hm0 depth < 0 ↔ 2.69 * -depth < 3.24 * (|hm0| / 4)) := by
  have hp : 0 < |hm0| := abs_pos.2 hh
  have e : bgHrms hm0 depth = |hm0| / 4 * ((2.69 * -depth - 3.24 * (|hm0| / 4)) / -depth) := by
    rw [bgHrms_eq]
    unfold bgSpecHrms
    have := hd.ne
    field_simp
    ring
  have hnd : 0 < -depth := by linarith
  rw [e]
  constructor
  · rw [mul_pos_iff_of_pos_left (by positivity), lt_div_iff₀ hnd, zero_mul, sub_pos]
  · rw [mul_neg_iff]
    constructor
    · rintro (⟨-, h⟩ | ⟨h, -⟩)
      · rw [div_lt_iff₀ hnd, zero_mul] at h
        linarith
      · exact absurd h (not_lt.2 (by positivity))
    · intro h
      refine Or.inl ⟨by positivity, ?_⟩
      rw [div_lt_iff₀ hnd, zero_mul]
      linarith

/-- **C171 (no water).**  At depth zero every call gives NaN (no exception, no warning), for every wave height and slope. -/
theorem bg_no_water {hm0 cota tol : ℝ} {nwave : ℕ} (fuel : ℕ) (hc : cota ≠ 0) (hn : 1 ≤ nwave) (ht : tol < 9) :
    battjesGroenendijk hm0 nwave 0 cota tol fuel = some (.error .nonFinite) := by
  have ht0 : bgTransition 0 cota = 0 := by unfold bgTransition; simp
  unfold battjesGroenendijk bgRayleigh
  dsimp only
  rw [ht0, zero_div, if_neg hc, if_neg (by rintro (⟨-, h⟩ | h) <;> norm_num at h), if_pos (by norm_num; exact ht), if_pos le_rfl,
    if_neg (by omega)]

/-- **C171 (negative depth, small waves).**  With a negative depth, a positive slope and `3.24 |hm0| / 4 < 2.69 |depth|` every number is NaN. -/
theorem bg_negative_depth_small {hm0 depth cota tol : ℝ} {nwave : ℕ} (fuel : ℕ) (hh : hm0 ≠ 0) (hd : depth < 0) (hc : 0 < cota)
    (hs : 3.24 * (|hm0| / 4) < 2.69 * -depth) (hn : 1 ≤ nwave) (ht : tol < 9) :
    battjesGroenendijk hm0 nwave depth cota tol fuel = some (.error .nonFinite) := by
  have hr := (bgHrms_sign hh hd).1.2 hs
  have htr : bgTransition depth cota < 0 := by
    unfold bgTransition
    exact mul_neg_of_pos_of_neg (by positivity) hd
  have hq : bgTransition depth cota / bgHrms hm0 depth ≤ 0 := div_nonpos_of_nonpos_of_nonneg htr.le hr.le
  unfold battjesGroenendijk bgRayleigh
  dsimp only
  rw [if_neg hc.ne', if_neg (by rintro (⟨-, h⟩ | h) <;> linarith), if_pos (by norm_num; exact ht), if_pos hq, if_neg (by omega)]

/-- **C171 (no positive height without water).**  With a depth that is zero or negative and a positive slope, whatever the other arguments: if a result is
returned, none of its wave heights is positive. -/
theorem bg_no_height {hm0 depth cota tol : ℝ} {nwave fuel : ℕ} {R : BGResult} (hd : depth ≤ 0) (hc : 0 < cota)
    (hR : battjesGroenendijk hm0 nwave depth cota tol fuel = some (.ok R)) : ∀ v ∈ R.heights, v ≤ 0 := by
  have htr : bgTransition depth cota ≤ 0 := by
    unfold bgTransition
    exact mul_nonpos_of_nonneg_of_nonpos (by positivity) hd
  unfold battjesGroenendijk at hR
  rw [if_neg hc.ne'] at hR
  by_cases h1 : bgRayleigh hm0 depth cota
  · rw [if_pos h1] at hR; cases hR; simp
  rw [if_neg h1] at hR
  dsimp only at hR
  by_cases h2 : tol < |(10 : ℝ) - 1|
  swap
  · rw [if_neg h2] at hR; cases hR
  rw [if_pos h2] at hR
  by_cases h3 : bgTransition depth cota / bgHrms hm0 depth ≤ 0
  · rw [if_pos h3] at hR; cases hR
  rw [if_neg h3] at hR
  push Not at h3
  have hrms : bgHrms hm0 depth ≤ 0 := by
    by_contra hx
    push Not at hx
    exact absurd h3 (not_lt.2 (div_nonpos_of_nonpos_of_nonneg htr hx.le))
  cases hL : bgLoop tol (bgTransition depth cota / bgHrms hm0 depth) fuel 100 with
  | none => rw [hL] at hR; cases hR
  | some w =>
    rw [hL] at hR
    rcases w with e | r
    · cases hR
    · dsimp only at hR
      by_cases h4 : nwave = 0
      · rw [if_pos h4] at hR; cases hR
      rw [if_neg h4] at hR
      cases hR
      obtain ⟨Hf, hf, e1, e2, -⟩ := bgLoop_spec hL
      obtain ⟨r1, r2, r3⟩ := r
      dsimp only at e1 e2
      unfold bgFinish
      dsimp only
      rw [e1, e2]
      have hx : ∀ z : ℝ, 0 ≤ z → z * bgHrms hm0 depth ≤ 0 := fun z hz => mul_nonpos_of_nonneg_of_nonpos hz hrms
      have hlog : 0 ≤ Real.log nwave := Real.log_natCast_nonneg nwave
      have h2p := bgH2_pos h3 hf
      intro v hv
      simp only [List.mem_cons, List.not_mem_nil, or_false] at hv
      rcases hv with rfl | rfl | rfl
      · exact le_rfl
      · exact htr
      · refine (min_le_left _ _).trans (hx _ ?_)
        split_ifs <;> positivity

/-- **C171 (no waves).**  With zero waves no distribution is ever returned: empty arrays or an error. -/
theorem bg_no_waves {hm0 depth cota tol : ℝ} {fuel : ℕ} {R : BGResult}
    (hR : battjesGroenendijk hm0 0 depth cota tol fuel = some (.ok R)) : R = ⟨[], []⟩ := by
  unfold battjesGroenendijk at hR
  dsimp only at hR
  rw [if_pos rfl] at hR
  split_ifs at hR
  all_goals try (cases hR; done)
  · cases hR; rfl
  · split at hR <;> cases hR
  · rename_i h; exact absurd rfl h

/-- **C171 (steep adverse slope).**  A negative cotangent between −5.8/0.35 and 0 with a positive depth makes the transition height negative, and
every number NaN. -/
theorem bg_adverse_slope {hm0 depth cota tol : ℝ} {nwave : ℕ} (fuel : ℕ) (hh : hm0 ≠ 0) (hd : 0 < depth) (hc : cota < 0) (hc' : -5.8 < 0.35 * cota)
    (hn : 1 ≤ nwave) (ht : tol < 9) : battjesGroenendijk hm0 nwave depth cota tol fuel = some (.error .nonFinite) := by
  have hr : 0 < bgHrms hm0 depth := by
    rw [bgHrms_eq]
    unfold bgSpecHrms
    have : 0 < |hm0| := abs_pos.2 hh
    positivity
  have htr : bgTransition depth cota < 0 := by
    unfold bgTransition
    refine mul_neg_of_neg_of_pos ?_ hd
    have h1 : 1 / cota < -(0.35 / 5.8) := by
      rw [div_lt_iff_of_neg hc]
      norm_num at hc' ⊢
      linarith
    norm_num at h1 ⊢
    linarith
  have hq : bgTransition depth cota / bgHrms hm0 depth ≤ 0 := div_nonpos_of_nonpos_of_nonneg htr.le hr.le
  unfold battjesGroenendijk bgRayleigh
  dsimp only
  rw [if_neg hc.ne, if_neg (by rintro (⟨-, h⟩ | h) <;> linarith), if_pos (by norm_num; exact ht), if_pos hq, if_neg (by omega)]

/-- **C171 (finding: a "distribution" of negative heights).**  With a negative depth and waves so high that `2.69 |depth| < 3.24 |hm0| / 4`, and a normalised
transition height of at most 2.75, the routine does return: the transition "height" is negative. -/
theorem bg_negative_depth_large {hm0 depth cota tol : ℝ} {nwave : ℕ} (hh : hm0 ≠ 0) (hd : depth < 0) (hc : 0 < cota)
    (hs : 2.69 * -depth < 3.24 * (|hm0| / 4)) (hq : (0.35 + 5.8 / cota) * depth / bgSpecHrms hm0 depth ≤ 2.75) (hn : 1 ≤ nwave) (ht : 0 < tol) (ht9 : tol < 9) :
    ∃ fuel x P, battjesGroenendijk hm0 nwave depth cota tol fuel =
      some (.ok ⟨[0, (0.35 + 5.8 / cota) * depth, x], [1, P, 1 / nwave]⟩) ∧ (0.35 + 5.8 / cota) * depth < 0 ∧ x ≤ 0 := by
  have hr := (bgHrms_sign hh hd).2.2 hs
  have et : (0.35 + 5.8 / cota) * depth = bgTransition depth cota := by unfold bgTransition; norm_num; left; ring
  rw [et, ← bgHrms_eq] at hq
  rw [et]
  have htr : bgTransition depth cota < 0 := by
    unfold bgTransition
    exact mul_neg_of_pos_of_neg (by positivity) hd
  have hpos : 0 < bgTransition depth cota / bgHrms hm0 depth := div_pos_of_neg_of_neg htr hr
  have hq' : bgTransition depth cota / bgHrms hm0 depth ≤ 275 / 100 := hq.trans (by norm_num)
  obtain ⟨fuel, r, hL⟩ := bgLoop_terminates ht hpos hq'
  obtain ⟨r1, r2, r3⟩ := r
  have key : ∃ x P, battjesGroenendijk hm0 nwave depth cota tol fuel = some (.ok ⟨[0, bgTransition depth cota, x], [1, P, 1 / nwave]⟩) := by
    unfold battjesGroenendijk bgRayleigh
    dsimp only
    rw [if_neg hc.ne', if_neg (by rintro (⟨h, -⟩ | h) <;> linarith), if_pos (by norm_num; exact ht9), if_neg (not_le.2 hpos), hL]
    dsimp only
    rw [if_neg (by omega)]
    exact ⟨_, _, rfl⟩
  obtain ⟨x, P, e⟩ := key
  exact ⟨fuel, x, P, e, htr, bg_no_height hd.le hc e x (by simp)⟩

/-! ## Concrete cases -/

example : battjesGroenendijk 2 700 0 50 (1 / 10 ^ 5) 0 = some (.error .nonFinite) := bg_no_water 0 (by norm_num) (by norm_num) (by norm_num)
example : battjesGroenendijk 2 700 (-4.5) 50 (1 / 10 ^ 5) 0 = some (.error .nonFinite) :=
  bg_negative_depth_small 0 (by norm_num) (by norm_num) (by norm_num) (by norm_num) (by norm_num) (by norm_num)
example : battjesGroenendijk 2 700 4.5 (-10) (1 / 10 ^ 5) 0 = some (.error .nonFinite) :=
  bg_adverse_slope 0 (by norm_num) (by norm_num) (by norm_num) (by norm_num) (by norm_num) (by norm_num)
/-- Depth −1 m and `Hm0` = 40 m: a result with a negative transition height. -/
example : ∃ fuel x P, battjesGroenendijk 40 700 (-1) 50 (1 / 10 ^ 5) fuel = some (.ok ⟨[0, (0.35 + 5.8 / 50) * -1, x], [1, P, 1 / (700 : ℕ)]⟩) ∧ x ≤ 0 := by
  obtain ⟨fuel, x, P, h, -, hx⟩ := bg_negative_depth_large (hm0 := 40) (depth := -1) (cota := 50) (tol := 1 / 10 ^ 5) (nwave := 700) (by norm_num) (by norm_num)
    (by norm_num) (by norm_num) (by unfold bgSpecHrms; norm_num) (by norm_num) (by norm_num) (by norm_num)
  exact ⟨fuel, x, P, h, hx⟩

end Verif
