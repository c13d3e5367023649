import Verif.Props.BGLaws
import Mathlib.MeasureTheory.Integral.DominatedConvergence

/-! # C164: the Battjes–Groenendijk iteration finds the distribution it searches, with the accuracy of its tolerance

The distribution of Battjes and Groenendijk for a (normalised) transition height is defined by two conditions on the two scale
parameters: the branches meet at the transition height, and the mean square is 1.  There is exactly one such pair.  The iteration
stops at a pair whose mean square is within `tol` of 1; the heights and probabilities it returns are within the corresponding
factors of those of the exact distribution. -/

namespace Verif
open MeasureTheory Set

/-! ## Specification -/

/-- `H1`, `H2` are the scale parameters of the composite Weibull distribution with transition height `Htr` and mean square `ms`. -/
structure IsComposite (Htr ms H1 H2 : ℝ) : Prop where
  pos1 : 0 < H1
  pos2 : 0 < H2
  meet : weibullExc H1 2 Htr = weibullExc H2 (36 / 10) Htr
  meanSquare : compositeSecondMoment H1 H2 Htr = ms

/-! ## The two conditions determine the scale parameters -/

theorem meet_power {Htr H1 H2 : ℝ} (h : weibullExc H1 2 Htr = weibullExc H2 (36 / 10) Htr) :
    (Htr / H2) ^ (36 / 10 : ℝ) = (Htr / H1) ^ 2 := by
  unfold weibullExc at h
  have := neg_injective (Real.exp_injective h)
  rw [← this]
  norm_cast

theorem meet_scale {Htr H1 H2 : ℝ} (ht : 0 < Htr) (h1 : 0 < H1) (h2 : 0 < H2) (h : weibullExc H1 2 Htr = weibullExc H2 (36 / 10) Htr) :
    H2 = bgH2 Htr H1 := by
  have a := meet_power h
  rw [← bgH2_transition ht h1] at a
  have p2 := bgH2_pos ht h1
  have b := (Real.rpow_left_inj (div_pos ht h2).le (div_pos ht p2).le (by norm_num)).1 a
  rw [div_eq_div_iff h2.ne' p2.ne'] at b
  exact (mul_left_cancel₀ ht.ne' b).symm

theorem scale_meet {Htr H1 : ℝ} (ht : 0 < Htr) (h1 : 0 < H1) : weibullExc H1 2 Htr = weibullExc (bgH2 Htr H1) (36 / 10) Htr := by
  unfold weibullExc
  rw [bgH2_transition ht h1]
  norm_num

theorem composite_meanSquare {Htr ms H1 H2 : ℝ} (ht : 0 < Htr) (h : IsComposite Htr ms H1 H2) : bgE Htr H1 = ms := by
  rw [bgE_eq_second_moment ht h.pos1, ← meet_scale ht h.pos1 h.pos2 h.meet, h.meanSquare]

/-- The mean square moves at least as fast as the first scale parameter. -/
theorem composite_scales {Htr ms ms' H1 H2 H1' H2' : ℝ} (ht : 0 < Htr) (h : IsComposite Htr ms H1 H2) (h' : IsComposite Htr ms' H1' H2')
    (hle : H1 ≤ H1') : ms * H1' ≤ ms' * H1 := by
  have := bgE_ge_lin ht h.pos1 hle
  rwa [composite_meanSquare ht h, composite_meanSquare ht h'] at this

theorem composite_meanSquare_pos {Htr ms H1 H2 : ℝ} (ht : 0 < Htr) (h : IsComposite Htr ms H1 H2) : 0 < ms := by
  rw [← composite_meanSquare ht h]; exact bgE_pos ht h.pos1

theorem composite_unique {Htr ms H1 H2 H1' H2' : ℝ} (ht : 0 < Htr) (h : IsComposite Htr ms H1 H2) (h' : IsComposite Htr ms H1' H2') :
    H1 = H1' ∧ H2 = H2' := by
  have hm := composite_meanSquare_pos ht h
  have e : H1 = H1' := by
    rcases le_total H1 H1' with c | c
    · exact le_antisymm c (le_of_mul_le_mul_left (composite_scales ht h h' c) hm)
    · exact le_antisymm (le_of_mul_le_mul_left (composite_scales ht h' h c) hm) c
  refine ⟨e, ?_⟩
  rw [meet_scale ht h.pos1 h.pos2 h.meet, meet_scale ht h'.pos1 h'.pos2 h'.meet, e]

theorem gLow_continuous {a : ℝ} (ha : 1 ≤ a) : Continuous (gLow a) :=
  intervalIntegral.continuous_primitive (fun _ _ => (gint_continuous ha).intervalIntegrable _ _) 0

theorem bgE_continuousOn {Htr : ℝ} (ht : 0 < Htr) : ContinuousOn (bgE Htr) (Ioi 0) := by
  have hX : ContinuousOn (fun H : ℝ => (Htr / H) ^ 2) (Ioi 0) :=
    (continuousOn_const.div continuousOn_id fun x hx => (ne_of_gt hx)).pow 2
  have hX0 : ∀ x ∈ Ioi (0 : ℝ), (Htr / x) ^ 2 ≠ 0 := fun x hx => (pow_pos (div_pos ht hx) 2).ne'
  have key : ContinuousOn (fun H : ℝ => H ^ 2 * (gLow 2 ((Htr / H) ^ 2) +
      ((Htr / H) ^ 2) ^ (4 / 9 : ℝ) * (Real.Gamma (14 / 9) - gLow (14 / 9) ((Htr / H) ^ 2)))) (Ioi 0) := by
    refine (continuousOn_id.pow 2).mul (((gLow_continuous (by norm_num)).comp_continuousOn hX).add
      ((hX.rpow_const fun x hx => Or.inl (hX0 x hx)).mul (continuousOn_const.sub ((gLow_continuous (by norm_num)).comp_continuousOn hX))))
  refine key.congr fun H hH => ?_
  rw [bgE_sq ht hH, ← gLow_add_gUp (a := 14 / 9) (x := (Htr / H) ^ 2) (by norm_num) (by positivity)]
  ring

/-- **C164 (existence and uniqueness).**  For every transition height and every positive mean square there is exactly one composite
distribution. -/
theorem composite_exists_unique {Htr ms : ℝ} (ht : 0 < Htr) (hm : 0 < ms) : ∃! p : ℝ × ℝ, IsComposite Htr ms p.1 p.2 := by
  have hE := bgE_pos ht (show (0 : ℝ) < 1 by norm_num)
  have hc : 0 < ms / bgE Htr 1 := div_pos hm hE
  -- a scale with too small and one with too large a mean square
  have lo : ∃ a, 0 < a ∧ a ≤ 1 ∧ bgE Htr a ≤ ms := by
    refine ⟨min 1 (ms / bgE Htr 1), lt_min one_pos hc, min_le_left _ _, ?_⟩
    have k := bgE_ge_lin ht (lt_min one_pos hc) (min_le_left 1 (ms / bgE Htr 1))
    have : bgE Htr 1 * min 1 (ms / bgE Htr 1) ≤ ms := by
      calc bgE Htr 1 * min 1 (ms / bgE Htr 1) ≤ bgE Htr 1 * (ms / bgE Htr 1) := mul_le_mul_of_nonneg_left (min_le_right _ _) hE.le
        _ = ms := by field_simp
    linarith
  have hi : ∃ b, 1 ≤ b ∧ ms ≤ bgE Htr b := by
    refine ⟨max 1 (ms / bgE Htr 1), le_max_left _ _, ?_⟩
    have k := bgE_ge_lin ht one_pos (le_max_left 1 (ms / bgE Htr 1))
    have : ms ≤ bgE Htr 1 * max 1 (ms / bgE Htr 1) := by
      calc ms = bgE Htr 1 * (ms / bgE Htr 1) := by field_simp
        _ ≤ _ := mul_le_mul_of_nonneg_left (le_max_right _ _) hE.le
    linarith
  obtain ⟨a, a0, a1, ha⟩ := lo
  obtain ⟨b, b1, hb⟩ := hi
  have hcont : ContinuousOn (bgE Htr) (Icc a b) := (bgE_continuousOn ht).mono fun x hx => lt_of_lt_of_le a0 hx.1
  obtain ⟨H, hH, eH⟩ := intermediate_value_Icc (a1.trans b1) hcont ⟨ha, hb⟩
  have H0 : 0 < H := lt_of_lt_of_le a0 hH.1
  refine ⟨(H, bgH2 Htr H), ⟨H0, bgH2_pos ht H0, scale_meet ht H0, ?_⟩, ?_⟩
  · dsimp only
    rw [← bgE_eq_second_moment ht H0, eH]
  · rintro ⟨H1, H2⟩ h
    have h' : IsComposite Htr ms H (bgH2 Htr H) := ⟨H0, bgH2_pos ht H0, scale_meet ht H0, by rw [← bgE_eq_second_moment ht H0, eH]⟩
    obtain ⟨e1, e2⟩ := composite_unique ht h h'
    exact Prod.ext e1 e2

/-- **C164 (scale).**  If the mean square is within `tol` of 1, the first scale parameter is within that fraction of the exact one. -/
theorem composite_scale_accurate {Htr ms tol H1 H2 G1 G2 : ℝ} (ht : 0 < Htr) (h : IsComposite Htr ms H1 H2) (hms : |ms - 1| ≤ tol)
    (g : IsComposite Htr 1 G1 G2) : (1 - tol) * G1 ≤ H1 ∧ H1 ≤ (1 + tol) * G1 := by
  obtain ⟨a, b⟩ := abs_le.1 hms
  have h0 := h.pos1
  have g0 := g.pos1
  rcases le_total H1 G1 with c | c
  · have := composite_scales ht h g c
    constructor <;> nlinarith
  · have := composite_scales ht g h c
    constructor <;> nlinarith

/-! ## Heights of a given exceedance probability -/

/-- The shape of the composite distribution: `-ln P(H > u Htr)` in units of its value at the transition height. -/
noncomputable def bgShape (u : ℝ) : ℝ := if u < 1 then u ^ 2 else u ^ (36 / 10 : ℝ)

theorem composite_shape {Htr H1 H2 x : ℝ} (ht : 0 < Htr) (h2 : 0 < H2) (hx : 0 ≤ x)
    (h : weibullExc H1 2 Htr = weibullExc H2 (36 / 10) Htr) :
    compositeExc H1 H2 Htr x = Real.exp (-((Htr / H1) ^ 2 * bgShape (x / Htr))) := by
  unfold compositeExc weibullExc bgShape
  by_cases c : x < Htr
  · rw [if_pos c, if_pos ((div_lt_one ht).2 c), ← mul_pow, div_mul_div_comm, mul_comm H1 Htr, mul_div_mul_left _ _ ht.ne']
    norm_num
  · rw [if_neg c, if_neg (by rw [div_lt_one ht]; exact c), ← meet_power h, ← Real.mul_rpow (by positivity) (by positivity), div_mul_div_comm,
      mul_comm H2 Htr, mul_div_mul_left _ _ ht.ne']

theorem bgShape_strict {u v : ℝ} (hu : 0 ≤ u) (h : u < v) : bgShape u < bgShape v := by
  unfold bgShape
  by_cases c : v < 1
  · rw [if_pos (h.trans c), if_pos c]
    exact pow_lt_pow_left₀ h hu (by norm_num)
  · rw [if_neg c]
    have v1 := not_lt.1 c
    split_ifs with d
    · calc u ^ 2 < 1 := by nlinarith
        _ ≤ v ^ (36 / 10 : ℝ) := Real.one_le_rpow v1 (by norm_num)
    · exact Real.rpow_lt_rpow hu h (by norm_num)

theorem bgShape_nonneg {u : ℝ} (hu : 0 ≤ u) : 0 ≤ bgShape u := by
  unfold bgShape
  split_ifs
  · positivity
  · positivity

theorem bgShape_scale {u l : ℝ} (hu : 0 ≤ u) (hl : 1 ≤ l) : l ^ 2 * bgShape u ≤ bgShape (l * u) := by
  have l0 : 0 ≤ l := by linarith
  have big : ∀ y : ℝ, 1 ≤ y → y ^ 2 ≤ y ^ (36 / 10 : ℝ) := by
    intro y hy
    have := Real.rpow_le_rpow_of_exponent_le hy (show (2 : ℝ) ≤ 36 / 10 by norm_num)
    rwa [show (2 : ℝ) = ((2 : ℕ) : ℝ) by norm_num, Real.rpow_natCast] at this
  unfold bgShape
  by_cases c : l * u < 1
  · have : u < 1 := lt_of_le_of_lt (le_mul_of_one_le_left hu hl) c
    rw [if_pos this, if_pos c, mul_pow]
  · rw [if_neg c]
    split_ifs with d
    · rw [← mul_pow]; exact big _ (not_lt.1 c)
    · rw [Real.mul_rpow l0 hu]
      exact mul_le_mul_of_nonneg_right (big l hl) (Real.rpow_nonneg hu _)

/-- Larger scales: the height of a given exceedance probability grows, and at most as fast as the first scale parameter. -/
theorem composite_quantile_scale {Htr H1 H2 G1 G2 x y p : ℝ} (ht : 0 < Htr) (h1 : 0 < H1) (h2 : 0 < H2) (g1 : 0 < G1) (g2 : 0 < G2)
    (h : weibullExc H1 2 Htr = weibullExc H2 (36 / 10) Htr) (g : weibullExc G1 2 Htr = weibullExc G2 (36 / 10) Htr) (hx : 0 ≤ x) (hy : 0 ≤ y)
    (ex : compositeExc H1 H2 Htr x = p) (ey : compositeExc G1 G2 Htr y = p) (hle : H1 ≤ G1) : x ≤ y ∧ y * H1 ≤ x * G1 := by
  have e : (Htr / H1) ^ 2 * bgShape (x / Htr) = (Htr / G1) ^ 2 * bgShape (y / Htr) := by
    have := ex.trans ey.symm
    rw [composite_shape ht h2 hx h, composite_shape ht g2 hy g] at this
    exact neg_injective (Real.exp_injective this)
  have e' : (G1 / H1) ^ 2 * bgShape (x / Htr) = bgShape (y / Htr) := by
    have q : (Htr / G1) ^ 2 ≠ 0 := (pow_pos (div_pos ht g1) 2).ne'
    apply mul_left_cancel₀ q
    rw [← e, ← mul_assoc, ← mul_pow]
    congr 2
    field_simp
  have hu : 0 ≤ x / Htr := div_nonneg hx ht.le
  have hv : 0 ≤ y / Htr := div_nonneg hy ht.le
  have hl : 1 ≤ G1 / H1 := (one_le_div h1).2 hle
  constructor
  · by_contra c
    push Not at c
    have s := bgShape_strict hv (div_lt_div_of_pos_right c ht)
    have := bgShape_nonneg hu
    have : 1 * bgShape (x / Htr) ≤ (G1 / H1) ^ 2 * bgShape (x / Htr) := mul_le_mul_of_nonneg_right (one_le_pow₀ hl) this
    linarith
  · by_contra c
    push Not at c
    have c' : G1 / H1 * (x / Htr) < y / Htr := by
      rw [div_mul_div_comm, div_lt_div_iff₀ (mul_pos h1 ht) ht]
      nlinarith
    have s := bgShape_strict (mul_nonneg (by linarith) hu) c'
    have := bgShape_scale hu hl
    linarith

/-- **C164 (heights).**  If the mean square is within `tol` of 1, every height of given exceedance probability is within that fraction of
the exact one. -/
theorem composite_height_accurate {Htr ms tol H1 H2 G1 G2 x y p : ℝ} (ht : 0 < Htr) (h : IsComposite Htr ms H1 H2) (hms : |ms - 1| ≤ tol)
    (g : IsComposite Htr 1 G1 G2) (hx : 0 ≤ x) (hy : 0 ≤ y) (ex : compositeExc H1 H2 Htr x = p) (ey : compositeExc G1 G2 Htr y = p) :
    (1 - tol) * y ≤ x ∧ x ≤ (1 + tol) * y := by
  obtain ⟨s1, s2⟩ := composite_scale_accurate ht h hms g
  have t0 : 0 ≤ tol := (abs_nonneg _).trans hms
  have h0 := h.pos1
  have g0 := g.pos1
  rcases le_total H1 G1 with c | c
  · obtain ⟨q1, q2⟩ := composite_quantile_scale ht h0 h.pos2 g0 g.pos2 h.meet g.meet hx hy ex ey c
    refine ⟨?_, by nlinarith⟩
    have : (1 - tol) * y * G1 ≤ x * G1 := by nlinarith
    exact le_of_mul_le_mul_right this g0
  · obtain ⟨q1, q2⟩ := composite_quantile_scale ht g0 g.pos2 h0 h.pos2 g.meet h.meet hy hx ey ex c
    refine ⟨by nlinarith, ?_⟩
    have : x * G1 ≤ (1 + tol) * y * G1 := by nlinarith
    exact le_of_mul_le_mul_right this g0

/-- **C164 (probability).**  `-ln P` at any height, here at the transition height, is within the factors `(1 ± tol)^-2` of the exact one. -/
theorem composite_prob_accurate {Htr ms tol H1 H2 G1 G2 : ℝ} (ht : 0 < Htr) (h : IsComposite Htr ms H1 H2) (hms : |ms - 1| ≤ tol)
    (h1 : tol < 1) (g : IsComposite Htr 1 G1 G2) :
    compositeExc G1 G2 Htr Htr ^ (1 / (1 - tol) ^ 2) ≤ compositeExc H1 H2 Htr Htr ∧
      compositeExc H1 H2 Htr Htr ≤ compositeExc G1 G2 Htr Htr ^ (1 / (1 + tol) ^ 2) := by
  obtain ⟨s1, s2⟩ := composite_scale_accurate ht h hms g
  have t0 : 0 ≤ tol := (abs_nonneg _).trans hms
  have h0 := h.pos1
  have g0 := g.pos1
  have one : bgShape (Htr / Htr) = 1 := by unfold bgShape; rw [div_self ht.ne']; norm_num
  rw [composite_shape ht h.pos2 ht.le h.meet, composite_shape ht g.pos2 ht.le g.meet, one, mul_one, mul_one, ← Real.exp_mul, ← Real.exp_mul]
  have m1 : 0 < 1 - tol := by linarith
  have p1 : 0 < 1 + tol := by linarith
  constructor
  · apply Real.exp_le_exp.2
    rw [neg_mul]
    apply neg_le_neg
    have : Htr / H1 ≤ Htr / ((1 - tol) * G1) := div_le_div_of_nonneg_left ht.le (mul_pos m1 g0) s1
    calc (Htr / H1) ^ 2 ≤ (Htr / ((1 - tol) * G1)) ^ 2 := pow_le_pow_left₀ (div_pos ht h0).le this 2
      _ = _ := by field_simp
  · apply Real.exp_le_exp.2
    rw [neg_mul]
    apply neg_le_neg
    have : Htr / ((1 + tol) * G1) ≤ Htr / H1 := div_le_div_of_nonneg_left ht.le h0 s2
    calc _ = (Htr / ((1 + tol) * G1)) ^ 2 := by field_simp
      _ ≤ (Htr / H1) ^ 2 := pow_le_pow_left₀ (div_pos ht (mul_pos p1 g0)).le this 2

/-- Every composite distribution has a height exceeded with probability `1/n`. -/
theorem composite_height_exists {Htr ms H1 H2 : ℝ} (ht : 0 < Htr) (h : IsComposite Htr ms H1 H2) {n : ℕ} (hn : 1 ≤ n) :
    ∃ y, 0 ≤ y ∧ compositeExc H1 H2 Htr y = 1 / n := by
  have hq := composite_quantile ht h.pos1 hn
  rw [← meet_scale ht h.pos1 h.pos2 h.meet] at hq
  refine ⟨_, ?_, hq⟩
  have hl : 0 ≤ Real.log n := Real.log_natCast_nonneg n
  split_ifs
  · exact mul_nonneg h.pos1.le (Real.rpow_nonneg hl _)
  · exact mul_nonneg h.pos2.le (Real.rpow_nonneg hl _)

/-! ## The function -/

/-- **C164.**  When the function returns a distribution (tolerance below 1), let `G1`, `G2` be the scale parameters of the exact distribution
(mean square 1), `y` the height that distribution exceeds with probability `1/nwave` and `yR` that of the Rayleigh distribution.  The last
returned height is within a fraction `tol` of the smaller of `y`, `yR`; the returned probability at the transition height `P` is such that
`ln P` is within the factors `(1 ± tol)^-2` of the exact one; and the heights are `0`, the transition height and that height. -/
theorem bg_accurate {hm0 depth cota tol : ℝ} {nwave fuel : ℕ} {R : BGResult} (hpos : 0 < hm0) (htol : tol < 1) (hd : 0 < depth)
    (hR : battjesGroenendijk hm0 nwave depth cota tol fuel = some (.ok R)) (hne : R.heights ≠ []) {Htr Hrms : ℝ}
    (eT : Htr = (0.35 + 5.8 / cota) * depth) (eH : Hrms = bgSpecHrms hm0 depth) {G1 G2 y yR : ℝ}
    (g : IsComposite (Htr / Hrms) 1 G1 G2) (hy : 0 ≤ y) (ey : compositeExc G1 G2 (Htr / Hrms) (y / Hrms) = 1 / nwave)
    (hyR : 0 ≤ yR) (eyR : Real.exp (-2 * (yR / hm0) ^ 2) = 1 / nwave) :
    ∃ h P : ℝ, R.heights = [0, Htr, h] ∧ R.probs = [1, P, 1 / nwave] ∧
      (1 - tol) * min y yR ≤ h ∧ h ≤ (1 + tol) * min y yR ∧
      compositeExc G1 G2 (Htr / Hrms) (Htr / Hrms) ^ (1 / (1 - tol) ^ 2) ≤ P ∧
      P ≤ compositeExc G1 G2 (Htr / Hrms) (Htr / Hrms) ^ (1 / (1 + tol) ^ 2) := by
  obtain ⟨H1, H2, T, M, x, xR, a1, a2, a3, a4, a5, a6, a7, a8, a9, b1, b2, b3, b4, b5, b6⟩ := bg_consistent hd hR hne
  have hT : T = Htr := by rw [a5, eT]
  have hM : M = Hrms := by rw [a6, eH]
  subst hT hM
  have hn : 0 < T / M := div_pos a3 a4
  have hc : IsComposite (T / M) (compositeSecondMoment H1 H2 (T / M)) H1 H2 := ⟨a1, a2, a8, rfl⟩
  have t0 : 0 ≤ tol := (abs_nonneg _).trans a7
  obtain ⟨q1, q2⟩ := composite_height_accurate hn hc a7 g (div_nonneg a9 a4.le) (div_nonneg hy a4.le) b1 ey
  obtain ⟨r1, r2⟩ := composite_prob_accurate hn hc a7 htol g
  have q1' : (1 - tol) * y ≤ x := by
    have := mul_le_mul_of_nonneg_right q1 a4.le
    rwa [mul_assoc, div_mul_cancel₀ _ a4.ne', div_mul_cancel₀ _ a4.ne'] at this
  have q2' : x ≤ (1 + tol) * y := by
    have := mul_le_mul_of_nonneg_right q2 a4.le
    rwa [mul_assoc, div_mul_cancel₀ _ a4.ne', div_mul_cancel₀ _ a4.ne'] at this
  have eR : xR = yR := by
    have s : (xR / hm0) ^ 2 = (yR / hm0) ^ 2 := by
      have := Real.exp_injective (b3.trans eyR.symm)
      linarith
    have := (pow_left_inj₀ b2 (div_nonneg hyR hpos.le) (by norm_num)).1 s
    rwa [div_left_inj' hpos.ne'] at this
  subst eR
  refine ⟨min x xR, compositeExc H1 H2 (T / M) (T / M), b4, by rw [b5, b6], ?_, ?_, r1, r2⟩
  · apply le_min
    · exact (mul_le_mul_of_nonneg_left (min_le_left _ _) (by linarith)).trans q1'
    · have := mul_le_mul_of_nonneg_left (min_le_right y xR) (show 0 ≤ 1 - tol by linarith)
      nlinarith
  · rw [mul_min_of_nonneg _ _ (by linarith)]
    apply min_le_min q2'
    nlinarith

/-- **C164 (two tolerances).**  Whatever the tolerances, slopes of descent and number of rounds, two results for the same sea differ by
at most the sum of the tolerances (relative to the exact height). -/
theorem bg_tolerances {hm0 depth cota tol tol' : ℝ} {nwave fuel fuel' : ℕ} {R R' : BGResult} (hpos : 0 < hm0) (htol : tol < 1) (htol' : tol' < 1) (hd : 0 < depth)
    (hR : battjesGroenendijk hm0 nwave depth cota tol fuel = some (.ok R)) (hne : R.heights ≠ [])
    (hR' : battjesGroenendijk hm0 nwave depth cota tol' fuel' = some (.ok R')) (hne' : R'.heights ≠ []) :
    ∃ Htr h h' e : ℝ, R.heights = [0, Htr, h] ∧ R'.heights = [0, Htr, h'] ∧ |h - h'| ≤ (tol + tol') * e ∧ (1 - tol) * e ≤ h := by
  obtain ⟨H1, H2, T, M, x, xR, a1, a2, a3, a4, a5, a6, a7, a8, a9, b1, b2, b3, b4, b5, b6⟩ := bg_consistent hd hR hne
  obtain ⟨p, g, -⟩ := composite_exists_unique (ms := 1) (div_pos a3 a4) one_pos
  have hnw : 1 ≤ nwave := by
    by_contra c
    have : nwave = 0 := by omega
    rw [this] at b3
    norm_num at b3
  have hxR : 0 ≤ xR := by
    have := mul_nonneg b2 hpos.le
    rwa [div_mul_cancel₀ _ hpos.ne'] at this
  -- the exact height
  obtain ⟨y0, y0n, hq⟩ := composite_height_exists (div_pos a3 a4) g hnw
  have ey : compositeExc p.1 p.2 (T / M) (y0 * M / M) = 1 / nwave := by rw [mul_div_cancel_right₀ _ a4.ne']; exact hq
  obtain ⟨h, P, c1, -, c3, c4, -⟩ := bg_accurate hpos htol hd hR hne a5 a6 g (mul_nonneg y0n a4.le) ey hxR b3
  obtain ⟨h', P', d1, -, d3, d4, -⟩ := bg_accurate hpos htol' hd hR' hne' a5 a6 g (mul_nonneg y0n a4.le) ey hxR b3
  refine ⟨T, h, h', min (y0 * M) xR, c1, d1, ?_, c3⟩
  rw [abs_le]
  constructor <;> linarith

theorem composite_anti {Htr H1 H2 x y : ℝ} (ht : 0 < Htr) (h1 : 0 < H1) (h2 : 0 < H2) (h : weibullExc H1 2 Htr = weibullExc H2 (36 / 10) Htr)
    (hx : 0 ≤ x) (hy : 0 ≤ y) : compositeExc H1 H2 Htr y < compositeExc H1 H2 Htr x ↔ x < y := by
  rw [composite_shape ht h2 hx h, composite_shape ht h2 hy h, Real.exp_lt_exp, neg_lt_neg_iff, mul_lt_mul_iff_right₀ (pow_pos (div_pos ht h1) 2)]
  have a := div_nonneg hx ht.le
  have b := div_nonneg hy ht.le
  constructor
  · intro c
    by_contra d
    rcases (not_lt.1 d).lt_or_eq with d | d
    · exact absurd (bgShape_strict b (div_lt_div_of_pos_right d ht)) (not_lt.2 c.le)
    · rw [d] at c; exact lt_irrefl _ c
  · intro c
    exact bgShape_strict a (div_lt_div_of_pos_right c ht)

/-- **C164 (order).**  If the last height is not below the transition height, the three probabilities do not increase; if the probability at the
transition height is below `1/nwave`, the last height is below the transition height: the two orders are never contradictory in that way. -/
theorem bg_ordered {hm0 depth cota tol : ℝ} {nwave fuel : ℕ} {R : BGResult} (hd : 0 < depth)
    (hR : battjesGroenendijk hm0 nwave depth cota tol fuel = some (.ok R)) (hne : R.heights ≠ []) :
    ∃ Htr h P : ℝ, 0 < Htr ∧ R.heights = [0, Htr, h] ∧ R.probs = [1, P, 1 / nwave] ∧ 0 < P ∧ P < 1 ∧ (Htr ≤ h → 1 / nwave ≤ P) := by
  obtain ⟨H1, H2, T, M, x, xR, a1, a2, a3, a4, a5, a6, a7, a8, a9, b1, b2, b3, b4, b5, b6⟩ := bg_consistent hd hR hne
  have hn : 0 < T / M := div_pos a3 a4
  refine ⟨T, min x xR, compositeExc H1 H2 (T / M) (T / M), a3, b4, by rw [b5, b6], ?_, ?_, ?_⟩
  · rw [composite_shape hn a2 hn.le a8]; exact Real.exp_pos _
  · rw [← b6]; exact (composite_anti hn a1 a2 a8 le_rfl hn.le).2 hn
  · intro c
    have hx : T ≤ x := c.trans (min_le_left _ _)
    by_contra d
    push Not at d
    rw [← b1] at d
    have := (composite_anti hn a1 a2 a8 (div_nonneg a9 a4.le) hn.le).1 d
    exact absurd ((div_lt_div_iff_of_pos_right a4).1 this) (not_lt.2 hx)

/-- **C164 (finding).**  For a single wave the returned curve goes back: height 0 twice, both times with probability 1, with the transition height in
between. -/
theorem bg_one_wave {hm0 depth cota tol : ℝ} {fuel : ℕ} {R : BGResult} (hpos : hm0 ≠ 0) (hd : 0 < depth)
    (hR : battjesGroenendijk hm0 1 depth cota tol fuel = some (.ok R)) (hne : R.heights ≠ []) :
    ∃ Htr P : ℝ, 0 < Htr ∧ P < 1 ∧ R.heights = [0, Htr, 0] ∧ R.probs = [1, P, 1] := by
  obtain ⟨H1, H2, T, M, x, xR, a1, a2, a3, a4, a5, a6, a7, a8, a9, b1, b2, b3, b4, b5, b6⟩ := bg_consistent hd hR hne
  have hn : 0 < T / M := div_pos a3 a4
  norm_num at b1 b3 b5
  have hx : x = 0 := by
    by_contra c
    have := (composite_anti hn a1 a2 a8 le_rfl (div_nonneg a9 a4.le)).2 (div_pos (lt_of_le_of_ne a9 (Ne.symm c)) a4)
    rw [b1, b6] at this
    exact lt_irrefl _ this
  have hxR : xR = 0 := by
    rcases b3 with c | c
    · exact c
    · exact absurd c hpos
  refine ⟨T, compositeExc H1 H2 (T / M) (T / M), a3, ?_, by rw [b4, hx, hxR, min_self], by rw [b5, b6]⟩
  rw [← b6]; exact (composite_anti hn a1 a2 a8 le_rfl hn.le).2 hn

/-! ## Concrete cases: the hypotheses of the theorems above are met -/

theorem bg_documented (n : ℕ) (hn : 1 ≤ n) {tol : ℝ} (ht : 0 < tol) (h1 : tol < 9) :
    ∃ fuel R, battjesGroenendijk 2 n 4.5 50 tol fuel = some (.ok R) ∧ R.heights ≠ [] := by
  obtain ⟨fuel, R, h, hiff⟩ := bg_returns (hm0 := 2) (depth := 4.5) (cota := 50) (tol := tol) (nwave := n) (by norm_num) hn
    (by norm_num) (by norm_num) ht h1
  refine ⟨fuel, R, h, fun hc => ?_⟩
  have := hiff.1 hc
  unfold bgSpecHrms at this
  norm_num at this

/-- The documented example: there is an exact distribution, with heights exceeded once in 700 waves, and the function's height is within 1e-5 of it. -/
example : ∃ fuel R h, battjesGroenendijk 2 700 4.5 50 (1 / 10 ^ 5) fuel = some (.ok R) ∧ R.heights = [0, (0.35 + 5.8 / 50) * 4.5, h] ∧
    ∃ e, (1 - 1 / 10 ^ 5) * e ≤ h ∧ h ≤ (1 + 1 / 10 ^ 5) * e := by
  obtain ⟨fuel, R, hR, hne⟩ := bg_documented 700 (by norm_num) (tol := 1 / 10 ^ 5) (by norm_num) (by norm_num)
  have hH : 0 < bgSpecHrms 2 4.5 := by unfold bgSpecHrms; norm_num
  have hT : 0 < (0.35 + 5.8 / 50) * 4.5 / bgSpecHrms 2 4.5 := div_pos (by norm_num) hH
  obtain ⟨p, g, -⟩ := composite_exists_unique (ms := 1) hT one_pos
  obtain ⟨y0, y0n, hq⟩ := composite_height_exists hT g (show 1 ≤ 700 by norm_num)
  obtain ⟨h, P, c1, -, c3, c4, -⟩ := bg_accurate (by norm_num) (by norm_num) (by norm_num) hR hne rfl rfl g (y := y0 * bgSpecHrms 2 4.5) (mul_nonneg y0n hH.le)
    (by rw [mul_div_cancel_right₀ _ hH.ne']; exact hq) (yR := exponweibPpf 700 (Real.sqrt 8) / 4 * 2)
    (by unfold exponweibPpf; positivity) (rayleigh_quantile (by norm_num) (by norm_num))
  exact ⟨fuel, R, h, hR, c1, _, c3, c4⟩

/-- Two tolerances. -/
example : ∃ fuel R fuel' R' Htr h h' e, battjesGroenendijk 2 700 4.5 50 (1 / 10 ^ 5) fuel = some (.ok R) ∧
    battjesGroenendijk 2 700 4.5 50 (1 / 10) fuel' = some (.ok R') ∧ R.heights = [0, Htr, h] ∧ R'.heights = [0, Htr, h'] ∧
    |h - h'| ≤ (1 / 10 ^ 5 + 1 / 10) * e := by
  obtain ⟨fuel, R, hR, hne⟩ := bg_documented 700 (by norm_num) (tol := 1 / 10 ^ 5) (by norm_num) (by norm_num)
  obtain ⟨fuel', R', hR', hne'⟩ := bg_documented 700 (by norm_num) (tol := 1 / 10) (by norm_num) (by norm_num)
  obtain ⟨Htr, h, h', e, a, b, c, -⟩ := bg_tolerances (by norm_num) (by norm_num) (by norm_num) (by norm_num) hR hne hR' hne'
  exact ⟨fuel, R, fuel', R', Htr, h, h', e, hR, hR', a, b, c⟩

/-- A single wave in the documented sea; `bg_ordered` for 700 waves. -/
example : ∃ fuel R, ∃ Htr P : ℝ, battjesGroenendijk 2 1 4.5 50 (1 / 10 ^ 5) fuel = some (.ok R) ∧ 0 < Htr ∧ P < 1 ∧ R.heights = [0, Htr, 0] ∧
    R.probs = [1, P, 1] := by
  obtain ⟨fuel, R, hR, hne⟩ := bg_documented 1 le_rfl (tol := 1 / 10 ^ 5) (by norm_num) (by norm_num)
  obtain ⟨Htr, P, a, b, c, d⟩ := bg_one_wave (by norm_num) (by norm_num) hR hne
  exact ⟨fuel, R, Htr, P, hR, a, b, c, d⟩

example : ∃ fuel R, ∃ Htr h P : ℝ, battjesGroenendijk 2 700 4.5 50 (1 / 10 ^ 5) fuel = some (.ok R) ∧ R.heights = [0, Htr, h] ∧ 0 < P ∧ P < 1 ∧
    (Htr ≤ h → 1 / 700 ≤ P) := by
  obtain ⟨fuel, R, hR, hne⟩ := bg_documented 700 (by norm_num) (tol := 1 / 10 ^ 5) (by norm_num) (by norm_num)
  obtain ⟨Htr, h, P, -, a, -, b, c, d⟩ := bg_ordered (by norm_num) hR hne
  exact ⟨fuel, R, Htr, h, P, hR, a, b, c, by simpa using d⟩

end Verif
