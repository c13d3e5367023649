import Verif.Model.FloatSynthDraw
import Verif.Props.Synth
import Verif.Props.FloatSynth
import Verif.Props.FloatStat

/-! # C179: interpolation of the density in double precision -/

namespace Verif

/-! ## Doubles -/

theorem IsDouble.negate {x : ℚ} (h : IsDouble x) : IsDouble (-x) := by
  obtain ⟨m, e, h1, h2, h3⟩ := h
  exact ⟨-m, e, by rwa [abs_neg], h2, by rw [h3]; push_cast; ring⟩

/-- Two doubles as multiples of one power of two, one of them with at most 53 bits. -/
theorem common_unit {p q : ℚ} (hp : IsDouble p) (hq : IsDouble q) :
    ∃ a b e : ℤ, p = a * 2 ^ e ∧ q = b * 2 ^ e ∧ -1074 ≤ e ∧ (|a| ≤ 2 ^ 53 ∨ |b| ≤ 2 ^ 53) := by
  obtain ⟨m, e, h1, h2, h3⟩ := hp
  obtain ⟨m', e', h1', h2', h3'⟩ := hq
  rcases le_total e e' with h | h
  · refine ⟨m, m' * 2 ^ (e' - e).toNat, e, h3, ?_, h2, Or.inl h1⟩
    rw [h3']
    push_cast
    rw [mul_assoc, ← zpow_natCast, Int.toNat_of_nonneg (by omega), ← zpow_add₀ (by norm_num)]
    congr 2
    omega
  · refine ⟨m * 2 ^ (e - e').toNat, m', e', ?_, h3', h2', Or.inr h1'⟩
    rw [h3]
    push_cast
    rw [mul_assoc, ← zpow_natCast, Int.toNat_of_nonneg (by omega), ← zpow_add₀ (by norm_num)]
    congr 2
    omega

/-- Distinct positive doubles differ by at least `2 ^ -53` of the smaller. -/
theorem double_gap {p q : ℚ} (hp : IsDouble p) (hq : IsDouble q) (h0 : 0 ≤ p) (h : p < q) : p * (1 + 1 / 2 ^ 53) ≤ q := by
  obtain ⟨a, b, e, ea, eb, he, hab⟩ := common_unit hp hq
  have u0 : (0 : ℚ) < 2 ^ e := by positivity
  have hlt : a < b := by
    rw [ea, eb] at h
    exact_mod_cast lt_of_mul_lt_mul_right h u0.le
  have ha0 : 0 ≤ a := by
    rw [ea] at h0
    have := nonneg_of_mul_nonneg_left h0 u0
    exact_mod_cast this
  have ha : a ≤ 2 ^ 53 := by
    rcases hab with h | h
    · exact (le_abs_self a).trans h
    · exact hlt.le.trans ((le_abs_self b).trans h)
  rw [ea, eb, mul_right_comm]
  apply mul_le_mul_of_nonneg_right _ u0.le
  have h1 : (a : ℚ) + 1 ≤ b := by exact_mod_cast hlt
  have h2 : (a : ℚ) ≤ 2 ^ 53 := by exact_mod_cast ha
  have h3 : (a : ℚ) / 2 ^ 53 ≤ 1 := by rw [div_le_one (by positivity)]; exact h2
  have : (a : ℚ) * (1 + 1 / 2 ^ 53) = a + a / 2 ^ 53 := by ring
  linarith

/-- Sterbenz: the difference of doubles within a factor two is a double. -/
theorem double_sub {x y : ℚ} (hx : IsDouble x) (hy : IsDouble y) (h1 : x ≤ y) (h2 : y ≤ 2 * x) : IsDouble (y - x) := by
  obtain ⟨a, b, e, ea, eb, he, hab⟩ := common_unit hx hy
  have u0 : (0 : ℚ) < 2 ^ e := by positivity
  have h1' : a ≤ b := by
    rw [ea, eb] at h1
    exact_mod_cast le_of_mul_le_mul_right h1 u0
  have h2' : b ≤ 2 * a := by
    rw [ea, eb, ← mul_assoc] at h2
    exact_mod_cast le_of_mul_le_mul_right h2 u0
  refine ⟨b - a, e, ?_, he, by rw [ea, eb]; push_cast; ring⟩
  rw [abs_of_nonneg (by omega)]
  rcases hab with h | h
  · rw [abs_of_nonneg (by omega)] at h; omega
  · rw [abs_of_nonneg (by omega)] at h; omega

/-! ## The sign -/

/-- One cell. -/
theorem interp_cell_nonneg {x0 x1 y0 y1 x : ℚ} (d0 : IsDouble x0) (d1 : IsDouble x1) (dx : IsDouble x) (dy : IsDouble y0) (hx0 : 0 ≤ x0)
    (hx : x0 ≤ x) (hx1 : x < x1) (hM : x1 ≤ 2 ^ 40) (hgap : x0 = 0 ∨ x1 ≤ 2 * x0) (hy0 : y0 = 0 ∨ 1 / 2 ^ 100 ≤ y0) (hy1 : 0 ≤ y1) :
    0 ≤ f64 (f64 (f64 (f64 (y1 - y0) / f64 (x1 - x0)) * f64 (x - x0)) + y0) := by
  have y00 : 0 ≤ y0 := by
    rcases hy0 with h | h
    · rw [h]
    · exact le_trans (by positivity) h
  have sub : ∀ z, IsDouble z → x0 ≤ z → z ≤ x1 → IsDouble (z - x0) := by
    intro z hz h1 h2
    rcases hgap with h | h
    · rw [h, sub_zero]; exact hz
    · exact double_sub d0 hz h1 (h2.trans h)
  have e1 : f64 (x1 - x0) = x1 - x0 := f64_of_double (sub x1 d1 (hx.trans hx1.le) le_rfl)
  have e2 : f64 (x - x0) = x - x0 := f64_of_double (sub x dx hx hx1.le)
  rw [e1, e2]
  have hd : 0 < x1 - x0 := by linarith
  apply f64_nonneg
  rcases le_total y0 y1 with h | h
  · have := f64_nonneg (sub_nonneg.2 h)
    have := f64_nonneg (div_nonneg this hd.le)
    have := f64_nonneg (mul_nonneg this (sub_nonneg.2 hx))
    linarith
  · have g := double_gap (sub x dx hx hx1.le) (sub x1 d1 (hx.trans hx1.le) le_rfl) (sub_nonneg.2 hx) (by linarith)
    have k1 : -y0 ≤ f64 (y1 - y0) := (f64_mono_double dy.negate).1 (by linarith)
    have k2 : -(y0 / (x1 - x0)) ≤ f64 (y1 - y0) / (x1 - x0) := by
      rw [← neg_div]
      exact div_le_div_of_nonneg_right k1 hd.le
    have k3 : -(y0 / (x1 - x0) * (1 + 1 / 2 ^ 53)) ≤ f64 (f64 (y1 - y0) / (x1 - x0)) := by
      refine le_trans ?_ (f64_mono k2)
      rcases hy0 with h | h
      · rw [h]; simp [f64_zero]
      · have b : 1 / 2 ^ 200 ≤ |-(y0 / (x1 - x0))| := by
          rw [abs_neg, abs_of_nonneg (by positivity), le_div_iff₀ hd]
          refine le_trans ?_ h
          calc (1 : ℚ) / 2 ^ 200 * (x1 - x0) ≤ 1 / 2 ^ 200 * 2 ^ 40 := mul_le_mul_of_nonneg_left (by linarith) (by positivity)
            _ ≤ 1 / 2 ^ 100 := by norm_num
        obtain ⟨δ, hδ, e⟩ := f64_rel b
        rw [e, neg_mul]
        apply neg_le_neg
        exact mul_le_mul_of_nonneg_left (by linarith [(abs_le.1 hδ).2]) (by positivity)
    have k4 : -y0 ≤ f64 (f64 (y1 - y0) / (x1 - x0)) * (x - x0) := by
      refine le_trans ?_ (mul_le_mul_of_nonneg_right k3 (sub_nonneg.2 hx))
      rw [neg_mul]
      apply neg_le_neg
      calc y0 / (x1 - x0) * (1 + 1 / 2 ^ 53) * (x - x0) = y0 / (x1 - x0) * ((x - x0) * (1 + 1 / 2 ^ 53)) := by ring
        _ ≤ y0 / (x1 - x0) * (x1 - x0) := mul_le_mul_of_nonneg_left g (by positivity)
        _ = y0 := by field_simp
    have k5 := (f64_mono_double dy.negate).1 k4
    linarith

/-- **C179 (sign).**  For frequencies of which each is zero or at least half the next (as in every axis that starts at zero with constant step) and
densities that are zero or at least `2 ^ -100`, the density interpolated in double precision is not negative at any frequency. -/
theorem interp_nonneg_double : ∀ {f S : List ℚ}, f.length = S.length → f.Pairwise (· < ·) → (∀ v ∈ f, IsDouble v ∧ 0 ≤ v ∧ v ≤ 2 ^ 40) →
    (∀ i, i + 1 < f.length → f.getD i 0 = 0 ∨ f.getD (i + 1) 0 ≤ 2 * f.getD i 0) →
    (∀ v ∈ S, IsDouble v ∧ (v = 0 ∨ 1 / 2 ^ 100 ≤ v)) → ∀ {x : ℚ}, IsDouble x → 0 ≤ npInterpF64 f S x
  | [], _, _, _, _, _, _, _, _ => by simp [npInterpF64]
  | [x0], S, hl, _, _, _, hS, x, _ => by
    obtain ⟨y0, rfl⟩ := List.length_eq_one_iff.1 hl.symm
    unfold npInterpF64
    split_ifs
    · rcases (hS y0 (by simp)).2 with h | h
      · rw [h]
      · exact le_trans (by positivity) h
    · exact le_rfl
  | x0 :: x1 :: xs, [], hl, _, _, _, _, _, _ => by simp at hl
  | x0 :: x1 :: xs, [_], hl, _, _, _, _, _, _ => by simp at hl
  | x0 :: x1 :: xs, y0 :: y1 :: ys, hl, hp, hf, hg, hS, x, hx => by
    have nn : ∀ v ∈ y0 :: y1 :: ys, 0 ≤ v := fun v hv => by
      rcases (hS v hv).2 with h | h
      · rw [h]
      · exact le_trans (by positivity) h
    unfold npInterpF64
    split_ifs with h1 h2 h3
    · exact le_rfl
    · exact nn _ (by simp)
    · obtain ⟨a1, a2, a3⟩ := hf x0 (by simp)
      obtain ⟨b1, b2, b3⟩ := hf x1 (by simp)
      exact interp_cell_nonneg a1 b1 hx (hS y0 (by simp)).1 a2 (not_lt.1 h1) h2 b3 (by simpa using hg 0 (by simp)) (hS y0 (by simp)).2 (nn y1 (by simp))
    · refine interp_nonneg_double (by simpa using hl) (List.pairwise_cons.1 hp).2 (fun v hv => hf v (by simp_all)) (fun i hi => ?_)
        (fun v hv => hS v (by simp_all)) hx
      have := hg (i + 1) (by simpa using hi)
      simpa using this

/-! ## The accuracy -/

theorem add_factor {a b : ℚ} (ha : IsDouble a) (hb : IsDouble b) : ∃ c : ℚ, |c| ≤ 1 / 2 ^ 53 ∧ f64 (a + b) = (a + b) * (1 + c) := by
  have h := f64_add_error ha hb
  by_cases h0 : a + b = 0
  · exact ⟨0, by simp, by rw [h0, f64_zero]; simp⟩
  · refine ⟨(f64 (a + b) - (a + b)) / (a + b), ?_, by field_simp; ring⟩
    rw [abs_div, div_le_iff₀ (abs_pos.2 h0)]
    calc _ ≤ _ := h
      _ = _ := by ring

theorem sub_factor {a b : ℚ} (ha : IsDouble a) (hb : IsDouble b) : ∃ c : ℚ, |c| ≤ 1 / 2 ^ 53 ∧ f64 (a - b) = (a - b) * (1 + c) := by
  have := add_factor ha hb.negate
  rwa [← sub_eq_add_neg] at this

/-- One cell. -/
theorem interp_cell_double {x0 x1 y0 y1 x M : ℚ} (d0 : IsDouble x0) (d1 : IsDouble x1) (dx : IsDouble x) (e0 : IsDouble y0) (e1 : IsDouble y1)
    (hx0 : 0 ≤ x0) (hx : x0 ≤ x) (hx1 : x < x1) (hM : x1 ≤ 2 ^ 40) (hy0 : 0 ≤ y0) (hy1 : 0 ≤ y1) (hy0M : y0 ≤ M) (hy1M : y1 ≤ M) :
    |f64 (f64 (f64 (f64 (y1 - y0) / f64 (x1 - x0)) * f64 (x - x0)) + y0) - ((y1 - y0) / (x1 - x0) * (x - x0) + y0)| ≤ M / 2 ^ 49 + 1 / 2 ^ 100 := by
  have M0 : 0 ≤ M := hy0.trans hy0M
  have hd : 0 < x1 - x0 := by linarith
  obtain ⟨c, hc, ec⟩ := sub_factor e1 e0
  obtain ⟨b, hb, eb⟩ := sub_factor d1 d0
  obtain ⟨a, ha, ea⟩ := sub_factor dx d0
  have hκ := ratio_near hb hc
  set κ := (1 + c) / (1 + b) with hκd
  obtain ⟨b1, b2⟩ := abs_le.1 hb
  obtain ⟨a1, a2⟩ := abs_le.1 ha
  obtain ⟨κ1, κ2⟩ := abs_le.1 hκ
  have hb0 : (0 : ℚ) < 1 + b := by linarith
  set ρ := (y1 - y0) / (x1 - x0) with hρ
  have q1 : f64 (y1 - y0) / f64 (x1 - x0) = ρ * κ := by
    rw [ec, eb, hρ, hκd]
    field_simp
  have s1 := f64_abs (ρ * κ)
  rw [q1, ea]
  set s := f64 (ρ * κ) with hs
  set e := x - x0 with he
  have he0 : 0 ≤ e := by linarith
  have hed : e ≤ x1 - x0 := by linarith
  have he40 : e ≤ 2 ^ 40 := by linarith
  have hΔ : |y1 - y0| ≤ M := by rw [abs_le]; constructor <;> linarith
  have hρe : |ρ * e| ≤ M := by
    rw [hρ, div_mul_eq_mul_div, abs_div, abs_mul, abs_of_pos hd, abs_of_nonneg he0, div_le_iff₀ hd]
    exact mul_le_mul hΔ hed he0 M0
  have κabs : |κ| ≤ 2 := by rw [abs_le]; constructor <;> linarith
  have t0 : s * (e * (1 + a)) - ρ * e = (s - ρ * κ) * (e * (1 + a)) + ρ * e * ((κ - 1) * (1 + a) + a) := by ring
  have a3 : |1 + a| ≤ 2 := by rw [abs_le]; constructor <;> linarith
  have a3' : |1 + a| ≤ 1 + 1 / 2 ^ 53 := by rw [abs_le]; constructor <;> linarith
  have t1 : |(s - ρ * κ) * (e * (1 + a))| ≤ M / 2 ^ 52 + 1 / 2 ^ 150 := by
    rw [abs_mul, abs_mul, abs_of_nonneg he0]
    calc |s - ρ * κ| * (e * |1 + a|) ≤ (|ρ * κ| / 2 ^ 53 + 1 / 2 ^ 200) * (e * |1 + a|) := mul_le_mul_of_nonneg_right s1 (by positivity)
      _ = |ρ * e| * (|κ| * |1 + a|) / 2 ^ 53 + 1 / 2 ^ 200 * (e * |1 + a|) := by rw [abs_mul, abs_mul, abs_of_nonneg he0]; ring
      _ ≤ M * 2 / 2 ^ 53 + 1 / 2 ^ 200 * (2 ^ 40 * 2) := by
        have k1 : |κ| ≤ 1 + 1 / 2 ^ 51 := by rw [abs_le]; constructor <;> linarith
        have k2 : |κ| * |1 + a| ≤ 2 := (mul_le_mul k1 a3' (abs_nonneg _) (by norm_num)).trans (by norm_num)
        gcongr
      _ ≤ _ := by
        have : (1 : ℚ) / 2 ^ 200 * (2 ^ 40 * 2) ≤ 1 / 2 ^ 150 := by norm_num
        linarith
  have t2 : |ρ * e * ((κ - 1) * (1 + a) + a)| ≤ M * (6 / 2 ^ 53) := by
    rw [abs_mul]
    refine mul_le_mul hρe ?_ (abs_nonneg _) M0
    refine (abs_add_le _ _).trans ?_
    rw [abs_mul]
    have := mul_le_mul hκ a3' (abs_nonneg _) (by positivity)
    refine (add_le_add this ha).trans (by norm_num)
  have t3 : |s * (e * (1 + a)) - ρ * e| ≤ M * (8 / 2 ^ 53) + 1 / 2 ^ 150 := by
    rw [t0]
    refine (abs_add_le _ _).trans ((add_le_add t1 t2).trans (le_of_eq (by ring)))
  have t4 := f64_abs (s * (e * (1 + a)))
  set p := f64 (s * (e * (1 + a))) with hp
  have t5 : |s * (e * (1 + a))| ≤ 2 * M + 1 / 2 ^ 150 := by
    have := abs_sub_abs_le_abs_sub (s * (e * (1 + a))) (ρ * e)
    have h8 : M * (8 / 2 ^ 53) ≤ M := by linarith [show M * (8 / 2 ^ 53) = M / 2 ^ 50 by ring, div_le_self M0 (show (1 : ℚ) ≤ 2 ^ 50 by norm_num)]
    linarith
  have t6 : |p - ρ * e| ≤ M * (10 / 2 ^ 53) + 1 / 2 ^ 140 := by
    have h1 := abs_sub_le p (s * (e * (1 + a))) (ρ * e)
    have h2 : |s * (e * (1 + a))| / 2 ^ 53 ≤ (2 * M + 1 / 2 ^ 150) / 2 ^ 53 := div_le_div_of_nonneg_right t5 (by positivity)
    have h3 : (1 : ℚ) / 2 ^ 150 / 2 ^ 53 + 1 / 2 ^ 200 + 1 / 2 ^ 150 ≤ 1 / 2 ^ 140 := by norm_num
    have h4 : (2 * M + 1 / 2 ^ 150) / 2 ^ 53 = M * (2 / 2 ^ 53) + 1 / 2 ^ 150 / 2 ^ 53 := by ring
    have h5 : M * (10 / 2 ^ 53) = M * (2 / 2 ^ 53) + M * (8 / 2 ^ 53) := by ring
    linarith
  have t7 := f64_add_error (f64_double (s * (e * (1 + a)))) e0
  rw [← hp] at t7
  have t8 : |ρ * e + y0| ≤ M := by
    have r0 : 0 ≤ e / (x1 - x0) := by positivity
    have r1 : e / (x1 - x0) ≤ 1 := by rw [div_le_one hd]; exact hed
    have : ρ * e + y0 = y0 * (1 - e / (x1 - x0)) + y1 * (e / (x1 - x0)) := by rw [hρ]; ring
    rw [this, abs_of_nonneg (add_nonneg (mul_nonneg hy0 (by linarith)) (mul_nonneg hy1 r0))]
    have u1 := mul_le_mul_of_nonneg_right hy0M (by linarith : 0 ≤ 1 - e / (x1 - x0))
    have u2 := mul_le_mul_of_nonneg_right hy1M r0
    linarith
  have t9 : |p + y0| ≤ 2 * M + 1 / 2 ^ 140 := by
    have := abs_sub_abs_le_abs_sub (p + y0) (ρ * e + y0)
    rw [show p + y0 - (ρ * e + y0) = p - ρ * e by ring] at this
    have h8 : M * (10 / 2 ^ 53) ≤ M := by
      calc M * (10 / 2 ^ 53) ≤ M * 1 := mul_le_mul_of_nonneg_left (by norm_num) M0
        _ = M := mul_one M
    linarith
  have t10 := abs_sub_le (f64 (p + y0)) (p + y0) (ρ * e + y0)
  rw [show p + y0 - (ρ * e + y0) = p - ρ * e by ring] at t10
  have t11 : |p + y0| / 2 ^ 53 ≤ (2 * M + 1 / 2 ^ 140) / 2 ^ 53 := div_le_div_of_nonneg_right t9 (by positivity)
  have t12 : (2 * M + 1 / 2 ^ 140) / 2 ^ 53 = M * (2 / 2 ^ 53) + 1 / 2 ^ 140 / 2 ^ 53 := by ring
  have t13 : M / 2 ^ 49 = M * (2 / 2 ^ 53) + M * (10 / 2 ^ 53) + M * (4 / 2 ^ 53) := by ring
  have t14 : 0 ≤ M * (4 / 2 ^ 53) := by positivity
  have t15 : (1 : ℚ) / 2 ^ 140 / 2 ^ 53 + 1 / 2 ^ 140 ≤ 1 / 2 ^ 100 := by norm_num
  linarith

/-- The exact interpolation. -/
theorem interp_double_aux {M : ℚ} : ∀ {f S : List ℚ}, f.length = S.length → f.Pairwise (· < ·) → (∀ v ∈ f, IsDouble v ∧ 0 ≤ v ∧ v ≤ 2 ^ 40) →
    (∀ v ∈ S, IsDouble v ∧ 0 ≤ v ∧ v ≤ M) → 0 ≤ M → ∀ {x : ℚ}, IsDouble x → |npInterpF64 f S x - npInterp f S x| ≤ M / 2 ^ 49 + 1 / 2 ^ 100
  | [], _, _, _, _, _, hM, _, _ => by
    have : (0 : ℚ) ≤ M / 2 ^ 49 + 1 / 2 ^ 100 := by positivity
    simpa [npInterpF64, npInterp] using this
  | [x0], S, hl, _, _, hS, hM, x, _ => by
    obtain ⟨y0, rfl⟩ := List.length_eq_one_iff.1 hl.symm
    have : (0 : ℚ) ≤ M / 2 ^ 49 + 1 / 2 ^ 100 := by positivity
    unfold npInterpF64 npInterp
    rw [sub_self, abs_zero]
    exact this
  | x0 :: x1 :: xs, [], hl, _, _, _, _, _, _ => by simp at hl
  | x0 :: x1 :: xs, [_], hl, _, _, _, _, _, _ => by simp at hl
  | x0 :: x1 :: xs, y0 :: y1 :: ys, hl, hp, hf, hS, hM, x, hx => by
    have h0 : (0 : ℚ) ≤ M / 2 ^ 49 + 1 / 2 ^ 100 := by positivity
    unfold npInterpF64 npInterp
    by_cases h1 : x < x0
    · rw [if_pos h1, if_pos h1, sub_self, abs_zero]; exact h0
    rw [if_neg h1, if_neg h1]
    by_cases h2 : x < x1
    · rw [if_pos h2, if_pos h2]
      by_cases h3 : x = x0
      · rw [if_pos h3, h3, sub_self, mul_zero, zero_add, sub_self, abs_zero]; exact h0
      · rw [if_neg h3]
        obtain ⟨a1, a2, a3⟩ := hf x0 (by simp)
        obtain ⟨b1, b2, b3⟩ := hf x1 (by simp)
        obtain ⟨c1, c2, c3⟩ := hS y0 (by simp)
        obtain ⟨g1, g2, g3⟩ := hS y1 (by simp)
        exact interp_cell_double a1 b1 hx c1 g1 a2 (not_lt.1 h1) h2 b3 c2 g2 c3 g3
    · rw [if_neg h2, if_neg h2]
      exact interp_double_aux (by simpa using hl) (List.pairwise_cons.1 hp).2 (fun v hv => hf v (by simp_all)) (fun v hv => hS v (by simp_all)) hM hx

theorem npInterp_cast : ∀ (f S : List ℚ) (x : ℚ), npInterp (f.map fun (v : ℚ) => (v : ℝ)) (S.map fun (v : ℚ) => (v : ℝ)) (x : ℝ) = ((npInterp f S x : ℚ) : ℝ)
  | [], _, _ => by simp [npInterp]
  | [_], [], _ => by simp [npInterp]
  | [x0], [y0], x => by
    simp only [List.map_cons, List.map_nil]
    unfold npInterp
    simp only [Rat.cast_inj]
    split_ifs <;> simp
  | [x0], _ :: _ :: _, _ => by simp [npInterp]
  | _ :: _ :: _, [], _ => by simp [npInterp]
  | _ :: _ :: _, [_], _ => by simp [npInterp]
  | x0 :: x1 :: xs, y0 :: y1 :: ys, x => by
    have ih := npInterp_cast (x1 :: xs) (y1 :: ys) x
    simp only [List.map_cons] at ih ⊢
    unfold npInterp
    simp only [Rat.cast_lt]
    split_ifs
    · simp
    · push_cast; ring
    · exact ih

/-- **C179 (accuracy).**  For increasing frequencies and densities between 0 and `M`, the density interpolated in double precision at a double `x` is
within `2 ^ -49 M` of the piecewise linear interpolant at `x`. -/
theorem interp_double {M : ℚ} {f S : List ℚ} (hl : f.length = S.length) (hp : f.Pairwise (· < ·)) (hf : ∀ v ∈ f, IsDouble v ∧ 0 ≤ v ∧ v ≤ 2 ^ 40)
    (hS : ∀ v ∈ S, IsDouble v ∧ 0 ≤ v ∧ v ≤ M) (hM : 0 ≤ M) {g : ℝ → ℝ}
    (hg : IsInterpolant (f.map fun (v : ℚ) => (v : ℝ)) (S.map fun (v : ℚ) => (v : ℝ)) g) {x : ℚ} (hx : IsDouble x) :
    |(npInterpF64 f S x : ℝ) - g x| ≤ M / 2 ^ 49 + 1 / 2 ^ 100 := by
  have hp' : (f.map fun (v : ℚ) => (v : ℝ)).Pairwise (· < ·) := by
    rw [List.pairwise_map]
    exact hp.imp fun h => by exact_mod_cast h
  have e := congrFun (isInterpolant_unique hp' hg (npInterp_spec hp' (by simpa using hl))) (x : ℝ)
  rw [e, npInterp_cast]
  have := interp_double_aux hl hp hf hS hM hx
  have h2 := (Rat.cast_le (K := ℝ)).2 this
  push_cast at h2
  exact h2

/-! ## Finding -/

/-- **Finding (C179).**  The density falls linearly from 3.3 at 0.03 Hz to zero at 0.4 Hz; half a minute at two samples per second.  The generated
frequency `0.39999999999999997` lies one place below `0.4`; there `slope * (x - x0) + y0` is `-4.4e-16`, its square root is NaN, and with it every
sample of the series. -/
theorem synth_nan {ε : ℝ} (F : NpFftD ε) (Q : NpSqrt) (E : NpCexp) {u : List ℚ} (hu : u.length = 30) :
    synthF64 F Q E [f64 (3 / 100), f64 (2 / 5)] [f64 (33 / 10), 0] 0 (59 / 2) (1 / 2) u = .error .nonFinite := by
  have e1 : (synthTimeF64 0 (59 / 2) (1 / 2)).length = 60 := by decide +kernel
  have e2 : (genAxisF64 60 (1 / 2)).length = 30 := by decide +kernel
  have e3 : ([f64 (3 / 100), f64 (2 / 5)] : List ℚ).Pairwise (· ≤ ·) := by
    simp only [List.pairwise_cons, List.mem_singleton, forall_eq, List.not_mem_nil, false_imp_iff, implies_true, List.Pairwise.nil, and_true]
    exact f64_mono (by norm_num)
  have e4 : (((genAxisF64 60 (1 / 2)).map fun x => twiceDensF64 (dfGenF64 60 (1 / 2)) (npInterpF64 [f64 (3 / 100), f64 (2 / 5)] [f64 (33 / 10), 0] x)).any
      fun v => decide (v < 0)) = true := by decide +kernel
  have e5 : nTimeEven 60 = 60 := rfl
  unfold synthF64
  dsimp only
  rw [e1]
  simp only [e5, e2, hu]
  rw [if_neg (by simp), if_neg (by norm_num), if_neg (by norm_num), if_neg (by simp), if_neg (not_not.2 e3), if_neg (by norm_num), if_pos e4]

/-- The given densities are not negative, the frequencies increase. -/
example : 0 < f64 (33 / 10) ∧ 0 < f64 (3 / 100) ∧ f64 (3 / 100) < f64 (2 / 5) := by decide +kernel

/-- The interpolated value. -/
theorem interp_negative : (genAxisF64 60 (1 / 2)).getD 11 0 < f64 (2 / 5) ∧
    npInterpF64 [f64 (3 / 100), f64 (2 / 5)] [f64 (33 / 10), 0] ((genAxisF64 60 (1 / 2)).getD 11 0) = -1 / 2 ^ 51 := by decide +kernel

/-! ## Concrete cases: the hypotheses of the theorems above are met -/

theorem double_quarters (n : ℕ) (h : n ≤ 2 ^ 53) : IsDouble ((n : ℚ) / 4) :=
  ⟨n, -2, by rw [abs_of_nonneg (by positivity)]; exact_mod_cast h, by norm_num, by norm_num; ring⟩

/-- Three densities on an axis that starts at zero. -/
example : 0 ≤ npInterpF64 [0, 1 / 4, 2 / 4] [0, 3 / 4, 1 / 4] (1 / 8) := by
  have q : ∀ n : ℕ, n ≤ 3 → IsDouble ((n : ℚ) / 4) := fun n h => double_quarters n (by omega)
  have q0 := q 0 (by norm_num)
  have q1 := q 1 (by norm_num)
  have q2 := q 2 (by norm_num)
  have q3 := q 3 (by norm_num)
  norm_num at q0 q1 q2 q3
  refine interp_nonneg_double (f := [0, 1 / 4, 2 / 4]) (S := [0, 3 / 4, 1 / 4]) (by simp) (by norm_num) ?_ ?_ ?_ double_eighth
  · simp only [List.mem_cons, List.not_mem_nil, or_false, forall_eq_or_imp, forall_eq]
    norm_num
    exact ⟨q0, q1, q2⟩
  · intro i hi
    have : i = 0 ∨ i = 1 := by simp at hi; omega
    rcases this with rfl | rfl
    · left; rfl
    · right; norm_num
  · simp only [List.mem_cons, List.not_mem_nil, or_false, forall_eq_or_imp, forall_eq]
    norm_num
    exact ⟨q0, q3, q1⟩

example : |(npInterpF64 [1 / 4, 2 / 4] [3 / 4, 1 / 4] (3 / 8) : ℝ) - (npInterp [1 / 4, 2 / 4] [3 / 4, 1 / 4] (3 / 8) : ℝ)| ≤ ((3 / 4 : ℚ) : ℝ) / 2 ^ 49 + 1 / 2 ^ 100 := by
  have q : ∀ n : ℕ, n ≤ 3 → IsDouble ((n : ℚ) / 4) := fun n h => double_quarters n (by omega)
  have q1 := q 1 (by norm_num)
  have q2 := q 2 (by norm_num)
  have q3 := q 3 (by norm_num)
  norm_num at q1 q2 q3
  have d3 : IsDouble (3 / 8) := ⟨3, -3, by norm_num, by norm_num, by norm_num⟩
  have hs := npInterp_spec (f := [(1 / 4 : ℝ), 2 / 4]) (S := [3 / 4, 1 / 4]) (by norm_num) rfl
  have := interp_double (M := 3 / 4) (f := [1 / 4, 2 / 4]) (S := [3 / 4, 1 / 4]) rfl (by norm_num) (by
    simp only [List.mem_cons, List.not_mem_nil, or_false, forall_eq_or_imp, forall_eq]
    norm_num
    exact ⟨q1, q2⟩) (by
    simp only [List.mem_cons, List.not_mem_nil, or_false, forall_eq_or_imp, forall_eq]
    norm_num
    exact ⟨q3, q1⟩) (by norm_num) (g := npInterp [1 / 4, 2 / 4] [3 / 4, 1 / 4]) (by
      have e1 : ([1 / 4, 2 / 4] : List ℚ).map (fun (v : ℚ) => (v : ℝ)) = [1 / 4, 2 / 4] := by norm_num
      have e2 : ([3 / 4, 1 / 4] : List ℚ).map (fun (v : ℚ) => (v : ℝ)) = [3 / 4, 1 / 4] := by norm_num
      rw [e1, e2]
      exact hs) d3
  norm_num at this ⊢
  exact this

end Verif
