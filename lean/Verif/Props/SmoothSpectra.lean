import Verif.Props.Sampled
import Mathlib.Analysis.Calculus.ContDiff.Basic
import Mathlib.Analysis.Calculus.IteratedDeriv.Lemmas
import Mathlib.Analysis.Calculus.MeanValue
import Mathlib.Analysis.Complex.ExponentialBounds
import Mathlib.Analysis.Asymptotics.Lemmas

/-! # C165: moments of a smooth spectrum are accurate to fourth order in the frequency step -/

set_option linter.unusedSectionVars false
set_option linter.unusedSimpArgs false

namespace Verif
open Finset MeasureTheory Filter Topology

/-! ## Simpson's error -/

/-- A function that starts at 0 with a derivative of at most `C t ^ n`. -/
theorem abs_le_of_deriv {G G' : ℝ → ℝ} {C T : ℝ} {n : ℕ} (h0 : G 0 = 0) (hd : ∀ t, HasDerivAt G (G' t) t)
    (hb : ∀ t ∈ Set.Icc 0 T, |G' t| ≤ C * t ^ n) : ∀ t ∈ Set.Icc 0 T, |G t| ≤ C / (n + 1) * t ^ (n + 1) := by
  have hB : ∀ x : ℝ, HasDerivAt (fun t : ℝ => C / (n + 1) * t ^ (n + 1)) (C * x ^ n) x := by
    intro x
    have h := ((hasDerivAt_pow (n + 1) x).const_mul (C / (n + 1)))
    refine h.congr_deriv ?_
    have : ((n : ℝ) + 1) ≠ 0 := by positivity
    push_cast
    field_simp
  intro t ht
  have := image_norm_le_of_norm_deriv_right_le_deriv_boundary (f := G) (f' := G') (a := 0) (b := T) (fun x _ => (hd x).continuousAt.continuousWithinAt)
    (fun x _ => (hd x).hasDerivWithinAt) (B := fun t => C / (n + 1) * t ^ (n + 1)) (B' := fun t => C * t ^ n) (by simp [h0])
    hB (fun x hx => hb x ⟨hx.1, hx.2.le⟩) ht
  exact this

/-- Values of a function with bounded derivative at two symmetric points. -/
theorem symmetric_diff {g g' : ℝ → ℝ} {c h M : ℝ} (hd : ∀ u, HasDerivAt g (g' u) u) (hM : ∀ u ∈ Set.Icc (c - h) (c + h), |g' u| ≤ M) {t : ℝ}
    (ht : t ∈ Set.Icc 0 h) : |g (c + t) - g (c - t)| ≤ 2 * M * t := by
  have := Convex.norm_image_sub_le_of_norm_hasDerivWithin_le (f := g) (f' := g') (s := Set.Icc (c - h) (c + h)) (C := M) (x := c - t) (y := c + t)
    (fun x _ => (hd x).hasDerivWithinAt) (fun x hx => hM x hx) (convex_Icc _ _)
    ⟨by linarith [ht.2], by linarith [ht.1, ht.2]⟩ ⟨by linarith [ht.1, ht.2], by linarith [ht.2]⟩
  rw [Real.norm_eq_abs, Real.norm_eq_abs] at this
  rw [show c + t - (c - t) = 2 * t by ring, abs_of_nonneg (show 0 ≤ 2 * t by linarith [ht.1])] at this
  linarith

theorem deriv_right {g g' : ℝ → ℝ} {c : ℝ} (hd : ∀ u, HasDerivAt g (g' u) u) (t : ℝ) : HasDerivAt (fun t => g (c + t)) (g' (c + t)) t := by
  have := HasDerivAt.comp t (h := fun t => c + t) (hd (c + t)) ((hasDerivAt_id t).const_add c)
  exact this.congr_deriv (by simp)

theorem deriv_left {g g' : ℝ → ℝ} {c : ℝ} (hd : ∀ u, HasDerivAt g (g' u) u) (t : ℝ) : HasDerivAt (fun t => g (c - t)) (-g' (c - t)) t := by
  have := HasDerivAt.comp t (h := fun t => c - t) (hd (c - t)) ((hasDerivAt_id t).const_sub c)
  exact this.congr_deriv (by simp)

theorem deriv_integral_right {g : ℝ → ℝ} (hg : Continuous g) (c t : ℝ) : HasDerivAt (fun t => ∫ u in c..c + t, g u) (g (c + t)) t := by
  have h := intervalIntegral.integral_hasDerivAt_right (hg.intervalIntegrable c (c + t)) hg.aestronglyMeasurable.stronglyMeasurableAtFilter hg.continuousAt
  have := HasDerivAt.comp t (h := fun t => c + t) h ((hasDerivAt_id t).const_add c)
  exact this.congr_deriv (by simp)

theorem deriv_integral_left {g : ℝ → ℝ} (hg : Continuous g) (c t : ℝ) : HasDerivAt (fun t => ∫ u in c - t..c, g u) (g (c - t)) t := by
  have h := intervalIntegral.integral_hasDerivAt_left (hg.intervalIntegrable (c - t) c) hg.aestronglyMeasurable.stronglyMeasurableAtFilter hg.continuousAt
  have := HasDerivAt.comp t (h := fun t => c - t) h ((hasDerivAt_id t).const_sub c)
  exact this.congr_deriv (by simp)

/-- One pair of intervals. -/
theorem simpson_pair {g g1 g2 g3 g4 : ℝ → ℝ} {c h M : ℝ} (hh : 0 ≤ h) (d0 : ∀ u, HasDerivAt g (g1 u) u) (d1 : ∀ u, HasDerivAt g1 (g2 u) u)
    (d2 : ∀ u, HasDerivAt g2 (g3 u) u) (d3 : ∀ u, HasDerivAt g3 (g4 u) u) (hM : ∀ u ∈ Set.Icc (c - h) (c + h), |g4 u| ≤ M) :
    |h / 3 * (g (c - h) + 4 * g c + g (c + h)) - ∫ u in c - h..c + h, g u| ≤ M / 90 * h ^ 5 := by
  have hg : Continuous g := continuous_iff_continuousAt.2 fun u => (d0 u).continuousAt
  -- third derivative of the error
  have s3 : ∀ t ∈ Set.Icc 0 h, |t / 3 * (g3 (c + t) - g3 (c - t))| ≤ 2 / 3 * M * t ^ 2 := by
    intro t ht
    have := symmetric_diff d3 hM ht
    rw [abs_mul, abs_of_nonneg (by linarith [ht.1])]
    have := mul_le_mul_of_nonneg_left this (show 0 ≤ t / 3 by linarith [ht.1])
    nlinarith
  have s2 := abs_le_of_deriv (G := fun t => -1 / 3 * (g1 (c + t) - g1 (c - t)) + t / 3 * (g2 (c + t) + g2 (c - t))) (n := 2) (by simp) (fun t => by
    refine ((((deriv_right d1 (c := c) t).sub (deriv_left d1 (c := c) t)).const_mul (-1 / 3)).add
      (((hasDerivAt_id t).div_const 3).mul ((deriv_right d2 (c := c) t).add (deriv_left d2 (c := c) t)))).congr_deriv ?_
    show _ = t / 3 * (g3 (c + t) - g3 (c - t))
    simp only [id, Pi.add_apply, Pi.sub_apply]; ring) s3
  have s1 := abs_le_of_deriv (G := fun t => -2 / 3 * (g (c + t) + g (c - t)) + 4 / 3 * g c + t / 3 * (g1 (c + t) - g1 (c - t))) (n := 3)
    (C := 2 / 3 * M / (2 + 1)) (by simp; ring) (fun t => by
    refine (((((deriv_right d0 (c := c) t).add (deriv_left d0 (c := c) t)).const_mul (-2 / 3)).add_const (4 / 3 * g c)).add
      (((hasDerivAt_id t).div_const 3).mul ((deriv_right d1 (c := c) t).sub (deriv_left d1 (c := c) t)))).congr_deriv ?_
    show _ = -1 / 3 * (g1 (c + t) - g1 (c - t)) + t / 3 * (g2 (c + t) + g2 (c - t))
    simp only [id, Pi.add_apply, Pi.sub_apply]; ring) (fun t ht => by simpa using s2 t ht)
  have s0 := abs_le_of_deriv (G := fun t => t / 3 * (g (c - t) + 4 * g c + g (c + t)) - ((∫ u in c - t..c, g u) + ∫ u in c..c + t, g u)) (n := 4)
    (C := 2 / 3 * M / (2 + 1) / (3 + 1)) (by simp) (fun t => by
    refine ((((hasDerivAt_id t).div_const 3).mul (((deriv_left d0 (c := c) t).add_const (4 * g c)).add (deriv_right d0 (c := c) t))).sub
      ((deriv_integral_left hg c t).add (deriv_integral_right hg c t))).congr_deriv ?_
    show _ = -2 / 3 * (g (c + t) + g (c - t)) + 4 / 3 * g c + t / 3 * (g1 (c + t) - g1 (c - t))
    simp only [id, Pi.add_apply, Pi.sub_apply]; ring) (fun t ht => by simpa using s1 t ht)
  have := s0 h ⟨hh, le_rfl⟩
  rw [intervalIntegral.integral_add_adjacent_intervals (hg.intervalIntegrable _ _) (hg.intervalIntegrable _ _)] at this
  refine this.trans (le_of_eq ?_)
  push_cast
  ring

/-- The last interval of an even number of points. -/
theorem simpson_last {g g1 g2 g3 : ℝ → ℝ} {c h M : ℝ} (hh : 0 ≤ h) (d0 : ∀ u, HasDerivAt g (g1 u) u) (d1 : ∀ u, HasDerivAt g1 (g2 u) u)
    (d2 : ∀ u, HasDerivAt g2 (g3 u) u) (hM : ∀ u ∈ Set.Icc (c - h) (c + h), |g3 u| ≤ M) :
    |h * (5 / 12 * g (c + h) + 8 / 12 * g c - 1 / 12 * g (c - h)) - ∫ u in c..c + h, g u| ≤ M / 24 * h ^ 4 := by
  have hg : Continuous g := continuous_iff_continuousAt.2 fun u => (d0 u).continuousAt
  have s3 : ∀ t ∈ Set.Icc 0 h, |1 / 4 * (g2 (c + t) - g2 (c - t)) + t * (5 / 12 * g3 (c + t) + 1 / 12 * g3 (c - t))| ≤ M * t ^ 1 := by
    intro t ht
    have k1 := abs_le.1 (symmetric_diff d2 hM ht)
    have k2 := abs_le.1 (hM (c + t) ⟨by linarith [ht.1, ht.2], by linarith [ht.2]⟩)
    have k3 := abs_le.1 (hM (c - t) ⟨by linarith [ht.2], by linarith [ht.1, ht.2]⟩)
    have t0 := ht.1
    rw [abs_le]
    constructor <;> nlinarith
  have s2 := abs_le_of_deriv (G := fun t => -1 / 6 * g1 (c + t) + 1 / 6 * g1 (c - t) + t * (5 / 12 * g2 (c + t) - 1 / 12 * g2 (c - t))) (n := 1)
    (by simp; ring) (fun t => by
    refine ((((deriv_right d1 (c := c) t).const_mul (-1 / 6)).add ((deriv_left d1 (c := c) t).const_mul (1 / 6))).add
      ((hasDerivAt_id t).mul (((deriv_right d2 (c := c) t).const_mul (5 / 12)).sub ((deriv_left d2 (c := c) t).const_mul (1 / 12))))).congr_deriv ?_
    show _ = 1 / 4 * (g2 (c + t) - g2 (c - t)) + t * (5 / 12 * g3 (c + t) + 1 / 12 * g3 (c - t))
    simp only [id, Pi.add_apply, Pi.sub_apply]; ring) s3
  have s1 := abs_le_of_deriv (G := fun t => -7 / 12 * g (c + t) + 8 / 12 * g c - 1 / 12 * g (c - t) + t * (5 / 12 * g1 (c + t) + 1 / 12 * g1 (c - t)))
    (n := 2) (C := M / (1 + 1)) (by simp; ring) (fun t => by
    refine (((((deriv_right d0 (c := c) t).const_mul (-7 / 12)).add_const (8 / 12 * g c)).sub ((deriv_left d0 (c := c) t).const_mul (1 / 12))).add
      ((hasDerivAt_id t).mul (((deriv_right d1 (c := c) t).const_mul (5 / 12)).add ((deriv_left d1 (c := c) t).const_mul (1 / 12))))).congr_deriv ?_
    show _ = -1 / 6 * g1 (c + t) + 1 / 6 * g1 (c - t) + t * (5 / 12 * g2 (c + t) - 1 / 12 * g2 (c - t))
    simp only [id, Pi.add_apply, Pi.sub_apply]; ring) (fun t ht => by simpa using s2 t ht)
  have s0 := abs_le_of_deriv (G := fun t => t * (5 / 12 * g (c + t) + 8 / 12 * g c - 1 / 12 * g (c - t)) - ∫ u in c..c + t, g u)
    (n := 3) (C := M / (1 + 1) / (2 + 1)) (by simp) (fun t => by
    refine (((hasDerivAt_id t).mul ((((deriv_right d0 (c := c) t).const_mul (5 / 12)).add_const (8 / 12 * g c)).sub
      ((deriv_left d0 (c := c) t).const_mul (1 / 12)))).sub (deriv_integral_right hg c t)).congr_deriv ?_
    show _ = -7 / 12 * g (c + t) + 8 / 12 * g c - 1 / 12 * g (c - t) + t * (5 / 12 * g1 (c + t) + 1 / 12 * g1 (c - t))
    simp only [id, Pi.add_apply, Pi.sub_apply]; ring) (fun t ht => by simpa using s1 t ht)
  refine (s0 h ⟨hh, le_rfl⟩).trans (le_of_eq ?_)
  push_cast
  ring

/-- Simpson's rule on an odd number of equidistant points. -/
theorem simpOdd_smooth {g g1 g2 g3 g4 : ℝ → ℝ} {h M : ℝ} (d0 : ∀ u, HasDerivAt g (g1 u) u) (d1 : ∀ u, HasDerivAt g1 (g2 u) u)
    (d2 : ∀ u, HasDerivAt g2 (g3 u) u) (d3 : ∀ u, HasDerivAt g3 (g4 u) u) : ∀ x : List ℝ, UniformAxis x h → x.length % 2 = 1 →
    (∀ u ∈ Set.Icc (x.getD 0 0) (x.getD (x.length - 1) 0), |g4 u| ≤ M) →
    |simpOdd x (x.map g) - ∫ u in x.getD 0 0..x.getD (x.length - 1) 0, g u| ≤ M / 180 * h ^ 4 * (x.getD (x.length - 1) 0 - x.getD 0 0)
  | [], _, hl, _ => by simp at hl
  | [a], _, _, _ => by simp [simpOdd]
  | [a, b], _, hl, _ => by simp at hl
  | a :: b :: c :: xs, hu, hl, hM => by
    have h1 := hu.1
    have hg : Continuous g := continuous_iff_continuousAt.2 fun u => (d0 u).continuousAt
    have hb : b = a + h := by simpa using hu.2 0 (by simp)
    have hc : c = b + h := by simpa using hu.2 1 (by simp)
    have huc : UniformAxis (c :: xs) h := uniform_tail (uniform_tail hu)
    have e0 : (a :: b :: c :: xs).getD 0 0 = a := rfl
    have e1 : (a :: b :: c :: xs).getD ((a :: b :: c :: xs).length - 1) 0 = (c :: xs).getD ((c :: xs).length - 1) 0 := by
      simp only [List.length_cons]
      rw [show xs.length + 1 + 1 + 1 - 1 = (xs.length + 1 - 1) + 1 + 1 by omega, List.getD_cons_succ, List.getD_cons_succ]
    rw [e0, e1] at hM ⊢
    set z := (c :: xs).getD ((c :: xs).length - 1) 0 with hz
    have hcz : c ≤ z := by
      have := uniform_le huc ((c :: xs).length - 1) (by simp)
      rw [← hz, List.getD_cons_zero] at this
      rw [this]
      have : 0 ≤ (((c :: xs).length - 1 : Nat) : ℝ) * h := by positivity
      linarith
    have hac : a ≤ c := by linarith
    have ih := simpOdd_smooth d0 d1 d2 d3 (c :: xs) huc (by simp only [List.length_cons] at hl ⊢; omega)
      (fun u hu => hM u (Set.Icc_subset_Icc hac le_rfl hu))
    rw [← hz, List.getD_cons_zero] at ih
    have pair := simpson_pair (c := b) h1.le d0 d1 d2 d3 (M := M) (fun u hu => hM u ⟨by linarith [hu.1], by linarith [hu.2]⟩)
    rw [show b - h = a by linarith, show b + h = c by linarith] at pair
    have hint : ∫ u in a..z, g u = (∫ u in a..c, g u) + ∫ u in c..z, g u :=
      (intervalIntegral.integral_add_adjacent_intervals (hg.intervalIntegrable _ _) (hg.intervalIntegrable _ _)).symm
    have hs : simpOdd (a :: b :: c :: xs) ((a :: b :: c :: xs).map g) = h / 3 * (g a + 4 * g b + g c) + simpOdd (c :: xs) ((c :: xs).map g) := by
      simp only [List.map_cons, simpOdd]
      have q0 : b - a = h := by linarith
      have q1 : c - b = h := by linarith
      rw [q0, q1]
      have := h1.ne'
      field_simp
      ring
    rw [hs, hint]
    have := abs_add_le (h / 3 * (g a + 4 * g b + g c) - ∫ u in a..c, g u) (simpOdd (c :: xs) ((c :: xs).map g) - ∫ u in c..z, g u)
    rw [show h / 3 * (g a + 4 * g b + g c) + simpOdd (c :: xs) ((c :: xs).map g) - ((∫ u in a..c, g u) + ∫ u in c..z, g u) =
      (h / 3 * (g a + 4 * g b + g c) - ∫ u in a..c, g u) + (simpOdd (c :: xs) ((c :: xs).map g) - ∫ u in c..z, g u) by ring]
    have e : M / 180 * h ^ 4 * (z - a) = M / 90 * h ^ 5 + M / 180 * h ^ 4 * (z - c) := by
      rw [show z - a = (z - c) + 2 * h by linarith]; ring
    linarith

/-- **C165 (quadrature).**  `scipy.integrate.simpson` of a function with four continuous derivatives, sampled at three or more equidistant points: the
error is at most `M4 h^4 / 180` times the length for an odd number of points; for an even number there is an additional `M3 h^4 / 24`
(`M3`, `M4` bounds of the third and fourth derivative). -/
theorem simpson_smooth {g : ℝ → ℝ} {h M3 M4 : ℝ} {x : List ℝ} (hu : UniformAxis x h) (hx : 3 ≤ x.length) (hg : ContDiff ℝ 4 g)
    (hM3 : ∀ u ∈ Set.Icc (x.getD 0 0) (x.getD (x.length - 1) 0), |iteratedDeriv 3 g u| ≤ M3)
    (hM4 : ∀ u ∈ Set.Icc (x.getD 0 0) (x.getD (x.length - 1) 0), |iteratedDeriv 4 g u| ≤ M4) :
    ∃ v, simpson x (x.map g) = .ok v ∧ |v - ∫ u in x.getD 0 0..x.getD (x.length - 1) 0, g u| ≤
      M4 / 180 * h ^ 4 * (x.getD (x.length - 1) 0 - x.getD 0 0) + if x.length % 2 = 1 then 0 else M3 / 24 * h ^ 4 := by
  have d : ∀ k : ℕ, k < 4 → ∀ u, HasDerivAt (iteratedDeriv k g) (iteratedDeriv (k + 1) g u) u := by
    intro k hk u
    rw [iteratedDeriv_succ]
    exact (hg.differentiable_iteratedDeriv k (by exact_mod_cast hk) u).hasDerivAt
  have d0 := d 0 (by norm_num)
  have d1 := d 1 (by norm_num)
  have d2 := d 2 (by norm_num)
  have d3 := d 3 (by norm_num)
  rw [iteratedDeriv_zero] at d0
  simp only [Nat.reduceAdd, zero_add] at d0 d1 d2 d3
  have hc : Continuous g := hg.continuous
  have h1 := hu.1
  have hle : ∀ i, i < x.length → x.getD i 0 = x.getD 0 0 + i * h := uniform_le hu
  have hmap : ∀ i, i < x.length → (x.map g).getD i 0 = g (x.getD i 0) := fun i hi => by
    rw [List.getD, List.getElem?_map, List.getD, List.getElem?_eq_getElem hi]; rfl
  unfold simpson
  rw [if_neg (by simp), if_neg (by rintro rfl; simp at hx)]
  by_cases ho : x.length % 2 = 1
  · rw [if_pos ho, if_pos ho, add_zero]
    exact ⟨_, rfl, simpOdd_smooth d0 d1 d2 d3 x hu ho hM4⟩
  · rw [if_neg ho, if_neg (by omega), if_neg ho]
    refine ⟨_, rfl, ?_⟩
    have h4 : 4 ≤ x.length := by omega
    have dl : x.dropLast.length = x.length - 1 := List.length_dropLast
    have dg : ∀ k, k < x.length - 1 → x.dropLast.getD k 0 = x.getD k 0 := fun k hk => by
      rw [List.getD, List.getD, List.getElem?_dropLast, if_pos hk]
    set n := x.length with hn
    have p1 : x.getD (n - 1) 0 = x.getD 0 0 + ((n - 1 : Nat) : ℝ) * h := hle _ (by omega)
    have p2 : x.getD (n - 2) 0 = x.getD 0 0 + ((n - 2 : Nat) : ℝ) * h := hle _ (by omega)
    have p3 : x.getD (n - 3) 0 = x.getD 0 0 + ((n - 3 : Nat) : ℝ) * h := hle _ (by omega)
    have c1 : ((n - 1 : Nat) : ℝ) = ((n - 3 : Nat) : ℝ) + 2 := by
      rw [show n - 1 = n - 3 + 2 by omega]; push_cast; ring
    have c2 : ((n - 2 : Nat) : ℝ) = ((n - 3 : Nat) : ℝ) + 1 := by
      rw [show n - 2 = n - 3 + 1 by omega]; push_cast; ring
    rw [c1] at p1
    rw [c2] at p2
    have c0 : 0 ≤ ((n - 3 : Nat) : ℝ) * h := by positivity
    set A := x.getD 0 0
    set B := x.getD (n - 1) 0
    set C := x.getD (n - 2) 0
    have hM40 : 0 ≤ M4 := (abs_nonneg _).trans (hM4 A ⟨le_rfl, by linarith⟩)
    have first := simpOdd_smooth (M := M4) d0 d1 d2 d3 x.dropLast (uniform_dropLast hu) (by omega)
      (by
        rw [dl, dg _ (by omega), dg _ (by omega), Nat.sub_sub]
        exact fun u hu => hM4 u ⟨hu.1, hu.2.trans (show C ≤ B by linarith)⟩)
    rw [dl, dg _ (by omega), dg _ (by omega), Nat.sub_sub, List.map_dropLast] at first
    have e2 : n - (1 + 1) = n - 2 := rfl
    rw [e2] at first
    have last := simpson_last (c := C) (M := M3) h1.le d0 d1 d2 (fun u hu => hM3 u ⟨by linarith [hu.1], by linarith [hu.2]⟩)
    rw [show C + h = B by linarith, show C - h = x.getD (n - 3) 0 by linarith] at last
    have hlast : simpLast x (x.map g) = h * (5 / 12 * g B + 8 / 12 * g C - 1 / 12 * g (x.getD (n - 3) 0)) := by
      unfold simpLast
      dsimp only
      rw [← hn, hmap _ (by omega), hmap _ (by omega), hmap _ (by omega)]
      rw [show x.getD (n - 2) 0 - x.getD (n - 3) 0 = h by linarith, show x.getD (n - 1) 0 - x.getD (n - 2) 0 = h by linarith]
      field_simp
      ring
    rw [hlast]
    have hint : ∫ u in A..B, g u = (∫ u in A..C, g u) + ∫ u in C..B, g u :=
      (intervalIntegral.integral_add_adjacent_intervals (hc.intervalIntegrable _ _) (hc.intervalIntegrable _ _)).symm
    rw [hint]
    set W := h * (5 / 12 * g B + 8 / 12 * g C - 1 / 12 * g (x.getD (n - 3) 0))
    have := abs_add_le (simpOdd x.dropLast (x.map g).dropLast - ∫ u in A..C, g u) (W - ∫ u in C..B, g u)
    rw [show simpOdd x.dropLast (x.map g).dropLast + W - ((∫ u in A..C, g u) + ∫ u in C..B, g u) =
      (simpOdd x.dropLast (x.map g).dropLast - ∫ u in A..C, g u) + (W - ∫ u in C..B, g u) by ring]
    have k : M4 / 180 * h ^ 4 * (C - A) ≤ M4 / 180 * h ^ 4 * (B - A) :=
      mul_le_mul_of_nonneg_left (by linarith) (by positivity)
    linarith

/-- The quadrature formula of C102 on a smooth function. -/
theorem weights_smooth {g : ℝ → ℝ} {a h M3 M4 : ℝ} {n : Nat} (hh : 0 < h) (hn : 3 ≤ n) (hg : ContDiff ℝ 4 g)
    (hM3 : ∀ u ∈ Set.Icc a (a + (n - 1 : Nat) * h), |iteratedDeriv 3 g u| ≤ M3) (hM4 : ∀ u ∈ Set.Icc a (a + (n - 1 : Nat) * h), |iteratedDeriv 4 g u| ≤ M4) :
    |h * ∑ k ∈ range n, simpsonWeight ℝ n k * g (a + k * h) - ∫ u in a..a + (n - 1 : Nat) * h, g u| ≤
      M4 / 180 * h ^ 4 * ((n - 1 : Nat) * h) + if n % 2 = 1 then 0 else M3 / 24 * h ^ 4 := by
  have e0 : (gridFrom a h n).getD 0 0 = a := by rw [gridFrom_getD (by omega)]; simp
  have e1 : (gridFrom a h n).getD ((gridFrom a h n).length - 1) 0 = a + (n - 1 : Nat) * h := by
    rw [gridFrom_length, gridFrom_getD (by omega)]
  have hne : gridFrom a h n ≠ [] := by
    intro h; have := congrArg List.length h; rw [gridFrom_length] at this; simp at this; omega
  obtain ⟨v, hv, hb⟩ := simpson_smooth (g := g) (gridFrom_uniform hh n (a := a)) (by rw [gridFrom_length]; exact hn) hg
    (by rw [e0, e1]; exact hM3) (by rw [e0, e1]; exact hM4)
  have hw := simpson_exact_weights (y := (gridFrom a h n).map g) (gridFrom_uniform hh n (a := a)) hne (by simp)
  rw [hv, gridFrom_length] at hw
  have hval : v = h * ∑ k ∈ range n, simpsonWeight ℝ n k * g (a + k * h) := by
    injection hw with hw
    rw [hw]
    congr 1
    refine sum_congr rfl fun k hk => ?_
    have hk := mem_range.1 hk
    rw [List.getD, List.getElem?_map, List.getElem?_eq_getElem (by rw [gridFrom_length]; exact hk)]
    show _ * g ((gridFrom a h n)[k]'_) = _
    rw [← List.getD_eq_getElem _ 0, gridFrom_getD hk]
  rw [e0, e1, gridFrom_length] at hb
  rw [← hval]
  refine hb.trans (le_of_eq ?_)
  ring

/-- **C165 (any limits).**  The moment of order `m` between limits that select the grid points `i … j` (at least three) of an equidistant axis, of a
density with `u ^ m * S u = g u` for a `g` with four continuous derivatives: fourth order accurate in the step. -/
theorem smooth_moment {pf pS : PyIn ℝ} {f : List ℝ} {S g : ℝ → ℝ} {h fmin F M3 M4 : ℝ} {m : Int} {i j : Nat} (hf : pf.IsArr f)
    (hS : pS.IsArr (f.map S)) (hu : UniformAxis f h) (h0 : 0 ≤ f.getD 0 0) (h1 : 0 ≤ fmin) (hF : fmin ≤ F) (hlast : F ≤ f.getD (f.length - 1) 0)
    (hsel : SelectedRange f m fmin (.fin F) i j) (hij : i + 2 ≤ j) (hg : ContDiff ℝ 4 g)
    (hgS : ∀ u ∈ Set.Icc (f.getD i 0) (f.getD j 0), u ^ m * S u = g u)
    (hM3 : ∀ u ∈ Set.Icc (f.getD i 0) (f.getD j 0), |iteratedDeriv 3 g u| ≤ M3) (hM4 : ∀ u ∈ Set.Icc (f.getD i 0) (f.getD j 0), |iteratedDeriv 4 g u| ≤ M4) :
    ∃ v, computeMoment pf pS m fmin (.fin F) = .ok v ∧ |v - ∫ u in f.getD i 0..f.getD j 0, u ^ m * S u| ≤
      (M4 / 180 * (f.getD j 0 - f.getD i 0) + M3 / 24) * h ^ 4 := by
  have hj : j < f.length := hsel.2.2.1
  have hm : monotonicIncreasingConstantStep f = .ok true := uniform_check_accepts_uniform (by omega) hu
  refine ⟨_, moment_exact hf hS hu (by omega) (by simp) h0 h1 hF hlast hsel, ?_⟩
  have hh := hu.1
  have pt : ∀ k, i + k < f.length → f.getD (i + k) 0 = f.getD i 0 + k * h := fun k hk => by
    rw [uniform_le hu _ hk, uniform_le hu i (by omega)]; push_cast; ring
  have ej : f.getD j 0 = f.getD i 0 + (j + 1 - i - 1 : Nat) * h := by rw [← pt _ (by omega)]; congr 1; omega
  have hle : f.getD i 0 ≤ f.getD j 0 := by rw [ej]; have : 0 ≤ ((j + 1 - i - 1 : Nat) : ℝ) * h := by positivity
                                           linarith
  have := weights_smooth (g := g) (a := f.getD i 0) (n := j + 1 - i) hh (by omega) hg (by rw [← ej]; exact hM3) (by rw [← ej]; exact hM4)
  rw [← ej] at this
  have e : ∑ k ∈ range (j + 1 - i), simpsonWeight ℝ (j + 1 - i) k * (f.getD (i + k) 0 ^ m * (f.map S).getD (i + k) 0) =
      ∑ k ∈ range (j + 1 - i), simpsonWeight ℝ (j + 1 - i) k * g (f.getD i 0 + k * h) := by
    refine sum_congr rfl fun k hk => ?_
    have hk := mem_range.1 hk
    rw [getD_map_lt (by omega), pt k (by omega), hgS]
    have a1 : 0 ≤ (k : ℝ) * h := by positivity
    have a2 : (k : ℝ) * h ≤ (j + 1 - i - 1 : Nat) * h := by
      apply mul_le_mul_of_nonneg_right _ hh.le
      exact_mod_cast (by omega : k ≤ j + 1 - i - 1)
    rw [ej]
    constructor <;> linarith
  have ei : ∫ u in f.getD i 0..f.getD j 0, u ^ m * S u = ∫ u in f.getD i 0..f.getD j 0, g u := by
    apply intervalIntegral.integral_congr
    intro u hu
    rw [Set.uIcc_of_le hle] at hu
    exact hgS u hu
  rw [e, ei]
  refine this.trans ?_
  have hM30 : 0 ≤ M3 := (abs_nonneg _).trans (hM3 _ ⟨le_rfl, hle⟩)
  have k0 : 0 ≤ M3 / 24 * h ^ 4 := by positivity
  have k1 : M4 / 180 * h ^ 4 * ((j + 1 - i - 1 : Nat) * h) = M4 / 180 * (f.getD j 0 - f.getD i 0) * h ^ 4 := by rw [ej]; ring
  rw [k1]
  split_ifs <;> nlinarith

/-- **C165 (whole axis).**  The moment over the whole axis of `n + 2 ≥ 3` equidistant frequencies from `a` to `b`. -/
theorem smooth_moment_full {S g : ℝ → ℝ} {a b M3 M4 : ℝ} {m : Int} (ha : 0 ≤ a) (hab : a < b) (hm : 0 ≤ m ∨ 0 < a) (hg : ContDiff ℝ 4 g)
    (hgS : ∀ u ∈ Set.Icc a b, u ^ m * S u = g u) (hM3 : ∀ u ∈ Set.Icc a b, |iteratedDeriv 3 g u| ≤ M3)
    (hM4 : ∀ u ∈ Set.Icc a b, |iteratedDeriv 4 g u| ≤ M4) {n : ℕ} (hn : 1 ≤ n) :
    ∃ v, sampledMoment S a b m n = .ok v ∧ |v - ∫ u in a..b, g u| ≤ (M4 / 180 * (b - a) + M3 / 24) * ((b - a) / (n + 1)) ^ 4 := by
  have hu := axisOf_uniform hab n
  have hl := axisOf_length a b n
  have h2 : monotonicIncreasingConstantStep (axisOf a b n) = .ok true := uniform_check_accepts_uniform (by omega) hu
  have hp := uniform_check_increasing h2
  have e0 := axisOf_first a b n
  have e1 := axisOf_last a b n
  have hd : firstUsable (axisOf a b n) m = 0 := by
    unfold firstUsable
    rw [if_neg]
    rintro ⟨h, h'⟩
    rw [e0] at h'
    rcases hm with hm | hm
    · omega
    · linarith
  have hsel : SelectedRange (axisOf a b n) m a (.fin b) 0 ((axisOf a b n).length - 1) := by
    have hsel : SelectedRange (axisOf a b n) m ((axisOf a b n).getD 0 0) (.fin ((axisOf a b n).getD ((axisOf a b n).length - 1) 0))
        (firstUsable (axisOf a b n) m) ((axisOf a b n).length - 1) :=
      ⟨isNearest_first hp (by omega) (by rw [hd]), isNearest_last hp (by omega) le_rfl⟩
    rwa [hd, e0, e1] at hsel
  obtain ⟨v, h1, h3⟩ := smooth_moment (S := S) (g := g) (M3 := M3) (M4 := M4) (isArr_vec (axisOf a b n)) (isArr_vec ((axisOf a b n).map S)) hu
    (by rw [e0]; exact ha) ha hab.le (by rw [e1]) hsel (by omega) hg (by rw [e0, e1]; exact hgS) (by rw [e0, e1]; exact hM3) (by rw [e0, e1]; exact hM4)
  refine ⟨v, ?_, ?_⟩
  · unfold sampledMoment
    rw [e0, e1]
    exact h1
  · rw [e0, e1] at h3
    have ei : ∫ u in a..b, u ^ m * S u = ∫ u in a..b, g u := by
      apply intervalIntegral.integral_congr
      intro u hu
      rw [Set.uIcc_of_le hab.le] at hu
      exact hgS u hu
    rwa [ei] at h3

open Asymptotics in
/-- **C165 (order of convergence).** -/
theorem smooth_moment_order {S g : ℝ → ℝ} {a b : ℝ} {m : Int} (ha : 0 ≤ a) (hab : a < b) (hm : 0 ≤ m ∨ 0 < a) (hg : ContDiff ℝ 4 g)
    (hgS : ∀ u ∈ Set.Icc a b, u ^ m * S u = g u) :
    ∃ v : ℕ → ℝ, (∀ n, sampledMoment S a b m n = .ok (v n)) ∧ Tendsto v atTop (𝓝 (∫ u in a..b, g u)) ∧
      (fun n => v n - ∫ u in a..b, g u) =O[atTop] fun n : ℕ => (1 / (n : ℝ)) ^ 4 := by
  obtain ⟨v, hv, ht⟩ := sampled_moment_tendsto (S := S) (g := g) (m := m) ha hab hg.continuous.continuousOn (fun u hu _ => hgS u hu)
  refine ⟨v, hv, ht, ?_⟩
  obtain ⟨M3, hM3⟩ := isCompact_Icc.exists_bound_of_continuousOn (hg.continuous_iteratedDeriv 3 (by norm_num)).continuousOn (s := Set.Icc a b)
  obtain ⟨M4, hM4⟩ := isCompact_Icc.exists_bound_of_continuousOn (hg.continuous_iteratedDeriv 4 (by norm_num)).continuousOn (s := Set.Icc a b)
  have p3 : 0 ≤ M3 := (norm_nonneg _).trans (hM3 a ⟨le_rfl, hab.le⟩)
  have p4 : 0 ≤ M4 := (norm_nonneg _).trans (hM4 a ⟨le_rfl, hab.le⟩)
  have hba : 0 < b - a := by linarith
  refine IsBigO.of_bound ((M4 / 180 * (b - a) + M3 / 24) * (b - a) ^ 4) ?_
  filter_upwards [eventually_ge_atTop 1] with n hn
  obtain ⟨w, e, hw⟩ := smooth_moment_full ha hab hm hg hgS hM3 hM4 hn
  rw [hv n] at e
  injection e with e
  rw [← e] at hw
  rw [Real.norm_eq_abs, Real.norm_eq_abs]
  refine hw.trans ?_
  have hn0 : (0 : ℝ) < n := by exact_mod_cast hn
  rw [abs_of_nonneg (by positivity), div_pow, mul_assoc, one_div, inv_pow, ← div_eq_mul_inv]
  refine mul_le_mul_of_nonneg_left ?_ (by positivity)
  refine div_le_div_of_nonneg_left (by positivity) (by positivity) ?_
  exact pow_le_pow_left₀ hn0.le (by linarith) 4

open Asymptotics in
theorem ratio_order {u v : ℕ → ℝ} {U V : ℝ} {r : ℕ → ℝ} (hV : V ≠ 0) (tv : Tendsto v atTop (𝓝 V))
    (ou : (fun n => u n - U) =O[atTop] r) (ov : (fun n => v n - V) =O[atTop] r) : (fun n => u n / v n - U / V) =O[atTop] r := by
  have h1 : (fun n => (u n - U) * V - U * (v n - V)) =O[atTop] r := by
    refine IsBigO.sub ?_ (ov.const_mul_left U)
    exact (ou.const_mul_left V).congr_left fun n => mul_comm _ _
  have h2 : (fun n => (v n * V)⁻¹) =O[atTop] fun _ => (1 : ℝ) :=
    (((tv.mul_const V).inv₀ (mul_ne_zero hV hV))).isBigO_one ℝ
  have h3 := h1.mul h2
  refine (h3.congr' ?_ (by filter_upwards with n using mul_one _))
  filter_upwards [tv.eventually_ne hV] with n hn
  field_simp
  ring

open Asymptotics in
theorem sqrt_order {u : ℕ → ℝ} {U : ℝ} {r : ℕ → ℝ} (hU : 0 < U) (tu : Tendsto u atTop (𝓝 U)) (ou : (fun n => u n - U) =O[atTop] r) :
    (fun n => √(u n) - √U) =O[atTop] r := by
  have hs : 0 < √U := Real.sqrt_pos.2 hU
  have h2 : (fun n => (√(u n) + √U)⁻¹) =O[atTop] fun _ => (1 : ℝ) :=
    (((tu.sqrt.add_const (√U)).inv₀ (by positivity))).isBigO_one ℝ
  have h3 := ou.mul h2
  refine (h3.congr' ?_ (by filter_upwards with n using mul_one _))
  filter_upwards [tu.eventually_const_lt hU] with n hn
  have k : 0 < √(u n) + √U := by positivity
  rw [← div_eq_mul_inv, div_eq_iff k.ne']
  have e1 := Real.mul_self_sqrt hn.le
  have e2 := Real.mul_self_sqrt hU.le
  nlinarith

open Asymptotics in
/-- **C165 (parameters).**  For a non-negative density with four continuous derivatives and some energy, the wave height and the mean periods of the
sampled spectrum are those of the density up to terms of fourth order in the frequency step (for `Tmm10`: on an axis that does not start at 0). -/
theorem smooth_parameters {S G : ℝ → ℝ} {a b c : ℝ} (ha : 0 ≤ a) (hab : a < b) (hS : ContDiff ℝ 4 S) (hpos : ∀ u ∈ Set.Icc a b, 0 ≤ S u)
    (hc : c ∈ Set.Icc a b) (hc0 : 0 < c) (hSc : 0 < S c) :
    ∃ H T₁ T₂ T₃ : ℕ → ℝ, (∀ᶠ n in atTop, ∃ s, sampledSpectrum S a b n = .ok s ∧ (s.getHm0 (-1) (.fin (-1))).1 = .ok (H n) ∧
        (s.getTmm10 (-1) (.fin (-1))).1 = .ok (T₁ n) ∧ (s.getTm01 (-1) (.fin (-1))).1 = .ok (T₂ n) ∧ (s.getTm02 (-1) (.fin (-1))).1 = .ok (T₃ n)) ∧
      (fun n => H n - 4 * √(∫ u in a..b, S u)) =O[atTop] (fun n : ℕ => (1 / (n : ℝ)) ^ 4) ∧
      (fun n => T₂ n - (∫ u in a..b, S u) / ∫ u in a..b, u * S u) =O[atTop] (fun n : ℕ => (1 / (n : ℝ)) ^ 4) ∧
      (fun n => T₃ n - √((∫ u in a..b, S u) / ∫ u in a..b, u ^ 2 * S u)) =O[atTop] (fun n : ℕ => (1 / (n : ℝ)) ^ 4) ∧
      (0 < a → ContDiff ℝ 4 G → (∀ u ∈ Set.Icc a b, S u / u = G u) →
        (fun n => T₁ n - (∫ u in a..b, S u / u) / ∫ u in a..b, S u) =O[atTop] (fun n : ℕ => (1 / (n : ℝ)) ^ 4)) := by
  have g1 : ContDiff ℝ 4 (fun u : ℝ => u * S u) := contDiff_id.mul hS
  have g2 : ContDiff ℝ 4 (fun u : ℝ => u ^ 2 * S u) := (contDiff_id.pow 2).mul hS
  have hSc' : ContinuousOn S (Set.Icc a b) := hS.continuous.continuousOn
  obtain ⟨v0, e0, t0, o0⟩ := smooth_moment_order (S := S) (g := S) (m := 0) ha hab (Or.inl le_rfl) hS (fun u _ => by simp)
  obtain ⟨v1, e1, t1, o1⟩ := smooth_moment_order (S := S) (g := fun u => u * S u) (m := 1) ha hab (Or.inl (by norm_num)) g1 (fun u _ => by simp)
  obtain ⟨v2, e2, t2, o2⟩ := smooth_moment_order (S := S) (g := fun u => u ^ 2 * S u) (m := 2) ha hab (Or.inl (by norm_num)) g2 (fun u _ => by norm_cast)
  have i0 : 0 < ∫ u in a..b, S u := intervalIntegral.integral_pos hab hSc' (fun u hu => hpos u ⟨hu.1.le, hu.2⟩) ⟨c, hc, hSc⟩
  have i1 : 0 < ∫ u in a..b, u * S u :=
    intervalIntegral.integral_pos hab g1.continuous.continuousOn (fun u hu => mul_nonneg (by linarith [hu.1]) (hpos u ⟨hu.1.le, hu.2⟩)) ⟨c, hc, mul_pos hc0 hSc⟩
  have i2 : 0 < ∫ u in a..b, u ^ 2 * S u :=
    intervalIntegral.integral_pos hab g2.continuous.continuousOn (fun u hu => mul_nonneg (sq_nonneg _) (hpos u ⟨hu.1.le, hu.2⟩)) ⟨c, hc, mul_pos (by positivity) hSc⟩
  -- the moment of order -1 exists for every axis
  have hall : ∀ n, ∃ v, sampledMoment S a b (-1) n = .ok v := fun n => by
    unfold sampledMoment
    exact ⟨_, full_range_moment (axisOf_uniform hab n) (by rw [axisOf_length]; omega) (by simp) (by rw [axisOf_first]; exact ha) (-1)⟩
  choose v3 e3 using hall
  refine ⟨fun n => 4 * √(v0 n), fun n => v3 n / v0 n, fun n => v0 n / v1 n, fun n => √(v0 n / v2 n), ?_, ?_, ratio_order i1.ne' t1 o0 o1,
    sqrt_order (div_pos i0 i2) (t0.div t2 i2.ne') (ratio_order i2.ne' t2 o0 o2), ?_⟩
  · filter_upwards [t0.eventually_const_lt i0, t1.eventually_const_lt i1, t2.eventually_const_lt i2] with n p0 p1 p2
    have q0 := e0 n
    have q1 := e1 n
    have q2 := e2 n
    have q3 := e3 n
    unfold sampledMoment at q0 q1 q2 q3
    refine ⟨_, sampled_init hab n, ?_, ?_, ?_, ?_⟩
    · show calcHm0 _ _ _ _ = _
      unfold calcHm0
      rw [getD_default_limits]
      dsimp only
      rw [q0]
      show heightOf _ = _
      unfold heightOf
      rw [if_neg (not_lt.2 p0.le)]
    · show calcTmm10 _ _ _ _ = _
      unfold calcTmm10
      rw [getD_default_limits]
      dsimp only
      rw [q3, q0]
      show divE _ _ = _
      unfold divE
      rw [if_neg p0.ne']
    · show calcTm01 _ _ _ _ = _
      unfold calcTm01
      rw [getD_default_limits]
      dsimp only
      rw [q0, q1]
      show divE _ _ = _
      unfold divE
      rw [if_neg p1.ne']
    · show calcTm02 _ _ _ _ = _
      unfold calcTm02
      rw [getD_default_limits]
      dsimp only
      rw [q0, q2]
      show (do let q ← divE (v0 n) (v2 n); sqrtE q) = _
      unfold divE
      rw [if_neg p2.ne']
      show sqrtE _ = _
      unfold sqrtE
      rw [if_neg (not_lt.2 (div_pos p0 p2).le)]
  · refine ((sqrt_order i0 t0 o0).const_mul_left 4).congr_left fun n => by ring
  · intro ha0 hG hSG
    obtain ⟨w, f1, f2, f3⟩ := smooth_moment_order (S := S) (g := G) (m := -1) ha hab (Or.inr ha0) hG (fun u hu => by
      rw [← hSG u hu]; simp [div_eq_inv_mul])
    have ew : w = v3 := by
      funext n
      have := (f1 n).symm.trans (e3 n)
      injection this
    have iG : ∫ u in a..b, S u / u = ∫ u in a..b, G u := by
      apply intervalIntegral.integral_congr
      intro u hu
      rw [Set.uIcc_of_le hab.le] at hu
      exact hSG u hu
    rw [iG, ← ew]
    exact ratio_order i0.ne' t0 f3 o0

/-! ## Concrete cases: the hypotheses of the theorems above are met -/

theorem exp_derivs (n : ℕ) (u : ℝ) : iteratedDeriv n Real.exp u = Real.exp u := by
  rw [iteratedDeriv_eq_iterate, Real.iter_deriv_exp]

theorem exp_bound {u : ℝ} (hu : u ≤ 1) : |Real.exp u| ≤ 3 := by
  rw [abs_of_pos (Real.exp_pos u)]
  have := Real.exp_one_lt_d9
  have := Real.exp_le_exp.2 hu
  linarith

/-- The density `exp u` on `[0, 1]` Hz, sampled with ten steps: the variance is right to `2e-5`. -/
example : ∃ v, sampledMoment Real.exp 0 1 0 9 = .ok v ∧ |v - (Real.exp 1 - 1)| ≤ 2 / 10 ^ 5 := by
  obtain ⟨v, h1, h2⟩ := smooth_moment_full (S := Real.exp) (g := Real.exp) (a := 0) (b := 1) (m := 0) (n := 9) le_rfl one_pos (Or.inl le_rfl)
    Real.contDiff_exp (fun u _ => by simp) (M3 := 3) (M4 := 3) (fun u hu => by rw [exp_derivs]; exact exp_bound hu.2)
    (fun u hu => by rw [exp_derivs]; exact exp_bound hu.2) (by norm_num)
  refine ⟨v, h1, ?_⟩
  rw [integral_exp, Real.exp_zero] at h2
  refine h2.trans (by norm_num)

/-- The same on the grid points nearest to 0.5 and 1 Hz. -/
example : ∃ v, computeMoment (vec (gridFrom 0 (1 / 4) 5)) (vec ((gridFrom 0 (1 / 4) 5).map Real.exp)) 0 (1 / 2) (.fin 1) = .ok v ∧
    |v - ∫ u in (1 / 2 : ℝ)..1, Real.exp u| ≤ 1 / 1000 := by
  have hu := gridFrom_uniform (a := 0) (by norm_num : (0 : ℝ) < 1 / 4) 5
  have hl := gridFrom_length 0 (1 / 4) 5
  have g : ∀ k : Nat, k < 5 → (gridFrom 0 (1 / 4) 5).getD k 0 = 0 + k * (1 / 4) := fun k hk => gridFrom_getD hk
  have e2 : (gridFrom 0 (1 / 4) 5).getD 2 0 = 1 / 2 := by rw [g 2 (by norm_num)]; norm_num
  have e4 : (gridFrom 0 (1 / 4) 5).getD 4 0 = 1 := by rw [g 4 (by norm_num)]; norm_num
  have hsel : SelectedRange (gridFrom 0 (1 / 4) 5) 0 (1 / 2) (.fin 1) 2 4 := by
    have near : ∀ (x : ℝ) (k : Nat), k < 5 → (gridFrom 0 (1 / 4) 5).getD k 0 = x → IsNearest (gridFrom 0 (1 / 4) 5) 0 x k := by
      intro x k hk hx
      refine ⟨Nat.zero_le _, by rw [hl]; exact hk, fun l _ _ => by rw [hx, sub_self, abs_zero]; exact abs_nonneg _, fun l _ hlt => ?_⟩
      rw [hx, sub_self, abs_zero, abs_pos, sub_ne_zero, ← hx, g l (by omega), g k hk]
      intro h
      have : (l : ℝ) = k := by linarith
      exact absurd (by exact_mod_cast this) hlt.ne
    have hf : firstUsable (gridFrom 0 (1 / 4) 5) 0 = 0 := by unfold firstUsable; rw [if_neg (by simp)]
    unfold SelectedRange
    rw [hf]
    exact ⟨near _ 2 (by norm_num) e2, near _ 4 (by norm_num) e4⟩
  obtain ⟨v, h1, h2⟩ := smooth_moment (S := Real.exp) (g := Real.exp) (M3 := 3) (M4 := 3) (isArr_vec _) (isArr_vec _) hu
    (by rw [g 0 (by norm_num)]; norm_num) (by norm_num : (0 : ℝ) ≤ 1 / 2) (by norm_num) (by rw [hl, e4]) hsel (by norm_num) Real.contDiff_exp (fun u _ => by simp)
    (fun u hu => by rw [exp_derivs]; rw [e4] at hu; exact exp_bound hu.2) (fun u hu => by rw [exp_derivs]; rw [e4] at hu; exact exp_bound hu.2)
  refine ⟨v, h1, ?_⟩
  rw [e2, e4] at h2
  simp only [zpow_zero, one_mul] at h2
  exact h2.trans (by norm_num)

open Asymptotics in
/-- The density `S u = u` on `[1/2, 1]` Hz. -/
example : ∃ H T₁ T₂ T₃ : ℕ → ℝ, (∀ᶠ n in atTop, ∃ s, sampledSpectrum (fun u => u) (1 / 2) 1 n = .ok s ∧ (s.getHm0 (-1) (.fin (-1))).1 = .ok (H n) ∧
      (s.getTmm10 (-1) (.fin (-1))).1 = .ok (T₁ n) ∧ (s.getTm01 (-1) (.fin (-1))).1 = .ok (T₂ n) ∧ (s.getTm02 (-1) (.fin (-1))).1 = .ok (T₃ n)) ∧
    (fun n => H n - 4 * √(3 / 8)) =O[atTop] (fun n : ℕ => (1 / (n : ℝ)) ^ 4) ∧
    (fun n => T₁ n - (1 / 2) / (3 / 8)) =O[atTop] (fun n : ℕ => (1 / (n : ℝ)) ^ 4) := by
  obtain ⟨H, T₁, T₂, T₃, h1, h2, -, -, h3⟩ := smooth_parameters (S := fun u => u) (G := fun _ => 1) (a := 1 / 2) (b := 1) (c := 1) (by norm_num) (by norm_num)
    contDiff_id (fun u hu => by linarith [hu.1]) ⟨by norm_num, le_rfl⟩ one_pos one_pos
  refine ⟨H, T₁, T₂, T₃, h1, ?_, ?_⟩
  · have i0 : ∫ u in (1 / 2 : ℝ)..1, u = 3 / 8 := by norm_num
    rw [i0] at h2
    exact h2
  · have h4 := h3 (by norm_num) contDiff_const (fun u hu => div_self (by linarith [hu.1]))
    have i0 : ∫ u in (1 / 2 : ℝ)..1, u = 3 / 8 := by norm_num
    have i1 : ∫ u in (1 / 2 : ℝ)..1, u / u = 1 / 2 := by
      rw [intervalIntegral.integral_congr (g := fun _ => (1 : ℝ)) (fun u hu => by
        rw [Set.uIcc_of_le (by norm_num)] at hu
        exact div_self (by linarith [hu.1]))]
      norm_num
    rw [i0, i1] at h4
    exact h4

end Verif
