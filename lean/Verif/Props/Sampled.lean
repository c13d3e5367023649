import Mathlib.Analysis.SpecialFunctions.Integrals.Basic
import Verif.Props.RecordHeight
import Verif.Props.SpectrumValues
import Verif.Props.Bands

/-! # C156: moments of a sampled continuous spectrum -/

set_option linter.unusedSectionVars false

namespace Verif
open Finset MeasureTheory

/-- A value that is within `δ` of `g` on an interval gives its integral up to `δ` times the length. -/
theorem rect_error {g : ℝ → ℝ} {p q V δ : ℝ} (hpq : p ≤ q) (hg : ContinuousOn g (Set.Icc p q)) (h : ∀ u ∈ Set.Icc p q, |V - g u| ≤ δ) :
    |V * (q - p) - ∫ u in p..q, g u| ≤ δ * (q - p) := by
  have hi : IntervalIntegrable g volume p q := hg.intervalIntegrable_of_Icc hpq
  have e : V * (q - p) - ∫ u in p..q, g u = ∫ u in p..q, (V - g u) := by
    rw [intervalIntegral.integral_sub intervalIntegrable_const hi, intervalIntegral.integral_const, smul_eq_mul, mul_comm]
  rw [e]
  have := intervalIntegral.norm_integral_le_of_norm_le_const (a := p) (b := q) (C := δ) (f := fun u => V - g u) (fun u hu => by
    rw [Set.uIoc_of_le hpq] at hu
    exact h u ⟨hu.1.le, hu.2⟩)
  rwa [Real.norm_eq_abs, abs_of_nonneg (by linarith : 0 ≤ q - p)] at this

theorem uniform_tail {a : ℝ} {xs : List ℝ} {h : ℝ} (hu : UniformAxis (a :: xs) h) : UniformAxis xs h :=
  ⟨hu.1, fun i hi => by
    have := hu.2 (i + 1) (by simp only [List.length_cons]; omega)
    simpa only [List.getD_cons_succ] using this⟩

theorem uniform_le {x : List ℝ} {h : ℝ} (hu : UniformAxis x h) : ∀ i, i < x.length → x.getD i 0 = x.getD 0 0 + i * h := by
  intro i
  induction i with
  | zero => intro _; simp
  | succ i ih => intro hi; rw [hu.2 i hi, ih (by omega)]; push_cast; ring

/-- Simpson's rule on an odd number of equidistant points. -/
theorem simpOdd_error {g : ℝ → ℝ} {ε h : ℝ} : ∀ x : List ℝ, UniformAxis x h → x.length % 2 = 1 →
    ContinuousOn g (Set.Icc (x.getD 0 0) (x.getD (x.length - 1) 0)) →
    (∀ u ∈ Set.Icc (x.getD 0 0) (x.getD (x.length - 1) 0), ∀ v ∈ Set.Icc (x.getD 0 0) (x.getD (x.length - 1) 0), |u - v| ≤ 2 * h → |g u - g v| ≤ ε) →
    |simpOdd x (x.map g) - ∫ u in x.getD 0 0..x.getD (x.length - 1) 0, g u| ≤ ε * (x.getD (x.length - 1) 0 - x.getD 0 0)
  | [], _, hl, _, _ => by simp at hl
  | [a], _, _, _, _ => by simp [simpOdd]
  | [a, b], _, hl, _, _ => by simp at hl
  | a :: b :: c :: xs, hu, hl, hg, hε => by
    have h1 := hu.1
    have hb : b = a + h := by simpa using hu.2 0 (by simp)
    have hc : c = b + h := by simpa using hu.2 1 (by simp)
    have huc : UniformAxis (c :: xs) h := uniform_tail (uniform_tail hu)
    have e0 : (a :: b :: c :: xs).getD 0 0 = a := rfl
    have e1 : (a :: b :: c :: xs).getD ((a :: b :: c :: xs).length - 1) 0 = (c :: xs).getD ((c :: xs).length - 1) 0 := by
      simp only [List.length_cons]
      rw [show xs.length + 1 + 1 + 1 - 1 = (xs.length + 1 - 1) + 1 + 1 by omega, List.getD_cons_succ, List.getD_cons_succ]
    rw [e0, e1] at hg hε ⊢
    set z := (c :: xs).getD ((c :: xs).length - 1) 0 with hz
    have hcz : c ≤ z := by
      have := uniform_le huc ((c :: xs).length - 1) (by simp)
      rw [← hz, List.getD_cons_zero] at this
      rw [this]
      have : 0 ≤ (((c :: xs).length - 1 : Nat) : ℝ) * h := by positivity
      linarith
    have hac : a ≤ c := by linarith
    have ih := simpOdd_error (c :: xs) huc (by simp only [List.length_cons] at hl ⊢; omega)
      (hg.mono (Set.Icc_subset_Icc hac le_rfl)) (fun u hu v hv => hε u (Set.Icc_subset_Icc hac le_rfl hu) v (Set.Icc_subset_Icc hac le_rfl hv))
    rw [← hz, List.getD_cons_zero] at ih
    have hsub : Set.Icc a c ⊆ Set.Icc a z := Set.Icc_subset_Icc le_rfl hcz
    have pair := rect_error (g := g) (p := a) (q := c) (V := (g a + 4 * g b + g c) / 6) (δ := ε) hac (hg.mono hsub) (fun u hu => by
      have ha := hε a ⟨le_rfl, by linarith⟩ u (hsub hu) (by rw [abs_le]; constructor <;> linarith [hu.1, hu.2])
      have hb' := hε b ⟨by linarith, by linarith⟩ u (hsub hu) (by rw [abs_le]; constructor <;> linarith [hu.1, hu.2])
      have hc' := hε c ⟨by linarith, by linarith⟩ u (hsub hu) (by rw [abs_le]; constructor <;> linarith [hu.1, hu.2])
      rw [abs_le] at ha hb' hc' ⊢
      constructor <;> linarith [ha.1, ha.2, hb'.1, hb'.2, hc'.1, hc'.2])
    have hint : ∫ u in a..z, g u = (∫ u in a..c, g u) + ∫ u in c..z, g u :=
      (intervalIntegral.integral_add_adjacent_intervals ((hg.mono hsub).intervalIntegrable_of_Icc hac)
        ((hg.mono (Set.Icc_subset_Icc hac le_rfl)).intervalIntegrable_of_Icc hcz)).symm
    have hs : simpOdd (a :: b :: c :: xs) ((a :: b :: c :: xs).map g) = (g a + 4 * g b + g c) / 6 * (c - a) + simpOdd (c :: xs) ((c :: xs).map g) := by
      simp only [List.map_cons, simpOdd]
      have q0 : b - a = h := by linarith
      have q1 : c - b = h := by linarith
      have q2 : c - a = 2 * h := by linarith
      rw [q0, q1, q2]
      have := h1.ne'
      field_simp
      ring
    rw [hs, hint]
    have := abs_add_le ((g a + 4 * g b + g c) / 6 * (c - a) - ∫ u in a..c, g u) (simpOdd (c :: xs) ((c :: xs).map g) - ∫ u in c..z, g u)
    rw [show (g a + 4 * g b + g c) / 6 * (c - a) + simpOdd (c :: xs) ((c :: xs).map g) - ((∫ u in a..c, g u) + ∫ u in c..z, g u) =
      ((g a + 4 * g b + g c) / 6 * (c - a) - ∫ u in a..c, g u) + (simpOdd (c :: xs) ((c :: xs).map g) - ∫ u in c..z, g u) by ring]
    linarith

theorem uniform_dropLast {x : List ℝ} {h : ℝ} (hu : UniformAxis x h) : UniformAxis x.dropLast h :=
  ⟨hu.1, fun i hi => by
    rw [List.length_dropLast] at hi
    have := hu.2 i (by omega)
    have a : ∀ k, k < x.length - 1 → x.dropLast.getD k 0 = x.getD k 0 := fun k hk => by
      rw [List.getD, List.getD, List.getElem?_dropLast, if_pos hk]
    rw [a _ (by omega), a _ (by omega), this]⟩

/-- **C156 (quadrature).**  `scipy.integrate.simpson` of a continuous function sampled on an equidistant axis: if the function varies by at most `ε`
over two steps, the result is within `7/6 ε` times the length of the integral. -/
theorem simpson_error {g : ℝ → ℝ} {ε h : ℝ} {x : List ℝ} (hu : UniformAxis x h) (hx : x ≠ [])
    (hg : ContinuousOn g (Set.Icc (x.getD 0 0) (x.getD (x.length - 1) 0)))
    (hε : ∀ u ∈ Set.Icc (x.getD 0 0) (x.getD (x.length - 1) 0), ∀ v ∈ Set.Icc (x.getD 0 0) (x.getD (x.length - 1) 0), |u - v| ≤ 2 * h → |g u - g v| ≤ ε) :
    ∃ v, simpson x (x.map g) = .ok v ∧
      |v - ∫ u in x.getD 0 0..x.getD (x.length - 1) 0, g u| ≤ 7 / 6 * ε * (x.getD (x.length - 1) 0 - x.getD 0 0) := by
  have hpos : 0 < x.length := List.length_pos_iff.2 hx
  have h1 := hu.1
  have hle : ∀ i, i < x.length → x.getD i 0 = x.getD 0 0 + i * h := uniform_le hu
  have hlen : x.getD 0 0 ≤ x.getD (x.length - 1) 0 := by
    rw [hle (x.length - 1) (by omega)]
    have : 0 ≤ ((x.length - 1 : Nat) : ℝ) * h := by positivity
    linarith
  have hε0 : 0 ≤ ε := (abs_nonneg _).trans (hε _ ⟨le_rfl, hlen⟩ _ ⟨le_rfl, hlen⟩ (by simp; linarith))
  have hmap : ∀ i, i < x.length → (x.map g).getD i 0 = g (x.getD i 0) := fun i hi => by
    rw [List.getD, List.getElem?_map, List.getD, List.getElem?_eq_getElem hi]; rfl
  unfold simpson
  rw [if_neg (by simp), if_neg hx]
  by_cases ho : x.length % 2 = 1
  · rw [if_pos ho]
    refine ⟨_, rfl, (simpOdd_error x hu ho hg hε).trans ?_⟩
    nlinarith [mul_nonneg hε0 (sub_nonneg.2 hlen)]
  · rw [if_neg ho]
    by_cases h2 : x.length = 2
    · rw [if_pos h2]
      refine ⟨_, rfl, ?_⟩
      rw [h2, hmap 1 (by omega), hmap 0 (by omega)]
      rw [h2] at hg hε hlen
      simp only [show (2 - 1 : Nat) = 1 from rfl] at hg hε hlen ⊢
      have e1 := hle 1 (by omega)
      have := rect_error (g := g) (V := (g (x.getD 1 0) + g (x.getD 0 0)) / 2) (δ := ε) hlen hg (fun u hu => by
        have ha := hε _ ⟨le_rfl, hlen⟩ u hu (by rw [abs_le]; push_cast at e1; constructor <;> linarith [hu.1, hu.2])
        have hb := hε _ ⟨hlen, le_rfl⟩ u hu (by rw [abs_le]; push_cast at e1; constructor <;> linarith [hu.1, hu.2])
        rw [abs_le] at ha hb ⊢
        constructor <;> linarith [ha.1, ha.2, hb.1, hb.2])
      rw [show 1 / 2 * (x.getD 1 0 - x.getD 0 0) * (g (x.getD 1 0) + g (x.getD 0 0)) = (g (x.getD 1 0) + g (x.getD 0 0)) / 2 * (x.getD 1 0 - x.getD 0 0) by ring]
      nlinarith [mul_nonneg hε0 (sub_nonneg.2 hlen)]
    · rw [if_neg h2]
      refine ⟨_, rfl, ?_⟩
      have h4 : 4 ≤ x.length := by omega
      have dl : x.dropLast.length = x.length - 1 := List.length_dropLast
      have dg : ∀ k, k < x.length - 1 → x.dropLast.getD k 0 = x.getD k 0 := fun k hk => by
        rw [List.getD, List.getD, List.getElem?_dropLast, if_pos hk]
      set n := x.length with hn
      have p1 : x.getD (n - 1) 0 = x.getD 0 0 + ((n - 1 : Nat) : ℝ) * h := hle _ (by omega)
      have p2 : x.getD (n - 2) 0 = x.getD 0 0 + ((n - 2 : Nat) : ℝ) * h := hle _ (by omega)
      have p3 : x.getD (n - 3) 0 = x.getD 0 0 + ((n - 3 : Nat) : ℝ) * h := hle _ (by omega)
      have c1 : ((n - 1 : Nat) : ℝ) = ((n - 3 : Nat) : ℝ) + 2 := by
        rw [show n - 1 = n - 3 + 2 by omega]; push_cast; ring
      have c2 : ((n - 2 : Nat) : ℝ) = ((n - 3 : Nat) : ℝ) + 1 := by
        rw [show n - 2 = n - 3 + 1 by omega]; push_cast; ring
      rw [c1] at p1
      rw [c2] at p2
      have c0 : 0 ≤ ((n - 3 : Nat) : ℝ) * h := by positivity
      set A := x.getD 0 0
      set B := x.getD (n - 1) 0
      have hCB : x.getD (n - 2) 0 ≤ B := by linarith
      have hAC : A ≤ x.getD (n - 2) 0 := by linarith
      have hg1 : ContinuousOn g (Set.Icc A (x.getD (n - 2) 0)) := hg.mono (Set.Icc_subset_Icc le_rfl hCB)
      have hg2 : ContinuousOn g (Set.Icc (x.getD (n - 2) 0) B) := hg.mono (Set.Icc_subset_Icc hAC le_rfl)
      have first := simpOdd_error (g := g) (ε := ε) x.dropLast (uniform_dropLast hu) (by omega)
        (by rw [dl, dg _ (by omega), dg _ (by omega), Nat.sub_sub]; exact hg1)
        (by
          rw [dl, dg _ (by omega), dg _ (by omega), Nat.sub_sub]
          exact fun u hu v hv => hε u (Set.Icc_subset_Icc le_rfl hCB hu) v (Set.Icc_subset_Icc le_rfl hCB hv))
      rw [dl, dg _ (by omega), dg _ (by omega), Nat.sub_sub, List.map_dropLast] at first
      have last := rect_error (g := g) (p := x.getD (n - 2) 0) (q := B)
        (V := 5 / 12 * g B + 8 / 12 * g (x.getD (n - 2) 0) - 1 / 12 * g (x.getD (n - 3) 0)) (δ := 7 / 6 * ε) hCB hg2 (fun u hu => by
        have hu' : u ∈ Set.Icc A B := Set.Icc_subset_Icc hAC le_rfl hu
        have ha := hε B ⟨by linarith, le_rfl⟩ u hu' (by rw [abs_le]; constructor <;> linarith [hu.1, hu.2])
        have hb := hε (x.getD (n - 2) 0) ⟨hAC, hCB⟩ u hu' (by rw [abs_le]; constructor <;> linarith [hu.1, hu.2])
        have hc := hε (x.getD (n - 3) 0) ⟨by linarith, by linarith⟩ u hu' (by rw [abs_le]; constructor <;> linarith [hu.1, hu.2])
        rw [abs_le] at ha hb hc ⊢
        constructor <;> linarith [ha.1, ha.2, hb.1, hb.2, hc.1, hc.2])
      have hlast : simpLast x (x.map g) = (5 / 12 * g B + 8 / 12 * g (x.getD (n - 2) 0) - 1 / 12 * g (x.getD (n - 3) 0)) * (B - x.getD (n - 2) 0) := by
        unfold simpLast
        dsimp only
        rw [← hn, hmap _ (by omega), hmap _ (by omega), hmap _ (by omega)]
        rw [show x.getD (n - 2) 0 - x.getD (n - 3) 0 = h by linarith, show B - x.getD (n - 2) 0 = h by linarith]
        field_simp
        ring
      rw [hlast]
      have hint : ∫ u in A..B, g u = (∫ u in A..x.getD (n - 2) 0, g u) + ∫ u in x.getD (n - 2) 0..B, g u :=
        (intervalIntegral.integral_add_adjacent_intervals (hg1.intervalIntegrable_of_Icc hAC) (hg2.intervalIntegrable_of_Icc hCB)).symm
      rw [hint]
      set W := (5 / 12 * g B + 8 / 12 * g (x.getD (n - 2) 0) - 1 / 12 * g (x.getD (n - 3) 0)) * (B - x.getD (n - 2) 0)
      have := abs_add_le (simpOdd x.dropLast (x.map g).dropLast - ∫ u in A..x.getD (n - 2) 0, g u) (W - ∫ u in x.getD (n - 2) 0..B, g u)
      rw [show simpOdd x.dropLast (x.map g).dropLast + W - ((∫ u in A..x.getD (n - 2) 0, g u) + ∫ u in x.getD (n - 2) 0..B, g u) =
        (simpOdd x.dropLast (x.map g).dropLast - ∫ u in A..x.getD (n - 2) 0, g u) + (W - ∫ u in x.getD (n - 2) 0..B, g u) by ring]
      have e2 : n - (1 + 1) = n - 2 := rfl
      rw [e2] at first
      nlinarith [mul_nonneg hε0 (sub_nonneg.2 hAC)]

/-- `n` equidistant points from `a` with step `h`. -/
noncomputable def gridFrom (a h : ℝ) (n : Nat) : List ℝ := (List.range n).map fun (k : Nat) => a + k * h

theorem gridFrom_length (a h : ℝ) (n : Nat) : (gridFrom a h n).length = n := by simp [gridFrom]

theorem gridFrom_getD {a h : ℝ} {n k : Nat} (hk : k < n) : (gridFrom a h n).getD k 0 = a + k * h :=
  getD_map_range (fun (k : Nat) => a + k * h) _ k 0 hk

theorem gridFrom_uniform {a h : ℝ} (hh : 0 < h) (n : Nat) : UniformAxis (gridFrom a h n) h :=
  ⟨hh, fun i hi => by
    rw [gridFrom_length] at hi
    rw [gridFrom_getD hi, gridFrom_getD (by omega)]; push_cast; ring⟩

/-- The quadrature formula of C102 on a sampled continuous function. -/
theorem weights_error {g : ℝ → ℝ} {ε a h : ℝ} {n : Nat} (hh : 0 < h) (hn : 0 < n) (hg : ContinuousOn g (Set.Icc a (a + (n - 1 : Nat) * h)))
    (hε : ∀ u ∈ Set.Icc a (a + (n - 1 : Nat) * h), ∀ v ∈ Set.Icc a (a + (n - 1 : Nat) * h), |u - v| ≤ 2 * h → |g u - g v| ≤ ε) :
    |h * ∑ k ∈ range n, simpsonWeight ℝ n k * g (a + k * h) - ∫ u in a..a + (n - 1 : Nat) * h, g u| ≤ 7 / 6 * ε * ((n - 1 : Nat) * h) := by
  have e0 : (gridFrom a h n).getD 0 0 = a := by rw [gridFrom_getD hn]; simp
  have e1 : (gridFrom a h n).getD ((gridFrom a h n).length - 1) 0 = a + (n - 1 : Nat) * h := by
    rw [gridFrom_length, gridFrom_getD (by omega)]
  obtain ⟨v, hv, hb⟩ := simpson_error (g := g) (ε := ε) (gridFrom_uniform hh n (a := a)) (by
      intro h; have := congrArg List.length h; rw [gridFrom_length] at this; simp at this; omega)
    (by rw [e0, e1]; exact hg) (by rw [e0, e1]; exact hε)
  have hw := simpson_exact_weights (y := (gridFrom a h n).map g) (gridFrom_uniform hh n (a := a)) (by
      intro h; have := congrArg List.length h; rw [gridFrom_length] at this; simp at this; omega) (by simp)
  rw [hv, gridFrom_length] at hw
  have hval : v = h * ∑ k ∈ range n, simpsonWeight ℝ n k * g (a + k * h) := by
    injection hw with hw
    rw [hw]
    congr 1
    refine sum_congr rfl fun k hk => ?_
    have hk := mem_range.1 hk
    rw [List.getD, List.getElem?_map, List.getElem?_eq_getElem (by rw [gridFrom_length]; exact hk)]
    show _ * g ((gridFrom a h n)[k]'_) = _
    rw [← List.getD_eq_getElem _ 0, gridFrom_getD hk]
  rw [e0, e1] at hb
  rw [← hval]
  calc _ ≤ _ := hb
    _ = _ := by ring

theorem getD_map_lt {g : ℝ → ℝ} {x : List ℝ} {i : Nat} (hi : i < x.length) : (x.map g).getD i 0 = g (x.getD i 0) := by
  rw [List.getD, List.getElem?_map, List.getD, List.getElem?_eq_getElem hi]; rfl

/-- **C156 (any limits).**  The moment of order `m` of a continuous density sampled on an equidistant axis, between limits that select the grid points
`i … j`: if `u ^ m * S u` varies by at most `ε` over two steps, the moment is within `7/6 ε` times the width of the band of the integral. -/
theorem sampled_moment {pf pS : PyIn ℝ} {f : List ℝ} {S : ℝ → ℝ} {h fmin F ε : ℝ} {m : Int} {i j : Nat} (hf : pf.IsArr f) (hS : pS.IsArr (f.map S))
    (hu : UniformAxis f h) (h2 : 2 ≤ f.length) (h0 : 0 ≤ f.getD 0 0) (h1 : 0 ≤ fmin) (hF : fmin ≤ F) (hlast : F ≤ f.getD (f.length - 1) 0)
    (hsel : SelectedRange f m fmin (.fin F) i j) (hc : ContinuousOn S (Set.Icc (f.getD i 0) (f.getD j 0)))
    (hε : ∀ u ∈ Set.Icc (f.getD i 0) (f.getD j 0), ∀ v ∈ Set.Icc (f.getD i 0) (f.getD j 0), |u - v| ≤ 2 * h → |u ^ m * S u - v ^ m * S v| ≤ ε) :
    ∃ v, computeMoment pf pS m fmin (.fin F) = .ok v ∧
      |v - ∫ u in f.getD i 0..f.getD j 0, u ^ m * S u| ≤ 7 / 6 * ε * (f.getD j 0 - f.getD i 0) := by
  have hm : monotonicIncreasingConstantStep f = .ok true := uniform_check_accepts_uniform h2 hu
  have hp := uniform_check_increasing hm
  have hj : j < f.length := hsel.2.2.1
  have hij : i ≤ j := isNearest_mono hp hF hsel.1 hsel.2
  refine ⟨_, moment_exact hf hS hu h2 (by simp) h0 h1 hF hlast hsel, ?_⟩
  have pt : ∀ k, i + k < f.length → f.getD (i + k) 0 = f.getD i 0 + k * h := fun k hk => by
    rw [uniform_le hu _ hk, uniform_le hu i (by omega)]; push_cast; ring
  have ej : f.getD j 0 = f.getD i 0 + (j + 1 - i - 1 : Nat) * h := by rw [← pt _ (by omega)]; congr 1; omega
  have hfi : m < 0 → 0 < f.getD i 0 := by
    intro hm0
    have hd : firstUsable f m ≤ i := hsel.1.1
    by_cases hz : f.getD 0 0 = 0
    · rw [firstUsable, if_pos ⟨hm0, hz⟩] at hd
      exact lt_of_le_of_lt h0 (inc_lt hp hd (by omega))
    · exact lt_of_lt_of_le (lt_of_le_of_ne h0 (Ne.symm hz)) (inc_le hp (Nat.zero_le _) (by omega))
  have hcont : ContinuousOn (fun u : ℝ => u ^ m * S u) (Set.Icc (f.getD i 0) (f.getD j 0)) := by
    refine ContinuousOn.mul (fun u hu => ContinuousAt.continuousWithinAt ?_) hc
    apply continuousAt_zpow₀
    by_cases hm0 : m < 0
    · exact Or.inl (lt_of_lt_of_le (hfi hm0) hu.1).ne'
    · exact Or.inr (not_lt.1 hm0)
  have := weights_error (g := fun u => u ^ m * S u) (ε := ε) (a := f.getD i 0) (n := j + 1 - i) hu.1 (by omega) (by rw [← ej]; exact hcont) (by rw [← ej]; exact hε)
  rw [← ej] at this
  have e : ∑ k ∈ range (j + 1 - i), simpsonWeight ℝ (j + 1 - i) k * (f.getD (i + k) 0 ^ m * (f.map S).getD (i + k) 0) =
      ∑ k ∈ range (j + 1 - i), simpsonWeight ℝ (j + 1 - i) k * (fun u => u ^ m * S u) (f.getD i 0 + k * h) := by
    refine sum_congr rfl fun k hk => ?_
    have hk := mem_range.1 hk
    rw [getD_map_lt (by omega), pt k (by omega)]
  rw [e]
  refine this.trans (le_of_eq ?_)
  rw [ej]; ring

/-- **C156 (whole axis).**  The moment of order `m` over a whole equidistant axis from `a ≥ 0` to `b`, of a density with `u ^ m * S u = g u` for a
continuous `g` (so `S` may vanish at frequency 0 for a negative `m`): within `7/6 ε (b - a) + h M` of the integral of `g`, where `g` varies by at
most `ε` over two steps and is bounded by `M`. -/
theorem sampled_full {f : List ℝ} {S g : ℝ → ℝ} {h ε M : ℝ} {m : Int} (hu : UniformAxis f h) (h2 : 2 ≤ f.length) (h0 : 0 ≤ f.getD 0 0)
    (hc : ContinuousOn g (Set.Icc (f.getD 0 0) (f.getD (f.length - 1) 0)))
    (hg : ∀ u ∈ Set.Icc (f.getD 0 0) (f.getD (f.length - 1) 0), 0 ≤ m ∨ 0 < u → u ^ m * S u = g u)
    (hε : ∀ u ∈ Set.Icc (f.getD 0 0) (f.getD (f.length - 1) 0), ∀ v ∈ Set.Icc (f.getD 0 0) (f.getD (f.length - 1) 0), |u - v| ≤ 2 * h → |g u - g v| ≤ ε)
    (hM : ∀ u ∈ Set.Icc (f.getD 0 0) (f.getD (f.length - 1) 0), |g u| ≤ M) :
    ∃ v, computeMoment (vec f) (.nd ⟨[(f.map S).length], f.map S⟩) m (f.getD 0 0) (.fin (f.getD (f.length - 1) 0)) = .ok v ∧
      |v - ∫ u in f.getD 0 0..f.getD (f.length - 1) 0, g u| ≤ 7 / 6 * ε * (f.getD (f.length - 1) 0 - f.getD 0 0) + h * M := by
  refine ⟨_, full_range_moment hu h2 (by simp) h0 m, ?_⟩
  have hh := hu.1
  set d := firstUsable f m with hd
  have hd1 : d ≤ 1 := firstUsable_le f m
  set a := f.getD 0 0 with ha
  set b := f.getD (f.length - 1) 0 with hb
  have eb : b = a + (f.length - 1 : Nat) * h := uniform_le hu _ (by omega)
  have pt : ∀ k, d + k < f.length → f.getD (d + k) 0 = a + d * h + k * h := fun k hk => by rw [uniform_le hu _ hk]; push_cast; ring
  have ea : a + d * h + (f.length - d - 1 : Nat) * h = b := by
    rw [eb, show f.length - 1 = d + (f.length - d - 1) by omega]; push_cast; ring
  have hdh : 0 ≤ (d : ℝ) * h := by positivity
  have hdh1 : (d : ℝ) * h ≤ h := by
    have : (d : ℝ) ≤ 1 := by exact_mod_cast hd1
    nlinarith
  have hlen : (0 : ℝ) ≤ (f.length - d - 1 : Nat) * h := by positivity
  have hsub : Set.Icc (a + d * h) b ⊆ Set.Icc a b := Set.Icc_subset_Icc (by linarith) le_rfl
  have hab : a ≤ b := by linarith
  have hε0 : 0 ≤ ε := (abs_nonneg _).trans (hε a ⟨le_rfl, hab⟩ a ⟨le_rfl, hab⟩ (by simp; linarith))
  have hw := weights_error (g := g) (ε := ε) (a := a + d * h) (n := f.length - d) hh (by omega) (by rw [ea]; exact hc.mono hsub)
    (by rw [ea]; exact fun u hu v hv => hε u (hsub hu) v (hsub hv))
  rw [ea] at hw
  have e : ∑ k ∈ range (f.length - d), simpsonWeight ℝ (f.length - d) k * (f.getD (d + k) 0 ^ m * (f.map S).getD (d + k) 0) =
      ∑ k ∈ range (f.length - d), simpsonWeight ℝ (f.length - d) k * g (a + d * h + k * h) := by
    refine sum_congr rfl fun k hk => ?_
    have hk := mem_range.1 hk
    have hk0 : 0 ≤ (k : ℝ) * h := by positivity
    have hkb : (k : ℝ) * h ≤ (f.length - d - 1 : Nat) * h := by
      apply mul_le_mul_of_nonneg_right _ hh.le
      exact_mod_cast (by omega : k ≤ f.length - d - 1)
    rw [getD_map_lt (by omega), pt k (by omega), hg _ ⟨by linarith, by linarith⟩]
    by_cases hm : 0 ≤ m
    · exact Or.inl hm
    · right
      by_cases hz : a = 0
      · have : d = 1 := by rw [hd, firstUsable, if_pos ⟨not_le.1 hm, hz⟩]
        rw [this, hz]; push_cast; linarith
      · have : 0 < a := lt_of_le_of_ne h0 (Ne.symm hz)
        linarith
  rw [e]
  have hint : ∫ u in a..b, g u = (∫ u in a..a + d * h, g u) + ∫ u in a + d * h..b, g u :=
    (intervalIntegral.integral_add_adjacent_intervals ((hc.mono (Set.Icc_subset_Icc le_rfl (by linarith))).intervalIntegrable_of_Icc (by linarith))
      ((hc.mono hsub).intervalIntegrable_of_Icc (by linarith))).symm
  have hsmall : |∫ u in a..a + d * h, g u| ≤ M * (d * h) := by
    have := intervalIntegral.norm_integral_le_of_norm_le_const (a := a) (b := a + d * h) (C := M) (f := g) (fun u hu => by
      rw [Set.uIoc_of_le (by linarith)] at hu
      exact hM u ⟨hu.1.le, by linarith [hu.2]⟩)
    rwa [Real.norm_eq_abs, show a + d * h - a = d * h by ring, abs_of_nonneg hdh] at this
  have hM0 : 0 ≤ M := (abs_nonneg _).trans (hM a ⟨le_rfl, hab⟩)
  rw [hint]
  set V := h * ∑ k ∈ range (f.length - d), simpsonWeight ℝ (f.length - d) k * g (a + d * h + k * h)
  have hl : (f.length - d - 1 : Nat) * h ≤ b - a := by linarith
  have := abs_add_le (V - ∫ u in a + d * h..b, g u) (-∫ u in a..a + d * h, g u)
  rw [abs_neg] at this
  rw [show V - ((∫ u in a..a + d * h, g u) + ∫ u in a + d * h..b, g u) = (V - ∫ u in a + d * h..b, g u) + -∫ u in a..a + d * h, g u by ring]
  have k1 := mul_le_mul_of_nonneg_left hl (by positivity : 0 ≤ 7 / 6 * ε)
  have k2 := mul_le_mul_of_nonneg_left hdh1 hM0
  linarith

/-! ## Refining the axis -/

open Filter Topology

/-- `n + 2` equidistant frequencies from `a` to `b`. -/
noncomputable def axisOf (a b : ℝ) (n : Nat) : List ℝ := gridFrom a ((b - a) / (n + 1)) (n + 2)

theorem axisOf_uniform {a b : ℝ} (hab : a < b) (n : Nat) : UniformAxis (axisOf a b n) ((b - a) / (n + 1)) :=
  gridFrom_uniform (div_pos (by linarith) (by positivity)) _

theorem axisOf_length (a b : ℝ) (n : Nat) : (axisOf a b n).length = n + 2 := gridFrom_length ..

theorem axisOf_first (a b : ℝ) (n : Nat) : (axisOf a b n).getD 0 0 = a := by unfold axisOf; rw [gridFrom_getD (by omega)]; simp

theorem axisOf_last (a b : ℝ) (n : Nat) : (axisOf a b n).getD ((axisOf a b n).length - 1) 0 = b := by
  rw [axisOf_length]; unfold axisOf; rw [gridFrom_getD (by omega), show n + 2 - 1 = n + 1 by omega]
  have : ((n : ℝ) + 1) ≠ 0 := by positivity
  push_cast; field_simp; ring

/-- The order-`m` moment over the whole axis of the density `S` sampled at `n + 2` points between `a` and `b`. -/
noncomputable def sampledMoment (S : ℝ → ℝ) (a b : ℝ) (m : Int) (n : Nat) : Except PyErr ℝ :=
  computeMoment (vec (axisOf a b n)) (.nd ⟨[((axisOf a b n).map S).length], (axisOf a b n).map S⟩) m ((axisOf a b n).getD 0 0)
    (.fin ((axisOf a b n).getD ((axisOf a b n).length - 1) 0))

/-- **C156 (refinement).**  As the axis is refined, the moments of a sampled density tend to the integrals. -/
theorem sampled_moment_tendsto {S g : ℝ → ℝ} {a b : ℝ} {m : Int} (ha : 0 ≤ a) (hab : a < b) (hc : ContinuousOn g (Set.Icc a b))
    (hg : ∀ u ∈ Set.Icc a b, 0 ≤ m ∨ 0 < u → u ^ m * S u = g u) :
    ∃ v : ℕ → ℝ, (∀ n, sampledMoment S a b m n = .ok (v n)) ∧ Tendsto v atTop (𝓝 (∫ u in a..b, g u)) := by
  have hcomp : IsCompact (Set.Icc a b) := isCompact_Icc
  obtain ⟨M, hM⟩ := hcomp.exists_bound_of_continuousOn hc
  have hM' : ∀ u ∈ Set.Icc a b, |g u| ≤ M := fun u hu => hM u hu
  have key : ∀ (n : Nat) (ε : ℝ), (∀ u ∈ Set.Icc a b, ∀ v ∈ Set.Icc a b, |u - v| ≤ 2 * ((b - a) / (n + 1)) → |g u - g v| ≤ ε) →
      ∃ v, sampledMoment S a b m n = .ok v ∧ |v - ∫ u in a..b, g u| ≤ 7 / 6 * ε * (b - a) + (b - a) / (n + 1) * M := by
    intro n ε hε
    have := sampled_full (f := axisOf a b n) (S := S) (g := g) (ε := ε) (M := M) (m := m) (axisOf_uniform hab n) (by rw [axisOf_length]; omega)
      (by rw [axisOf_first]; exact ha) (by rw [axisOf_first, axisOf_last]; exact hc) (by rw [axisOf_first, axisOf_last]; exact hg)
      (by rw [axisOf_first, axisOf_last]; exact hε) (by rw [axisOf_first, axisOf_last]; exact hM')
    obtain ⟨v, h1, h2⟩ := this
    rw [axisOf_first, axisOf_last] at h2
    exact ⟨v, h1, h2⟩
  have hall : ∀ n, ∃ v, sampledMoment S a b m n = .ok v := fun n => by
    obtain ⟨v, h, -⟩ := key n (2 * M) (fun u hu v hv _ => by
      have := abs_sub (g u) (g v)
      linarith [hM' u hu, hM' v hv])
    exact ⟨v, h⟩
  choose v hv using hall
  refine ⟨v, hv, ?_⟩
  rw [Metric.tendsto_atTop]
  intro δ hδ
  have huc := hcomp.uniformContinuousOn_of_continuous hc
  rw [Metric.uniformContinuousOn_iff] at huc
  obtain ⟨η, hη, hu⟩ := huc (δ / (4 * (b - a))) (div_pos hδ (by linarith))
  have hlim : Tendsto (fun n : ℕ => (b - a) / ((n : ℝ) + 1)) atTop (𝓝 0) := tendsto_const_div_atTop_nhds_zero_nat (b - a) |>.comp (tendsto_add_atTop_nat 1) |>.congr (fun n => by simp)
  have hM0 : 0 ≤ M := (abs_nonneg _).trans (hM' a ⟨le_rfl, hab.le⟩)
  have hmin : 0 < min (η / 3) (δ / (4 * (M + 1))) := lt_min (by linarith) (by positivity)
  obtain ⟨N, hN⟩ := (Metric.tendsto_atTop.1 hlim) _ hmin
  refine ⟨N, fun n hn => ?_⟩
  have h1 := hN n hn
  have hstep : 0 < (b - a) / ((n : ℝ) + 1) := div_pos (by linarith) (by positivity)
  rw [Real.dist_eq, sub_zero, abs_of_pos hstep] at h1
  have hs1 := lt_of_lt_of_le h1 (min_le_left _ _)
  have hs2 := lt_of_lt_of_le h1 (min_le_right _ _)
  obtain ⟨w, e1, e2⟩ := key n (δ / (4 * (b - a))) (fun u hu' v hv' hd => by
    have := hu u hu' v hv' (by rw [Real.dist_eq]; linarith)
    rw [Real.dist_eq] at this
    exact this.le)
  rw [hv n] at e1
  injection e1 with e1
  rw [← e1] at e2
  rw [Real.dist_eq]
  have k1 : 7 / 6 * (δ / (4 * (b - a))) * (b - a) = 7 / 24 * δ := by
    have : b - a ≠ 0 := by linarith
    field_simp; ring
  have k2 : (b - a) / ((n : ℝ) + 1) * M ≤ δ / 4 := by
    have : (b - a) / ((n : ℝ) + 1) * M ≤ δ / (4 * (M + 1)) * (M + 1) := mul_le_mul hs2.le (by linarith) hM0 (by positivity)
    have e : δ / (4 * (M + 1)) * (M + 1) = δ / 4 := by field_simp
    linarith
  rw [k1] at e2
  linarith

/-- The spectrum object of the density `S` sampled at `n + 2` equidistant frequencies from `a` to `b`. -/
noncomputable def sampledSpectrum (S : ℝ → ℝ) (a b : ℝ) (n : Nat) : Except PyErr SpecObj :=
  SpecObj.init (vec (axisOf a b n)) (vec ((axisOf a b n).map S))

theorem sampled_init {S : ℝ → ℝ} {a b : ℝ} (hab : a < b) (n : Nat) : sampledSpectrum S a b n =
    .ok { f := axisOf a b n, sVarDens := ⟨[((axisOf a b n).map S).length], (axisOf a b n).map S⟩, nf := (axisOf a b n).length } :=
  (spectrum_init_iff_partial (isArr_vec _) (isArr_vec _)).2
    ⟨uniform_check_accepts_uniform (by rw [axisOf_length]; omega) (axisOf_uniform hab n), by simp, rfl⟩

/-- **C156 (integral parameters).**  For a non-negative continuous density on `[a, b]`, `0 ≤ a`, with some energy (and, for `Tmm10`, `S u / u`
continuous), the wave height and the mean periods of the sampled spectrum tend to those of the density as the axis is refined. -/
theorem sampled_parameters {S G : ℝ → ℝ} {a b c : ℝ} (ha : 0 ≤ a) (hab : a < b) (hS : ContinuousOn S (Set.Icc a b)) (hpos : ∀ u ∈ Set.Icc a b, 0 ≤ S u)
    (hc : c ∈ Set.Icc a b) (hc0 : 0 < c) (hSc : 0 < S c) (hG : ContinuousOn G (Set.Icc a b)) (hSG : ∀ u ∈ Set.Icc a b, 0 < u → S u / u = G u) :
    ∃ H T₁ T₂ T₃ : ℕ → ℝ, (∀ᶠ n in atTop, ∃ s, sampledSpectrum S a b n = .ok s ∧ (s.getHm0 (-1) (.fin (-1))).1 = .ok (H n) ∧
        (s.getTmm10 (-1) (.fin (-1))).1 = .ok (T₁ n) ∧ (s.getTm01 (-1) (.fin (-1))).1 = .ok (T₂ n) ∧ (s.getTm02 (-1) (.fin (-1))).1 = .ok (T₃ n)) ∧
      Tendsto H atTop (𝓝 (4 * √(∫ u in a..b, S u))) ∧ Tendsto T₁ atTop (𝓝 ((∫ u in a..b, S u / u) / ∫ u in a..b, S u)) ∧
      Tendsto T₂ atTop (𝓝 ((∫ u in a..b, S u) / ∫ u in a..b, u * S u)) ∧ Tendsto T₃ atTop (𝓝 √((∫ u in a..b, S u) / ∫ u in a..b, u ^ 2 * S u)) := by
  have c1 : ContinuousOn (fun u : ℝ => u * S u) (Set.Icc a b) := continuousOn_id.mul hS
  have c2 : ContinuousOn (fun u : ℝ => u ^ 2 * S u) (Set.Icc a b) := (continuousOn_id.pow 2).mul hS
  obtain ⟨v0, e0, t0⟩ := sampled_moment_tendsto (S := S) (g := S) (m := 0) ha hab hS (fun u _ _ => by simp)
  obtain ⟨v1, e1, t1⟩ := sampled_moment_tendsto (S := S) (g := fun u => u * S u) (m := 1) ha hab c1 (fun u _ _ => by simp)
  obtain ⟨v2, e2, t2⟩ := sampled_moment_tendsto (S := S) (g := fun u => u ^ 2 * S u) (m := 2) ha hab c2 (fun u _ _ => by norm_cast)
  obtain ⟨v3, e3, t3⟩ := sampled_moment_tendsto (S := S) (g := G) (m := -1) ha hab hG (fun u hu h => by
    rw [← hSG u hu (h.resolve_left (by norm_num))]; simp [div_eq_inv_mul])
  have i0 : 0 < ∫ u in a..b, S u := intervalIntegral.integral_pos hab hS (fun u hu => hpos u ⟨hu.1.le, hu.2⟩) ⟨c, hc, hSc⟩
  have i1 : 0 < ∫ u in a..b, u * S u :=
    intervalIntegral.integral_pos hab c1 (fun u hu => mul_nonneg (by linarith [hu.1]) (hpos u ⟨hu.1.le, hu.2⟩)) ⟨c, hc, mul_pos hc0 hSc⟩
  have i2 : 0 < ∫ u in a..b, u ^ 2 * S u :=
    intervalIntegral.integral_pos hab c2 (fun u hu => mul_nonneg (sq_nonneg _) (hpos u ⟨hu.1.le, hu.2⟩)) ⟨c, hc, mul_pos (by positivity) hSc⟩
  have iG : ∫ u in a..b, S u / u = ∫ u in a..b, G u := by
    refine intervalIntegral.integral_congr_ae (Filter.Eventually.of_forall fun u hu => ?_)
    rw [Set.uIoc_of_le hab.le] at hu
    exact hSG u ⟨hu.1.le, hu.2⟩ (lt_of_le_of_lt ha hu.1)
  refine ⟨fun n => 4 * √(v0 n), fun n => v3 n / v0 n, fun n => v0 n / v1 n, fun n => √(v0 n / v2 n), ?_,
    (t0.sqrt).const_mul 4, by rw [iG]; exact t3.div t0 i0.ne', t0.div t1 i1.ne', (t0.div t2 i2.ne').sqrt⟩
  filter_upwards [t0.eventually_const_lt i0, t1.eventually_const_lt i1, t2.eventually_const_lt i2] with n p0 p1 p2
  have q0 := e0 n
  have q1 := e1 n
  have q2 := e2 n
  have q3 := e3 n
  unfold sampledMoment at q0 q1 q2 q3
  refine ⟨_, sampled_init hab n, ?_, ?_, ?_, ?_⟩
  · show calcHm0 _ _ _ _ = _
    unfold calcHm0
    rw [getD_default_limits]
    dsimp only
    rw [q0]
    show heightOf _ = _
    unfold heightOf
    rw [if_neg (not_lt.2 p0.le)]
  · show calcTmm10 _ _ _ _ = _
    unfold calcTmm10
    rw [getD_default_limits]
    dsimp only
    rw [q3, q0]
    show divE _ _ = _
    unfold divE
    rw [if_neg p0.ne']
  · show calcTm01 _ _ _ _ = _
    unfold calcTm01
    rw [getD_default_limits]
    dsimp only
    rw [q0, q1]
    show divE _ _ = _
    unfold divE
    rw [if_neg p1.ne']
  · show calcTm02 _ _ _ _ = _
    unfold calcTm02
    rw [getD_default_limits]
    dsimp only
    rw [q0, q2]
    show (do let q ← divE (v0 n) (v2 n); sqrtE q) = _
    unfold divE
    rw [if_neg p2.ne']
    show sqrtE _ = _
    unfold sqrtE
    rw [if_neg (not_lt.2 (div_pos p0 p2).le)]

/-- The last index of the largest value. -/
theorem sampled_last_max (φ : Nat → ℝ) : ∀ n, 0 < n → ∃ k < n, ∀ l < n, φ l ≤ φ k ∧ (k < l → φ l < φ k)
  | 0, h => absurd h (lt_irrefl _)
  | 1, _ => ⟨0, by norm_num, fun l hl => by
      have : l = 0 := by omega
      subst this; exact ⟨le_rfl, fun h => absurd h (lt_irrefl _)⟩⟩
  | n + 2, _ => by
    obtain ⟨k, hk, h⟩ := sampled_last_max φ (n + 1) (by omega)
    by_cases hlt : φ (n + 1) < φ k
    · refine ⟨k, by omega, fun l hl => ?_⟩
      by_cases e : l = n + 1
      · subst e; exact ⟨hlt.le, fun _ => hlt⟩
      · exact h l (by omega)
    · refine ⟨n + 1, by omega, fun l hl => ?_⟩
      by_cases e : l = n + 1
      · subst e; exact ⟨le_rfl, fun h => absurd h (lt_irrefl _)⟩
      · exact ⟨((h l (by omega)).1).trans (not_lt.1 hlt), fun h' => by omega⟩

/-- **C156 (peak period).**  For a continuous density with one highest point at a positive frequency `p`, the peak period of the sampled spectrum
tends to `1 / p`. -/
theorem sampled_peak {S : ℝ → ℝ} {a b p : ℝ} (hab : a < b) (hS : ContinuousOn S (Set.Icc a b)) (hp : p ∈ Set.Icc a b) (hp0 : 0 < p)
    (hmax : ∀ u ∈ Set.Icc a b, u ≠ p → S u < S p) :
    ∃ T : ℕ → ℝ, (∀ᶠ n in atTop, ∃ s, sampledSpectrum S a b n = .ok s ∧ (s.getTp (-1) (.fin (-1))).1 = .ok (T n)) ∧ Tendsto T atTop (𝓝 (1 / p)) := by
  have hex : ∀ n : Nat, ∃ k < n + 2, ∀ l < n + 2, S ((axisOf a b n).getD l 0) ≤ S ((axisOf a b n).getD k 0) ∧
      (k < l → S ((axisOf a b n).getD l 0) < S ((axisOf a b n).getD k 0)) := fun n =>
    sampled_last_max (fun l => S ((axisOf a b n).getD l 0)) (n + 2) (by omega)
  choose k hk hbest using hex
  have hmem : ∀ n l, l < n + 2 → (axisOf a b n).getD l 0 ∈ Set.Icc a b := by
    intro n l hl
    have hu := axisOf_uniform hab n
    have hh := hu.1
    have e1 := uniform_le hu l (by rw [axisOf_length]; exact hl)
    have e2 := uniform_le hu (n + 1) (by rw [axisOf_length]; omega)
    have e3 := axisOf_last a b n
    rw [axisOf_length, show n + 2 - 1 = n + 1 by omega] at e3
    rw [axisOf_first] at e1 e2
    have : (l : ℝ) * ((b - a) / (n + 1)) ≤ ((n + 1 : Nat) : ℝ) * ((b - a) / (n + 1)) := by
      apply mul_le_mul_of_nonneg_right _ hh.le
      exact_mod_cast (by omega : l ≤ n + 1)
    have h0 : 0 ≤ (l : ℝ) * ((b - a) / (n + 1)) := by positivity
    constructor <;> linarith
  have htend : Tendsto (fun n => (axisOf a b n).getD (k n) 0) atTop (𝓝 p) := by
    rw [Metric.tendsto_atTop]
    intro δ hδ
    -- away from `p` the density stays below `S p` by a margin
    have hK : IsCompact (Set.Icc a b ∩ {u | δ ≤ |u - p|}) :=
      isCompact_Icc.inter_right (isClosed_le continuous_const (continuous_abs.comp (continuous_id.sub continuous_const)))
    have hη : ∃ η > 0, ∀ u ∈ Set.Icc a b, δ ≤ |u - p| → S u ≤ S p - η := by
      by_cases hne : (Set.Icc a b ∩ {u | δ ≤ |u - p|}).Nonempty
      · obtain ⟨w, hw, hwm⟩ := hK.exists_isMaxOn hne (hS.mono Set.inter_subset_left)
        refine ⟨S p - S w, sub_pos.2 (hmax w hw.1 (by
          rintro rfl; have := hw.2; simp at this; linarith)), fun u hu hd => ?_⟩
        have : S u ≤ S w := hwm ⟨hu, hd⟩
        linarith
      · exact ⟨1, one_pos, fun u hu hd => absurd ⟨u, hu, hd⟩ hne⟩
    obtain ⟨η, hη0, hη⟩ := hη
    obtain ⟨r, hr, hcont⟩ := Metric.continuousWithinAt_iff.1 (hS p hp) η hη0
    have hlim : Tendsto (fun n : ℕ => (b - a) / ((n : ℝ) + 1)) atTop (𝓝 0) :=
      tendsto_const_div_atTop_nhds_zero_nat (b - a) |>.comp (tendsto_add_atTop_nat 1) |>.congr (fun n => by simp)
    obtain ⟨N, hN⟩ := (Metric.tendsto_atTop.1 hlim) r hr
    refine ⟨N, fun n hn => ?_⟩
    have hu := axisOf_uniform hab n
    have hh := hu.1
    have hstep := hN n hn
    rw [Real.dist_eq, sub_zero, abs_of_pos hh] at hstep
    set h := (b - a) / ((n : ℝ) + 1) with hhdef
    -- a grid point next to `p`
    have hnear : ∃ l < n + 2, |(axisOf a b n).getD l 0 - p| < r := by
      refine ⟨⌊(p - a) / h⌋₊, ?_, ?_⟩
      · have h1 : (p - a) / h ≤ n + 1 := by
          rw [div_le_iff₀ hh, hhdef, mul_div_cancel₀ _ (by positivity)]
          linarith [hp.2]
        have h2 : ⌊(p - a) / h⌋₊ ≤ n + 1 := by
          apply Nat.floor_le_of_le; push_cast; exact h1
        omega
      · have h1 : (p - a) / h ≤ n + 1 := by
          rw [div_le_iff₀ hh, hhdef, mul_div_cancel₀ _ (by positivity)]
          linarith [hp.2]
        have h2 : ⌊(p - a) / h⌋₊ ≤ n + 1 := by
          apply Nat.floor_le_of_le; push_cast; exact h1
        rw [uniform_le hu _ (by rw [axisOf_length]; omega), axisOf_first]
        have f1 := Nat.floor_le (div_nonneg (sub_nonneg.2 hp.1) hh.le)
        have f2 := Nat.lt_floor_add_one ((p - a) / h)
        rw [le_div_iff₀ hh] at f1
        rw [div_lt_iff₀ hh] at f2
        rw [abs_lt]
        constructor <;> linarith
    obtain ⟨l, hl, hlr⟩ := hnear
    have h1 := hcont (hmem n l hl) (by rw [Real.dist_eq]; exact hlr)
    rw [Real.dist_eq, abs_lt] at h1
    have h2 := (hbest n l hl).1
    rw [Real.dist_eq]
    by_contra hcon
    have := hη _ (hmem n _ (hk n)) (not_lt.1 hcon)
    linarith [h1.1]
  refine ⟨fun n => 1 / (axisOf a b n).getD (k n) 0, ?_, tendsto_const_nhds.div htend hp0.ne'⟩
  filter_upwards [htend.eventually_const_lt hp0] with n hn
  refine ⟨_, sampled_init hab n, get_Tp_complete (isArr_vec _) (isArr_vec _) (sampled_init hab n) ⟨k n, ⟨?_, Or.inl rfl, Or.inl rfl⟩, hn.ne', rfl, fun l hl => ?_⟩⟩
  · rw [axisOf_length]; exact hk n
  · have hl1 := hl.1
    have hkn := hk n
    rw [getD_map_lt hl1, getD_map_lt (by rw [axisOf_length]; exact hkn)]
    rw [axisOf_length] at hl1
    exact hbest n l hl1

/-! ## Concrete cases -/

/-- The density `S u = u` on `[0, 1]` Hz: `Hm0` tends to `4 √(1/2)`, `Tmm10` to 2, `Tm01` to 3/2 and `Tm02` to `√2`. -/
example : ∃ H T₁ T₂ T₃ : ℕ → ℝ, (∀ᶠ n in atTop, ∃ s, sampledSpectrum (fun u => u) 0 1 n = .ok s ∧ (s.getHm0 (-1) (.fin (-1))).1 = .ok (H n) ∧
      (s.getTmm10 (-1) (.fin (-1))).1 = .ok (T₁ n) ∧ (s.getTm01 (-1) (.fin (-1))).1 = .ok (T₂ n) ∧ (s.getTm02 (-1) (.fin (-1))).1 = .ok (T₃ n)) ∧
    Tendsto H atTop (𝓝 (4 * √(1 / 2))) ∧ Tendsto T₁ atTop (𝓝 2) ∧ Tendsto T₂ atTop (𝓝 (3 / 2)) ∧ Tendsto T₃ atTop (𝓝 √2) := by
  have h := sampled_parameters (S := fun u => u) (G := fun _ => 1) (a := 0) (b := 1) (c := 1) le_rfl one_pos continuousOn_id (fun u hu => hu.1)
    ⟨zero_le_one, le_rfl⟩ one_pos one_pos continuousOn_const (fun u _ hu => div_self hu.ne')
  have i0 : ∫ u in (0 : ℝ)..1, u = 1 / 2 := by norm_num
  have i1 : ∫ u in (0 : ℝ)..1, u * u = 1 / 3 := by
    simp only [← pow_two]; norm_num
  have i2 : ∫ u in (0 : ℝ)..1, u ^ 2 * u = 1 / 4 := by
    simp only [← pow_succ]; norm_num
  have i3 : ∫ u in (0 : ℝ)..1, u / u = 1 := by
    rw [intervalIntegral.integral_congr_ae (g := fun _ => (1 : ℝ)) (Filter.Eventually.of_forall fun u hu => by
      rw [Set.uIoc_of_le zero_le_one] at hu
      exact div_self hu.1.ne')]
    simp
  rw [i0, i1, i2, i3] at h
  norm_num at h ⊢
  exact h

/-- The peak of `S u = u (2 - u)` on `[0, 3]` Hz is at 1 Hz. -/
example : ∃ T : ℕ → ℝ, (∀ᶠ n in atTop, ∃ s, sampledSpectrum (fun u => u * (2 - u)) 0 3 n = .ok s ∧ (s.getTp (-1) (.fin (-1))).1 = .ok (T n)) ∧
    Tendsto T atTop (𝓝 (1 / 1)) :=
  sampled_peak (by norm_num) (by fun_prop) ⟨by norm_num, by norm_num⟩ one_pos (fun u _ hne => by
    have : 0 < (u - 1) ^ 2 := lt_of_le_of_ne (sq_nonneg _) (Ne.symm (pow_ne_zero 2 (sub_ne_zero.2 hne)))
    nlinarith)

/-- A density of slope at most 1 on `[0, 2]` Hz, sampled every 0.5 Hz. -/
example : ∃ v, simpson (gridFrom 0 (1 / 2) 5) ((gridFrom 0 (1 / 2) 5).map fun u => |u - 1|) = .ok v ∧ |v - (∫ u in (0 : ℝ)..2, |u - 1|)| ≤ 7 / 3 := by
  have e0 : (gridFrom 0 (1 / 2) 5).getD 0 0 = 0 := by rw [gridFrom_getD (by norm_num)]; norm_num
  have e1 : (gridFrom 0 (1 / 2) 5).getD ((gridFrom 0 (1 / 2) 5).length - 1) 0 = 2 := by
    rw [gridFrom_length, gridFrom_getD (by norm_num)]; norm_num
  obtain ⟨v, h1, h2⟩ := simpson_error (g := fun u => |u - 1|) (ε := 1) (gridFrom_uniform (by norm_num : (0 : ℝ) < 1 / 2) 5 (a := 0))
    (by simp [gridFrom]) (by fun_prop) (fun u _ v _ huv => by
      have := abs_abs_sub_abs_le_abs_sub (u - 1) (v - 1)
      rw [show u - 1 - (v - 1) = u - v by ring] at this
      linarith)
  rw [e0, e1] at h2
  exact ⟨v, h1, h2.trans (by norm_num)⟩

/-- The energy between 2 and 4 Hz of `S u = u` sampled at 1, …, 5 Hz. -/
example : ∃ v, computeMoment (vec ([1, 2, 3, 4, 5] : List ℝ)) (vec ([1, 2, 3, 4, 5].map fun u => u)) 0 2 (.fin 4) = .ok v ∧
    |v - ∫ u in (2 : ℝ)..4, u ^ (0 : ℤ) * u| ≤ 7 / 6 * 2 * (4 - 2) := by
  have hu : UniformAxis ([1, 2, 3, 4, 5] : List ℝ) 1 := uniformAxis_of_steps one_pos fun i hi => by
    have : i < 4 := hi
    interval_cases i <;> norm_num
  exact sampled_moment (i := 1) (j := 3) (isArr_vec _) (isArr_vec _) hu (by simp) (by norm_num) (by norm_num) (by norm_num) (by norm_num)
    ⟨bump_nearest' 2 1 (by norm_num) (by norm_num), bump_nearest' 4 3 (by norm_num) (by norm_num)⟩ continuousOn_id
    (fun u _ v _ huv => by simpa using huv)

end Verif
