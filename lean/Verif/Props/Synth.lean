import Verif.Model.Synth
import Verif.Lemmas.Spectral
import Verif.Props.Averaging
import Verif.Props.SeriesInit

/-! # Random-phase synthesis (C35, C36, C37) -/

set_option linter.unusedSectionVars false

namespace Verif
open Finset

/-! ## Specification -/

/-- `g` is the piecewise linear interpolant of the points `(f_i, S_i)`, and zero outside them. -/
def IsInterpolant (f S : List ℝ) (g : ℝ → ℝ) : Prop :=
  (∀ x, (∀ v ∈ f, x < v) ∨ (∀ v ∈ f, v < x) → g x = 0) ∧
  (∀ i < f.length, g (f.getD i 0) = S.getD i 0) ∧
  (∀ i, i + 1 < f.length → ∀ x, f.getD i 0 ≤ x → x ≤ f.getD (i + 1) 0 →
    g x = S.getD i 0 + (S.getD (i + 1) 0 - S.getD i 0) * ((x - f.getD i 0) / (f.getD (i + 1) 0 - f.getD i 0)))

/-- Spacing of the `n` generated frequencies for step `dt`: one over the even period `2 n dt`. -/
noncomputable def genDf (n : Nat) (dt : ℝ) : ℝ := 1 / (2 * n * dt)

/-- The random-phase sum with `n` components at frequencies `(i+1) df`, amplitudes `sqrt(2 S df)` and phases `φ`, at
time `j dt` after the start; the component at the Nyquist frequency has half weight. -/
noncomputable def randomPhaseSum (n : Nat) (dt : ℝ) (S : ℝ → ℝ) (φ : Nat → ℝ) (j : Nat) : ℝ :=
  ∑ i ∈ range n, (if i + 1 < n then 1 else 1 / 2) * Real.sqrt (2 * S ((i + 1) * genDf n dt) * genDf n dt) *
    Real.cos (2 * Real.pi * ((i + 1) * genDf n dt) * (j * dt) + φ i)

/-! ## Interpolation -/

theorem npInterp_spec : ∀ {f S : List ℝ}, f.Pairwise (· < ·) → f.length = S.length → IsInterpolant f S (npInterp f S)
  | [], S, _, _ => by
    refine ⟨fun x _ => ?_, fun i hi => by simp at hi, fun i hi => by simp at hi⟩
    unfold npInterp; rfl
  | [x0], S, hp, hl => by
    obtain ⟨y0, rfl⟩ : ∃ y0, S = [y0] := by
      rcases S with _ | ⟨y0, _ | ⟨y1, ys⟩⟩ <;> simp_all
    refine ⟨fun x hx => ?_, fun i hi => ?_, fun i hi => by simp at hi⟩
    · unfold npInterp
      rw [if_neg]
      rcases hx with h | h
      · exact (h x0 (by simp)).ne
      · exact (h x0 (by simp)).ne'
    · have : i = 0 := by simpa using hi
      subst this
      simp [npInterp]
  | x0 :: x1 :: xs, S, hp, hl => by
    obtain ⟨y0, y1, ys, rfl⟩ : ∃ y0 y1 ys, S = y0 :: y1 :: ys := by
      rcases S with _ | ⟨y0, _ | ⟨y1, ys⟩⟩
      · simp at hl
      · simp at hl
      · exact ⟨_, _, _, rfl⟩
    have hp' := List.pairwise_cons.1 hp
    have h01 : x0 < x1 := hp'.1 x1 (by simp)
    have ih := npInterp_spec hp'.2 (S := y1 :: ys) (by simpa using hl)
    have hun : ∀ x, npInterp (x0 :: x1 :: xs) (y0 :: y1 :: ys) x =
        if x < x0 then 0 else if x < x1 then (y1 - y0) / (x1 - x0) * (x - x0) + y0 else npInterp (x1 :: xs) (y1 :: ys) x := by
      intro x; rw [npInterp]
    have hne : x1 - x0 ≠ 0 := by linarith [h01]
    refine ⟨fun x hx => ?_, fun i hi => ?_, fun i hi x h1 h2 => ?_⟩
    · rw [hun]
      rcases hx with h | h
      · rw [if_pos (h x0 (by simp))]
      · have a := h x0 (by simp)
        have b := h x1 (by simp)
        rw [if_neg (by linarith), if_neg (by linarith)]
        exact ih.1 x (Or.inr fun v hv => h v (List.mem_cons_of_mem _ hv))
    · rw [hun]
      rcases i with _ | i
      · simp only [List.getD_cons_zero]
        rw [if_neg (lt_irrefl _), if_pos h01]; simp
      · simp only [List.getD_cons_succ]
        have hi' : i < (x1 :: xs).length := by simpa using hi
        have hge : x1 ≤ (x1 :: xs).getD i 0 := by
          rw [List.getD_eq_getElem _ _ hi']
          rcases i with _ | i
          · simp
          · exact ((List.pairwise_cons.1 hp'.2).1 _ (List.getElem_mem (by simpa using hi'))).le
        rw [if_neg (by linarith), if_neg (by linarith)]
        exact ih.2.1 i hi'
    · rw [hun]
      rcases i with _ | i
      · simp only [List.getD_cons_zero, List.getD_cons_succ] at h1 h2 ⊢
        rw [if_neg (by linarith)]
        split_ifs with h3
        · field_simp; ring
        · have : x = x1 := by linarith
          subst this
          have := ih.2.1 0 (by simp)
          simp only [List.getD_cons_zero] at this
          rw [this]; field_simp; ring
      · simp only [List.getD_cons_succ] at h1 h2 ⊢
        have hi' : i + 1 < (x1 :: xs).length := by simpa using hi
        have hge : x1 ≤ (x1 :: xs).getD i 0 := by
          rw [List.getD_eq_getElem _ _ (by omega)]
          rcases i with _ | i
          · simp
          · exact ((List.pairwise_cons.1 hp'.2).1 _ (List.getElem_mem _)).le
        rw [if_neg (by linarith), if_neg (by linarith)]
        exact ih.2.2 i hi' x h1 h2

/-- On a strictly increasing axis there is only one interpolant. -/
theorem isInterpolant_unique {f S : List ℝ} {g h : ℝ → ℝ} (hf : f.Pairwise (· < ·)) (hg : IsInterpolant f S g)
    (hh : IsInterpolant f S h) : g = h := by
  funext x
  by_cases h1 : ∀ v ∈ f, x < v
  · rw [hg.1 x (Or.inl h1), hh.1 x (Or.inl h1)]
  by_cases h2 : ∀ v ∈ f, v < x
  · rw [hg.1 x (Or.inr h2), hh.1 x (Or.inr h2)]
  push Not at h1 h2
  obtain ⟨a, ha, hax⟩ := h1
  obtain ⟨b, hb, hbx⟩ := h2
  obtain ⟨ia, hia, rfl⟩ := List.getElem_of_mem ha
  obtain ⟨ib, hib, rfl⟩ := List.getElem_of_mem hb
  -- the last index whose frequency is at most x
  obtain ⟨i, hi, hle, hmax⟩ : ∃ i, i < f.length ∧ f.getD i 0 ≤ x ∧ ∀ k, k < f.length → f.getD k 0 ≤ x → k ≤ i := by
    classical
    have hex : ∃ k, k < f.length ∧ f.getD k 0 ≤ x := ⟨ia, hia, by rwa [List.getD_eq_getElem _ _ hia]⟩
    let P : Nat → Prop := fun k => k < f.length ∧ f.getD k 0 ≤ x
    have hP := Nat.findGreatest_spec (P := P) (n := f.length) hia.le ⟨hia, by rwa [List.getD_eq_getElem _ _ hia]⟩
    exact ⟨Nat.findGreatest P f.length, hP.1, hP.2, fun k hk hkx => Nat.le_findGreatest hk.le ⟨hk, hkx⟩⟩
  by_cases hlast : i + 1 < f.length
  · have hx : x ≤ f.getD (i + 1) 0 := by
      by_contra hc
      have := hmax (i + 1) hlast (le_of_not_ge hc)
      omega
    rw [hg.2.2 i hlast x hle hx, hh.2.2 i hlast x hle hx]
  · have hib2 : ib ≤ i := by omega
    have hxe : x = f.getD i 0 := by
      apply le_antisymm _ hle
      refine hbx.trans ?_
      rw [List.getD_eq_getElem _ _ hi]
      rcases Nat.lt_or_eq_of_le hib2 with h | h
      · exact (List.pairwise_iff_getElem.1 hf ib i hib hi h).le
      · subst h; exact le_refl _
    rw [hxe, hg.2.1 i hi, hh.2.1 i hi]

theorem interp_nonneg {f S : List ℝ} {g : ℝ → ℝ} (hf : f.Pairwise (· < ·)) (hl : f.length = S.length)
    (hg : IsInterpolant f S g) (hS : ∀ v ∈ S, 0 ≤ v) (x : ℝ) : 0 ≤ g x := by
  have h0 : ∀ i, 0 ≤ S.getD i 0 := by
    intro i
    by_cases hi : i < S.length
    · rw [List.getD_eq_getElem _ _ hi]; exact hS _ (List.getElem_mem hi)
    · rw [List.getD_eq_default _ _ (by omega)]
  have hgen : g = npInterp f S := isInterpolant_unique hf hg (npInterp_spec hf hl)
  rw [hgen]
  clear hg hgen h0
  induction f generalizing S with
  | nil => unfold npInterp; exact le_refl _
  | cons x0 xs ih =>
    rcases S with _ | ⟨y0, ys⟩
    · simp at hl
    rcases xs with _ | ⟨x1, xs⟩
    · have : ys = [] := by simpa using hl.symm
      subst this
      simp only [npInterp]
      split_ifs
      · exact hS _ (by simp)
      · exact le_refl _
    · rcases ys with _ | ⟨y1, ys⟩
      · simp at hl
      have hp' := List.pairwise_cons.1 hf
      have h01 : x0 < x1 := hp'.1 x1 (by simp)
      rw [npInterp]
      split_ifs with h1 h2
      · exact le_refl _
      · have a := hS y0 (by simp)
        have b := hS y1 (by simp)
        have : (y1 - y0) / (x1 - x0) * (x - x0) + y0 = (y0 * (x1 - x) + y1 * (x - x0)) / (x1 - x0) := by
          have : x1 - x0 ≠ 0 := by linarith
          field_simp; ring
        rw [this]
        apply div_nonneg _ (by linarith)
        have := mul_nonneg a (by linarith : (0 : ℝ) ≤ x1 - x)
        have := mul_nonneg b (by linarith : (0 : ℝ) ≤ x - x0)
        linarith
      · exact ih hp'.2 (by simpa using hl) (fun v hv => hS v (List.mem_cons_of_mem _ hv))

/-! ## Frequency axis and components -/

theorem genAxis_eq {n : Nat} (hn : 0 < n) {dt : ℝ} (hdt : dt ≠ 0) :
    genAxis (2 * n) dt = ((List.range n).map fun (i : Nat) => ((i : ℝ) + 1) * genDf n dt, genDf n dt) := by
  have hn' : (0 : ℝ) < n := by exact_mod_cast hn
  have hdf : 1 / (((2 * n : ℕ) : ℝ) * dt) = genDf n dt := by unfold genDf; push_cast; rfl
  unfold genAxis
  simp only [hdf]
  unfold arange
  have hcount : (⌈(1 / (2 * dt) + genDf n dt / 2 - genDf n dt) / genDf n dt⌉).toNat = n := by
    have e : (1 / (2 * dt) + genDf n dt / 2 - genDf n dt) / genDf n dt = (n : ℝ) - 1 / 2 := by
      unfold genDf; field_simp; ring
    rw [e]
    have : ⌈(n : ℝ) - 1 / 2⌉ = (n : ℤ) := by
      rw [Int.ceil_eq_iff]; push_cast; constructor <;> linarith
    rw [this]; simp
  rw [hcount]
  congr 1
  refine List.map_congr_left fun i _ => ?_
  ring

/-- The one-sided components: zero mean, `A/2 exp(i phi)`. -/
noncomputable def compAt (A φ : List ℝ) (k : Nat) : ℂ :=
  if k = 0 then 0 else ((A.getD (k - 1) 0 : ℝ) : ℂ) / 2 * Complex.exp (Complex.I * ((φ.getD (k - 1) 0 : ℝ) : ℂ))

theorem fourierComponents_eq {n : Nat} (hn : 0 < n) {A φ : List ℝ} (hA : A.length = n) (hφ : φ.length = n) :
    fourierComponents (2 * n) n A φ = (List.range (2 * n)).map (symExt (2 * n) (compAt A φ)) := by
  unfold fourierComponents
  set C := List.zipWith (fun (a p : ℝ) => (a : ℂ) / 2 * Complex.exp (Complex.I * (p : ℂ))) A φ with hC
  have hCl : C.length = n := by simp [hC, hA, hφ]
  have hCg : ∀ i (h : i < C.length), C[i] = compAt A φ (i + 1) := by
    intro i h
    simp only [hC, List.getElem_zipWith, compAt]
    rw [if_neg (by omega), Nat.add_sub_cancel, List.getD_eq_getElem _ _ (by omega), List.getD_eq_getElem _ _ (by omega)]
  simp only [setSlice]
  obtain ⟨x1, hx1⟩ : ∃ x1, x1 = (List.replicate (2 * n) (0 : ℂ)).take 1 ++ C ++ (List.replicate (2 * n) (0 : ℂ)).drop (1 + C.length) := ⟨_, rfl⟩
  rw [← hx1]
  have ht1 : ((List.replicate (2 * n) (0 : ℂ)).take 1).length = 1 := by simp; omega
  have hslice : pySlice x1 1 (n + 1) = C := by
    unfold pySlice
    rw [hx1, List.take_left' (by rw [List.length_append, ht1, hCl]; omega), List.drop_left' ht1]
  rw [hslice]
  have hx1l : x1.length = 2 * n := by
    rw [hx1]; simp [hCl]; omega
  apply List.ext_getElem
  · simp [hx1l, hCl]; omega
  · intro k h1 h2
    have hk : k < 2 * n := by simpa using h2
    rw [List.getElem_map, List.getElem_range]
    have htl : (x1.take n).length = n := by simp [hx1l]; omega
    have hrl : ((C.map (starRingEnd ℂ)).reverse).length = n := by simp [hCl]
    have hdrop : x1.drop (n + ((C.map (starRingEnd ℂ)).reverse).length) = [] := by
      apply List.drop_eq_nil_of_le; rw [hx1l, hrl]; omega
    simp only [hdrop, List.append_nil]
    unfold symExt
    have e1 : (2 * n + 1) / 2 = n := by omega
    rw [e1]
    by_cases hkn : k < n
    · rw [List.getElem_append_left (by omega), if_pos hkn, List.getElem_take]
      simp only [hx1]
      by_cases hk0 : k = 0
      · subst hk0
        rw [List.getElem_append_left (by rw [List.length_append, ht1]; omega), List.getElem_append_left (by rw [ht1]; omega)]
        simp [compAt]
      · rw [List.getElem_append_left (by rw [List.length_append, ht1, hCl]; omega), List.getElem_append_right (by rw [ht1]; omega)]
        simp only [ht1]
        rw [hCg]
        congr 1
        omega
    · rw [List.getElem_append_right (by rw [htl]; omega), if_neg hkn, List.getElem_reverse, List.getElem_map, hCg]
      congr 2
      simp only [List.length_map, hCl, htl]
      omega

/-- Real part of the inverse transform of a symmetric extension. -/
theorem symExt_inv_re {n : Nat} (hn : 0 < n) (C : Nat → ℂ) (j : Nat) :
    (inv (2 * n) (symExt (2 * n) C) j * ((2 * n : ℕ) : ℂ)).re =
      ∑ k ∈ range n, (C k * twiddle (2 * n) ((j : ℤ) * k)).re +
      ∑ k ∈ range n, (C (k + 1) * twiddle (2 * n) ((j : ℤ) * (k + 1 : ℕ))).re := by
  have hne : ((2 * n : ℕ) : ℂ) ≠ 0 := by exact_mod_cast (by omega : 2 * n ≠ 0)
  unfold inv
  rw [div_mul_cancel₀ _ hne]
  have e2 : 2 * n = n + n := by omega
  have : ∑ k ∈ range (2 * n), symExt (2 * n) C k * twiddle (2 * n) ((j : ℤ) * k) =
      ∑ k ∈ range n, C k * twiddle (2 * n) ((j : ℤ) * k) +
      ∑ k ∈ range n, (starRingEnd ℂ) (C (k + 1) * twiddle (2 * n) ((j : ℤ) * (k + 1 : ℕ))) := by
    conv_lhs => rw [show range (2 * n) = range (n + n) by rw [e2]]
    rw [sum_range_add]
    congr 1
    · refine sum_congr rfl fun k hk => ?_
      have := mem_range.1 hk
      unfold symExt
      rw [if_pos (by omega)]
    · rw [← sum_range_reflect]
      refine sum_congr rfl fun k hk => ?_
      have := mem_range.1 hk
      unfold symExt
      rw [if_neg (by omega), map_mul, conj_twiddle]
      congr 1
      · congr 2; omega
      · have e : ((j : ℤ) * ((n + (n - 1 - k) : ℕ) : ℤ)) = (((2 * n : ℕ) : ℤ) * j) + -((j : ℤ) * ((k + 1 : ℕ) : ℤ)) := by
          have : ((n + (n - 1 - k) : ℕ) : ℤ) = 2 * n - (k + 1) := by omega
          rw [this]; push_cast; ring
        rw [e, twiddle_add, twiddle_mul_self (by omega), one_mul]
  rw [this, Complex.add_re, Complex.re_sum, Complex.re_sum]
  congr 1

theorem compAt_re {n : Nat} (hn : 0 < n) {dt : ℝ} (hdt : 0 < dt) (A φ : List ℝ) (i j : Nat) :
    (compAt A φ (i + 1) * twiddle (2 * n) ((j : ℤ) * (i + 1 : ℕ))).re =
      1 / 2 * A.getD i 0 * Real.cos (2 * Real.pi * ((i + 1) * genDf n dt) * (j * dt) + φ.getD i 0) := by
  have hn' : (n : ℂ) ≠ 0 := by exact_mod_cast hn.ne'
  unfold compAt twiddle
  rw [if_neg (by omega), Nat.add_sub_cancel, mul_assoc, ← Complex.exp_add]
  have harg : Complex.I * ((φ.getD i 0 : ℝ) : ℂ) + 2 * (Real.pi : ℂ) * Complex.I * (((j : ℤ) * (i + 1 : ℕ) : ℤ) : ℂ) / ((2 * n : ℕ) : ℂ)
      = ((2 * Real.pi * ((i + 1) * genDf n dt) * (j * dt) + φ.getD i 0 : ℝ) : ℂ) * Complex.I := by
    unfold genDf
    push_cast
    have : (dt : ℂ) ≠ 0 := by exact_mod_cast hdt.ne'
    field_simp
    ring
  rw [harg]
  have : ((A.getD i 0 : ℝ) : ℂ) / 2 = ((A.getD i 0 / 2 : ℝ) : ℂ) := by push_cast; ring
  rw [this, Complex.re_ofReal_mul, Complex.exp_ofReal_mul_I_re]
  ring

/-- The inverse transform of the components is the random-phase sum. -/
theorem synth_value {n : Nat} (hn : 0 < n) {dt : ℝ} (hdt : 0 < dt) (A φ : List ℝ) (j : Nat) :
    (inv (2 * n) (symExt (2 * n) (compAt A φ)) j * ((2 * n : ℕ) : ℂ)).re =
      ∑ i ∈ range n, (if i + 1 < n then 1 else 1 / 2) * A.getD i 0 *
        Real.cos (2 * Real.pi * ((i + 1) * genDf n dt) * (j * dt) + φ.getD i 0) := by
  rw [symExt_inv_re hn]
  obtain ⟨m, rfl⟩ : ∃ m, n = m + 1 := ⟨n - 1, by omega⟩
  rw [sum_range_succ' (fun k => (compAt A φ k * twiddle (2 * (m + 1)) ((j : ℤ) * k)).re)]
  have h0 : (compAt A φ 0 * twiddle (2 * (m + 1)) ((j : ℤ) * (0 : ℕ))).re = 0 := by simp [compAt]
  rw [h0, add_zero]
  rw [sum_range_succ (fun k => (compAt A φ (k + 1) * twiddle (2 * (m + 1)) ((j : ℤ) * (k + 1 : ℕ))).re), ← add_assoc, ← sum_add_distrib, sum_range_succ]
  congr 1
  · refine sum_congr rfl fun i hi => ?_
    have := mem_range.1 hi
    rw [compAt_re hn hdt, if_pos (by omega)]; ring
  · rw [compAt_re hn hdt, if_neg (by omega)]

/-! ## The synthesised series -/

/-- `p` is passed on unchanged to `np.interp` as the 1D array `xs`: a flat list or a 1D array. -/
inductive PyIn.IsFlat {α : Type} : PyIn α → List α → Prop
  | list (xs : List α) : PyIn.IsFlat (.list xs) xs
  | nd (xs : List α) : PyIn.IsFlat (.nd ⟨[xs.length], xs⟩) xs

theorem PyIn.IsFlat.isArr {α : Type} {p : PyIn α} {xs : List α} (h : p.IsFlat xs) : p.IsArr xs := by
  cases h with
  | list xs => exact .list xs
  | nd xs => exact .nd xs

theorem interpArg_eq {fs Ss : List ℝ} {S : PyIn ℝ} (hS : S.IsFlat Ss) (hne : fs ≠ []) (hp : fs.Pairwise (· ≤ ·))
    (fGen : List ℝ) : interpArg fGen fs S = .ok (fGen.map (npInterp fs Ss)) := by
  cases hS <;> simp [interpArg, interpArg.go, hne, hp]

/-- The generator state from which the phases are drawn. -/
def seededState (R : Rng) (seed : Int) (s : R.State) : R.State := if 0 ≤ seed then R.seed seed.toNat else s

theorem reseed_eq (R : Rng) {seed : Int} (h : seed < 2 ^ 32) (s : R.State) : reseed R seed s = .ok (seededState R seed s) := by
  unfold reseed seededState
  split_ifs with h1 h2
  · exact absurd h (not_lt.2 h2)
  · rfl
  · rfl

theorem arange_closed {tInit tEnd dt : ℝ} (hdt : 0 < dt) (ht : tInit ≤ tEnd) :
    ∃ n : Nat, 0 < n ∧ arange tInit (tEnd + dt) dt = (List.range n).map (fun (j : Nat) => tInit + (j : ℝ) * dt) ∧
      tEnd ≤ tInit + ((n - 1 : ℕ) : ℝ) * dt ∧ tInit + ((n - 1 : ℕ) : ℝ) * dt < tEnd + dt := by
  refine ⟨(⌈(tEnd + dt - tInit) / dt⌉).toNat, ?_, rfl, ?_⟩
  · have : 0 < (tEnd + dt - tInit) / dt := div_pos (by linarith) hdt
    have := Int.ceil_pos.2 this
    omega
  · have e : (tEnd + dt - tInit) / dt = (tEnd - tInit) / dt + 1 := by field_simp; ring
    have hc0 : 0 ≤ ⌈(tEnd - tInit) / dt⌉ := Int.ceil_nonneg (div_nonneg (by linarith) hdt.le)
    have e2 : (⌈(tEnd + dt - tInit) / dt⌉).toNat - 1 = (⌈(tEnd - tInit) / dt⌉).toNat := by
      rw [e, Int.ceil_add_one]; omega
    rw [e2]
    have e3 : (((⌈(tEnd - tInit) / dt⌉).toNat : ℕ) : ℝ) = (⌈(tEnd - tInit) / dt⌉ : ℝ) := by
      have : (((⌈(tEnd - tInit) / dt⌉).toNat : ℕ) : ℤ) = ⌈(tEnd - tInit) / dt⌉ := Int.toNat_of_nonneg hc0
      exact_mod_cast this
    rw [e3]
    have h1 := Int.le_ceil ((tEnd - tInit) / dt)
    have h2 := Int.ceil_lt_add_one ((tEnd - tInit) / dt)
    rw [div_le_iff₀ hdt] at h1
    have h3 : ((⌈(tEnd - tInit) / dt⌉ : ℝ) - 1) * dt < tEnd - tInit := by
      rw [← lt_div_iff₀ hdt]; linarith
    constructor <;> linarith

/-- C35 and C36 (signal).  For a strictly increasing frequency axis, a non-negative density, `dt > 0` and
`tInit ≤ tEnd` the synthesis returns the axis `tInit + j dt` up to the first point at or after `tEnd`, and on it a
random-phase sum of the interpolated density with phases in `[0, 2 pi)`. -/
theorem synth_formula (R : Rng) {f S : PyIn ℝ} {fs Ss : List ℝ} (hf : f.IsArr fs) (hS : S.IsFlat Ss)
    (hl : fs.length = Ss.length) (hne : fs ≠ []) (hinc : fs.Pairwise (· < ·)) (hpos : ∀ v ∈ Ss, 0 ≤ v)
    {tInit tEnd dt : ℝ} (hdt : 0 < dt) (ht : tInit ≤ tEnd) {seed : Int} (hseed : seed < 2 ^ 32) (s : R.State) :
    ∃ t x S' φ, spectrum2timeseries R f S tInit tEnd dt seed s =
        (.ok (t, x), (R.rand (seededState R seed s) ((t.length + 1) / 2)).2) ∧
      t.length = x.length ∧ 0 < t.length ∧
      (∀ j < t.length, t.getD j 0 = tInit + j * dt) ∧
      tEnd ≤ t.getD (t.length - 1) 0 ∧ t.getD (t.length - 1) 0 < tEnd + dt ∧
      IsInterpolant fs Ss S' ∧
      (∀ i, φ i = 2 * Real.pi * ((R.rand (seededState R seed s) ((t.length + 1) / 2)).1.getD i 0)) ∧
      (∀ j < t.length, x.getD j 0 = randomPhaseSum ((t.length + 1) / 2) dt S' φ j) := by
  obtain ⟨nT, hn0, htax, hlo, hhi⟩ := arange_closed hdt ht
  have hlen : (arange tInit (tEnd + dt) dt).length = nT := by rw [htax]; simp
  set n := (nT + 1) / 2 with hn
  have hnpos : 0 < n := by omega
  set rs := R.rand (seededState R seed s) n with hrs
  have hrl : rs.1.length = n := R.rand_length _ _
  set A : List ℝ := ((List.range n).map fun (i : Nat) => ((i : ℝ) + 1) * genDf n dt).map
    (fun v => Real.sqrt (2 * (npInterp fs Ss v) * genDf n dt)) with hA
  set φl : List ℝ := rs.1.map fun u => 2 * Real.pi * u with hφl
  set y : List ℝ := (List.range (2 * n)).map fun j => (inv (2 * n) (symExt (2 * n) (compAt A φl)) j * ((2 * n : ℕ) : ℂ)).re with hy
  have hnn : ∀ v, 0 ≤ npInterp fs Ss v := interp_nonneg hinc hl (npInterp_spec hinc hl) hpos
  have hmain : spectrum2timeseries R f S tInit tEnd dt seed s = (.ok (arange tInit (tEnd + dt) dt, y.take nT), rs.2) := by
    unfold spectrum2timeseries
    simp only [vecIn_of_isArr hf, vecIn_of_isArr hS.isArr]
    rw [if_neg (by simpa using hl), if_neg hdt.ne', hlen]
    rw [if_neg (by omega), ← hn, genAxis_eq hnpos hdt.ne']
    simp only [List.length_map, List.length_range]
    rw [interpArg_eq hS hne (hinc.imp fun h => h.le), reseed_eq R hseed]
    simp only [drawPhases]
    rw [← hrs, if_neg]
    · simp only [List.map_map]
      have hA2 : (List.range n).map ((fun v => Real.sqrt (2 * v * genDf n dt)) ∘ npInterp fs Ss ∘ fun (i : Nat) => ((i : ℝ) + 1) * genDf n dt) = A := by
        rw [hA, List.map_map]; rfl
      rw [hA2, fourierComponents_eq hnpos (by simp [hA]) (by simp [hrl])]
      congr 3
      unfold npIfft
      rw [List.length_map, List.length_range, List.map_map, hy]
      congr 1
      refine List.map_congr_left fun j _ => ?_
      simp only [Function.comp]
      congr 2
      exact inv_congr (fun k hk => getD_map_range _ _ k 0 hk) j
    · simp only [List.any_eq_true, decide_eq_true_eq, not_exists, not_and, not_lt]
      intro v hv
      obtain ⟨w, _, rfl⟩ := List.mem_map.1 hv
      have hpos : 0 < genDf n dt := by unfold genDf; positivity
      exact mul_nonneg (mul_nonneg (by norm_num) (hnn w)) hpos.le
  refine ⟨arange tInit (tEnd + dt) dt, y.take nT, npInterp fs Ss, fun i => 2 * Real.pi * (rs.1.getD i 0), ?_⟩
  refine ⟨hmain.trans ?_, ?_, ?_, ?_, ?_, ?_, npInterp_spec hinc hl, ?_, ?_⟩
  · rw [hlen, ← hn]
  · rw [hlen, List.length_take]; simp [hy]; omega
  · rw [hlen]; exact hn0
  · intro j hj
    rw [hlen] at hj
    rw [htax, getD_map_range _ _ j 0 hj]
  · rw [hlen, htax, getD_map_range _ _ _ 0 (by omega)]; exact hlo
  · rw [hlen, htax, getD_map_range _ _ _ 0 (by omega)]; exact hhi
  · intro i
    rw [hlen, ← hn]
  · intro j hj
    rw [hlen] at hj
    rw [hlen, ← hn]
    have hj2 : j < 2 * n := by omega
    have : (y.take nT).getD j 0 = y.getD j 0 := by
      rw [List.getD_eq_getElem _ _ (by rw [List.length_take]; simp [hy]; omega), List.getD_eq_getElem _ _ (by simp [hy]; omega), List.getElem_take]
    rw [this, hy, getD_map_range _ _ j 0 hj2, synth_value hnpos hdt]
    unfold randomPhaseSum
    refine sum_congr rfl fun i hi => ?_
    have hi' := mem_range.1 hi
    have hAi : A.getD i 0 = Real.sqrt (2 * npInterp fs Ss ((i + 1) * genDf n dt) * genDf n dt) := by
      rw [hA, List.map_map, getD_map_range _ _ i 0 hi']; rfl
    have hφi : φl.getD i 0 = 2 * Real.pi * rs.1.getD i 0 := by
      rw [hφl, List.getD_eq_getElem _ _ (by rw [List.length_map]; omega), List.getElem_map, List.getD_eq_getElem _ _ (by omega)]
    rw [hAi, hφi]

/-! ## Energy of the random-phase sum -/

theorem twiddle_jn {n : Nat} (hn : 0 < n) (j : Nat) : twiddle (2 * n) ((j : ℤ) * n) = (-1) ^ j := by
  rw [← twiddle_half hn, twiddle_pow]

/-- C36.  Over the full even period of `2 n` samples the random-phase sum has zero mean, and its mean square is the sum of
`S df` over the components below the Nyquist frequency plus a Nyquist term that depends on the last phase. -/
theorem random_phase_energy {n : Nat} (hn : 0 < n) {dt : ℝ} (hdt : 0 < dt) {S : ℝ → ℝ} (hS : ∀ v, 0 ≤ S v) (φ : Nat → ℝ) :
    (∑ j ∈ range (2 * n), randomPhaseSum n dt S φ j = 0) ∧
    (∑ j ∈ range (2 * n), (randomPhaseSum n dt S φ j) ^ 2) / (2 * n) =
      ∑ i ∈ range (n - 1), S ((i + 1) * genDf n dt) * genDf n dt +
      S (n * genDf n dt) * genDf n dt * Real.cos (φ (n - 1)) ^ 2 / 2 := by
  have hdf : 0 < genDf n dt := by
    have : (0 : ℝ) < n := by exact_mod_cast hn
    unfold genDf; positivity
  set A : List ℝ := (List.range n).map fun (i : Nat) => Real.sqrt (2 * S (((i : ℝ) + 1) * genDf n dt) * genDf n dt) with hA
  set φl : List ℝ := (List.range n).map φ with hφl
  have hAi : ∀ i < n, A.getD i 0 = Real.sqrt (2 * S (((i : ℝ) + 1) * genDf n dt) * genDf n dt) := fun i hi => by
    rw [hA, getD_map_range _ _ i 0 hi]
  have hφi : ∀ i < n, φl.getD i 0 = φ i := fun i hi => by rw [hφl, getD_map_range _ _ i 0 hi]
  have hval : ∀ j, randomPhaseSum n dt S φ j = (inv (2 * n) (symExt (2 * n) (compAt A φl)) j * ((2 * n : ℕ) : ℂ)).re := by
    intro j
    rw [synth_value hn hdt]
    unfold randomPhaseSum
    refine sum_congr rfl fun i hi => ?_
    rw [hAi i (mem_range.1 hi), hφi i (mem_range.1 hi)]
  -- make the Nyquist component real
  set D : Nat → ℂ := fun k => if k = n then ((compAt A φl n).re : ℂ) else compAt A φl k with hD
  have hval2 : ∀ j, randomPhaseSum n dt S φ j = (inv (2 * n) (symExt (2 * n) D) j * ((2 * n : ℕ) : ℂ)).re := by
    intro j
    rw [hval, symExt_inv_re hn, symExt_inv_re hn]
    congr 1
    · refine sum_congr rfl fun k hk => ?_
      have := mem_range.1 hk
      simp only [hD]; rw [if_neg (by omega)]
    · refine sum_congr rfl fun k hk => ?_
      have := mem_range.1 hk
      by_cases hkn : k + 1 = n
      · simp only [hD, hkn]
        rw [if_pos trivial, twiddle_jn hn]
        have : ((-1 : ℂ) ^ j) = (((-1 : ℝ) ^ j : ℝ) : ℂ) := by push_cast; rfl
        rw [this, Complex.re_mul_ofReal, Complex.re_mul_ofReal, Complex.ofReal_re]
      · simp only [hD]; rw [if_neg hkn]
  have h2n : 0 < 2 * n := by omega
  have h2n' : ((2 * n : ℕ) : ℝ) ≠ 0 := by exact_mod_cast (by omega : 2 * n ≠ 0)
  set Y := symExt (2 * n) D with hY
  have hY0 : Y 0 = 0 := by
    simp only [hY, symExt, hD]
    rw [if_pos (by omega), if_neg (by omega)]; simp [compAt]
  have hYreal : ∀ j, (starRingEnd ℂ) (inv (2 * n) Y j) = inv (2 * n) Y j := by
    apply inv_real h2n
    · rw [hY0, map_zero]
    · intro k hk0 hk
      simp only [hY, symExt, show (2 * n + 1) / 2 = n by omega]
      by_cases h1 : k < n
      · rw [if_neg (by omega), if_pos h1, show 2 * n - (2 * n - k) = k by omega]
      · by_cases h2 : k = n
        · subst h2
          have e : 2 * k - k = k := by omega
          simp only [e]
          rw [if_neg (lt_irrefl _)]
          simp [hD]
        · rw [if_pos (by omega), if_neg h1, Complex.conj_conj]
  have hre : ∀ j, randomPhaseSum n dt S φ j = (inv (2 * n) Y j).re * (2 * n : ℕ) := by
    intro j
    rw [hval2 j]
    have : (((2 * n : ℕ)) : ℂ) = ((((2 * n : ℕ) : ℝ)) : ℂ) := by push_cast; rfl
    rw [this, Complex.re_mul_ofReal]
  have hns : ∀ j, Complex.normSq (inv (2 * n) Y j) = (inv (2 * n) Y j).re ^ 2 := by
    intro j
    have him : (inv (2 * n) Y j).im = 0 := Complex.conj_eq_iff_im.1 (hYreal j)
    rw [Complex.normSq_apply, him]; ring
  constructor
  · have h0 := fwd_inv h2n Y (l := 0) h2n
    rw [fwd_zero, hY0] at h0
    have h1 := congrArg Complex.re h0
    rw [Complex.re_sum, Complex.zero_re] at h1
    rw [sum_congr rfl fun j _ => hre j, ← sum_mul, h1, zero_mul]
  · have hp := parseval_inv h2n Y
    have hsq : ∑ j ∈ range (2 * n), (randomPhaseSum n dt S φ j) ^ 2 =
        ((2 * n : ℕ) : ℝ) * ∑ k ∈ range (2 * n), Complex.normSq (Y k) := by
      rw [hp, ← mul_assoc, mul_sum]
      refine sum_congr rfl fun j _ => ?_
      rw [hre j, hns j]; ring
    rw [hsq]
    have e2 : ((2 * n : ℕ) : ℝ) = 2 * (n : ℝ) := by push_cast; ring
    rw [e2, mul_div_assoc, mul_comm, div_mul_cancel₀ _ (by rw [← e2]; exact h2n')]
    -- energy of the components
    have hnC : ∀ i < n, Complex.normSq (compAt A φl (i + 1)) = S (((i : ℝ) + 1) * genDf n dt) * genDf n dt / 2 := by
      intro i hi
      unfold compAt
      rw [if_neg (by omega), Nat.add_sub_cancel, Complex.normSq_mul, hAi i hi]
      have h1 : Complex.normSq (Complex.exp (Complex.I * ((φl.getD i 0 : ℝ) : ℂ))) = 1 := by
        rw [mul_comm, Complex.normSq_eq_norm_sq, Complex.norm_exp_ofReal_mul_I]; norm_num
      have h2 : ((Real.sqrt (2 * S (((i : ℝ) + 1) * genDf n dt) * genDf n dt) : ℝ) : ℂ) / 2 =
        ((Real.sqrt (2 * S (((i : ℝ) + 1) * genDf n dt) * genDf n dt) / 2 : ℝ) : ℂ) := by push_cast; rfl
      rw [h1, h2, Complex.normSq_ofReal, mul_one]
      have := Real.mul_self_sqrt (mul_nonneg (mul_nonneg (by norm_num : (0 : ℝ) ≤ 2) (hS (((i : ℝ) + 1) * genDf n dt))) hdf.le)
      linear_combination this / 4
    have hDn : Complex.normSq (D n) = S (n * genDf n dt) * genDf n dt * Real.cos (φ (n - 1)) ^ 2 / 2 := by
      simp only [hD, if_true]
      rw [Complex.normSq_ofReal]
      have hr : (compAt A φl n).re = Real.sqrt (2 * S (n * genDf n dt) * genDf n dt) / 2 * Real.cos (φ (n - 1)) := by
        unfold compAt
        rw [if_neg (by omega), hAi (n - 1) (by omega), hφi (n - 1) (by omega)]
        have hc : (((n - 1 : ℕ) : ℝ) + 1) = n := by
          have : 1 ≤ n := hn
          push_cast [Nat.cast_sub this]; ring
        rw [hc]
        have h2 : ((Real.sqrt (2 * S (n * genDf n dt) * genDf n dt) : ℝ) : ℂ) / 2 =
          ((Real.sqrt (2 * S (n * genDf n dt) * genDf n dt) / 2 : ℝ) : ℂ) := by push_cast; rfl
        rw [h2, Complex.re_ofReal_mul, mul_comm Complex.I, Complex.exp_ofReal_mul_I_re]
      rw [hr]
      have := Real.mul_self_sqrt (mul_nonneg (mul_nonneg (by norm_num : (0 : ℝ) ≤ 2) (hS (n * genDf n dt))) hdf.le)
      linear_combination this / 4 * Real.cos (φ (n - 1)) ^ 2
    -- sum over the two halves
    have hsplit : ∑ k ∈ range (2 * n), Complex.normSq (Y k) =
        ∑ k ∈ range n, Complex.normSq (D k) + ∑ k ∈ range n, Complex.normSq (D (k + 1)) := by
      have e3 : range (2 * n) = range (n + n) := by rw [two_mul]
      rw [e3, sum_range_add]
      congr 1
      · refine sum_congr rfl fun k hk => ?_
        have := mem_range.1 hk
        simp only [hY, symExt]; rw [if_pos (by omega)]
      · rw [← sum_range_reflect]
        refine sum_congr rfl fun k hk => ?_
        have := mem_range.1 hk
        simp only [hY, symExt]
        rw [if_neg (by omega), Complex.normSq_conj]
        congr 2; omega
    rw [hsplit]
    obtain ⟨m, rfl⟩ : ∃ m, n = m + 1 := ⟨n - 1, by omega⟩
    rw [sum_range_succ' (fun k => Complex.normSq (D k)), sum_range_succ (fun k => Complex.normSq (D (k + 1))), hDn]
    have hD0 : Complex.normSq (D 0) = 0 := by simp [hD, compAt]
    rw [hD0, add_zero, ← add_assoc, ← sum_add_distrib, Nat.add_sub_cancel]
    congr 1
    refine sum_congr rfl fun i hi => ?_
    have := mem_range.1 hi
    have hDi : D (i + 1) = compAt A φl (i + 1) := by simp only [hD]; rw [if_neg (by omega)]
    rw [hDi, hnC i (by omega)]; ring

/-- C36 for the returned series: with an even number of samples the series itself is the full period, so for every
state of the generator it has zero mean and a mean square between the sum of `S df` below the Nyquist frequency and that
sum plus half the Nyquist bin. -/
theorem synth_energy (R : Rng) {f S : PyIn ℝ} {fs Ss : List ℝ} (hf : f.IsArr fs) (hS : S.IsFlat Ss)
    (hl : fs.length = Ss.length) (hne : fs ≠ []) (hinc : fs.Pairwise (· < ·)) (hpos : ∀ v ∈ Ss, 0 ≤ v)
    {tInit tEnd dt : ℝ} (hdt : 0 < dt) (ht : tInit ≤ tEnd) {seed : Int} (hseed : seed < 2 ^ 32) {s s' : R.State}
    {t x : List ℝ} (hr : spectrum2timeseries R f S tInit tEnd dt seed s = (.ok (t, x), s')) {n : Nat}
    (heven : t.length = 2 * n) {S' : ℝ → ℝ} (hS' : IsInterpolant fs Ss S') :
    x.sum = 0 ∧
    ∑ i ∈ range (n - 1), S' ((i + 1) * genDf n dt) * genDf n dt ≤ mean (x.map (· ^ 2)) ∧
    mean (x.map (· ^ 2)) ≤
      ∑ i ∈ range (n - 1), S' ((i + 1) * genDf n dt) * genDf n dt + S' (n * genDf n dt) * genDf n dt / 2 := by
  obtain ⟨t', x', S'', φ, h1, h2, h3, h4, h5, h6, h7, h8, h9⟩ :=
    synth_formula R hf hS hl hne hinc hpos hdt ht hseed s
  rw [hr] at h1
  simp only [Prod.mk.injEq, Except.ok.injEq] at h1
  obtain ⟨⟨rfl, rfl⟩, _⟩ := h1
  have hSS : S'' = S' := isInterpolant_unique hinc h7 hS'
  subst hSS
  have hn : 0 < n := by omega
  have hn1 : (t.length + 1) / 2 = n := by omega
  rw [hn1] at h9
  have hnn := interp_nonneg hinc hl h7 hpos
  obtain ⟨e1, e2⟩ := random_phase_energy hn hdt hnn φ
  have hdf : 0 < genDf n dt := by
    have : (0 : ℝ) < n := by exact_mod_cast hn
    unfold genDf; positivity
  have hxl : x.length = 2 * n := by omega
  have hsum : x.sum = ∑ j ∈ range (2 * n), randomPhaseSum n dt S'' φ j := by
    rw [list_sum_getD, hxl]
    exact sum_congr rfl fun j hj => h9 j (by rw [heven]; exact mem_range.1 hj)
  have hms : mean (x.map (· ^ 2)) = (∑ j ∈ range (2 * n), (randomPhaseSum n dt S'' φ j) ^ 2) / (2 * n) := by
    unfold mean
    rw [list_sum_getD, List.length_map, hxl]
    congr 1
    · refine sum_congr rfl fun j hj => ?_
      have hj' := mem_range.1 hj
      rw [List.getD_eq_getElem _ _ (by rw [List.length_map]; omega), List.getElem_map, ← h9 j (by omega),
        List.getD_eq_getElem _ _ (by omega)]
    · push_cast; ring
  rw [hms, e2]
  have hc := Real.cos_sq_le_one (φ (n - 1))
  have hc0 := sq_nonneg (Real.cos (φ (n - 1)))
  have hA := mul_nonneg (hnn (n * genDf n dt)) hdf.le
  refine ⟨hsum.trans e1, ?_, ?_⟩
  · nlinarith [mul_nonneg hA hc0]
  · nlinarith [mul_le_mul_of_nonneg_left hc hA]

/-- C37.  With `seed ≥ 0` the result does not depend on the state of the generator; if a series is returned the
generator is left in the same state as well. -/
theorem synth_seeded_reproducible (R : Rng) (f S : PyIn ℝ) (tInit tEnd dt : ℝ) {seed : Int} (h : 0 ≤ seed) (s1 s2 : R.State) :
    (spectrum2timeseries R f S tInit tEnd dt seed s1).1 = (spectrum2timeseries R f S tInit tEnd dt seed s2).1 ∧
    ((spectrum2timeseries R f S tInit tEnd dt seed s1).1.isOk = true →
      (spectrum2timeseries R f S tInit tEnd dt seed s1).2 = (spectrum2timeseries R f S tInit tEnd dt seed s2).2) := by
  have hre : ∀ s, reseed R seed s = reseed R seed s1 := by
    intro s; unfold reseed; rw [if_pos h, if_pos h]
  unfold spectrum2timeseries
  rcases vecIn "compute_spectrum_freq_series" f with e | fs
  · exact ⟨rfl, fun h => by simp [Except.isOk, Except.toBool] at h⟩
  rcases vecIn "compute_spectrum_freq_series" S with e | Ss
  · exact ⟨rfl, fun h => by simp [Except.isOk, Except.toBool] at h⟩
  dsimp only
  split_ifs with h1 h2 h3
  · exact ⟨rfl, fun h => by simp [Except.isOk, Except.toBool] at h⟩
  · exact ⟨rfl, fun h => by simp [Except.isOk, Except.toBool] at h⟩
  · exact ⟨rfl, fun h => by simp [Except.isOk, Except.toBool] at h⟩
  · rw [hre s2]
    rcases interpArg (genAxis (2 * (((arange tInit (tEnd + dt) dt).length + 1) / 2)) dt).1 fs S with e | sGen
    · exact ⟨rfl, fun h => by simp [Except.isOk, Except.toBool] at h⟩
    rcases reseed R seed s1 with e | s
    · exact ⟨rfl, fun h => by simp [Except.isOk, Except.toBool] at h⟩
    · exact ⟨rfl, fun _ => rfl⟩

/-- C37.  With `seed < 0` the generator is not reset: it is left alone or advanced by one draw. -/
theorem synth_unseeded_advances (R : Rng) (f S : PyIn ℝ) (tInit tEnd dt : ℝ) {seed : Int} (h : seed < 0) (s : R.State) :
    (spectrum2timeseries R f S tInit tEnd dt seed s).2 = s ∨
    ∃ n, (spectrum2timeseries R f S tInit tEnd dt seed s).2 = (R.rand s n).2 := by
  have hre : reseed R seed s = .ok s := by unfold reseed; rw [if_neg (by omega)]
  unfold spectrum2timeseries
  rcases vecIn "compute_spectrum_freq_series" f with e | fs
  · exact .inl rfl
  rcases vecIn "compute_spectrum_freq_series" S with e | Ss
  · exact .inl rfl
  dsimp only
  split_ifs with h1 h2 h3
  · exact .inl rfl
  · exact .inl rfl
  · exact .inl rfl
  · rw [hre]
    rcases interpArg (genAxis (2 * (((arange tInit (tEnd + dt) dt).length + 1) / 2)) dt).1 fs S with e | sGen
    · exact .inl rfl
    · dsimp only
      split_ifs
      · exact .inr ⟨_, rfl⟩
      · exact .inr ⟨_, rfl⟩

/-- The errors of the synthesis: arrays of different lengths raise `ValueError`, a time axis
without points `ZeroDivisionError`; the generator is untouched. -/
theorem synth_rejects (R : Rng) {f S : PyIn ℝ} {fs Ss : List ℝ} (hf : f.IsArr fs) (hS : S.IsArr Ss) {tInit tEnd dt : ℝ}
    {seed : Int} (s : R.State) :
    (fs.length ≠ Ss.length → ∃ m, spectrum2timeseries R f S tInit tEnd dt seed s = (.error (.valueError m), s)) ∧
    (fs.length = Ss.length → 0 < dt → tEnd + dt ≤ tInit →
      spectrum2timeseries R f S tInit tEnd dt seed s = (.error .zeroDivisionError, s)) := by
  constructor
  · intro hl
    refine ⟨"compute_spectrum_freq_series: Input error: array sizes differ in dimension", ?_⟩
    unfold spectrum2timeseries
    simp only [vecIn_of_isArr hf, vecIn_of_isArr hS]
    rw [if_pos hl]
  · intro hl hdt ht
    have hlen : (arange tInit (tEnd + dt) dt).length = 0 := by
      unfold arange
      have : ⌈(tEnd + dt - tInit) / dt⌉ ≤ 0 := by
        rw [Int.ceil_le]; push_cast
        exact div_nonpos_of_nonpos_of_nonneg (by linarith) hdt.le
      simp [Int.toNat_of_nonpos this]
    unfold spectrum2timeseries
    simp only [vecIn_of_isArr hf, vecIn_of_isArr hS]
    rw [if_neg (by simpa using hl), if_neg hdt.ne', hlen]
    rfl

/-- C35/C10: `create_series` / `spectrum2timeseries_object` with `tInit < tEnd` always yields a `Series` holding exactly the
synthesised signal, with time step `dt`. -/
theorem synth_object (R : Rng) {f S : PyIn ℝ} {fs Ss : List ℝ} (hf : f.IsArr fs) (hS : S.IsFlat Ss)
    (hl : fs.length = Ss.length) (hne : fs ≠ []) (hinc : fs.Pairwise (· < ·)) (hpos : ∀ v ∈ Ss, 0 ≤ v)
    {tInit tEnd dt : ℝ} (hdt : 0 < dt) (ht : tInit < tEnd) {seed : Int} (hseed : seed < 2 ^ 32) (s : R.State) :
    ∃ t x o s', spectrum2timeseries R f S tInit tEnd dt seed s = (.ok (t, x), s') ∧
      spectrum2timeseriesObject R f S tInit tEnd dt seed s = (.ok o, s') ∧
      o.time = arr1 t ∧ o.xTime = arr1 x ∧ o.nt = t.length ∧ o.dt = dt := by
  obtain ⟨t, x, S'', φ, h1, h2, h3, h4, h5, h6, h7, h8, h9⟩ :=
    synth_formula R hf hS hl hne hinc hpos hdt ht.le hseed s
  have hlen : 2 ≤ t.length := by
    by_contra hc
    have h11 : t.length - 1 = 0 := by omega
    rw [h11, h4 0 h3] at h5
    simp at h5; linarith
  have hu : UniformAxis t dt := ⟨hdt, fun i hi => by
    rw [h4 _ hi, h4 _ (by omega)]; push_cast; ring⟩
  obtain ⟨o, _, _, _, a1, a2, a3, a4, a5, _⟩ := series_never_fails (isVec_vec t) (isVec_vec x) hlen h2 hu
  refine ⟨t, x, o, _, h1, ?_, a2, a3, a4, a5⟩
  unfold spectrum2timeseriesObject
  rw [h1]
  simp only [a1]

/-- A `Series` of a single synthesised sample (`tInit = tEnd`) is rejected. -/
theorem synth_object_single (R : Rng) {f S : PyIn ℝ} {fs Ss : List ℝ} (hf : f.IsArr fs) (hS : S.IsFlat Ss)
    (hl : fs.length = Ss.length) (hne : fs ≠ []) (hinc : fs.Pairwise (· < ·)) (hpos : ∀ v ∈ Ss, 0 ≤ v)
    {tInit dt : ℝ} (hdt : 0 < dt) {seed : Int} (hseed : seed < 2 ^ 32) (s : R.State) :
    ∃ m, (spectrum2timeseriesObject R f S tInit tInit dt seed s).1 = .error (.assertionError m) := by
  obtain ⟨t, x, S'', φ, h1, h2, h3, h4, h5, h6, h7, h8, h9⟩ :=
    synth_formula R hf hS hl hne hinc hpos hdt (le_refl tInit) hseed s
  have hlen : t.length = 1 := by
    by_contra hc
    have h11 : 1 ≤ t.length - 1 := by omega
    rw [h4 _ (by omega)] at h6
    have : (1 : ℝ) ≤ ((t.length - 1 : ℕ) : ℝ) := by exact_mod_cast h11
    nlinarith
  obtain ⟨a, rfl⟩ : ∃ a, t = [a] := by
    rcases t with _ | ⟨a, _ | ⟨b, l⟩⟩ <;> simp_all
  obtain ⟨b, rfl⟩ : ∃ b, x = [b] := by
    rcases x with _ | ⟨a, _ | ⟨b, l⟩⟩ <;> simp_all
  refine ⟨"Input error: time step is not equidistant", ?_⟩
  unfold spectrum2timeseriesObject
  rw [h1]
  simp [SeriesObj.init, timeSteps, bind, Except.bind, vec, toVector, toArr, size2, Arr.size, diff]

/-! ## Non-vacuity -/

/-- A generator that always returns a quarter. -/
noncomputable def quarterRng : Rng where
  State := Nat
  seed := id
  rand s n := (List.replicate n (1 / 4), s + n)
  rand_length s n := by simp
  rand_range s n u hu := by
    rw [List.eq_of_mem_replicate hu]; norm_num

/-- The hypotheses of `synth_formula`, `synth_energy` and `synth_object` hold for a three-point spectrum. -/
example : ∃ t x s', spectrum2timeseries quarterRng (vec [1 / 10, 2 / 10, 4 / 10]) (vec [0, 3, 1]) 0 3 1 (-1) (5 : Nat) =
    (.ok (t, x), s') ∧ t.length = x.length ∧ 0 < t.length := by
  obtain ⟨t, x, S, φ, h1, h2, h3, -⟩ := synth_formula quarterRng (isArr_vec [1 / 10, 2 / 10, 4 / 10])
    (.nd [0, 3, 1]) rfl (by simp) (by norm_num) (by norm_num) (tInit := 0) (tEnd := 3) (dt := 1) (by norm_num) (by norm_num)
    (seed := -1) (by norm_num) (5 : Nat)
  exact ⟨t, x, _, h1, h2, h3⟩

/-! ## Concrete cases: the hypotheses of the theorems above are met -/

example := synth_object_single quarterRng (isArr_vec [1 / 10, 2 / 10, 4 / 10]) (.nd [0, 3, 1]) rfl (by simp) (by norm_num) (by norm_num) (tInit := 5) (dt := 1)
  (by norm_num) (seed := 7) (by norm_num) (5 : Nat)
example := (synth_rejects quarterRng (isArr_vec [1 / 10, 2 / 10, 4 / 10]) (isArr_vec [0, 3]) (tInit := 0) (tEnd := 3) (dt := 1) (seed := 7) (5 : Nat)).1 (by simp)
example := (synth_rejects quarterRng (isArr_vec [1 / 10, 2 / 10]) (isArr_vec [0, 3]) (tInit := 3) (tEnd := 1) (dt := 1) (seed := 7) (5 : Nat)).2 rfl (by norm_num) (by norm_num)
example := random_phase_energy (n := 8) (by norm_num) (dt := 1 / 2) (by norm_num) (S := fun v => v ^ 2) (fun v => by positivity) (fun i => i)
/-- A generated series of `2 n` samples exists, and its mean square lies between the bounds. -/
example {n : Nat} {t x : List ℝ} {s' : Nat} (hr : spectrum2timeseries quarterRng (vec [1 / 10, 2 / 10, 4 / 10]) (vec [0, 3, 1]) 0 3 1 (-1) (5 : Nat) = (.ok (t, x), s'))
    (heven : t.length = 2 * n) := synth_energy quarterRng (isArr_vec [1 / 10, 2 / 10, 4 / 10]) (.nd [0, 3, 1]) rfl (by simp) (by norm_num) (by norm_num)
  (by norm_num) (by norm_num) (by norm_num) hr heven (npInterp_spec (by norm_num) rfl)
example := synth_seeded_reproducible quarterRng (vec [1 / 10, 2 / 10, 4 / 10]) (vec [0, 3, 1]) 0 3 1 (seed := 7) (by norm_num) (5 : Nat) (6 : Nat)
example := synth_unseeded_advances quarterRng (vec [1 / 10, 2 / 10, 4 / 10]) (vec [0, 3, 1]) 0 3 1 (seed := -1) (by norm_num) (5 : Nat)

end Verif
