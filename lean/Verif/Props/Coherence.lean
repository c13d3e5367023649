import Verif.Props.Fourier
import Mathlib.Algebra.Order.BigOperators.Ring.Finset
import Mathlib.Algebra.Order.Chebyshev

/-! # C30, C31: coherence -/

set_option linter.unusedSectionVars false

namespace Verif
open Finset

/-- Band energy: mean of `|X|^2` over block `i` of `n` bins. -/
noncomputable def bandEnergy (n : Nat) (X : List ℂ) (i : Nat) : ℝ := (∑ j ∈ range n, ‖X.getD (i * n + j) 0‖ ^ 2) / n

/-- Band mean of `|X1| |X2|`. -/
noncomputable def bandCross (n : Nat) (X1 X2 : List ℂ) (i : Nat) : ℝ :=
  (∑ j ∈ range n, ‖X1.getD (i * n + j) 0‖ * ‖X2.getD (i * n + j) 0‖) / n

/-- `1e-10`. -/
noncomputable def smallNumber : ℝ := 1 / 10 ^ 10

theorem smallNumber_pos : 0 < smallNumber := by unfold smallNumber; positivity

theorem cross_zip_getD {X1 X2 : List ℂ} (h : X1.length = X2.length) {k : Nat} (hk : k < X1.length) :
    (List.zipWith (fun a b => ‖a * (starRingEnd ℂ) b‖) X1 X2).getD k 0 = ‖X1.getD k 0‖ * ‖X2.getD k 0‖ := by
  rw [List.getD_eq_getElem _ _ (by simp; omega), List.getD_eq_getElem _ _ hk, List.getD_eq_getElem _ _ (by omega)]
  simp

theorem coherence_eq {f : List ℝ} {X1 X2 : List ℂ} (h1 : X1.length = f.length) (h2 : X2.length = f.length)
    (h2f : 2 ≤ f.length) (hd : f.getD 0 0 < f.getD 1 0) (df : ℝ) :
    ∃ n fc coh, IsFactor n df (f.getD 1 0 - f.getD 0 0) ∧ coherence f X1 X2 df = .ok (fc, coh) ∧ BlockMeans n f fc f.length ∧
      coh.length = f.length / n ∧ ∀ i < f.length / n, coh.getD i 0 =
        bandCross n X1 X2 i ^ 2 / (max (bandEnergy n X1 i) smallNumber * max (bandEnergy n X2 i) smallNumber) := by
  obtain ⟨f0, f1, l, rfl⟩ : ∃ f0 f1 l, f = f0 :: f1 :: l := by
    rcases f with _ | ⟨a, _ | ⟨b, l⟩⟩
    · simp at h2f
    · simp at h2f
    · exact ⟨_, _, _, rfl⟩
  simp only [List.getD_cons_succ, List.getD_cons_zero] at hd ⊢
  obtain ⟨n, hn, hspec⟩ := averaging_factor (l := l) (df := df) (sub_pos.2 hd)
  set f := f0 :: f1 :: l with hf
  have hpos := nFactorOf_pos hn
  have havg : ∀ Y1 Y2 : List ℂ, Y1.length = f.length → Y2.length = f.length →
      frequencyAveragingL f (List.zipWith (fun a b => ‖a * (starRingEnd ℂ) b‖) Y1 Y2) df =
      .ok ((List.range (f.length / n)).map fun i => (∑ j ∈ range n, f.getD (i * n + j) 0) / (n : ℝ),
        (List.range (f.length / n)).map (bandCross n Y1 Y2)) := by
    intro Y1 Y2 e1 e2
    have hlen : (List.zipWith (fun a b => ‖a * (starRingEnd ℂ) b‖) Y1 Y2).length = f.length := by simp [e1, e2]
    rw [frequencyAveragingL_eq hn hpos (by intro h; rw [h] at hlen; simp [hf] at hlen) hlen.ge]
    congr 2
    refine List.map_congr_left fun i hi => ?_
    unfold bandCross
    congr 1
    refine sum_congr rfl fun j hj => ?_
    have hb := slice_bound (List.mem_range.1 hi)
    have hj' := mem_range.1 hj
    rw [cross_zip_getD (by omega) (by rw [Nat.add_mul, Nat.one_mul] at hb; omega)]
  have hself : ∀ (Y : List ℂ) (i : Nat), bandCross n Y Y i = bandEnergy n Y i := by
    intro Y i
    unfold bandCross bandEnergy
    congr 1
    exact sum_congr rfl fun j _ => (sq _).symm
  have hmax : ∀ v : ℝ, (if v < 1 / 10 ^ 10 then 1 / 10 ^ 10 else v) = max v smallNumber := by
    intro v
    unfold smallNumber
    split_ifs with h
    · rw [max_eq_right h.le]
    · rw [max_eq_left (not_lt.1 h)]
  have key : coherence f X1 X2 df = .ok ((List.range (f.length / n)).map fun i => (∑ j ∈ range n, f.getD (i * n + j) 0) / (n : ℝ),
      (List.range (f.length / n)).map fun i => bandCross n X1 X2 i ^ 2 /
        (max (bandEnergy n X1 i) smallNumber * max (bandEnergy n X2 i) smallNumber)) := by
    unfold coherence absProd
    rw [if_pos rfl, if_pos rfl, if_pos (by omega)]
    simp only [bind, Except.bind]
    rw [havg X1 X1 h1 h1, havg X2 X2 h2 h2, havg X1 X2 h1 h2]
    simp only [pure, Except.pure]
    congr 2
    simp only [List.map_map]
    apply List.ext_getElem
    · simp
    · intro i ha hb
      simp only [List.getElem_zipWith, List.getElem_map, List.getElem_range, Function.comp, hself, hmax]
  refine ⟨n, _, _, hspec, key, ⟨by simp, fun i hi => by rw [getD_map_range _ _ _ _ hi]⟩, by simp, ?_⟩
  intro i hi
  rw [getD_map_range _ _ _ _ hi]

theorem bandCross_sq_le {n : Nat} (hn : 1 ≤ n) (X1 X2 : List ℂ) (i : Nat) :
    bandCross n X1 X2 i ^ 2 ≤ bandEnergy n X1 i * bandEnergy n X2 i := by
  unfold bandCross bandEnergy
  have hn' : (0 : ℝ) < n := by exact_mod_cast (by omega : 0 < n)
  rw [div_pow, div_mul_div_comm, sq (n : ℝ)]
  exact div_le_div_of_nonneg_right (sum_mul_sq_le_sq_mul_sq _ _ _) (by positivity)

theorem bandEnergy_nonneg (n : Nat) (X : List ℂ) (i : Nat) : 0 ≤ bandEnergy n X i := by unfold bandEnergy; positivity

/-- **C30 (range).** Every coherence value lies in [0, 1]. -/
theorem coherence_range {f : List ℝ} {X1 X2 : List ℂ} (h1 : X1.length = f.length) (h2 : X2.length = f.length)
    (h2f : 2 ≤ f.length) (hd : f.getD 0 0 < f.getD 1 0) (df : ℝ) :
    ∃ fc coh, coherence f X1 X2 df = .ok (fc, coh) ∧ fc.length = coh.length ∧ ∀ v ∈ coh, 0 ≤ v ∧ v ≤ 1 := by
  obtain ⟨n, fc, coh, hs, e, hb, hl, hv⟩ := coherence_eq h1 h2 h2f hd df
  refine ⟨fc, coh, e, by rw [hb.1, hl], ?_⟩
  intro v hmem
  obtain ⟨i, hi, rfl⟩ := List.getElem_of_mem hmem
  have := hv i (by rw [← hl]; exact hi)
  rw [List.getD_eq_getElem _ _ hi] at this
  rw [this]
  have hs1 := smallNumber_pos
  have p1 : 0 < max (bandEnergy n X1 i) smallNumber := lt_max_of_lt_right hs1
  have p2 : 0 < max (bandEnergy n X2 i) smallNumber := lt_max_of_lt_right hs1
  refine ⟨by positivity, ?_⟩
  rw [div_le_one (by positivity)]
  refine le_trans (bandCross_sq_le hs.1 X1 X2 i) ?_
  exact mul_le_mul (le_max_left _ _) (le_max_left _ _) (bandEnergy_nonneg _ _ _) p1.le

theorem coherence_zip_comm (X1 X2 : List ℂ) :
    List.zipWith (fun a b => ‖a * (starRingEnd ℂ) b‖) X1 X2 = List.zipWith (fun a b => ‖a * (starRingEnd ℂ) b‖) X2 X1 := by
  rw [List.zipWith_comm]
  congr 1
  funext a b
  simp [mul_comm]

/-- **C30 (symmetric).** Swapping the two signals does not change the result (values and exceptions alike, up to the
error text). -/
theorem coherence_symmetric {f : List ℝ} {X1 X2 : List ℂ} (h1 : X1.length = f.length) (h2 : X2.length = f.length)
    (h2f : 2 ≤ f.length) (hd : f.getD 0 0 < f.getD 1 0) (df : ℝ) : coherence f X1 X2 df = coherence f X2 X1 df := by
  unfold coherence absProd
  rw [if_pos rfl, if_pos rfl, if_pos (by omega), if_pos (by omega), coherence_zip_comm X1 X2]
  obtain ⟨n, fc, coh, hs, e, -⟩ := coherence_eq h1 h2 h2f hd df
  obtain ⟨f0, f1, l, rfl⟩ : ∃ f0 f1 l, f = f0 :: f1 :: l := by
    rcases f with _ | ⟨a, _ | ⟨b, l⟩⟩
    · simp at h2f
    · simp at h2f
    · exact ⟨_, _, _, rfl⟩
  have tot : ∀ S : List ℝ, S.length = (f0 :: f1 :: l).length → ∃ a b, frequencyAveragingL (f0 :: f1 :: l) S df = .ok (a, b) := by
    intro S hS
    obtain ⟨n, fc, sc, -, h, -⟩ := averaging_block_means (isArr_vec (f0 :: f1 :: l)) (isArr_vec S) hS.symm h2f hd (df := df)
    unfold frequencyAveraging at h
    rw [vecIn_vec, vecIn_vec] at h
    exact ⟨fc, sc, h⟩
  obtain ⟨a1, b1, r1⟩ := tot (List.zipWith (fun a b => ‖a * (starRingEnd ℂ) b‖) X1 X1) (by simp [h1])
  obtain ⟨a2, b2, r2⟩ := tot (List.zipWith (fun a b => ‖a * (starRingEnd ℂ) b‖) X2 X2) (by simp [h2])
  obtain ⟨a3, b3, r3⟩ := tot (List.zipWith (fun a b => ‖a * (starRingEnd ℂ) b‖) X2 X1) (by simp [h1, h2])
  simp only [bind, Except.bind]
  rw [r1, r2, r3]
  dsimp only
  rw [List.zipWith_comm (as := List.map _ b1)]
  simp only [mul_comm]

/-- **C30 (self).** The coherence of a signal with itself is 1 in every band whose mean energy is at least `1e-10`. -/
theorem coherence_self {f : List ℝ} {X : List ℂ} (h1 : X.length = f.length)
    (h2f : 2 ≤ f.length) (hd : f.getD 0 0 < f.getD 1 0) (df : ℝ) :
    ∃ n fc coh, IsFactor n df (f.getD 1 0 - f.getD 0 0) ∧ coherence f X X df = .ok (fc, coh) ∧ coh.length = f.length / n ∧
      ∀ i < coh.length, smallNumber ≤ (∑ j ∈ range n, ‖X.getD (i * n + j) 0‖ ^ 2) / n → coh.getD i 0 = 1 := by
  obtain ⟨n, fc, coh, hs, e, hb, hl, hv⟩ := coherence_eq h1 h1 h2f hd df
  refine ⟨n, fc, coh, hs, e, hl, fun i hi hE => ?_⟩
  have hE' : smallNumber ≤ bandEnergy n X i := hE
  rw [hv i (by omega), max_eq_left hE']
  have hself : bandCross n X X i = bandEnergy n X i := by
    unfold bandCross bandEnergy
    congr 1
    exact sum_congr rfl fun j _ => (sq _).symm
  have : bandEnergy n X i ≠ 0 := (lt_of_lt_of_le smallNumber_pos hE').ne'
  rw [hself, sq, div_self (mul_ne_zero this this)]

/-- **C31 is false.** The result depends on the two spectra only through their moduli: phases never matter. -/
theorem coherence_ignores_phase {f : List ℝ} {X1 X2 Y1 Y2 : List ℂ} (hX : X1.length = X2.length)
    (h1 : X1.map (‖·‖) = Y1.map (‖·‖)) (h2 : X2.map (‖·‖) = Y2.map (‖·‖)) (df : ℝ) :
    coherence f X1 X2 df = coherence f Y1 Y2 df := by
  have hz : ∀ A B : List ℂ, List.zipWith (fun a b => ‖a * (starRingEnd ℂ) b‖) A B =
      List.zipWith (· * ·) (A.map (‖·‖)) (B.map (‖·‖)) := by
    intro A B
    rw [List.zipWith_map]
    congr 1
    funext a b
    simp
  have l1 : X1.length = Y1.length := by simpa using congrArg List.length h1
  have l2 : X2.length = Y2.length := by simpa using congrArg List.length h2
  unfold coherence absProd
  rw [if_pos rfl, if_pos rfl, if_pos rfl, if_pos rfl, if_pos hX, if_pos (by omega)]
  simp only [hz, h1, h2]

/-- **C31, concretely.** Two signals with opposite phase relation in the two bins of a band (true magnitude-squared
coherence `|sum X1 conj X2|^2 / (sum |X1|^2 sum |X2|^2) = 0`) are reported as fully coherent. -/
theorem coherence_of_unrelated_phases :
    (‖(1 : ℂ) * (starRingEnd ℂ) 1 + 1 * (starRingEnd ℂ) (-1)‖ = 0) ∧
    ∃ fc, coherence [0, 1] [1, 1] [1, -1] 2 = .ok (fc, [1]) := by
  refine ⟨by simp, ?_⟩
  rw [coherence_ignores_phase (X1 := [1, 1]) (X2 := [1, -1]) (Y1 := [1, 1]) (Y2 := [1, 1]) rfl rfl (by simp)]
  obtain ⟨n, fc, coh, hs, e, hl, hv⟩ := coherence_self (f := [0, 1]) (X := [1, 1]) rfl (by simp) (by norm_num) 2
  have hn : n = 2 := by
    have := (hs.2.2.1 (by norm_num)).1
    norm_num [abs_le] at this
    have h1 : (n : ℝ) < 3 := by linarith
    have h2 : (1 : ℝ) < n := by linarith
    have h1' : n < 3 := by exact_mod_cast h1
    have h2' : 1 < n := by exact_mod_cast h2
    omega
  subst hn
  refine ⟨fc, ?_⟩
  rw [e]
  congr 2
  have hl' : coh.length = 1 := by simpa using hl
  have h1 := hv 0 (by omega) (by norm_num [smallNumber, sum_range_succ])
  match coh, hl' with
  | [c], _ => simpa using h1

example : (1 : ℝ) * 1 ≥ smallNumber := by unfold smallNumber; norm_num

/-! ## Concrete cases: the hypotheses of the theorems above are met -/

/-- Two spectra of four components, on blocks of two. -/
example : ∃ fc coh, coherence [0, 1, 2, 3] [1, Complex.I, 2, 0] [3, 1, -1, Complex.I] 2 = .ok (fc, coh) ∧
    coherence [0, 1, 2, 3] [3, 1, -1, Complex.I] [1, Complex.I, 2, 0] 2 = .ok (fc, coh) ∧ ∀ v ∈ coh, 0 ≤ v ∧ v ≤ 1 := by
  obtain ⟨fc, coh, a, -, b⟩ := coherence_range (f := [0, 1, 2, 3]) (X1 := [1, Complex.I, 2, 0]) (X2 := [3, 1, -1, Complex.I]) rfl rfl
    (by simp) (by norm_num) 2
  exact ⟨fc, coh, a, by rw [← coherence_symmetric rfl rfl (by simp) (by norm_num)]; exact a, b⟩

/-- A spectrum with itself. -/
example : ∃ fc coh, coherence [0, 1] [1, Complex.I] [1, Complex.I] 1 = .ok (fc, coh) ∧ coh.getD 0 0 = 1 ∧ coh.getD 1 0 = 1 := by
  obtain ⟨n, fc, coh, hn, a, b, c⟩ := coherence_self (f := [0, 1]) (X := [1, Complex.I]) rfl (by simp) (by norm_num) 1
  have hn1 : n = 1 := isFactor_unique hn ⟨le_rfl, fun h => rfl, fun _ => by unfold IsRounded; norm_num, fun h => by norm_num at h⟩
  subst hn1
  have hl : coh.length = 2 := by rw [b]; rfl
  exact ⟨fc, coh, a, c 0 (by omega) (by unfold smallNumber; norm_num), c 1 (by omega) (by unfold smallNumber; norm_num)⟩

/-- Phases have no influence. -/
example : coherence [0, 1] [1, 1] [1, Complex.I] 2 = coherence [0, 1] [Complex.I, 1] [1, -1] 2 :=
  coherence_ignores_phase (X1 := [1, 1]) (X2 := [1, Complex.I]) (Y1 := [Complex.I, 1]) (Y2 := [1, -1]) rfl (by simp) (by simp) 2

end Verif
