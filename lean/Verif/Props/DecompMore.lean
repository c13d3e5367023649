import Verif.Props.Decomp
import Verif.Props.SeriesInit
import Mathlib.Analysis.SpecialFunctions.Trigonometric.Bounds

/-! # C54, C66–C69: checks, stability and the wrapper of the wave decomposition -/

set_option linter.unusedSectionVars false

namespace Verif
open Finset Complex

/-! ## C54: input checks -/

/-- **C54.**  Inconsistent dimensions, fewer than two gauges, gauges that are not in increasing order, a weight sum of at most one, or
weights of which some are not positive while others exceed one, raise an `AssertionError`. -/
theorem decompose_rejects {ts : List ℝ} {xTime : Arr ℝ} {xLoc wLoc : List ℝ} {n m : ℕ} (hs : xTime.shape = [n, m]) (h : Depth) (detLim : ℝ)
    (hbad : m ≠ xLoc.length ∨ n ≠ ts.length ∨ ¬ GaugesOk xLoc wLoc) :
    ∃ msg, decomposeZS ts xTime h xLoc wLoc detLim = .error (.assertionError msg) := by
  unfold decomposeZS
  rw [hs]
  dsimp only
  by_cases h1 : m ≠ xLoc.length
  · exact ⟨_, by rw [if_pos h1]⟩
  rw [if_neg h1]
  by_cases h2 : xLoc.length ≠ wLoc.length
  · exact ⟨_, by rw [if_pos h2]⟩
  rw [if_neg h2]
  by_cases h3 : m ≤ 1
  · exact ⟨_, by rw [if_pos h3]⟩
  rw [if_neg h3]
  by_cases h4 : n ≠ ts.length
  · exact ⟨_, by rw [if_pos h4]⟩
  rw [if_neg h4]
  push Not at h1 h2 h3 h4
  have hwne : wLoc ≠ [] := by
    intro h; rw [h] at h2; simp at h2; rw [h2] at h1; simp at h1; omega
  obtain ⟨a, ha⟩ := pyMin_exists hwne
  obtain ⟨b, hb⟩ := pyMax_exists hwne
  obtain ⟨d, hmin, hpos⟩ := pyMin_diff_pos (x := xLoc) (by omega)
  simp only [ha, hb, hmin, bind, Except.bind]
  by_cases h5 : ¬ (0 < a ∨ b ≤ 1)
  · exact ⟨_, by rw [if_pos h5]⟩
  rw [if_neg h5]
  by_cases h6 : ¬ (1 < wLoc.sum)
  · exact ⟨_, by rw [if_pos h6]⟩
  rw [if_neg h6]
  by_cases h7 : ¬ (0 < d)
  · exact ⟨_, by rw [if_pos h7]⟩
  exfalso
  push Not at h5 h6 h7
  rcases hbad with hb' | hb' | hb'
  · exact hb' h1
  · exact hb' h4
  · apply hb'
    refine ⟨h2, by omega, hpos.1 h7, ?_, h6⟩
    rcases h5 with h5 | h5
    · left; intro w hw; exact lt_of_lt_of_le h5 ((pyMin_spec ha).2 w hw)
    · right; intro w hw; exact le_trans ((pyMax_spec hb).2 w hw) h5

/-- **C54 (refuted).**  The documented requirements on the weights (between zero and one, sum at least two) are not enforced: weights of
five, a negative weight, and a weight sum of 1.2 are all accepted, for every record. -/
theorem decompose_accepts_bad_weights {ts : List ℝ} (hm : AcceptedAxis ts) (x2 x4 : Arr ℝ) (h2 : x2.shape = [ts.length, 2])
    (h4 : x4.shape = [ts.length, 4]) {h : ℝ} (hh : 0 < h) :
    (∃ r, decomposeZS ts x2 (.fin h) [0, 1] [5, 5] = .ok r) ∧ (∃ r, decomposeZS ts x2 (.fin h) [0, 1] [3 / 5, 3 / 5] = .ok r) ∧
    (∃ r, decomposeZS ts x4 (.fin h) [0, 1, 2, 3] [-1, 1, 1, 1] = .ok r) := by
  obtain ⟨kap, hkap⟩ := binWaveNumbers_exist ts hh
  have g2 : ∀ i, i + 1 < ([0, 1] : List ℝ).length → ([0, 1] : List ℝ).getD i 0 < ([0, 1] : List ℝ).getD (i + 1) 0 := by
    intro i hi
    simp only [List.length_cons, List.length_nil] at hi
    have : i < 1 := by omega
    interval_cases i <;> norm_num
  have g4 : ∀ i, i + 1 < ([0, 1, 2, 3] : List ℝ).length → ([0, 1, 2, 3] : List ℝ).getD i 0 < ([0, 1, 2, 3] : List ℝ).getD (i + 1) 0 := by
    intro i hi
    simp only [List.length_cons, List.length_nil] at hi
    have : i < 3 := by omega
    interval_cases i <;> norm_num
  refine ⟨?_, ?_, ?_⟩
  · obtain ⟨a, b, e, -⟩ := decompose_components hm x2 (xLoc := [0, 1]) (wLoc := [5, 5])
      ⟨rfl, by simp, g2, .inl (by simp), by norm_num⟩ h2 hh (by norm_num : (0 : ℝ) ≤ 1 / 8) hkap
    exact ⟨_, e⟩
  · obtain ⟨a, b, e, -⟩ := decompose_components hm x2 (xLoc := [0, 1]) (wLoc := [3 / 5, 3 / 5])
      ⟨rfl, by simp, g2, .inl (by simp), by norm_num⟩ h2 hh (by norm_num : (0 : ℝ) ≤ 1 / 8) hkap
    exact ⟨_, e⟩
  · obtain ⟨a, b, e, -⟩ := decompose_components hm x4 (xLoc := [0, 1, 2, 3]) (wLoc := [-1, 1, 1, 1])
      ⟨rfl, by simp, g4, .inr (by intro w hw; simp at hw; rcases hw with rfl | rfl <;> norm_num), by norm_num⟩ h4 hh
      (by norm_num : (0 : ℝ) ≤ 1 / 8) hkap
    exact ⟨_, e⟩

/-! ## C67: infinite depth, negative `detLim` -/

theorem mapM_error_head {α β : Type} {f : α → Except PyErr β} {a : α} {l : List α} {e : PyErr} (h : f a = .error e) :
    (a :: l).mapM f = .error e := by
  rw [List.mapM_cons, h]; rfl

/-- **C67 (refuted).**  With infinite depth the decomposition fails for all signals. -/
theorem decompose_deep_fails {ts : List ℝ} (hm : AcceptedAxis ts) (xTime : Arr ℝ) {xLoc wLoc : List ℝ} (hg : GaugesOk xLoc wLoc)
    (hs : xTime.shape = [ts.length, xLoc.length]) (detLim : ℝ) :
    decomposeZS ts xTime .inf xLoc wLoc detLim = .error (.unboundLocalError "q") := by
  have h2 : 2 ≤ ts.length := mono_two_le hm
  rw [decomposeZS_ok hg hs]
  unfold zsCore
  have hmp := hg.two
  have e1 : ((List.range xLoc.length).map fun i => column xTime ts.length xLoc.length i).mapM (fun c => time2freqNyquist (vec ts) (vec c)) =
      .ok (((List.range xLoc.length).map fun i => column xTime ts.length xLoc.length i).map fun c =>
      (freqAxis (ts.length / 2 + 1) (dfOf ts), (List.range (ts.length / 2 + 1)).map (coef c), decide (ts.length % 2 = 1))) := by
    apply mapM_ok_of
    intro c hcm
    obtain ⟨i, -, rfl⟩ := List.mem_map.1 hcm
    rw [time2freqNyquist_eq (isArr_vec ts) (isArr_vec _) hm (column_length _ _ _ _).symm, column_length]
  simp only [e1, bind, Except.bind]
  generalize hcols : ((List.range xLoc.length).map fun i => column xTime ts.length xLoc.length i) = cols
  have hcne : cols ≠ [] := by
    rw [← hcols]; intro h; have := congrArg List.length h; simp at this; rw [this] at hmp; simp at hmp
  obtain ⟨c0, cs, rfl⟩ := List.exists_cons_of_ne_nil hcne
  simp only [List.map_cons, getE, List.getElem?_cons_zero]
  unfold disper vec
  simp only [toArr]

/-- **C67.**  With a negative `detLim` the singular zero-frequency system is solved: every result is NaN. -/
theorem decompose_negative_detLim {ts : List ℝ} (hm : AcceptedAxis ts) (xTime : Arr ℝ) {xLoc wLoc : List ℝ} (hg : GaugesOk xLoc wLoc)
    (hs : xTime.shape = [ts.length, xLoc.length]) {h detLim : ℝ} (hh : 0 < h) (h0 : detLim < 0) :
    decomposeZS ts xTime (.fin h) xLoc wLoc detLim = .error .nonFinite := by
  have h2 : 2 ≤ ts.length := mono_two_le hm
  rw [decomposeZS_ok hg hs]
  unfold zsCore
  have hmp := hg.two
  have e1 : ((List.range xLoc.length).map fun i => column xTime ts.length xLoc.length i).mapM (fun c => time2freqNyquist (vec ts) (vec c)) =
      .ok (((List.range xLoc.length).map fun i => column xTime ts.length xLoc.length i).map fun c =>
      (freqAxis (ts.length / 2 + 1) (dfOf ts), (List.range (ts.length / 2 + 1)).map (coef c), decide (ts.length % 2 = 1))) := by
    apply mapM_ok_of
    intro c hcm
    obtain ⟨i, -, rfl⟩ := List.mem_map.1 hcm
    rw [time2freqNyquist_eq (isArr_vec ts) (isArr_vec _) hm (column_length _ _ _ _).symm, column_length]
  simp only [e1, bind, Except.bind]
  generalize hcols : ((List.range xLoc.length).map fun i => column xTime ts.length xLoc.length i) = cols
  have hcne : cols ≠ [] := by
    rw [← hcols]; intro h; have := congrArg List.length h; simp at this; rw [this] at hmp; simp at hmp
  obtain ⟨c0, cs, rfl⟩ := List.exists_cons_of_ne_nil hcne
  simp only [List.map_cons, getE, List.getElem?_cons_zero]
  have e2 : disper (vec ((freqAxis (ts.length / 2 + 1) (dfOf ts)).map fun v => 2 * Real.pi * v)) (.fin h) (981 / 100) =
      .ok ((List.range (ts.length / 2 + 1)).map (binWaveNumber ts h)) := by
    unfold disper vec
    simp only [toArr]
    unfold disperFinite
    rw [if_neg (by linarith), if_neg (by norm_num), if_neg (by linarith)]
    unfold freqAxis binWaveNumber
    rw [List.map_map, List.map_map]
    rfl
  rw [e2]
  dsimp only
  have hfl : (freqAxis (ts.length / 2 + 1) (dfOf ts)).length = ts.length / 2 + 1 := by simp [freqAxis]
  rw [hfl]
  have hk0 : ((List.range (ts.length / 2 + 1)).map (binWaveNumber ts h)).getD 0 0 = 0 := by
    rw [getD_map_range _ _ _ _ (by omega)]
    unfold binWaveNumber
    have := disper_zero hh (by norm_num : (0 : ℝ) < 981 / 100)
    rw [disper_ok _ hh (by norm_num)] at this
    simpa using this
  have hz : ∀ X, zsSolve wLoc (xLoc.map fun x => x - xLoc.getD 0 0) X 0 detLim = .error .nonFinite := by
    intro X
    have hdet := det_eq (dist_sub hg.len) (w := wLoc) (x := xLoc) 0
    have hzd : zsDet wLoc xLoc 0 = 0 := by unfold zsDet; simp
    rw [hzd] at hdet
    unfold zsSolve
    dsimp only
    rw [hdet]
    simp only [mul_zero, ofReal_zero, norm_zero]
    rw [if_pos h0, if_pos trivial]
  have hmap : (List.range (ts.length / 2 + 1)).mapM (fun i => zsSolve wLoc (xLoc.map fun x => x - xLoc.getD 0 0)
      (((List.range (ts.length / 2 + 1)).map (coef c0)).getD i 0 ::
        List.map (fun s : List ℝ × List ℂ × Bool => s.2.1.getD i 0) (cs.map fun c =>
          (freqAxis (ts.length / 2 + 1) (dfOf ts), (List.range (ts.length / 2 + 1)).map (coef c), decide (ts.length % 2 = 1))))
      (((List.range (ts.length / 2 + 1)).map (binWaveNumber ts h)).getD i 0) detLim) = .error .nonFinite := by
    rw [List.range_succ_eq_map (n := ts.length / 2)]
    apply mapM_error_head
    rw [← List.range_succ_eq_map (n := ts.length / 2), hk0]
    exact hz _
  rw [hmap]

/-! ## C66: exact wave numbers -/

theorem norm_exp_I_mul (a b : ℝ) : ‖exp (I * (a : ℂ) * (b : ℂ))‖ = 1 := by
  rw [show I * (a : ℂ) * (b : ℂ) = ((a * b : ℝ) : ℂ) * I by push_cast; ring, Complex.norm_exp_ofReal_mul_I]

theorem norm_exp_negI_mul (a b : ℝ) : ‖exp (-I * (a : ℂ) * (b : ℂ))‖ = 1 := by
  rw [show -I * (a : ℂ) * (b : ℂ) = ((-(a * b) : ℝ) : ℂ) * I by push_cast; ring, Complex.norm_exp_ofReal_mul_I]

/-- How far the solution of one frequency is from any pair of amplitudes, in terms of the misfit of that pair. -/
theorem zsSolve_stable {w d x : List ℝ} (hd : ∀ i < w.length, ∀ j < w.length, d.getD i 0 - d.getD j 0 = x.getD i 0 - x.getD j 0)
    (hw : ∀ i < w.length, 0 ≤ w.getD i 0) (X : List ℂ) (k : ℝ) {detLim : ℝ} (h0 : 0 < detLim) (hlt : detLim < |zsDet w x k|) (A0 B0 : ℂ) :
    ∃ A B : ℂ, zsSolve w d X k detLim = .ok (A, B) ∧
      ‖A - A0‖ ≤ w.sum / (2 * detLim) * (∑ i ∈ range w.length, w.getD i 0 * ‖X.getD i 0 - A0 * exp (-I * (k : ℂ) * ((d.getD i 0 : ℝ) : ℂ)) -
        B0 * exp (I * (k : ℂ) * ((d.getD i 0 : ℝ) : ℂ))‖) ∧
      ‖B - B0‖ ≤ w.sum / (2 * detLim) * (∑ i ∈ range w.length, w.getD i 0 * ‖X.getD i 0 - A0 * exp (-I * (k : ℂ) * ((d.getD i 0 : ℝ) : ℂ)) -
        B0 * exp (I * (k : ℂ) * ((d.getD i 0 : ℝ) : ℂ))‖) := by
  obtain ⟨A, B, h1, -, h3⟩ := zsSolve_spec hd X k h0.le
  obtain ⟨e1, e2, -⟩ := h3 hlt
  refine ⟨A, B, h1, ?_⟩
  have hdet := det_eq hd k
  set E : ℕ → ℂ := fun i => exp (-I * (k : ℂ) * ((d.getD i 0 : ℝ) : ℂ)) with hE
  set F : ℕ → ℂ := fun i => exp (I * (k : ℂ) * ((d.getD i 0 : ℝ) : ℂ)) with hF
  have nE : ∀ i, ‖E i‖ = 1 := fun i => norm_exp_negI_mul _ _
  have nF : ∀ i, ‖F i‖ = 1 := fun i => norm_exp_I_mul _ _
  have hEF : ∀ i, E i * F i = 1 := by
    intro i; simp only [hE, hF]
    rw [← Complex.exp_add, show -I * (k : ℂ) * ((d.getD i 0 : ℝ) : ℂ) + I * (k : ℂ) * ((d.getD i 0 : ℝ) : ℂ) = 0 by ring, Complex.exp_zero]
  set r : ℕ → ℂ := fun i => X.getD i 0 - A0 * E i - B0 * F i with hr
  set a11 : ℂ := ∑ i ∈ range w.length, ((w.getD i 0 : ℝ) : ℂ) * exp (-I * 2 * (k : ℂ) * ((d.getD i 0 : ℝ) : ℂ)) with ha11
  set a22 : ℂ := ∑ i ∈ range w.length, ((w.getD i 0 : ℝ) : ℂ) * exp (I * 2 * (k : ℂ) * ((d.getD i 0 : ℝ) : ℂ)) with ha22
  set W : ℂ := ((w.sum : ℝ) : ℂ) with hW
  have s11 : a11 = ∑ i ∈ range w.length, ((w.getD i 0 : ℝ) : ℂ) * (E i * E i) := by
    refine sum_congr rfl fun i _ => ?_
    simp only [hE]; rw [← Complex.exp_add]; congr 2; ring
  have s22 : a22 = ∑ i ∈ range w.length, ((w.getD i 0 : ℝ) : ℂ) * (F i * F i) := by
    refine sum_congr rfl fun i _ => ?_
    simp only [hF]; rw [← Complex.exp_add]; congr 2; ring
  have sW : W = ∑ i ∈ range w.length, ((w.getD i 0 : ℝ) : ℂ) * (E i * F i) := by
    rw [hW, list_sum_eq_range]; push_cast
    exact sum_congr rfl fun i _ => by rw [hEF, mul_one]
  set R : ℝ := ∑ i ∈ range w.length, w.getD i 0 * ‖r i‖ with hR
  set b1 : ℂ := ∑ i ∈ range w.length, ((w.getD i 0 : ℝ) : ℂ) * r i * E i with hb1
  set b2 : ℂ := ∑ i ∈ range w.length, ((w.getD i 0 : ℝ) : ℂ) * r i * F i with hb2
  have q1 : b1 = (A - A0) * a11 + (B - B0) * W := by
    have : b1 - ((A - A0) * a11 + (B - B0) * W) = 0 := by
      rw [← e1, hb1, s11, sW, mul_sum, mul_sum, ← sum_add_distrib, ← sum_sub_distrib]
      exact sum_congr rfl fun i _ => by simp only [hr]; ring
    exact sub_eq_zero.1 this
  have q2 : b2 = (A - A0) * W + (B - B0) * a22 := by
    have : b2 - ((A - A0) * W + (B - B0) * a22) = 0 := by
      rw [← e2, hb2, s22, sW, mul_sum, mul_sum, ← sum_add_distrib, ← sum_sub_distrib]
      exact sum_congr rfl fun i _ => by simp only [hr]; ring
    exact sub_eq_zero.1 this
  have nw : ∀ i ∈ range w.length, ‖((w.getD i 0 : ℝ) : ℂ)‖ = w.getD i 0 := fun i hi => by
    rw [Complex.norm_real, Real.norm_eq_abs, abs_of_nonneg (hw i (mem_range.1 hi))]
  have hWn : 0 ≤ w.sum := by rw [list_sum_eq_range]; exact sum_nonneg fun i hi => hw i (mem_range.1 hi)
  have nW : ‖W‖ = w.sum := by rw [hW, Complex.norm_real, Real.norm_eq_abs, abs_of_nonneg hWn]
  have n11 : ‖a11‖ ≤ w.sum := by
    rw [s11, list_sum_eq_range]
    exact norm_sum_le_of_le _ fun i hi => by rw [norm_mul, norm_mul, nE, nw i hi]; simp
  have n22 : ‖a22‖ ≤ w.sum := by
    rw [s22, list_sum_eq_range]
    exact norm_sum_le_of_le _ fun i hi => by rw [norm_mul, norm_mul, nF, nw i hi]; simp
  have nb1 : ‖b1‖ ≤ R := norm_sum_le_of_le _ fun i hi => by rw [norm_mul, norm_mul, nE, nw i hi, mul_one]
  have nb2 : ‖b2‖ ≤ R := norm_sum_le_of_le _ fun i hi => by rw [norm_mul, norm_mul, nF, nw i hi, mul_one]
  have hR0 : 0 ≤ R := sum_nonneg fun i hi => mul_nonneg (hw i (mem_range.1 hi)) (norm_nonneg _)
  have hD : 4 * detLim ≤ ‖((-4 * zsDet w x k : ℝ) : ℂ)‖ := by
    rw [Complex.norm_real, Real.norm_eq_abs, abs_mul, show |(-4 : ℝ)| = 4 by norm_num]; linarith
  have fin : ∀ z : ℂ, ‖z * ((-4 * zsDet w x k : ℝ) : ℂ)‖ ≤ 2 * w.sum * R → ‖z‖ ≤ w.sum / (2 * detLim) * R := by
    intro z hz
    rw [norm_mul] at hz
    have h5 : ‖z‖ * (4 * detLim) ≤ 2 * w.sum * R := le_trans (mul_le_mul_of_nonneg_left hD (norm_nonneg z)) hz
    rw [div_mul_eq_mul_div, le_div_iff₀ (by positivity)]
    linarith
  constructor
  · apply fin
    rw [← hdet, show (A - A0) * (a11 * a22 - W * W) = a22 * b1 - W * b2 by rw [q1, q2]; ring]
    refine (norm_sub_le _ _).trans ?_
    rw [norm_mul, norm_mul, nW]
    have := mul_le_mul n22 nb1 (norm_nonneg _) hWn
    have := mul_le_mul_of_nonneg_left nb2 hWn
    linarith
  · apply fin
    rw [← hdet, show (B - B0) * (a11 * a22 - W * W) = a11 * b2 - W * b1 by rw [q1, q2]; ring]
    refine (norm_sub_le _ _).trans ?_
    rw [norm_mul, norm_mul, nW]
    have := mul_le_mul n11 nb2 (norm_nonneg _) hWn
    have := mul_le_mul_of_nonneg_left nb1 hWn
    linarith

theorem norm_exp_sub_exp (a b d : ℝ) : ‖exp (I * (a : ℂ) * (d : ℂ)) - exp (I * (b : ℂ) * (d : ℂ))‖ ≤ |a - b| * |d| := by
  have e : exp (I * (a : ℂ) * (d : ℂ)) - exp (I * (b : ℂ) * (d : ℂ)) = exp (I * (b : ℂ) * (d : ℂ)) * (exp (I * (((a - b) * d : ℝ) : ℂ)) - 1) := by
    rw [mul_sub, ← Complex.exp_add, mul_one]
    congr 2
    push_cast; ring
  rw [e, norm_mul, norm_exp_I_mul, one_mul, ← abs_mul, ← Real.norm_eq_abs]
  exact Real.norm_exp_I_mul_ofReal_sub_one_le

theorem norm_exp_neg_sub (a b d : ℝ) : ‖exp (-I * (a : ℂ) * (d : ℂ)) - exp (-I * (b : ℂ) * (d : ℂ))‖ ≤ |a - b| * |d| := by
  have := norm_exp_sub_exp (-a) (-b) d
  rw [show I * ((-a : ℝ) : ℂ) * (d : ℂ) = -I * (a : ℂ) * (d : ℂ) by push_cast; ring,
    show I * ((-b : ℝ) : ℂ) * (d : ℂ) = -I * (b : ℂ) * (d : ℂ) by push_cast; ring, show -a - -b = -(a - b) by ring, abs_neg] at this
  exact this

/-- **C66.**  Physical wave fields.  If the fields at the gauges travel with the exact wave numbers of the dispersion relation, every
component that is resolved (scaled determinant above `detLim`) is recovered up to a relative error of `1e-13` times
`W / (2 detLim) * Σ w k (x - x_1)`. -/
theorem decompose_physical {ts : List ℝ} (hm : AcceptedAxis ts) {xTime : Arr ℝ} {xLoc wLoc : List ℝ} (hg : GaugesOk xLoc wLoc)
    (hw : ∀ w ∈ wLoc, 0 ≤ w) (hs : xTime.shape = [ts.length, xLoc.length]) {h detLim : ℝ} (hh : 0 < h) (h0 : 0 < detLim)
    {kap kex : ℕ → ℝ} (hkap : BinWaveNumbers ts h kap) {M : ℕ} (hM : 2 * M < ts.length)
    (hex : ∀ p, 1 ≤ p → p ≤ M → 0 < kex p ∧
      SolvesDispersion (2 * Real.pi * p / (ts.length * (ts.getD 1 0 - ts.getD 0 0))) h (981 / 100) (kex p) ∧
      1 / 10 ^ 8 ≤ (2 * Real.pi * p / (ts.length * (ts.getD 1 0 - ts.getD 0 0))) ^ 2 * h / (981 / 100))
    (ampI phI ampR phR : ℕ → ℝ)
    (hsig : ∀ j < ts.length, ∀ i < xLoc.length, xTime.data.getD (j * xLoc.length + i) 0 =
      waveField ts.length M ampI phI kex (xLoc.getD i 0 - xLoc.getD 0 0) j +
      waveField ts.length M ampR phR (fun p => - kex p) (xLoc.getD i 0 - xLoc.getD 0 0) j) :
    ∃ xIn xRe, decomposeZS ts xTime (.fin h) xLoc wLoc detLim = .ok (xIn, xRe) ∧
      ∀ p, 1 ≤ p → p ≤ M → detLim < |zsDet wLoc xLoc (kap p)| →
        ‖coef xIn p - coef ((List.range ts.length).map (waveField ts.length M ampI phI kex 0)) p‖ ≤
          1 / 10 ^ 13 * (wLoc.sum / (2 * detLim) * (ts.length / 2 * (|ampI p| + |ampR p|)) *
            ∑ i ∈ range wLoc.length, wLoc.getD i 0 * (kex p * |xLoc.getD i 0 - xLoc.getD 0 0|)) ∧
        ‖coef xRe p - coef ((List.range ts.length).map (waveField ts.length M ampR phR (fun p => - kex p) 0)) p‖ ≤
          1 / 10 ^ 13 * (wLoc.sum / (2 * detLim) * (ts.length / 2 * (|ampI p| + |ampR p|)) *
            ∑ i ∈ range wLoc.length, wLoc.getD i 0 * (kex p * |xLoc.getD i 0 - xLoc.getD 0 0|)) := by
  have h2 : 2 ≤ ts.length := mono_two_le hm
  have hdt := mono_dt_pos hm
  rw [decomposeZS_ok hg hs]
  set n := ts.length with hn
  set m := xLoc.length with hmm
  have hmpos : 2 ≤ m := hg.two
  have hwi : ∀ i < wLoc.length, 0 ≤ wLoc.getD i 0 := by
    intro i hi
    apply hw
    rw [List.getD_eq_getElem _ _ hi]
    exact List.getElem_mem hi
  have hexi : ∀ k, ∃ Z : ℂ × ℂ, zsSolve wLoc (xLoc.map fun x => x - xLoc.getD 0 0)
      (((List.range m).map fun i => column xTime n m i).map fun c => coef c k) (kap k) detLim = .ok Z := by
    intro k
    obtain ⟨A, B, hz, -⟩ := zsSolve_spec (x := xLoc) (dist_sub hg.len) (((List.range m).map fun i => column xTime n m i).map fun c => coef c k) (kap k) h0.le
    exact ⟨(A, B), hz⟩
  choose Z hZ using hexi
  have hcore := zsCore_eq hm (cols := (List.range m).map fun i => column xTime n m i) (by
      intro h; have := congrArg List.length h; simp at this; omega)
    (by intro c hc; obtain ⟨i, -, rfl⟩ := List.mem_map.1 hc; exact column_length _ _ _ _) hh xLoc wLoc detLim
    (fun k => (Z k).1) (fun k => (Z k).2) (by
      intro k _
      rw [BinWaveNumbers.eq hh hkap]
      exact hZ k)
  refine ⟨_, _, hcore, fun p hp1 hpM hgood => ?_⟩
  rw [coef_symExt h2 _ (by omega), coef_symExt h2 _ (by omega), if_neg (by omega), if_neg (by omega)]
  have g1 := coef_waveField hM ampI phI kex 0 (k := p) (by omega)
  have g2 := coef_waveField hM ampR phR (fun p => - kex p) 0 (k := p) (by omega)
  rw [show ((List.range n).map (waveField n M ampI phI kex 0)) = (List.range n).map fun j => waveField n M ampI phI kex 0 j from rfl, g1,
    show ((List.range n).map (waveField n M ampR phR (fun p => - kex p) 0)) = (List.range n).map fun j => waveField n M ampR phR (fun p => - kex p) 0 j from rfl, g2]
  obtain ⟨A, B, hz, hA, hB⟩ := zsSolve_stable (x := xLoc) (dist_sub hg.len) hwi
    (((List.range m).map fun i => column xTime n m i).map fun c => coef c p) (kap p) h0 hgood
    (fieldSpec n M ampI phI kex 0 p / 2) (fieldSpec n M ampR phR (fun p => - kex p) 0 p / 2)
  rw [hZ p] at hz
  simp only [Except.ok.injEq] at hz
  rw [hz]
  -- the wave number of the code
  obtain ⟨hk0, hsol, hbig⟩ := hex p hp1 hpM
  have hw0 : 0 < 2 * Real.pi * p / (n * (ts.getD 1 0 - ts.getD 0 0)) := by
    have : (0 : ℝ) < p := by exact_mod_cast hp1
    have : (0 : ℝ) < n := by have : 0 < n := by omega
                             exact_mod_cast this
    have := Real.pi_pos
    positivity
  have hacc : |kap p - kex p| ≤ 1 / 10 ^ 13 * kex p := by
    obtain ⟨k', e1, e2, e3⟩ := disper_accurate hh (by norm_num : (0 : ℝ) < 981 / 100) hw0.ne' hbig hk0 hsol
    have e4 := hkap p
    rw [e1, sign_pos hw0] at e4
    simp only [SignType.coe_one, one_mul, Except.ok.injEq, List.cons.injEq, and_true] at e4
    rw [← e4]; exact e3
  -- the misfit
  have nI : ‖fieldSpec n M ampI phI kex 0 p / 2‖ = n / 2 * |ampI p| := by
    unfold fieldSpec
    rw [if_pos ⟨hp1, hpM⟩, norm_div, norm_mul, norm_mul, Complex.norm_exp_I_mul_ofReal, mul_one, Complex.norm_real, Complex.norm_natCast,
      Real.norm_eq_abs, Complex.norm_ofNat]
    ring
  have nR : ‖fieldSpec n M ampR phR (fun p => - kex p) 0 p / 2‖ = n / 2 * |ampR p| := by
    unfold fieldSpec
    rw [if_pos ⟨hp1, hpM⟩, norm_div, norm_mul, norm_mul, Complex.norm_exp_I_mul_ofReal, mul_one, Complex.norm_real, Complex.norm_natCast,
      Real.norm_eq_abs, Complex.norm_ofNat]
    ring
  have hmis : ∑ i ∈ range wLoc.length, wLoc.getD i 0 * ‖(((List.range m).map fun i => column xTime n m i).map fun c => coef c p).getD i 0 -
      fieldSpec n M ampI phI kex 0 p / 2 * exp (-I * (kap p : ℂ) * (((xLoc.map fun x => x - xLoc.getD 0 0).getD i 0 : ℝ) : ℂ)) -
      fieldSpec n M ampR phR (fun p => - kex p) 0 p / 2 * exp (I * (kap p : ℂ) * (((xLoc.map fun x => x - xLoc.getD 0 0).getD i 0 : ℝ) : ℂ))‖ ≤
      1 / 10 ^ 13 * ((n / 2 * (|ampI p| + |ampR p|)) * ∑ i ∈ range wLoc.length, wLoc.getD i 0 * (kex p * |xLoc.getD i 0 - xLoc.getD 0 0|)) := by
    rw [mul_sum, mul_sum]
    refine sum_le_sum fun i hi => ?_
    have hi0 := mem_range.1 hi
    have hi' : i < m := by have := hg.len; omega
    rw [cols_getD xTime n m p hi', dist_getD xLoc hi', coef_gauge hM ampI phI ampR phR kex xLoc hsig (by omega) hi']
    generalize fieldSpec n M ampI phI kex 0 p / 2 = P at nI ⊢
    generalize fieldSpec n M ampR phR (fun p => - kex p) 0 p / 2 = Q at nR ⊢
    generalize xLoc.getD i 0 - xLoc.getD 0 0 = d
    have e5 : P * exp (-I * (kex p : ℂ) * (d : ℂ)) + Q * exp (I * (kex p : ℂ) * (d : ℂ)) - P * exp (-I * (kap p : ℂ) * (d : ℂ)) -
        Q * exp (I * (kap p : ℂ) * (d : ℂ)) = P * (exp (-I * (kex p : ℂ) * (d : ℂ)) - exp (-I * (kap p : ℂ) * (d : ℂ))) +
        Q * (exp (I * (kex p : ℂ) * (d : ℂ)) - exp (I * (kap p : ℂ) * (d : ℂ))) := by ring
    have hacc' : |kex p - kap p| ≤ 1 / 10 ^ 13 * kex p := by rw [abs_sub_comm]; exact hacc
    have e6 : |kex p - kap p| * |d| ≤ 1 / 10 ^ 13 * kex p * |d| := mul_le_mul_of_nonneg_right hacc' (abs_nonneg d)
    have e7 : ‖P * (exp (-I * (kex p : ℂ) * (d : ℂ)) - exp (-I * (kap p : ℂ) * (d : ℂ)))‖ ≤ n / 2 * |ampI p| * (1 / 10 ^ 13 * kex p * |d|) := by
      rw [norm_mul, nI]
      exact mul_le_mul_of_nonneg_left ((norm_exp_neg_sub _ _ _).trans e6) (by positivity)
    have e8 : ‖Q * (exp (I * (kex p : ℂ) * (d : ℂ)) - exp (I * (kap p : ℂ) * (d : ℂ)))‖ ≤ n / 2 * |ampR p| * (1 / 10 ^ 13 * kex p * |d|) := by
      rw [norm_mul, nR]
      exact mul_le_mul_of_nonneg_left ((norm_exp_sub_exp _ _ _).trans e6) (by positivity)
    have e9 := mul_le_mul_of_nonneg_left ((norm_add_le _ _).trans (add_le_add e7 e8)) (hwi i hi0)
    rw [e5]
    refine e9.trans (le_of_eq ?_)
    ring
  have hWn : 0 ≤ wLoc.sum / (2 * detLim) := by
    have := hg.total
    exact div_nonneg (by linarith) (by positivity)
  have hfin := mul_le_mul_of_nonneg_left hmis hWn
  constructor
  · refine hA.trans (hfin.trans (le_of_eq ?_)); ring
  · refine hB.trans (hfin.trans (le_of_eq ?_)); ring

/-! ## Two gauges -/

/-- **C69.**  For two gauges the scaled determinant is `w w' sin²(k (x' - x))` ... -/
theorem zsDet_two (w0 w1 x0 x1 k : ℝ) : zsDet [w0, w1] [x0, x1] k = w0 * w1 * Real.sin (k * (x1 - x0)) ^ 2 := by
  unfold zsDet
  simp only [List.length_cons, List.length_nil, sum_range_succ, sum_range_zero, List.getD_cons_zero, List.getD_cons_succ, sub_self, mul_zero,
    Real.sin_zero]
  have : Real.sin (k * (x0 - x1)) = - Real.sin (k * (x1 - x0)) := by rw [← Real.sin_neg]; congr 1; ring
  rw [this]
  ring

/-- **C69.**  ... so a component whose half wave length divides the distance of the two gauges is always discarded. -/
theorem decompose_singular_spacing {ts : List ℝ} (hm : AcceptedAxis ts) (xTime : Arr ℝ) {x0 x1 w0 w1 : ℝ} (hg : GaugesOk [x0, x1] [w0, w1])
    (hs : xTime.shape = [ts.length, 2]) {h detLim : ℝ} (hh : 0 < h) (h0 : 0 ≤ detLim) {kap : ℕ → ℝ}
    (hkap : BinWaveNumbers ts h kap) :
    ∃ xIn xRe, decomposeZS ts xTime (.fin h) [x0, x1] [w0, w1] detLim = .ok (xIn, xRe) ∧
      ∀ k, 0 < k → 2 * k < ts.length → (∃ l : ℤ, kap k * (x1 - x0) = l * Real.pi) → coef xIn k = 0 ∧ coef xRe k = 0 := by
  obtain ⟨xIn, xRe, h1, -, -, -, -, h2⟩ := decompose_components hm xTime hg hs hh h0 hkap
  refine ⟨xIn, xRe, h1, fun k hk0 hk => ?_⟩
  rintro ⟨l, hl⟩
  apply (h2 k hk0 hk).1
  rw [zsDet_two, hl, Real.sin_int_mul_pi]
  simpa using h0

/-! ## C68: the wrapper for `Series` objects -/

/-- The elements of an `n` x `m` matrix in C order. -/
def matrixData (n m : ℕ) (g : ℕ → ℕ → ℝ) : List ℝ := (List.range (n * m)).map fun p => g (p / m) (p % m)

theorem matrixData_getD {n m : ℕ} (g : ℕ → ℕ → ℝ) {j i : ℕ} (hj : j < n) (hi : i < m) : (matrixData n m g).getD (j * m + i) 0 = g j i := by
  unfold matrixData
  have hlt : j * m + i < n * m := by
    calc j * m + i < j * m + m := by omega
      _ = (j + 1) * m := by ring
      _ ≤ n * m := Nat.mul_le_mul_right m hj
  rw [getD_map_range _ _ _ _ hlt, Nat.mul_comm, Nat.mul_add_div (by omega), Nat.div_eq_of_lt hi, Nat.mul_add_mod, Nat.mod_eq_of_lt hi, Nat.add_zero]

theorem column_matrixData {n m : ℕ} (g : ℕ → ℕ → ℝ) (sh : List ℕ) {i : ℕ} (hi : i < m) :
    column ⟨sh, matrixData n m g⟩ n m i = (List.range n).map fun j => g j i := by
  unfold column
  exact List.map_congr_left fun j hj => matrixData_getD g (List.mem_range.1 hj) hi

theorem fillColumns_eq {n m : ℕ} (sh : List ℕ) (xs : List (List ℝ)) (hx : ∀ x ∈ xs, x.length = n) (i : ℕ) (hi : i + xs.length ≤ m)
    (g : ℕ → ℕ → ℝ) : fillColumns n m xs i ⟨sh, matrixData n m g⟩ =
      .ok ⟨sh, matrixData n m fun j c => if i ≤ c ∧ c < i + xs.length then (xs.getD (c - i) []).getD j 0 else g j c⟩ := by
  induction xs generalizing i g with
  | nil =>
    unfold fillColumns
    simp only [List.length_nil, Nat.add_zero]
    congr 3
    funext j c
    rw [if_neg (by omega)]
  | cons x xs ih =>
    simp only [List.length_cons] at hi
    unfold fillColumns
    rw [if_neg (by omega), if_neg (by simp [hx x (by simp)])]
    have e : (List.range (n * m)).map (fun p => if p % m = i then x.getD (p / m) 0 else (matrixData n m g).getD p 0) =
        matrixData n m fun j c => if c = i then x.getD j 0 else g j c := by
      unfold matrixData
      refine List.map_congr_left fun p hp => ?_
      rw [getD_map_range _ _ _ _ (List.mem_range.1 hp)]
    dsimp only
    simp only [hx x (by simp), if_true]
    rw [e, ih (fun y hy => hx y (by simp [hy])) (i + 1) (by omega)]
    congr 3
    funext j c
    simp only [List.length_cons]
    by_cases h1 : c = i
    · subst h1
      rw [if_neg (by omega), if_pos rfl, if_pos (by omega), Nat.sub_self]
      rfl
    · by_cases h2 : i + 1 ≤ c ∧ c < i + 1 + xs.length
      · rw [if_pos h2, if_pos (by omega)]
        obtain ⟨q, hq⟩ : ∃ q, c - i = q + 1 := ⟨c - i - 1, by omega⟩
        rw [hq, show c - (i + 1) = q by omega]
        rfl
      · rw [if_neg h2, if_neg h1, if_neg (by omega)]

theorem fillColumns_too_many {n m : ℕ} (xs : List (List ℝ)) (hx : ∀ x ∈ xs, x.length = n) (i : ℕ) (hi : m < i + xs.length) (him : i ≤ m)
    (a : Arr ℝ) : fillColumns n m xs i a = .error .indexError := by
  induction xs generalizing i a with
  | nil => simp at hi; omega
  | cons x xs ih =>
    unfold fillColumns
    by_cases h : m ≤ i
    · rw [if_pos h]
    · rw [if_neg h, if_neg (by simp [hx x (by simp)])]
      apply ih (fun y hy => hx y (by simp [hy]))
      · simp only [List.length_cons] at hi; omega
      · omega

theorem zeros_matrix (n m : ℕ) : List.replicate (n * m) (0 : ℝ) = matrixData n m fun _ _ => 0 := by
  unfold matrixData
  rw [List.map_const', List.length_range]

theorem sigs_ok {ss : List (SeriesObj ℝ)} {xs : List (List ℝ)} (hxs : List.Forall₂ (fun s x => s.xTime = arr1 x) ss xs) :
    ss.mapM SeriesObj.sig = .ok xs := by
  rw [mapM_ok]
  refine hxs.imp fun s x h => ?_
  unfold SeriesObj.sig
  rw [h]
  rfl

/-- **C68.**  With one series per location, of the length of the first, the wrapper is the decomposition of the matrix whose columns are
the signals; it succeeds for all signals and returns two series on the time axis of the first series. -/
theorem decompose_series {ss : List (SeriesObj ℝ)} {s0 : SeriesObj ℝ} {rest : List (SeriesObj ℝ)} (hss : ss = s0 :: rest) {ts : List ℝ} {dt : ℝ}
    (ht : s0.time = arr1 ts) (h2 : 2 ≤ ts.length) (hu : UniformAxis ts dt) {xs : List (List ℝ)}
    (hxs : List.Forall₂ (fun s x => s.xTime = arr1 x) ss xs) (hl : ∀ x ∈ xs, x.length = ts.length) {xLoc wLoc : List ℝ}
    (hn : ss.length = xLoc.length) (hg : GaugesOk xLoc wLoc) {h detLim : ℝ} (hh : 0 < h) (h0 : 0 ≤ detLim) :
    ∃ xIn xRe sIn sRe,
      decomposeZS ts ⟨[ts.length, xLoc.length], matrixData ts.length xLoc.length fun j i => (xs.getD i []).getD j 0⟩ (.fin h) xLoc wLoc detLim =
        .ok (xIn, xRe) ∧
      decomposeZSSeries ss (.fin h) xLoc wLoc detLim = .ok (sIn, sRe) ∧
      sIn.time = arr1 ts ∧ sIn.xTime = arr1 xIn ∧ sRe.time = arr1 ts ∧ sRe.xTime = arr1 xRe := by
  have hm : AcceptedAxis ts := uniform_check_accepts_uniform h2 hu
  obtain ⟨kap, hkap⟩ := binWaveNumbers_exist ts hh
  obtain ⟨xIn, xRe, hd, hl1, hl2, -⟩ := decompose_components hm
    ⟨[ts.length, xLoc.length], matrixData ts.length xLoc.length fun j i => (xs.getD i []).getD j 0⟩ hg rfl hh h0 hkap
  obtain ⟨sIn, _, _, _, hi1, hi2, hi3, -⟩ := series_never_fails (isVec_vec ts) (isVec_vec xIn) h2 hl1.symm hu
  obtain ⟨sRe, _, _, _, hr1, hr2, hr3, -⟩ := series_never_fails (isVec_vec ts) (isVec_vec xRe) h2 hl2.symm hu
  refine ⟨xIn, xRe, sIn, sRe, hd, ?_, hi2, hi3, hr2, hr3⟩
  have hlen : xs.length = ss.length := hxs.length_eq.symm
  have hfill := fillColumns_eq [ts.length, xLoc.length] xs hl 0 (m := xLoc.length) (by omega) (fun _ _ => 0)
  have hmat : matrixData ts.length xLoc.length (fun j c => if 0 ≤ c ∧ c < 0 + xs.length then (xs.getD (c - 0) []).getD j 0 else 0) =
      matrixData ts.length xLoc.length fun j i => (xs.getD i []).getD j 0 := by
    unfold matrixData
    refine List.map_congr_left fun p hp => ?_
    have hp' := List.mem_range.1 hp
    have : p % xLoc.length < xLoc.length := Nat.mod_lt _ (by have := hg.two; omega)
    dsimp only
    rw [if_pos (by omega), Nat.sub_zero]
  rw [hmat] at hfill
  have hsig := sigs_ok hxs
  subst hss
  unfold decomposeZSSeries
  dsimp only
  rw [ht]
  simp only [arr1, hsig, zeros_matrix, hfill, hd, hi1, hr1, bind, Except.bind]
  rfl

/-- **C68.**  When the threshold is left out, both the function and the wrapper for series use 1/8 (the documented default 0.125). -/
theorem decompose_series_default {ss : List (SeriesObj ℝ)} {s0 : SeriesObj ℝ} {rest : List (SeriesObj ℝ)} (hss : ss = s0 :: rest) {ts : List ℝ} {dt : ℝ}
    (ht : s0.time = arr1 ts) (h2 : 2 ≤ ts.length) (hu : UniformAxis ts dt) {xs : List (List ℝ)}
    (hxs : List.Forall₂ (fun s x => s.xTime = arr1 x) ss xs) (hl : ∀ x ∈ xs, x.length = ts.length) {xLoc wLoc : List ℝ}
    (hn : ss.length = xLoc.length) (hg : GaugesOk xLoc wLoc) {h : ℝ} (hh : 0 < h) :
    ∃ xIn xRe sIn sRe,
      decomposeZS ts ⟨[ts.length, xLoc.length], matrixData ts.length xLoc.length fun j i => (xs.getD i []).getD j 0⟩ (.fin h) xLoc wLoc (1 / 8) =
        .ok (xIn, xRe) ∧
      decomposeZS ts ⟨[ts.length, xLoc.length], matrixData ts.length xLoc.length fun j i => (xs.getD i []).getD j 0⟩ (.fin h) xLoc wLoc =
        .ok (xIn, xRe) ∧
      decomposeZSSeries ss (.fin h) xLoc wLoc = .ok (sIn, sRe) ∧
      sIn.time = arr1 ts ∧ sIn.xTime = arr1 xIn ∧ sRe.time = arr1 ts ∧ sRe.xTime = arr1 xRe := by
  obtain ⟨xIn, xRe, sIn, sRe, a, b, c⟩ := decompose_series hss ht h2 hu hxs hl hn hg hh (by norm_num : (0 : ℝ) ≤ 1 / 8)
  exact ⟨xIn, xRe, sIn, sRe, a, a, b, c⟩

/-- **C68 (refuted): missing series.**  With fewer series than locations no error is raised: the missing gauges are taken to have
recorded a flat surface. -/
theorem decompose_series_missing {ss : List (SeriesObj ℝ)} {s0 : SeriesObj ℝ} {rest : List (SeriesObj ℝ)} (hss : ss = s0 :: rest) {ts : List ℝ}
    {dt : ℝ} (ht : s0.time = arr1 ts) (h2 : 2 ≤ ts.length) (hu : UniformAxis ts dt) {xs : List (List ℝ)}
    (hxs : List.Forall₂ (fun s x => s.xTime = arr1 x) ss xs) (hl : ∀ x ∈ xs, x.length = ts.length) {xLoc wLoc : List ℝ}
    (hn : ss.length < xLoc.length) (hg : GaugesOk xLoc wLoc) {h detLim : ℝ} (hh : 0 < h) (h0 : 0 ≤ detLim) :
    ∃ xIn xRe sIn sRe,
      decomposeZS ts ⟨[ts.length, xLoc.length], matrixData ts.length xLoc.length fun j i => if i < xs.length then (xs.getD i []).getD j 0 else 0⟩
        (.fin h) xLoc wLoc detLim = .ok (xIn, xRe) ∧
      decomposeZSSeries ss (.fin h) xLoc wLoc detLim = .ok (sIn, sRe) ∧ sIn.xTime = arr1 xIn ∧ sRe.xTime = arr1 xRe := by
  have hm : AcceptedAxis ts := uniform_check_accepts_uniform h2 hu
  obtain ⟨kap, hkap⟩ := binWaveNumbers_exist ts hh
  obtain ⟨xIn, xRe, hd, hl1, hl2, -⟩ := decompose_components hm
    ⟨[ts.length, xLoc.length], matrixData ts.length xLoc.length fun j i => if i < xs.length then (xs.getD i []).getD j 0 else 0⟩ hg rfl hh h0 hkap
  obtain ⟨sIn, _, _, _, hi1, hi2, hi3, -⟩ := series_never_fails (isVec_vec ts) (isVec_vec xIn) h2 hl1.symm hu
  obtain ⟨sRe, _, _, _, hr1, hr2, hr3, -⟩ := series_never_fails (isVec_vec ts) (isVec_vec xRe) h2 hl2.symm hu
  refine ⟨xIn, xRe, sIn, sRe, hd, ?_, hi3, hr3⟩
  have hlen : xs.length = ss.length := hxs.length_eq.symm
  have hfill := fillColumns_eq [ts.length, xLoc.length] xs hl 0 (m := xLoc.length) (by omega) (fun _ _ => 0)
  have hmat : matrixData ts.length xLoc.length (fun j c => if 0 ≤ c ∧ c < 0 + xs.length then (xs.getD (c - 0) []).getD j 0 else 0) =
      matrixData ts.length xLoc.length fun j i => if i < xs.length then (xs.getD i []).getD j 0 else 0 := by
    congr 1
    funext j c
    simp
  rw [hmat] at hfill
  have hsig := sigs_ok hxs
  subst hss
  unfold decomposeZSSeries
  dsimp only
  rw [ht]
  simp only [arr1, hsig, zeros_matrix, hfill, hd, hi1, hr1, bind, Except.bind]
  rfl

/-- **C68.**  More series than locations raise an `IndexError`. -/
theorem decompose_series_too_many {ss : List (SeriesObj ℝ)} {s0 : SeriesObj ℝ} {rest : List (SeriesObj ℝ)} (hss : ss = s0 :: rest) {ts : List ℝ}
    (ht : s0.time = arr1 ts) {xs : List (List ℝ)}
    (hxs : List.Forall₂ (fun s x => s.xTime = arr1 x) ss xs) (hl : ∀ x ∈ xs, x.length = ts.length) {xLoc wLoc : List ℝ}
    (hn : xLoc.length < ss.length) (h : Depth) (detLim : ℝ) :
    decomposeZSSeries ss h xLoc wLoc detLim = .error .indexError := by
  have hlen : xs.length = ss.length := hxs.length_eq.symm
  have hfill := fun a => fillColumns_too_many (m := xLoc.length) xs hl 0 (by omega) (by omega) a
  have hsig := sigs_ok hxs
  subst hss
  unfold decomposeZSSeries
  dsimp only
  rw [ht]
  simp only [arr1, hsig, hfill, bind, Except.bind]

/-- **C68.**  Without any series the call raises an `UnboundLocalError`. -/
theorem decompose_series_none (h : Depth) (xLoc wLoc : List ℝ) (detLim : ℝ) :
    decomposeZSSeries [] h xLoc wLoc detLim = .error (.unboundLocalError "t") := rfl

/-! ## Concrete cases -/

theorem gauges_two : GaugesOk [0, 1] [1, 1] := by
  refine ⟨rfl, by simp, fun i hi => ?_, .inl (by simp), by norm_num⟩
  simp only [List.length_cons, List.length_nil] at hi
  have : i < 1 := by omega
  interval_cases i; norm_num

/-- A concrete case of `decompose_recovers`: four samples, two gauges, an incident and a reflected wave with one period in the record. -/
example : ∃ (kap : ℕ → ℝ) (x : Arr ℝ), BinWaveNumbers [0, 1, 2, 3] 10 kap ∧ x.shape = [4, 2] ∧
    decomposeZS [0, 1, 2, 3] x (.fin 10) [0, 1] [1, 1] 0 = .ok
      ((List.range 4).map (waveField 4 1 (fun p => if 0 < |zsDet [1, 1] [0, 1] (kap p)| then 2 else 0) (fun _ => 1) kap 0),
       (List.range 4).map (waveField 4 1 (fun p => if 0 < |zsDet [1, 1] [0, 1] (kap p)| then 1 else 0) (fun _ => 3) (fun p => - kap p) 0)) := by
  obtain ⟨kap, hkap⟩ := binWaveNumbers_exist [0, 1, 2, 3] (by norm_num : (0 : ℝ) < 10)
  set g : ℕ → ℕ → ℝ := fun j i => waveField 4 1 (fun _ => 2) (fun _ => 1) kap (([0, 1] : List ℝ).getD i 0 - ([0, 1] : List ℝ).getD 0 0) j +
    waveField 4 1 (fun _ => 1) (fun _ => 3) (fun p => - kap p) (([0, 1] : List ℝ).getD i 0 - ([0, 1] : List ℝ).getD 0 0) j with hg
  refine ⟨kap, ⟨[4, 2], matrixData 4 2 g⟩, hkap, rfl, ?_⟩
  exact decompose_recovers axis4 gauges_two rfl (by norm_num) le_rfl hkap (by norm_num) (fun _ => 2) (fun _ => 1) (fun _ => 1) (fun _ => 3)
    (fun j hj i hi => matrixData_getD (n := 4) (m := 2) g hj hi)

end Verif
