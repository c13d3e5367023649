import Verif.Model.Welch
import Verif.Props.Skewness
import Verif.Props.Fourier
import Verif.Props.Spectrum
import Verif.Props.Averaging

/-! # C58, C62: the Welch spectrum -/

set_option linter.unusedSectionVars false

namespace Verif
open Finset Complex

/-! ## Specification -/

/-- Variance of a segment about its own mean, with the squared window as weight. -/
noncomputable def segVar (w seg : List ℝ) : ℝ :=
  (∑ j ∈ range seg.length, (w.getD j 0 * (seg.getD j 0 - mean seg)) ^ 2) / ∑ j ∈ range seg.length, w.getD j 0 ^ 2

/-- The tapered, zero-padded segment, sample `j`. -/
noncomputable def tapered (w seg : List ℝ) (j : Nat) : ℝ := if j < seg.length then w.getD j 0 * (seg.getD j 0 - mean seg) else 0

/-! ## The window -/

theorem hann_length (n : Nat) : (hann n).length = n := by
  unfold hann; split_ifs <;> simp

theorem otherWindow_length {ty : String} {n : Nat} {w : List ℝ} (h : otherWindow ty n = .ok w) : w.length = n := by
  unfold otherWindow at h
  by_cases h1 : ty = "han"
  · rw [if_pos h1] at h; cases h; exact hann_length n
  rw [if_neg h1] at h
  by_cases h2 : ty ∈ ["box", "ones", "rect", "rectangular"]
  · rw [if_pos h2] at h; cases h; simp
  rw [if_neg h2] at h
  cases ha : cosineCoefs ty with
  | some a =>
    rw [ha] at h
    cases h
    unfold generalCosine
    split_ifs <;> simp
  | none =>
    rw [ha] at h
    dsimp only at h
    split_ifs at h
    · cases h; unfold cosineWindow; split_ifs <;> simp
    · cases h; unfold bartlettWindow; split_ifs <;> simp

/-- A window has as many values as asked for. -/
theorem getWindow_length {ty : String} {n : Nat} {w : List ℝ} (h : getWindow ty n = .ok w) : w.length = n := by
  unfold getWindow at h
  split_ifs at h
  · rw [← Except.ok.inj h, hann_length]
  · rw [← Except.ok.inj h, List.length_replicate]
  · exact otherWindow_length h

theorem hann_range (n : Nat) : ∀ v ∈ hann n, 0 ≤ v ∧ v ≤ 1 := by
  intro v hv
  unfold hann at hv
  split_ifs at hv with h
  · rw [List.eq_of_mem_replicate hv]; norm_num
  · obtain ⟨j, -, rfl⟩ := List.mem_map.1 hv
    have h1 := Real.cos_le_one (2 * Real.pi * j / n)
    have h2 := Real.neg_one_le_cos (2 * Real.pi * j / n)
    constructor <;> linarith

/-- The Hann window of an even number of points is periodic, and windows shifted by half a segment add up to one. -/
theorem hann_half_overlap {m j : Nat} (hm : 0 < m) (hj : j < m) :
    (hann (2 * m)).getD j 0 + (hann (2 * m)).getD (j + m) 0 = 1 ∧ (hann (2 * m)).getD 0 0 = 0 ∧ (hann (2 * m)).getD m 0 = 1 := by
  unfold hann
  rw [if_neg (by omega), getD_map_range _ _ _ _ (by omega), getD_map_range _ _ _ _ (by omega), getD_map_range _ _ _ _ (by omega),
    getD_map_range _ _ _ _ (by omega)]
  have hm' : (m : ℝ) ≠ 0 := by exact_mod_cast hm.ne'
  refine ⟨?_, by simp, ?_⟩
  · have : 2 * Real.pi * ((j + m : ℕ) : ℝ) / ((2 * m : ℕ) : ℝ) = 2 * Real.pi * (j : ℝ) / ((2 * m : ℕ) : ℝ) + Real.pi := by
      push_cast; field_simp
    rw [this, Real.cos_add_pi]; ring
  · have : 2 * Real.pi * (m : ℝ) / ((2 * m : ℕ) : ℝ) = Real.pi := by push_cast; field_simp
    rw [this, Real.cos_pi]; norm_num

theorem hann_energy_pos {n : Nat} (hn : 0 < n) : 0 < ((hann n).map fun v => v * v).sum := by
  have hmem : ∃ v ∈ hann n, 0 < v := by
    unfold hann
    split_ifs with h
    · have : n = 1 := by omega
      subst this
      exact ⟨1, by simp, one_pos⟩
    · refine ⟨_, List.mem_map.2 ⟨1, by rw [List.mem_range]; omega, rfl⟩, ?_⟩
      have hn2 : (2 : ℝ) ≤ n := by exact_mod_cast (by omega : 2 ≤ n)
      have h1 : 2 * Real.pi * (1 : ℕ) / n ≤ Real.pi := by
        rw [div_le_iff₀ (by linarith)]; push_cast; nlinarith [Real.pi_pos]
      have h0 : 0 < 2 * Real.pi * (1 : ℕ) / (n : ℝ) := by
        apply div_pos _ (by linarith); push_cast; nlinarith [Real.pi_pos]
      have := Real.cos_lt_cos_of_nonneg_of_le_pi le_rfl h1 h0
      rw [Real.cos_zero] at this
      linarith
  obtain ⟨v, hv, hv0⟩ := hmem
  have h1 : v * v ≤ ((hann n).map fun v => v * v).sum :=
    List.single_le_sum (fun y hy => by obtain ⟨u, -, rfl⟩ := List.mem_map.1 hy; exact mul_self_nonneg u) _ (List.mem_map.2 ⟨v, hv, rfl⟩)
  nlinarith

/-! ## One segment -/

theorem tapered_eq {w seg : List ℝ} (hl : w.length = seg.length) {nfft : Nat} (hn : seg.length ≤ nfft) :
    (List.zipWith (· * ·) w (seg.map fun v => v - mean seg) ++
      List.replicate (nfft - (List.zipWith (· * ·) w (seg.map fun v => v - mean seg)).length) 0) = (List.range nfft).map (tapered w seg) := by
  have hz : (List.zipWith (· * ·) w (seg.map fun v => v - mean seg)).length = seg.length := by simp [hl]
  rw [hz]
  apply List.ext_getElem
  · simp [hl]; omega
  intro j h1 h2
  rw [List.getElem_map, List.getElem_range]
  unfold tapered
  by_cases hj : j < seg.length
  · rw [if_pos hj, List.getElem_append_left (by rw [hz]; exact hj), List.getElem_zipWith, List.getElem_map,
      List.getD_eq_getElem _ _ (by omega), List.getD_eq_getElem _ _ hj]
  · rw [if_neg hj, List.getElem_append_right (by rw [hz]; omega), List.getElem_replicate]

/-- The one-sided density of a segment in terms of the Fourier sums of the tapered segment. -/
theorem segmentPsd_eq {w seg : List ℝ} (hl : w.length = seg.length) {nfft : Nat} (hn : seg.length ≤ nfft) (h0 : 0 < nfft) (fs : ℝ) :
    segmentPsd fs w nfft seg = (List.range (nfft / 2 + 1)).map fun k =>
      (if k = 0 then 1 else if nfft % 2 = 0 ∧ k = nfft / 2 then 1 else 2) *
        Complex.normSq (fwd nfft (fun j => ((tapered w seg j : ℝ) : ℂ)) k) / (fs * ∑ j ∈ range seg.length, w.getD j 0 ^ 2) := by
  unfold segmentPsd
  dsimp only
  rw [tapered_eq hl hn, npFft_ofReal]
  have hw : (w.map fun v => v * v).sum = ∑ j ∈ range seg.length, w.getD j 0 ^ 2 := by
    conv_lhs => rw [list_eq_map_range w, List.map_map, list_sum_map_range, hl]
    exact Finset.sum_congr rfl fun j _ => by simp only [Function.comp]; ring
  rw [hw]
  apply List.map_congr_left
  intro k hk
  have hk' : k < nfft / 2 + 1 := List.mem_range.1 hk
  have hlen : ((List.range nfft).map (tapered w seg)).length = nfft := by simp
  have hkn : k < nfft ∨ nfft = 1 ∧ k = 0 := by omega
  have hkn' : k < nfft := by omega
  rw [hlen, getD_map_range _ _ _ _ hkn']
  have hc : coef ((List.range nfft).map (tapered w seg)) k = fwd nfft (fun j => ((tapered w seg j : ℝ) : ℂ)) k := by
    unfold coef
    rw [hlen]
    exact fwd_congr (fun j hj => by rw [getD_map_range _ _ _ _ hj]) k
  rw [hc]
  split_ifs <;> ring

theorem segmentPsd_length (fs : ℝ) (w seg : List ℝ) (nfft : Nat) : (segmentPsd fs w nfft seg).length = nfft / 2 + 1 := by
  simp [segmentPsd]

theorem segmentPsd_nonneg {fs : ℝ} (hfs : 0 < fs) (w seg : List ℝ) (nfft : Nat) : ∀ v ∈ segmentPsd fs w nfft seg, 0 ≤ v := by
  intro v hv
  unfold segmentPsd at hv
  obtain ⟨k, -, rfl⟩ := List.mem_map.1 hv
  dsimp only
  have h1 : 0 ≤ 1 / (fs * (w.map fun v => v * v).sum) := by
    apply div_nonneg zero_le_one
    apply mul_nonneg hfs.le
    apply List.sum_nonneg
    intro y hy
    obtain ⟨u, -, rfl⟩ := List.mem_map.1 hy
    exact mul_self_nonneg u
  have h2 := Complex.normSq_nonneg ((npFft (List.map (fun (v : ℝ) => (v : ℂ)) (List.zipWith (· * ·) w (seg.map fun v => v - mean seg) ++
      List.replicate (nfft - (List.zipWith (· * ·) w (seg.map fun v => v - mean seg)).length) 0))).getD k 0)
  have h3 := mul_nonneg h2 h1
  split_ifs
  · exact h3
  · exact h3
  · linarith

/-- Folding the symmetric terms of a full sum. -/
theorem onesided_sum (a : Nat → ℝ) {n : Nat} (hn : 0 < n) (ha : ∀ k, 0 < k → k < n → a (n - k) = a k) :
    ∑ k ∈ range (n / 2 + 1), (if k = 0 then 1 else if n % 2 = 0 ∧ k = n / 2 then 1 else 2) * a k = ∑ k ∈ range n, a k := by
  by_cases h1 : n = 1
  · subst h1; simp
  have hf := sum_folded a (n := n) (by omega) ha
  have key : ∀ k ∈ range (n / 2 + 1), (if k = 0 then (1 : ℝ) else if n % 2 = 0 ∧ k = n / 2 then 1 else 2) * a k =
      2 * a k - (if k = 0 then a k else 0) - (if k = n / 2 then (if n % 2 = 0 then a k else 0) else 0) := by
    intro k _
    have hne : n / 2 ≠ 0 := by omega
    by_cases hk : k = 0
    · subst hk
      rw [if_pos rfl, if_pos rfl, if_neg (Ne.symm hne)]; ring
    · rw [if_neg hk, if_neg hk]
      by_cases h2 : k = n / 2
      · by_cases h3 : n % 2 = 0
        · rw [if_pos ⟨h3, h2⟩, if_pos h2, if_pos h3]; ring
        · rw [if_neg (by tauto), if_pos h2, if_neg h3]; ring
      · rw [if_neg (by tauto), if_neg h2]; ring
  have e0 : ∑ k ∈ range (n / 2 + 1), (if k = 0 then a k else 0) = a 0 := by
    rw [Finset.sum_ite_eq', if_pos (by simp)]
  have e1 : ∑ k ∈ range (n / 2 + 1), (if k = n / 2 then (if n % 2 = 0 then a k else 0) else 0) = if n % 2 = 0 then a (n / 2) else 0 := by
    rw [Finset.sum_ite_eq', if_pos (by simp)]
  rw [Finset.sum_congr rfl key, Finset.sum_sub_distrib, Finset.sum_sub_distrib, ← Finset.mul_sum, hf, e0, e1]
  ring

/-- **The periodogram of a segment integrates to its window-weighted variance.** -/
theorem segmentPsd_energy {w seg : List ℝ} (hl : w.length = seg.length) {nfft : Nat} (hn : seg.length ≤ nfft) (h0 : 0 < nfft) {fs : ℝ}
    (hfs : 0 < fs) : (segmentPsd fs w nfft seg).sum * (fs / nfft) = segVar w seg := by
  rw [segmentPsd_eq hl hn h0, list_sum_map_range, ← Finset.sum_div]
  have hsym : ∀ k, 0 < k → k < nfft → Complex.normSq (fwd nfft (fun j => ((tapered w seg j : ℝ) : ℂ)) (nfft - k)) =
      Complex.normSq (fwd nfft (fun j => ((tapered w seg j : ℝ) : ℂ)) k) := by
    intro k _ hk
    rw [fwd_conj h0 (fun j _ => Complex.conj_ofReal _) hk.le, Complex.normSq_conj]
  rw [onesided_sum (fun k => Complex.normSq (fwd nfft (fun j => ((tapered w seg j : ℝ) : ℂ)) k)) h0 hsym, parseval h0]
  have hs : ∑ j ∈ range nfft, Complex.normSq ((tapered w seg j : ℝ) : ℂ) = ∑ j ∈ range seg.length, (w.getD j 0 * (seg.getD j 0 - mean seg)) ^ 2 := by
    rw [← Finset.sum_subset (Finset.range_mono hn) (by
      intro j _ hj
      rw [mem_range] at hj
      unfold tapered
      rw [if_neg hj]; simp)]
    refine Finset.sum_congr rfl fun j hj => ?_
    rw [Complex.normSq_ofReal]
    unfold tapered
    rw [if_pos (mem_range.1 hj)]; ring
  rw [hs]
  unfold segVar
  have : (nfft : ℝ) ≠ 0 := by exact_mod_cast h0.ne'
  rw [mul_comm fs, ← div_div, div_mul_div_comm, mul_comm (_ / _), mul_div_assoc, mul_comm]
  field_simp

/-! ## `scipy.signal.welch` on accepted arguments -/

/-- The number of segments.  (A negative overlap is a gap.) -/
def nSegments (n nps : Nat) (nov : Int) : Nat := (n - nps) / ((nps : Int) - nov).toNat + 1

/-- Segment `i` of the signal. -/
def segment (x : List ℝ) (nps : Nat) (nov : Int) (i : Nat) : List ℝ :=
  pySlice x (i * ((nps : Int) - nov).toNat) (i * ((nps : Int) - nov).toNat + nps)

theorem segments_eq (x : List ℝ) (nps : Nat) (nov : Int) :
    segments x nps ((nps : Int) - nov).toNat = (List.range (nSegments x.length nps nov)).map (segment x nps nov) := rfl

/-- Every segment lies within the signal and has the full length. -/
theorem segment_length {x : List ℝ} {nps : Nat} {nov : Int} {i : Nat} (h1 : nps ≤ x.length) (hi : i < nSegments x.length nps nov) :
    (segment x nps nov i).length = nps ∧ i * ((nps : Int) - nov).toNat + nps ≤ x.length := by
  have h2 : i ≤ (x.length - nps) / ((nps : Int) - nov).toNat := by unfold nSegments at hi; omega
  have h3 : i * ((nps : Int) - nov).toNat ≤ x.length - nps := le_trans (Nat.mul_le_mul_right _ h2) (Nat.div_mul_le_self _ _)
  refine ⟨?_, by omega⟩
  unfold segment pySlice
  rw [List.length_drop, List.length_take]
  omega

/-- The segments use every sample except an incomplete last step: the next one would not fit. -/
theorem segments_maximal {n nps : Nat} {nov : Int} (hov : nov < nps) (h1 : nps ≤ n) :
    n < nSegments n nps nov * ((nps : Int) - nov).toNat + nps := by
  unfold nSegments
  have := Nat.lt_div_mul_add (a := n - nps) (b := ((nps : Int) - nov).toNat) (by omega)
  rw [Nat.add_mul, one_mul]
  omega

/-- The result of `welch` for accepted arguments, with `N` samples per segment, overlap `v`, transform length `M`. -/
structure IsWelch (x : List ℝ) (dt : ℝ) (w : List ℝ) (N : Nat) (v : Int) (M : Nat) (f S : List ℝ) : Prop where
  freq : f = (List.range (M / 2 + 1)).map fun (k : Nat) => (k : ℝ) / (M * dt)
  len : S.length = M / 2 + 1
  dens : ∀ k < M / 2 + 1, S.getD k 0 = mean ((List.range (nSegments x.length N v)).map fun i =>
    (if k = 0 then 1 else if M % 2 = 0 ∧ k = M / 2 then 1 else 2) *
      Complex.normSq (fwd M (fun j => ((tapered w (segment x N v i) j : ℝ) : ℂ)) k) * dt / ∑ j ∈ range N, w.getD j 0 ^ 2)

theorem welch_ok {x : List ℝ} (hx : x ≠ []) {dt : ℝ} {window : String} {nperseg noverlap nfft : Option Int} {N M : Nat} {v : Int}
    {w : List ℝ} (hN : nperseg.getD 256 ≥ 1) (hNN : N = min (nperseg.getD 256).toNat x.length) (hw : getWindow window N = .ok w)
    (hwl : w.length = N) (hM : nfft.getD N = (M : Int)) (hNM : N ≤ M) (hv : noverlap.getD (N / 2 : Nat) = v) (hvN : v < N) :
    ∃ f S, welch x (1 / dt) window nperseg noverlap nfft = .ok (f, S) ∧ IsWelch x dt w N v M f S := by
  have hNx : N ≤ x.length := by rw [hNN]; exact Nat.min_le_right _ _
  have hN0 : 0 < N := by
    have := List.length_pos_iff.2 hx
    rw [hNN]; omega
  refine ⟨(List.range (M / 2 + 1)).map fun (k : Nat) => (k : ℝ) / (M * (1 / (1 / dt))),
    (List.range (M / 2 + 1)).map fun k => mean (((segments x N ((N : Int) - v).toNat).map (segmentPsd (1 / dt) w M)).map fun p => p.getD k 0), ?_, ?_⟩
  · unfold welch
    rw [if_neg hx, if_neg (by omega)]
    dsimp only
    rw [← hNN, hw]
    dsimp only
    rw [hM, hv, if_neg (by omega), if_neg (by omega)]
    simp only [Int.toNat_natCast]
  · refine ⟨by simp only [one_div_one_div], by simp, ?_⟩
    intro k hk
    rw [getD_map_range _ _ _ _ hk, segments_eq, List.map_map, List.map_map]
    congr 1
    apply List.map_congr_left
    intro i hi
    have hsl := (segment_length (x := x) (nov := v) hNx (List.mem_range.1 hi)).1
    simp only [Function.comp]
    rw [segmentPsd_eq (by rw [hwl, hsl]) (by omega) (by omega), getD_map_range _ _ _ _ hk, hsl]
    rw [mul_comm (1 / dt), ← div_div, div_div_eq_mul_div, div_one, div_mul_eq_mul_div]

/-- The names of the windows in the model: those that need no parameter (the Bartlett-Hann, Bohman, exponential, Lanczos, Parzen, Taylor, triangular and Tukey
windows are outside the model). -/
def windowNames : List String :=
  ["hann", "han", "boxcar", "box", "ones", "rect", "rectangular", "hamming", "hamm", "ham", "blackman", "black", "blk", "nuttall", "nutl", "nut",
    "blackmanharris", "blackharr", "bkh", "flattop", "flat", "flt", "cosine", "halfcosine", "bartlett", "bart", "brt"]

theorem window_known {window : String} (h : window ∈ windowNames) (n : Nat) : ∃ w, getWindow window n = .ok w := by
  unfold windowNames at h
  simp only [List.mem_cons, List.not_mem_nil, or_false] at h
  rcases h with h | h | h | h | h | h | h | h | h | h | h | h | h | h | h | h | h | h | h | h | h | h | h | h | h | h | h <;>
  · subst h
    simp [getWindow, otherWindow, cosineCoefs]

/-- **C62 (rejected arguments).**  A negative number of samples per segment, a transform shorter than the segment and an overlap of at
least the segment are rejected with a ValueError (the segment is shortened to the signal first). -/
theorem welch_rejects {x : List ℝ} (hx : x ≠ []) {dt : ℝ} (hdt : dt ≠ 0) (window : String) (hwin : window ∈ windowNames)
    (nperseg noverlap nfft : Int) :
    (nperseg < 0 → ∃ m, welchWrapper x dt nperseg noverlap nfft window = .error (.valueError m)) ∧
    (0 < nperseg → nfft ≠ 0 → nfft < min nperseg x.length → ∃ m, welchWrapper x dt nperseg noverlap nfft window = .error (.valueError m)) ∧
    (0 < nperseg → (nfft = 0 ∨ min nperseg x.length ≤ nfft) → noverlap ≠ 0 → min nperseg x.length ≤ noverlap →
      ∃ m, welchWrapper x dt nperseg noverlap nfft window = .error (.valueError m)) := by
  have hw := window_known hwin
  have hmin : 0 < nperseg → ((min nperseg.toNat x.length : ℕ) : Int) = min nperseg x.length := by
    intro h; rw [Nat.cast_min, Int.toNat_of_nonneg h.le]
  unfold welchWrapper
  rw [if_neg hdt]
  dsimp only
  refine ⟨fun h => ?_, fun h h1 h2 => ?_, fun h h1 h2 h3 => ?_⟩
  · unfold welch
    rw [if_neg hx, if_neg (show ¬ nperseg = 0 by omega), if_pos (by simp only [Option.getD_some]; omega)]
    exact ⟨_, rfl⟩
  · unfold welch
    rw [if_neg hx, if_neg h.ne', if_neg (by simp only [Option.getD_some]; omega)]
    dsimp only
    obtain ⟨w, hw⟩ := hw (min ((some nperseg).getD 256).toNat x.length)
    rw [hw]
    dsimp only
    rw [if_neg h1, if_pos (by simp only [Option.getD_some]; rw [hmin h]; exact h2)]
    exact ⟨_, rfl⟩
  · unfold welch
    rw [if_neg hx, if_neg h.ne', if_neg (by simp only [Option.getD_some]; omega)]
    dsimp only
    obtain ⟨w, hw⟩ := hw (min ((some nperseg).getD 256).toNat x.length)
    rw [hw]
    dsimp only
    rw [if_neg (by
      rcases h1 with rfl | h1
      · simp
      · split_ifs
        · simp
        · simp only [Option.getD_some]; rw [hmin h]; omega), if_neg h2, if_pos (by simp only [Option.getD_some]; rw [hmin h]; exact h3)]
    exact ⟨_, rfl⟩

/-- **C62 (energy).**  The Welch spectrum integrates (sum times frequency step) to the mean, over the segments, of the
window-weighted variance of the segment; all densities are non-negative. -/
theorem welch_energy {x : List ℝ} {dt : ℝ} (hdt : 0 < dt) {w : List ℝ} {N M : Nat} {v : Int} {f S : List ℝ} (h : IsWelch x dt w N v M f S)
    (hwl : w.length = N) (hN : 0 < N) (hNx : N ≤ x.length) (hNM : N ≤ M) :
    S.sum * (1 / (M * dt)) = mean ((List.range (nSegments x.length N v)).map fun i => segVar w (segment x N v i)) ∧ ∀ d ∈ S, 0 ≤ d := by
  have hM : 0 < M := by omega
  have hdens : ∀ k < M / 2 + 1, S.getD k 0 = mean ((List.range (nSegments x.length N v)).map fun i =>
      (segmentPsd (1 / dt) w M (segment x N v i)).getD k 0) := by
    intro k hk
    rw [h.dens k hk]
    congr 1
    apply List.map_congr_left
    intro i hi
    have hsl := (segment_length (x := x) (nov := v) hNx (List.mem_range.1 hi)).1
    rw [segmentPsd_eq (by rw [hwl, hsl]) (by omega) (by omega), getD_map_range _ _ _ _ hk, hsl]
    rw [mul_comm (1 / dt), ← div_div _ _ (1 / dt), div_div_eq_mul_div, div_one, div_mul_eq_mul_div]
  constructor
  · have hS : S.sum = ∑ k ∈ range (M / 2 + 1), mean ((List.range (nSegments x.length N v)).map fun i =>
        (segmentPsd (1 / dt) w M (segment x N v i)).getD k 0) := by
      conv_lhs => rw [list_eq_map_range S, list_sum_map_range, h.len]
      exact Finset.sum_congr rfl fun k hk => hdens k (mem_range.1 hk)
    rw [hS]
    unfold mean
    simp only [List.length_map, List.length_range, list_sum_map_range]
    rw [← Finset.sum_div, Finset.sum_comm, div_mul_eq_mul_div, Finset.sum_mul]
    congr 1
    refine Finset.sum_congr rfl fun i hi => ?_
    have hsl := (segment_length (x := x) (nov := v) hNx (mem_range.1 hi)).1
    rw [← segmentPsd_energy (w := w) (seg := segment x N v i) (by rw [hwl, hsl]) (nfft := M) (by omega) hM (fs := 1 / dt) (by positivity)]
    congr 1
    · conv_rhs => rw [list_eq_map_range (segmentPsd (1 / dt) w M (segment x N v i)), list_sum_map_range, segmentPsd_length]
    · rw [div_div, mul_comm]
  · intro d hd
    obtain ⟨k, hk, rfl⟩ := List.getElem_of_mem hd
    have hk' : k < M / 2 + 1 := by rw [← h.len]; exact hk
    rw [← List.getD_eq_getElem _ 0 hk, hdens k hk']
    unfold mean
    apply div_nonneg _ (Nat.cast_nonneg _)
    apply List.sum_nonneg
    intro y hy
    obtain ⟨i, -, rfl⟩ := List.mem_map.1 hy
    rw [List.getD_eq_getElem _ _ (by rw [segmentPsd_length]; exact hk')]
    exact segmentPsd_nonneg (by positivity) _ _ _ _ (List.getElem_mem _)

/-! ## C58: the settings -/

theorem roundHalf_half (N : Nat) : ∃ v : Nat, roundHalfEven ((N : ℝ) / 2) = v ∧ 2 * v ≤ N + 1 ∧ N ≤ 2 * v + 1 := by
  have h := roundHalfEven_near ((N : ℝ) / 2)
  rw [abs_le] at h
  have h1 : ((2 * roundHalfEven ((N : ℝ) / 2) : ℤ) : ℝ) ≤ ((N + 1 : ℤ) : ℝ) := by push_cast; linarith
  have h2 : ((N : ℤ) : ℝ) ≤ ((2 * roundHalfEven ((N : ℝ) / 2) + 1 : ℤ) : ℝ) := by push_cast; linarith
  have h1' := Int.cast_le.1 h1
  have h2' := Int.cast_le.1 h2
  have h3 : 0 ≤ roundHalfEven ((N : ℝ) / 2) := by omega
  exact ⟨(roundHalfEven ((N : ℝ) / 2)).toNat, by omega, by omega, by omega⟩

theorem freq_uniform {M : Nat} {dt : ℝ} (hM : 2 ≤ M) (hdt : 0 < dt) :
    UniformAxis ((List.range (M / 2 + 1)).map fun (k : Nat) => (k : ℝ) / (M * dt)) (1 / (M * dt)) := by
  have hM' : (0 : ℝ) < M := by exact_mod_cast (by omega : 0 < M)
  refine ⟨by positivity, fun i hi => ?_⟩
  have hi' : i + 1 < M / 2 + 1 := by simpa using hi
  rw [getD_map_range _ _ _ _ hi', getD_map_range _ _ _ _ (by omega)]
  push_cast; ring

/-- The result of `welch` is accepted by `Spectrum`. -/
theorem welch_spectrum {x w f S : List ℝ} {dt : ℝ} {N M : Nat} {v : Int} (h : IsWelch x dt w N v M f S) (hM : 2 ≤ M) (hdt : 0 < dt) :
    SpecObj.init (vec f) (vec S) = .ok { f := f, sVarDens := ⟨[S.length], S⟩, nf := f.length } := by
  rw [spectrum_init_iff_partial (isArr_vec f) (isArr_vec S)]
  refine ⟨?_, by rw [h.freq, h.len]; simp, rfl⟩
  rw [h.freq]
  exact uniform_check_accepts_uniform (by simp; omega) (freq_uniform hM hdt)

theorem sig_of {s : SeriesObj ℝ} {x : List ℝ} (h : s.xTime = arr1 x) : s.sig = .ok x := by
  unfold SeriesObj.sig; rw [h]; rfl

/-- The analysis with a desired resolution, for any window of the model. -/
theorem get_spectrum_resolution_window {pt px : PyIn ℝ} {t x : List ℝ} {dt : ℝ} (ht : pt.IsVec t) (hx : px.IsVec x) (h2 : 2 ≤ t.length)
    (hlen : t.length = x.length) (hu : UniformAxis t dt) {df : ℝ} (hdf : 0 < df) {N : Nat} (hN : roundHalfEven (1 / dt / df) = N)
    (hN2 : 2 ≤ N) (hNx : N ≤ x.length) {window : String} {w : List ℝ}
    (hw : getWindow window N = .ok w) (nps nov : Int) :
    ∃ (s : SeriesObj ℝ) (sp : SpecObj) (S : List ℝ) (v : Nat), SeriesObj.init pt px = .ok s ∧ s.getSpectrum nps nov 0 window df true = .ok sp ∧ sp.sVarDens = arr1 S ∧
      IsWelch x dt w N v N sp.f S ∧ 2 * v ≤ N + 1 ∧ N ≤ 2 * v + 1 ∧
      |1 / (dt * (sp.f.getD 1 0 - sp.f.getD 0 0)) - 1 / (dt * df)| ≤ 1 / 2 := by
  obtain ⟨s, -, -, -, hs, -, hsx, -, hsd, -⟩ := series_never_fails ht hx h2 hlen hu
  have hdt := hu.1
  obtain ⟨v, hv, hv1, hv2⟩ := roundHalf_half N
  have hxne : x ≠ [] := by rintro rfl; simp at hNx; omega
  obtain ⟨f, S, hW, hI⟩ := welch_ok (x := x) hxne (dt := dt) (window := window) (nperseg := some (N : Int)) (noverlap := some (v : Int)) (nfft := none)
    (N := N) (v := v) (M := N) (w := w) (by rw [Option.getD_some]; omega)
    (by rw [Option.getD_some, Int.toNat_natCast, Nat.min_eq_left hNx]) hw (getWindow_length hw)
    (by rfl) le_rfl (by rfl) (by omega)
  refine ⟨s, { f := f, sVarDens := ⟨[S.length], S⟩, nf := f.length }, S, v, hs, ?_, rfl, hI, hv1, hv2, ?_⟩
  · unfold SeriesObj.getSpectrum
    rw [sig_of hsx]
    simp only [bind, Except.bind, if_true]
    rw [if_neg (by rw [hsd]; intro h; rcases h with h | h <;> linarith), hsd, hN]
    simp only [Int.cast_natCast]
    rw [hv]
    unfold welchWrapper
    rw [if_neg hdt.ne']
    dsimp only
    rw [if_neg (by omega), if_neg (by omega), if_pos rfl, hW]
    dsimp only
    exact welch_spectrum hI hN2 hdt
  · have hN0 : (0 : ℝ) < N := by exact_mod_cast (by omega : 0 < N)
    have hf : f.getD 1 0 - f.getD 0 0 = 1 / (N * dt) := by
      rw [hI.freq, getD_map_range _ _ _ _ (by omega), getD_map_range _ _ _ _ (by omega)]
      push_cast; ring
    rw [hf]
    have h1 : 1 / (dt * (1 / (N * dt))) = (N : ℝ) := by field_simp
    have h3 : 1 / (dt * df) = 1 / dt / df := by rw [div_div]
    rw [h1, h3]
    have := roundHalfEven_near (1 / dt / df)
    rwa [hN, Int.cast_natCast] at this

/-- **C58 (desired resolution).**  For a valid series and a desired resolution `df` for which `N = round(1/(dt df))` is at least 2 and
at most the number of samples, `get_spectrum` (Hann window, default `nfft`) returns the Welch spectrum with segments of `N` samples and an
overlap of half a segment (rounded); the explicit settings are ignored.  The frequencies are the multiples of `1/(N dt)`, and
`1/(dt Δf)` differs from `1/(dt df)` by at most one half. -/
theorem get_spectrum_resolution_partial {pt px : PyIn ℝ} {t x : List ℝ} {dt : ℝ} (ht : pt.IsVec t) (hx : px.IsVec x) (h2 : 2 ≤ t.length)
    (hlen : t.length = x.length) (hu : UniformAxis t dt) {df : ℝ} (hdf : 0 < df) {N : Nat} (hN : roundHalfEven (1 / dt / df) = N)
    (hN2 : 2 ≤ N) (hNx : N ≤ x.length) (nps nov : Int) :
    ∃ (s : SeriesObj ℝ) (sp : SpecObj) (S : List ℝ) (v : Nat), SeriesObj.init pt px = .ok s ∧ s.getSpectrum nps nov 0 "hann" df true = .ok sp ∧
      sp.sVarDens = arr1 S ∧ IsWelch x dt (hann N) N v N sp.f S ∧ 2 * v ≤ N + 1 ∧ N ≤ 2 * v + 1 ∧
      |1 / (dt * (sp.f.getD 1 0 - sp.f.getD 0 0)) - 1 / (dt * df)| ≤ 1 / 2 :=
  get_spectrum_resolution_window ht hx h2 hlen hu hdf hN hN2 hNx (by unfold getWindow; rw [if_pos rfl]) nps nov

/-- **C58 (explicit settings).**  With `use_dfDesired = False` the given segment length (at most the signal length), transform length and
window are used; a 0 means: 256 samples, the segment length, half a segment of overlap.  A negative overlap is a gap between the segments. -/
theorem get_spectrum_explicit {pt px : PyIn ℝ} {t x : List ℝ} {dt : ℝ} (ht : pt.IsVec t) (hx : px.IsVec x) (h2 : 2 ≤ t.length)
    (hlen : t.length = x.length) (hu : UniformAxis t dt) {nps nfft N M : Nat} {nov v : Int} {window : String} {w : List ℝ}
    (hN : N = min (if nps = 0 then 256 else nps) x.length) (hM : M = if nfft = 0 then N else nfft) (hv : v = if nov = 0 then ((N / 2 : Nat) : Int) else nov)
    (hN2 : 1 ≤ N) (hM2 : 2 ≤ M) (hNM : N ≤ M) (hvN : v < N) (hw : getWindow window N = .ok w) (df : ℝ) :
    ∃ s sp S, SeriesObj.init pt px = .ok s ∧ s.getSpectrum nps nov nfft window df false = .ok sp ∧ sp.sVarDens = arr1 S ∧
      IsWelch x dt w N v M sp.f S := by
  obtain ⟨s, -, -, -, hs, -, hsx, -, hsd, -⟩ := series_never_fails ht hx h2 hlen hu
  have hdt := hu.1
  have hxne : x ≠ [] := by rintro rfl; rw [List.length_nil] at hlen; omega
  have hwl : w.length = N := getWindow_length hw
  obtain ⟨f, S, hW, hI⟩ := welch_ok (x := x) hxne (dt := dt) (window := window) (nperseg := if (nps : Int) = 0 then none else some (nps : Int))
    (noverlap := if nov = 0 then none else some nov) (nfft := if (nfft : Int) = 0 then none else some (nfft : Int))
    (N := N) (v := v) (M := M) (w := w) (by split_ifs <;> simp <;> omega)
    (by rw [hN]; congr 1; by_cases h : nps = 0
        · subst h; rfl
        · rw [if_neg h, if_neg (by omega)]; simp) hw hwl
    (by rw [hM]; by_cases h : nfft = 0
        · subst h; rfl
        · rw [if_neg h, if_neg (by omega)]; simp) hNM
    (by rw [hv]; by_cases h : nov = 0
        · subst h; rfl
        · rw [if_neg h, if_neg (by omega)]; simp) hvN
  refine ⟨s, { f := f, sVarDens := ⟨[S.length], S⟩, nf := f.length }, S, hs, ?_, rfl, hI⟩
  unfold SeriesObj.getSpectrum
  rw [sig_of hsx]
  simp only [bind, Except.bind, Bool.false_eq_true, if_false]
  unfold welchWrapper
  rw [hsd, if_neg hdt.ne']
  dsimp only
  rw [hW]
  dsimp only
  exact welch_spectrum hI hM2 hdt

/-- **C58 is false for short series.**  If the record is no longer than half a desired segment, `get_spectrum` does not fall back to one segment:
the segment is shortened to the record but the overlap is not, and it raises `ValueError`. -/
theorem get_spectrum_short_fails {pt px : PyIn ℝ} {t x : List ℝ} {dt : ℝ} (ht : pt.IsVec t) (hx : px.IsVec x) (h2 : 2 ≤ t.length)
    (hlen : t.length = x.length) (hu : UniformAxis t dt) {df : ℝ} (hdf : 0 < df) {N : Nat} (hN : roundHalfEven (1 / dt / df) = N)
    (hNx : 2 * x.length + 1 ≤ N) (nps nov : Int) :
    ∃ s, SeriesObj.init pt px = .ok s ∧
      s.getSpectrum nps nov 0 "hann" df true = .error (.valueError "noverlap must be less than nperseg.") := by
  obtain ⟨s, -, -, -, hs, -, hsx, -, hsd, -⟩ := series_never_fails ht hx h2 hlen hu
  have hdt := hu.1
  obtain ⟨v, hv, hv1, hv2⟩ := roundHalf_half N
  have hxne : x ≠ [] := by rintro rfl; rw [List.length_nil] at hlen; omega
  refine ⟨s, hs, ?_⟩
  unfold SeriesObj.getSpectrum
  rw [sig_of hsx]
  simp only [bind, Except.bind, if_true]
  rw [if_neg (by rw [hsd]; intro h; rcases h with h | h <;> linarith), hsd, hN]
  simp only [Int.cast_natCast]
  rw [hv]
  unfold welchWrapper
  rw [if_neg hdt.ne']
  dsimp only
  rw [if_neg (by omega), if_neg (by omega), if_pos rfl]
  unfold welch
  rw [if_neg hxne, Option.getD_some, if_neg (by omega)]
  dsimp only
  unfold getWindow
  rw [if_pos rfl]
  dsimp only
  rw [Int.toNat_natCast, Nat.min_eq_right (by omega), Option.getD_none, Option.getD_some, if_neg (by omega), if_pos (by omega)]

/-- **C58 (finding).**  An explicit overlap of 0 is silently replaced by half a segment. -/
theorem welch_zero_overlap_is_half (x : List ℝ) (dt : ℝ) {nps : Nat} (h2 : 2 ≤ nps) (hx : nps ≤ x.length) (nfft : Int) (window : String) :
    welchWrapper x dt nps 0 nfft window = welchWrapper x dt nps (nps / 2 : Nat) nfft window := by
  unfold welchWrapper
  by_cases hd : dt = 0
  · rw [if_pos hd, if_pos hd]
  rw [if_neg hd, if_neg hd]
  dsimp only
  have e1 : (if (nps : Int) = 0 then none else some (nps : Int)) = some (nps : Int) := if_neg (by omega)
  have e2 : (if ((nps / 2 : Nat) : Int) = 0 then none else some ((nps / 2 : Nat) : Int)) = some ((nps / 2 : Nat) : Int) := if_neg (by omega)
  rw [e1, e2, if_pos rfl]
  unfold welch
  simp only [Option.getD_some, Option.getD_none, Int.toNat_natCast, Nat.min_eq_left hx]

/-- **C58 (finding).**  If `1/(dt dfDesired)` rounds to 0 (a resolution of more than twice the sampling frequency), 256-sample segments are used: the settings
0 are replaced by the defaults. -/
theorem get_spectrum_coarse_df {s : SeriesObj ℝ} {df : ℝ} (hdf : 0 < df) (hdt : 0 < s.dt) (hc : 2 / s.dt < df) (nps nov nfft : Int) (window : String) :
    s.getSpectrum nps nov nfft window df true = s.getSpectrum 0 0 nfft window df false := by
  have h0 : roundHalfEven (1 / s.dt / df) = 0 := by
    have h1 : 1 / s.dt / df < 1 / 2 := by
      rw [div_lt_iff₀ hdf]
      have : 2 / s.dt = 2 * (1 / s.dt) := by ring
      rw [this] at hc; linarith
    have h2 : 0 < 1 / s.dt / df := by positivity
    have h3 := roundHalfEven_near (1 / s.dt / df)
    rw [abs_le] at h3
    have a : (roundHalfEven (1 / s.dt / df) : ℝ) < 1 := by linarith
    have b : (-1 : ℝ) < (roundHalfEven (1 / s.dt / df) : ℝ) := by linarith
    have a' : roundHalfEven (1 / s.dt / df) < 1 := by exact_mod_cast a
    have b' : -1 < roundHalfEven (1 / s.dt / df) := by exact_mod_cast b
    omega
  have h00 : roundHalfEven (((0 : ℤ) : ℝ) / 2) = 0 := by
    unfold roundHalfEven; norm_num
  unfold SeriesObj.getSpectrum
  congr 1
  funext x
  simp only [if_true, Bool.false_eq_true, if_false]
  rw [if_neg (by intro h; rcases h with h | h <;> linarith), h0, h00]

/-! ## C62: laws of the Welch spectrum -/

theorem segmentPsd_shift (fs : ℝ) (w : List ℝ) (nfft : Nat) (seg : List ℝ) (c : ℝ) :
    segmentPsd fs w nfft (seg.map fun v => v + c) = segmentPsd fs w nfft seg := by
  by_cases h : seg = []
  · rw [h]; rfl
  have e : ((seg.map fun v => v + c).map fun v => v - mean (seg.map fun v => v + c)) = seg.map fun v => v - mean seg := by
    rw [mean_map_add h, List.map_map]
    apply List.map_congr_left; intro v _; simp only [Function.comp]; ring
  unfold segmentPsd
  rw [e]

theorem zipWith_map_mul (w l : List ℝ) (c : ℝ) :
    List.zipWith (· * ·) w (l.map fun v => c * v) = (List.zipWith (· * ·) w l).map fun v => c * v := by
  rw [List.zipWith_map_right, List.map_zipWith]
  congr 1
  funext a b; ring

theorem segmentPsd_scale (fs : ℝ) (w : List ℝ) (nfft : Nat) (seg : List ℝ) (c : ℝ) :
    segmentPsd fs w nfft (seg.map fun v => c * v) = (segmentPsd fs w nfft seg).map fun p => c ^ 2 * p := by
  have e : ((seg.map fun v => c * v).map fun v => v - mean (seg.map fun v => c * v)) = (seg.map fun v => v - mean seg).map fun v => c * v := by
    rw [mean_map_mul, List.map_map, List.map_map]
    apply List.map_congr_left; intro v _; simp only [Function.comp]; ring
  unfold segmentPsd
  dsimp only
  rw [e, zipWith_map_mul, List.length_map, List.map_map]
  generalize hd : List.zipWith (· * ·) w (seg.map fun v => v - mean seg) = d
  have e2 : d.map (fun v => c * v) ++ List.replicate (nfft - d.length) 0 = (d ++ List.replicate (nfft - d.length) 0).map fun v => c * v := by
    rw [List.map_append, List.map_replicate, mul_zero]
  rw [e2, npFft_ofReal, npFft_ofReal, List.length_map]
  generalize d ++ List.replicate (nfft - d.length) 0 = q
  apply List.map_congr_left
  intro k _
  have e3 : Complex.normSq (((List.range q.length).map (coef (q.map fun v => c * v))).getD k 0) =
      c ^ 2 * Complex.normSq (((List.range q.length).map (coef q)).getD k 0) := by
    by_cases hk : k < q.length
    · rw [getD_map_range _ _ _ _ hk, getD_map_range _ _ _ _ hk, coef_mul, Complex.normSq_mul, Complex.normSq_ofReal]; ring
    · rw [List.getD_eq_default _ _ (by simpa using hk), List.getD_eq_default _ _ (by simpa using hk)]; simp
  simp only [Function.comp]
  rw [e3]
  split_ifs <;> ring

theorem segments_map (x : List ℝ) (g : ℝ → ℝ) (a b : Nat) : segments (x.map g) a b = (segments x a b).map (List.map g) := by
  unfold segments pySlice
  rw [List.length_map, List.map_map]
  apply List.map_congr_left
  intro i _
  simp only [Function.comp, List.map_drop, List.map_take]

/-- **C62 (mean level).**  Adding a constant to the signal does not change the Welch spectrum (nor the errors raised). -/
theorem welch_shift (x : List ℝ) (c dt : ℝ) (nps nov nfft : Int) (window : String) :
    welchWrapper (x.map fun v => v + c) dt nps nov nfft window = welchWrapper x dt nps nov nfft window := by
  unfold welchWrapper welch
  simp only [List.length_map, List.map_eq_nil_iff, segments_map, List.map_map]
  have : ∀ (w : List ℝ) (n : Nat), segmentPsd (1 / dt) w n ∘ List.map (fun v => v + c) = segmentPsd (1 / dt) w n := by
    intro w n; funext seg; exact segmentPsd_shift _ _ _ _ _
  simp only [this]

/-- **C62 (scaling).**  Multiplying the signal by `c` multiplies the densities by `c²` and leaves the frequencies (and errors) unchanged. -/
theorem welch_scale (x : List ℝ) (c dt : ℝ) (nps nov nfft : Int) (window : String) :
    welchWrapper (x.map fun v => c * v) dt nps nov nfft window =
      (welchWrapper x dt nps nov nfft window).map fun r => (r.1, r.2.map fun d => c ^ 2 * d) := by
  have h1 : ∀ (w : List ℝ) (n : Nat) (l : List (List ℝ)) (k : Nat),
      mean ((l.map (segmentPsd (1 / dt) w n ∘ List.map (fun v => c * v))).map fun p => p.getD k 0) =
        c ^ 2 * mean ((l.map (segmentPsd (1 / dt) w n)).map fun p => p.getD k 0) := by
    intro w n l k
    rw [← mean_map_mul, List.map_map, List.map_map, List.map_map]
    congr 1
    apply List.map_congr_left
    intro seg _
    simp only [Function.comp]
    rw [segmentPsd_scale]
    by_cases hk : k < n / 2 + 1
    · rw [List.getD_eq_getElem _ _ (by rw [List.length_map, segmentPsd_length]; exact hk), List.getElem_map,
        List.getD_eq_getElem _ _ (by rw [segmentPsd_length]; exact hk)]
    · rw [List.getD_eq_default _ _ (by rw [List.length_map, segmentPsd_length]; omega),
        List.getD_eq_default _ _ (by rw [segmentPsd_length]; omega), mul_zero]
  unfold welchWrapper
  by_cases hd : dt = 0
  · rw [if_pos hd, if_pos hd]; rfl
  rw [if_neg hd, if_neg hd]
  dsimp only
  generalize (if nps = 0 then none else some nps) = onps
  generalize (if nov = 0 then none else some nov) = onov
  generalize (if nfft = 0 then none else some nfft) = onfft
  unfold welch
  simp only [List.length_map, List.map_eq_nil_iff, segments_map]
  by_cases hx : x = []
  · rw [if_pos hx, if_pos hx]; rfl
  rw [if_neg hx, if_neg hx]
  by_cases h2 : onps.getD 256 < 1
  · rw [if_pos h2, if_pos h2]; rfl
  rw [if_neg h2, if_neg h2]
  cases getWindow window (min (onps.getD 256).toNat x.length) with
  | error e => rfl
  | ok w =>
    dsimp only
    split_ifs
    · rfl
    · rfl
    · simp only [Except.map, List.map_map, Function.comp_def]
      simp only [Except.ok.injEq, Prod.mk.injEq, true_and]
      apply List.map_congr_left
      intro k _
      have := h1 w (onfft.getD ((min (onps.getD 256).toNat x.length : Nat) : Int)).toNat
        (segments x (min (onps.getD 256).toNat x.length) (((min (onps.getD 256).toNat x.length : Nat) : Int) -
          onov.getD ((min (onps.getD 256).toNat x.length / 2 : Nat) : Int)).toNat) k
      simpa only [List.map_map, Function.comp_def] using this

/-- **C62 (constant signals).**  A constant signal has zero spectrum. -/
theorem welch_constant {n : Nat} {c dt : ℝ} {nps nov nfft : Int} {window : String} {f S : List ℝ}
    (h : welchWrapper (List.replicate n c) dt nps nov nfft window = .ok (f, S)) : ∀ d ∈ S, d = 0 := by
  have e1 : List.replicate n c = (List.replicate n (0 : ℝ)).map fun v => v + c := by rw [List.map_replicate, zero_add]
  have e2 : List.replicate n (0 : ℝ) = (List.replicate n (0 : ℝ)).map fun v => (0 : ℝ) * v := by rw [List.map_replicate, zero_mul]
  rw [e1, welch_shift, e2, welch_scale] at h
  cases hw : welchWrapper (List.replicate n (0 : ℝ)) dt nps nov nfft window with
  | error e => rw [hw] at h; cases h
  | ok r =>
    rw [hw] at h
    simp only [Except.map, Except.ok.injEq, Prod.mk.injEq] at h
    intro d hd
    rw [← h.2] at hd
    obtain ⟨u, -, rfl⟩ := List.mem_map.1 hd
    ring

/-! ## Concrete cases -/

theorem axis5 : UniformAxis ([0, 1, 2, 3, 4] : List ℝ) 1 :=
  ⟨by norm_num, fun i hi => by
    simp only [List.length_cons, List.length_nil] at hi; have : i < 4 := by omega
    interval_cases i <;> norm_num⟩

/-- Five samples, `dfDesired = 1/4`: segments of 4 samples, overlap 2. -/
example : ∃ s sp S v, SeriesObj.init (vec [0, 1, 2, 3, 4]) (vec [0, 1, 0, -1, (2 : ℝ)]) = .ok s ∧
    s.getSpectrum 256 0 0 "hann" (1 / 4) true = .ok sp ∧ sp.sVarDens = arr1 S ∧
    IsWelch [0, 1, 0, -1, 2] 1 (hann 4) 4 v 4 sp.f S := by
  obtain ⟨s, sp, S, v, h1, h2, h3, h4, -⟩ := get_spectrum_resolution_partial (isVec_vec ([0, 1, 2, 3, 4] : List ℝ)) (isVec_vec ([0, 1, 0, -1, 2] : List ℝ))
    (by simp) (by simp) axis5 (df := 1 / 4) (by norm_num) (N := 4) (by unfold roundHalfEven; norm_num) (by norm_num) (by simp) 256 0
  exact ⟨s, sp, S, v, h1, h2, h3, h4⟩

/-- ... and the default `dfDesired = 0.01` raises for the same series. -/
example : ∃ s, SeriesObj.init (vec [0, 1, 2, 3, 4]) (vec [0, 1, 0, -1, (2 : ℝ)]) = .ok s ∧
    s.getSpectrum 256 0 0 "hann" (1 / 100) true = .error (.valueError "noverlap must be less than nperseg.") :=
  get_spectrum_short_fails (isVec_vec ([0, 1, 2, 3, 4] : List ℝ)) (isVec_vec ([0, 1, 0, -1, 2] : List ℝ))
    (by simp) (by simp) axis5 (by norm_num) (N := 100) (by unfold roundHalfEven; norm_num) (by simp) 256 0

/-- Explicit settings: segments of 2 samples with overlap 1, transform length 4. -/
example : ∃ s sp S, SeriesObj.init (vec [0, 1, 2, 3, 4]) (vec [0, 1, 0, -1, (2 : ℝ)]) = .ok s ∧
    s.getSpectrum (2 : Nat) (1 : Nat) (4 : Nat) "boxcar" 0 false = .ok sp ∧ sp.sVarDens = arr1 S ∧
    IsWelch [0, 1, 0, -1, 2] 1 [1, 1] 2 1 4 sp.f S :=
  get_spectrum_explicit (isVec_vec ([0, 1, 2, 3, 4] : List ℝ)) (isVec_vec ([0, 1, 0, -1, 2] : List ℝ))
    (by simp) (by simp) axis5 (by simp) (by simp) (by simp) (by norm_num) (by norm_num) (by norm_num) (by norm_num) rfl 0

example := welch_zero_overlap_is_half [0, 1, 0, -1, 2] 1 (nps := 4) (by norm_num) (by simp) 8 "hann"
/-- Resolution 3 Hz asked of a record sampled at 1 Hz. -/
example : ∃ s, SeriesObj.init (vec [0, 1, 2, 3, 4]) (vec [0, 1, 0, -1, (2 : ℝ)]) = .ok s ∧
    s.getSpectrum 256 0 0 "hann" 3 true = s.getSpectrum 0 0 0 "hann" 3 false := by
  obtain ⟨s, -, -, -, hs, -, -, -, this, -⟩ := series_never_fails (isVec_vec ([0, 1, 2, 3, 4] : List ℝ)) (isVec_vec ([0, 1, 0, -1, 2] : List ℝ)) (by simp) rfl axis5
  exact ⟨s, hs, get_spectrum_coarse_df (by norm_num) (by rw [this]; norm_num) (by rw [this]; norm_num) 256 0 0 "hann"⟩
/-- Four of five samples, Hann window: the energy identity. -/
example : ∃ f S, welch [0, 1, 0, -1, 2] (1 / 1) "hann" (some 4) (some 2) (some 4) = .ok (f, S) ∧ ∀ d ∈ S, 0 ≤ d := by
  obtain ⟨f, S, h1, h2⟩ := welch_ok (x := [0, 1, 0, -1, 2]) (by simp) (dt := 1) (window := "hann") (nperseg := some 4) (noverlap := some 2) (nfft := some 4)
    (N := 4) (v := 2) (M := 4) (w := hann 4) (by simp) (by simp) rfl (by simp [hann]) rfl (by norm_num) rfl (by norm_num)
  exact ⟨f, S, h1, (welch_energy (by norm_num) h2 (by simp [hann]) (by norm_num) (by simp) (by norm_num)).2⟩
/-- A constant record has a spectrum, and it is zero. -/
example : ∃ f S, welchWrapper (List.replicate 6 7) 1 4 2 4 "hann" = .ok (f, S) ∧ ∀ d ∈ S, d = 0 := by
  obtain ⟨f, S, h1, h2⟩ := welch_ok (x := List.replicate 6 7) (by simp) (dt := 1) (window := "hann") (nperseg := some 4) (noverlap := some 2) (nfft := some 4)
    (N := 4) (v := 2) (M := 4) (w := hann 4) (by simp) (by simp) rfl (by simp [hann]) rfl (by norm_num) rfl (by norm_num)
  have : welchWrapper (List.replicate 6 7) 1 4 2 4 "hann" = .ok (f, S) := by
    unfold welchWrapper
    norm_num
    norm_num at h1
    exact h1
  exact ⟨f, S, this, welch_constant this⟩
example := hann_energy_pos (n := 1) one_pos
example := hann_half_overlap (m := 128) (j := 5) (by norm_num) (by norm_num)
example : ∃ m, welchWrapper [0, 1, 0, -1, 2] 1 4 4 0 "hann" = .error (.valueError m) :=
  (welch_rejects (x := [0, 1, 0, -1, 2]) (by simp) (dt := 1) (by norm_num) "hann" (by simp [windowNames]) 4 4 0).2.2 (by norm_num) (.inl rfl) (by norm_num) (by simp)

end Verif
