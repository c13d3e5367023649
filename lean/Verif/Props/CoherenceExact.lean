import Verif.Props.Coherence
import Verif.Props.RawInvariance

/-! # C101: what the coherence function computes -/

set_option linter.unusedSectionVars false

namespace Verif
open Finset

/-- **C101 (formula).**  With `n` fine bins per band, the value of band `i` is `(Σ|X1||X2|)² / (Σ|X1|² Σ|X2|²)` over the fine bins of the band, provided
both band energies reach `1e-10`: the squared cosine of the angle between the two vectors of moduli. -/
theorem coherence_formula {f : List ℝ} {X1 X2 : List ℂ} (h1 : X1.length = f.length) (h2 : X2.length = f.length)
    (h2f : 2 ≤ f.length) (hd : f.getD 0 0 < f.getD 1 0) (df : ℝ) :
    ∃ n fc coh, IsFactor n df (f.getD 1 0 - f.getD 0 0) ∧ coherence f X1 X2 df = .ok (fc, coh) ∧ coh.length = f.length / n ∧
      ∀ i < f.length / n, (1 / 10 ^ 10 ≤ (∑ j ∈ range n, ‖X1.getD (i * n + j) 0‖ ^ 2) / n) → (1 / 10 ^ 10 ≤ (∑ j ∈ range n, ‖X2.getD (i * n + j) 0‖ ^ 2) / n) →
        coh.getD i 0 = (∑ j ∈ range n, ‖X1.getD (i * n + j) 0‖ * ‖X2.getD (i * n + j) 0‖) ^ 2 /
          ((∑ j ∈ range n, ‖X1.getD (i * n + j) 0‖ ^ 2) * ∑ j ∈ range n, ‖X2.getD (i * n + j) 0‖ ^ 2) := by
  obtain ⟨n, fc, coh, hs, e, -, hl, hv⟩ := coherence_eq h1 h2 h2f hd df
  refine ⟨n, fc, coh, hs, e, hl, fun i hi e1 e2 => ?_⟩
  have e1' : smallNumber ≤ bandEnergy n X1 i := e1
  have e2' : smallNumber ≤ bandEnergy n X2 i := e2
  rw [hv i hi, max_eq_left e1', max_eq_left e2']
  unfold bandCross bandEnergy
  have hn : (n : ℝ) ≠ 0 := by
    have := hs.1
    exact_mod_cast (by omega : n ≠ 0)
  rw [div_pow, div_mul_div_comm, ← sq, div_div_div_cancel_right₀ (pow_ne_zero 2 hn)]

theorem bandEnergy_map (n : ℕ) (X : List ℂ) (c : ℂ) (i : ℕ) : bandEnergy n (X.map (c * ·)) i = ‖c‖ ^ 2 * bandEnergy n X i := by
  have g : ∀ k, (X.map (c * ·)).getD k 0 = c * X.getD k 0 := by
    intro k
    rw [List.getD_eq_getElem?_getD, List.getD_eq_getElem?_getD, List.getElem?_map]
    cases X[k]? <;> simp
  unfold bandEnergy
  rw [← mul_div_assoc, mul_sum]
  congr 1
  exact sum_congr rfl fun j _ => by rw [g, norm_mul, mul_pow]

theorem bandCross_map (n : ℕ) (X Y : List ℂ) (c : ℂ) (i : ℕ) : bandCross n (X.map (c * ·)) Y i = ‖c‖ * bandCross n X Y i := by
  have g : ∀ k, (X.map (c * ·)).getD k 0 = c * X.getD k 0 := by
    intro k
    rw [List.getD_eq_getElem?_getD, List.getD_eq_getElem?_getD, List.getElem?_map]
    cases X[k]? <;> simp
  unfold bandCross
  rw [← mul_div_assoc, mul_sum]
  congr 1
  exact sum_congr rfl fun j _ => by rw [g, norm_mul, mul_assoc]

theorem blockMeans_unique {n N : ℕ} {fine a b : List ℝ} (ha : BlockMeans n fine a N) (hb : BlockMeans n fine b N) : a = b := by
  apply List.ext_getElem
  · rw [ha.1, hb.1]
  · intro i h1 h2
    have e1 := ha.2 i (by rw [← ha.1]; exact h1)
    have e2 := hb.2 i (by rw [← ha.1]; exact h1)
    rw [List.getD_eq_getElem _ _ h1] at e1
    rw [List.getD_eq_getElem _ _ h2] at e2
    rw [e1, e2]

/-- **C101 (units).**  Multiplying one signal by a non-zero factor does not change the coherence of the bands in which its energy reaches `1e-10` before
and after. -/
theorem coherence_units {f : List ℝ} {X1 X2 : List ℂ} (h1 : X1.length = f.length) (h2 : X2.length = f.length)
    (h2f : 2 ≤ f.length) (hd : f.getD 0 0 < f.getD 1 0) (df : ℝ) {c : ℂ} (hc : c ≠ 0) :
    ∃ n fc coh coh', IsFactor n df (f.getD 1 0 - f.getD 0 0) ∧ coherence f X1 X2 df = .ok (fc, coh) ∧
      coherence f (X1.map (c * ·)) X2 df = .ok (fc, coh') ∧ coh.length = coh'.length ∧ coh.length = f.length / n ∧
      ∀ i < f.length / n, (1 / 10 ^ 10 ≤ (∑ j ∈ range n, ‖X1.getD (i * n + j) 0‖ ^ 2) / n) →
        (1 / 10 ^ 10 ≤ (∑ j ∈ range n, ‖c * X1.getD (i * n + j) 0‖ ^ 2) / n) → coh'.getD i 0 = coh.getD i 0 := by
  obtain ⟨n, fc, coh, hs, e, hb, hl, hv⟩ := coherence_eq h1 h2 h2f hd df
  obtain ⟨n', fc', coh', hs', e', hb', hl', hv'⟩ := coherence_eq (X1 := X1.map (c * ·)) (by simpa using h1) h2 h2f hd df
  obtain rfl : n' = n := isFactor_unique hs' hs
  obtain rfl : fc' = fc := blockMeans_unique hb' hb
  refine ⟨n', fc', coh, coh', hs, e, e', by rw [hl, hl'], hl, fun i hi e1 e2 => ?_⟩
  have hE : bandEnergy n' (X1.map (c * ·)) i = ‖c‖ ^ 2 * bandEnergy n' X1 i := bandEnergy_map _ _ _ _
  have e2' : smallNumber ≤ bandEnergy n' (X1.map (c * ·)) i := by
    rw [hE]
    refine le_trans e2 (le_of_eq ?_)
    unfold bandEnergy
    rw [← mul_div_assoc, mul_sum]
    congr 1
    exact sum_congr rfl fun j _ => by rw [norm_mul, mul_pow]
  have e1' : smallNumber ≤ bandEnergy n' X1 i := e1
  have hc' : ‖c‖ ^ 2 ≠ 0 := pow_ne_zero 2 (norm_ne_zero_iff.2 hc)
  rw [hv' i hi, hv i hi, max_eq_left e2', max_eq_left e1', hE, bandCross_map, mul_pow, mul_assoc, mul_div_mul_left _ _ hc']

/-- **C101 (no averaging).**  Without averaging (`dfDesired = 0`, or one at most half the bin width) every band is a single bin and the coherence of ANY two
signals is 1 in every bin in which both energies reach `1e-10`: it says nothing about the signals. -/
theorem coherence_unaveraged {f : List ℝ} {X1 X2 : List ℂ} (h1 : X1.length = f.length) (h2 : X2.length = f.length)
    (h2f : 2 ≤ f.length) (hd : f.getD 0 0 < f.getD 1 0) {df : ℝ} (hdf : df ≤ (f.getD 1 0 - f.getD 0 0) / 2) :
    ∃ coh, coherence f X1 X2 df = .ok (f, coh) ∧ coh.length = f.length ∧
      ∀ i < f.length, 1 / 10 ^ 10 ≤ ‖X1.getD i 0‖ ^ 2 → 1 / 10 ^ 10 ≤ ‖X2.getD i 0‖ ^ 2 → coh.getD i 0 = 1 := by
  obtain ⟨n, fc, coh, hs, e, hb, hl, hv⟩ := coherence_eq h1 h2 h2f hd df
  obtain rfl : n = 1 := hs.2.2.2 (by rw [div_le_iff₀ (by linarith)]; linarith)
  rw [Nat.div_one] at hl hv
  have hfc : fc = f := by
    apply List.ext_getElem
    · rw [hb.1, Nat.div_one]
    · intro i ha hb'
      have := hb.2 i (by rw [Nat.div_one]; exact hb')
      rw [List.getD_eq_getElem _ _ ha] at this
      rw [this, sum_range_one, Nat.mul_one, Nat.add_zero, Nat.cast_one, div_one, List.getD_eq_getElem _ _ hb']
  refine ⟨coh, by rw [e, hfc], hl, fun i hi e1 e2 => ?_⟩
  have E : ∀ X : List ℂ, bandEnergy 1 X i = ‖X.getD i 0‖ ^ 2 := by
    intro X
    unfold bandEnergy
    rw [sum_range_one, Nat.mul_one, Nat.add_zero, Nat.cast_one, div_one]
  have C : bandCross 1 X1 X2 i = ‖X1.getD i 0‖ * ‖X2.getD i 0‖ := by
    unfold bandCross
    rw [sum_range_one, Nat.mul_one, Nat.add_zero, Nat.cast_one, div_one]
  have p : (0 : ℝ) < 1 / 10 ^ 10 := by positivity
  rw [hv i hi, E, E, C, max_eq_left (show smallNumber ≤ _ from e1), max_eq_left (show smallNumber ≤ _ from e2), mul_pow, div_self]
  exact mul_ne_zero (by linarith) (by linarith)

/-- **C101 (when is it 1).**  In a band whose energies reach `1e-10` the coherence is 1 exactly when the moduli of the two signals are proportional over
the band. -/
theorem coherence_one_iff {f : List ℝ} {X1 X2 : List ℂ} (h1 : X1.length = f.length) (h2 : X2.length = f.length)
    (h2f : 2 ≤ f.length) (hd : f.getD 0 0 < f.getD 1 0) (df : ℝ) :
    ∃ n fc coh, IsFactor n df (f.getD 1 0 - f.getD 0 0) ∧ coherence f X1 X2 df = .ok (fc, coh) ∧ coh.length = f.length / n ∧
      ∀ i < f.length / n, (1 / 10 ^ 10 ≤ (∑ j ∈ range n, ‖X1.getD (i * n + j) 0‖ ^ 2) / n) → (1 / 10 ^ 10 ≤ (∑ j ∈ range n, ‖X2.getD (i * n + j) 0‖ ^ 2) / n) →
        (coh.getD i 0 = 1 ↔ ∃ c : ℝ, 0 < c ∧ ∀ j < n, ‖X2.getD (i * n + j) 0‖ = c * ‖X1.getD (i * n + j) 0‖) := by
  obtain ⟨n, fc, coh, hs, e, hl, hv⟩ := coherence_formula h1 h2 h2f hd df
  refine ⟨n, fc, coh, hs, e, hl, fun i hi e1 e2 => ?_⟩
  rw [hv i hi e1 e2]
  have hn : (0 : ℝ) < n := by
    have := hs.1
    exact_mod_cast (by omega : 0 < n)
  have p : (0 : ℝ) < 1 / 10 ^ 10 := by positivity
  set a : ℕ → ℝ := fun j => ‖X1.getD (i * n + j) 0‖ with ha
  set b : ℕ → ℝ := fun j => ‖X2.getD (i * n + j) 0‖ with hb
  have ha0 : ∀ j, 0 ≤ a j := fun j => norm_nonneg _
  have hb0 : ∀ j, 0 ≤ b j := fun j => norm_nonneg _
  have A : 0 < ∑ j ∈ range n, a j ^ 2 := by
    have := lt_of_lt_of_le p e1
    rwa [div_pos_iff_of_pos_right hn] at this
  have B : 0 < ∑ j ∈ range n, b j ^ 2 := by
    have := lt_of_lt_of_le p e2
    rwa [div_pos_iff_of_pos_right hn] at this
  have C0 : 0 ≤ ∑ j ∈ range n, a j * b j := sum_nonneg fun j _ => mul_nonneg (ha0 j) (hb0 j)
  rw [div_eq_one_iff_eq (mul_pos A B).ne']
  set SA := ∑ j ∈ range n, a j ^ 2 with hSA
  set SB := ∑ j ∈ range n, b j ^ 2 with hSB
  set SC := ∑ j ∈ range n, a j * b j with hSC
  constructor
  · intro h
    have hC : 0 < SC := by
      rcases C0.lt_or_eq with h' | h'
      · exact h'
      · rw [← h'] at h
        have := mul_pos A B
        nlinarith
    refine ⟨SC / SA, div_pos hC A, ?_⟩
    have key : ∑ j ∈ range n, (b j - SC / SA * a j) ^ 2 = 0 := by
      have e3 : ∑ j ∈ range n, (b j - SC / SA * a j) ^ 2 = SB - 2 * (SC / SA) * SC + (SC / SA) ^ 2 * SA := by
        rw [hSA, hSB, hSC, mul_sum, mul_sum, ← sum_sub_distrib, ← sum_add_distrib]
        exact sum_congr rfl fun j _ => by ring
      rw [e3]
      field_simp
      linarith
    intro j hj
    have := (sum_eq_zero_iff_of_nonneg fun j _ => sq_nonneg _).1 key j (mem_range.2 hj)
    have := pow_eq_zero_iff (two_ne_zero) |>.1 this
    show b j = SC / SA * a j
    linarith
  · rintro ⟨c, hc, h⟩
    have hSC' : SC = c * SA := by
      rw [hSC, hSA, mul_sum]
      exact sum_congr rfl fun j hj => by
        have : b j = c * a j := h j (mem_range.1 hj)
        rw [this]; ring
    have hSB' : SB = c ^ 2 * SA := by
      rw [hSB, hSA, mul_sum]
      exact sum_congr rfl fun j hj => by
        have : b j = c * a j := h j (mem_range.1 hj)
        rw [this]; ring
    rw [hSC', hSB']; ring

/-- Non-vacuity: two bands of one and the same axis; energies 1 and 4. -/
example : ∃ coh, coherence [0, 1] [1, 2] [2, Complex.I] 0 = .ok ([0, 1], coh) ∧ coh.getD 0 0 = 1 ∧ coh.getD 1 0 = 1 := by
  obtain ⟨coh, e, -, h⟩ := coherence_unaveraged (f := [0, 1]) (X1 := [1, 2]) (X2 := [2, Complex.I]) rfl rfl (by simp) (by norm_num) (df := 0) (by norm_num)
  exact ⟨coh, e, h 0 (by simp) (by norm_num) (by norm_num), h 1 (by simp) (by norm_num) (by norm_num)⟩

/-! ## Concrete cases: the hypotheses of the theorems above are met -/

/-- A block of two bins. -/
example : ∃ fc coh, coherence [0, 1] [1, 2] [2, Complex.I] 2 = .ok (fc, coh) ∧ coh.getD 0 0 = 16 / 25 ∧ coh.getD 0 0 ≠ 1 := by
  have two : ∀ n, IsFactor n (2 : ℝ) (([0, 1] : List ℝ).getD 1 0 - ([0, 1] : List ℝ).getD 0 0) → n = 2 := fun n hn =>
    isFactor_unique hn ⟨by norm_num, fun h => by norm_num at h, fun _ => by unfold IsRounded; norm_num, fun h => by norm_num at h⟩
  obtain ⟨n, fc, coh, hn, a, b, c⟩ := coherence_formula (f := [0, 1]) (X1 := [1, 2]) (X2 := [2, Complex.I]) rfl rfl (by simp) (by norm_num) 2
  obtain rfl := two n hn
  obtain ⟨n, fc', coh', hn', a', b', c'⟩ := coherence_one_iff (f := [0, 1]) (X1 := [1, 2]) (X2 := [2, Complex.I]) rfl rfl (by simp) (by norm_num) 2
  obtain rfl := two n hn'
  rw [a] at a'
  obtain ⟨rfl, rfl⟩ := Prod.mk.inj (Except.ok.inj a')
  refine ⟨fc, coh, a, ?_, ?_⟩
  · rw [c 0 (by simp) (by norm_num [Finset.sum_range_succ]) (by norm_num [Finset.sum_range_succ])]
    norm_num [Finset.sum_range_succ]
  · rw [ne_eq, c' 0 (by simp) (by norm_num [Finset.sum_range_succ]) (by norm_num [Finset.sum_range_succ])]
    rintro ⟨k, -, hk⟩
    have h0 := hk 0 (by norm_num)
    have h1 := hk 1 (by norm_num)
    norm_num at h0 h1
    rw [← h0] at h1
    norm_num at h1

example := coherence_units (f := [0, 1]) (X1 := [1, 2]) (X2 := [2, Complex.I]) rfl rfl (by simp) (by norm_num) 2 (c := 100) (by norm_num)

end Verif
