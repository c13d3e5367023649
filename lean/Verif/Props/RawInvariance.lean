import Verif.Props.RoundTrip
import Verif.Props.Skewness

/-! # C92: what the raw spectrum of a series does and does not depend on -/

set_option linter.unusedSectionVars false

namespace Verif
open Finset

theorem getSpectrumRaw_eq {s : SeriesObj ℝ} {t x : List ℝ} {dt : ℝ} (h : ValidSeries s t x dt) (df : ℝ) :
    s.getSpectrumRaw df = (frequencyAveragingL ((List.range (x.length / 2 + 1)).map fun (k : Nat) => (k : ℝ) / (x.length * dt))
      ((List.range (x.length / 2 + 1)).map (rawBin x dt)) df >>= fun p => SpecObj.init (vec p.1) (vec p.2)) := by
  have hx2 : 2 ≤ x.length := h.len ▸ h.two
  have hdt := h.axis.1
  have hN : (0 : ℝ) < x.length := by exact_mod_cast (by omega : 0 < x.length)
  have hdf : dfOf t = 1 / (x.length * dt) := by unfold dfOf; rw [uniform_first_step h.two h.axis, h.len]
  have hfa : freqAxis (x.length / 2 + 1) (dfOf t) = (List.range (x.length / 2 + 1)).map fun (k : Nat) => (k : ℝ) / (x.length * dt) := by
    rw [hdf]; unfold freqAxis
    exact List.map_congr_left fun k _ => by rw [mul_one_div]
  have hS : ((List.range (x.length / 2 + 1)).map fun k => 2 * Complex.normSq (coef x k) / (dfOf t * x.length * x.length)) =
      (List.range (x.length / 2 + 1)).map (rawBin x dt) := by
    refine List.map_congr_left fun k _ => ?_
    unfold rawBin
    rw [← coef_eq_sum, hdf]
    field_simp
  have e := rawSpectrum_eq h.isArr_time h.isArr_x h.accepted h.len df
  rw [hfa, hS] at e
  unfold SeriesObj.getSpectrumRaw
  rw [e]

/-- The raw spectrum depends on the samples only through the moduli of their Fourier coefficients, and on the time axis only
through its step. -/
theorem raw_spectrum_congr {s s' : SeriesObj ℝ} {t t' x x' : List ℝ} {dt : ℝ} (h : ValidSeries s t x dt)
    (h' : ValidSeries s' t' x' dt) (hl : x'.length = x.length) (hk : ∀ k, Complex.normSq (coef x' k) = Complex.normSq (coef x k)) (df : ℝ) :
    s'.getSpectrumRaw df = s.getSpectrumRaw df := by
  rw [getSpectrumRaw_eq h, getSpectrumRaw_eq h', hl]
  have : rawBin x' dt = rawBin x dt := by
    funext k
    unfold rawBin
    rw [← coef_eq_sum, ← coef_eq_sum, hk, hl]
  rw [this]

theorem normSq_coef_mul (x : List ℝ) (c : ℝ) (k : Nat) :
    Complex.normSq (coef (x.map fun v => c * v) k) = c ^ 2 * Complex.normSq (coef x k) := by
  rw [coef_mul, Complex.normSq_mul, Complex.normSq_ofReal]; ring

theorem normSq_coef_reverse (x : List ℝ) (k : Nat) : Complex.normSq (coef x.reverse k) = Complex.normSq (coef x k) := by
  rw [coef_reverse, Complex.normSq_mul, Complex.normSq_conj, Complex.normSq_eq_norm_sq, norm_twiddle]; ring

theorem coef_rotate_one (a : ℝ) (l : List ℝ) (k : Nat) :
    coef (l ++ [a]) k = twiddle (l.length + 1) k * coef (a :: l) k := by
  have hl : (l ++ [a]).length = l.length + 1 := by simp
  have hl' : (a :: l).length = l.length + 1 := by simp
  unfold coef fwd
  rw [hl, hl', Finset.sum_range_succ, Finset.sum_range_succ', mul_add, Finset.mul_sum]
  have e1 : (l ++ [a]).getD l.length 0 = a := by simp
  have e2 : (a :: l).getD 0 0 = a := rfl
  congr 1
  · refine Finset.sum_congr rfl fun j hj => ?_
    have hj := mem_range.1 hj
    have e3 : (l ++ [a]).getD j 0 = l.getD j 0 := by
      simp [List.getD_eq_getElem?_getD, List.getElem?_append_left hj]
    have e4 : -((j : ℤ) * k) = (k : ℤ) + -(((j + 1 : ℕ) : ℤ) * k) := by push_cast; ring
    dsimp only
    rw [e3, List.getD_cons_succ, e4, twiddle_add]
    ring
  · have e5 : -((l.length : ℤ) * k) = (k : ℤ) + ((l.length + 1 : ℕ) : ℤ) * (-(k : ℤ)) := by push_cast; ring
    dsimp only
    rw [e1, e2, e5, twiddle_add, twiddle_mul_self (by omega)]
    simp [twiddle_zero]; ring

theorem normSq_coef_rotate (x : List ℝ) (m k : Nat) : Complex.normSq (coef (x.rotate m) k) = Complex.normSq (coef x k) := by
  induction m generalizing x with
  | zero => rw [List.rotate_zero]
  | succ m ih =>
    cases x with
    | nil => simp
    | cons a l =>
      rw [List.rotate_cons_succ, ih, coef_rotate_one, Complex.normSq_mul, Complex.normSq_eq_norm_sq, norm_twiddle]; ring

/-- `x'` is obtained from `x` by turning it upside down, by running it backwards, or by moving its first `m` samples to the end. -/
def Mirrored (x x' : List ℝ) : Prop := x' = x.map Neg.neg ∨ x' = x.reverse ∨ ∃ m, x' = x.rotate m

/-- **C92 (invariance).** For every valid series and every resolution `df`: the raw spectrum (or the error raised) does not change
when the time axis is moved to another start, when the signal is turned upside down, run backwards or circularly shifted. -/
theorem raw_spectrum_invariant {s s' : SeriesObj ℝ} {t t' x x' : List ℝ} {dt : ℝ} (h : ValidSeries s t x dt)
    (h' : ValidSeries s' t' x' dt) (hx : x' = x ∨ Mirrored x x') (df : ℝ) : s'.getSpectrumRaw df = s.getSpectrumRaw df := by
  rcases hx with rfl | rfl | rfl | ⟨m, rfl⟩
  · exact raw_spectrum_congr h h' rfl (fun _ => rfl) df
  · refine raw_spectrum_congr h h' (by simp) (fun k => ?_) df
    have : x.map Neg.neg = x.map fun v => (-1 : ℝ) * v := List.map_congr_left fun v _ => by ring
    rw [this, normSq_coef_mul]; ring
  · exact raw_spectrum_congr h h' (by simp) (normSq_coef_reverse x) df
  · exact raw_spectrum_congr h h' (by simp) (normSq_coef_rotate x m) df

/-- **C92 (scaling).** Multiplying the signal by `c` multiplies the raw densities by `c²` and changes nothing else: whenever the one
call returns a spectrum, so does the other. -/
theorem raw_spectrum_scales {s s' : SeriesObj ℝ} {t t' x : List ℝ} {dt c : ℝ} (h : ValidSeries s t x dt)
    (h' : ValidSeries s' t' (x.map fun v => c * v) dt) {df : ℝ} {sp : SpecObj} (hs : s.getSpectrumRaw df = .ok sp) :
    ∃ D, sp.sVarDens = arr1 D ∧ s'.getSpectrumRaw df = .ok { sp with sVarDens := arr1 (D.map fun v => c ^ 2 * v) } := by
  rw [getSpectrumRaw_eq h] at hs
  rw [getSpectrumRaw_eq h', List.length_map]
  have hbin : (List.range (x.length / 2 + 1)).map (rawBin (x.map fun v => c * v) dt) =
      ((List.range (x.length / 2 + 1)).map (rawBin x dt)).map fun v => c ^ 2 * v := by
    rw [List.map_map]
    refine List.map_congr_left fun k _ => ?_
    unfold rawBin
    simp only [Function.comp_apply]
    rw [← coef_eq_sum, ← coef_eq_sum, normSq_coef_mul, List.length_map]
    ring
  rw [hbin]
  generalize (List.range (x.length / 2 + 1)).map (rawBin x dt) = G at hs ⊢
  generalize ((List.range (x.length / 2 + 1)).map fun (k : Nat) => (k : ℝ) / (x.length * dt)) = F at hs ⊢
  rw [bind_ok] at hs
  obtain ⟨⟨fc, sc⟩, h1, h2⟩ := hs
  have hmean : ∀ l : List ℝ, meanE (l.map fun v => c ^ 2 * v) = (meanE l).map fun v => c ^ 2 * v := by
    intro l
    cases l with
    | nil => rfl
    | cons a l =>
      unfold meanE
      simp only [List.map_cons]
      show Except.ok _ = Except.ok _
      rw [← List.map_cons (f := fun v => c ^ 2 * v), mean_map_mul]
  have key : frequencyAveragingL F (G.map fun v => c ^ 2 * v) df = .ok (fc, sc.map fun v => c ^ 2 * v) := by
    unfold frequencyAveragingL at h1 ⊢
    rw [bind_ok] at h1 ⊢
    obtain ⟨n, e1, h1⟩ := h1
    refine ⟨n, e1, ?_⟩
    by_cases hG : G = []
    · rw [if_pos hG] at h1; cases h1
    · rw [if_neg hG] at h1
      rw [if_neg (by simpa using hG)]
      dsimp only at h1 ⊢
      rw [bind_ok] at h1 ⊢
      obtain ⟨a, e2, h1⟩ := h1
      refine ⟨a, e2, ?_⟩
      rw [bind_ok] at h1 ⊢
      obtain ⟨b, e3, h1⟩ := h1
      simp only [pure, Except.pure, Except.ok.injEq, Prod.mk.injEq] at h1
      obtain ⟨rfl, rfl⟩ := h1
      refine ⟨b.map fun v => c ^ 2 * v, ?_, rfl⟩
      rw [mapM_ok] at e3 ⊢
      rw [List.forall₂_map_right_iff]
      refine e3.imp fun i v hv => ?_
      rw [show pySlice (G.map fun v => c ^ 2 * v) (i * n) ((i + 1) * n) = (pySlice G (i * n) ((i + 1) * n)).map fun v => c ^ 2 * v by
        simp [pySlice, List.map_take, List.map_drop], hmean, hv]; rfl
  obtain ⟨e1, e2, e3⟩ := (spectrum_init_iff_partial (isArr_vec fc) (isArr_vec sc)).1 h2
  refine ⟨sc, by rw [e3]; rfl, ?_⟩
  rw [bind_ok]
  refine ⟨_, key, ?_⟩
  rw [spectrum_init_iff_partial (isArr_vec fc) (isArr_vec _)]
  refine ⟨e1, by rw [List.length_map]; exact e2, ?_⟩
  rw [e3]
  simp [arr1]

theorem coef_add_const {x : List ℝ} (c : ℝ) {k : Nat} (h0 : 0 < k) (hk : k < x.length) :
    coef (x.map fun v => v + c) k = coef x k := by
  have hn : 0 < x.length := by omega
  have h1 : coef (x.map fun v => v + c) k = fwd x.length (fun j => ((x.getD j 0 : ℝ) : ℂ) + (c : ℂ) * 1) k := by
    unfold coef
    rw [List.length_map]
    apply fwd_congr
    intro i hi
    rw [List.getD_eq_getElem _ _ (by simpa using hi), List.getD_eq_getElem _ _ hi, List.getElem_map]
    push_cast; ring
  rw [h1, fwd_add x.length (fun j => ((x.getD j 0 : ℝ) : ℂ)) (fun _ => (c : ℂ) * 1), fwd_smul]
  have h2 := sum_twiddle hn (-(k : ℤ))
  have h3 : fwd x.length (fun _ => (1 : ℂ)) k = 0 := by
    unfold fwd
    simp only [one_mul]
    rw [show (∑ j ∈ range x.length, twiddle x.length (-((j : ℤ) * k))) = ∑ j ∈ range x.length, twiddle x.length ((j : ℤ) * -(k : ℤ)) from
      Finset.sum_congr rfl fun j _ => by rw [mul_neg], h2, if_neg]
    intro h3
    rw [dvd_neg] at h3
    exact absurd (Nat.le_of_dvd h0 (Int.natCast_dvd_natCast.1 h3)) (by omega)
  rw [h3, mul_zero, add_zero]
  rfl

/-- **C92 (mean level).** Adding a constant to the signal changes the raw spectrum only in its first bin (the one that contains
frequency 0). -/
theorem raw_spectrum_offset {s s' : SeriesObj ℝ} {t t' x : List ℝ} {dt c : ℝ} (h : ValidSeries s t x dt)
    (h' : ValidSeries s' t' (x.map fun v => v + c) dt) {df : ℝ} {sp sp' : SpecObj} (hs : s.getSpectrumRaw df = .ok sp)
    (hs' : s'.getSpectrumRaw df = .ok sp') :
    ∃ D D', sp.sVarDens = arr1 D ∧ sp'.sVarDens = arr1 D' ∧ sp'.f = sp.f ∧ D'.length = D.length ∧
      ∀ i, 1 ≤ i → D'.getD i 0 = D.getD i 0 := by
  have hx2 : 2 ≤ x.length := h.len ▸ h.two
  have hdt := h.axis.1
  have hN : (0 : ℝ) < x.length := by exact_mod_cast (by omega : 0 < x.length)
  rw [getSpectrumRaw_eq h] at hs
  rw [getSpectrumRaw_eq h', List.length_map] at hs'
  set F := (List.range (x.length / 2 + 1)).map fun (k : Nat) => (k : ℝ) / (x.length * dt) with hF
  set G := (List.range (x.length / 2 + 1)).map (rawBin x dt) with hG
  set G' := (List.range (x.length / 2 + 1)).map (rawBin (x.map fun v => v + c) dt) with hG'
  have hFl : F.length = x.length / 2 + 1 := by simp [hF]
  have hGl : G.length = x.length / 2 + 1 := by simp [hG]
  have hGl' : G'.length = x.length / 2 + 1 := by simp [hG']
  rw [bind_ok] at hs hs'
  obtain ⟨⟨fc, sc⟩, h1, h2⟩ := hs
  obtain ⟨⟨fc', sc'⟩, h1', h2'⟩ := hs'
  obtain ⟨e1, e2, e3⟩ := (spectrum_init_iff_partial (isArr_vec fc) (isArr_vec sc)).1 h2
  obtain ⟨e1', e2', e3'⟩ := (spectrum_init_iff_partial (isArr_vec fc') (isArr_vec sc')).1 h2'
  obtain ⟨n, hn⟩ : ∃ n, nFactorOf F df = .ok n := by
    unfold frequencyAveragingL at h1
    rw [bind_ok] at h1
    obtain ⟨n, e, -⟩ := h1
    exact ⟨n, e⟩
  have hn1 := nFactorOf_pos hn
  have k1 := frequencyAveragingL_eq (S := G) hn hn1 (by intro h; rw [h] at hGl; simp at hGl) (by omega)
  have k2 := frequencyAveragingL_eq (S := G') hn hn1 (by intro h; rw [h] at hGl'; simp at hGl') (by omega)
  rw [k1] at h1
  rw [k2] at h1'
  simp only [Except.ok.injEq, Prod.mk.injEq] at h1 h1'
  obtain ⟨f1, s1⟩ := h1
  obtain ⟨f2, s2⟩ := h1'
  have l1 : sc.length = F.length / n := by rw [← s1]; simp
  have l2 : sc'.length = F.length / n := by rw [← s2]; simp
  refine ⟨sc, sc', by rw [e3]; rfl, by rw [e3']; rfl, ?_, by rw [l1, l2], ?_⟩
  · rw [e3, e3']; simp only; rw [← f1, ← f2]
  · intro i hi
    by_cases hil : i < F.length / n
    · rw [← s1, ← s2, getD_map_range _ _ _ _ hil, getD_map_range _ _ _ _ hil]
      congr 1
      refine sum_congr rfl fun j hj => ?_
      have hj := mem_range.1 hj
      have hb := slice_bound hil
      have hb2 : i * n + j < x.length / 2 + 1 := by
        have : (i + 1) * n = i * n + n := by ring
        omega
      have hb3 : 0 < i * n + j := by
        have : 0 < i * n := Nat.mul_pos (by omega) hn1
        omega
      rw [hG, hG', getD_map_range _ _ _ _ hb2, getD_map_range _ _ _ _ hb2]
      unfold rawBin
      rw [← coef_eq_sum, ← coef_eq_sum, coef_add_const c hb3 (by omega), List.length_map]
    · rw [List.getD_eq_default _ _ (by omega), List.getD_eq_default _ _ (by omega)]

/-- Non-vacuity: a series of four samples, its reversal and its circular shift on a later axis, and the same series raised by 5. -/
example : ∃ s s1 s2 s3 : SeriesObj ℝ, ValidSeries s [0, 1, 2, 3] [1, -1, 2, -2] 1 ∧ ValidSeries s1 [0, 1, 2, 3] [-2, 2, -1, 1] 1 ∧
    ValidSeries s2 [7, 8, 9, 10] [-1, 2, -2, 1] 1 ∧ ValidSeries s3 [0, 1, 2, 3] [6, 4, 7, 3] 1 ∧
    Mirrored [1, -1, 2, -2] [-2, 2, -1, 1] ∧ Mirrored [1, -1, 2, -2] [-1, 2, -2, 1] ∧
    ([1, -1, 2, -2].map fun v : ℝ => v + 5) = [6, 4, 7, 3] := by
  have mk : ∀ a b c d p q r u : ℝ, b = a + 1 → c = b + 1 → d = c + 1 → ∃ s : SeriesObj ℝ, ValidSeries s [a, b, c, d] [p, q, r, u] 1 := by
    intro a b c d p q r u h1 h2 h3
    have hu : UniformAxis [a, b, c, d] (1 : ℝ) := ⟨one_pos, fun i hi => by
      have : i = 0 ∨ i = 1 ∨ i = 2 := by simp at hi; omega
      rcases this with rfl | rfl | rfl
      · exact h1
      · exact h2
      · exact h3⟩
    obtain ⟨s, _, _, _, e, _⟩ := series_never_fails (isVec_vec [a, b, c, d]) (isVec_vec [p, q, r, u]) (by simp) rfl hu
    exact ⟨s, (validSeries_of_init (isVec_vec [a, b, c, d]) (isVec_vec [p, q, r, u]) (by simp) rfl hu e).1⟩
  obtain ⟨s, h⟩ := mk 0 1 2 3 1 (-1) 2 (-2) (by norm_num) (by norm_num) (by norm_num)
  obtain ⟨s1, h1⟩ := mk 0 1 2 3 (-2) 2 (-1) 1 (by norm_num) (by norm_num) (by norm_num)
  obtain ⟨s2, h2⟩ := mk 7 8 9 10 (-1) 2 (-2) 1 (by norm_num) (by norm_num) (by norm_num)
  obtain ⟨s3, h3⟩ := mk 0 1 2 3 6 4 7 3 (by norm_num) (by norm_num) (by norm_num)
  refine ⟨s, s1, s2, s3, h, h1, h2, h3, .inr (.inl rfl), .inr (.inr ⟨1, rfl⟩), ?_⟩
  norm_num

/-! ## Concrete cases: the hypotheses of the theorems above are met -/

/-- A record, the same record reversed, doubled and raised by 5. -/
example : ∃ s s1 s2 s3 : SeriesObj ℝ, ValidSeries s [0, 1, 2, 3] [1, -1, 2, -2] 1 ∧ s1.getSpectrumRaw 0 = s.getSpectrumRaw 0 ∧
    (∀ sp, s.getSpectrumRaw 0 = .ok sp → ∃ D, sp.sVarDens = arr1 D ∧ s2.getSpectrumRaw 0 = .ok { sp with sVarDens := arr1 (D.map fun v => 2 ^ 2 * v) }) ∧
    (∀ sp sp', s.getSpectrumRaw 0 = .ok sp → s3.getSpectrumRaw 0 = .ok sp' → sp'.f = sp.f) := by
  have mk : ∀ x : List ℝ, 4 = x.length → ∃ s : SeriesObj ℝ, ValidSeries s [0, 1, 2, 3] x 1 := by
    intro x hx
    have hu : UniformAxis [0, 1, 2, 3] (1 : ℝ) := uniformAxis_of_steps (by norm_num) fun i hi => by
      have : i = 0 ∨ i = 1 ∨ i = 2 := by simp at hi; omega
      rcases this with rfl | rfl | rfl <;> norm_num
    obtain ⟨s, _, _, _, e, _⟩ := series_never_fails (isVec_vec [0, 1, 2, 3]) (isVec_vec x) (by simp) hx hu
    exact ⟨s, (validSeries_of_init (isVec_vec [0, 1, 2, 3]) (isVec_vec x) (by simp) hx hu e).1⟩
  obtain ⟨s, h⟩ := mk [1, -1, 2, -2] rfl
  obtain ⟨s1, h1⟩ := mk [-2, 2, -1, 1] rfl
  obtain ⟨s2, h2⟩ := mk ([1, -1, 2, -2].map fun v => 2 * v) rfl
  obtain ⟨s3, h3⟩ := mk ([1, -1, 2, -2].map fun v => v + 5) rfl
  refine ⟨s, s1, s2, s3, h, raw_spectrum_invariant h h1 (.inr (.inr (.inl rfl))) 0, fun sp e => raw_spectrum_scales h h2 e, fun sp sp' e e' => ?_⟩
  obtain ⟨D, D', -, -, h, -⟩ := raw_spectrum_offset h h3 e e'
  exact h

end Verif
