import Verif.Props.DecompCases

/-! # C160: the separation amplifies neither the energy nor the noise of the gauges by more than a known factor -/

set_option linter.unusedSectionVars false

namespace Verif
open Finset Complex

theorem zsDet_nonneg {w : List ℝ} (hw : ∀ i < w.length, 0 ≤ w.getD i 0) (x : List ℝ) (k : ℝ) : 0 ≤ zsDet w x k := by
  unfold zsDet
  refine mul_nonneg (by norm_num) (sum_nonneg fun i hi => sum_nonneg fun j hj => ?_)
  exact mul_nonneg (mul_nonneg (hw i (mem_range.1 hi)) (hw j (mem_range.1 hj))) (sq_nonneg _)

/-- The energy of the two components of one frequency. -/
theorem zsSolve_energy {w d : List ℝ} (hw : ∀ i < w.length, 0 ≤ w.getD i 0) (X : List ℂ) (k : ℝ) {detLim : ℝ} (h0 : 0 < detLim)
    (hW : 0 < w.sum) {A B : ℂ} (hs : zsSolve w d X k detLim = .ok (A, B)) :
    normSq A + normSq B ≤ w.sum / (2 * detLim) * ∑ i ∈ range w.length, w.getD i 0 * normSq (X.getD i 0) := by
  obtain ⟨A1, B1, h1, hz, h3⟩ := zsSolve_spec (w := w) (d := d) (x := d) (fun _ _ _ _ => rfl) X k h0.le
  rw [hs] at h1
  simp only [Except.ok.injEq, Prod.mk.injEq] at h1
  obtain ⟨rfl, rfl⟩ := h1
  have hE0 : 0 ≤ ∑ i ∈ range w.length, w.getD i 0 * normSq (X.getD i 0) :=
    sum_nonneg fun i hi => mul_nonneg (hw i (mem_range.1 hi)) (normSq_nonneg _)
  by_cases hlt : detLim < |zsDet w d k|
  swap
  · obtain ⟨rfl, rfl⟩ := hz hlt
    rw [normSq_zero, add_zero]
    positivity
  obtain ⟨e1, e2, -⟩ := h3 hlt
  have hdet := det_eq (w := w) (d := d) (x := d) (fun _ _ _ _ => rfl) k
  rw [abs_of_nonneg (zsDet_nonneg hw d k)] at hlt
  set a11 : ℂ := ∑ i ∈ range w.length, ((w.getD i 0 : ℝ) : ℂ) * exp (-I * 2 * (k : ℂ) * ((d.getD i 0 : ℝ) : ℂ)) with ha11
  rw [sumExp_conj, ← ha11] at hdet
  set E : ℕ → ℂ := fun i => exp (-I * (k : ℂ) * ((d.getD i 0 : ℝ) : ℂ)) with hE
  set F : ℕ → ℂ := fun i => exp (I * (k : ℂ) * ((d.getD i 0 : ℝ) : ℂ)) with hF
  have hEF : ∀ i, (starRingEnd ℂ) (E i) = F i := by
    intro i
    simp only [hE, hF]
    rw [← Complex.exp_conj]
    congr 1
    simp only [map_mul, map_neg, Complex.conj_I, Complex.conj_ofReal]
    ring
  have hFE : ∀ i, (starRingEnd ℂ) (F i) = E i := by intro i; rw [← hEF, Complex.conj_conj]
  have nE : ∀ i, normSq (E i) = 1 := fun i => by
    rw [normSq_eq_norm_sq]; simp only [hE]; rw [norm_exp_negI_mul]; norm_num
  have nF : ∀ i, normSq (F i) = 1 := fun i => by rw [← hEF, normSq_conj, nE]
  have s11 : a11 = ∑ i ∈ range w.length, ((w.getD i 0 : ℝ) : ℂ) * (E i * E i) := by
    refine sum_congr rfl fun i _ => ?_
    simp only [hE]; rw [← Complex.exp_add]; congr 2; ring
  -- the fit is orthogonal to the residual
  set r : ℕ → ℂ := fun i => X.getD i 0 - A * E i - B * F i with hr
  set u : ℕ → ℂ := fun i => A * E i + B * F i with hu
  have hsum : ∀ i, X.getD i 0 = r i + u i := by intro i; simp only [hr, hu]; ring
  have horth : (∑ i ∈ range w.length, w.getD i 0 * (r i * (starRingEnd ℂ) (u i)).re) = 0 := by
    have hc : (∑ i ∈ range w.length, ((w.getD i 0 : ℝ) : ℂ) * (r i * (starRingEnd ℂ) (u i))) = 0 := by
      have : (∑ i ∈ range w.length, ((w.getD i 0 : ℝ) : ℂ) * (r i * (starRingEnd ℂ) (u i))) =
          (starRingEnd ℂ) A * (∑ i ∈ range w.length, ((w.getD i 0 : ℝ) : ℂ) * r i * F i) +
          (starRingEnd ℂ) B * (∑ i ∈ range w.length, ((w.getD i 0 : ℝ) : ℂ) * r i * E i) := by
        rw [mul_sum, mul_sum, ← sum_add_distrib]
        refine sum_congr rfl fun i _ => ?_
        simp only [hu, map_add, map_mul, hEF, hFE]
        ring
      rw [this]
      have g1 : (∑ i ∈ range w.length, ((w.getD i 0 : ℝ) : ℂ) * r i * F i) = 0 := e2
      have g2 : (∑ i ∈ range w.length, ((w.getD i 0 : ℝ) : ℂ) * r i * E i) = 0 := e1
      rw [g1, g2]; ring
    have := congrArg Complex.re hc
    rw [Complex.re_sum] at this
    simpa only [Complex.re_ofReal_mul, Complex.zero_re] using this
  have hpy : ∑ i ∈ range w.length, w.getD i 0 * normSq (u i) ≤ ∑ i ∈ range w.length, w.getD i 0 * normSq (X.getD i 0) := by
    have h4 : ∑ i ∈ range w.length, w.getD i 0 * normSq (X.getD i 0) =
        ∑ i ∈ range w.length, (w.getD i 0 * normSq (r i) + 2 * (w.getD i 0 * (r i * (starRingEnd ℂ) (u i)).re) + w.getD i 0 * normSq (u i)) := by
      refine sum_congr rfl fun i _ => ?_
      rw [hsum, normSq_add]; ring
    rw [h4, sum_add_distrib, sum_add_distrib, ← mul_sum, horth]
    have : 0 ≤ ∑ i ∈ range w.length, w.getD i 0 * normSq (r i) :=
      sum_nonneg fun i hi => mul_nonneg (hw i (mem_range.1 hi)) (normSq_nonneg _)
    linarith
  -- the energy of the fit
  have hfit : ∑ i ∈ range w.length, w.getD i 0 * normSq (u i) =
      w.sum * (normSq A + normSq B) + 2 * (A * (starRingEnd ℂ) B * a11).re := by
    have h5 : ∀ i, w.getD i 0 * normSq (u i) =
        w.getD i 0 * (normSq A + normSq B) + 2 * (A * (starRingEnd ℂ) B * (((w.getD i 0 : ℝ) : ℂ) * (E i * E i))).re := by
      intro i
      simp only [hu]
      rw [normSq_add, normSq_mul, normSq_mul, nE, nF, map_mul, hFE,
        show A * (starRingEnd ℂ) B * (((w.getD i 0 : ℝ) : ℂ) * (E i * E i)) =
          ((w.getD i 0 : ℝ) : ℂ) * (A * E i * ((starRingEnd ℂ) B * E i)) by ring, Complex.re_ofReal_mul]
      ring
    rw [sum_congr rfl fun i _ => h5 i, sum_add_distrib, ← sum_mul, ← list_sum_eq_range, ← mul_sum, ← Complex.re_sum, ← mul_sum, ← s11]
  have hcross : -(‖a11‖ * (normSq A + normSq B)) ≤ 2 * (A * (starRingEnd ℂ) B * a11).re := by
    have h6 : |(A * (starRingEnd ℂ) B * a11).re| ≤ ‖A‖ * ‖B‖ * ‖a11‖ := by
      refine (Complex.abs_re_le_norm _).trans ?_
      rw [norm_mul, norm_mul, Complex.norm_conj]
    have h7 := (abs_le.1 h6).1
    rw [normSq_eq_norm_sq, normSq_eq_norm_sq]
    have h8 : 2 * (‖A‖ * ‖B‖) ≤ ‖A‖ ^ 2 + ‖B‖ ^ 2 := by nlinarith [sq_nonneg (‖A‖ - ‖B‖)]
    have h9 := mul_le_mul_of_nonneg_right h8 (norm_nonneg a11)
    linarith
  have nw : ∀ i ∈ range w.length, ‖((w.getD i 0 : ℝ) : ℂ)‖ = w.getD i 0 := fun i hi => by
    rw [Complex.norm_real, Real.norm_eq_abs, abs_of_nonneg (hw i (mem_range.1 hi))]
  have n11 : ‖a11‖ ≤ w.sum := by
    rw [s11, list_sum_eq_range]
    refine norm_sum_le_of_le _ fun i hi => ?_
    rw [norm_mul, norm_mul, nw i hi]
    simp only [hE]; rw [norm_exp_negI_mul]; simp
  have hdet' : (w.sum - ‖a11‖) * (w.sum + ‖a11‖) = 4 * zsDet w d k := by
    rw [Complex.mul_conj] at hdet
    have h10 : normSq a11 - w.sum * w.sum = -4 * zsDet w d k := by exact_mod_cast hdet
    rw [normSq_eq_norm_sq] at h10
    linarith
  have hgap : 2 * detLim ≤ w.sum * (w.sum - ‖a11‖) := by
    have h11 : (w.sum - ‖a11‖) * (w.sum + ‖a11‖) ≤ (w.sum - ‖a11‖) * (2 * w.sum) :=
      mul_le_mul_of_nonneg_left (by linarith) (by linarith)
    linarith
  have hn : 0 ≤ normSq A + normSq B := add_nonneg (normSq_nonneg _) (normSq_nonneg _)
  have h12 : (w.sum - ‖a11‖) * (normSq A + normSq B) ≤ ∑ i ∈ range w.length, w.getD i 0 * normSq (X.getD i 0) := by
    rw [hfit] at hpy; linarith
  have h13 := mul_le_mul_of_nonneg_right hgap hn
  have h14 := mul_le_mul_of_nonneg_left h12 hW.le
  rw [div_mul_eq_mul_div, le_div_iff₀ (by positivity)]
  linarith

theorem realEnds_normSq (n k : ℕ) (z : ℂ) : normSq (realEnds n k z) ≤ normSq z := by
  unfold realEnds
  split_ifs
  · rw [normSq_ofReal, normSq_apply]
    nlinarith [mul_self_nonneg z.im]
  · exact le_rfl

/-- Energy of a record over its coefficients. -/
theorem record_energy {x : List ℝ} (hx : 0 < x.length) :
    ∑ k ∈ range x.length, normSq (coef x k) = x.length * ∑ j ∈ range x.length, x.getD j 0 ^ 2 := by
  have := parseval hx (fun j => ((x.getD j 0 : ℝ) : ℂ))
  rw [show (∑ j ∈ range x.length, x.getD j 0 ^ 2) = ∑ j ∈ range x.length, normSq ((x.getD j 0 : ℝ) : ℂ) from
    sum_congr rfl fun j _ => by rw [normSq_ofReal]; ring, ← this]
  rfl

/-- **C160 (energy).**  With weights that are not negative and a limit `detLim > 0` the incident and the reflected signal together contain at
most `W / (2 detLim)` times the weighted energy of the gauge signals, `W` the sum of the weights. -/
theorem decompose_energy {ts : List ℝ} (hm : AcceptedAxis ts) (xTime : Arr ℝ) {xLoc wLoc : List ℝ} (hg : GaugesOk xLoc wLoc)
    (hw : ∀ w ∈ wLoc, 0 ≤ w) (hs : xTime.shape = [ts.length, xLoc.length]) {h detLim : ℝ} (hh : 0 < h) (h0 : 0 < detLim) :
    ∃ xIn xRe, decomposeZS ts xTime (.fin h) xLoc wLoc detLim = .ok (xIn, xRe) ∧ xIn.length = ts.length ∧ xRe.length = ts.length ∧
      ∑ j ∈ range ts.length, (xIn.getD j 0 ^ 2 + xRe.getD j 0 ^ 2) ≤
        wLoc.sum / (2 * detLim) * ∑ i ∈ range xLoc.length, wLoc.getD i 0 * ∑ j ∈ range ts.length, entry xTime xLoc.length j i ^ 2 := by
  obtain ⟨p, q, e, l1, l2, c⟩ := decompose_form hm xTime hg hs hh h0.le
  refine ⟨p, q, e, l1, l2, ?_⟩
  have h2 : 2 ≤ ts.length := mono_two_le hm
  set n := ts.length with hn
  have hw' : ∀ i < wLoc.length, 0 ≤ wLoc.getD i 0 := fun i hi => by
    rw [List.getD_eq_getElem _ _ hi]; exact hw _ (List.getElem_mem hi)
  have hW : 0 < wLoc.sum := by linarith [hg.total]
  have hc : ∀ i, (column xTime n xLoc.length i).length = n := fun i => column_length _ _ _ _
  -- one bin of the lower half
  have half : ∀ k ≤ n / 2, normSq (coef p k) + normSq (coef q k) ≤
      wLoc.sum / (2 * detLim) * ∑ i ∈ range xLoc.length, wLoc.getD i 0 * normSq (coef (column xTime n xLoc.length i) k) := by
    intro k hk
    obtain ⟨c1, c2⟩ := c k hk
    rw [c1, c2]
    have h3 := zsSolve_energy hw' ((List.range xLoc.length).map fun i => coef (column xTime n xLoc.length i) k) (binWaveNumber ts h k) h0 hW
      (zsSolve_eq wLoc (xLoc.map fun x => x - xLoc.getD 0 0) _ _ h0.le)
    have hX : ∀ i < wLoc.length, ((List.range xLoc.length).map fun i => coef (column xTime n xLoc.length i) k).getD i 0 =
        coef (column xTime n xLoc.length i) k := fun i hi => getD_map_range _ _ _ _ (by rw [hg.len]; exact hi)
    rw [zsPart_congr hX, zsPart_congr hX, ← hg.len] at h3
    rw [sum_congr rfl fun i hi => by rw [hX i (by rw [← hg.len]; exact mem_range.1 hi)]] at h3
    exact (add_le_add (realEnds_normSq _ _ _) (realEnds_normSq _ _ _)).trans h3
  have sym : ∀ {x : List ℝ}, x.length = n → ∀ k < n, ¬ k ≤ n / 2 → normSq (coef x k) = normSq (coef x (n - k)) := by
    intro x hx k hk hk2
    have := coef_conj x (k := n - k) (by omega) (by omega)
    rw [hx, show n - (n - k) = k by omega] at this
    rw [this, normSq_conj]
  have all : ∀ k < n, normSq (coef p k) + normSq (coef q k) ≤
      wLoc.sum / (2 * detLim) * ∑ i ∈ range xLoc.length, wLoc.getD i 0 * normSq (coef (column xTime n xLoc.length i) k) := by
    intro k hk
    by_cases hk2 : k ≤ n / 2
    · exact half k hk2
    · rw [sym l1 k hk hk2, sym l2 k hk hk2]
      simp only [fun i => sym (hc i) k hk hk2]
      exact half (n - k) (by omega)
  have total : ∑ k ∈ range n, (normSq (coef p k) + normSq (coef q k)) ≤
      wLoc.sum / (2 * detLim) * ∑ i ∈ range xLoc.length, wLoc.getD i 0 * ∑ k ∈ range n, normSq (coef (column xTime n xLoc.length i) k) := by
    refine (sum_le_sum fun k hk => all k (mem_range.1 hk)).trans (le_of_eq ?_)
    rw [← mul_sum, sum_comm]
    simp only [mul_sum]
  rw [sum_add_distrib] at total
  have ep := record_energy (x := p) (by omega)
  have eq := record_energy (x := q) (by omega)
  rw [l1] at ep
  rw [l2] at eq
  rw [ep, eq] at total
  have ec : ∀ i ∈ range xLoc.length, wLoc.getD i 0 * ∑ k ∈ range n, normSq (coef (column xTime n xLoc.length i) k) =
      n * (wLoc.getD i 0 * ∑ j ∈ range n, entry xTime xLoc.length j i ^ 2) := by
    intro i _
    have := record_energy (x := column xTime n xLoc.length i) (by rw [hc]; omega)
    rw [hc] at this
    rw [this, show (∑ j ∈ range n, (column xTime n xLoc.length i).getD j 0 ^ 2) = ∑ j ∈ range n, entry xTime xLoc.length j i ^ 2 from
      sum_congr rfl fun j hj => by rw [column, getD_map_range _ _ _ _ (mem_range.1 hj)]; rfl]
    ring
  rw [sum_congr rfl ec, ← mul_sum] at total
  have hn0 : (0 : ℝ) < n := by exact_mod_cast (by omega : 0 < n)
  rw [sum_add_distrib]
  refine le_of_mul_le_mul_left ?_ hn0
  linarith

/-- **C160 (noise).**  Two sets of gauge signals whose entries differ by `e`: the two incident signals and the two reflected signals differ,
in total energy, by at most `W / (2 detLim)` times the weighted energy of `e`. -/
theorem decompose_noise {ts : List ℝ} (hm : AcceptedAxis ts) {X Y : Arr ℝ} {xLoc wLoc : List ℝ} (hg : GaugesOk xLoc wLoc)
    (hw : ∀ w ∈ wLoc, 0 ≤ w) (hX : X.shape = [ts.length, xLoc.length]) (hY : Y.shape = [ts.length, xLoc.length])
    {h detLim : ℝ} (hh : 0 < h) (h0 : 0 < detLim) :
    ∃ p q p' q', decomposeZS ts X (.fin h) xLoc wLoc detLim = .ok (p, q) ∧ decomposeZS ts Y (.fin h) xLoc wLoc detLim = .ok (p', q') ∧
      ∑ j ∈ range ts.length, ((p.getD j 0 - p'.getD j 0) ^ 2 + (q.getD j 0 - q'.getD j 0) ^ 2) ≤
        wLoc.sum / (2 * detLim) * ∑ i ∈ range xLoc.length, wLoc.getD i 0 *
          ∑ j ∈ range ts.length, (entry X xLoc.length j i - entry Y xLoc.length j i) ^ 2 := by
  set m := xLoc.length with hmm
  set n := ts.length with hn
  have hZe : ∀ j < n, ∀ i < m, entry ⟨[n, m], matrixData n m fun j i => entry X m j i - entry Y m j i⟩ m j i =
      entry X m j i - entry Y m j i := fun j hj i hi => matrixData_getD (fun j i => entry X m j i - entry Y m j i) hj hi
  obtain ⟨p, q, p', q', e1, e2, l1, l2, l3, l4, e3⟩ := decompose_linear hm hg hX hY
    (Z := ⟨[n, m], matrixData n m fun j i => entry X m j i - entry Y m j i⟩) rfl hh h0.le 1 (-1) (by
      intro j hj i hi; rw [hZe j hj i hi]; ring)
  obtain ⟨r, s, e4, l5, l6, hb⟩ := decompose_energy hm ⟨[n, m], matrixData n m fun j i => entry X m j i - entry Y m j i⟩ hg hw rfl hh h0
  refine ⟨p, q, p', q', e1, e2, ?_⟩
  rw [e3] at e4
  simp only [Except.ok.injEq, Prod.mk.injEq] at e4
  obtain ⟨rfl, rfl⟩ := e4
  have hz : ∀ {a b : List ℝ}, a.length = n → b.length = n → ∀ j < n, (List.zipWith (fun u v => (1 : ℝ) * u + -1 * v) a b).getD j 0 =
      a.getD j 0 - b.getD j 0 := by
    intro a b ha hb j hj
    rw [List.getD_eq_getElem _ _ (by rw [List.length_zipWith]; omega), List.getElem_zipWith, List.getD_eq_getElem _ _ (by omega),
      List.getD_eq_getElem _ _ (by omega)]
    ring
  rw [sum_congr rfl fun j hj => by rw [hz l1 l3 j (mem_range.1 hj), hz l2 l4 j (mem_range.1 hj)]] at hb
  refine hb.trans (le_of_eq ?_)
  congr 1
  refine sum_congr rfl fun i hi => ?_
  congr 1
  exact sum_congr rfl fun j hj => by rw [hZe j (mem_range.1 hj) i (mem_range.1 hi)]

/-- **C160 (bounded noise).**  If no gauge reading differs by more than `ε`, the mean square differences of the incident and the reflected signal
add up to at most `(W ε)² / (2 detLim)`. -/
theorem decompose_noise_bounded {ts : List ℝ} (hm : AcceptedAxis ts) {X Y : Arr ℝ} {xLoc wLoc : List ℝ} (hg : GaugesOk xLoc wLoc)
    (hw : ∀ w ∈ wLoc, 0 ≤ w) (hX : X.shape = [ts.length, xLoc.length]) (hY : Y.shape = [ts.length, xLoc.length])
    {h detLim ε : ℝ} (hh : 0 < h) (h0 : 0 < detLim)
    (hε : ∀ j < ts.length, ∀ i < xLoc.length, |entry X xLoc.length j i - entry Y xLoc.length j i| ≤ ε) :
    ∃ p q p' q', decomposeZS ts X (.fin h) xLoc wLoc detLim = .ok (p, q) ∧ decomposeZS ts Y (.fin h) xLoc wLoc detLim = .ok (p', q') ∧
      (∑ j ∈ range ts.length, ((p.getD j 0 - p'.getD j 0) ^ 2 + (q.getD j 0 - q'.getD j 0) ^ 2)) / ts.length ≤
        (wLoc.sum * ε) ^ 2 / (2 * detLim) := by
  obtain ⟨p, q, p', q', e1, e2, hb⟩ := decompose_noise hm hg hw hX hY hh h0
  refine ⟨p, q, p', q', e1, e2, ?_⟩
  have h2 : 2 ≤ ts.length := mono_two_le hm
  have hn0 : (0 : ℝ) < ts.length := by exact_mod_cast (by omega : 0 < ts.length)
  have hW : 0 < wLoc.sum := by linarith [hg.total]
  have h3 : ∑ i ∈ range xLoc.length, wLoc.getD i 0 * ∑ j ∈ range ts.length, (entry X xLoc.length j i - entry Y xLoc.length j i) ^ 2 ≤
      wLoc.sum * (ts.length * ε ^ 2) := by
    rw [list_sum_eq_range, ← hg.len, sum_mul]
    refine sum_le_sum fun i hi => mul_le_mul_of_nonneg_left ?_ ?_
    · have : ∑ j ∈ range ts.length, (entry X xLoc.length j i - entry Y xLoc.length j i) ^ 2 ≤ ∑ _j ∈ range ts.length, ε ^ 2 :=
        sum_le_sum fun j hj => sq_le_sq' (abs_le.1 (hε j (mem_range.1 hj) i (mem_range.1 hi))).1
          (abs_le.1 (hε j (mem_range.1 hj) i (mem_range.1 hi))).2
      simpa using this
    · have hi' : i < wLoc.length := by rw [← hg.len]; exact mem_range.1 hi
      rw [List.getD_eq_getElem _ _ hi']; exact hw _ (List.getElem_mem hi')
  have h4 := mul_le_mul_of_nonneg_left h3 (by positivity : 0 ≤ wLoc.sum / (2 * detLim))
  rw [div_le_iff₀ hn0]
  refine (hb.trans h4).trans (le_of_eq ?_)
  field_simp

/-- Concrete case: two gauges one metre apart, four samples, any records. -/
example (g : ℕ → ℕ → ℝ) : ∃ xIn xRe, decomposeZS [0, 1, 2, 3] ⟨[4, 2], matrixData 4 2 g⟩ (.fin 10) [0, 1] [1, 1] (1 / 8) = .ok (xIn, xRe) ∧
    xIn.length = 4 ∧ ∑ j ∈ range 4, (xIn.getD j 0 ^ 2 + xRe.getD j 0 ^ 2) ≤ 8 * ∑ i ∈ range 2, ∑ j ∈ range 4, g j i ^ 2 := by
  obtain ⟨p, q, e, l, -, hb⟩ := decompose_energy axis4 ⟨[4, 2], matrixData 4 2 g⟩ gauges_two (by simp) rfl (h := 10) (detLim := 1 / 8)
    (by norm_num) (by norm_num)
  refine ⟨p, q, e, l, hb.trans (le_of_eq ?_)⟩
  have e1 : ∀ j < 4, ∀ i < 2, entry ⟨[4, 2], matrixData 4 2 g⟩ 2 j i = g j i := fun j hj i hi => matrixData_getD _ hj hi
  simp only [List.length_cons, List.length_nil, Nat.reduceAdd]
  rw [show ((1 : ℝ) :: [1]).sum / (2 * (1 / 8)) = 8 by norm_num]
  congr 1
  refine sum_congr rfl fun i hi => ?_
  have hi' := mem_range.1 hi
  rw [sum_congr rfl fun j hj => by rw [e1 j (mem_range.1 hj) i hi']]
  have : i = 0 ∨ i = 1 := by omega
  rcases this with rfl | rfl <;> simp

/-- Concrete case: noise of at most 1 cm in both gauges. -/
example (g e : ℕ → ℕ → ℝ) (he : ∀ j i, |e j i| ≤ 1 / 100) : ∃ p q p' q',
    decomposeZS [0, 1, 2, 3] ⟨[4, 2], matrixData 4 2 fun j i => g j i + e j i⟩ (.fin 10) [0, 1] [1, 1] (1 / 8) = .ok (p, q) ∧
    decomposeZS [0, 1, 2, 3] ⟨[4, 2], matrixData 4 2 g⟩ (.fin 10) [0, 1] [1, 1] (1 / 8) = .ok (p', q') ∧
    (∑ j ∈ range 4, ((p.getD j 0 - p'.getD j 0) ^ 2 + (q.getD j 0 - q'.getD j 0) ^ 2)) / (4 : ℕ) ≤ (4 / 100) ^ 2 := by
  obtain ⟨p, q, p', q', e1, e2, hb⟩ := decompose_noise_bounded axis4 (X := ⟨[4, 2], matrixData 4 2 fun j i => g j i + e j i⟩)
    (Y := ⟨[4, 2], matrixData 4 2 g⟩) gauges_two (by simp) rfl rfl (h := 10) (detLim := 1 / 8) (ε := 1 / 100) (by norm_num) (by norm_num) (by
      intro j hj i hi
      have a1 : entry ⟨[4, 2], matrixData 4 2 fun j i => g j i + e j i⟩ 2 j i = g j i + e j i := matrixData_getD (n := 4) (m := 2) (fun j i => g j i + e j i) hj hi
      have a2 : entry ⟨[4, 2], matrixData 4 2 g⟩ 2 j i = g j i := matrixData_getD (n := 4) (m := 2) g hj hi
      show |entry _ 2 j i - entry _ 2 j i| ≤ _
      rw [a1, a2, add_sub_cancel_left]; exact he j i)
  exact ⟨p, q, p', q', e1, e2, hb.trans (le_of_eq (by norm_num))⟩

end Verif
