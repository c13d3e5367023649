import Verif.Props.DecompMore
import Verif.Props.RawInvariance

/-! # C99: laws of the separation of incident and reflected waves -/

set_option linter.unusedSectionVars false

namespace Verif
open Finset Complex

/-- `Σ w X exp(i s k d)`, `s = ±1`. -/
noncomputable def zsRhs (s : ℂ) (w d : List ℝ) (k : ℝ) (X : ℕ → ℂ) : ℂ :=
  ∑ i ∈ range w.length, ((w.getD i 0 : ℝ) : ℂ) * X i * exp (s * I * (k : ℂ) * ((d.getD i 0 : ℝ) : ℂ))

/-- `Σ w exp(2 i s k d)`. -/
noncomputable def zsCoef (s : ℂ) (w d : List ℝ) (k : ℝ) : ℂ :=
  ∑ i ∈ range w.length, ((w.getD i 0 : ℝ) : ℂ) * exp (s * I * 2 * (k : ℂ) * ((d.getD i 0 : ℝ) : ℂ))

/-- The incident component for `s = 1`, the reflected one for `s = -1`. -/
noncomputable def zsPart (s : ℂ) (w d : List ℝ) (k detLim : ℝ) (X : ℕ → ℂ) : ℂ :=
  if detLim < |zsDet w d k| then
    (zsCoef s w d k * zsRhs (-s) w d k X - ((w.sum : ℝ) : ℂ) * zsRhs s w d k X) / ((-4 * zsDet w d k : ℝ) : ℂ)
  else 0

theorem zsSolve_eq (w d : List ℝ) (X : List ℂ) (k : ℝ) {detLim : ℝ} (h0 : 0 ≤ detLim) :
    zsSolve w d X k detLim = .ok (zsPart 1 w d k detLim fun i => X.getD i 0, zsPart (-1) w d k detLim fun i => X.getD i 0) := by
  have hdet := det_eq (w := w) (d := d) (x := d) (fun _ _ _ _ => rfl) k
  have hsc := scaled_det w d k
  unfold zsSolve zsPart zsCoef zsRhs
  dsimp only
  rw [hdet, hsc]
  simp only [one_mul, neg_neg, neg_mul]
  split_ifs with h1 h2
  · exfalso
    have h3 : zsDet w d k = 0 := by
      have := Complex.ofReal_eq_zero.1 h2
      linarith
    rw [h3, abs_zero] at h1
    linarith
  · congr 3
    ring
  · rfl

theorem zsPart_congr {s : ℂ} {w d : List ℝ} {k detLim : ℝ} {X Y : ℕ → ℂ} (h : ∀ i < w.length, X i = Y i) :
    zsPart s w d k detLim X = zsPart s w d k detLim Y := by
  have : ∀ s, zsRhs s w d k X = zsRhs s w d k Y := fun s => sum_congr rfl fun i hi => by rw [h i (mem_range.1 hi)]
  unfold zsPart
  rw [this, this]

theorem zsPart_linear (s : ℂ) (w d : List ℝ) (k detLim : ℝ) (a b : ℂ) (X Y : ℕ → ℂ) :
    zsPart s w d k detLim (fun i => a * X i + b * Y i) = a * zsPart s w d k detLim X + b * zsPart s w d k detLim Y := by
  have : ∀ s, zsRhs s w d k (fun i => a * X i + b * Y i) = a * zsRhs s w d k X + b * zsRhs s w d k Y := by
    intro s
    unfold zsRhs
    rw [mul_sum, mul_sum, ← sum_add_distrib]
    exact sum_congr rfl fun i _ => by ring
  unfold zsPart
  rw [this, this]
  split_ifs
  · ring
  · ring

theorem zsPart_smul (s : ℂ) (w d : List ℝ) (k detLim : ℝ) (a : ℂ) (X : ℕ → ℂ) :
    zsPart s w d k detLim (fun i => a * X i) = a * zsPart s w d k detLim X := by
  have := zsPart_linear s w d k detLim a 0 X X
  simpa only [zero_mul, add_zero] using this

theorem zsPart_conj {s : ℝ} (w d : List ℝ) (k detLim : ℝ) (X : ℕ → ℂ) :
    zsPart s w d k detLim (fun i => (starRingEnd ℂ) (X i)) = (starRingEnd ℂ) (zsPart (-s) w d k detLim X) := by
  have h1 : ∀ s : ℝ, zsRhs s w d k (fun i => (starRingEnd ℂ) (X i)) = (starRingEnd ℂ) (zsRhs (-s) w d k X) := by
    intro s
    unfold zsRhs
    rw [map_sum]
    refine sum_congr rfl fun i _ => ?_
    rw [map_mul, map_mul, Complex.conj_ofReal, ← Complex.exp_conj]
    simp only [map_mul, map_neg, Complex.conj_I, Complex.conj_ofReal]
    congr 2
    ring
  have h2 : ∀ s : ℝ, zsCoef s w d k = (starRingEnd ℂ) (zsCoef (-s) w d k) := by
    intro s
    unfold zsCoef
    rw [map_sum]
    refine sum_congr rfl fun i _ => ?_
    rw [map_mul, Complex.conj_ofReal, ← Complex.exp_conj]
    simp only [map_mul, map_neg, Complex.conj_I, Complex.conj_ofReal, Complex.conj_ofNat]
    congr 2
    ring
  have h3 := h1 (-s)
  have h4 := h1 s
  have h5 := h2 s
  push_cast at h3
  unfold zsPart
  rw [h3, h4, h5]
  split_ifs
  · simp only [map_div₀, map_sub, map_mul, Complex.conj_ofReal, neg_neg]
  · simp

theorem zsPart_weights {s : ℂ} {w d : List ℝ} {k detLim c : ℝ} (hc : 0 < c) (X : ℕ → ℂ) :
    zsPart s (w.map (c * ·)) d k (c ^ 2 * detLim) X = zsPart s w d k detLim X := by
  have g : ∀ i < w.length, (w.map (c * ·)).getD i 0 = c * w.getD i 0 := by
    intro i hi
    rw [List.getD_eq_getElem _ _ (by simpa using hi), List.getElem_map, List.getD_eq_getElem _ _ hi]
  have h1 : ∀ s, zsRhs s (w.map (c * ·)) d k X = c * zsRhs s w d k X := by
    intro s
    unfold zsRhs
    rw [List.length_map, mul_sum]
    refine sum_congr rfl fun i hi => ?_
    rw [g i (mem_range.1 hi)]
    push_cast
    ring
  have h2 : ∀ s, zsCoef s (w.map (c * ·)) d k = c * zsCoef s w d k := by
    intro s
    unfold zsCoef
    rw [List.length_map, mul_sum]
    refine sum_congr rfl fun i hi => ?_
    rw [g i (mem_range.1 hi)]
    push_cast
    ring
  have h3 : (w.map (c * ·)).sum = c * w.sum := by
    have := List.sum_map_mul_left (l := w) (f := fun v : ℝ => v) (r := c)
    rwa [List.map_id'] at this
  have h4 : zsDet (w.map (c * ·)) d k = c ^ 2 * zsDet w d k := by
    unfold zsDet
    rw [List.length_map, mul_left_comm]
    congr 1
    rw [mul_sum]
    refine sum_congr rfl fun i hi => ?_
    rw [mul_sum]
    refine sum_congr rfl fun j hj => ?_
    rw [g i (mem_range.1 hi), g j (mem_range.1 hj)]
    ring
  unfold zsPart
  rw [h1, h1, h2, h3, h4, abs_mul, abs_of_pos (by positivity : 0 < c ^ 2)]
  have h5 : c ^ 2 * detLim < c ^ 2 * |zsDet w d k| ↔ detLim < |zsDet w d k| := mul_lt_mul_iff_right₀ (by positivity)
  simp only [h5]
  split_ifs
  · push_cast
    have hc' : (c : ℂ) ≠ 0 := by exact_mod_cast hc.ne'
    rw [show (c : ℂ) * zsCoef s w d k * (c * zsRhs (-s) w d k X) - c * ((w.sum : ℝ) : ℂ) * (c * zsRhs s w d k X) =
      (c : ℂ) ^ 2 * (zsCoef s w d k * zsRhs (-s) w d k X - ((w.sum : ℝ) : ℂ) * zsRhs s w d k X) by push_cast; ring,
      show (-4 * ((c : ℂ) ^ 2 * (zsDet w d k : ℂ))) = (c : ℂ) ^ 2 * (-4 * (zsDet w d k : ℂ)) by ring,
      mul_div_mul_left _ _ (pow_ne_zero 2 hc')]
  · rfl

/-- At the two real coefficients, 0 and (for an even number of samples) Nyquist, only the real part survives. -/
noncomputable def realEnds (n k : ℕ) (z : ℂ) : ℂ := if k = 0 ∨ 2 * k = n then ((z.re : ℝ) : ℂ) else z

theorem decompose_form {ts : List ℝ} (hm : AcceptedAxis ts) (xTime : Arr ℝ) {xLoc wLoc : List ℝ} (hg : GaugesOk xLoc wLoc)
    (hs : xTime.shape = [ts.length, xLoc.length]) {h detLim : ℝ} (hh : 0 < h) (h0 : 0 ≤ detLim) :
    ∃ xIn xRe, decomposeZS ts xTime (.fin h) xLoc wLoc detLim = .ok (xIn, xRe) ∧ xIn.length = ts.length ∧ xRe.length = ts.length ∧
      ∀ k ≤ ts.length / 2,
        coef xIn k = realEnds ts.length k (zsPart 1 wLoc (xLoc.map fun x => x - xLoc.getD 0 0) (binWaveNumber ts h k) detLim
          fun i => coef (column xTime ts.length xLoc.length i) k) ∧
        coef xRe k = realEnds ts.length k (zsPart (-1) wLoc (xLoc.map fun x => x - xLoc.getD 0 0) (binWaveNumber ts h k) detLim
          fun i => coef (column xTime ts.length xLoc.length i) k) := by
  have h2 : 2 ≤ ts.length := mono_two_le hm
  have hm2 := hg.two
  rw [decomposeZS_ok hg hs]
  have hcore := zsCore_eq hm (cols := (List.range xLoc.length).map fun i => column xTime ts.length xLoc.length i) (by
      intro h; have := congrArg List.length h; simp at this; rw [this] at hm2; simp at hm2)
    (by intro c hc; obtain ⟨i, -, rfl⟩ := List.mem_map.1 hc; exact column_length _ _ _ _) hh xLoc wLoc detLim
    (fun k => zsPart 1 wLoc (xLoc.map fun x => x - xLoc.getD 0 0) (binWaveNumber ts h k) detLim
          fun i => coef (column xTime ts.length xLoc.length i) k)
    (fun k => zsPart (-1) wLoc (xLoc.map fun x => x - xLoc.getD 0 0) (binWaveNumber ts h k) detLim
          fun i => coef (column xTime ts.length xLoc.length i) k) (by
      intro k _
      rw [zsSolve_eq _ _ _ _ h0]
      have : ∀ i < wLoc.length, (((List.range xLoc.length).map fun i => column xTime ts.length xLoc.length i).map fun c => coef c k).getD i 0 =
        coef (column xTime ts.length xLoc.length i) k := fun i hi => cols_getD _ _ _ _ (by rw [hg.len]; exact hi)
      rw [zsPart_congr this, zsPart_congr this])
  refine ⟨_, _, hcore, by simp, by simp, fun k hk => ⟨coef_symExt h2 _ hk, coef_symExt h2 _ hk⟩⟩

theorem realEnds_lincomb (n k : ℕ) (a b : ℝ) (z z' : ℂ) :
    realEnds n k (a * z + b * z') = a * realEnds n k z + b * realEnds n k z' := by
  unfold realEnds
  split_ifs
  · simp
  · rfl

/-- The rows of a record: `xTime[j, i]`. -/
def entry (a : Arr ℝ) (m j i : ℕ) : ℝ := a.data.getD (j * m + i) 0

/-- **C99 (superposition).**  The decomposition is linear in the gauge signals. -/
theorem decompose_linear {ts : List ℝ} (hm : AcceptedAxis ts) {X Y Z : Arr ℝ} {xLoc wLoc : List ℝ} (hg : GaugesOk xLoc wLoc)
    (hX : X.shape = [ts.length, xLoc.length]) (hY : Y.shape = [ts.length, xLoc.length]) (hZ : Z.shape = [ts.length, xLoc.length])
    {h detLim : ℝ} (hh : 0 < h) (h0 : 0 ≤ detLim) (a b : ℝ)
    (hsig : ∀ j < ts.length, ∀ i < xLoc.length, entry Z xLoc.length j i = a * entry X xLoc.length j i + b * entry Y xLoc.length j i) :
    ∃ p q p' q', decomposeZS ts X (.fin h) xLoc wLoc detLim = .ok (p, q) ∧ decomposeZS ts Y (.fin h) xLoc wLoc detLim = .ok (p', q') ∧
      p.length = ts.length ∧ q.length = ts.length ∧ p'.length = ts.length ∧ q'.length = ts.length ∧
      decomposeZS ts Z (.fin h) xLoc wLoc detLim =
        .ok (List.zipWith (fun u v => a * u + b * v) p p', List.zipWith (fun u v => a * u + b * v) q q') := by
  obtain ⟨p, q, e1, l1, l2, c1⟩ := decompose_form hm X hg hX hh h0
  obtain ⟨p', q', e2, l3, l4, c2⟩ := decompose_form hm Y hg hY hh h0
  obtain ⟨r, s, e3, l5, l6, c3⟩ := decompose_form hm Z hg hZ hh h0
  refine ⟨p, q, p', q', e1, e2, l1, l2, l3, l4, ?_⟩
  have hcol : ∀ i < xLoc.length, column Z ts.length xLoc.length i =
      lincomb a b (column X ts.length xLoc.length i) (column Y ts.length xLoc.length i) := by
    intro i hi
    unfold column lincomb
    rw [List.zipWith_map, List.zipWith_self]
    exact List.map_congr_left fun j hj => hsig j (List.mem_range.1 hj) i hi
  have key : ∀ s k, zsPart s wLoc (xLoc.map fun x => x - xLoc.getD 0 0) (binWaveNumber ts h k) detLim
      (fun i => coef (column Z ts.length xLoc.length i) k) =
      a * zsPart s wLoc (xLoc.map fun x => x - xLoc.getD 0 0) (binWaveNumber ts h k) detLim (fun i => coef (column X ts.length xLoc.length i) k) +
      b * zsPart s wLoc (xLoc.map fun x => x - xLoc.getD 0 0) (binWaveNumber ts h k) detLim (fun i => coef (column Y ts.length xLoc.length i) k) := by
    intro s k
    rw [← zsPart_linear]
    refine zsPart_congr fun i hi => ?_
    rw [hcol i (by rw [hg.len]; exact hi), coef_lincomb _ _ (by rw [column_length, column_length])]
  rw [e3]
  congr 2
  · refine eq_of_coef_half (ys := lincomb a b p p') (by rw [lincomb_length _ _ (by omega)]; omega) fun k hk => ?_
    rw [l5] at hk
    rw [coef_lincomb _ _ (by omega), (c1 k hk).1, (c2 k hk).1, (c3 k hk).1, key, realEnds_lincomb]
  · refine eq_of_coef_half (ys := lincomb a b q q') (by rw [lincomb_length _ _ (by omega)]; omega) fun k hk => ?_
    rw [l6] at hk
    rw [coef_lincomb _ _ (by omega), (c1 k hk).2, (c2 k hk).2, (c3 k hk).2, key, realEnds_lincomb]

theorem binWaveNumber_zero (ts : List ℝ) {h : ℝ} (hh : 0 < h) : binWaveNumber ts h 0 = 0 := by
  have h4 := disper_zero hh (by norm_num : (0 : ℝ) < 981 / 100)
  rw [disper_ok _ hh (by norm_num)] at h4
  simp only [List.map_cons, List.map_nil, Except.ok.injEq, List.cons.injEq, and_true] at h4
  unfold binWaveNumber
  rw [← h4]
  simp

theorem zsPart_zero (s : ℂ) (w d : List ℝ) {detLim : ℝ} (h0 : 0 ≤ detLim) (X : ℕ → ℂ) : zsPart s w d 0 detLim X = 0 := by
  have : zsDet w d 0 = 0 := by unfold zsDet; simp
  unfold zsPart
  rw [this, abs_zero, if_neg (not_lt.2 h0)]

/-- **C99 (still-water level).**  Adding a constant to the signal of each gauge, a different one for each, changes nothing. -/
theorem decompose_offset {ts : List ℝ} (hm : AcceptedAxis ts) {X Y : Arr ℝ} {xLoc wLoc : List ℝ} (hg : GaugesOk xLoc wLoc)
    (hX : X.shape = [ts.length, xLoc.length]) (hY : Y.shape = [ts.length, xLoc.length]) {h detLim : ℝ} (hh : 0 < h) (h0 : 0 ≤ detLim)
    (c : ℕ → ℝ) (hsig : ∀ j < ts.length, ∀ i < xLoc.length, entry Y xLoc.length j i = entry X xLoc.length j i + c i) :
    decomposeZS ts Y (.fin h) xLoc wLoc detLim = decomposeZS ts X (.fin h) xLoc wLoc detLim := by
  have h2 : 2 ≤ ts.length := mono_two_le hm
  obtain ⟨p, q, e1, l1, l2, c1⟩ := decompose_form hm X hg hX hh h0
  obtain ⟨p', q', e2, l3, l4, c2⟩ := decompose_form hm Y hg hY hh h0
  have hcol : ∀ i < xLoc.length, column Y ts.length xLoc.length i = (column X ts.length xLoc.length i).map fun v => v + c i := by
    intro i hi
    unfold column
    rw [List.map_map]
    exact List.map_congr_left fun j hj => hsig j (List.mem_range.1 hj) i hi
  have key : ∀ s, ∀ k ≤ ts.length / 2, zsPart s wLoc (xLoc.map fun x => x - xLoc.getD 0 0) (binWaveNumber ts h k) detLim
      (fun i => coef (column Y ts.length xLoc.length i) k) =
      zsPart s wLoc (xLoc.map fun x => x - xLoc.getD 0 0) (binWaveNumber ts h k) detLim (fun i => coef (column X ts.length xLoc.length i) k) := by
    intro s k hk
    rcases Nat.eq_zero_or_pos k with rfl | hp
    · rw [binWaveNumber_zero ts hh, zsPart_zero _ _ _ h0, zsPart_zero _ _ _ h0]
    · refine zsPart_congr fun i hi => ?_
      rw [hcol i (by rw [hg.len]; exact hi), coef_add_const _ hp (by rw [column_length]; omega)]
  rw [e1, e2]
  congr 2
  · refine eq_of_coef_half (by omega) fun k hk => ?_
    rw [l3] at hk
    rw [(c1 k hk).1, (c2 k hk).1, key _ k hk]
  · refine eq_of_coef_half (by omega) fun k hk => ?_
    rw [l4] at hk
    rw [(c1 k hk).2, (c2 k hk).2, key _ k hk]

theorem coef_rotate (x : List ℝ) (m k : ℕ) : coef (x.rotate m) k = twiddle x.length ((m : ℤ) * k) * coef x k := by
  induction m generalizing x with
  | zero => simp [twiddle_zero]
  | succ m ih =>
    cases x with
    | nil => simp [coef, fwd]
    | cons a l =>
      rw [List.rotate_cons_succ, ih, coef_rotate_one]
      simp only [List.length_append, List.length_cons, List.length_nil]
      rw [show ((m + 1 : ℕ) : ℤ) * k = (m : ℤ) * k + k by push_cast; ring, twiddle_add]
      ring

/-- The phase factor of a time shift is real at the coefficients that are real. -/
theorem realEnds_twiddle {n k : ℕ} (hn : 0 < n) (m : ℤ) (z : ℂ) :
    realEnds n k (twiddle n (m * k) * z) = twiddle n (m * k) * realEnds n k z := by
  unfold realEnds
  split_ifs with h
  · have hr : (starRingEnd ℂ) (twiddle n (m * k)) = twiddle n (m * k) := by
      rw [conj_twiddle]
      rcases h with rfl | h
      · simp
      · have e : -(m * (k : ℤ)) = m * k + n * (-m) := by rw [← h]; push_cast; ring
        rw [e, twiddle_add, twiddle_mul_self hn, mul_one]
    obtain ⟨r, hr⟩ := Complex.conj_eq_iff_real.1 hr
    rw [hr]
    simp
  · rfl

/-- **C99 (delay).**  If all gauge signals are moved by the same number of samples (circularly), so are the incident and the reflected signal. -/
theorem decompose_delay {ts : List ℝ} (hm : AcceptedAxis ts) {X Y : Arr ℝ} {xLoc wLoc : List ℝ} (hg : GaugesOk xLoc wLoc)
    (hX : X.shape = [ts.length, xLoc.length]) (hY : Y.shape = [ts.length, xLoc.length]) {h detLim : ℝ} (hh : 0 < h) (h0 : 0 ≤ detLim)
    (m : ℕ) (hsig : ∀ i < xLoc.length, (List.range ts.length).map (fun j => entry Y xLoc.length j i) =
      ((List.range ts.length).map fun j => entry X xLoc.length j i).rotate m) :
    ∃ p q, decomposeZS ts X (.fin h) xLoc wLoc detLim = .ok (p, q) ∧ p.length = ts.length ∧ q.length = ts.length ∧
      decomposeZS ts Y (.fin h) xLoc wLoc detLim = .ok (p.rotate m, q.rotate m) := by
  have h2 : 2 ≤ ts.length := mono_two_le hm
  obtain ⟨p, q, e1, l1, l2, c1⟩ := decompose_form hm X hg hX hh h0
  obtain ⟨p', q', e2, l3, l4, c2⟩ := decompose_form hm Y hg hY hh h0
  have key : ∀ s, ∀ k, zsPart s wLoc (xLoc.map fun x => x - xLoc.getD 0 0) (binWaveNumber ts h k) detLim
      (fun i => coef (column Y ts.length xLoc.length i) k) = twiddle ts.length ((m : ℤ) * k) *
      zsPart s wLoc (xLoc.map fun x => x - xLoc.getD 0 0) (binWaveNumber ts h k) detLim (fun i => coef (column X ts.length xLoc.length i) k) := by
    intro s k
    rw [← zsPart_smul]
    refine zsPart_congr fun i hi => ?_
    have hc : column Y ts.length xLoc.length i = (column X ts.length xLoc.length i).rotate m := hsig i (by rw [hg.len]; exact hi)
    rw [hc, coef_rotate, column_length]
  refine ⟨p, q, e1, l1, l2, ?_⟩
  rw [e2]
  congr 2
  · refine eq_of_coef_half (by rw [List.length_rotate]; omega) fun k hk => ?_
    rw [l3] at hk
    rw [coef_rotate, l1, (c1 k hk).1, (c2 k hk).1, key, realEnds_twiddle (by omega)]
  · refine eq_of_coef_half (by rw [List.length_rotate]; omega) fun k hk => ?_
    rw [l4] at hk
    rw [coef_rotate, l2, (c1 k hk).2, (c2 k hk).2, key, realEnds_twiddle (by omega)]

/-- **C99 (time reversal).**  If all gauge signals are run backwards, incident and reflected waves are exchanged (and run backwards). -/
theorem decompose_reversal {ts : List ℝ} (hm : AcceptedAxis ts) {X Y : Arr ℝ} {xLoc wLoc : List ℝ} (hg : GaugesOk xLoc wLoc)
    (hX : X.shape = [ts.length, xLoc.length]) (hY : Y.shape = [ts.length, xLoc.length]) {h detLim : ℝ} (hh : 0 < h) (h0 : 0 ≤ detLim)
    (hsig : ∀ i < xLoc.length, (List.range ts.length).map (fun j => entry Y xLoc.length j i) =
      ((List.range ts.length).map fun j => entry X xLoc.length j i).reverse) :
    ∃ p q, decomposeZS ts X (.fin h) xLoc wLoc detLim = .ok (p, q) ∧ p.length = ts.length ∧ q.length = ts.length ∧
      decomposeZS ts Y (.fin h) xLoc wLoc detLim = .ok (q.reverse, p.reverse) := by
  have h2 : 2 ≤ ts.length := mono_two_le hm
  obtain ⟨p, q, e1, l1, l2, c1⟩ := decompose_form hm X hg hX hh h0
  obtain ⟨p', q', e2, l3, l4, c2⟩ := decompose_form hm Y hg hY hh h0
  have key : ∀ s : ℝ, ∀ k : ℕ, zsPart s wLoc (xLoc.map fun x => x - xLoc.getD 0 0) (binWaveNumber ts h k) detLim
      (fun i => coef (column Y ts.length xLoc.length i) k) = twiddle ts.length (1 * (k : ℤ)) *
      (starRingEnd ℂ) (zsPart (-s) wLoc (xLoc.map fun x => x - xLoc.getD 0 0) (binWaveNumber ts h k) detLim
        (fun i => coef (column X ts.length xLoc.length i) k)) := by
    intro s k
    rw [← zsPart_conj, ← zsPart_smul]
    refine zsPart_congr fun i hi => ?_
    have hc : column Y ts.length xLoc.length i = (column X ts.length xLoc.length i).reverse := hsig i (by rw [hg.len]; exact hi)
    rw [hc, coef_reverse, column_length, one_mul]
  have hconj : ∀ k z, realEnds ts.length k ((starRingEnd ℂ) z) = (starRingEnd ℂ) (realEnds ts.length k z) := by
    intro k z
    unfold realEnds
    split_ifs
    · simp
    · rfl
  have k1 := key 1
  have k2 := key (-1)
  push_cast at k1 k2
  rw [neg_neg] at k2
  refine ⟨p, q, e1, l1, l2, ?_⟩
  rw [e2]
  congr 2
  · refine eq_of_coef_half (by rw [List.length_reverse]; omega) fun k hk => ?_
    rw [l3] at hk
    rw [coef_reverse, l2, (c1 k hk).2, (c2 k hk).1, k1, realEnds_twiddle (by omega), hconj, one_mul]
  · refine eq_of_coef_half (by rw [List.length_reverse]; omega) fun k hk => ?_
    rw [l4] at hk
    rw [coef_reverse, l1, (c1 k hk).1, (c2 k hk).2, k2, realEnds_twiddle (by omega), hconj, one_mul]

/-- **C99 (origin of the positions).**  Only the distances between the gauges matter. -/
theorem decompose_translate (ts : List ℝ) (xTime : Arr ℝ) (h : Depth) (xLoc wLoc : List ℝ) (detLim c : ℝ) (h2 : 2 ≤ xLoc.length) :
    decomposeZS ts xTime h (xLoc.map (· + c)) wLoc detLim = decomposeZS ts xTime h xLoc wLoc detLim := by
  have hd : ∀ l : List ℝ, diff (l.map (· + c)) = diff l := by
    intro l
    induction l with
    | nil => rfl
    | cons a l ih =>
      cases l with
      | nil => rfl
      | cons b l =>
        simp only [List.map_cons, diff] at ih ⊢
        rw [ih]
        congr 1
        ring
  have hc : ∀ cols, zsCore ts cols h (xLoc.map (· + c)) wLoc detLim = zsCore ts cols h xLoc wLoc detLim := by
    intro cols
    have : (xLoc.map (· + c)).map (fun x => x - (xLoc.map (· + c)).getD 0 0) = xLoc.map fun x => x - xLoc.getD 0 0 := by
      rw [List.map_map]
      refine List.map_congr_left fun x _ => ?_
      rw [List.getD_eq_getElem _ _ (by simp; omega), List.getElem_map, List.getD_eq_getElem _ _ (by omega)]
      simp
    unfold zsCore
    rw [this]
  unfold decomposeZS
  simp only [hd, hc, List.length_map]

/-- **C99 (weights).**  Multiplying all weights by `c > 0` and the threshold by `c²` changes nothing. -/
theorem decompose_weights {ts : List ℝ} (hm : AcceptedAxis ts) {X : Arr ℝ} {xLoc wLoc : List ℝ} (hg : GaugesOk xLoc wLoc)
    (hX : X.shape = [ts.length, xLoc.length]) {h detLim : ℝ} (hh : 0 < h) (h0 : 0 ≤ detLim) {c : ℝ} (hc : 0 < c)
    (hg' : GaugesOk xLoc (wLoc.map (c * ·))) :
    decomposeZS ts X (.fin h) xLoc (wLoc.map (c * ·)) (c ^ 2 * detLim) = decomposeZS ts X (.fin h) xLoc wLoc detLim := by
  obtain ⟨p, q, e1, l1, l2, c1⟩ := decompose_form hm X hg hX hh h0
  obtain ⟨p', q', e2, l3, l4, c2⟩ := decompose_form hm X hg' hX hh (mul_nonneg (sq_nonneg c) h0)
  rw [e1, e2]
  congr 2
  · refine eq_of_coef_half (by omega) fun k hk => ?_
    rw [l3] at hk
    rw [(c1 k hk).1, (c2 k hk).1, zsPart_weights hc]
  · refine eq_of_coef_half (by omega) fun k hk => ?_
    rw [l4] at hk
    rw [(c1 k hk).2, (c2 k hk).2, zsPart_weights hc]

theorem getD_reverse (l : List ℝ) {i : ℕ} (hi : i < l.length) : l.reverse.getD i 0 = l.getD (l.length - 1 - i) 0 := by
  rw [List.getD_eq_getElem _ _ (by simpa using hi), List.getElem_reverse, List.getD_eq_getElem _ _ (by omega)]

/-- The gauges as seen from the other end. -/
theorem gauges_mirror {xLoc wLoc : List ℝ} (hg : GaugesOk xLoc wLoc) : GaugesOk (xLoc.map Neg.neg).reverse wLoc.reverse where
  len := by simp [hg.len]
  two := by simpa using hg.two
  incr := by
    intro i hi
    simp only [List.length_reverse, List.length_map] at hi
    rw [getD_reverse _ (by simp; omega), getD_reverse _ (by simp; omega), List.length_map, List.getD_eq_getElem _ _ (by simp; omega),
      List.getD_eq_getElem _ _ (by simp; omega), List.getElem_map, List.getElem_map]
    have h1 := hg.incr (xLoc.length - 1 - (i + 1)) (by omega)
    rw [List.getD_eq_getElem _ _ (by omega), List.getD_eq_getElem _ _ (by omega)] at h1
    have e : xLoc.length - 1 - (i + 1) + 1 = xLoc.length - 1 - i := by omega
    simp only [e] at h1
    linarith
  weights := by
    rcases hg.weights with h | h
    · exact .inl fun w hw => h w (List.mem_reverse.1 hw)
    · exact .inr fun w hw => h w (List.mem_reverse.1 hw)
  total := by rw [List.sum_reverse]; exact hg.total

theorem zsPart_mirror {s : ℂ} {w d d' : List ℝ} {k detLim D : ℝ} {X X' : ℕ → ℂ}
    (hd : ∀ i < w.length, d'.getD i 0 = D - d.getD (w.length - 1 - i) 0) (hX : ∀ i < w.length, X' i = X (w.length - 1 - i)) :
    zsPart s w.reverse d' k detLim X' = exp (s * I * k * D) * zsPart (-s) w d k detLim X := by
  have hr : ∀ g : ℕ → ℂ, ∑ i ∈ range w.length, g (w.length - 1 - i) = ∑ i ∈ range w.length, g i := fun g => sum_range_reflect g w.length
  have h1 : ∀ s : ℂ, zsRhs s w.reverse d' k X' = exp (s * I * k * D) * zsRhs (-s) w d k X := by
    intro s
    unfold zsRhs
    rw [List.length_reverse, mul_sum, ← hr]
    refine sum_congr rfl fun i hi => ?_
    have hi := mem_range.1 hi
    rw [getD_reverse _ (by omega), hX _ (by omega), hd _ (by omega), show w.length - 1 - (w.length - 1 - i) = i by omega]
    push_cast
    rw [show s * I * (k : ℂ) * ((D : ℂ) - ((d.getD i 0 : ℝ) : ℂ)) = s * I * k * D +
      -s * I * (k : ℂ) * ((d.getD i 0 : ℝ) : ℂ) by ring, Complex.exp_add]
    ring
  have h2 : ∀ s : ℂ, zsCoef s w.reverse d' k = exp (s * I * k * D) * exp (s * I * k * D) * zsCoef (-s) w d k := by
    intro s
    unfold zsCoef
    rw [List.length_reverse, mul_sum, ← hr]
    refine sum_congr rfl fun i hi => ?_
    have hi := mem_range.1 hi
    rw [getD_reverse _ (by omega), hd _ (by omega), show w.length - 1 - (w.length - 1 - i) = i by omega]
    push_cast
    rw [show s * I * 2 * (k : ℂ) * ((D : ℂ) - ((d.getD i 0 : ℝ) : ℂ)) = s * I * k * D + s * I * k * D +
      -s * I * 2 * (k : ℂ) * ((d.getD i 0 : ℝ) : ℂ) by ring, Complex.exp_add, Complex.exp_add]
    ring
  have h3 : zsDet w.reverse d' k = zsDet w d k := by
    unfold zsDet
    rw [List.length_reverse]
    congr 1
    rw [← sum_range_reflect]
    refine sum_congr rfl fun i hi => ?_
    have hi := mem_range.1 hi
    rw [← sum_range_reflect]
    refine sum_congr rfl fun j hj => ?_
    have hj := mem_range.1 hj
    have e : ∀ i < w.length, w.length - 1 - (w.length - 1 - i) = i := by intro i hi; omega
    rw [getD_reverse _ (by omega), getD_reverse _ (by omega), hd _ (by omega), hd _ (by omega), e i hi, e j hj]
    rw [show k * (D - d.getD i 0 - (D - d.getD j 0)) = -(k * (d.getD i 0 - d.getD j 0)) by ring, Real.sin_neg]
    ring
  have h4 : exp (s * I * k * D) * exp (-s * I * k * D) = 1 := by
    rw [← Complex.exp_add, show s * I * (k : ℂ) * D + -s * I * k * D = 0 by ring, Complex.exp_zero]
  unfold zsPart
  rw [h1, h1, h2, h3, List.sum_reverse, neg_neg]
  split_ifs
  · rw [← mul_div_assoc]
    congr 1
    linear_combination exp (s * I * k * D) * zsCoef (-s) w d k * zsRhs s w d k X * h4
  · ring

/-- **C99 (mirror image).**  Seen from the other end of the gauge array (positions negated, gauges, weights and signals in reverse order),
incident and reflected waves are exchanged: component `k` of the incident wave of the mirror image is component `k` of the reflected wave, taken at the
last gauge instead of the first, and vice versa. -/
theorem decompose_mirror {ts : List ℝ} (hm : AcceptedAxis ts) {X Y : Arr ℝ} {xLoc wLoc : List ℝ} (hg : GaugesOk xLoc wLoc)
    (hX : X.shape = [ts.length, xLoc.length]) (hY : Y.shape = [ts.length, xLoc.length]) {h detLim : ℝ} (hh : 0 < h) (h0 : 0 ≤ detLim)
    (hsig : ∀ j < ts.length, ∀ i < xLoc.length, entry Y xLoc.length j i = entry X xLoc.length j (xLoc.length - 1 - i))
    {kap : ℕ → ℝ} (hkap : BinWaveNumbers ts h kap) :
    ∃ p q p' q', decomposeZS ts X (.fin h) xLoc wLoc detLim = .ok (p, q) ∧
      decomposeZS ts Y (.fin h) (xLoc.map Neg.neg).reverse wLoc.reverse detLim = .ok (p', q') ∧
      ∀ k, 0 < k → 2 * k < ts.length →
        coef p' k = coef q k * exp (I * (kap k : ℂ) * ((xLoc.getD (xLoc.length - 1) 0 - xLoc.getD 0 0 : ℝ) : ℂ)) ∧
        coef q' k = coef p k * exp (-I * (kap k : ℂ) * ((xLoc.getD (xLoc.length - 1) 0 - xLoc.getD 0 0 : ℝ) : ℂ)) := by
  have hm2 := hg.two
  have hl' : (xLoc.map Neg.neg).reverse.length = xLoc.length := by simp
  obtain ⟨p, q, e1, l1, l2, c1⟩ := decompose_form hm X hg hX hh h0
  obtain ⟨p', q', e2, l3, l4, c2⟩ := decompose_form hm Y (gauges_mirror hg) (by rw [hY, hl']) hh h0
  refine ⟨p, q, p', q', e1, e2, fun k hk0 hk => ?_⟩
  rw [(c1 k (by omega)).1, (c1 k (by omega)).2, (c2 k (by omega)).1, (c2 k (by omega)).2]
  unfold realEnds
  simp only [if_neg (show ¬ (k = 0 ∨ 2 * k = ts.length) by omega), hl']
  have gneg : ∀ i < xLoc.length, (xLoc.map Neg.neg).reverse.getD i 0 = - xLoc.getD (xLoc.length - 1 - i) 0 := by
    intro i hi
    rw [getD_reverse _ (by simpa using hi), List.length_map, List.getD_eq_getElem _ _ (by simp; omega), List.getElem_map,
      List.getD_eq_getElem _ _ (by omega)]
  have hd : ∀ i < wLoc.length, ((xLoc.map Neg.neg).reverse.map fun x => x - (xLoc.map Neg.neg).reverse.getD 0 0).getD i 0 =
      (xLoc.getD (xLoc.length - 1) 0 - xLoc.getD 0 0) - (xLoc.map fun x => x - xLoc.getD 0 0).getD (wLoc.length - 1 - i) 0 := by
    intro i hi
    rw [← hg.len] at hi ⊢
    rw [dist_getD _ (by rw [hl']; exact hi), dist_getD _ (by omega), gneg i hi, gneg 0 (by omega), Nat.sub_zero]
    ring
  have hc : ∀ i < wLoc.length, coef (column Y ts.length xLoc.length i) k = coef (column X ts.length xLoc.length (wLoc.length - 1 - i)) k := by
    intro i hi
    rw [← hg.len] at hi ⊢
    congr 1
    unfold column
    exact List.map_congr_left fun j hj => hsig j (List.mem_range.1 hj) i hi
  rw [zsPart_mirror (X := fun i => coef (column X ts.length xLoc.length i) k) hd hc, zsPart_mirror (X := fun i => coef (column X ts.length xLoc.length i) k) hd hc, BinWaveNumbers.eq hh hkap, neg_neg]
  constructor
  · rw [mul_comm, one_mul]
  · rw [mul_comm, neg_one_mul]

/-- Non-vacuity: two gauges one metre apart, four samples; the record, twice the record plus a level, the reversed record. -/
example (g : ℕ → ℕ → ℝ) : ∃ p q, decomposeZS [0, 1, 2, 3] ⟨[4, 2], matrixData 4 2 g⟩ (.fin 10) [0, 1] [1, 1] 0 = .ok (p, q) ∧
    decomposeZS [0, 1, 2, 3] ⟨[4, 2], matrixData 4 2 fun j i => g (3 - j) i⟩ (.fin 10) [0, 1] [1, 1] 0 = .ok (q.reverse, p.reverse) ∧
    decomposeZS [0, 1, 2, 3] ⟨[4, 2], matrixData 4 2 fun j i => g j i + (i + 7)⟩ (.fin 10) [0, 1] [1, 1] 0 = .ok (p, q) ∧
    decomposeZS [0, 1, 2, 3] ⟨[4, 2], matrixData 4 2 fun j i => g ((j + 1) % 4) i⟩ (.fin 10) [0, 1] [1, 1] 0 = .ok (p.rotate 1, q.rotate 1) := by
  have hr : List.range 4 = [0, 1, 2, 3] := rfl
  have ge : ∀ (f : ℕ → ℕ → ℝ) j i, j < 4 → i < 2 → entry ⟨[4, 2], matrixData 4 2 f⟩ 2 j i = f j i := fun f j i hj hi => matrixData_getD f hj hi
  obtain ⟨p, q, a, -, -, b⟩ := decompose_reversal (h := 10) (detLim := 0) (X := ⟨[4, 2], matrixData 4 2 g⟩) (Y := ⟨[4, 2], matrixData 4 2 fun j i => g (3 - j) i⟩)
    axis4 gauges_two rfl rfl (by norm_num) le_rfl (by
      intro i hi
      simp only [List.length_cons, List.length_nil] at hi
      simp only [List.length_cons, List.length_nil, Nat.zero_add, Nat.reduceAdd, hr, List.map_cons, List.map_nil]
      simp [ge, hi])
  obtain ⟨p', q', a', -, -, b'⟩ := decompose_delay (h := 10) (detLim := 0) (X := ⟨[4, 2], matrixData 4 2 g⟩)
    (Y := ⟨[4, 2], matrixData 4 2 fun j i => g ((j + 1) % 4) i⟩) axis4 gauges_two rfl rfl (by norm_num) le_rfl 1 (by
      intro i hi
      simp only [List.length_cons, List.length_nil] at hi
      simp only [List.length_cons, List.length_nil, Nat.zero_add, Nat.reduceAdd, hr, List.map_cons, List.map_nil]
      simp [ge, hi])
  have e := decompose_offset (h := 10) (detLim := 0) (X := ⟨[4, 2], matrixData 4 2 g⟩) (Y := ⟨[4, 2], matrixData 4 2 fun j i => g j i + (i + 7)⟩)
    axis4 gauges_two rfl rfl (by norm_num) le_rfl (fun i => (i : ℝ) + 7) (by
      intro j hj i hi
      simp only [List.length_cons, List.length_nil] at hi hj ⊢
      rw [ge _ _ _ hj hi, ge _ _ _ hj hi])
  rw [a] at a'
  simp only [Except.ok.injEq, Prod.mk.injEq] at a'
  obtain ⟨rfl, rfl⟩ := a'
  exact ⟨p, q, a, b, e.trans a, b'⟩

end Verif
