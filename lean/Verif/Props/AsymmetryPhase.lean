import Verif.Props.FilterAlgebra

/-! # C108: asymmetry is the skewness of the quarter-period shifted record -/

set_option linter.unusedSectionVars false

namespace Verif
open Finset

/-- Every component delayed by a quarter of its own period. -/
noncomputable def quarterDelay (cs : List Comp) : List Comp := cs.map fun q => ⟨q.p, q.a, q.φ - Real.pi / 2⟩

theorem exp_quarter (φ : ℝ) : Complex.exp (((φ - Real.pi / 2 : ℝ) : ℂ) * Complex.I) = -Complex.I * Complex.exp (φ * Complex.I) := by
  have : ((φ - Real.pi / 2 : ℝ) : ℂ) * Complex.I = φ * Complex.I + -(Real.pi / 2 * Complex.I) := by push_cast; ring
  rw [this, Complex.exp_add, Complex.exp_neg, Complex.exp_pi_div_two_mul_I, Complex.inv_I]
  ring

theorem coef_quarter {N : Nat} (c : ℝ) {cs : List Comp} (hcs : ∀ q ∈ cs, 0 < q.p ∧ 2 * q.p < N) {k : Nat} (h0 : 0 < k) (hk : k ≤ N / 2) :
    coef (mixture N 0 (quarterDelay cs)) k = -Complex.I * coef (mixture N c cs) k := by
  have hcs' : ∀ q ∈ quarterDelay cs, 0 < q.p ∧ 2 * q.p < N := by
    intro q hq
    obtain ⟨r, hr, rfl⟩ := List.mem_map.1 hq
    exact hcs r hr
  rw [coef_mixture 0 hcs' (by omega) hk, coef_mixture c hcs (by omega) hk, if_neg (by omega), if_neg (by omega), zero_add, zero_add]
  unfold quarterDelay
  rw [List.map_map, ← List.sum_map_mul_left]
  congr 1
  refine List.map_congr_left fun q _ => ?_
  simp only [Function.comp]
  split_ifs
  · rw [exp_quarter]; ring
  · simp

theorem coef_top {N : Nat} (c : ℝ) {cs : List Comp} (hcs : ∀ q ∈ cs, 0 < q.p ∧ 2 * q.p < N) {k : Nat} (h0 : 0 < k) (hk : 2 * k = N) :
    coef (mixture N c cs) k = 0 := by
  rw [coef_mixture c hcs (by omega) (by omega), if_neg (by omega), zero_add]
  apply List.sum_eq_zero
  intro v hv
  obtain ⟨q, hq, rfl⟩ := List.mem_map.1 hv
  rw [if_neg]
  have := hcs q hq
  omega

theorem quarter_zero {N : Nat} {cs : List Comp} (hcs : ∀ q ∈ cs, 0 < q.p ∧ 2 * q.p < N) (hN : 0 < N) :
    coef (mixture N 0 (quarterDelay cs)) 0 = 0 := by
  have hcs' : ∀ q ∈ quarterDelay cs, 0 < q.p ∧ 2 * q.p < N := by
    intro q hq
    obtain ⟨r, hr, rfl⟩ := List.mem_map.1 hq
    exact hcs r hr
  rw [coef_mixture 0 hcs' hN (Nat.zero_le _)]
  have : ((quarterDelay cs).map fun q => if 0 = q.p then (N : ℂ) * (q.a / 2) * Complex.exp (q.φ * Complex.I) else 0).sum = 0 := by
    apply List.sum_eq_zero
    intro v hv
    obtain ⟨q, hq, rfl⟩ := List.mem_map.1 hv
    rw [if_neg (by have := (hcs' q hq).1; omega)]
  rw [this]; simp

/-- The analytic signal of a mixture: the record plus `i` times the quarter-delayed components. -/
theorem analytic_mixture {N : Nat} (c : ℝ) {cs : List Comp} (hcs : ∀ q ∈ cs, 0 < q.p ∧ 2 * q.p < N) {j : Nat} (hj : j < N) :
    analytic (mixture N c cs) j =
      ((mixture N c cs).getD j 0 : ℂ) + Complex.I * ((mixture N 0 (quarterDelay cs)).getD j 0 : ℝ) := by
  have hN : 0 < N := by omega
  have lx := mixture_length N c cs
  have ly := mixture_length N 0 (quarterDelay cs)
  have hfwd : ∀ k < N, coef (mixture N c cs) k * hilbertWeight N k =
      fwd N (fun j => ((mixture N c cs).getD j 0 : ℂ) + Complex.I * ((mixture N 0 (quarterDelay cs)).getD j 0 : ℝ)) k := by
    intro k hk
    have e : fwd N (fun j => ((mixture N c cs).getD j 0 : ℂ) + Complex.I * ((mixture N 0 (quarterDelay cs)).getD j 0 : ℝ)) k =
        coef (mixture N c cs) k + Complex.I * coef (mixture N 0 (quarterDelay cs)) k := by
      rw [fwd_add, fwd_smul]
      unfold coef
      rw [lx, ly]
    rw [e]
    rcases Nat.eq_zero_or_pos k with rfl | h0
    · rw [quarter_zero hcs hN]
      unfold hilbertWeight
      simp
    · rcases Nat.lt_trichotomy (2 * k) N with h | h | h
      · rw [coef_quarter c hcs h0 (by omega)]
        have hw : hilbertWeight N k = 2 := by
          unfold hilbertWeight
          rw [if_neg (by omega)]
          split_ifs <;> first | rfl | omega
        rw [hw]
        linear_combination (coef (mixture N c cs) k) * Complex.I_mul_I
      · rw [coef_quarter c hcs h0 (by omega), coef_top c hcs h0 h]; simp
      · have hx := coef_conj (mixture N c cs) (k := N - k) (by omega) (by omega)
        have hy := coef_conj (mixture N 0 (quarterDelay cs)) (k := N - k) (by omega) (by omega)
        rw [lx, Nat.sub_sub_self (by omega)] at hx
        rw [ly, Nat.sub_sub_self (by omega), coef_quarter c hcs (k := N - k) (by omega) (by omega), map_mul, map_neg, Complex.conj_I, neg_neg, ← hx] at hy
        have hw : hilbertWeight N k = 0 := by
          unfold hilbertWeight
          rw [if_neg (by omega)]
          split_ifs <;> first | rfl | omega
        rw [hw, hy]
        linear_combination -(coef (mixture N c cs) k) * Complex.I_mul_I
  unfold analytic
  rw [lx, inv_congr hfwd j]
  exact inv_fwd hN _ hj

theorem quadrature_mixture {N : Nat} (c : ℝ) {cs : List Comp} (hcs : ∀ q ∈ cs, 0 < q.p ∧ 2 * q.p < N) :
    quadrature (mixture N c cs) = mixture N 0 (quarterDelay cs) := by
  unfold quadrature
  rw [mixture_length, list_eq_map_range (mixture N 0 (quarterDelay cs)), mixture_length]
  refine List.map_congr_left fun j hj => ?_
  rw [analytic_mixture c hcs (List.mem_range.1 hj)]
  simp

/-! ## Asymmetry as skewness -/

theorem sum_sq_eq_of_coef {x y : List ℝ} (hl : y.length = x.length) (h : ∀ k < x.length, Complex.normSq (coef y k) = Complex.normSq (coef x k)) :
    (y.map (· ^ 2)).sum = (x.map (· ^ 2)).sum := by
  rcases Nat.eq_zero_or_pos x.length with h0 | hn
  · rw [List.length_eq_zero_iff.1 h0, List.length_eq_zero_iff.1 (hl.trans h0)]
  · have e1 := energy_eq hn
    have e2 := energy_eq (xs := y) (by omega)
    rw [hl, sum_congr rfl fun k hk => h k (mem_range.1 hk), e1] at e2
    have : (x.length : ℝ) ≠ 0 := by exact_mod_cast hn.ne'
    exact (mul_left_cancel₀ this e2).symm

theorem centred_sum {x : List ℝ} (hx : x ≠ []) : (x.map fun v => v + -mean x).sum = 0 := by
  have hn : (x.length : ℝ) ≠ 0 := by exact_mod_cast (List.length_pos_of_ne_nil hx).ne'
  rw [List.sum_map_add]
  simp only [List.map_id', List.map_const', List.sum_replicate, nsmul_eq_mul]
  unfold mean
  field_simp
  ring

/-- Records with equally strong oscillating components have the same variance. -/
theorem variance_eq_of_coef {x y : List ℝ} (hx : x ≠ []) (hl : y.length = x.length)
    (h : ∀ k < x.length, 0 < k → Complex.normSq (coef y k) = Complex.normSq (coef x k)) :
    mean (y.map fun v => (v - mean y) ^ 2) = mean (x.map fun v => (v - mean x) ^ 2) := by
  have hy : y ≠ [] := by
    intro e; rw [e] at hl; exact hx (List.length_eq_zero_iff.1 hl.symm)
  have key := sum_sq_eq_of_coef (x := x.map fun v => v + -mean x) (y := y.map fun v => v + -mean y) (by simpa using hl) (by
    intro k hk
    rw [List.length_map] at hk
    rcases Nat.eq_zero_or_pos k with rfl | h0
    · rw [coef_zero, coef_zero, centred_sum hx, centred_sum hy]
    · rw [coef_add_const _ h0 (by omega), coef_add_const _ h0 hk, h k hk h0])
  rw [List.map_map, List.map_map] at key
  unfold mean at key ⊢
  simp only [Function.comp_def, ← sub_eq_add_neg] at key
  rw [List.length_map, List.length_map, key, hl]

theorem normSq_coef_quarter {N : Nat} (c : ℝ) {cs : List Comp} (hcs : ∀ q ∈ cs, 0 < q.p ∧ 2 * q.p < N) {k : Nat} (h0 : 0 < k) (hk : k < N) :
    Complex.normSq (coef (mixture N 0 (quarterDelay cs)) k) = Complex.normSq (coef (mixture N c cs) k) := by
  have lx := mixture_length N c cs
  have ly := mixture_length N 0 (quarterDelay cs)
  have half : ∀ m, 0 < m → m ≤ N / 2 →
      Complex.normSq (coef (mixture N 0 (quarterDelay cs)) m) = Complex.normSq (coef (mixture N c cs) m) := by
    intro m h1 h2
    rw [coef_quarter c hcs h1 h2, Complex.normSq_mul, Complex.normSq_neg, Complex.normSq_I, one_mul]
  rcases le_or_gt k (N / 2) with h | h
  · exact half k h0 h
  · have hx := coef_conj (mixture N c cs) (k := N - k) (by omega) (by omega)
    have hy := coef_conj (mixture N 0 (quarterDelay cs)) (k := N - k) (by omega) (by omega)
    rw [lx, Nat.sub_sub_self (by omega)] at hx
    rw [ly, Nat.sub_sub_self (by omega)] at hy
    rw [hx, hy, Complex.normSq_conj, Complex.normSq_conj]
    exact half _ (by omega) (by omega)

theorem series_skewness {s : SeriesObj ℝ} {t x : List ℝ} {dt : ℝ} (h : ValidSeries s t x dt) : s.getSkewness = skewnessL x := by
  unfold SeriesObj.getSkewness; rw [h.xTime]; rfl

theorem series_asymmetry {s : SeriesObj ℝ} {t x : List ℝ} {dt : ℝ} (h : ValidSeries s t x dt) : s.getAsymmetry = asymmetryL x := by
  unfold SeriesObj.getAsymmetry; rw [sig_of h.xTime]; rfl

theorem asymmetry_is_delayed_skewness {N : Nat} (hN : 0 < N) (c : ℝ) {cs : List Comp} (hcs : ∀ q ∈ cs, 0 < q.p ∧ 2 * q.p < N) :
    asymmetryL (mixture N c cs) = skewnessL (mixture N 0 (quarterDelay cs)) := by
  have lx := mixture_length N c cs
  have ly := mixture_length N 0 (quarterDelay cs)
  have hx : mixture N c cs ≠ [] := fun e => by rw [e] at lx; simp at lx; omega
  have hy : mixture N 0 (quarterDelay cs) ≠ [] := fun e => by rw [e] at ly; simp at ly; omega
  have hv := variance_eq_of_coef hx (ly.trans lx.symm) fun k hk h0 => by
    rw [lx] at hk
    exact normSq_coef_quarter c hcs h0 hk
  have hm : mean (mixture N 0 (quarterDelay cs)) = 0 := by
    have := quarter_zero hcs hN
    rw [coef_zero] at this
    unfold mean
    rw [show (mixture N 0 (quarterDelay cs)).sum = 0 by exact_mod_cast this, zero_div]
  rw [asymmetryL_eq hx, quadrature_mixture c hcs, ← hv]
  unfold skewnessL
  rw [if_neg hy, hm]
  simp only [sub_zero]

/-- **C108.**  The asymmetry of a record made of a constant and sinusoids (below Nyquist) is the skewness of the record in which every
component is delayed by a quarter of its own period. -/
theorem asymmetry_delayed_skewness {s s' : SeriesObj ℝ} {t t' : List ℝ} {dt dt' : ℝ} {N : Nat} {c : ℝ} {cs : List Comp}
    (h : ValidSeries s t (mixture N c cs) dt) (h' : ValidSeries s' t' (mixture N 0 (quarterDelay cs)) dt')
    (hcs : ∀ q ∈ cs, 0 < q.p ∧ 2 * q.p < N) : s.getAsymmetry = s'.getSkewness := by
  have h2 := h.two
  have hl := h.len
  rw [mixture_length] at hl
  rw [series_asymmetry h, series_skewness h', asymmetry_is_delayed_skewness (by omega) c hcs]

/-! ## Delay of the whole record -/

theorem analytic_rotate (x : List ℝ) (m j : Nat) (hn : 0 < x.length) :
    analytic (x.rotate m) j = analytic x ((j + m) % x.length) := by
  unfold analytic inv
  rw [List.length_rotate]
  congr 1
  refine sum_congr rfl fun k _ => ?_
  dsimp only
  rw [coef_rotate]
  have e : twiddle x.length ((((j + m) % x.length : ℕ) : ℤ) * k) = twiddle x.length ((m : ℤ) * k) * twiddle x.length ((j : ℤ) * k) := by
    rw [← twiddle_add]
    have h := Nat.div_add_mod (j + m) x.length
    have h' : ((j : ℤ) + m) = x.length * ((j + m) / x.length : ℕ) + ((j + m) % x.length : ℕ) := by exact_mod_cast h.symm
    rw [show (m : ℤ) * k + j * k = (j + m) * k by ring, h', add_mul, mul_assoc, twiddle_add, twiddle_mul_self hn, one_mul]
  rw [e]
  ring

theorem quadrature_rotate (x : List ℝ) (m : Nat) : quadrature (x.rotate m) = (quadrature x).rotate m := by
  apply List.ext_getElem
  · simp [quadrature]
  intro j h1 h2
  have hj : j < x.length := by simpa [quadrature] using h1
  have ql : (quadrature x).length = x.length := by simp [quadrature]
  rw [List.getElem_rotate]
  simp only [quadrature, List.getElem_map, List.getElem_range, List.length_map, List.length_range]
  rw [analytic_rotate x m j (by omega)]

theorem mean_map_rotate (x : List ℝ) (m : Nat) (g : ℝ → ℝ) : mean ((x.rotate m).map g) = mean (x.map g) := by
  unfold mean
  rw [(List.Perm.map g (List.rotate_perm x m)).sum_eq, List.length_map, List.length_map, List.length_rotate]

theorem mean_rotate (x : List ℝ) (m : Nat) : mean (x.rotate m) = mean x := by
  have := mean_map_rotate x m id
  rwa [List.map_id, List.map_id] at this

theorem skewness_asymmetry_rotate (x : List ℝ) (m : Nat) :
    skewnessL (x.rotate m) = skewnessL x ∧ asymmetryL (x.rotate m) = asymmetryL x := by
  rcases eq_or_ne x [] with rfl | hx
  · simp
  have hx' : x.rotate m ≠ [] := by rw [Ne, List.rotate_eq_nil_iff]; exact hx
  constructor
  · unfold skewnessL
    rw [if_neg hx, if_neg hx', mean_rotate, mean_map_rotate, mean_map_rotate]
  · rw [asymmetryL_eq hx, asymmetryL_eq hx', quadrature_rotate, mean_rotate, mean_map_rotate, mean_map_rotate]

/-- **C108.**  Skewness and asymmetry of a periodically continued record do not depend on where the record starts. -/
theorem start_independent {s s' : SeriesObj ℝ} {t t' x : List ℝ} {dt dt' : ℝ} {m : Nat}
    (h : ValidSeries s t x dt) (h' : ValidSeries s' t' (x.rotate m) dt') :
    s'.getSkewness = s.getSkewness ∧ s'.getAsymmetry = s.getAsymmetry := by
  rw [series_skewness h, series_skewness h', series_asymmetry h, series_asymmetry h']
  exact skewness_asymmetry_rotate x m

/-! ## Values: a wave with its bound second harmonic -/

theorem sum_cos_harmonic {N p m : Nat} (h0 : 0 < m * p) (hN : m * p < N) (φ β : ℝ) :
    ∑ j ∈ range N, Real.cos (m * (2 * Real.pi * (p * j) / N + φ) + β) = 0 := by
  have key : ∑ j ∈ range N, Complex.exp (((m * φ + β : ℝ) : ℂ) * Complex.I) * twiddle N ((j : ℤ) * ((m * p : ℕ) : ℤ)) = 0 := by
    rw [← Finset.mul_sum, sum_twiddle (by omega), if_neg (by
      intro h
      have := Int.le_of_dvd (by omega) h
      omega), mul_zero]
  have h := congrArg Complex.re key
  rw [Complex.re_sum, Complex.zero_re] at h
  rw [← h]
  refine sum_congr rfl fun j _ => ?_
  unfold twiddle
  rw [← Complex.exp_add]
  have e : ((m * φ + β : ℝ) : ℂ) * Complex.I + 2 * Real.pi * Complex.I * (((j : ℤ) * ((m * p : ℕ) : ℤ) : ℤ) : ℂ) / N =
      ((m * (2 * Real.pi * (p * j) / N + φ) + β : ℝ) : ℂ) * Complex.I := by
    push_cast; ring
  rw [e, Complex.exp_ofReal_mul_I_re]

theorem cos_mul_cos (u v : ℝ) : Real.cos u * Real.cos v = (Real.cos (u + v) + Real.cos (u - v)) / 2 := by
  rw [Real.cos_add, Real.cos_sub]; ring

/-- A sinusoid with `p` periods per record, amplitude `a` and phase `φ`, and its second harmonic with amplitude `b` and phase lead `ψ`. -/
noncomputable def withHarmonic (p : Nat) (a b φ ψ : ℝ) : List Comp := [⟨p, a, φ⟩, ⟨2 * p, b, 2 * φ + ψ⟩]

theorem harmonic_sample {N p j : Nat} (a b c φ ψ : ℝ) (hj : j < N) :
    (mixture N c (withHarmonic p a b φ ψ)).getD j 0 =
      c + (a * Real.cos (2 * Real.pi * (p * j) / N + φ) + b * Real.cos (2 * (2 * Real.pi * (p * j) / N + φ) + ψ)) := by
  rw [mixture_getD c _ hj]
  unfold withHarmonic
  simp only [List.map_cons, List.map_nil, List.sum_cons, List.sum_nil]
  rw [show 2 * Real.pi * (((2 * p : ℕ) : ℝ) * j) / N + (2 * φ + ψ) = 2 * (2 * Real.pi * (p * j) / N + φ) + ψ by push_cast; ring]
  ring

theorem mixture_map_sum {N : Nat} (c : ℝ) (cs : List Comp) (g : ℝ → ℝ) :
    ((mixture N c cs).map g).sum = ∑ j ∈ range N, g ((mixture N c cs).getD j 0) := by
  conv_lhs => rw [list_eq_map_range (mixture N c cs), List.map_map, mixture_length, list_sum_map_range]
  rfl

theorem harmonic_moments {N p : Nat} (hp : 0 < p) (hN : 6 * p < N) (a b c φ ψ : ℝ) :
    mean (mixture N c (withHarmonic p a b φ ψ)) = c ∧
    mean ((mixture N c (withHarmonic p a b φ ψ)).map fun v => (v - c) ^ 2) = (a ^ 2 + b ^ 2) / 2 ∧
    mean ((mixture N c (withHarmonic p a b φ ψ)).map fun v => (v - c) ^ 3) = 3 / 4 * a ^ 2 * b * Real.cos ψ := by
  have hn : (N : ℝ) ≠ 0 := by
    have : N ≠ 0 := by omega
    exact_mod_cast this
  have S : ∀ m : Nat, 0 < m → m ≤ 6 → ∀ β : ℝ, ∑ j ∈ range N, Real.cos (m * (2 * Real.pi * (p * j) / N + φ) + β) = 0 := by
    intro m h1 h2 β
    refine sum_cos_harmonic (Nat.mul_pos h1 hp) ?_ φ β
    calc m * p ≤ 6 * p := Nat.mul_le_mul_right _ h2
      _ < N := hN
  have s1 := S 1 (by omega) (by omega)
  have s2 := S 2 (by omega) (by omega)
  have s3 := S 3 (by omega) (by omega)
  have s4 := S 4 (by omega) (by omega)
  have s5 := S 5 (by omega) (by omega)
  have s6 := S 6 (by omega) (by omega)
  push_cast at s1 s2 s3 s4 s5 s6
  refine ⟨?_, ?_, ?_⟩
  · have e := mixture_map_sum (N := N) c (withHarmonic p a b φ ψ) id
    rw [List.map_id] at e
    unfold mean
    rw [e, mixture_length]
    rw [sum_congr rfl fun j hj => show id ((mixture N c (withHarmonic p a b φ ψ)).getD j 0) =
      c + (a * Real.cos (1 * (2 * Real.pi * (p * j) / N + φ) + 0) + b * Real.cos (2 * (2 * Real.pi * (p * j) / N + φ) + ψ)) by
        rw [id, harmonic_sample a b c φ ψ (mem_range.1 hj), one_mul, add_zero]]
    rw [sum_add_distrib, sum_add_distrib, ← mul_sum, ← mul_sum, s1 0, s2 ψ, sum_const, card_range, nsmul_eq_mul]
    field_simp
    ring
  · unfold mean
    rw [mixture_map_sum, List.length_map, mixture_length]
    rw [sum_congr rfl fun j hj => show ((mixture N c (withHarmonic p a b φ ψ)).getD j 0 - c) ^ 2 =
      (a ^ 2 + b ^ 2) / 2 + (a ^ 2 / 2 * Real.cos (2 * (2 * Real.pi * (p * j) / N + φ) + 0) +
        (a * b * Real.cos (3 * (2 * Real.pi * (p * j) / N + φ) + ψ) + (a * b * Real.cos (1 * (2 * Real.pi * (p * j) / N + φ) + ψ) +
        b ^ 2 / 2 * Real.cos (4 * (2 * Real.pi * (p * j) / N + φ) + 2 * ψ)))) by
        rw [harmonic_sample a b c φ ψ (mem_range.1 hj)]
        generalize 2 * Real.pi * (p * j) / N + φ = θ
        have h1 := cos_mul_cos θ θ
        have h2 := cos_mul_cos (2 * θ + ψ) θ
        have h3 := cos_mul_cos (2 * θ + ψ) (2 * θ + ψ)
        rw [sub_self, Real.cos_zero] at h1 h3
        rw [show 2 * θ + 0 = θ + θ by ring, show 3 * θ + ψ = 2 * θ + ψ + θ by ring, show 1 * θ + ψ = 2 * θ + ψ - θ by ring,
          show 4 * θ + 2 * ψ = 2 * θ + ψ + (2 * θ + ψ) by ring]
        linear_combination a ^ 2 * h1 + 2 * a * b * h2 + b ^ 2 * h3]
    rw [sum_add_distrib, sum_add_distrib, sum_add_distrib, sum_add_distrib, ← mul_sum, ← mul_sum, ← mul_sum, ← mul_sum, s2 0, s3 ψ, s1 ψ,
      s4 (2 * ψ), sum_const, card_range, nsmul_eq_mul]
    field_simp
    ring
  · unfold mean
    rw [mixture_map_sum, List.length_map, mixture_length]
    rw [sum_congr rfl fun j hj => show ((mixture N c (withHarmonic p a b φ ψ)).getD j 0 - c) ^ 3 =
      3 / 4 * a ^ 2 * b * Real.cos ψ +
        (a ^ 3 * (3 / 4) * Real.cos (1 * (2 * Real.pi * (p * j) / N + φ) + 0) +
        (a ^ 3 / 4 * Real.cos (3 * (2 * Real.pi * (p * j) / N + φ) + 0) +
        (3 * a ^ 2 * b / 2 * Real.cos (2 * (2 * Real.pi * (p * j) / N + φ) + ψ) +
        (3 * a ^ 2 * b / 4 * Real.cos (4 * (2 * Real.pi * (p * j) / N + φ) + ψ) +
        (3 * a * b ^ 2 / 2 * Real.cos (1 * (2 * Real.pi * (p * j) / N + φ) + 0) +
        (3 * a * b ^ 2 / 4 * Real.cos (5 * (2 * Real.pi * (p * j) / N + φ) + 2 * ψ) +
        (3 * a * b ^ 2 / 4 * Real.cos (3 * (2 * Real.pi * (p * j) / N + φ) + 2 * ψ) +
        (b ^ 3 * (3 / 4) * Real.cos (2 * (2 * Real.pi * (p * j) / N + φ) + ψ) +
        b ^ 3 / 4 * Real.cos (6 * (2 * Real.pi * (p * j) / N + φ) + 3 * ψ))))))))) by
        rw [harmonic_sample a b c φ ψ (mem_range.1 hj)]
        generalize 2 * Real.pi * (p * j) / N + φ = θ
        have h1 := cos_mul_cos θ θ
        have h1' := cos_mul_cos (2 * θ) θ
        have h2 := cos_mul_cos (2 * θ + ψ) (2 * θ)
        have h3 := cos_mul_cos (2 * θ + ψ) (2 * θ + ψ)
        have h3' := cos_mul_cos (4 * θ + 2 * ψ) (2 * θ + ψ)
        have h4 := cos_mul_cos (4 * θ + 2 * ψ) θ
        rw [sub_self, Real.cos_zero] at h1 h3
        rw [show θ + θ = 2 * θ by ring] at h1
        rw [show 2 * θ + ψ + (2 * θ + ψ) = 4 * θ + 2 * ψ by ring] at h3
        rw [show 2 * θ + θ = 3 * θ by ring, show 2 * θ - θ = θ by ring] at h1'
        rw [show 2 * θ + ψ + 2 * θ = 4 * θ + ψ by ring, show 2 * θ + ψ - 2 * θ = ψ by ring] at h2
        rw [show 4 * θ + 2 * ψ + (2 * θ + ψ) = 6 * θ + 3 * ψ by ring, show 4 * θ + 2 * ψ - (2 * θ + ψ) = 2 * θ + ψ by ring] at h3'
        rw [show 4 * θ + 2 * ψ + θ = 5 * θ + 2 * ψ by ring, show 4 * θ + 2 * ψ - θ = 3 * θ + 2 * ψ by ring] at h4
        rw [one_mul, add_zero, add_zero]
        linear_combination (a ^ 3 * Real.cos θ + 3 * a ^ 2 * b * Real.cos (2 * θ + ψ)) * h1 + a ^ 3 / 2 * h1' +
          3 * a ^ 2 * b / 2 * h2 + (3 * a * b ^ 2 * Real.cos θ + b ^ 3 * Real.cos (2 * θ + ψ)) * h3 + 3 * a * b ^ 2 / 2 * h4 + b ^ 3 / 2 * h3']
    simp only [sum_add_distrib, ← mul_sum, s1, s2, s3, s4, s5, s6, sum_const, card_range, nsmul_eq_mul]
    field_simp
    ring

theorem harmonic_valid {N p : Nat} (hp : 0 < p) (hN : 6 * p < N) (a b φ ψ : ℝ) :
    ∀ q ∈ withHarmonic p a b φ ψ, 0 < q.p ∧ 2 * q.p < N := by
  intro q hq
  unfold withHarmonic at hq
  rcases List.mem_cons.1 hq with rfl | hq
  · exact ⟨hp, by simp only; omega⟩
  · rw [List.mem_singleton] at hq
    subst hq
    exact ⟨by simp only; omega, by simp only; omega⟩

theorem harmonic_skewness {N p : Nat} (hp : 0 < p) (hN : 6 * p < N) {a b : ℝ} (hab : a ≠ 0 ∨ b ≠ 0) (c φ ψ : ℝ) :
    skewnessL (mixture N c (withHarmonic p a b φ ψ)) = .ok (3 / 4 * a ^ 2 * b * Real.cos ψ / ((a ^ 2 + b ^ 2) / 2) ^ (3 / 2 : ℝ)) := by
  obtain ⟨h1, h2, h3⟩ := harmonic_moments hp hN a b c φ ψ
  have hpos : (a ^ 2 + b ^ 2) / 2 ≠ 0 := by
    rcases hab with h | h <;> positivity
  have hne : mixture N c (withHarmonic p a b φ ψ) ≠ [] := fun e => by
    have := mixture_length N c (withHarmonic p a b φ ψ)
    rw [e] at this; simp at this; omega
  unfold skewnessL over15
  rw [if_neg hne, h1, h2, h3, if_neg hpos]

theorem quarter_harmonic (p : Nat) (a b φ ψ : ℝ) :
    quarterDelay (withHarmonic p a b φ ψ) = withHarmonic p a b (φ - Real.pi / 2) (ψ + Real.pi / 2) := by
  unfold quarterDelay withHarmonic
  simp only [List.map_cons, List.map_nil, List.cons.injEq, Comp.mk.injEq, true_and, and_true]
  ring

/-- **C108.**  A wave with a bound second harmonic leading by `ψ`: the harmonic in phase (peaked crests) gives positive skewness and no
asymmetry; a lead by a quarter period gives asymmetry only; the wave alone (`b = 0`) has neither. -/
theorem harmonic_skewness_asymmetry {s : SeriesObj ℝ} {t : List ℝ} {dt : ℝ} {N p : Nat} (hp : 0 < p) (hN : 6 * p < N) {a b : ℝ}
    (hab : a ≠ 0 ∨ b ≠ 0) (c φ ψ : ℝ) (h : ValidSeries s t (mixture N c (withHarmonic p a b φ ψ)) dt) :
    s.getSkewness = .ok (3 / 4 * a ^ 2 * b * Real.cos ψ / ((a ^ 2 + b ^ 2) / 2) ^ (1.5 : ℝ)) ∧
      s.getAsymmetry = .ok (-(3 / 4 * a ^ 2 * b * Real.sin ψ) / ((a ^ 2 + b ^ 2) / 2) ^ (1.5 : ℝ)) := by
  have e15 : (1.5 : ℝ) = 3 / 2 := by norm_num
  rw [e15]
  have hs : s.getSkewness = skewnessL (mixture N c (withHarmonic p a b φ ψ)) ∧ s.getAsymmetry = asymmetryL (mixture N c (withHarmonic p a b φ ψ)) :=
    ⟨series_skewness h, series_asymmetry h⟩
  rw [hs.1, hs.2, asymmetry_is_delayed_skewness (by omega) c (harmonic_valid hp hN a b φ ψ), quarter_harmonic,
    harmonic_skewness hp hN hab, harmonic_skewness hp hN hab, Real.cos_add_pi_div_two]
  refine ⟨rfl, ?_⟩
  congr 2
  ring

/-- The hypotheses are met: a wave of four periods in 32 samples with a harmonic in phase has positive skewness and no asymmetry. -/
example : ∃ s t, SeriesObj.init (vec t) (vec (mixture 32 1 (withHarmonic 4 1 (1 / 4) 0 0))) = .ok s ∧
    (∃ v > 0, s.getSkewness = .ok v) ∧ s.getAsymmetry = .ok 0 := by
  obtain ⟨s, t, e, hv⟩ := series_of_record (mixture 32 1 (withHarmonic 4 1 (1 / 4) 0 0)) (by rw [mixture_length]; norm_num)
  obtain ⟨h1, h2⟩ := harmonic_skewness_asymmetry (by norm_num) (by norm_num) (Or.inl one_ne_zero) 1 0 0 hv
  refine ⟨s, t, e, ⟨_, ?_, h1⟩, ?_⟩
  · rw [Real.cos_zero]; positivity
  · rw [h2, Real.sin_zero]; norm_num

/-- The delayed record exists as well, so `asymmetry_delayed_skewness` applies to a pair of constructed series. -/
example : ∃ s t s' t', SeriesObj.init (vec t) (vec (mixture 32 1 [⟨4, 1, 0⟩, ⟨7, 2, 1⟩])) = .ok s ∧
    SeriesObj.init (vec t') (vec (mixture 32 0 (quarterDelay [⟨4, 1, 0⟩, ⟨7, 2, 1⟩]))) = .ok s' ∧ s.getAsymmetry = s'.getSkewness := by
  obtain ⟨s, t, e, hv⟩ := series_of_record (mixture 32 1 [⟨4, 1, 0⟩, ⟨7, 2, 1⟩]) (by rw [mixture_length]; norm_num)
  obtain ⟨s', t', e', hv'⟩ := series_of_record (mixture 32 0 (quarterDelay [⟨4, 1, 0⟩, ⟨7, 2, 1⟩])) (by rw [mixture_length]; norm_num)
  exact ⟨s, t, s', t', e, e', asymmetry_delayed_skewness hv hv' (by simp)⟩

/-! ## Concrete cases: the hypotheses of the theorems above are met -/

/-- The record 1, 0, 5, 2 and the same record started two samples later. -/
example : ∃ s t s' t', SeriesObj.init (vec t) (vec ([1, 0, 5, 2] : List ℝ)) = .ok s ∧ SeriesObj.init (vec t') (vec ([5, 2, 1, 0] : List ℝ)) = .ok s' ∧
    s'.getSkewness = s.getSkewness ∧ s'.getAsymmetry = s.getAsymmetry := by
  obtain ⟨s, t, e, hv⟩ := series_of_record [1, 0, 5, 2] (by simp)
  obtain ⟨s', t', e', hv'⟩ := series_of_record (([1, 0, 5, 2] : List ℝ).rotate 2) (by simp)
  exact ⟨s, t, s', t', e, e', start_independent hv hv'⟩

end Verif
