import Verif.Props.WelchSea
import Verif.Props.RecordHeight

/-! # C158: superposition and measurement noise in spectra -/

set_option linter.unusedSectionVars false

namespace Verif
open Finset

/-- Weighted Minkowski inequality. -/
theorem mink {ι : Type} (s : Finset ι) {a p q r : ι → ℝ} (ha : ∀ i ∈ s, 0 ≤ a i) (hr : ∀ i ∈ s, 0 ≤ r i)
    (h : ∀ i ∈ s, r i ≤ p i + q i) :
    √(∑ i ∈ s, a i * r i ^ 2) ≤ √(∑ i ∈ s, a i * p i ^ 2) + √(∑ i ∈ s, a i * q i ^ 2) := by
  set P := ∑ i ∈ s, a i * p i ^ 2 with hP
  set Q := ∑ i ∈ s, a i * q i ^ 2 with hQ
  have hP0 : 0 ≤ P := sum_nonneg fun i hi => mul_nonneg (ha i hi) (sq_nonneg _)
  have hQ0 : 0 ≤ Q := sum_nonneg fun i hi => mul_nonneg (ha i hi) (sq_nonneg _)
  have cs : (∑ i ∈ s, a i * (p i * q i)) ^ 2 ≤ P * Q := by
    have := sum_mul_sq_le_sq_mul_sq s (fun i => √(a i) * p i) (fun i => √(a i) * q i)
    have e1 : ∑ i ∈ s, √(a i) * p i * (√(a i) * q i) = ∑ i ∈ s, a i * (p i * q i) := sum_congr rfl fun i hi => by
      rw [show √(a i) * p i * (√(a i) * q i) = (√(a i) * √(a i)) * (p i * q i) by ring, Real.mul_self_sqrt (ha i hi)]
    have e2 : ∀ u : ι → ℝ, ∑ i ∈ s, (√(a i) * u i) ^ 2 = ∑ i ∈ s, a i * u i ^ 2 := fun u => sum_congr rfl fun i hi => by
      rw [mul_pow, Real.sq_sqrt (ha i hi)]
    rw [e1, e2 p, e2 q] at this
    exact this
  have hcross : ∑ i ∈ s, a i * (p i * q i) ≤ √P * √Q := by
    rw [← Real.sqrt_mul hP0]
    exact Real.le_sqrt_of_sq_le cs
  apply Real.sqrt_le_iff.2
  refine ⟨by positivity, ?_⟩
  calc ∑ i ∈ s, a i * r i ^ 2 ≤ ∑ i ∈ s, a i * (p i + q i) ^ 2 := sum_le_sum fun i hi =>
        mul_le_mul_of_nonneg_left (pow_le_pow_left₀ (hr i hi) (h i hi) 2) (ha i hi)
    _ = P + 2 * ∑ i ∈ s, a i * (p i * q i) + Q := by
        rw [hP, hQ, mul_sum, ← sum_add_distrib, ← sum_add_distrib]
        exact sum_congr rfl fun i _ => by ring
    _ ≤ P + 2 * (√P * √Q) + Q := by linarith
    _ = (√P + √Q) ^ 2 := by rw [add_sq, Real.sq_sqrt hP0, Real.sq_sqrt hQ0]; ring

/-- Specification: bin by bin, the square roots of the densities satisfy the triangle inequality. -/
def AmpTriangle (S S₁ S₂ : List ℝ) : Prop :=
  S₁.length = S.length ∧ S₂.length = S.length ∧ (∀ d ∈ S, 0 ≤ d) ∧ (∀ d ∈ S₁, 0 ≤ d) ∧ (∀ d ∈ S₂, 0 ≤ d) ∧
    ∀ k < S.length, √(S.getD k 0) ≤ √(S₁.getD k 0) + √(S₂.getD k 0)

theorem getD_nonneg' {S : List ℝ} (h : ∀ d ∈ S, 0 ≤ d) (k : Nat) : 0 ≤ S.getD k 0 := by
  by_cases hk : k < S.length
  · rw [List.getD_eq_getElem _ _ hk]; exact h _ (List.getElem_mem hk)
  · rw [List.getD_eq_default _ _ (by omega)]

theorem simpsonWeight_nonneg (n k : Nat) : 0 ≤ simpsonWeight ℝ n k := by
  by_cases hn : 2 ≤ n
  · exact le_trans (by norm_num) (simpsonWeight_bounds hn k).1
  · unfold simpsonWeight
    split_ifs <;> first | omega | norm_num

theorem weighted_nonneg {f S : List ℝ} {h : ℝ} {m : Int} (hS : ∀ d ∈ S, 0 ≤ d) (hh : 0 ≤ h) (i n : Nat) (hf : ∀ k < n, 0 ≤ f.getD (i + k) 0) :
    0 ≤ h * ∑ k ∈ range n, simpsonWeight ℝ n k * (f.getD (i + k) 0 ^ m * S.getD (i + k) 0) :=
  mul_nonneg hh (sum_nonneg fun k hk => mul_nonneg (simpsonWeight_nonneg n k) (mul_nonneg (zpow_nonneg (hf k (mem_range.1 hk)) m) (getD_nonneg' hS _)))

/-- The weighted sums of C102 satisfy the triangle inequality. -/
theorem triangle_sum {f S S₁ S₂ : List ℝ} {h : ℝ} {m : Int} (hA : AmpTriangle S S₁ S₂) (hh : 0 ≤ h) (i n : Nat) (hin : i + n ≤ S.length)
    (hf : ∀ k < n, 0 ≤ f.getD (i + k) 0) :
    √(h * ∑ k ∈ range n, simpsonWeight ℝ n k * (f.getD (i + k) 0 ^ m * S.getD (i + k) 0)) ≤
      √(h * ∑ k ∈ range n, simpsonWeight ℝ n k * (f.getD (i + k) 0 ^ m * S₁.getD (i + k) 0)) +
      √(h * ∑ k ∈ range n, simpsonWeight ℝ n k * (f.getD (i + k) 0 ^ m * S₂.getD (i + k) 0)) := by
  obtain ⟨-, -, p0, p1, p2, ht⟩ := hA
  have hw := simpsonWeight_nonneg n
  have e : ∀ T : List ℝ, (∀ d ∈ T, 0 ≤ d) → h * ∑ k ∈ range n, simpsonWeight ℝ n k * (f.getD (i + k) 0 ^ m * T.getD (i + k) 0) =
      ∑ k ∈ range n, h * simpsonWeight ℝ n k * f.getD (i + k) 0 ^ m * √(T.getD (i + k) 0) ^ 2 := by
    intro T hT
    rw [mul_sum]
    exact sum_congr rfl fun k _ => by rw [Real.sq_sqrt (getD_nonneg' hT _)]; ring
  rw [e S p0, e S₁ p1, e S₂ p2]
  refine mink _ (fun k hk => ?_) (fun k _ => Real.sqrt_nonneg _) (fun k hk => ht _ (by have := mem_range.1 hk; omega))
  exact mul_nonneg (mul_nonneg hh (hw k)) (zpow_nonneg (hf k (mem_range.1 hk)) m)

/-- **C158 (moments).**  Densities that satisfy the triangle inequality bin by bin, on one equidistant axis: the square roots of their moments of
every order, between any limits within the axis, satisfy it too. -/
theorem moment_triangle {pf pS p₁ p₂ : PyIn ℝ} {f S S₁ S₂ : List ℝ} {h fmin F : ℝ} {m : Int} (hf : pf.IsArr f) (hS : pS.IsArr S) (hS₁ : p₁.IsArr S₁)
    (hS₂ : p₂.IsArr S₂) (hu : UniformAxis f h) (h2 : 2 ≤ f.length) (hl : f.length = S.length) (h0 : 0 ≤ f.getD 0 0) (h1 : 0 ≤ fmin) (hF : fmin ≤ F)
    (hlast : F ≤ f.getD (f.length - 1) 0) (hA : AmpTriangle S S₁ S₂) :
    ∃ v v₁ v₂, computeMoment pf pS m fmin (.fin F) = .ok v ∧ computeMoment pf p₁ m fmin (.fin F) = .ok v₁ ∧
      computeMoment pf p₂ m fmin (.fin F) = .ok v₂ ∧ 0 ≤ v ∧ 0 ≤ v₁ ∧ 0 ≤ v₂ ∧ √v ≤ √v₁ + √v₂ := by
  have hm : monotonicIncreasingConstantStep f = .ok true := uniform_check_accepts_uniform h2 hu
  have hp := uniform_check_increasing hm
  obtain ⟨i, j, hsel⟩ := moment_range_exists hm m fmin (.fin F)
  have hj : j < f.length := hsel.2.2.1
  have hij : i ≤ j := isNearest_mono hp hF hsel.1 hsel.2
  have pos : ∀ k < j + 1 - i, 0 ≤ f.getD (i + k) 0 := fun k hk => h0.trans (inc_le hp (Nat.zero_le _) (by omega))
  refine ⟨_, _, _, moment_exact hf hS hu h2 hl h0 h1 hF hlast hsel, moment_exact hf hS₁ hu h2 (by rw [hA.1, hl]) h0 h1 hF hlast hsel,
    moment_exact hf hS₂ hu h2 (by rw [hA.2.1, hl]) h0 h1 hF hlast hsel, ?_, ?_, ?_, ?_⟩
  · exact weighted_nonneg hA.2.2.1 hu.1.le i _ pos
  · exact weighted_nonneg hA.2.2.2.1 hu.1.le i _ pos
  · exact weighted_nonneg hA.2.2.2.2.1 hu.1.le i _ pos
  exact triangle_sum hA hu.1.le i (j + 1 - i) (by omega) pos

/-- Specification: the limits passed to a getter are the defaults or lie, in order, within the axis. -/
def LimitsWithin (f : List ℝ) (fmin F : ℝ) : Prop :=
  let lo := if fmin = -1 then f.getD 0 0 else fmin
  let hi := if F = -1 then f.getD (f.length - 1) 0 else F
  0 ≤ lo ∧ lo ≤ hi ∧ hi ≤ f.getD (f.length - 1) 0

/-- **C158 (wave heights).**  The wave heights between such limits satisfy the triangle inequality. -/
theorem height_triangle {f S S₁ S₂ : List ℝ} {h fmin F : ℝ} {s s₁ s₂ : SpecObj} (hs : SpecObj.init (vec f) (vec S) = .ok s)
    (hs₁ : SpecObj.init (vec f) (vec S₁) = .ok s₁) (hs₂ : SpecObj.init (vec f) (vec S₂) = .ok s₂) (hu : UniformAxis f h) (h0 : 0 ≤ f.getD 0 0)
    (hlim : LimitsWithin f fmin F) (hA : AmpTriangle S S₁ S₂) :
    ∃ H H₁ H₂, (s.getHm0 fmin (.fin F)).1 = .ok H ∧ (s₁.getHm0 fmin (.fin F)).1 = .ok H₁ ∧ (s₂.getHm0 fmin (.fin F)).1 = .ok H₂ ∧ H ≤ H₁ + H₂ := by
  obtain ⟨hm, hl, rfl⟩ := (spectrum_init_iff_partial (isArr_vec f) (isArr_vec S)).1 hs
  obtain ⟨-, hl₁, rfl⟩ := (spectrum_init_iff_partial (isArr_vec f) (isArr_vec S₁)).1 hs₁
  obtain ⟨-, hl₂, rfl⟩ := (spectrum_init_iff_partial (isArr_vec f) (isArr_vec S₂)).1 hs₂
  have e : setFlim f fmin (.fin F) = (if fmin = -1 then f.getD 0 0 else fmin, .fin (if F = -1 then f.getD (f.length - 1) 0 else F)) := by
    unfold setFlim
    by_cases hF : F = -1
    · subst hF; simp
    · have : ¬ (FMax.fin F = FMax.fin (-1)) := by intro h; cases h; exact hF rfl
      rw [if_neg this, if_neg hF]
  obtain ⟨v, v₁, v₂, e1, e2, e3, p, p₁, p₂, ht⟩ := moment_triangle (m := 0) (isArr_vec f) (isArr_vec S) (isArr_vec S₁) (isArr_vec S₂) hu (mono_two_le hm) hl h0
    hlim.1 hlim.2.1 hlim.2.2 hA
  have val : ∀ {T : List ℝ} {w : ℝ}, computeMoment (vec f) (vec T) 0 (if fmin = -1 then f.getD 0 0 else fmin)
      (.fin (if F = -1 then f.getD (f.length - 1) 0 else F)) = .ok w → 0 ≤ w → calcHm0 f ⟨[T.length], T⟩ fmin (.fin F) = .ok (4 * √w) := by
    intro T w hw h
    unfold calcHm0
    rw [e]
    dsimp only
    rw [show (PyIn.nd ⟨[T.length], T⟩ : PyIn ℝ) = vec T from rfl, hw]
    show heightOf w = _
    unfold heightOf
    rw [if_neg (not_lt.2 h)]
  exact ⟨_, _, _, val e1 p, val e2 p₁, val e3 p₂, by linarith⟩

/-! ## Superposed records -/

/-- Sum of two records of the same length. -/
def addRec (x y : List ℝ) : List ℝ := List.zipWith (· + ·) x y

theorem addRec_length {x y : List ℝ} (h : x.length = y.length) : (addRec x y).length = x.length := by simp [addRec, h]

theorem addRec_getD {x y : List ℝ} (h : x.length = y.length) (k : Nat) : (addRec x y).getD k 0 = x.getD k 0 + y.getD k 0 := by
  unfold addRec
  by_cases hk : k < x.length
  · rw [List.getD_eq_getElem _ _ (by simp; omega), List.getD_eq_getElem _ _ hk, List.getD_eq_getElem _ _ (by omega), List.getElem_zipWith]
  · rw [List.getD_eq_default _ _ (by simp; omega), List.getD_eq_default _ _ (by omega), List.getD_eq_default _ _ (by omega), add_zero]

theorem addRec_sum {x y : List ℝ} (h : x.length = y.length) : (addRec x y).sum = x.sum + y.sum := by
  rw [list_sum_getD, list_sum_getD x, list_sum_getD y, addRec_length h, ← h, ← sum_add_distrib]
  exact sum_congr rfl fun k _ => addRec_getD h k

theorem addRec_mean {x y : List ℝ} (h : x.length = y.length) : mean (addRec x y) = mean x + mean y := by
  unfold mean
  rw [addRec_sum h, addRec_length h, ← h, add_div]

theorem addRec_slice (x y : List ℝ) (i j : Nat) : pySlice (addRec x y) i j = addRec (pySlice x i j) (pySlice y i j) := by
  unfold pySlice addRec
  rw [List.take_zipWith, List.drop_zipWith]

theorem slice_len_eq {x y : List ℝ} (h : x.length = y.length) (i j : Nat) : (pySlice x i j).length = (pySlice y i j).length := by
  unfold pySlice; simp [h]

theorem tapered_add {w x y : List ℝ} (h : x.length = y.length) (j : Nat) : tapered w (addRec x y) j = tapered w x j + tapered w y j := by
  unfold tapered
  rw [addRec_length h, ← h, addRec_getD h, addRec_mean h]
  split_ifs
  · ring
  · simp

theorem fwd_add_real (n : Nat) (a b : Nat → ℝ) (k : Nat) :
    fwd n (fun j => ((a j + b j : ℝ) : ℂ)) k = fwd n (fun j => ((a j : ℝ) : ℂ)) k + fwd n (fun j => ((b j : ℝ) : ℂ)) k := by
  unfold fwd
  rw [← sum_add_distrib]
  exact sum_congr rfl fun j _ => by push_cast; ring

/-- The Welch density of one bin as a weighted sum of squared moduli. -/
theorem welch_bin {x w f S : List ℝ} {dt : ℝ} {N M k : Nat} {v : Int} (h : IsWelch x dt w N v M f S) (hk : k < M / 2 + 1) :
    S.getD k 0 = ∑ i ∈ range (nSegments x.length N v), ((if k = 0 then 1 else if M % 2 = 0 ∧ k = M / 2 then 1 else 2) * dt /
      (∑ j ∈ range N, w.getD j 0 ^ 2) / (nSegments x.length N v : ℝ)) * ‖fwd M (fun j => ((tapered w (segment x N v i) j : ℝ) : ℂ)) k‖ ^ 2 := by
  rw [h.dens k hk]
  unfold mean
  rw [list_sum_map_range, List.length_map, List.length_range, Finset.sum_div]
  refine sum_congr rfl fun i _ => ?_
  rw [Complex.normSq_eq_norm_sq]
  ring

theorem welch_dens_nonneg {x w f S : List ℝ} {dt : ℝ} {N M : Nat} {v : Int} (hdt : 0 < dt) (h : IsWelch x dt w N v M f S) : ∀ d ∈ S, 0 ≤ d := by
  intro d hd
  obtain ⟨k, hk, rfl⟩ := List.getElem_of_mem hd
  rw [← List.getD_eq_getElem _ 0 hk, welch_bin h (h.len ▸ hk)]
  refine sum_nonneg fun i _ => mul_nonneg ?_ (sq_nonneg _)
  have : 0 ≤ ∑ j ∈ range N, w.getD j 0 ^ 2 := sum_nonneg fun j _ => sq_nonneg _
  split_ifs <;> positivity

/-- **C158 (Welch spectra).**  Bin by bin, the square root of the density of a sum of two records is at most the sum of, and at least the difference
of, those of the two records. -/
theorem welch_triangle {x y w f fy fz Sx Sy Sz : List ℝ} {dt : ℝ} {N M : Nat} {v : Int} (hdt : 0 < dt) (hl : x.length = y.length)
    (hx : IsWelch x dt w N v M f Sx) (hy : IsWelch y dt w N v M fy Sy) (hz : IsWelch (addRec x y) dt w N v M fz Sz) :
    AmpTriangle Sz Sx Sy ∧ AmpTriangle Sx Sz Sy := by
  have nx := welch_dens_nonneg hdt hx
  have ny := welch_dens_nonneg hdt hy
  have nz := welch_dens_nonneg hdt hz
  have hW : 0 ≤ ∑ j ∈ range N, w.getD j 0 ^ 2 := sum_nonneg fun j _ => sq_nonneg _
  have hF : ∀ i k, fwd M (fun j => ((tapered w (segment (addRec x y) N v i) j : ℝ) : ℂ)) k =
      fwd M (fun j => ((tapered w (segment x N v i) j : ℝ) : ℂ)) k + fwd M (fun j => ((tapered w (segment y N v i) j : ℝ) : ℂ)) k := by
    intro i k
    rw [← fwd_add_real]
    congr 1
    funext j
    unfold segment
    rw [← tapered_add (slice_len_eq hl _ _), addRec_slice]
  refine ⟨⟨by rw [hx.len, hz.len], by rw [hy.len, hz.len], nz, nx, ny, fun k hk => ?_⟩,
    ⟨by rw [hx.len, hz.len], by rw [hy.len, hx.len], nx, nz, ny, fun k hk => ?_⟩⟩
  · rw [hz.len] at hk
    rw [welch_bin hx hk, welch_bin hy hk, welch_bin hz hk, addRec_length hl, ← hl]
    refine mink _ (fun i _ => ?_) (fun i _ => norm_nonneg _) (fun i _ => ?_)
    · split_ifs <;> positivity
    · rw [hF]; exact norm_add_le _ _
  · rw [hx.len] at hk
    rw [welch_bin hx hk, welch_bin hy hk, welch_bin hz hk, addRec_length hl, ← hl]
    refine mink _ (fun i _ => ?_) (fun i _ => norm_nonneg _) (fun i _ => ?_)
    · split_ifs <;> positivity
    · rw [hF]
      have := norm_sub_le (fwd M (fun j => ((tapered w (segment x N v i) j : ℝ) : ℂ)) k + fwd M (fun j => ((tapered w (segment y N v i) j : ℝ) : ℂ)) k)
        (fwd M (fun j => ((tapered w (segment y N v i) j : ℝ) : ℂ)) k)
      rwa [add_sub_cancel_right] at this

/-- An accepted call of the estimator: its settings, which depend on the length of the record only. -/
theorem welch_opt_settings {x : List ℝ} {dt : ℝ} {window : String} {nps nov nfft : Option Int} {r : List ℝ × List ℝ}
    (hx : x ≠ []) (h : welch x (1 / dt) window nps nov nfft = .ok r) :
    ∃ (w : List ℝ) (N : Nat) (v : Int) (M : Nat), 0 < N ∧ N ≤ x.length ∧ N ≤ M ∧ w.length = N ∧ v < N ∧ (window = "hann" → w = hann N) ∧
      ∀ y : List ℝ, y.length = x.length → ∃ f S, welch y (1 / dt) window nps nov nfft = .ok (f, S) ∧ IsWelch y dt w N v M f S := by
  unfold welch at h
  rw [if_neg hx] at h
  have h1 : ¬ nps.getD 256 < 1 := by
    intro hx; rw [if_pos hx] at h; cases h
  rw [if_neg h1] at h
  dsimp only at h
  rcases hw : getWindow window (min (nps.getD 256).toNat x.length) with e | w
  · rw [hw] at h; cases h
  rw [hw] at h
  dsimp only at h
  set N := min (nps.getD 256).toNat x.length with hN
  have h2 : ¬ nfft.getD N < N := by
    intro hx; rw [if_pos hx] at h; cases h
  rw [if_neg h2] at h
  have h3 : ¬ (N : Int) ≤ nov.getD (N / 2 : Nat) := by
    intro hx; rw [if_pos hx] at h; cases h
  rw [if_neg h3] at h
  have hxl : 0 < x.length := List.length_pos_iff.2 hx
  have hN0 : 0 < N := by rw [hN]; omega
  have hNx : N ≤ x.length := by rw [hN]; exact Nat.min_le_right _ _
  have hwl : w.length = N := getWindow_length hw
  obtain ⟨v, hv⟩ : ∃ v : Int, nov.getD (N / 2 : Nat) = v := ⟨_, rfl⟩
  obtain ⟨M, hM⟩ := Int.eq_ofNat_of_zero_le (show 0 ≤ nfft.getD N by omega)
  refine ⟨w, N, v, M, hN0, hNx, by omega, hwl, by omega, ?_, fun y hy => ?_⟩
  · intro e
    rw [e] at hw
    unfold getWindow at hw
    rw [if_pos rfl] at hw
    cases hw; rfl
  · have hy0 : y ≠ [] := by intro e; rw [e] at hy; simp at hy; omega
    exact welch_ok (dt := dt) hy0 (by omega) (by rw [hy]) hw hwl hM (by omega) hv (by omega)

/-- The same for the wrapper the library calls. -/
theorem welch_settings {x : List ℝ} {dt : ℝ} {window : String} {nps nov nfft : Int} {r : List ℝ × List ℝ} (hdt : 0 < dt)
    (hx : x ≠ []) (h : welchWrapper x dt nps nov nfft window = .ok r) :
    ∃ (w : List ℝ) (N : Nat) (v : Int) (M : Nat), 0 < N ∧ N ≤ x.length ∧ N ≤ M ∧ w.length = N ∧ v < N ∧ (window = "hann" → w = hann N) ∧
      ∀ y : List ℝ, y.length = x.length → ∃ f S, welchWrapper y dt nps nov nfft window = .ok (f, S) ∧ IsWelch y dt w N v M f S := by
  unfold welchWrapper at h ⊢
  rw [if_neg hdt.ne'] at h
  simp only [if_neg hdt.ne']
  exact welch_opt_settings hx h

/-- The spectrum of one record exists exactly if that of every record of the same length and time step does, with the same settings. -/
theorem getSpectrum_settings {s : SeriesObj ℝ} {x : List ℝ} {nps nov nfft : Int} {window : String} {df : ℝ} {b : Bool} {sp : SpecObj}
    (hx : s.xTime = arr1 x) (hdt : 0 < s.dt) (h : s.getSpectrum nps nov nfft window df b = .ok sp) :
    ∃ (w : List ℝ) (N : Nat) (v : Int) (M : Nat), 0 < N ∧ N ≤ x.length ∧ N ≤ M ∧ 2 ≤ M ∧ w.length = N ∧ v < N ∧ (window = "hann" → w = hann N) ∧
      ∀ (s' : SeriesObj ℝ) (y : List ℝ), s'.xTime = arr1 y → s'.dt = s.dt → y.length = x.length →
        ∃ sp' S', s'.getSpectrum nps nov nfft window df b = .ok sp' ∧ SpecObj.init (vec sp'.f) (vec S') = .ok sp' ∧
          IsWelch y s.dt w N v M sp'.f S' := by
  have core : ∀ (a c : Int) (g : SpecObj), (do let (f, S) ← welchWrapper x s.dt a c nfft window; SpecObj.init (vec f) (vec S)) = .ok g →
      ∃ (w : List ℝ) (N : Nat) (v : Int) (M : Nat), 0 < N ∧ N ≤ x.length ∧ N ≤ M ∧ 2 ≤ M ∧ w.length = N ∧ v < N ∧ (window = "hann" → w = hann N) ∧
      ∀ (y : List ℝ), y.length = x.length → ∃ sp' S', (do let (f, S) ← welchWrapper y s.dt a c nfft window; SpecObj.init (vec f) (vec S)) = .ok sp' ∧
        SpecObj.init (vec sp'.f) (vec S') = .ok sp' ∧ IsWelch y s.dt w N v M sp'.f S' := by
    intro a c g hg
    obtain ⟨⟨f, S⟩, hr, hg⟩ := bind_ok.1 hg
    have hx0 : x ≠ [] := by
      rintro rfl
      unfold welchWrapper welch at hr
      rw [if_neg hdt.ne'] at hr
      dsimp only at hr
      rw [if_pos rfl] at hr
      cases hr
      have := mono_two_le ((spectrum_init_iff_partial (isArr_vec _) (isArr_vec _)).1 hg).1
      simp at this
    obtain ⟨w, N, v, M, k1, k2, k3, k4, k5, k6, k7⟩ := welch_settings hdt hx0 hr
    have hM : 2 ≤ M := by
      obtain ⟨f', S', e1, e2⟩ := k7 x rfl
      rw [hr] at e1
      cases e1
      have := mono_two_le ((spectrum_init_iff_partial (isArr_vec f) (isArr_vec S)).1 hg).1
      rw [e2.freq] at this
      simp at this
      omega
    refine ⟨w, N, v, M, k1, k2, k3, hM, k4, k5, k6, fun y hy => ?_⟩
    obtain ⟨f', S', e1, e2⟩ := k7 y hy
    refine ⟨{ f := f', sVarDens := ⟨[S'.length], S'⟩, nf := f'.length }, S', ?_, welch_spectrum e2 hM hdt, e2⟩
    rw [e1]
    exact welch_spectrum e2 hM hdt
  unfold SeriesObj.getSpectrum at h
  rw [sig_of hx] at h
  change (if b = true then _ else _) = _ at h
  split_ifs at h with hb h0
  · obtain ⟨w, N, v, M, k1, k2, k3, k3', k4, k5, k6, k7⟩ := core _ _ _ h
    refine ⟨w, N, v, M, k1, k2, k3, k3', k4, k5, k6, fun s' y hy hd hl => ?_⟩
    obtain ⟨sp', S', e1, e2, e3⟩ := k7 y hl
    refine ⟨sp', S', ?_, e2, e3⟩
    unfold SeriesObj.getSpectrum
    rw [sig_of hy, hd]
    change (if b = true then _ else _) = _
    rw [if_pos hb, if_neg h0]
    exact e1
  · obtain ⟨w, N, v, M, k1, k2, k3, k3', k4, k5, k6, k7⟩ := core _ _ _ h
    refine ⟨w, N, v, M, k1, k2, k3, k3', k4, k5, k6, fun s' y hy hd hl => ?_⟩
    obtain ⟨sp', S', e1, e2, e3⟩ := k7 y hl
    refine ⟨sp', S', ?_, e2, e3⟩
    unfold SeriesObj.getSpectrum
    rw [sig_of hy, hd]
    change (if b = true then _ else _) = _
    rw [if_neg hb]
    exact e1

/-! ## The two together -/

theorem welch_axis {x w f S : List ℝ} {dt : ℝ} {N M : Nat} {v : Int} (hdt : 0 < dt) (hM : 2 ≤ M) (h : IsWelch x dt w N v M f S) :
    UniformAxis f (1 / (M * dt)) ∧ f.getD 0 0 = 0 ∧ f.length = M / 2 + 1 := by
  rw [h.freq]
  refine ⟨freq_uniform hM hdt, ?_, by simp⟩
  rw [getD_map_range _ _ _ _ (by omega)]
  simp

/-- The default limits are within every axis of a Welch spectrum. -/
theorem default_limits_within {f : List ℝ} {h : ℝ} (hu : UniformAxis f h) (h0 : 0 ≤ f.getD 0 0) (h2 : 2 ≤ f.length) : LimitsWithin f (-1) (-1) := by
  unfold LimitsWithin
  simp only [if_true]
  have hp := uniform_check_increasing (uniform_check_accepts_uniform h2 hu)
  exact ⟨h0, inc_le hp (Nat.zero_le _) (by omega), le_rfl⟩

/-- **C158 (superposition).**  Two records on one time axis and their sum, each made a `Series`, each analysed by `get_spectrum` with the same
arguments, whatever these are: if one of the spectra exists then all three do, on the same frequencies, and their wave heights between any limits within the axis (the
defaults, for one) satisfy the triangle inequality both ways. -/
theorem welch_superposition {pt px py pz : PyIn ℝ} {t x y : List ℝ} {dt : ℝ} (ht : pt.IsVec t) (hx : px.IsVec x) (hy : py.IsVec y)
    (hz : pz.IsVec (addRec x y)) (h2 : 2 ≤ t.length) (hlx : t.length = x.length) (hly : t.length = y.length) (hu : UniformAxis t dt)
    {nps nov nfft : Int} {window : String} {df : ℝ} {b : Bool} {sx : SeriesObj ℝ} {spx : SpecObj} (hsx : SeriesObj.init pt px = .ok sx)
    (hsp : sx.getSpectrum nps nov nfft window df b = .ok spx) :
    ∃ sy sz spy spz, SeriesObj.init pt py = .ok sy ∧ SeriesObj.init pt pz = .ok sz ∧ sy.getSpectrum nps nov nfft window df b = .ok spy ∧
      sz.getSpectrum nps nov nfft window df b = .ok spz ∧ spy.f = spx.f ∧ spz.f = spx.f ∧ LimitsWithin spx.f (-1) (-1) ∧
      ∀ fmin F, LimitsWithin spx.f fmin F → ∃ Hx Hy Hz, (spx.getHm0 fmin (.fin F)).1 = .ok Hx ∧ (spy.getHm0 fmin (.fin F)).1 = .ok Hy ∧
        (spz.getHm0 fmin (.fin F)).1 = .ok Hz ∧ Hz ≤ Hx + Hy ∧ |Hz - Hx| ≤ Hy := by
  have hxy : x.length = y.length := by omega
  obtain ⟨sy, _, _, _, iy, -⟩ := series_never_fails ht hy h2 hly hu
  obtain ⟨sz, _, _, _, iz, -⟩ := series_never_fails ht hz h2 (by rw [addRec_length hxy]; exact hlx) hu
  obtain ⟨vx, -, dx⟩ := validSeries_of_init ht hx h2 hlx hu hsx
  obtain ⟨vy, -, dy⟩ := validSeries_of_init ht hy h2 hly hu iy
  obtain ⟨vz, -, dz⟩ := validSeries_of_init ht hz h2 (by rw [addRec_length hxy]; exact hlx) hu iz
  have hdt := hu.1
  obtain ⟨w, N, v, M, k1, k2, k3, k4, k5, k6, k7, k8⟩ := getSpectrum_settings vx.xTime (dx.symm ▸ hdt) hsp
  obtain ⟨spx', Sx, ex, ix, wx⟩ := k8 sx x vx.xTime rfl rfl
  rw [hsp] at ex
  cases ex
  obtain ⟨spy, Sy, ey, iy', wy⟩ := k8 sy y vy.xTime (by rw [dx, dy]) hxy.symm
  obtain ⟨spz, Sz, ez, iz', wz⟩ := k8 sz (addRec x y) vz.xTime (by rw [dx, dz]) (addRec_length hxy)
  rw [dx] at wx wy wz
  have fy : spy.f = spx.f := by rw [wx.freq, wy.freq]
  have fz : spz.f = spx.f := by rw [wx.freq, wz.freq]
  obtain ⟨ax, a0, al⟩ := welch_axis hdt k4 wx
  have tri := welch_triangle hdt hxy wx wy wz
  rw [fy] at iy'
  rw [fz] at iz'
  refine ⟨sy, sz, spy, spz, iy, iz, ey, ez, fy, fz, default_limits_within ax a0.ge (by omega), fun fmin F hlim => ?_⟩
  obtain ⟨Hz, Hx, Hy, c1, c2, c3, c4⟩ := height_triangle iz' ix iy' ax a0.ge hlim tri.1
  obtain ⟨Hx', Hz', Hy', d1, d2, d3, d4⟩ := height_triangle ix iz' iy' ax a0.ge hlim tri.2
  rw [c1] at d2; rw [c2] at d1; rw [c3] at d3
  cases d1; cases d2; cases d3
  exact ⟨Hx, Hy, Hz, c2, c3, c1, c4, abs_le.2 ⟨by linarith, by linarith⟩⟩

/-! ## Bounded noise -/

theorem simpsonWeight_le (n k : Nat) : simpsonWeight ℝ n k ≤ 4 / 3 := by
  by_cases hn : 2 ≤ n
  · exact (simpsonWeight_bounds hn k).2
  · unfold simpsonWeight
    split_ifs <;> first | omega | norm_num

theorem sum_shift_le {S : List ℝ} (hS : ∀ d ∈ S, 0 ≤ d) (i n : Nat) (h : i + n ≤ S.length) : ∑ k ∈ range n, S.getD (i + k) 0 ≤ S.sum := by
  rw [list_sum_getD]
  have e : ∑ k ∈ range n, S.getD (i + k) 0 = ∑ k ∈ Ico i (i + n), S.getD k 0 := by
    rw [Finset.sum_Ico_eq_sum_range]; simp
  rw [e]
  refine Finset.sum_le_sum_of_subset_of_nonneg ?_ fun k _ _ => getD_nonneg' hS k
  intro k hk
  rw [Finset.mem_Ico] at hk
  exact mem_range.2 (by omega)

/-- Wave heights are bounded by the energy of the whole spectrum. -/
theorem height_energy_bound {f S : List ℝ} {h fmin F : ℝ} {s : SpecObj} (hs : SpecObj.init (vec f) (vec S) = .ok s) (hu : UniformAxis f h) (h0 : 0 ≤ f.getD 0 0)
    (hlim : LimitsWithin f fmin F) (hS : ∀ d ∈ S, 0 ≤ d) {H : ℝ} (hH : (s.getHm0 fmin (.fin F)).1 = .ok H) :
    0 ≤ H ∧ H ^ 2 ≤ 64 / 3 * (S.sum * h) := by
  obtain ⟨hm, hl, rfl⟩ := (spectrum_init_iff_partial (isArr_vec f) (isArr_vec S)).1 hs
  have hp := uniform_check_increasing hm
  have h2 := mono_two_le hm
  have e : setFlim f fmin (.fin F) = (if fmin = -1 then f.getD 0 0 else fmin, .fin (if F = -1 then f.getD (f.length - 1) 0 else F)) := by
    unfold setFlim
    by_cases hF : F = -1
    · subst hF; simp
    · have : ¬ (FMax.fin F = FMax.fin (-1)) := by intro h; cases h; exact hF rfl
      rw [if_neg this, if_neg hF]
  obtain ⟨l1, l2, l3⟩ := hlim
  obtain ⟨i, j, hsel⟩ := moment_range_exists hm 0 (if fmin = -1 then f.getD 0 0 else fmin) (.fin (if F = -1 then f.getD (f.length - 1) 0 else F))
  have hj : j < f.length := hsel.2.2.1
  have hij : i ≤ j := isNearest_mono hp l2 hsel.1 hsel.2
  have hmom := moment_exact (m := 0) (isArr_vec f) (isArr_vec S) hu h2 hl h0 l1 l2 l3 hsel
  have pos := weighted_nonneg (f := f) (m := 0) hS hu.1.le i (j + 1 - i) (fun k hk => h0.trans (inc_le hp (Nat.zero_le _) (by omega)))
  set v := h * ∑ k ∈ range (j + 1 - i), simpsonWeight ℝ (j + 1 - i) k * (f.getD (i + k) 0 ^ (0 : Int) * S.getD (i + k) 0) with hv
  change calcHm0 f ⟨[S.length], S⟩ fmin (.fin F) = .ok H at hH
  unfold calcHm0 at hH
  rw [e] at hH
  dsimp only at hH
  rw [show (PyIn.nd ⟨[S.length], S⟩ : PyIn ℝ) = vec S from rfl, hmom] at hH
  change heightOf v = _ at hH
  rw [height_def pos] at hH
  cases hH
  refine ⟨by positivity, ?_⟩
  rw [mul_pow, Real.sq_sqrt pos]
  have b : v ≤ 4 / 3 * (S.sum * h) := by
    have s1 : ∑ k ∈ range (j + 1 - i), simpsonWeight ℝ (j + 1 - i) k * (f.getD (i + k) 0 ^ (0 : Int) * S.getD (i + k) 0) ≤
        ∑ k ∈ range (j + 1 - i), 4 / 3 * S.getD (i + k) 0 := sum_le_sum fun k _ => by
      rw [zpow_zero, one_mul]
      exact mul_le_mul_of_nonneg_right (simpsonWeight_le _ _) (getD_nonneg' hS _)
    rw [← mul_sum] at s1
    have s2 := sum_shift_le hS i (j + 1 - i) (by omega)
    have := mul_le_mul_of_nonneg_left (s1.trans (mul_le_mul_of_nonneg_left s2 (by norm_num))) hu.1.le
    rw [hv]
    linarith
  linarith

theorem mean_abs_le {x : List ℝ} {ε : ℝ} (hx : x ≠ []) (h : ∀ e ∈ x, |e| ≤ ε) : |mean x| ≤ ε := by
  have hl : (0 : ℝ) < x.length := by exact_mod_cast List.length_pos_iff.2 hx
  unfold mean
  rw [abs_div, abs_of_pos hl, div_le_iff₀ hl, list_sum_getD]
  refine (Finset.abs_sum_le_sum_abs _ _).trans ?_
  calc ∑ k ∈ range x.length, |x.getD k 0| ≤ ∑ _k ∈ range x.length, ε := sum_le_sum fun k hk => by
        rw [List.getD_eq_getElem _ _ (mem_range.1 hk)]; exact h _ (List.getElem_mem _)
    _ = ε * x.length := by rw [sum_const, card_range, nsmul_eq_mul, mul_comm]

theorem segVar_le {w seg : List ℝ} {ε : ℝ} (hs : seg ≠ []) (h : ∀ e ∈ seg, |e| ≤ ε) : segVar w seg ≤ 4 * ε ^ 2 := by
  have hm := mean_abs_le hs h
  unfold segVar
  have hW : 0 ≤ ∑ j ∈ range seg.length, w.getD j 0 ^ 2 := sum_nonneg fun j _ => sq_nonneg _
  refine div_le_of_le_mul₀ hW (by positivity) ?_
  rw [mul_sum]
  refine sum_le_sum fun j hj => ?_
  have he : |seg.getD j 0| ≤ ε := by
    rw [List.getD_eq_getElem _ _ (mem_range.1 hj)]; exact h _ (List.getElem_mem _)
  have : (seg.getD j 0 - mean seg) ^ 2 ≤ 4 * ε ^ 2 := by
    have h1 : |seg.getD j 0 - mean seg| ≤ 2 * ε := (abs_sub _ _).trans (by linarith)
    have := sq_le_sq' (by have := (abs_le.1 h1).1; linarith) (abs_le.1 h1).2
    linarith
  rw [mul_pow, mul_comm]
  exact mul_le_mul_of_nonneg_right this (sq_nonneg _)

theorem mean_le_of {l : List ℝ} {B : ℝ} (hB : 0 ≤ B) (h : ∀ v ∈ l, v ≤ B) : mean l ≤ B := by
  unfold mean
  refine div_le_of_le_mul₀ (by positivity) hB ?_
  have := List.sum_le_card_nsmul l B h
  rw [nsmul_eq_mul] at this
  linarith

/-- The energy of the Welch spectrum of a record bounded by `ε`. -/
theorem welch_small {x w f S : List ℝ} {dt ε : ℝ} {N M : Nat} {v : Int} (hdt : 0 < dt) (h : IsWelch x dt w N v M f S) (hwl : w.length = N) (hN : 0 < N)
    (hNx : N ≤ x.length) (hNM : N ≤ M) (he : ∀ e ∈ x, |e| ≤ ε) : S.sum * (1 / (M * dt)) ≤ 4 * ε ^ 2 := by
  rw [(welch_energy hdt h hwl hN hNx hNM).1]
  refine mean_le_of (by positivity) fun u hu => ?_
  obtain ⟨i, hi, rfl⟩ := List.mem_map.1 hu
  have hsl := (segment_length (nov := v) hNx (List.mem_range.1 hi)).1
  refine segVar_le (by intro e; rw [e] at hsl; simp at hsl; omega) fun e hm => he e ?_
  unfold segment pySlice at hm
  exact List.mem_of_mem_take (List.mem_of_mem_drop hm)

/-- **C158 (measurement noise).**  A record disturbed by an error of at most `ε` in every sample: whatever the arguments of `get_spectrum`, the wave height
between any limits within the axis changes by at most `(16/√3) ε`, less than `9.24 ε`. -/
theorem welch_noise {pt px pz : PyIn ℝ} {t x e : List ℝ} {dt ε : ℝ} (ht : pt.IsVec t) (hx : px.IsVec x)
    (hz : pz.IsVec (addRec x e)) (h2 : 2 ≤ t.length) (hlx : t.length = x.length) (hle : t.length = e.length) (hu : UniformAxis t dt)
    (he : ∀ d ∈ e, |d| ≤ ε) {nps nov nfft : Int} {window : String} {df : ℝ} {b : Bool} {sx : SeriesObj ℝ} {spx : SpecObj}
    (hsx : SeriesObj.init pt px = .ok sx) (hsp : sx.getSpectrum nps nov nfft window df b = .ok spx) :
    ∃ sz spz, SeriesObj.init pt pz = .ok sz ∧ sz.getSpectrum nps nov nfft window df b = .ok spz ∧ spz.f = spx.f ∧ LimitsWithin spx.f (-1) (-1) ∧
      ∀ fmin F, LimitsWithin spx.f fmin F → ∃ Hx Hz, (spx.getHm0 fmin (.fin F)).1 = .ok Hx ∧ (spz.getHm0 fmin (.fin F)).1 = .ok Hz ∧
        |Hz - Hx| ≤ 16 / √3 * ε ∧ |Hz - Hx| ≤ 924 / 100 * ε := by
  have hε : 0 ≤ ε := by
    have : 0 < e.length := by omega
    exact (abs_nonneg _).trans (he _ (List.getElem_mem this))
  obtain ⟨sy, sz, spy, spz, iy, iz, ey, ez, fy, fz, hd, key⟩ := welch_superposition ht hx (isVec_vec e) hz h2 hlx hle hu hsx hsp
  refine ⟨sz, spz, iz, ez, fz, hd, fun fmin F hlim => ?_⟩
  obtain ⟨Hx, Hy, Hz, c1, c2, c3, -, c5⟩ := key fmin F hlim
  refine ⟨Hx, Hz, c1, c3, ?_⟩
  obtain ⟨vy, -, dy⟩ := validSeries_of_init ht (isVec_vec e) h2 hle hu iy
  obtain ⟨w, N, v, M, k1, k2, k3, k4, k5, k6, k7, k8⟩ := getSpectrum_settings vy.xTime (dy.symm ▸ hu.1) ey
  obtain ⟨spy', Sy, ey', iy', wy⟩ := k8 sy e vy.xTime rfl rfl
  rw [ey] at ey'
  cases ey'
  rw [dy] at wy
  obtain ⟨ax, a0, al⟩ := welch_axis hu.1 k4 wy
  obtain ⟨p, q⟩ := height_energy_bound iy' ax a0.ge (fy ▸ hlim) (welch_dens_nonneg hu.1 wy) c2
  have small := welch_small hu.1 wy k5 k1 k2 k3 he
  have hsq : Hy ^ 2 ≤ (16 / √3 * ε) ^ 2 := by
    rw [mul_pow, div_pow, Real.sq_sqrt (by norm_num)]
    nlinarith
  have hHy : Hy ≤ 16 / √3 * ε := by
    exact (le_abs_self _).trans (abs_le_of_sq_le_sq hsq (by positivity))
  have num : 16 / √3 ≤ (924 / 100 : ℝ) := by
    rw [div_le_iff₀ (by positivity)]
    have : (1732 / 1000 : ℝ) ≤ √3 := Real.le_sqrt_of_sq_le (by norm_num)
    linarith
  have := mul_le_mul_of_nonneg_right num hε
  exact ⟨c5.trans hHy, by linarith⟩

/-! ## Raw spectra -/

/-- Bin by bin, for the raw spectra. -/
theorem raw_triangle {x y : List ℝ} {dt : ℝ} (hdt : 0 < dt) (hl : x.length = y.length) :
    AmpTriangle ((List.range (x.length / 2 + 1)).map (rawBin (addRec x y) dt)) ((List.range (x.length / 2 + 1)).map (rawBin x dt))
      ((List.range (x.length / 2 + 1)).map (rawBin y dt)) ∧
    AmpTriangle ((List.range (x.length / 2 + 1)).map (rawBin x dt)) ((List.range (x.length / 2 + 1)).map (rawBin (addRec x y) dt))
      ((List.range (x.length / 2 + 1)).map (rawBin y dt)) := by
  have hc : ∀ k, coef (addRec x y) k = coef x k + coef y k := by
    intro k
    rw [coef_eq_sum, coef_eq_sum, coef_eq_sum, addRec_length hl, ← hl, ← sum_add_distrib]
    exact sum_congr rfl fun j _ => by rw [addRec_getD hl]; push_cast; ring
  have hb : ∀ z : List ℝ, z.length = x.length → ∀ k, √(rawBin z dt k) = √(2 * dt / x.length) * ‖coef z k‖ := by
    intro z hz k
    have : rawBin z dt k = 2 * dt / x.length * ‖coef z k‖ ^ 2 := by
      unfold rawBin
      rw [← coef_eq_sum, Complex.normSq_eq_norm_sq, hz]
      ring
    rw [this, Real.sqrt_mul (by positivity), Real.sqrt_sq (norm_nonneg _)]
  have hn : ∀ z : List ℝ, ∀ d ∈ (List.range (x.length / 2 + 1)).map (rawBin z dt), 0 ≤ d := by
    intro z d hd
    obtain ⟨k, -, rfl⟩ := List.mem_map.1 hd
    exact rawBin_nonneg z hdt k
  refine ⟨⟨by simp, by simp, hn _, hn _, hn _, fun k hk => ?_⟩, ⟨by simp, by simp, hn _, hn _, hn _, fun k hk => ?_⟩⟩ <;>
  · have hk' : k < x.length / 2 + 1 := by simpa using hk
    rw [getD_map_range _ _ _ _ hk', getD_map_range _ _ _ _ hk', getD_map_range _ _ _ _ hk', hb _ (addRec_length hl), hb _ rfl, hb _ hl.symm, hc, ← mul_add]
    refine mul_le_mul_of_nonneg_left ?_ (Real.sqrt_nonneg _)
    first
    | exact norm_add_le _ _
    | have := norm_sub_le (coef x k + coef y k) (coef y k)
      rwa [add_sub_cancel_right] at this

/-- **C158 (raw spectra).**  The same for `get_spectrum_raw`: the three spectra always exist; and an error of at most `ε` in every sample changes the wave height by at most
`8 ε`. -/
theorem raw_superposition {pt px py pz : PyIn ℝ} {t x y : List ℝ} {dt : ℝ} (ht : pt.IsVec t) (hx : px.IsVec x) (hy : py.IsVec y)
    (hz : pz.IsVec (addRec x y)) (h2 : 2 ≤ t.length) (hlx : t.length = x.length) (hly : t.length = y.length) (hu : UniformAxis t dt) :
    ∃ sx sy sz spx spy spz, SeriesObj.init pt px = .ok sx ∧ SeriesObj.init pt py = .ok sy ∧ SeriesObj.init pt pz = .ok sz ∧
      sx.getSpectrumRaw 0 = .ok spx ∧ sy.getSpectrumRaw 0 = .ok spy ∧ sz.getSpectrumRaw 0 = .ok spz ∧ spy.f = spx.f ∧ spz.f = spx.f ∧
      LimitsWithin spx.f (-1) (-1) ∧
      ∀ fmin F, LimitsWithin spx.f fmin F → ∃ Hx Hy Hz, (spx.getHm0 fmin (.fin F)).1 = .ok Hx ∧ (spy.getHm0 fmin (.fin F)).1 = .ok Hy ∧
        (spz.getHm0 fmin (.fin F)).1 = .ok Hz ∧ Hz ≤ Hx + Hy ∧ |Hz - Hx| ≤ Hy ∧ ∀ ε, (∀ d ∈ y, |d| ≤ ε) → |Hz - Hx| ≤ 8 * ε := by
  have hxy : x.length = y.length := by omega
  have hlz : t.length = (addRec x y).length := by rw [addRec_length hxy]; exact hlx
  obtain ⟨sx, _, _, _, ix, -⟩ := series_never_fails ht hx h2 hlx hu
  obtain ⟨sy, _, _, _, iy, -⟩ := series_never_fails ht hy h2 hly hu
  obtain ⟨sz, _, _, _, iz, -⟩ := series_never_fails ht hz h2 hlz hu
  obtain ⟨vx, -, dx⟩ := validSeries_of_init ht hx h2 hlx hu ix
  obtain ⟨vy, -, dy⟩ := validSeries_of_init ht hy h2 hly hu iy
  obtain ⟨vz, -, dz⟩ := validSeries_of_init ht hz h2 hlz hu iz
  have hdt := hu.1
  obtain ⟨f, Sx, hf, hSx, ax, ex⟩ := raw_object vx
  obtain ⟨f', Sy, hf', hSy, ay, ey⟩ := raw_object vy
  obtain ⟨f'', Sz, hf'', hSz, az, ez⟩ := raw_object vz
  have ff : f' = f := by rw [hf, hf', hxy]
  have ff' : f'' = f := by rw [hf, hf'', addRec_length hxy]
  subst ff ff'
  rw [← hxy] at hSy
  rw [addRec_length hxy] at hSz
  have fl : f''.length = x.length / 2 + 1 := by rw [hf'']; simp [addRec_length hxy]
  have a0 : f''.getD 0 0 = 0 := by
    rw [hf, getD_map_range _ _ _ _ (by omega)]; simp
  have two : 2 ≤ f''.length := by omega
  have hm : monotonicIncreasingConstantStep f'' = .ok true := uniform_check_accepts_uniform two ax
  have obj : ∀ T : List ℝ, T.length = x.length / 2 + 1 → SpecObj.init (vec f'') (vec T) = .ok { f := f'', sVarDens := ⟨[T.length], T⟩, nf := f''.length } :=
    fun T hT => (spectrum_init_iff_partial (isArr_vec f'') (isArr_vec T)).2 ⟨hm, by rw [fl, hT], rfl⟩
  have ox := obj Sx (by rw [hSx]; simp)
  have oy := obj Sy (by rw [hSy]; simp)
  have oz := obj Sz (by rw [hSz]; simp)
  have tri := raw_triangle hdt hxy
  rw [← hSx, ← hSy, ← hSz] at tri
  refine ⟨sx, sy, sz, _, _, _, ix, iy, iz, ex, ey, ez, rfl, rfl, default_limits_within ax a0.ge two, fun fmin F hlim => ?_⟩
  obtain ⟨Hz, Hx, Hy, c1, c2, c3, c4⟩ := height_triangle oz ox oy ax a0.ge hlim tri.1
  obtain ⟨Hx', Hz', Hy', d1, d2, d3, d4⟩ := height_triangle ox oz oy ax a0.ge hlim tri.2
  rw [c1] at d2; rw [c2] at d1; rw [c3] at d3
  cases d1; cases d2; cases d3
  have hab : |Hz - Hx| ≤ Hy := abs_le.2 ⟨by linarith, by linarith⟩
  refine ⟨Hx, Hy, Hz, c2, c3, c1, c4, hab, fun ε hε => hab.trans ?_⟩
  have hy0 : y ≠ [] := by intro e; rw [e, List.length_nil] at hly; omega
  have hN : (0 : ℝ) < y.length := by exact_mod_cast List.length_pos_iff.2 hy0
  have ε0 : 0 ≤ ε := (abs_nonneg _).trans (hε _ (List.getElem_mem (List.length_pos_iff.2 hy0)))
  obtain ⟨p, q⟩ := height_energy_bound oy ax a0.ge hlim tri.1.2.2.2.2.1 c3
  have en := raw_energy vy
  have hsum : Sy.sum * (1 / (x.length * dt)) = ∑ k ∈ range (y.length / 2 + 1), rawBin y dt k * (1 / (y.length * dt)) := by
    rw [hSy, list_sum_map_range, sum_mul, hxy]
  rw [en] at hsum
  have e1 : (y.map (· ^ 2)).sum / y.length ≤ ε ^ 2 := by
    rw [div_le_iff₀ hN]
    have := List.sum_le_card_nsmul (y.map (· ^ 2)) (ε ^ 2) (by
      intro v hv
      obtain ⟨d, hd, rfl⟩ := List.mem_map.1 hv
      exact sq_le_sq' (by linarith [(abs_le.1 (hε d hd)).1]) (abs_le.1 (hε d hd)).2)
    rw [nsmul_eq_mul, List.length_map] at this
    linarith
  have e2 : (y.sum / y.length) ^ 2 ≤ ε ^ 2 := by
    have := abs_le.1 (mean_abs_le hy0 hε)
    unfold mean at this
    exact sq_le_sq' this.1 this.2
  have e3 : (if Even y.length then ((∑ j ∈ range y.length, (-1) ^ j * y.getD j 0) / y.length) ^ 2 else 0) ≤ ε ^ 2 := by
    split_ifs
    · have : |(∑ j ∈ range y.length, (-1) ^ j * y.getD j 0) / y.length| ≤ ε := by
        rw [abs_div, abs_of_pos hN, div_le_iff₀ hN]
        refine (Finset.abs_sum_le_sum_abs _ _).trans ?_
        calc ∑ k ∈ range y.length, |(-1) ^ k * y.getD k 0| ≤ ∑ _k ∈ range y.length, ε := sum_le_sum fun k hk => by
              rw [abs_mul, abs_pow, abs_neg, abs_one, one_pow, one_mul, List.getD_eq_getElem _ _ (mem_range.1 hk)]; exact hε _ (List.getElem_mem _)
          _ = ε * y.length := by rw [sum_const, card_range, nsmul_eq_mul, mul_comm]
      exact sq_le_sq' (abs_le.1 this).1 (abs_le.1 this).2
    · positivity
  have hsq : Hy ^ 2 ≤ (8 * ε) ^ 2 := by rw [hsum] at q; nlinarith
  exact (le_abs_self _).trans (abs_le_of_sq_le_sq hsq (by positivity))

/-- A swell of period 8 s with a wind sea of period 4 s (C154), read by a gauge with an error of at most 1 cm. -/
example (e : List ℝ) (hl : e.length = 100) (he : ∀ d ∈ e, |d| ≤ 1 / 100) :
    ∃ sz sp, SeriesObj.init (vec ((List.range 100).map fun (i : Nat) => (i : ℝ))) (vec (addRec (longSea 100 40 2 [⟨5, 3, 1⟩, ⟨10, 1, 0⟩]) e)) = .ok sz ∧
      sz.getSpectrum (40 : ℕ) (0 : ℕ) 0 "hann" 0 false = .ok sp ∧
      ∃ H H', (sp.getHm0 (-1) (.fin (-1))).1 = .ok H' ∧ H ^ 2 = 16 * (5 + 4 / 9) ∧ |H' - H| ≤ 924 / 10000 := by
  obtain ⟨s, sp, h1, h2, h3⟩ := welch_sea_explicit (c := 2) (N := 40) (L := 100) (nov := 0) (cs := [⟨5, 3, 1⟩, ⟨10, 1, 0⟩])
    (by intro q hq; simp only [List.mem_cons, List.not_mem_nil, or_false] at hq; unfold FitsSegment; rcases hq with rfl | rfl <;> simp)
    (by unfold Apart; simp) (by norm_num) (by norm_num) (isVec_vec _) (isVec_vec _) (by simp) (axis_range 100) (by norm_num) 0
  obtain ⟨H, k1, k2⟩ := h3.height (by intro q hq; simp only [List.mem_cons, List.not_mem_nil, or_false] at hq; rcases hq with rfl | rfl <;> simp)
  obtain ⟨sz, spz, a, b, -, c, d⟩ := welch_noise (isVec_vec _) (isVec_vec (longSea 100 40 2 [⟨5, 3, 1⟩, ⟨10, 1, 0⟩])) (isVec_vec _) (by simp)
    (by rw [longSea_length]; simp) (by rw [hl]; simp) (axis_range 100) he h1 h2
  obtain ⟨Hx, Hz, e1, e2, -, e4⟩ := d _ _ c
  rw [k1] at e1
  cases e1
  exact ⟨sz, spz, a, b, H, Hz, e2, k2.trans (by norm_num), e4.trans (by norm_num)⟩

/-- The raw spectra of two gauge records of four samples and of their sum. -/
example : ∃ sx sy sz spx spy spz, SeriesObj.init (vec ((List.range 4).map fun (i : Nat) => (i : ℝ))) (vec [1, -2, 3, 0]) = .ok sx ∧
      SeriesObj.init (vec ((List.range 4).map fun (i : Nat) => (i : ℝ))) (vec [0, 1, -1, 1]) = .ok sy ∧
      SeriesObj.init (vec ((List.range 4).map fun (i : Nat) => (i : ℝ))) (vec [1, -1, 2, 1]) = .ok sz ∧
      sx.getSpectrumRaw 0 = .ok spx ∧ sy.getSpectrumRaw 0 = .ok spy ∧ sz.getSpectrumRaw 0 = .ok spz ∧
      ∃ Hx Hy Hz, (spx.getHm0 (-1) (.fin (-1))).1 = .ok Hx ∧ (spy.getHm0 (-1) (.fin (-1))).1 = .ok Hy ∧
        (spz.getHm0 (-1) (.fin (-1))).1 = .ok Hz ∧ Hz ≤ Hx + Hy ∧ |Hz - Hx| ≤ 8 := by
  obtain ⟨sx, sy, sz, spx, spy, spz, a, b, c, d, e, f, -, -, g, h⟩ := raw_superposition (isVec_vec ((List.range 4).map fun (i : Nat) => (i : ℝ)))
    (isVec_vec [1, -2, 3, 0]) (isVec_vec [0, 1, -1, 1]) (pz := vec [1, -1, 2, 1])
    (by
      have : addRec [1, -2, 3, 0] [0, 1, -1, 1] = [1, -1, 2, 1] := by unfold addRec; norm_num
      rw [this]; exact isVec_vec _) (by simp) (by simp) (by simp) (axis_range 4)
  obtain ⟨Hx, Hy, Hz, e1, e2, e3, e4, -, e6⟩ := h _ _ g
  refine ⟨sx, sy, sz, spx, spy, spz, a, b, c, d, e, f, Hx, Hy, Hz, e1, e2, e3, e4, (e6 1 ?_).trans (by norm_num)⟩
  intro v hv
  simp only [List.mem_cons, List.not_mem_nil, or_false] at hv
  rcases hv with rfl | rfl | rfl | rfl <;> norm_num

end Verif
