import Verif.Lemmas.Cross

/-! # C04, C05, C06: zero crossings -/

namespace Verif
variable {K : Type} [Field K] [LinearOrder K] 

/-! ## Specification -/

/-- The signal crosses zero downwards between samples `i` and `i+1`. -/
def DownCrossing (x : List K) (i : Nat) : Prop :=
  i + 1 < x.length ∧ 0 ≤ x.getD i 0 ∧ x.getD (i + 1) 0 < 0

/-- The signal crosses zero upwards between samples `i` and `i+1`. -/
def UpCrossing (x : List K) (i : Nat) : Prop :=
  i + 1 < x.length ∧ x.getD i 0 ≤ 0 ∧ 0 < x.getD (i + 1) 0

/-- A uniform increasing axis with step `dt`. -/
def UniformAxis (t : List K) (dt : K) : Prop :=
  0 < dt ∧ ∀ i, i + 1 < t.length → t.getD (i + 1) 0 = t.getD i 0 + dt

/-- For concrete axes: the steps are checked one by one. -/
theorem uniformAxis_of_steps {t : List K} {dt : K} (h0 : 0 < dt) (h : ∀ i < t.length - 1, t.getD (i + 1) 0 = t.getD i 0 + dt) :
    UniformAxis t dt := ⟨h0, fun i hi => h i (by omega)⟩

/-- The axis `0, dt, ..., (n-1) dt`. -/
theorem uniformAxis_range (n : Nat) {dt : K} (h0 : 0 < dt) : UniformAxis ((List.range n).map fun (i : Nat) => (i : K) * dt) dt := by
  refine ⟨h0, fun i hi => ?_⟩
  rw [List.length_map, List.length_range] at hi
  have e : ∀ k < n, ((List.range n).map fun (i : Nat) => (i : K) * dt).getD k 0 = (k : K) * dt := by
    intro k hk
    rw [List.getD, List.getElem?_eq_getElem (by simpa using hk)]
    simp
  rw [e _ hi, e i (by omega)]
  push_cast
  ring

/-- `idx` lists the indices with property `P`, each once, in increasing order. -/
def ListsExactly (idx : List Nat) (P : Nat → Prop) : Prop :=
  idx.Pairwise (· < ·) ∧ ∀ i, i ∈ idx ↔ P i

/-- `τ` is the zero, between samples `i` and `i+1`, of the straight line through the two samples. -/
structure IsInterpolatedZero (t x : List K) (i : Nat) (τ : K) : Prop where
  lower : t.getD i 0 ≤ τ
  upper : τ < t.getD (i + 1) 0
  exact_iff : τ = t.getD i 0 ↔ x.getD i 0 = 0
  zero : x.getD i 0 + (x.getD (i + 1) 0 - x.getD i 0) / (t.getD (i + 1) 0 - t.getD i 0) * (τ - t.getD i 0) = 0

theorem crossIdx_down_listsExactly (x : List K) : ListsExactly (crossIdx downCond x) (DownCrossing x) :=
  ⟨crossIdx_pairwise _ _, fun i => by simp [mem_crossIdx, downCond, DownCrossing]⟩

theorem crossIdx_up_listsExactly (x : List K) : ListsExactly (crossIdx upCond x) (UpCrossing x) :=
  ⟨crossIdx_pairwise _ _, fun i => by simp [mem_crossIdx, upCond, UpCrossing]⟩

/-- **C04 (down).** One crossing per down-going sign change, in order, and nothing else; the wave count is one less
(or zero).  No assumption on the time axis. -/
theorem down_crossings_exact {pt px : PyIn K} {t x : List K} (ht : pt.IsVec t) (hx : px.IsVec x)
    (h2 : 2 ≤ t.length) (hlen : t.length = x.length) :
    ∃ nWave tCross idx, determineZeroCrossing pt px "down" = .ok (nWave, tCross) ∧
      ListsExactly idx (DownCrossing x) ∧ tCross.length = idx.length ∧
      (nWave = if idx.length = 0 then 0 else (idx.length : Int) - 1) := by
  refine ⟨_, _, crossIdx downCond x, determine_down_eq ht hx h2 hlen, crossIdx_down_listsExactly x, ?_, ?_⟩
  · simp
  · simp

/-- **C04 (up).** -/
theorem up_crossings_exact {pt px : PyIn K} {t x : List K} (ht : pt.IsVec t) (hx : px.IsVec x)
    (h2 : 2 ≤ t.length) (hlen : t.length = x.length) :
    ∃ nWave tCross idx, determineZeroCrossing pt px "up" = .ok (nWave, tCross) ∧
      ListsExactly idx (UpCrossing x) ∧ tCross.length = idx.length ∧
      (nWave = if idx.length = 0 then 0 else (idx.length : Int) - 1) := by
  refine ⟨_, _, crossIdx upCond x, determine_up_eq ht hx h2 hlen, crossIdx_up_listsExactly x, ?_, ?_⟩
  · simp
  · simp

section
variable [IsStrictOrderedRing K]

omit [IsStrictOrderedRing K] in
theorem uniform_first_step {t : List K} {dt : K} (h2 : 2 ≤ t.length) (hu : UniformAxis t dt) :
    t.getD 1 0 - t.getD 0 0 = dt := by
  rw [hu.2 0 (by omega)]; ring

/-- The crossing time between samples of opposite sign is the interpolated zero. -/
theorem crossTime_interp {t x : List K} {dt : K} (hu : UniformAxis t dt) (hlen : t.length = x.length) {i : Nat}
    (hi : i + 1 < x.length)
    (hc : (0 ≤ x.getD i 0 ∧ x.getD (i + 1) 0 < 0) ∨ (x.getD i 0 ≤ 0 ∧ 0 < x.getD (i + 1) 0)) :
    IsInterpolatedZero t x i (crossTime dt t x i) := by
  have hstep := hu.2 i (by omega)
  have hdt := hu.1
  have hne : x.getD i 0 - x.getD (i + 1) 0 ≠ 0 := by
    rcases hc with ⟨h1, h2⟩ | ⟨h1, h2⟩
    · exact ne_of_gt (by linarith)
    · exact ne_of_lt (by linarith)
  have hfrac : 0 ≤ x.getD i 0 / (x.getD i 0 - x.getD (i + 1) 0) ∧
      x.getD i 0 / (x.getD i 0 - x.getD (i + 1) 0) < 1 := by
    rcases hc with ⟨h1, h2⟩ | ⟨h1, h2⟩
    · have : 0 < x.getD i 0 - x.getD (i + 1) 0 := by linarith
      exact ⟨by positivity, by rw [div_lt_one this]; linarith⟩
    · have : x.getD i 0 - x.getD (i + 1) 0 < 0 := by linarith
      exact ⟨div_nonneg_of_nonpos h1 this.le, by rw [div_lt_one_of_neg this]; linarith⟩
  have hct : crossTime dt t x i = t.getD i 0 + dt * (x.getD i 0 / (x.getD i 0 - x.getD (i + 1) 0)) := by
    simp only [crossTime]; rw [mul_div_assoc]
  constructor
  · rw [hct]; nlinarith [mul_nonneg hdt.le hfrac.1]
  · rw [hct, hstep]; nlinarith [mul_lt_mul_of_pos_left hfrac.2 hdt]
  · rw [hct]
    constructor
    · intro h
      have h0 : dt * (x.getD i 0 / (x.getD i 0 - x.getD (i + 1) 0)) = 0 := by linarith
      rcases mul_eq_zero.1 h0 with h | h
      · exact absurd h hdt.ne'
      · rcases div_eq_zero_iff.1 h with h | h
        · exact h
        · exact absurd h hne
    · intro h; rw [h]; ring
  · rw [hct, hstep]
    have := hdt.ne'
    have e1 : t.getD i 0 + dt - t.getD i 0 = dt := by ring
    have e2 : t.getD i 0 + dt * (x.getD i 0 / (x.getD i 0 - x.getD (i + 1) 0)) - t.getD i 0 =
      dt * (x.getD i 0 / (x.getD i 0 - x.getD (i + 1) 0)) := by ring
    rw [e1, e2]
    field_simp
    ring

theorem axis_mono {t : List K} {dt : K} (hu : UniformAxis t dt) {i j : Nat} (hij : i ≤ j) (hj : j < t.length) :
    t.getD i 0 ≤ t.getD j 0 := by
  induction j, hij using Nat.le_induction with
  | base => exact le_refl _
  | succ j hij ih =>
    rw [hu.2 j hj]
    have := ih (by omega)
    have := hu.1
    linarith

theorem crossTimes_increasing {t x : List K} {dt : K} (hu : UniformAxis t dt) (hlen : t.length = x.length)
    {idx : List Nat} (hp : idx.Pairwise (· < ·))
    (hc : ∀ i ∈ idx, i + 1 < x.length ∧
      ((0 ≤ x.getD i 0 ∧ x.getD (i + 1) 0 < 0) ∨ (x.getD i 0 ≤ 0 ∧ 0 < x.getD (i + 1) 0))) :
    (idx.map (crossTime dt t x)).Pairwise (· < ·) := by
  rw [List.pairwise_map]
  refine hp.imp_of_mem ?_
  intro i j hi hj hij
  have h1 := crossTime_interp hu hlen (hc i hi).1 (hc i hi).2
  have h2 := crossTime_interp hu hlen (hc j hj).1 (hc j hj).2
  exact lt_of_lt_of_le h1.upper (le_trans (axis_mono hu (by omega) (by have := (hc j hj).1; omega)) h2.lower)

/-- **C05 (down).** On a uniform axis the `k`-th reported time is the interpolated zero of the `k`-th sign change, and
the times are strictly increasing. -/
theorem down_crossing_times {pt px : PyIn K} {t x : List K} {dt : K} (ht : pt.IsVec t) (hx : px.IsVec x)
    (h2 : 2 ≤ t.length) (hlen : t.length = x.length) (hu : UniformAxis t dt) :
    ∃ nWave tCross idx, determineZeroCrossing pt px "down" = .ok (nWave, tCross) ∧
      ListsExactly idx (DownCrossing x) ∧ List.Forall₂ (IsInterpolatedZero t x) idx tCross ∧
      tCross.Pairwise (· < ·) := by
  have hc : ∀ i ∈ crossIdx downCond x, i + 1 < x.length ∧
      ((0 ≤ x.getD i 0 ∧ x.getD (i + 1) 0 < 0) ∨ (x.getD i 0 ≤ 0 ∧ 0 < x.getD (i + 1) 0)) := by
    intro i hi
    obtain ⟨a, b, c⟩ := ((crossIdx_down_listsExactly x).2 i).1 hi
    exact ⟨a, Or.inl ⟨b, c⟩⟩
  refine ⟨_, _, crossIdx downCond x, determine_down_eq ht hx h2 hlen, crossIdx_down_listsExactly x, ?_, ?_⟩
  · rw [List.forall₂_map_right_iff, List.forall₂_same, uniform_first_step h2 hu]
    intro i hi
    exact crossTime_interp hu hlen (hc i hi).1 (hc i hi).2
  · rw [uniform_first_step h2 hu]
    exact crossTimes_increasing hu hlen (crossIdx_pairwise _ _) hc

/-- **C05 (up).** -/
theorem up_crossing_times {pt px : PyIn K} {t x : List K} {dt : K} (ht : pt.IsVec t) (hx : px.IsVec x)
    (h2 : 2 ≤ t.length) (hlen : t.length = x.length) (hu : UniformAxis t dt) :
    ∃ nWave tCross idx, determineZeroCrossing pt px "up" = .ok (nWave, tCross) ∧
      ListsExactly idx (UpCrossing x) ∧ List.Forall₂ (IsInterpolatedZero t x) idx tCross ∧
      tCross.Pairwise (· < ·) := by
  have hc : ∀ i ∈ crossIdx upCond x, i + 1 < x.length ∧
      ((0 ≤ x.getD i 0 ∧ x.getD (i + 1) 0 < 0) ∨ (x.getD i 0 ≤ 0 ∧ 0 < x.getD (i + 1) 0)) := by
    intro i hi
    obtain ⟨a, b, c⟩ := ((crossIdx_up_listsExactly x).2 i).1 hi
    exact ⟨a, Or.inr ⟨b, c⟩⟩
  refine ⟨_, _, crossIdx upCond x, determine_up_eq ht hx h2 hlen, crossIdx_up_listsExactly x, ?_, ?_⟩
  · rw [List.forall₂_map_right_iff, List.forall₂_same, uniform_first_step h2 hu]
    intro i hi
    exact crossTime_interp hu hlen (hc i hi).1 (hc i hi).2
  · rw [uniform_first_step h2 hu]
    exact crossTimes_increasing hu hlen (crossIdx_pairwise _ _) hc

omit [IsStrictOrderedRing K] in
theorem getD_map_neg (x : List K) (i : Nat) : (x.map Neg.neg).getD i 0 = -(x.getD i 0) := by
  simp only [List.getD_eq_getElem?_getD, List.getElem?_map]
  cases x[i]? <;> simp

theorem crossLoop_mirror (t x : List K) (hlen : t.length = x.length) :
    crossLoop upCond t x = crossLoop downCond t (x.map Neg.neg) := by
  have hidx : crossIdx upCond x = crossIdx downCond (x.map Neg.neg) := by
    simp only [crossIdx, List.length_map]
    congr 1
    funext i
    simp only [upCond, downCond, getD_map_neg, neg_nonneg, Left.neg_neg_iff]
  rw [crossLoop_eq _ _ _ hlen, crossLoop_eq _ _ _ (by simpa using hlen), hidx]
  congr 1
  apply List.map_congr_left
  intro i _
  simp only [crossTime, getD_map_neg]
  congr 1
  rw [show -(x.getD i 0) - -(x.getD (i + 1) 0) = -(x.getD i 0 - x.getD (i + 1) 0) by ring,
    mul_neg, neg_div_neg_eq]

/-- **C06 (mirror).** The up-crossings of `x` are the down-crossings of `-x`: same result, for every 1D input of equal
length. -/
theorem up_is_down_of_neg {pt px : PyIn K} {t x : List K} (ht : pt.IsVec t) (hx : px.IsVec x)
    (h2 : 2 ≤ t.length) (hlen : t.length = x.length) :
    determineZeroCrossing pt px "up" = determineZeroCrossing pt (vec (x.map Neg.neg)) "down" := by
  rw [determineZeroCrossing_eq ht hx h2 hlen, if_pos (by decide +kernel),
    determineZeroCrossing_eq ht (isVec_vec _) h2 (by simpa using hlen), if_neg (by decide +kernel), if_pos (by decide +kernel),
    crossLoop_mirror t x hlen]

end

/-- **C06 (case-insensitive).** Only the lower-cased string matters, whatever the other inputs are. -/
theorem typeCross_case_insensitive (pt px : PyIn K) {s s' : String} (h : s.toLower = s'.toLower) :
    determineZeroCrossing pt px s = determineZeroCrossing pt px s' := by
  simp only [determineZeroCrossing, h]

/-- **C06 (validated).** On valid data the call succeeds exactly for the types "up" and "down" (any case), and raises
`ValueError` for every other string. -/
theorem typeCross_validated {pt px : PyIn K} {t x : List K} (ht : pt.IsVec t) (hx : px.IsVec x)
    (h2 : 2 ≤ t.length) (hlen : t.length = x.length) (s : String) :
    if s.toLower = "up" ∨ s.toLower = "down" then ∃ r, determineZeroCrossing pt px s = .ok r
    else ∃ msg, determineZeroCrossing pt px s = .error (.valueError msg) := by
  rw [determineZeroCrossing_eq ht hx h2 hlen]
  by_cases h1 : s.toLower = "up"
  · simp [h1]
  · by_cases h2 : s.toLower = "down" <;> simp [h1, h2]

/-! ## Non-vacuity: the 'nasty' test vector of /repo/tests/core_time_test.py -/

/-- test vector time axis 0, 0.1, ..., 1.5 -/
def tNasty : List ℚ := (List.range 16).map fun i => (i : ℚ) / 10
/-- test vector signal -/
def xNasty : List ℚ := [1, 0, -2/10, 3/10, -1/10, 0, 0, 0, -2/10, 0, 0, 0, 5/10, -2/10, 3/10, 0]

example : determineZeroCrossing (vec tNasty) (vec xNasty) "down" = .ok (3, [1/10, 375/1000, 7/10, 89/70]) := by
  decide +kernel
example : determineZeroCrossing (vec tNasty) (vec xNasty) "uP" = .ok (2, [24/100, 11/10, 134/100]) := by
  decide +kernel
example : determineZeroCrossing (vec tNasty) (vec xNasty) "sideways" =
  .error (.valueError "determine_zero_crossing: wrong typeCross") := by decide +kernel
example : UniformAxis tNasty (1 / 10) := by
  refine ⟨by norm_num, ?_⟩
  have : ∀ i < 15, tNasty.getD (i + 1) 0 = tNasty.getD i 0 + 1 / 10 := by decide +kernel
  intro i hi
  exact this i (by simp [tNasty] at hi; omega)
example : ¬ ∃ i, DownCrossing (K := ℚ) [-1, -1/2, -1/10, 1/10, 3/10, 6/10] i := by
  rintro ⟨i, h1, h2⟩
  have : ∀ i < 5, ¬ (0 ≤ ([-1, -1/2, -1/10, 1/10, 3/10, 6/10] : List ℚ).getD i 0 ∧
    ([-1, -1/2, -1/10, 1/10, 3/10, 6/10] : List ℚ).getD (i + 1) 0 < 0) := by decide +kernel
  exact this i (by simp at h1; omega) h2

/-! ## Concrete cases: the hypotheses of the theorems above are met -/

theorem tNasty_uniform : UniformAxis tNasty (1 / 10) := uniformAxis_of_steps (by norm_num) (by decide +kernel)

example := down_crossings_exact (isVec_vec tNasty) (isVec_vec xNasty) (by decide) (by decide)
example := up_crossings_exact (isVec_vec tNasty) (isVec_vec xNasty) (by decide) (by decide)

/-- The four down-crossings of the values above are the interpolated zeros. -/
example : ∃ idx, ListsExactly idx (DownCrossing xNasty) ∧ List.Forall₂ (IsInterpolatedZero tNasty xNasty) idx [1/10, 375/1000, 7/10, 89/70] := by
  obtain ⟨n, tc, idx, a, b, c, -⟩ := down_crossing_times (isVec_vec tNasty) (isVec_vec xNasty) (by decide) (by decide) tNasty_uniform
  have e : determineZeroCrossing (vec tNasty) (vec xNasty) "down" = .ok (3, [1/10, 375/1000, 7/10, 89/70]) := by decide +kernel
  rw [a] at e
  obtain ⟨-, rfl⟩ := Prod.mk.inj (Except.ok.inj e)
  exact ⟨idx, b, c⟩

example : ∃ idx, ListsExactly idx (UpCrossing xNasty) ∧ List.Forall₂ (IsInterpolatedZero tNasty xNasty) idx [24/100, 11/10, 134/100] := by
  obtain ⟨n, tc, idx, a, b, c, -⟩ := up_crossing_times (isVec_vec tNasty) (isVec_vec xNasty) (by decide) (by decide) tNasty_uniform
  have e : determineZeroCrossing (vec tNasty) (vec xNasty) "up" = .ok (2, [24/100, 11/10, 134/100]) := by decide +kernel
  rw [a] at e
  obtain ⟨-, rfl⟩ := Prod.mk.inj (Except.ok.inj e)
  exact ⟨idx, b, c⟩

example : determineZeroCrossing (vec tNasty) (vec (xNasty.map Neg.neg)) "down" = .ok (2, [24/100, 11/10, 134/100]) := by
  rw [← up_is_down_of_neg (isVec_vec tNasty) (isVec_vec xNasty) (by decide) (by decide)]; decide +kernel

example : determineZeroCrossing (vec tNasty) (vec xNasty) "DOWN" = determineZeroCrossing (vec tNasty) (vec xNasty) "dOwn" :=
  typeCross_case_insensitive _ _ (by decide +kernel)

example := typeCross_validated (isVec_vec tNasty) (isVec_vec xNasty) (by decide) (by decide) "Up"

end Verif
