import Verif.Props.FloatPeriods

/-! # C173: wave height and mean periods between frequency limits, in double precision -/

set_option linter.unusedSectionVars false

namespace Verif
open Finset

/-! ## A part of the axis is again such an axis -/

theorem AxisDouble.slice {f : List ℚ} {f0 h : ℚ} (A : AxisDouble f f0 h) {i j : ℕ} (hij : i ≤ j) (hj : j < f.length) :
    AxisDouble (pySlice f i (j + 1)) (f0 + i * h) h where
  doubles := fun x hx => A.doubles x (List.mem_of_mem_take (List.mem_of_mem_drop hx))
  lo := A.lo
  hi := A.hi
  start := by
    have := A.hpos
    have z := A.f0_nonneg
    rcases Nat.eq_zero_or_pos i with rfl | hp
    · simpa using A.start
    · right
      have : (1 : ℚ) ≤ i := by exact_mod_cast hp
      have := le_mul_of_one_le_left A.hpos.le this
      linarith
  near := by
    intro k hk
    rw [pySlice_len1 hj] at hk
    have := A.near (i + k) (by omega)
    push_cast at this
    rw [pySlice_getD (by omega), show f0 + (i : ℚ) * h + k * h = f0 + ((i : ℚ) + k) * h by ring]
    exact this
  size := by
    have := A.size
    have h0 := A.hpos
    rw [pySlice_len1 hj, Nat.cast_sub (by omega)]
    push_cast
    have : ((j : ℚ) + 1) * h ≤ f.length * h := mul_le_mul_of_nonneg_right (by exact_mod_cast hj) h0.le
    linarith

/-- An axis whose largest frequency is at most `2 ^ 9` passes the check of its step. -/
theorem AxisDouble.accepted {f : List ℚ} {f0 h : ℚ} (A : AxisDouble f f0 h) (h2 : 2 ≤ f.length) (hlo : 1 / 2 ^ 30 ≤ h) (hhi : h ≤ 2 ^ 10)
    (top : f0 + f.length * h ≤ 2 ^ 10) : monotonicF64 f = .ok true := by
  refine axis_noise_accepted h2 (t0 := f0) hlo hhi fun i hi => (A.near i hi).trans ?_
  have : (i : ℚ) * h ≤ f.length * h := mul_le_mul_of_nonneg_right (by exact_mod_cast hi.le) A.hpos.le
  linarith

/-- The grid point found for a value clearly nearest to it, or below the first one. -/
theorem AxisDouble.index_near {f : List ℚ} {f0 h : ℚ} (A : AxisDouble f f0 h) {k : ℕ} (hk : k < f.length) {v : ℚ} (dv : IsDouble v)
    (hv : |v - (f0 + k * h)| ≤ 15 / 32 * h ∨ (k = 0 ∧ 0 ≤ v ∧ v ≤ f0)) : approxArrayIndexF64 f v = .ok k := by
  have hne : f ≠ [] := by rintro rfl; simp at hk
  have h0 := A.hpos
  have z := A.f0_nonneg
  have sz := A.size
  obtain ⟨i, h1, h2, -, h4⟩ := nearest_double hne A.doubles dv
  have err : ∀ j, j < f.length → |f.getD j 0 - (f0 + j * h)| ≤ h / 2 ^ 26 := by
    intro j hj
    refine (A.near j hj).trans ?_
    have : (j : ℚ) * h ≤ f.length * h := mul_le_mul_of_nonneg_right (by exact_mod_cast hj.le) h0.le
    linarith
  rw [h1, h4 k hk fun j hj hjk => ?_]
  have ek := err k hk
  have ej := err j hj
  rcases hv with hv | ⟨rfl, v0, v1⟩
  · have u1 : |f.getD k 0 - v| ≤ 31 / 64 * h := by
      have := abs_sub_le (f.getD k 0) (f0 + k * h) v
      rw [abs_sub_comm (f0 + k * h) v] at this
      linarith
    have dist : h ≤ |(f0 + (j : ℚ) * h) - (f0 + k * h)| := by
      rw [show f0 + (j : ℚ) * h - (f0 + k * h) = ((j : ℚ) - k) * h by ring, abs_mul, abs_of_pos h0]
      refine le_mul_of_one_le_left h0.le ?_
      have : (1 : ℤ) ≤ |(j : ℤ) - k| := Int.one_le_abs (by omega)
      exact_mod_cast this
    have u2 : 33 / 64 * h ≤ |f.getD j 0 - v| := by
      have a := abs_sub_le (f0 + (j : ℚ) * h) (f.getD j 0) (f0 + k * h)
      have b := abs_sub_le (f.getD j 0) v (f0 + k * h)
      rw [abs_sub_comm (f0 + (j : ℚ) * h) (f.getD j 0)] at a
      linarith
    linarith
  · have j1 : 1 ≤ j := by omega
    have jh : h ≤ (j : ℚ) * h := le_mul_of_one_le_left h0.le (by exact_mod_cast j1)
    have f0h : f0 ≤ 2 ^ 24 * h := by
      have : 0 ≤ (f.length : ℚ) * h := by positivity
      linarith
    simp only [Nat.cast_zero, zero_mul, add_zero] at ek
    have a := abs_le.1 ek
    have b := abs_le.1 ej
    have u1 : |f.getD 0 0 - v| ≤ f0 - v + h / 2 ^ 26 := by
      rw [abs_le]; constructor <;> linarith
    have u2 : f0 - v + h - h / 2 ^ 26 ≤ |f.getD j 0 - v| := le_trans (by linarith) (le_abs_self _)
    linarith

theorem pySlice_pySlice {α : Type} (l : List α) (i d j : ℕ) : pySlice (pySlice l i (j + 1)) d (j - i + 1) = pySlice l (i + d) (min (j + 1) (i + (j - i + 1))) := by
  unfold pySlice
  rw [List.take_drop, List.drop_drop, List.take_take]
  congr 2
  omega

/-! ## The moments between limits are those of the part of the spectrum -/

/-- Which part is integrated, in double precision. -/
theorem band_indices_double (R : NpSum) (P : NpPow) {f S : List ℚ} {f0 h : ℚ} (A : AxisDouble f f0 h) (hl : f.length = S.length)
    (acc : monotonicF64 f = .ok true) (m : ℤ) {lo hi : ℚ} {i j : ℕ} (hij : i < j) (hj : j < f.length) (dlo : IsDouble lo) (dhi : IsDouble hi)
    (l0 : 0 ≤ lo) (nlo : |lo - (f0 + i * h)| ≤ 15 / 32 * h) (nhi : |hi - (f0 + j * h)| ≤ 15 / 32 * h)
    (top : hi ≤ f.getD (f.length - 1) 0) :
    computeMomentF64 R P f S m lo hi = momentSumF64 R P m (pySlice f (max i (if m < 0 ∧ f0 = 0 then 1 else 0)) (j + 1))
      (pySlice S (max i (if m < 0 ∧ f0 = 0 then 1 else 0)) (j + 1)) := by
  have h0 := A.hpos
  have z := A.f0_nonneg
  have hne : f ≠ [] := by rintro rfl; simp at hj
  have f00 : f.getD 0 0 = 0 ↔ f0 = 0 := by
    have := A.near 0 (by omega)
    simp only [Nat.cast_zero, zero_mul, add_zero] at this
    constructor
    · intro hz
      rw [hz, zero_sub, abs_neg, abs_of_nonneg z] at this
      linarith
    · intro hz
      rw [hz, zero_div, sub_zero] at this
      exact abs_eq_zero.1 (le_antisymm this (abs_nonneg _))
  have j1 : h ≤ (j : ℚ) * h := le_mul_of_one_le_left h0.le (by exact_mod_cast (by omega : 1 ≤ j))
  have hi0 : 0 < hi := by have := (abs_le.1 nhi).1; linarith
  unfold computeMomentF64
  simp only [acc, bind, Except.bind]
  rw [if_neg (by simp), if_neg (by simpa using hl)]
  unfold computeMomentLF64
  simp only [getE_getD (show 0 < f.length by omega), bind, Except.bind]
  by_cases hd : m < 0 ∧ f0 = 0
  · have hd' : m < 0 ∧ f.getD 0 0 = 0 := ⟨hd.1, f00.2 hd.2⟩
    simp only [decide_eq_true hd', if_true, if_pos hd]
    have A' := A.drop1 hne
    have dl : (f.drop 1).length = f.length - 1 := by rw [List.length_drop]
    rw [if_neg (by rintro (h | h) <;> linarith), lastE_drop (by omega)]
    simp only
    rw [if_pos top]
    unfold momentBetweenF64
    have jx : approxArrayIndexF64 (f.drop 1) hi = .ok (j - 1) := by
      refine A'.index_near (by omega) dhi (.inl ?_)
      rw [Nat.cast_sub (by omega), show f0 + h + ((j : ℚ) - ((1 : ℕ) : ℚ)) * h = f0 + j * h by push_cast; ring]
      exact nhi
    have ix : approxArrayIndexF64 (f.drop 1) (if lo = 0 then f.getD 1 0 else lo) = .ok (max i 1 - 1) := by
      by_cases hi1 : 1 ≤ i
      · have ih : h ≤ (i : ℚ) * h := le_mul_of_one_le_left h0.le (by exact_mod_cast hi1)
        rw [if_neg (by have := (abs_le.1 nlo).1; intro h; linarith)]
        refine A'.index_near (by omega) dlo (.inl ?_)
        rw [max_eq_left hi1, Nat.cast_sub hi1, show f0 + h + ((i : ℚ) - ((1 : ℕ) : ℚ)) * h = f0 + i * h by push_cast; ring]
        exact nlo
      · obtain rfl : i = 0 := by omega
        by_cases hz : lo = 0
        · rw [if_pos hz]
          have := A'.index (k := 0) (by omega)
          rwa [getD_drop'] at this
        · rw [if_neg hz]
          refine A'.index_near (by omega) dlo (.inr ⟨rfl, l0, ?_⟩)
          have := (abs_le.1 nlo).2
          simp only [Nat.cast_zero, zero_mul, add_zero] at this
          linarith
    simp only [ix, jx, bind, Except.bind]
    rw [pySlice_drop, pySlice_drop]
    rw [show 1 + (max i 1 - 1) = max i 1 by omega, show 1 + (j - 1 + 1) = j + 1 by omega]
  · have hd' : ¬ (m < 0 ∧ f.getD 0 0 = 0) := fun h => hd ⟨h.1, f00.1 h.2⟩
    simp only [decide_eq_false hd', Bool.false_eq_true, if_false, if_neg hd]
    rw [if_neg (by rintro (h | h) <;> linarith)]
    simp only [lastE_getD hne]
    rw [if_pos top]
    unfold momentBetweenF64
    simp only [A.index_near (by omega) dlo (.inl nlo), A.index_near hj dhi (.inl nhi), bind, Except.bind]
    rw [max_eq_left (by omega)]

/-- In double precision: the moment between the limits is the moment of the part of the spectrum between the nearest frequencies. -/
theorem band_moment_double (R : NpSum) (P : NpPow) {f S : List ℚ} {f0 h : ℚ} (A : AxisDouble f f0 h) (hl : f.length = S.length)
    (hlo : 1 / 2 ^ 30 ≤ h) (hhi : h ≤ 2 ^ 10) (small : f0 + f.length * h ≤ 2 ^ 10) (m : ℤ) {lo hi : ℚ} {i j : ℕ} (hij : i < j)
    (hj : j < f.length) (dlo : IsDouble lo) (dhi : IsDouble hi) (l0 : 0 ≤ lo) (nlo : |lo - (f0 + i * h)| ≤ 15 / 32 * h)
    (nhi : |hi - (f0 + j * h)| ≤ 15 / 32 * h) (top : hi ≤ f.getD (f.length - 1) 0) :
    computeMomentF64 R P f S m lo hi =
      computeMomentF64 R P (pySlice f i (j + 1)) (pySlice S i (j + 1)) m ((pySlice f i (j + 1)).getD 0 0)
        ((pySlice f i (j + 1)).getD ((pySlice f i (j + 1)).length - 1) 0) := by
  have h0 := A.hpos
  have z := A.f0_nonneg
  have A' := A.slice hij.le hj
  have len : (pySlice f i (j + 1)).length = j + 1 - i := pySlice_len1 hj
  have acc := A.accepted (by omega) hlo hhi small
  have acc' : monotonicF64 (pySlice f i (j + 1)) = .ok true := by
    refine A'.accepted (by omega) hlo hhi ?_
    rw [len, Nat.cast_sub (by omega)]
    push_cast
    have : ((j : ℚ) + 1) * h ≤ f.length * h := mul_le_mul_of_nonneg_right (by exact_mod_cast hj) h0.le
    linarith
  have sz := A'.size
  have close : ∀ k, k < (pySlice f i (j + 1)).length → |(pySlice f i (j + 1)).getD k 0 - (f0 + i * h + k * h)| ≤ 15 / 32 * h := by
    intro k hk
    refine (A'.near k hk).trans ?_
    have : (k : ℚ) * h ≤ (pySlice f i (j + 1)).length * h := mul_le_mul_of_nonneg_right (by exact_mod_cast hk.le) h0.le
    linarith
  have p0 : 0 ≤ (pySlice f i (j + 1)).getD 0 0 := by
    have := (abs_le.1 (A'.near 0 (by omega))).1
    simp only [Nat.cast_zero, zero_mul, add_zero] at this
    have := A'.f0_nonneg
    linarith
  rw [band_indices_double R P A hl acc m hij hj dlo dhi l0 nlo nhi top,
    band_indices_double R P A' (S := pySlice S i (j + 1)) (by rw [len, pySlice_len1 (by omega)]) acc' m (i := 0) (j := (pySlice f i (j + 1)).length - 1)
      (by omega) (by omega) (A'.double_getD (by omega)) (A'.double_getD (by omega)) p0 (close 0 (by omega)) (close _ (by omega)) le_rfl]
  rw [len, show j + 1 - i - 1 + 1 = j - i + 1 by omega, pySlice_pySlice, pySlice_pySlice]
  have e : max i (if m < 0 ∧ f0 = 0 then 1 else 0) = i + max 0 (if m < 0 ∧ f0 + i * h = 0 then 1 else 0) := by
    rcases Nat.eq_zero_or_pos i with rfl | hp
    · simp
    · have : h ≤ (i : ℚ) * h := le_mul_of_one_le_left h0.le (by exact_mod_cast hp)
      rw [if_neg (show ¬ (m < 0 ∧ f0 + (i : ℚ) * h = 0) by rintro ⟨-, h⟩; linarith)]
      split_ifs <;> omega
  rw [e, show min (j + 1) (i + (j - i + 1)) = j + 1 by omega]

/-! ## The same with exact numbers -/

section exact
variable {K : Type} [Field K] [LinearOrder K] [IsStrictOrderedRing K]

theorem uniform_getD {f : List K} {h : K} (hu : UniformAxis f h) : ∀ {k : ℕ}, k < f.length → f.getD k 0 = f.getD 0 0 + k * h := by
  intro k
  induction k with
  | zero => intro _; simp
  | succ k ih =>
    intro hk
    have := hu.2 k hk
    rw [ih (by omega)] at this
    push_cast
    linarith

theorem band_indices {pf pS : PyIn K} {f S : List K} {h : K} (hf : pf.IsArr f) (hS : pS.IsArr S) (hu : UniformAxis f h) (hl : f.length = S.length)
    (p0 : 0 ≤ f.getD 0 0) (m : ℤ) {lo hi : K} {i j : ℕ} (hij : i < j) (hj : j < f.length) (l0 : 0 ≤ lo)
    (nlo : |lo - f.getD i 0| < h / 2) (nhi : |hi - f.getD j 0| < h / 2) (top : hi ≤ f.getD (f.length - 1) 0) :
    computeMoment pf pS m lo (.fin hi) = momentSum m (pySlice f (max i (firstUsable f m)) (j + 1)) (pySlice S (max i (firstUsable f m)) (j + 1)) := by
  have h0 := hu.1
  have hm := uniform_check_accepts_uniform (by omega) hu
  obtain ⟨i', j', t, hr, -, -, e⟩ := computeMoment_structure hm m lo (.fin hi)
  have d1 : firstUsable f m ≤ 1 := firstUsable_le f m
  have jh : h ≤ (j : K) * h := le_mul_of_one_le_left h0.le (by exact_mod_cast (by omega : 1 ≤ j))
  have hi0 : 0 < hi := by
    have := (abs_lt.1 nhi).1
    rw [uniform_getD hu hj] at this
    linarith
  have hn : ¬ (lo = -1 ∨ FMax.fin hi = FMax.fin (-1)) := by
    rintro (h | h)
    · linarith
    · have := FMax.fin.inj h; linarith
  have far : ∀ {v : K} {a k : ℕ}, a < f.length → k < f.length → k ≠ a → |v - f.getD a 0| < h / 2 → |f.getD a 0 - v| < |f.getD k 0 - v| := by
    intro v a k ha hk hka hv
    have dist : h ≤ |f.getD k 0 - f.getD a 0| := by
      rw [uniform_getD hu hk, uniform_getD hu ha, show f.getD 0 0 + (k : K) * h - (f.getD 0 0 + a * h) = ((k : K) - a) * h by ring, abs_mul, abs_of_pos h0]
      refine le_mul_of_one_le_left h0.le ?_
      have : (1 : ℤ) ≤ |(k : ℤ) - a| := Int.one_le_abs (by omega)
      exact_mod_cast this
    have b := abs_sub_le (f.getD k 0) v (f.getD a 0)
    rw [abs_sub_comm (f.getD a 0)]
    linarith
  have near_of : ∀ {v : K} {d a : ℕ}, d ≤ a → a < f.length → |v - f.getD a 0| < h / 2 → IsNearest f d v a := by
    intro v d a hda ha hv
    refine ⟨hda, ha, fun k _ hk => ?_, fun k _ hka => far ha (by omega) (by omega) hv⟩
    rcases eq_or_ne k a with rfl | hka
    · exact le_rfl
    · exact (far ha hk hka hv).le
  have ej : j = j' ∧ t = false := by
    obtain ⟨b, c⟩ := hr.upper _ hn rfl top
    exact ⟨isNearest_unique (near_of (by omega) hj nhi) b, c⟩
  have ei : max i (firstUsable f m) = i' := by
    refine isNearest_unique ?_ (hr.lower hn)
    by_cases hdi : firstUsable f m ≤ i
    · rw [max_eq_left hdi]; exact near_of hdi (by omega) nlo
    · obtain rfl : i = 0 := by omega
      have ed : firstUsable f m = 1 := by omega
      rw [ed]
      refine isNearest_first (uniform_check_increasing hm) (by omega) ?_
      have z : f.getD 0 0 = 0 := by
        unfold firstUsable at ed
        by_contra hne
        rw [if_neg fun h => hne h.2] at ed
        omega
      rw [z] at nlo
      have := (abs_lt.1 nlo).2
      rw [uniform_getD hu (by omega : 1 < f.length), z]
      push_cast
      linarith
  obtain ⟨rfl, rfl⟩ := ej
  subst ei
  rw [e hf hS hl, momentOn_false]

/-- The moment between the limits is the moment of the part of the spectrum between the nearest frequencies. -/
theorem band_moment {pf pS qf qS : PyIn K} {f S : List K} {h : K} (hf : pf.IsArr f) (hS : pS.IsArr S) (hu : UniformAxis f h) (hl : f.length = S.length)
    (p0 : 0 ≤ f.getD 0 0) (m : ℤ) {lo hi : K} {i j : ℕ} (hij : i < j) (hj : j < f.length) (l0 : 0 ≤ lo)
    (nlo : |lo - f.getD i 0| < h / 2) (nhi : |hi - f.getD j 0| < h / 2) (top : hi ≤ f.getD (f.length - 1) 0)
    (hf' : qf.IsArr (pySlice f i (j + 1))) (hS' : qS.IsArr (pySlice S i (j + 1))) :
    computeMoment pf pS m lo (.fin hi) = computeMoment qf qS m (f.getD i 0) (.fin (f.getD j 0)) := by
  have h0 := hu.1
  have len : (pySlice f i (j + 1)).length = j + 1 - i := pySlice_len1 hj
  have get : ∀ k, k < j + 1 - i → (pySlice f i (j + 1)).getD k 0 = f.getD (i + k) 0 := fun k hk => pySlice_getD (by omega)
  have hu' : UniformAxis (pySlice f i (j + 1)) h := by
    refine ⟨h0, fun k hk => ?_⟩
    rw [get _ (by omega), get _ (by omega)]
    exact hu.2 (i + k) (by omega)
  have pi : 0 ≤ f.getD i 0 := by
    rw [uniform_getD hu (by omega)]
    positivity
  rw [band_indices hf hS hu hl p0 m hij hj l0 nlo nhi top,
    band_indices hf' hS' hu' (by rw [len, pySlice_len1 (by omega)]) (by rw [get 0 (by omega)]; exact pi) m (i := 0) (j := j - i) (by omega) (by omega) pi
      (by rw [get 0 (by omega)]; simpa using h0) (by rw [get _ (by omega), show i + (j - i) = j by omega]; simpa using h0)
      (by rw [get _ (by omega), show i + ((pySlice f i (j + 1)).length - 1) = j by omega]), pySlice_pySlice, pySlice_pySlice]
  have e : max i (firstUsable f m) = i + max 0 (firstUsable (pySlice f i (j + 1)) m) := by
    unfold firstUsable
    rw [get 0 (by omega), add_zero]
    rcases Nat.eq_zero_or_pos i with rfl | hp
    · simp
    · have ih : h ≤ (i : K) * h := le_mul_of_one_le_left h0.le (by exact_mod_cast hp)
      rw [if_neg (show ¬ (m < 0 ∧ f.getD i 0 = 0) by
        rintro ⟨-, h⟩; rw [uniform_getD hu (by omega)] at h; linarith)]
      split_ifs <;> omega
  rw [e, show min (j + 1) (i + (j - i + 1)) = j + 1 by omega]

end exact

/-! ## The parameters between limits -/

/-- Specification: the limits `lo` and `hi` of the band, both doubles, `lo` not negative and `hi` not beyond the last frequency: `lo` is clearly nearest
to the frequency with index `i` and `hi` to the one with index `j`, by at least `1 / 16` of a step (never halfway between two frequencies). -/
structure BandLimits (f : List ℚ) (f0 h lo hi : ℚ) (i j : ℕ) : Prop where
  order : i < j
  inside : j < f.length
  dlo : IsDouble lo
  dhi : IsDouble hi
  nonneg : 0 ≤ lo
  near_lo : |lo - (f0 + i * h)| ≤ 15 / 32 * h
  near_hi : |hi - (f0 + j * h)| ≤ 15 / 32 * h
  top : hi ≤ f.getD (f.length - 1) 0
  top_exact : hi ≤ f0 + (f.length - 1 : ℕ) * h

theorem pySlice_exactAxis {f0 h : ℚ} {n i j : ℕ} (hj : j < n) : pySlice (exactAxis f0 h n) i (j + 1) = exactAxis (f0 + i * h) h (j + 1 - i) := by
  unfold exactAxis
  rw [pySlice_eq _ 0 (by simpa using hj)]
  refine List.map_congr_left fun k hk => ?_
  have := List.mem_range.1 hk
  rw [map_range_getD (by omega)]
  push_cast; ring

theorem pySlice_realList (l : List ℚ) (a b : ℕ) : pySlice (realList l) a b = realList (pySlice l a b) := by
  unfold pySlice realList
  rw [List.map_drop, List.map_take]

section params
variable (R : NpSum) (P : NpPow) (Q : NpSqrt) {f S : List ℚ} {f0 h : ℚ} (A : AxisDouble f f0 h) (hl : f.length = S.length)
  (hlo : 1 / 2 ^ 30 ≤ h) (hhi : h ≤ 2 ^ 10) (small : f0 + f.length * h ≤ 2 ^ 10) (hS : ∀ s ∈ S, IsDensity s)
  {lo hi : ℚ} {i j : ℕ} (B : BandLimits f f0 h lo hi i j)
include A hl B

include hlo hhi small in
omit hl in
theorem band_accepted : monotonicF64 (pySlice f i (j + 1)) = .ok true := by
  have len : (pySlice f i (j + 1)).length = j + 1 - i := pySlice_len1 B.inside
  have := B.order
  refine (A.slice B.order.le B.inside).accepted (by omega) hlo hhi ?_
  rw [len, Nat.cast_sub (by omega)]
  push_cast
  have : ((j : ℚ) + 1) * h ≤ f.length * h := mul_le_mul_of_nonneg_right (by exact_mod_cast B.inside) A.hpos.le
  linarith

omit hl in
theorem band_top : f0 + i * h + (pySlice f i (j + 1)).length * h = f0 + (j + 1 : ℕ) * h := by
  have := B.order
  rw [pySlice_len1 B.inside, Nat.cast_sub (by omega)]
  push_cast
  ring

include hlo hhi small in
/-- The getters with the limits, in double precision: those of the part of the spectrum. -/
theorem band_getters_double :
    hm0F64 R P Q f S lo hi = hm0F64 R P Q (pySlice f i (j + 1)) (pySlice S i (j + 1)) (-1) (-1) ∧
    tmm10F64 R P f S lo hi = tmm10F64 R P (pySlice f i (j + 1)) (pySlice S i (j + 1)) (-1) (-1) ∧
    tm01F64 R P f S lo hi = tm01F64 R P (pySlice f i (j + 1)) (pySlice S i (j + 1)) (-1) (-1) ∧
    tm02F64 R P Q f S lo hi = tm02F64 R P Q (pySlice f i (j + 1)) (pySlice S i (j + 1)) (-1) (-1) := by
  have h0 := A.hpos
  have key := fun m : ℤ => band_moment_double R P A hl hlo hhi small m B.order B.inside B.dlo B.dhi B.nonneg B.near_lo B.near_hi B.top
  have j1 : h ≤ (j : ℚ) * h := le_mul_of_one_le_left h0.le (by have := B.order; exact_mod_cast (by omega : 1 ≤ j))
  have lim : setFlimF64 f lo hi = (lo, hi) := by
    unfold setFlimF64
    have a := B.nonneg
    have b := (abs_le.1 B.near_hi).1
    have z := A.f0_nonneg
    rw [if_neg (by intro h; linarith), if_neg (by intro h; linarith)]
  have lim' : setFlimF64 (pySlice f i (j + 1)) (-1) (-1) =
      ((pySlice f i (j + 1)).getD 0 0, (pySlice f i (j + 1)).getD ((pySlice f i (j + 1)).length - 1) 0) := by
    unfold setFlimF64
    rw [if_pos rfl, if_pos rfl]
  unfold hm0F64 tmm10F64 tm01F64 tm02F64
  rw [lim, lim']
  simp only [key, and_self]

/-- The exact getters with the limits: those of the part of the spectrum. -/
theorem band_getters :
    let F := realList (exactAxis f0 h f.length)
    let F' := realList (exactAxis (f0 + i * h) h (pySlice f i (j + 1)).length)
    let Z : Arr ℝ := ⟨[(pySlice S i (j + 1)).length], realList (pySlice S i (j + 1))⟩
    calcHm0 F ⟨[S.length], realList S⟩ lo (.fin hi) = calcHm0 F' Z (-1) (.fin (-1)) ∧
    calcTmm10 F ⟨[S.length], realList S⟩ lo (.fin hi) = calcTmm10 F' Z (-1) (.fin (-1)) ∧
    calcTm01 F ⟨[S.length], realList S⟩ lo (.fin hi) = calcTm01 F' Z (-1) (.fin (-1)) ∧
    calcTm02 F ⟨[S.length], realList S⟩ lo (.fin hi) = calcTm02 F' Z (-1) (.fin (-1)) := by
  intro F F' Z
  have h0 := A.hpos
  have z := A.f0_nonneg
  have o := B.order
  have hj := B.inside
  have el : F.length = f.length := by simp [F, realList, exactAxis]
  have fg : ∀ k, k < f.length → F.getD k 0 = (((f0 + k * h : ℚ)) : ℝ) := by
    intro k hk
    simp only [F]
    rw [realList_getD, exactAxis_getD hk]
  have h0' : (0 : ℝ) < h := by exact_mod_cast h0
  have hu : UniformAxis F (h : ℝ) := by
    refine ⟨h0', fun k hk => ?_⟩
    rw [fg _ (by omega), fg _ (by omega)]; push_cast; ring
  have len : (pySlice f i (j + 1)).length = j + 1 - i := pySlice_len1 hj
  have eF : pySlice F i (j + 1) = F' := by
    simp only [F, F']
    rw [pySlice_realList, pySlice_exactAxis hj, len]
  have near : ∀ {v : ℚ} {k : ℕ}, k < f.length → |v - (f0 + k * h)| ≤ 15 / 32 * h → |(v : ℝ) - F.getD k 0| < (h : ℝ) / 2 := by
    intro v k hk hv
    rw [fg k hk]
    have : |v - (f0 + k * h)| < h / 2 := by linarith
    exact_mod_cast this
  have key : ∀ m : ℤ, computeMoment (vec F) (.nd ⟨[S.length], realList S⟩) m (lo : ℝ) (.fin (hi : ℝ)) =
      computeMoment (vec F') (.nd Z) m (F'.getD 0 0) (.fin (F'.getD (F'.length - 1) 0)) := by
    intro m
    have l' : F'.length = j + 1 - i := by simp [F', realList, exactAxis, len]
    have e1 : F'.getD 0 0 = F.getD i 0 := by rw [← eF, pySlice_getD (by omega), add_zero]
    have e2 : F'.getD (F'.length - 1) 0 = F.getD j 0 := by
      rw [l', ← eF, pySlice_getD (by omega), show i + (j + 1 - i - 1) = j by omega]
    rw [e1, e2]
    have aS : (PyIn.nd (⟨[S.length], realList S⟩ : Arr ℝ)).IsArr (realList S) := by
      have := isArr_vec (realList S)
      unfold vec at this
      rwa [realList_length] at this
    have aZ : (PyIn.nd Z).IsArr (pySlice (realList S) i (j + 1)) := by
      have := isArr_vec (realList (pySlice S i (j + 1)))
      unfold vec at this
      rw [realList_length] at this
      rw [pySlice_realList]
      exact this
    refine band_moment (isArr_vec F) aS hu (by rw [el, realList_length, hl]) (by rw [fg 0 (by omega)]; push_cast; simpa using by exact_mod_cast z) m o (by omega)
      (by exact_mod_cast B.nonneg) (near (by omega) B.near_lo) (near hj B.near_hi) (by
        rw [el, fg _ (by omega)]; exact_mod_cast B.top_exact) (by rw [eF]; exact isArr_vec F') aZ
  have j1 : h ≤ (j : ℚ) * h := le_mul_of_one_le_left h0.le (by exact_mod_cast (by omega : 1 ≤ j))
  have lim : setFlim F (lo : ℝ) (.fin (hi : ℝ)) = ((lo : ℝ), .fin (hi : ℝ)) := by
    unfold setFlim
    have a : (0 : ℝ) ≤ lo := by exact_mod_cast B.nonneg
    have b := (abs_le.1 B.near_hi).1
    have c : (0 : ℝ) < hi := by
      have : (0 : ℚ) < hi := by linarith
      exact_mod_cast this
    rw [if_neg (by intro h; linarith), if_neg (by intro h; have := FMax.fin.inj h; linarith)]
  have lim' : setFlim F' (-1) (.fin (-1)) = (F'.getD 0 0, .fin (F'.getD (F'.length - 1) 0)) := by
    unfold setFlim
    rw [if_pos rfl, if_pos rfl]
  unfold calcHm0 calcTmm10 calcTm01 calcTm02
  rw [lim, lim']
  simp only [key, and_self]

include hlo hhi small hS

/-- **C173 (wave height between limits).** -/
theorem band_hm0_double : ∃ H Hx, hm0F64 R P Q f S lo hi = .ok H ∧
    calcHm0 (realList (exactAxis f0 h f.length)) ⟨[S.length], realList S⟩ lo (.fin hi) = .ok Hx ∧
    |((H : ℚ) : ℝ) - Hx| ≤ (((f0 + (j + 1 : ℕ) * h) / h / 2 ^ 44 : ℚ) : ℝ) * Hx := by
  have len : (pySlice f i (j + 1)).length = j + 1 - i := pySlice_len1 B.inside
  have o := B.order
  have hj := B.inside
  obtain ⟨H, Hx, a, b, c⟩ := hm0_double R P Q (A.slice o.le hj) (S := pySlice S i (j + 1)) (by omega) (by rw [len, pySlice_len1 (by omega)])
    (band_accepted A hlo hhi small B) (fun s hs => hS s (List.mem_of_mem_take (List.mem_of_mem_drop hs)))
  refine ⟨H, Hx, (band_getters_double R P Q A hl hlo hhi small B).1.trans a, (band_getters A hl B).1.trans b, ?_⟩
  rwa [band_top A B] at c

/-- **C173 (mean periods between limits).** -/
theorem band_mean_periods_double :
    (∀ T, calcTmm10 (realList (exactAxis f0 h f.length)) ⟨[S.length], realList S⟩ lo (.fin hi) = .ok T →
      ∃ T', tmm10F64 R P f S lo hi = .ok T' ∧ |((T' : ℚ) : ℝ) - T| ≤ 5 / 2 * (((f0 + (j + 1 : ℕ) * h) / h / 2 ^ 44 : ℚ) : ℝ) * T) ∧
    (∀ T, calcTm01 (realList (exactAxis f0 h f.length)) ⟨[S.length], realList S⟩ lo (.fin hi) = .ok T →
      ∃ T', tm01F64 R P f S lo hi = .ok T' ∧ |((T' : ℚ) : ℝ) - T| ≤ 5 / 2 * (((f0 + (j + 1 : ℕ) * h) / h / 2 ^ 44 : ℚ) : ℝ) * T) ∧
    (∀ T, calcTm02 (realList (exactAxis f0 h f.length)) ⟨[S.length], realList S⟩ lo (.fin hi) = .ok T →
      ∃ T', tm02F64 R P Q f S lo hi = .ok T' ∧ |((T' : ℚ) : ℝ) - T| ≤ 3 / 2 * (((f0 + (j + 1 : ℕ) * h) / h / 2 ^ 44 : ℚ) : ℝ) * T) := by
  have len : (pySlice f i (j + 1)).length = j + 1 - i := pySlice_len1 B.inside
  have o := B.order
  have hj := B.inside
  have A' := A.slice o.le hj
  have hl' : (pySlice f i (j + 1)).length = (pySlice S i (j + 1)).length := by rw [len, pySlice_len1 (by omega)]
  have hS' : ∀ s ∈ pySlice S i (j + 1), IsDensity s := fun s hs => hS s (List.mem_of_mem_take (List.mem_of_mem_drop hs))
  obtain ⟨a, b, -, -⟩ := mean_periods_double R P A' (by omega) hl' (band_accepted A hlo hhi small B) hS'
  obtain ⟨c, -⟩ := tm02_double R P Q A' (by omega) hl' (band_accepted A hlo hhi small B) hS'
  obtain ⟨-, g1, g2, g3⟩ := band_getters_double R P Q A hl hlo hhi small B
  obtain ⟨-, x1, x2, x3⟩ := band_getters A hl B
  rw [band_top A B] at a b c
  rw [g1, g2, g3, x1, x2, x3]
  exact ⟨a, b, c⟩

/-- **C173 (empty band).**  Where the exact period is undefined (no energy), the division by zero also happens in double precision. -/
theorem band_mean_periods_undefined :
    (∀ e, calcTmm10 (realList (exactAxis f0 h f.length)) ⟨[S.length], realList S⟩ lo (.fin hi) = .error e →
      e = .nonFinite ∧ tmm10F64 R P f S lo hi = .error .nonFinite) ∧
    (∀ e, calcTm01 (realList (exactAxis f0 h f.length)) ⟨[S.length], realList S⟩ lo (.fin hi) = .error e →
      e = .nonFinite ∧ tm01F64 R P f S lo hi = .error .nonFinite) ∧
    (∀ e, calcTm02 (realList (exactAxis f0 h f.length)) ⟨[S.length], realList S⟩ lo (.fin hi) = .error e →
      e = .nonFinite ∧ tm02F64 R P Q f S lo hi = .error .nonFinite) := by
  have len : (pySlice f i (j + 1)).length = j + 1 - i := pySlice_len1 B.inside
  have o := B.order
  have hj := B.inside
  have A' := A.slice o.le hj
  have hl' : (pySlice f i (j + 1)).length = (pySlice S i (j + 1)).length := by rw [len, pySlice_len1 (by omega)]
  have hS' : ∀ s ∈ pySlice S i (j + 1), IsDensity s := fun s hs => hS s (List.mem_of_mem_take (List.mem_of_mem_drop hs))
  obtain ⟨-, -, a, b⟩ := mean_periods_double R P A' (by omega) hl' (band_accepted A hlo hhi small B) hS'
  obtain ⟨-, c⟩ := tm02_double R P Q A' (by omega) hl' (band_accepted A hlo hhi small B) hS'
  obtain ⟨-, g1, g2, g3⟩ := band_getters_double R P Q A hl hlo hhi small B
  obtain ⟨-, x1, x2, x3⟩ := band_getters A hl B
  rw [g1, g2, g3, x1, x2, x3]
  exact ⟨a, b, c⟩

end params

/-! ## Concrete cases -/

/-- Limits 0.3 Hz and 0.7 Hz (as doubles) on the axis 0, 0.25, 0.5, 0.75. -/
theorem quarter_band : BandLimits quarterAxis 0 (1 / 4) (f64 (3 / 10)) (f64 (7 / 10)) 1 3 := by
  have a := f64_error (x := 3 / 10) (by rw [abs_of_pos (by norm_num)]; norm_num)
  have b := f64_error (x := 7 / 10) (by rw [abs_of_pos (by norm_num)]; norm_num)
  rw [abs_of_pos (by norm_num : (0 : ℚ) < 3 / 10)] at a
  rw [abs_of_pos (by norm_num : (0 : ℚ) < 7 / 10)] at b
  have a' := abs_le.1 a
  have b' := abs_le.1 b
  refine ⟨by norm_num, by simp, f64_double _, f64_double _, by linarith, ?_, ?_, ?_, ?_⟩
  · rw [abs_le]; constructor <;> push_cast <;> linarith
  · rw [abs_le]; constructor <;> push_cast <;> linarith
  · simp only [quarterAxis, List.length_cons, List.length_nil]; norm_num; linarith
  · simp only [quarterAxis, List.length_cons, List.length_nil]; norm_num; linarith

example (R : NpSum) (P : NpPow) (Q : NpSqrt) : ∃ H Hx, hm0F64 R P Q quarterAxis [0, 1, 3, 2] (f64 (3 / 10)) (f64 (7 / 10)) = .ok H ∧
    calcHm0 (realList (exactAxis 0 (1 / 4) 4)) ⟨[4], realList [0, 1, 3, 2]⟩ ((f64 (3 / 10) : ℚ) : ℝ) (.fin ((f64 (7 / 10) : ℚ) : ℝ)) = .ok Hx ∧
    |((H : ℚ) : ℝ) - Hx| ≤ (((0 + (3 + 1 : ℕ) * (1 / 4)) / (1 / 4) / 2 ^ 44 : ℚ) : ℝ) * Hx :=
  band_hm0_double R P Q quarterAxis_double (S := [0, 1, 3, 2]) rfl (by norm_num) (by norm_num) (by norm_num) densities_four quarter_band

example (R : NpSum) (P : NpPow) (Q : NpSqrt) (T : ℝ)
    (hT : calcTmm10 (realList (exactAxis 0 (1 / 4) 4)) ⟨[4], realList [0, 1, 3, 2]⟩ ((f64 (3 / 10) : ℚ) : ℝ) (.fin ((f64 (7 / 10) : ℚ) : ℝ)) = .ok T) :
    ∃ T', tmm10F64 R P quarterAxis [0, 1, 3, 2] (f64 (3 / 10)) (f64 (7 / 10)) = .ok T' :=
  let ⟨T', h, _⟩ := (band_mean_periods_double R P Q quarterAxis_double (S := [0, 1, 3, 2]) rfl (by norm_num) (by norm_num) (by norm_num) densities_four
    quarter_band).1 T hT
  ⟨T', h⟩

example (R : NpSum) (P : NpPow) (Q : NpSqrt) (e : PyErr)
    (hT : calcTm02 (realList (exactAxis 0 (1 / 4) 4)) ⟨[4], realList [0, 0, 0, 0]⟩ ((f64 (3 / 10) : ℚ) : ℝ) (.fin ((f64 (7 / 10) : ℚ) : ℝ)) = .error e) :
    tm02F64 R P Q quarterAxis [0, 0, 0, 0] (f64 (3 / 10)) (f64 (7 / 10)) = .error .nonFinite :=
  ((band_mean_periods_undefined R P Q quarterAxis_double (S := [0, 0, 0, 0]) rfl (by norm_num) (by norm_num) (by norm_num)
    (fun s hs => by
      simp only [List.mem_cons, List.not_mem_nil, or_false, or_self] at hs
      subst hs
      exact ⟨isDouble_zero, .inl rfl⟩) quarter_band).2.2 e hT).2

/-- The indices of the band are found: the moment of order −1 between the limits 0.3 and 0.7, step by step. -/
example : (computeMomentF64 seqSum roundPow quarterAxis [0, 1, 3, 2] (-1) (f64 (3 / 10)) (f64 (7 / 10))).toOption =
    (computeMomentF64 seqSum roundPow [1 / 4, 1 / 2, 3 / 4] [1, 3, 2] (-1) (1 / 4) (3 / 4)).toOption := by decide +kernel

end Verif
