import Verif.Props.NoiseWaves
import Mathlib.Analysis.SpecialFunctions.Trigonometric.Bounds
import Mathlib.Analysis.Real.Pi.Bounds
import Mathlib.Analysis.Convex.SpecificFunctions.Deriv

/-! # C117: wave-by-wave analysis of a sampled regular wave -/

namespace Verif

open Real

/-- Specification: the times `t0, t0 + dt, …`. -/
noncomputable def regularTime (t0 dt : ℝ) (N : Nat) : List ℝ := (List.range N).map fun (i : Nat) => t0 + (i : ℝ) * dt

/-- Specification: the regular wave `a cos(2π t / T + φ)` at these times. -/
noncomputable def regularWave (a T φ t0 dt : ℝ) (N : Nat) : List ℝ :=
  (List.range N).map fun (i : Nat) => a * Real.cos (2 * π * (t0 + (i : ℝ) * dt) / T + φ)

theorem regularTime_length (t0 dt : ℝ) (N : Nat) : (regularTime t0 dt N).length = N := by simp [regularTime]

theorem regularWave_length (a T φ t0 dt : ℝ) (N : Nat) : (regularWave a T φ t0 dt N).length = N := by simp [regularWave]

theorem regularTime_getD (t0 dt : ℝ) {N i : Nat} (h : i < N) : (regularTime t0 dt N).getD i 0 = t0 + (i : ℝ) * dt := by
  unfold regularTime
  rw [List.getD_eq_getElem _ _ (by simpa using h), List.getElem_map, List.getElem_range]

theorem regularWave_getD (a T φ t0 dt : ℝ) {N i : Nat} (h : i < N) :
    (regularWave a T φ t0 dt N).getD i 0 = a * Real.cos (2 * π * (t0 + (i : ℝ) * dt) / T + φ) := by
  unfold regularWave
  rw [List.getD_eq_getElem _ _ (by simpa using h), List.getElem_map, List.getElem_range]

theorem regular_axis {t0 dt : ℝ} (hdt : 0 < dt) (N : Nat) : UniformAxis (regularTime t0 dt N) dt := by
  refine ⟨hdt, fun i hi => ?_⟩
  rw [regularTime_length] at hi
  rw [regularTime_getD _ _ hi, regularTime_getD _ _ (by omega)]
  push_cast
  ring

/-- Linear interpolation of a sine across its zero, in terms of the mean `Y` and half difference `y` of the distances to the zero. -/
theorem interp_sin_core {Y y : ℝ} (h0 : 0 ≤ y) (h1 : y ≤ Y) (hY : 0 < Y) (h2 : Y < π / 2) :
    cos Y * sin y / (sin Y * cos y) ≤ y / Y ∧ y / Y - cos Y * sin y / (sin Y * cos y) ≤ Y ^ 2 / 2 := by
  have hsY : 0 < sin Y := sin_pos_of_pos_of_lt_pi hY (by linarith)
  have hcy : 0 < cos y := cos_pos_of_mem_Ioo ⟨by linarith, by linarith⟩
  have hcY : 0 < cos Y := cos_pos_of_mem_Ioo ⟨by linarith, by linarith⟩
  constructor
  · rw [div_le_div_iff₀ (mul_pos hsY hcy) hY]
    -- (Y - y) sin (Y + y) ≤ (Y + y) sin (Y - y)
    have hconc := strictConcaveOn_sin_Icc.concaveOn
    have hv : 0 < Y + y := by linarith
    have key : (Y - y) * sin (Y + y) ≤ (Y + y) * sin (Y - y) := by
      have m0 : (0 : ℝ) ∈ Set.Icc 0 π := ⟨le_refl _, pi_pos.le⟩
      have m1 : Y + y ∈ Set.Icc 0 π := ⟨by linarith, by linarith⟩
      have w0 : 0 ≤ 1 - (Y - y) / (Y + y) := by rw [sub_nonneg, div_le_one hv]; linarith
      have w1 : 0 ≤ (Y - y) / (Y + y) := div_nonneg (by linarith) hv.le
      have hh := hconc.2 m0 m1 w0 w1 (by ring)
      simp only [smul_eq_mul, sin_zero, mul_zero, zero_add] at hh
      rw [div_mul_cancel₀ _ hv.ne', div_mul_eq_mul_div, div_le_iff₀ hv] at hh
      linarith
    rw [sin_add, sin_sub] at key
    nlinarith
  · have hsy : 0 ≤ sin y := sin_nonneg_of_nonneg_of_le_pi h0 (by linarith)
    have t1 : y * cos y ≤ sin y := by
      rcases eq_or_lt_of_le h0 with e | hp
      · rw [← e]; simp
      · have := Real.lt_tan hp (by linarith)
        rw [tan_eq_sin_div_cos, lt_div_iff₀ hcy] at this
        exact this.le
    have t2 : sin Y ≤ Y := (sin_lt hY).le
    have t3 : 1 - Y ^ 2 / 2 ≤ cos Y := one_sub_sq_div_two_le_cos
    have l1 : y * cos Y / Y ≤ cos Y * sin y / (sin Y * cos y) := by
      rw [div_le_div_iff₀ hY (mul_pos hsY hcy)]
      have p1 : cos Y * (y * cos y) * sin Y ≤ cos Y * sin y * sin Y :=
        mul_le_mul_of_nonneg_right (mul_le_mul_of_nonneg_left t1 hcY.le) hsY.le
      have p2 : cos Y * sin y * sin Y ≤ cos Y * sin y * Y := mul_le_mul_of_nonneg_left t2 (mul_nonneg hcY.le hsy)
      nlinarith
    have l2 : y / Y - y * cos Y / Y = y / Y * (1 - cos Y) := by ring
    have l3 : y / Y ≤ 1 := (div_le_one hY).2 h1
    have l4 : y / Y * (1 - cos Y) ≤ 1 * (1 - cos Y) := mul_le_mul_of_nonneg_right l3 (by have := cos_le_one Y; linarith)
    linarith

theorem interp_sin_half {p q : ℝ} (hp : 0 ≤ p) (hpq : p ≤ q) (hq : 0 < q) (h : p + q < π) :
    |sin p / (sin p + sin q) - p / (p + q)| ≤ (p + q) ^ 2 / 16 := by
  set Y := (p + q) / 2 with hYd
  set y := (q - p) / 2 with hyd
  have ep : p = Y - y := by rw [hYd, hyd]; ring
  have eq' : q = Y + y := by rw [hYd, hyd]; ring
  have hY : 0 < Y := by rw [hYd]; linarith
  obtain ⟨c1, c2⟩ := interp_sin_core (Y := Y) (y := y) (by rw [hyd]; linarith) (by rw [hYd, hyd]; linarith) hY (by rw [hYd]; linarith)
  have hsY : 0 < sin Y := sin_pos_of_pos_of_lt_pi hY (by rw [hYd]; linarith)
  have hcy : 0 < cos y := cos_pos_of_mem_Ioo ⟨by rw [hyd]; linarith, by rw [hyd]; linarith⟩
  have e1 : sin p / (sin p + sin q) = 1 / 2 - cos Y * sin y / (sin Y * cos y) / 2 := by
    rw [ep, eq', sin_sub, sin_add]
    have : sin Y * cos y - cos Y * sin y + (sin Y * cos y + cos Y * sin y) = 2 * (sin Y * cos y) := by ring
    rw [this]
    field_simp
  have e2 : p / (p + q) = 1 / 2 - y / Y / 2 := by
    have hs : p + q = 2 * Y := by rw [hYd]; ring
    rw [hs, ep]
    field_simp
  have e3 : p + q = 2 * Y := by rw [hYd]; ring
  rw [e1, e2, e3, abs_le]
  constructor <;> nlinarith

/-- Linear interpolation of a sine across its zero. -/
theorem interp_sin {p q : ℝ} (hp : 0 ≤ p) (hq : 0 < q) (h : p + q < π) :
    |sin p / (sin p + sin q) - p / (p + q)| ≤ (p + q) ^ 2 / 16 := by
  rcases le_total p q with hle | hle
  · exact interp_sin_half hp hle hq h
  · have h' := interp_sin_half hq.le hle (lt_of_lt_of_le hq hle) (by linarith)
    have hs : 0 < sin p + sin q := by
      have a := sin_nonneg_of_nonneg_of_le_pi hp (by linarith)
      have b := sin_pos_of_pos_of_lt_pi hq (by linarith)
      linarith
    have e1 : sin q / (sin q + sin p) = 1 - sin p / (sin p + sin q) := by
      rw [add_comm, eq_sub_iff_add_eq, ← add_div, add_comm, div_self hs.ne']
    have hpq : p + q ≠ 0 := by linarith
    have e2 : q / (q + p) = 1 - p / (p + q) := by
      rw [add_comm, eq_sub_iff_add_eq, ← add_div, add_comm, div_self hpq]
    rw [e1, e2] at h'
    have : 1 - sin p / (sin p + sin q) - (1 - p / (p + q)) = -(sin p / (sin p + sin q) - p / (p + q)) := by ring
    rw [this, abs_neg, add_comm q p] at h'
    exact h'

/-- Every regular wave has a downward zero in the first period. -/
theorem first_zero {T : ℝ} (hT : 0 < T) (φ t0 : ℝ) : ∃ z, t0 ≤ z ∧ z < t0 + T ∧
    ∀ t, Real.cos (2 * π * t / T + φ) = -Real.sin (2 * π * (t - z) / T) := by
  set b := (π / 2 - φ) * T / (2 * π) with hb
  set m := ⌈(t0 - b) / T⌉ with hm
  have h1 : (t0 - b) / T ≤ m := Int.le_ceil _
  have h2 : (m : ℝ) < (t0 - b) / T + 1 := Int.ceil_lt_add_one _
  rw [div_le_iff₀ hT] at h1
  have h2' : (m : ℝ) * T < t0 - b + T := by
    have := mul_lt_mul_of_pos_right h2 hT
    rw [add_mul, div_mul_cancel₀ _ hT.ne', one_mul] at this
    exact this
  refine ⟨b + m * T, by linarith, by linarith, fun t => ?_⟩
  have e : 2 * π * (t - (b + m * T)) / T = (2 * π * t / T + φ - π / 2) - m * (2 * π) := by
    rw [hb]
    field_simp
    ring
  rw [e, sin_sub_int_mul_two_pi, sin_sub_pi_div_two, neg_neg]

section Core
variable {T dt z : ℝ}

theorem sin_period (hT : 0 < T) (z t : ℝ) (m : ℤ) : sin (2 * π * (t - (z + m * T)) / T) = sin (2 * π * (t - z) / T) := by
  have : 2 * π * (t - (z + m * T)) / T = 2 * π * (t - z) / T - m * (2 * π) := by
    field_simp
    ring
  rw [this, sin_sub_int_mul_two_pi]

theorem sin_pos_half (hT : 0 < T) {r : ℝ} (h0 : 0 < r) (h1 : r < T / 2) : 0 < sin (2 * π * r / T) := by
  have hpi := pi_pos
  refine sin_pos_of_pos_of_lt_pi (by positivity) ?_
  rw [div_lt_iff₀ hT]
  nlinarith

theorem sin_nonpos_half (hT : 0 < T) {r : ℝ} (h0 : -(T / 2) ≤ r) (h1 : r ≤ 0) : sin (2 * π * r / T) ≤ 0 := by
  have hpi := pi_pos
  refine sin_nonpos_of_nonpos_of_neg_pi_le ?_ ?_
  · exact div_nonpos_of_nonpos_of_nonneg (by nlinarith) hT.le
  · rw [le_div_iff₀ hT]
    nlinarith

/-- Two consecutive samples straddle a downward zero exactly when there is one between them. -/
theorem straddle (hdt : 0 < dt) (hT : 2 * dt < T) (z τ : ℝ) :
    (0 ≤ -sin (2 * π * (τ - z) / T) ∧ -sin (2 * π * (τ + dt - z) / T) < 0) ↔ ∃ m : ℤ, τ ≤ z + m * T ∧ z + m * T < τ + dt := by
  have hT0 : 0 < T := by linarith
  constructor
  · rintro ⟨h1, h2⟩
    set m := ⌊(τ + dt - z) / T⌋ with hm
    have f1 : (m : ℝ) * T ≤ τ + dt - z := by
      have := Int.floor_le ((τ + dt - z) / T)
      rwa [le_div_iff₀ hT0] at this
    have f2 : τ + dt - z < (m + 1) * T := by
      have := Int.lt_floor_add_one ((τ + dt - z) / T)
      rwa [div_lt_iff₀ hT0] at this
    rw [← sin_period hT0 z _ m] at h1 h2
    have hlt : z + m * T < τ + dt := by
      rcases eq_or_lt_of_le f1 with e | hl
      · exfalso
        have : τ + dt - (z + m * T) = 0 := by linarith
        rw [this] at h2
        simp at h2
      · linarith
    have hhalf : τ + dt - (z + m * T) < T / 2 := by
      by_contra hc
      push Not at hc
      have : sin (2 * π * (τ + dt - (z + m * T) - T) / T) ≤ 0 := sin_nonpos_half hT0 (by linarith) (by linarith)
      have e := sin_period hT0 (z + m * T) (τ + dt) 1
      rw [show z + m * T + ((1 : ℤ) : ℝ) * T = z + m * T + T by norm_num, ← sub_sub] at e
      rw [e] at this
      linarith
    refine ⟨m, ?_, hlt⟩
    by_contra hc
    push Not at hc
    have := sin_pos_half hT0 (r := τ - (z + m * T)) (by linarith) (by linarith)
    linarith
  · rintro ⟨m, h1, h2⟩
    rw [← sin_period hT0 z τ m, ← sin_period hT0 z (τ + dt) m]
    have a := sin_nonpos_half hT0 (r := τ - (z + m * T)) (by linarith) (by linarith)
    have b := sin_pos_half hT0 (r := τ + dt - (z + m * T)) (by linarith) (by linarith)
    exact ⟨by linarith, by linarith⟩

/-- The sample before the `j`-th zero. -/
noncomputable def zeroIdx (T dt z t0 : ℝ) (j : Nat) : Nat := ⌊(z + j * T - t0) / dt⌋₊

theorem zeroIdx_spec (hdt : 0 < dt) (hT : 0 < T) {t0 : ℝ} (hz : t0 ≤ z) (j : Nat) :
    t0 + (zeroIdx T dt z t0 j : ℝ) * dt ≤ z + j * T ∧ z + j * T < t0 + (zeroIdx T dt z t0 j : ℝ) * dt + dt := by
  have hn : 0 ≤ (z + j * T - t0) / dt := by
    have : 0 ≤ (j : ℝ) * T := by positivity
    exact div_nonneg (by linarith) hdt.le
  have h1 := Nat.floor_le hn
  have h2 := Nat.lt_floor_add_one ((z + j * T - t0) / dt)
  rw [le_div_iff₀ hdt] at h1
  rw [div_lt_iff₀ hdt] at h2
  unfold zeroIdx
  constructor
  · linarith
  · nlinarith

/-- Two strictly increasing lists with the same members are equal. -/
theorem incr_list_ext : ∀ {l l' : List Nat}, l.Pairwise (· < ·) → l'.Pairwise (· < ·) → (∀ i, i ∈ l ↔ i ∈ l') → l = l'
  | [], [], _, _, _ => rfl
  | [], b :: l', _, _, h => absurd ((h b).2 (by simp)) (by simp)
  | a :: l, [], _, _, h => absurd ((h a).1 (by simp)) (by simp)
  | a :: l, b :: l', p, p', h => by
    rw [List.pairwise_cons] at p p'
    have hab : a = b := by
      have h1 := (h a).1 (by simp)
      have h2 := (h b).2 (by simp)
      rcases List.mem_cons.1 h1 with e | h1
      · exact e
      · rcases List.mem_cons.1 h2 with e | h2
        · exact e.symm
        · have := p.1 _ h2
          have := p'.1 _ h1
          omega
    subst hab
    rw [incr_list_ext p.2 p'.2 fun i => ?_]
    constructor
    · intro hi
      rcases List.mem_cons.1 ((h i).1 (List.mem_cons_of_mem _ hi)) with e | hi'
      · have := p.1 _ hi; omega
      · exact hi'
    · intro hi
      rcases List.mem_cons.1 ((h i).2 (List.mem_cons_of_mem _ hi)) with e | hi'
      · have := p'.1 _ hi; omega
      · exact hi'

theorem regular_crossIdx {a φ t0 : ℝ} (ha : 0 < a) (hdt : 0 < dt) (hT : 2 * dt < T) {N : Nat} (hN : 2 ≤ N) (hz : t0 ≤ z) (hz' : z < t0 + T)
    (hcos : ∀ t, Real.cos (2 * π * t / T + φ) = -Real.sin (2 * π * (t - z) / T)) :
    crossIdx downCond (regularWave a T φ t0 dt N) =
      (List.range ⌈(t0 + ((N - 1 : Nat) : ℝ) * dt - z) / T⌉₊).map (zeroIdx T dt z t0) := by
  have hT0 : 0 < T := by linarith
  refine incr_list_ext (crossIdx_pairwise _ _) ?_ fun i => ?_
  · rw [List.pairwise_map]
    refine List.pairwise_lt_range.imp fun {j k} hjk => ?_
    obtain ⟨a1, -⟩ := zeroIdx_spec hdt hT0 hz j
    obtain ⟨-, b2⟩ := zeroIdx_spec hdt hT0 hz k
    have hjk' : (j : ℝ) + 1 ≤ k := by exact_mod_cast hjk
    have : (j : ℝ) * T + T ≤ k * T := by nlinarith
    have h3 : (zeroIdx T dt z t0 j : ℝ) * dt < (zeroIdx T dt z t0 k : ℝ) * dt := by linarith
    exact_mod_cast lt_of_mul_lt_mul_right h3 hdt.le
  · rw [mem_crossIdx, regularWave_length, List.mem_map]
    have hstr : ∀ i, i + 1 < N → (downCond ((regularWave a T φ t0 dt N).getD i 0) ((regularWave a T φ t0 dt N).getD (i + 1) 0) = true ↔
        ∃ m : ℤ, t0 + (i : ℝ) * dt ≤ z + m * T ∧ z + m * T < t0 + (i : ℝ) * dt + dt) := by
      intro i hi
      rw [regularWave_getD _ _ _ _ _ (by omega), regularWave_getD _ _ _ _ _ hi, hcos, hcos, ← straddle hdt hT z]
      simp only [downCond, Bool.and_eq_true, decide_eq_true_eq]
      have e : t0 + ((i + 1 : Nat) : ℝ) * dt - z = t0 + (i : ℝ) * dt + dt - z := by push_cast; ring
      rw [e]
      refine and_congr ⟨fun h => ?_, fun h => mul_nonneg ha.le h⟩ ⟨fun h => ?_, fun h => mul_neg_of_pos_of_neg ha h⟩
      · exact nonneg_of_mul_nonneg_right h ha
      · by_contra hc
        push Not at hc
        have := mul_nonneg ha.le hc
        linarith
    constructor
    · rintro ⟨hi, hc⟩
      obtain ⟨m, h1, h2⟩ := (hstr i hi).1 hc
      have hi0 : 0 ≤ (i : ℝ) * dt := by positivity
      have hm : 0 ≤ m := by
        by_contra hneg
        have : (m : ℝ) ≤ -1 := by exact_mod_cast (by omega : m ≤ -1)
        nlinarith
      obtain ⟨j, rfl⟩ := Int.eq_ofNat_of_zero_le hm
      rw [Int.cast_natCast] at h1 h2
      refine ⟨j, List.mem_range.2 (Nat.lt_ceil.2 ?_), ?_⟩
      · rw [lt_div_iff₀ hT0]
        have : (i : ℝ) + 1 ≤ ((N - 1 : Nat) : ℝ) := by exact_mod_cast (by omega : i + 1 ≤ N - 1)
        nlinarith
      · unfold zeroIdx
        rw [Nat.floor_eq_iff (div_nonneg (by linarith) hdt.le), le_div_iff₀ hdt, div_lt_iff₀ hdt]
        exact ⟨by linarith, by nlinarith⟩
    · rintro ⟨j, hj, rfl⟩
      have hj := Nat.lt_ceil.1 (List.mem_range.1 hj)
      rw [lt_div_iff₀ hT0] at hj
      obtain ⟨a1, a2⟩ := zeroIdx_spec hdt hT0 hz j
      have hlt : zeroIdx T dt z t0 j + 1 < N := by
        have h3 : (zeroIdx T dt z t0 j : ℝ) * dt < ((N - 1 : Nat) : ℝ) * dt := by linarith
        have h4 : zeroIdx T dt z t0 j < N - 1 := by exact_mod_cast lt_of_mul_lt_mul_right h3 hdt.le
        omega
      refine ⟨hlt, (hstr _ hlt).2 ⟨j, ?_, ?_⟩⟩
      · rw [Int.cast_natCast]; exact a1
      · rw [Int.cast_natCast]; exact a2

/-- The crossing the code computes, against the true zero. -/
theorem regular_crossTime {a φ t0 : ℝ} (ha : 0 < a) (hdt : 0 < dt) (hT : 2 * dt < T) {N i : Nat} (hi : i + 1 < N) {ζ : ℝ}
    (hcos : ∀ t, Real.cos (2 * π * t / T + φ) = -Real.sin (2 * π * (t - ζ) / T)) (h1 : t0 + (i : ℝ) * dt ≤ ζ) (h2 : ζ < t0 + (i : ℝ) * dt + dt) :
    |crossTime dt (regularTime t0 dt N) (regularWave a T φ t0 dt N) i - ζ| ≤ π ^ 2 * dt ^ 3 / (4 * T ^ 2) := by
  have hT0 : 0 < T := by linarith
  have hpi := pi_pos
  unfold crossTime
  rw [regularTime_getD _ _ (by omega), regularWave_getD _ _ _ _ _ (by omega), regularWave_getD _ _ _ _ _ hi, hcos, hcos]
  set r := ζ - (t0 + (i : ℝ) * dt) with hr
  have e1 : 2 * π * (t0 + (i : ℝ) * dt - ζ) / T = -(2 * π * r / T) := by rw [hr]; ring
  have e2 : 2 * π * (t0 + ((i + 1 : Nat) : ℝ) * dt - ζ) / T = 2 * π * (dt - r) / T := by rw [hr]; push_cast; ring
  rw [e1, e2, sin_neg, neg_neg]
  set p := 2 * π * r / T with hp
  set q := 2 * π * (dt - r) / T with hq
  have hp0 : 0 ≤ p := div_nonneg (mul_nonneg (by positivity) (by linarith)) hT0.le
  have hq0 : 0 < q := div_pos (mul_pos (by positivity) (by linarith)) hT0
  have hpq : p + q = 2 * π * dt / T := by rw [hp, hq]; ring
  have hlt : p + q < π := by
    rw [hpq, div_lt_iff₀ hT0]
    nlinarith
  have key := interp_sin hp0 hq0 hlt
  have hs : 0 < sin p + sin q := by
    have a := sin_nonneg_of_nonneg_of_le_pi hp0 (by linarith)
    have b := sin_pos_of_pos_of_lt_pi hq0 (by linarith)
    linarith
  have e3 : t0 + (i : ℝ) * dt + dt * (a * sin p) / (a * sin p - a * -sin q) - ζ = dt * (sin p / (sin p + sin q) - p / (p + q)) := by
    have f1 : a * sin p - a * -sin q = a * (sin p + sin q) := by ring
    have f2 : dt * (a * sin p) / (a * (sin p + sin q)) = dt * (sin p / (sin p + sin q)) := by
      field_simp
    have f3 : dt * (p / (p + q)) = r := by
      rw [hpq, hp]
      field_simp
    rw [f1, f2, mul_sub, f3, hr]
    ring
  rw [e3, abs_mul, abs_of_pos hdt]
  calc _ ≤ dt * ((p + q) ^ 2 / 16) := mul_le_mul_of_nonneg_left key hdt.le
    _ = _ := by
      rw [hpq]
      field_simp
      ring

theorem sin_shift (hT : 0 < T) {φ : ℝ} (hcos : ∀ t, Real.cos (2 * π * t / T + φ) = -Real.sin (2 * π * (t - z) / T)) (k : Nat) :
    ∀ t, Real.cos (2 * π * t / T + φ) = -Real.sin (2 * π * (t - (z + k * T)) / T) := by
  intro t
  have := sin_period hT z t k
  rw [Int.cast_natCast] at this
  rw [this, hcos]

/-- The samples of the wave between two crossings lie between the true zeros. -/
theorem regular_window {a φ t0 : ℝ} (ha : 0 < a) (hdt : 0 < dt) (hT : 2 * dt < T) {N i i' : Nat} {ζ : ℝ}
    (hi : i ∈ crossIdx downCond (regularWave a T φ t0 dt N)) (hi' : i' ∈ crossIdx downCond (regularWave a T φ t0 dt N))
    (hcos : ∀ t, Real.cos (2 * π * t / T + φ) = -Real.sin (2 * π * (t - ζ) / T)) (h1 : t0 + (i : ℝ) * dt ≤ ζ) (h2 : ζ < t0 + (i : ℝ) * dt + dt)
    (h3 : t0 + (i' : ℝ) * dt ≤ ζ + T) (h4 : ζ + T < t0 + (i' : ℝ) * dt + dt) {j : Nat} (hj : j < N) :
    (InWave (regularTime t0 dt N) (crossTime dt (regularTime t0 dt N) (regularWave a T φ t0 dt N) i)
      (crossTime dt (regularTime t0 dt N) (regularWave a T φ t0 dt N) i') j ↔ ζ ≤ t0 + (j : ℝ) * dt ∧ t0 + (j : ℝ) * dt ≤ ζ + T) := by
  have hT0 : 0 < T := by linarith
  have hlen : (regularTime t0 dt N).length = (regularWave a T φ t0 dt N).length := by rw [regularTime_length, regularWave_length]
  have hj' : j < (regularTime t0 dt N).length := by rw [regularTime_length]; exact hj
  have w1 := (crossing_window (regular_axis hdt N) hlen hi hj').1
  have w2 := (crossing_window (regular_axis hdt N) hlen hi' hj').2
  have hiN : i < N := by
    have := (mem_crossIdx.1 hi).1
    rw [regularWave_length] at this
    omega
  unfold InWave
  rw [w1, w2]
  have hz : (regularWave a T φ t0 dt N).getD i 0 = 0 ↔ t0 + (i : ℝ) * dt = ζ := by
    rw [regularWave_getD _ _ _ _ _ hiN, hcos]
    constructor
    · intro h
      by_contra hne
      have hpos := sin_pos_half hT0 (r := ζ - (t0 + (i : ℝ) * dt)) (by
        rcases lt_or_eq_of_le h1 with c | c
        · linarith
        · exact absurd c hne) (by linarith)
      have e : 2 * π * (t0 + (i : ℝ) * dt - ζ) / T = -(2 * π * (ζ - (t0 + (i : ℝ) * dt)) / T) := by ring
      rw [e, sin_neg, neg_neg] at h
      rcases mul_eq_zero.1 h with h | h
      · exact ha.ne' h
      · exact hpos.ne' h
    · intro h
      rw [h]
      simp
  have low : (if (regularWave a T φ t0 dt N).getD i 0 = 0 then i else i + 1) ≤ j ↔ ζ ≤ t0 + (j : ℝ) * dt := by
    split_ifs with h0
    · rw [hz] at h0
      rw [← h0, add_le_add_iff_left, mul_le_mul_iff_left₀ hdt, Nat.cast_le]
    · have hne : t0 + (i : ℝ) * dt ≠ ζ := fun e => h0 (hz.2 e)
      have hlt : t0 + (i : ℝ) * dt < ζ := lt_of_le_of_ne h1 hne
      constructor
      · intro h
        have : (i : ℝ) + 1 ≤ j := by exact_mod_cast h
        nlinarith
      · intro h
        have h5 : (i : ℝ) * dt < (j : ℝ) * dt := by linarith
        have h6 : i < j := by exact_mod_cast lt_of_mul_lt_mul_right h5 hdt.le
        omega
  have high : j ≤ i' ↔ t0 + (j : ℝ) * dt ≤ ζ + T := by
    constructor
    · intro h
      have : (j : ℝ) ≤ i' := by exact_mod_cast h
      nlinarith
    · intro h
      have h5 : (j : ℝ) * dt < ((i' : ℝ) + 1) * dt := by linarith
      have h6 : (j : ℝ) < (i' : ℝ) + 1 := lt_of_mul_lt_mul_right h5 hdt.le
      have h7 : j < i' + 1 := by exact_mod_cast h6
      omega
  rw [low, high]
  exact ⟨fun h => h.2, fun h => ⟨hj', h⟩⟩

/-- There is a sample within half a time step of any moment of the record. -/
theorem nearest_sample (hdt : 0 < dt) {t0 c : ℝ} (hc : t0 ≤ c) : ∃ j : Nat, |t0 + (j : ℝ) * dt - c| ≤ dt / 2 := by
  refine ⟨⌊(c - t0) / dt + 1 / 2⌋₊, ?_⟩
  have hn : 0 ≤ (c - t0) / dt + 1 / 2 := add_nonneg (div_nonneg (by linarith) hdt.le) (by norm_num)
  have h1 := Nat.floor_le hn
  have h2 := Nat.lt_floor_add_one ((c - t0) / dt + 1 / 2)
  set m := ⌊(c - t0) / dt + 1 / 2⌋₊
  have e : (c - t0) / dt * dt = c - t0 := div_mul_cancel₀ _ hdt.ne'
  have p1 := mul_le_mul_of_nonneg_right h1 hdt.le
  have p2 := mul_lt_mul_of_pos_right h2 hdt
  rw [add_mul, e] at p1 p2
  rw [abs_le]
  constructor <;> nlinarith

theorem cos_abs_le {θ : ℝ} (hT : 0 < T) (hdt : 0 < dt) (hdT : 2 * dt < T) (h : |θ| ≤ dt / 2) : cos (π * dt / T) ≤ cos (2 * π * θ / T) := by
  have hpi := pi_pos
  rw [← cos_abs (2 * π * θ / T)]
  refine cos_le_cos_of_nonneg_of_le_pi (abs_nonneg _) ?_ ?_
  · rw [div_le_iff₀ hT]; nlinarith
  · rw [abs_div, abs_mul, abs_of_pos (by positivity : 0 < 2 * π), abs_of_pos hT]
    refine div_le_div_of_nonneg_right ?_ hT.le
    nlinarith

theorem cos_abs_le_conv {θ : ℝ} (hT : 0 < T) (hdt : 0 < dt) (hdT : 2 * dt < T) (h1 : |θ| ≤ 3 * T / 4)
    (h : cos (π * dt / T) ≤ cos (2 * π * θ / T)) : |θ| ≤ dt / 2 := by
  have hpi := pi_pos
  have hpos : 0 < cos (π * dt / T) := by
    refine cos_pos_of_mem_Ioo ⟨?_, ?_⟩
    · have : 0 < π * dt / T := by positivity
      linarith
    · rw [div_lt_iff₀ hT]; nlinarith
  rw [← cos_abs (2 * π * θ / T), abs_div, abs_mul, abs_of_pos (by positivity : 0 < 2 * π), abs_of_pos hT] at h
  by_contra hc
  push Not at hc
  by_cases hq : |θ| ≤ T / 2
  · have : cos (2 * π * |θ| / T) < cos (π * dt / T) := by
      refine cos_lt_cos_of_nonneg_of_le_pi (by positivity) ?_ ?_
      · rw [div_le_iff₀ hT]; nlinarith
      · refine div_lt_div_of_pos_right ?_ hT
        nlinarith
    linarith
  · push Not at hq
    have : cos (2 * π * |θ| / T) ≤ 0 := by
      refine cos_nonpos_of_pi_div_two_le_of_le ?_ ?_
      · rw [le_div_iff₀ hT]; nlinarith
      · rw [div_le_iff₀ hT]; nlinarith
    linarith

/-- Crest and trough of the wave between the zeros `ζ` and `ζ + T`. -/
theorem regular_extremes {a φ t0 : ℝ} (ha : 0 < a) (hdt : 0 < dt) (hT : 2 * dt < T) {N : Nat} {ζ c c' τ v : ℝ} (hζ : t0 ≤ ζ)
    (hN : ζ + T < t0 + ((N - 1 : Nat) : ℝ) * dt) (h1N : 1 ≤ N)
    (hcos : ∀ t, Real.cos (2 * π * t / T + φ) = -Real.sin (2 * π * (t - ζ) / T))
    (hw : ∀ j < N, InWave (regularTime t0 dt N) c c' j ↔ ζ ≤ t0 + (j : ℝ) * dt ∧ t0 + (j : ℝ) * dt ≤ ζ + T) :
    (FirstExtreme (· ≤ ·) (regularTime t0 dt N) (regularWave a T φ t0 dt N) c c' τ v →
      a * cos (π * dt / T) ≤ v ∧ v ≤ a ∧ |τ - (ζ + 3 * T / 4)| ≤ dt / 2) ∧
    (FirstExtreme (· ≥ ·) (regularTime t0 dt N) (regularWave a T φ t0 dt N) c c' τ v →
      -a ≤ v ∧ v ≤ -(a * cos (π * dt / T)) ∧ |τ - (ζ + T / 4)| ≤ dt / 2) := by
  have hT0 : 0 < T := by linarith
  have hpi := pi_pos
  have hin : ∀ j : Nat, t0 + (j : ℝ) * dt ≤ ζ + T → j < N := by
    intro j hj
    have h5 : (j : ℝ) * dt < ((N - 1 : Nat) : ℝ) * dt := by linarith
    have h6 : j < N - 1 := by exact_mod_cast lt_of_mul_lt_mul_right h5 hdt.le
    omega
  have crest : ∀ t, cos (2 * π * t / T + φ) = cos (2 * π * (t - (ζ + 3 * T / 4)) / T) := by
    intro t
    have e : 2 * π * (t - (ζ + 3 * T / 4)) / T = 2 * π * (t - ζ) / T + π / 2 - 2 * π := by
      field_simp
      ring
    rw [e, cos_sub_two_pi, cos_add_pi_div_two, hcos]
  have trough : ∀ t, cos (2 * π * t / T + φ) = -cos (2 * π * (t - (ζ + T / 4)) / T) := by
    intro t
    have e : 2 * π * (t - (ζ + T / 4)) / T = 2 * π * (t - ζ) / T - π / 2 := by
      field_simp
      ring
    rw [e, cos_sub_pi_div_two, hcos]
  constructor
  · rintro ⟨i, hi, e1, e2, m1, -⟩
    have hiN : i < N := by have := hi.1; rwa [regularTime_length] at this
    rw [regularTime_getD _ _ hiN] at e2
    rw [regularWave_getD _ _ _ _ _ hiN, crest] at e1
    obtain ⟨b1, b2⟩ := (hw i hiN).1 hi
    obtain ⟨j, hj⟩ := nearest_sample hdt (t0 := t0) (c := ζ + 3 * T / 4) (by linarith)
    have hj' := abs_le.1 hj
    have hjN := hin j (by linarith)
    have hm := m1 j ((hw j hjN).2 ⟨by linarith, by linarith⟩)
    rw [regularWave_getD _ _ _ _ _ hjN, crest] at hm
    have hge := cos_abs_le hT0 hdt hT hj
    have low : a * cos (π * dt / T) ≤ v := (mul_le_mul_of_nonneg_left hge ha.le).trans hm
    refine ⟨low, ?_, ?_⟩
    · rw [← e1]
      have := mul_le_mul_of_nonneg_left (cos_le_one (2 * π * (t0 + (i : ℝ) * dt - (ζ + 3 * T / 4)) / T)) ha.le
      linarith
    · rw [← e2]
      refine cos_abs_le_conv hT0 hdt hT ?_ ?_
      · rw [abs_le]; constructor <;> linarith
      · rw [← e1] at low
        exact le_of_mul_le_mul_left low ha
  · rintro ⟨i, hi, e1, e2, m1, -⟩
    have hiN : i < N := by have := hi.1; rwa [regularTime_length] at this
    rw [regularTime_getD _ _ hiN] at e2
    rw [regularWave_getD _ _ _ _ _ hiN, trough] at e1
    obtain ⟨b1, b2⟩ := (hw i hiN).1 hi
    obtain ⟨j, hj⟩ := nearest_sample hdt (t0 := t0) (c := ζ + T / 4) (by linarith)
    have hj' := abs_le.1 hj
    have hjN := hin j (by linarith)
    have hm := m1 j ((hw j hjN).2 ⟨by linarith, by linarith⟩)
    simp only [ge_iff_le] at hm
    rw [regularWave_getD _ _ _ _ _ hjN, trough] at hm
    have hge := mul_le_mul_of_nonneg_left (cos_abs_le hT0 hdt hT hj) ha.le
    have low : v ≤ -(a * cos (π * dt / T)) := by linarith
    refine ⟨?_, low, ?_⟩
    · rw [← e1]
      have := mul_le_mul_of_nonneg_left (cos_le_one (2 * π * (t0 + (i : ℝ) * dt - (ζ + T / 4)) / T)) ha.le
      linarith
    · rw [← e2]
      refine cos_abs_le_conv hT0 hdt hT ?_ ?_
      · rw [abs_le]; constructor <;> linarith
      · rw [← e1] at low
        refine le_of_mul_le_mul_left ?_ ha
        linarith

/-- **C117.**  A regular wave of amplitude `a` and period `T`, sampled more than twice per period on any time axis, is measured correctly: with `z` the
first downward zero of the continuous wave at or after the start of the record, the `k`-th crossing is within `π² dt³ / (4 T²)` of `z + k T` and there is
one for each such zero before the last sample; every wave has a period within `π² dt³ / (2 T²)` of `T`, a crest between `a cos(π dt / T)` and `a`, a
trough between `-a` and `-a cos(π dt / T)`, within half a time step of their true moments, and hence a height between `2 a cos(π dt / T)` and `2 a`. -/
theorem regular_wave {a φ t0 : ℝ} (ha : 0 < a) (hdt : 0 < dt) (hT : 2 * dt < T) {N : Nat} (hN : 2 ≤ N) :
    ∃ (z : ℝ) (s : SeriesObj ℝ) (w : IndWaves ℝ), t0 ≤ z ∧ z < t0 + T ∧ (∀ t, a * cos (2 * π * t / T + φ) = -(a * sin (2 * π * (t - z) / T))) ∧
      SeriesObj.init (vec (regularTime t0 dt N)) (vec (regularWave a T φ t0 dt N)) = .ok s ∧
      determineParamsIndividualWaves (vec s.tCross) (vec (regularTime t0 dt N)) (vec (regularWave a T φ t0 dt N)) = .ok w ∧
      s.wh = ⟨arr1 w.hWave, w.hWave.length, arr1 w.tWave⟩ ∧ w.hWave.length = s.tCross.length - 1 ∧ w.tWave.length = s.tCross.length - 1 ∧
      (∀ k : Nat, k < s.tCross.length ↔ z + k * T < t0 + ((N - 1 : Nat) : ℝ) * dt) ∧
      (∀ k < s.tCross.length, |s.tCross.getD k 0 - (z + k * T)| ≤ π ^ 2 * dt ^ 3 / (4 * T ^ 2)) ∧
      (∀ k < w.hWave.length, |w.tWave.getD k 0 - T| ≤ π ^ 2 * dt ^ 3 / (2 * T ^ 2) ∧
        2 * a * cos (π * dt / T) ≤ w.hWave.getD k 0 ∧ w.hWave.getD k 0 ≤ 2 * a ∧
        a * cos (π * dt / T) ≤ w.aCrest.getD k 0 ∧ w.aCrest.getD k 0 ≤ a ∧ |w.tCrest.getD k 0 - (z + k * T + 3 * T / 4)| ≤ dt / 2 ∧
        -a ≤ w.aTrough.getD k 0 ∧ w.aTrough.getD k 0 ≤ -(a * cos (π * dt / T)) ∧ |w.tTrough.getD k 0 - (z + k * T + T / 4)| ≤ dt / 2) := by
  have hT0 : 0 < T := by linarith
  obtain ⟨z, hz, hz', hcos⟩ := first_zero hT0 φ t0
  set t := regularTime t0 dt N with ht
  set x := regularWave a T φ t0 dt N with hx
  have htl : t.length = N := regularTime_length _ _ _
  have hxl : x.length = N := regularWave_length _ _ _ _ _ _
  have hlen : t.length = x.length := by rw [htl, hxl]
  have hu : UniformAxis t dt := regular_axis hdt N
  have ht0 : t ≠ [] := by intro e; rw [e] at htl; simp at htl; omega
  have hstep : t.getD 1 0 - t.getD 0 0 = dt := by
    have := hu.2 0 (by omega)
    rw [this]; ring
  obtain ⟨s, n, tc, w, i1, -, -, -, -, i2, i3, i4, i5, -, -⟩ := series_never_fails (isVec_vec t) (isVec_vec x) (by omega) hlen hu
  rw [determine_down_eq (isVec_vec t) (isVec_vec x) (by omega) hlen, hstep] at i2
  simp only [Except.ok.injEq, Prod.mk.injEq] at i2
  have etc := i2.2
  subst etc
  obtain ⟨recs, c1, l1, k1⟩ := individual_waves_spec (isVec_vec _) (isVec_vec t) (isVec_vec x) hlen ht0 (uniform_pairwise hu) i3
  have hidx := regular_crossIdx (φ := φ) ha hdt hT hN hz hz' hcos
  rw [← hx] at hidx
  set M := ⌈(t0 + ((N - 1 : Nat) : ℝ) * dt - z) / T⌉₊ with hM
  have hlM : (crossIdx downCond x).length = M := by rw [hidx, List.length_map, List.length_range]
  have hlt : ∀ k : Nat, k < M ↔ z + k * T < t0 + ((N - 1 : Nat) : ℝ) * dt := by
    intro k
    rw [hM, Nat.lt_ceil, lt_div_iff₀ hT0]
    constructor <;> intro h <;> linarith
  have hmem : ∀ k, k < M → zeroIdx T dt z t0 k ∈ crossIdx downCond x := by
    intro k hk
    rw [hidx]
    exact List.mem_map.2 ⟨k, List.mem_range.2 hk, rfl⟩
  have hcr : ∀ k, k < M → ((crossIdx downCond x).map (crossTime dt t x))[k]? = some (crossTime dt t x (zeroIdx T dt z t0 k)) := by
    intro k hk
    rw [hidx, List.getElem?_map, List.getElem?_map, List.getElem?_range hk]
    rfl
  have hct : ∀ k, k < M → |crossTime dt t x (zeroIdx T dt z t0 k) - (z + k * T)| ≤ π ^ 2 * dt ^ 3 / (4 * T ^ 2) := by
    intro k hk
    obtain ⟨z1, z2⟩ := zeroIdx_spec hdt hT0 hz k
    have hm := (mem_crossIdx.1 (hmem k hk)).1
    rw [hxl] at hm
    exact regular_crossTime ha hdt hT hm (sin_shift hT0 hcos k) z1 z2
  have htM : s.tCross.length = M := by rw [i4, List.length_map, hlM]
  rw [List.length_map, hlM] at l1
  have lw : w.hWave.length = recs.length := by rw [c1.1, List.length_map]
  have lt : w.tWave.length = recs.length := by rw [c1.2.1, List.length_map]
  refine ⟨z, s, w, hz, hz', fun t => by rw [hcos]; ring, i1, by rw [i4]; exact i3, i5, by rw [lw, l1, htM], by rw [lt, l1, htM], ?_, ?_, ?_⟩
  · intro k
    rw [htM, hlt]
  · intro k hk
    rw [htM] at hk
    rw [i4, getD_of_some (hcr k hk)]
    exact hct k hk
  · intro k hk
    rw [lw] at hk
    obtain ⟨c, c', ec, ec', hW⟩ := k1 k _ (List.getElem?_eq_getElem hk)
    have hk0 : k < M := by omega
    have hk1 : k + 1 < M := by omega
    rw [hcr k hk0, Option.some.injEq] at ec
    rw [hcr (k + 1) hk1, Option.some.injEq] at ec'
    subst ec ec'
    have b0 := abs_le.1 (hct k hk0)
    have b1 := abs_le.1 (hct (k + 1) hk1)
    have hζ' : z + ((k + 1 : Nat) : ℝ) * T = z + k * T + T := by push_cast; ring
    rw [hζ'] at b1
    obtain ⟨z1, z2⟩ := zeroIdx_spec hdt hT0 hz k
    obtain ⟨z3, z4⟩ := zeroIdx_spec hdt hT0 hz (k + 1)
    rw [hζ'] at z3 z4
    have hkT : 0 ≤ (k : ℝ) * T := by positivity
    have hend := (hlt (k + 1)).1 hk1
    rw [hζ'] at hend
    have hwin : ∀ j < N, InWave t (crossTime dt t x (zeroIdx T dt z t0 k)) (crossTime dt t x (zeroIdx T dt z t0 (k + 1))) j ↔
        z + k * T ≤ t0 + (j : ℝ) * dt ∧ t0 + (j : ℝ) * dt ≤ z + k * T + T := fun j hj =>
      regular_window ha hdt hT (hmem k hk0) (hmem (k + 1) hk1) (sin_shift hT0 hcos k) z1 z2 z3 z4 hj
    obtain ⟨q1, q2, q3⟩ := (regular_extremes ha hdt hT (by linarith) hend (by omega) (sin_shift hT0 hcos k) hwin).1 hW.crest
    obtain ⟨r1, r2, r3⟩ := (regular_extremes ha hdt hT (by linarith) hend (by omega) (sin_shift hT0 hcos k) hwin).2 hW.trough
    have g : ∀ (f : WaveRec ℝ → ℝ), (recs.map f).getD k 0 = f recs[k] := by
      intro f
      rw [List.getD_eq_getElem _ _ (by simpa using hk), List.getElem_map]
    have e4 : π ^ 2 * dt ^ 3 / (2 * T ^ 2) = 2 * (π ^ 2 * dt ^ 3 / (4 * T ^ 2)) := by field_simp; ring
    rw [c1.1, c1.2.1, c1.2.2.1, c1.2.2.2.1, c1.2.2.2.2.1, c1.2.2.2.2.2, g, g, g, g, g, g, hW.height, hW.period, e4]
    refine ⟨?_, by linarith, by linarith, q1, q2, q3, r1, r2, r3⟩
    rw [abs_le]
    constructor <;> linarith

theorem mean_between {l : List ℝ} {lo hi : ℝ} (hne : l ≠ []) (h : ∀ v ∈ l, lo ≤ v ∧ v ≤ hi) : lo ≤ mean l ∧ mean l ≤ hi := by
  have hn : (0 : ℝ) < l.length := by exact_mod_cast List.length_pos_of_ne_nil hne
  have key : ∀ l : List ℝ, (∀ v ∈ l, lo ≤ v ∧ v ≤ hi) → lo * l.length ≤ l.sum ∧ l.sum ≤ hi * l.length := by
    intro l
    induction l with
    | nil => intro _; simp
    | cons a l ih =>
      intro h
      obtain ⟨i1, i2⟩ := ih fun v hv => h v (List.mem_cons_of_mem _ hv)
      obtain ⟨j1, j2⟩ := h a (by simp)
      rw [List.sum_cons, List.length_cons]
      push_cast
      constructor <;> linarith
  obtain ⟨k1, k2⟩ := key l h
  unfold mean
  exact ⟨(le_div_iff₀ hn).2 k1, (div_le_iff₀ hn).2 k2⟩

/-- **C117 (statistics).**  If the record holds at least one wave, then after any sequence of calls Hmax, Hrms, the mean height of the highest fraction
and the exceeded height (if at least one wave is asked for) all lie between `2 a cos(π dt / T)` and `2 a`. -/
theorem regular_statistics (A : Argsort ℝ) (ops : List (WHOp ℝ)) {a φ t0 : ℝ} (ha : 0 < a) (hdt : 0 < dt) (hT : 2 * dt < T) {N : Nat} (hN : 2 ≤ N)
    {p q : ℝ} (p0 : 0 ≤ p) (p1 : p ≤ 1) (q0 : 0 ≤ q) (q1 : q ≤ 100) :
    ∃ s : SeriesObj ℝ, SeriesObj.init (vec (regularTime t0 dt N)) (vec (regularWave a T φ t0 dt N)) = .ok s ∧
      (2 * T ≤ ((N - 1 : Nat) : ℝ) * dt → 0 < s.wh.nwave) ∧
      (0 < s.wh.nwave → ∃ m g r e, (s.wh.run A ops).getHmax.1 = .ok m ∧ (s.wh.run A ops).getHrms = .ok g ∧
        ((s.wh.run A ops).highestWaves A p).1 = .ok r ∧ ((s.wh.run A ops).getExceedance A q).1 = .ok e ∧
        (2 * a * cos (π * dt / T) ≤ m ∧ m ≤ 2 * a) ∧ (2 * a * cos (π * dt / T) ≤ g ∧ g ≤ 2 * a) ∧
        (1 ≤ (s.wh.nwave : ℝ) * p → 2 * a * cos (π * dt / T) ≤ r.1 ∧ r.1 ≤ 2 * a) ∧
        (1 ≤ (s.wh.nwave : ℝ) * q / 100 → 2 * a * cos (π * dt / T) ≤ e ∧ e ≤ 2 * a)) := by
  have hT0 : 0 < T := by linarith
  have hpi := pi_pos
  obtain ⟨z, s, w, hz, hz', -, i1, -, i3, i4, i5, i6, -, i8⟩ := regular_wave (φ := φ) (t0 := t0) ha hdt hT hN
  refine ⟨s, i1, fun hlong => ?_, fun hpos => ?_⟩
  · rw [i3, i4]
    have := (i6 1).2 (by push_cast; linarith)
    dsimp only
    omega
  have hw0 : w.hWave ≠ [] := by
    rintro e
    rw [i3, e] at hpos
    simp at hpos
  set lo := 2 * a * cos (π * dt / T) with hlo
  have hlopos : 0 ≤ lo := by
    have : 0 < cos (π * dt / T) := by
      refine cos_pos_of_mem_Ioo ⟨?_, ?_⟩
      · have : 0 < π * dt / T := by positivity
        linarith
      · rw [div_lt_iff₀ hT0]; nlinarith
    rw [hlo]; positivity
  have hb : ∀ v ∈ w.hWave, lo ≤ v ∧ v ≤ 2 * a := by
    intro v hv
    obtain ⟨k, hk, rfl⟩ := List.mem_iff_getElem.1 hv
    have := i8 k hk
    rw [List.getD_eq_getElem _ _ hk] at this
    exact ⟨this.2.1, this.2.2.1⟩
  obtain ⟨hs, hp, hd⟩ := exists_desc w.hWave
  have hb' : ∀ v ∈ hs, lo ≤ v ∧ v ≤ 2 * a := fun v hv => hb v (hp.mem_iff.1 hv)
  obtain ⟨s', τ, a1, a2, a3, a4⟩ := object_stats A ops hw0 (t := w.tWave) (by rw [i4, i5]) hp hd p0 p1 q0 q1
  rw [WH_init_vec] at a1
  have a1 := (Except.ok.inj a1).symm
  subst a1
  have hn : 0 < w.hWave.length := List.length_pos_of_ne_nil hw0
  have hget : ∀ k, k < w.hWave.length → lo ≤ hs.getD k 0 ∧ hs.getD k 0 ≤ 2 * a := by
    intro k hk
    have : k < hs.length := by rw [hp.length_eq]; exact hk
    rw [List.getD_eq_getElem _ _ this]
    exact hb' _ (List.getElem_mem this)
  have hrms : (⟨arr1 w.hWave, w.hWave.length, arr1 w.tWave⟩ : WH ℝ).getHrms = .ok (Real.sqrt (mean (w.hWave.map (· ^ 2)))) := by
    unfold WH.getHrms
    exact if_neg hw0
  have wf : (⟨arr1 w.hWave, w.hWave.length, arr1 w.tWave⟩ : WH ℝ).WF := ⟨by simp [Arr.WF, arr1], by simp [Arr.WF, arr1]⟩
  rw [i3]
  refine ⟨_, _, _, _, a2, (hrms_h2p_history_independent A ops wf).1.trans hrms, a3, a4, hget 0 hn, ?_, fun h1 => ?_, fun h1 => ?_⟩
  · have := mean_between (l := w.hWave.map (· ^ 2)) (lo := lo ^ 2) (hi := (2 * a) ^ 2) (by simpa using hw0) (by
      intro v hv
      obtain ⟨u, hu, rfl⟩ := List.mem_map.1 hv
      obtain ⟨u1, u2⟩ := hb u hu
      exact ⟨pow_le_pow_left₀ hlopos u1 2, pow_le_pow_left₀ (hlopos.trans u1) u2 2⟩)
    exact ⟨Real.le_sqrt_of_sq_le this.1, (Real.sqrt_le_left (by positivity)).2 this.2⟩
  · have hfl : 1 ≤ ⌊(w.hWave.length : ℝ) * p⌋ := Int.le_floor.2 (by exact_mod_cast h1)
    dsimp only
    rw [if_neg (by omega)]
    refine mean_between ?_ fun v hv => hb' v (List.mem_of_mem_take hv)
    intro e
    have := congrArg List.length e
    rw [List.length_take, hp.length_eq] at this
    simp only [List.length_nil] at this
    omega
  · have hfl : 1 ≤ ⌊(w.hWave.length : ℝ) * q / 100⌋ := Int.le_floor.2 (by exact_mod_cast h1)
    rw [if_neg (by omega)]
    refine hget _ ?_
    have : ⌊(w.hWave.length : ℝ) * q / 100⌋ ≤ (w.hWave.length : ℤ) := by
      have h3 : (⌊(w.hWave.length : ℝ) * q / 100⌋ : ℝ) ≤ (w.hWave.length : ℝ) := (Int.floor_le _).trans (by
        rw [div_le_iff₀ (by norm_num)]
        exact mul_le_mul_of_nonneg_left q1 (by positivity))
      exact_mod_cast h3
    omega

/-- A record of ten periods of a wave of one metre amplitude, twenty samples per period, holds waves: their heights are at least 1.96 m. -/
example (A : Argsort ℝ) : ∃ s m, SeriesObj.init (vec (regularTime 0 (1 / 2) 201)) (vec (regularWave 1 10 0 0 (1 / 2) 201)) = .ok s ∧
    s.wh.getHmax.1 = .ok m ∧ 1.96 ≤ m ∧ m ≤ 2 := by
  obtain ⟨s, h1, h2, h3⟩ := regular_statistics A [] (a := 1) (φ := 0) (t0 := 0) (dt := 1 / 2) (T := 10) one_pos (by norm_num) (by norm_num)
    (N := 201) (by norm_num) (p := 1) (q := 1) (by norm_num) (le_refl _) (by norm_num) (by norm_num)
  obtain ⟨m, g, r, e, k1, -, -, -, k2, -⟩ := h3 (h2 (by norm_num))
  refine ⟨s, m, h1, k1, ?_, by linarith [k2.2]⟩
  have hpi := pi_lt_d2
  have hpi0 := pi_pos
  have c := one_sub_sq_div_two_le_cos (x := π * (1 / 2) / 10)
  have : (π * (1 / 2) / 10) ^ 2 ≤ (0.16 : ℝ) ^ 2 := pow_le_pow_left₀ (by positivity) (by linarith) 2
  have := k2.1
  norm_num at *
  linarith

end Core

/-! ## Concrete cases: the hypotheses of the theorems above are met -/

example := interp_sin (p := 1) (q := 1 / 2) (by norm_num) (by norm_num) (by have := pi_gt_three; linarith)
example := straddle (dt := 1 / 2) (T := 10) (by norm_num) (by norm_num) 3 0
/-- A wave of period 10 s sampled every half second, with its first downward zero at 2.5 s. -/
example := regular_crossIdx (a := 1) (φ := 0) (t0 := 0) (dt := 1 / 2) (T := 10) (z := 5 / 2) (by norm_num) (by norm_num) (by norm_num) (N := 201) (by norm_num) (by norm_num) (by norm_num)
  (fun t => by rw [← Real.sin_neg, ← Real.sin_pi_div_two_sub]; congr 1; ring)
example := regular_wave (a := 1) (φ := 0) (t0 := 0) (dt := 1 / 2) (T := 10) (by norm_num) (by norm_num) (by norm_num) (N := 201) (by norm_num)

end Verif
