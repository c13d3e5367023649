import Verif.Model.Float64
import Verif.Props.Averaging
import Verif.Props.Highest
import Verif.Props.WaveHeights

/-! # C113: the number of waves in double precision

Specification: a double is `m * 2 ^ e` with `|m| ≤ 2 ^ 53` and `-1074 ≤ e` (no overflow).  `f64_nearest` states that `f64` rounds to a nearest
double, and `f64_double` that the result is one. -/

namespace Verif

/-- The finite binary64 numbers (without the bound for overflow). -/
def IsDouble (x : ℚ) : Prop := ∃ m e : ℤ, |m| ≤ 2 ^ 53 ∧ -1074 ≤ e ∧ x = m * 2 ^ e

/-- exponent of the last place -/
def ulpExp (x : ℚ) : ℤ := max (Int.log 2 |x| - 52) (-1074)

theorem f64_def {x : ℚ} (h : x ≠ 0) : f64 x = (roundHalfEven (x / 2 ^ ulpExp x) : ℚ) * 2 ^ ulpExp x := by
  unfold f64 ulpExp
  rw [if_neg h]

theorem f64_zero : f64 0 = 0 := by unfold f64; exact if_pos rfl

theorem log_bounds {x : ℚ} (h : x ≠ 0) : (2 : ℚ) ^ Int.log 2 |x| ≤ |x| ∧ |x| < 2 ^ (Int.log 2 |x| + 1) := by
  have hp : 0 < |x| := abs_pos.2 h
  exact ⟨by exact_mod_cast Int.zpow_log_le_self (R := ℚ) (b := 2) (by norm_num) hp,
    by exact_mod_cast Int.lt_zpow_succ_log_self (R := ℚ) (b := 2) (by norm_num) |x|⟩

theorem abs_lt_ulp {x : ℚ} (h : x ≠ 0) : |x / 2 ^ ulpExp x| < 2 ^ (53 : ℤ) := by
  have hq : (0 : ℚ) < 2 ^ ulpExp x := by positivity
  rw [abs_div, abs_of_pos hq, div_lt_iff₀ hq, ← zpow_add₀ (by norm_num)]
  refine lt_of_lt_of_le (log_bounds h).2 (zpow_le_zpow_right₀ (by norm_num) ?_)
  unfold ulpExp
  have := le_max_left (Int.log 2 |x| - 52) (-1074)
  omega

theorem f64_double (x : ℚ) : IsDouble (f64 x) := by
  by_cases h : x = 0
  · subst h; exact ⟨0, 0, by norm_num, by norm_num, by rw [f64_zero]; simp⟩
  · refine ⟨roundHalfEven (x / 2 ^ ulpExp x), ulpExp x, ?_, le_max_right _ _, f64_def h⟩
    have h1 := abs_lt_ulp h
    obtain ⟨r, -⟩ := roundHalfEven_spec (x / 2 ^ ulpExp x)
    set n := roundHalfEven (x / 2 ^ ulpExp x)
    have h2 : |(n : ℚ)| < 2 ^ 53 + 1 := by
      have := abs_sub_abs_le_abs_sub (n : ℚ) (x / 2 ^ ulpExp x)
      have e : ((2 : ℚ) ^ (53 : ℤ)) = 2 ^ 53 := by norm_cast
      rw [e] at h1
      linarith
    have h3 : |n| < 2 ^ 53 + 1 := by exact_mod_cast h2
    omega

/-- **C113 (rounding).**  No double is nearer to `x` than `f64 x`. -/
theorem f64_nearest (x : ℚ) {y : ℚ} (hy : IsDouble y) : |f64 x - x| ≤ |y - x| := by
  by_cases h : x = 0
  · subst h; rw [f64_zero]; simp
  have hq : (0 : ℚ) < 2 ^ ulpExp x := by positivity
  -- the claim for multiples of the unit in the last place
  have key : ∀ k : ℤ, |f64 x - x| ≤ |(k : ℚ) * 2 ^ ulpExp x - x| := by
    intro k
    obtain ⟨r, -⟩ := roundHalfEven_spec (x / 2 ^ ulpExp x)
    rw [f64_def h]
    set n := roundHalfEven (x / 2 ^ ulpExp x) with hn
    have ex : x = x / 2 ^ ulpExp x * 2 ^ ulpExp x := by field_simp
    set z := x / 2 ^ ulpExp x with hz
    have e : ∀ a : ℚ, |a * 2 ^ ulpExp x - x| = |a - z| * 2 ^ ulpExp x := by
      intro a
      conv_lhs => rw [show a * 2 ^ ulpExp x - x = (a - z) * 2 ^ ulpExp x by rw [sub_mul, ← ex]]
      rw [abs_mul, abs_of_pos hq]
    rw [e, e]
    refine mul_le_mul_of_nonneg_right ?_ hq.le
    by_cases hk : k = n
    · rw [hk]
    · have h1 : (1 : ℚ) ≤ |(k : ℚ) - n| := by
        have : (1 : ℤ) ≤ |k - n| := Int.one_le_abs (sub_ne_zero.2 hk)
        exact_mod_cast this
      have h2 : |(k : ℚ) - n| ≤ |(k : ℚ) - z| + |(n : ℚ) - z| := by
        have := abs_sub_le (k : ℚ) z n
        rwa [abs_sub_comm z (n : ℚ)] at this
      linarith
  obtain ⟨m, e, hm, he, rfl⟩ := hy
  by_cases hee : ulpExp x ≤ e
  · obtain ⟨j, hj⟩ := Int.eq_ofNat_of_zero_le (sub_nonneg.2 hee)
    have : (m : ℚ) * 2 ^ e = ((m * 2 ^ j : ℤ) : ℚ) * 2 ^ ulpExp x := by
      push_cast
      rw [mul_assoc]
      congr 1
      rw [← zpow_natCast, ← zpow_add₀ (by norm_num)]
      congr 1; omega
    rw [this]
    exact key _
  · -- a smaller number: the power of two below `|x|` lies between
    have hE : ulpExp x = Int.log 2 |x| - 52 := by
      unfold ulpExp at hee ⊢
      rcases max_choice (Int.log 2 |x| - 52) (-1074) with h' | h' <;> rw [h'] at hee ⊢
      omega
    obtain ⟨b1, -⟩ := log_bounds h
    have hsmall : |(m : ℚ) * 2 ^ e| ≤ 2 ^ Int.log 2 |x| := by
      rw [abs_mul, abs_of_pos (show (0 : ℚ) < 2 ^ e by positivity)]
      have : |(m : ℚ)| ≤ 2 ^ (53 : ℤ) := by exact_mod_cast hm
      calc _ ≤ (2 : ℚ) ^ (53 : ℤ) * 2 ^ e := mul_le_mul_of_nonneg_right this (by positivity)
        _ = 2 ^ (53 + e) := by rw [← zpow_add₀ (by norm_num)]
        _ ≤ _ := zpow_le_zpow_right₀ (by norm_num) (by omega)
    have e52 : (2 : ℚ) ^ Int.log 2 |x| = (2 ^ 52 : ℤ) * 2 ^ ulpExp x := by
      rw [hE, show (((2 ^ 52 : ℤ)) : ℚ) = 2 ^ (52 : ℤ) by norm_cast, ← zpow_add₀ (by norm_num)]
      congr 1; ring
    set P := (2 : ℚ) ^ Int.log 2 |x| with hP
    rcases le_total 0 x with hx | hx
    · have k1 := key (2 ^ 52)
      rw [← e52] at k1
      rw [abs_of_nonneg hx] at b1
      refine k1.trans ?_
      have := (abs_le.1 hsmall).2
      rw [abs_of_nonpos (by linarith), abs_of_nonpos (by linarith)]
      linarith
    · have k1 := key (-2 ^ 52)
      rw [show (((-2 ^ 52 : ℤ)) : ℚ) * 2 ^ ulpExp x = -P by rw [e52]; push_cast; ring] at k1
      rw [abs_of_nonpos hx] at b1
      refine k1.trans ?_
      have := (abs_le.1 hsmall).1
      rw [abs_of_nonneg (by linarith), abs_of_nonneg (by linarith)]
      linarith

/-- Doubles are not changed by rounding. -/
theorem f64_of_double {x : ℚ} (h : IsDouble x) : f64 x = x := by
  have := f64_nearest x h
  rw [sub_self, abs_zero] at this
  exact sub_eq_zero.1 (abs_eq_zero.1 (le_antisymm this (abs_nonneg _)))

theorem isDouble_nat {n : ℕ} (h : n ≤ 2 ^ 53) : IsDouble n :=
  ⟨n, 0, by rw [abs_of_nonneg (by positivity)]; exact_mod_cast h, by norm_num, by simp⟩

/-- Rounding does not move a number past a double. -/
theorem f64_mono_double {x y : ℚ} (hy : IsDouble y) : (y ≤ x → y ≤ f64 x) ∧ (x ≤ y → f64 x ≤ y) := by
  have h := f64_nearest x hy
  constructor <;> intro hxy
  · rw [abs_of_nonpos (by linarith : y - x ≤ 0)] at h
    have := (abs_le.1 h).1
    linarith
  · rw [abs_of_nonneg (by linarith : 0 ≤ y - x)] at h
    have := (abs_le.1 h).2
    linarith

/-- Relative error of rounding, away from underflow. -/
theorem f64_error {x : ℚ} (h : 1 / 2 ^ 200 ≤ |x|) : |f64 x - x| ≤ |x| / 2 ^ 53 := by
  have h0 : x ≠ 0 := by
    rintro rfl
    have : (0 : ℚ) < 1 / 2 ^ 200 := by positivity
    rw [abs_zero] at h
    exact absurd h (not_le.2 this)
  have hq : (0 : ℚ) < 2 ^ ulpExp x := by positivity
  obtain ⟨b1, b2⟩ := log_bounds h0
  have hE : ulpExp x = Int.log 2 |x| - 52 := by
    unfold ulpExp
    apply max_eq_left
    have : (2 : ℚ) ^ (-200 : ℤ) < 2 ^ (Int.log 2 |x| + 1) := by
      refine lt_of_le_of_lt ?_ b2
      refine le_trans (le_of_eq ?_) h
      rw [zpow_neg, one_div]; norm_cast
    have := (zpow_lt_zpow_iff_right₀ (by norm_num : (1 : ℚ) < 2)).1 this
    omega
  obtain ⟨r, -⟩ := roundHalfEven_spec (x / 2 ^ ulpExp x)
  rw [f64_def h0]
  set n := roundHalfEven (x / 2 ^ ulpExp x)
  have ex : x = x / 2 ^ ulpExp x * 2 ^ ulpExp x := by field_simp
  have e : |(n : ℚ) * 2 ^ ulpExp x - x| = |(n : ℚ) - x / 2 ^ ulpExp x| * 2 ^ ulpExp x := by
    conv_lhs => rw [ex, ← ex]
    rw [show (n : ℚ) * 2 ^ ulpExp x - x = ((n : ℚ) - x / 2 ^ ulpExp x) * 2 ^ ulpExp x by rw [sub_mul, ← ex], abs_mul, abs_of_pos hq]
  rw [e]
  have e52 : (2 : ℚ) ^ Int.log 2 |x| = 2 ^ 52 * 2 ^ ulpExp x := by
    rw [hE, show (2 : ℚ) ^ 52 = 2 ^ (52 : ℤ) by norm_cast, ← zpow_add₀ (by norm_num)]
    congr 1; ring
  rw [e52] at b1
  rw [le_div_iff₀ (by positivity)]
  calc _ ≤ (1 / 2 : ℚ) * 2 ^ ulpExp x * 2 ^ 53 := by
        refine mul_le_mul_of_nonneg_right (mul_le_mul_of_nonneg_right r hq.le) (by positivity)
    _ = (2 : ℚ) ^ 52 * 2 ^ ulpExp x := by ring
    _ ≤ _ := b1

/-- **C113 (quotients).**  The integer part of the rounded quotient of two integers is the quotient of the integers. -/
theorem floor_f64_div {a b : ℕ} (ha : a < 2 ^ 53) (hb : 0 < b) (hb' : b < 2 ^ 53) : ⌊f64 ((a : ℚ) / (b : ℚ))⌋ = ((a / b : ℕ) : ℤ) := by
  have hbq : (0 : ℚ) < b := by exact_mod_cast hb
  rcases Nat.eq_zero_or_pos a with rfl | hap
  · simp [f64_zero]
  have haq : (1 : ℚ) ≤ a := by exact_mod_cast hap
  rw [Int.floor_eq_iff]
  have hk : ((a / b : ℕ) : ℚ) ≤ (a : ℚ) / b := by
    rw [le_div_iff₀ hbq]
    exact_mod_cast Nat.div_mul_le_self a b
  constructor
  · have := (f64_mono_double (x := (a : ℚ) / b) (isDouble_nat (n := a / b) (by have := Nat.div_le_self a b; omega))).1 hk
    exact_mod_cast this
  · have hx0 : 0 < (a : ℚ) / b := by positivity
    have herr := f64_error (x := (a : ℚ) / b) (by
      rw [abs_of_pos hx0, div_le_div_iff₀ (by positivity) hbq, one_mul]
      have h1 : (b : ℚ) < 2 ^ 53 := by exact_mod_cast hb'
      have h2 : (2 : ℚ) ^ 53 ≤ 2 ^ 200 := pow_le_pow_right₀ (by norm_num) (by norm_num)
      have h3 : (2 : ℚ) ^ 200 ≤ a * 2 ^ 200 := le_mul_of_one_le_left (by positivity) haq
      linarith)
    rw [abs_of_pos hx0] at herr
    have h1 := (abs_le.1 herr).2
    have h2 : (a : ℚ) / b ≤ ((a / b : ℕ) : ℚ) + 1 - 1 / b := by
      rw [div_le_iff₀ hbq, sub_mul, div_mul_cancel₀ _ hbq.ne']
      have : a + 1 ≤ (a / b + 1) * b := by
        have := Nat.lt_div_mul_add hb (a := a)
        rw [Nat.add_mul, Nat.one_mul]; omega
      have h : ((a + 1 : ℕ) : ℚ) ≤ (((a / b + 1) * b : ℕ) : ℚ) := by exact_mod_cast this
      push_cast at h
      linarith
    have h3 : (a : ℚ) / b / 2 ^ 53 < 1 / b := by
      rw [div_div, div_lt_div_iff₀ (by positivity) hbq]
      have : (a : ℚ) < 2 ^ 53 := by exact_mod_cast ha
      nlinarith
    rw [Int.cast_natCast]
    linarith

theorem log_eq {x : ℚ} {E : ℤ} (h1 : (2 : ℚ) ^ E ≤ |x|) (h2 : |x| < 2 ^ (E + 1)) : Int.log 2 |x| = E := by
  have h0 : x ≠ 0 := by
    rintro rfl
    rw [abs_zero] at h1
    exact absurd h1 (not_le.2 (by positivity))
  obtain ⟨b1, b2⟩ := log_bounds h0
  have a1 := (zpow_lt_zpow_iff_right₀ (by norm_num : (1 : ℚ) < 2)).1 (lt_of_le_of_lt h1 b2)
  have a2 := (zpow_lt_zpow_iff_right₀ (by norm_num : (1 : ℚ) < 2)).1 (lt_of_le_of_lt b1 h2)
  omega

/-- `f64` from a rounded significand. -/
theorem f64_eq {x : ℚ} {E M : ℤ} (h1 : (2 : ℚ) ^ E ≤ |x|) (h2 : |x| < 2 ^ (E + 1)) (hE : -1022 ≤ E)
    (hM : IsRounded M (x / 2 ^ (E - 52))) : f64 x = M * 2 ^ (E - 52) := by
  have h0 : x ≠ 0 := by
    rintro rfl
    rw [abs_zero] at h1
    exact absurd h1 (not_le.2 (by positivity))
  have hu : ulpExp x = E - 52 := by
    unfold ulpExp
    rw [log_eq h1 h2]
    exact max_eq_left (by omega)
  rw [f64_def h0, hu, isRounded_unique (roundHalfEven_spec (x / 2 ^ (E - 52))) hM]

theorem f64_third : f64 (1 / 3) = (1 - 1 / 2 ^ 54) / 3 := by
  rw [f64_eq (E := -2) (M := 6004799503160661) (by rw [abs_of_pos] <;> norm_num) (by rw [abs_of_pos] <;> norm_num) (by norm_num)]
  · norm_num
  · refine ⟨by rw [abs_le]; constructor <;> norm_num, fun h => ?_⟩
    norm_num [abs_of_neg, abs_of_pos] at h

/-- **C113 (a third).**  In double precision `n * (1 / 3)` has integer part `n / 3`, for every number of waves. -/
theorem third_count {n : ℕ} (hn : n < 2 ^ 53) : nWavePF64 n (f64 (1 / 3)) = ((n / 3 : ℕ) : ℤ) := by
  unfold nWavePF64
  rw [f64_third]
  set k := n / 3 with hk
  have hkn : 3 * k ≤ n ∧ n ≤ 3 * k + 2 := by omega
  by_cases hr : n = 3 * k
  · -- the product lies a fraction `2 ^ -54` below the integer `k` and is rounded to it
    rcases Nat.eq_zero_or_pos k with h0 | hkp
    · rw [hr, h0]; simp [f64_zero]
    have hx : ((n : ℕ) : ℚ) * ((1 - 1 / 2 ^ 54) / 3) = k * (1 - 1 / 2 ^ 54) := by
      rw [hr]; push_cast; ring
    rw [hx]
    have key : f64 ((k : ℚ) * (1 - 1 / 2 ^ 54)) = k := by
      set j := Nat.log 2 k with hj
      have j1 : 2 ^ j ≤ k := Nat.pow_log_le_self 2 (by omega)
      have j2 : k < 2 ^ (j + 1) := Nat.lt_pow_succ_log_self (by norm_num) k
      have hj53 : j < 53 := (Nat.pow_lt_pow_iff_right (a := 2) (by norm_num)).1 (by omega)
      have q1 : ((2 : ℚ) ^ j) ≤ k := by exact_mod_cast j1
      have q2 : (k : ℚ) < 2 ^ (j + 1) := by exact_mod_cast j2
      have hpos : 0 < (k : ℚ) * (1 - 1 / 2 ^ 54) := by
        have : (0 : ℚ) < k := by exact_mod_cast hkp
        have h2 : (0 : ℚ) < 1 - 1 / 2 ^ 54 := by norm_num
        positivity
      obtain ⟨i, hi⟩ : ∃ i, j + i = 52 := ⟨52 - j, by omega⟩
      have e1 : (2 : ℚ) ^ ((j : ℤ) - 52) = 1 / 2 ^ i := by
        rw [show (j : ℤ) - 52 = -(i : ℤ) by omega, zpow_neg, zpow_natCast, one_div]
      have e2 : (2 : ℚ) ^ 52 = 2 ^ j * 2 ^ i := by rw [← pow_add, hi]
      have hi0 : (0 : ℚ) < 2 ^ i := by positivity
      rcases eq_or_lt_of_le j1 with hp | hp
      · have qk : (k : ℚ) = 2 ^ j := by rw [← hp]; push_cast; rfl
        have e3 : (2 : ℚ) ^ (((j : ℤ) - 1) - 52) = 1 / (2 * 2 ^ i) := by
          rw [show ((j : ℤ) - 1) - 52 = -((i + 1 : ℕ) : ℤ) by push_cast; omega, zpow_neg, zpow_natCast, one_div, pow_succ']
        have e4 : (2 : ℚ) ^ ((j : ℤ) - 1) = 2 ^ j / 2 := by rw [zpow_sub₀ (by norm_num), zpow_natCast, zpow_one]
        rw [f64_eq (E := (j : ℤ) - 1) (M := 2 ^ 53)]
        · rw [e3]
          push_cast
          rw [qk]
          field_simp
          rw [show (9007199254740992 : ℚ) = 2 * 2 ^ 52 by norm_num, e2]; ring
        · rw [abs_of_pos hpos, e4, qk]
          nlinarith [show (0 : ℚ) < 2 ^ j by positivity]
        · rw [abs_of_pos hpos, sub_add_cancel, zpow_natCast, qk]
          nlinarith [show (0 : ℚ) < 2 ^ j by positivity]
        · omega
        · have : (k : ℚ) * (1 - 1 / 2 ^ 54) / 2 ^ ((j : ℤ) - 1 - 52) = 2 ^ 53 - 1 / 2 := by
            rw [e3, qk, div_div_eq_mul_div, div_one]
            calc (2 : ℚ) ^ j * (1 - 1 / 2 ^ 54) * (2 * 2 ^ i) = (2 ^ j * 2 ^ i) * (2 * (1 - 1 / 2 ^ 54)) := by ring
              _ = _ := by rw [← e2]; norm_num
          rw [this]
          refine ⟨by push_cast; norm_num [abs_of_pos], fun _ => by norm_num⟩
      · have hk1 : (2 : ℚ) ^ j + 1 ≤ k := by exact_mod_cast hp
        have hk53 : (k : ℚ) < 2 ^ 53 := lt_of_lt_of_le q2 (pow_le_pow_right₀ (by norm_num) (by omega))
        rw [f64_eq (E := (j : ℤ)) (M := (k * 2 ^ i : ℕ))]
        · rw [e1]
          push_cast
          field_simp
        · rw [abs_of_pos hpos, zpow_natCast]
          linarith
        · rw [abs_of_pos hpos, show (j : ℤ) + 1 = ((j + 1 : ℕ) : ℤ) by push_cast; rfl, zpow_natCast]
          refine lt_of_le_of_lt ?_ q2
          have : (0 : ℚ) < k := by exact_mod_cast hkp
          linarith
        · omega
        · have hz : (k : ℚ) * (1 - 1 / 2 ^ 54) / 2 ^ ((j : ℤ) - 52) = ((k * 2 ^ i : ℕ) : ℤ) - k * 2 ^ i / 2 ^ 54 := by
            rw [e1, div_div_eq_mul_div, div_one]; push_cast; ring
          have hlt : (k : ℚ) * 2 ^ i / 2 ^ 54 < 1 / 2 := by
            rw [div_lt_iff₀ (by positivity)]
            calc (k : ℚ) * 2 ^ i < 2 ^ (j + 1) * 2 ^ i := mul_lt_mul_of_pos_right q2 hi0
              _ = 2 ^ 53 := by rw [← pow_add]; congr 1; omega
              _ = _ := by norm_num
          have hge : 0 ≤ (k : ℚ) * 2 ^ i / 2 ^ 54 := by positivity
          rw [hz]
          have habs : |(((k * 2 ^ i : ℕ) : ℤ) : ℚ) - ((((k * 2 ^ i : ℕ) : ℤ) : ℚ) - (k : ℚ) * 2 ^ i / 2 ^ 54)| = (k : ℚ) * 2 ^ i / 2 ^ 54 := by
            rw [sub_sub_cancel, abs_of_nonneg hge]
          unfold IsRounded
          rw [habs]
          exact ⟨hlt.le, fun h => absurd h hlt.ne⟩
    rw [key]
    exact Int.floor_natCast k
  · -- not a multiple of three: the product is well inside the interval
    rw [Int.floor_eq_iff, Int.cast_natCast]
    have l1 : (3 * k + 1 : ℚ) ≤ n := by exact_mod_cast (by omega : 3 * k + 1 ≤ n)
    have l2 : (n : ℚ) ≤ 3 * k + 2 := by exact_mod_cast hkn.2
    have l3 : (n : ℚ) < 2 ^ 53 := by exact_mod_cast hn
    have hk53 : k ≤ 2 ^ 53 := by omega
    constructor
    · refine (f64_mono_double (isDouble_nat hk53)).1 ?_
      linarith
    · have hx0 : 0 < (n : ℚ) * ((1 - 1 / 2 ^ 54) / 3) := by
        have : (0 : ℚ) ≤ k := by positivity
        have : (0 : ℚ) < n := by linarith
        have h2 : (0 : ℚ) < 1 - 1 / 2 ^ 54 := by norm_num
        positivity
      have herr := f64_error (x := (n : ℚ) * ((1 - 1 / 2 ^ 54) / 3)) (by
        rw [abs_of_pos hx0]
        have : (0 : ℚ) ≤ k := by positivity
        have : (1 : ℚ) ≤ n := by linarith
        refine le_trans (?_ : _ ≤ (1 : ℚ) / 4) (by linarith)
        norm_num)
      rw [abs_of_pos hx0] at herr
      have := (abs_le.1 herr).2
      linarith

theorem f64_nonneg {x : ℚ} (h : 0 ≤ x) : 0 ≤ f64 x := by
  have := (f64_mono_double (x := x) (isDouble_nat (n := 0) (by norm_num))).1 (by simpa using h)
  simpa using this

theorem f64_le_one {x : ℚ} (h : x ≤ 1) : f64 x ≤ 1 := by
  have := (f64_mono_double (x := x) (isDouble_nat (n := 1) (by norm_num))).2 (by simpa using h)
  simpa using this

/-- **C113 (any fraction).**  For any fraction `p` in `[0, 1]` held as a double, the count is the integer part of the exact product, or one
more; one more only if the exact product lies within a relative distance `2 ^ -53` below the next integer. -/
theorem count_any {n : ℕ} (hn : n < 2 ^ 53) {p : ℚ} (h0 : 0 ≤ p) (h1 : p ≤ 1) :
    nWavePF64 n p = ⌊(n : ℚ) * p⌋ ∨
      (nWavePF64 n p = ⌊(n : ℚ) * p⌋ + 1 ∧ (⌊(n : ℚ) * p⌋ + 1 : ℚ) - n * p ≤ n * p / 2 ^ 53) := by
  unfold nWavePF64
  set x := (n : ℚ) * p with hx
  have hx0 : 0 ≤ x := by positivity
  obtain ⟨k, hk⟩ := Int.eq_ofNat_of_zero_le (Int.floor_nonneg.2 hx0)
  have l1 : (k : ℚ) ≤ x := by have := Int.floor_le x; rw [hk] at this; exact_mod_cast this
  have l2 : x < k + 1 := by have := Int.lt_floor_add_one x; rw [hk] at this; exact_mod_cast this
  have hxn : x ≤ n := by rw [hx]; exact mul_le_of_le_one_right (by positivity) h1
  have hkn : k ≤ n := by exact_mod_cast l1.trans hxn
  have g1 := (f64_mono_double (x := x) (isDouble_nat (n := k) (by omega))).1 l1
  have g2 := (f64_mono_double (x := x) (isDouble_nat (n := k + 1) (by omega))).2 (by push_cast; exact l2.le)
  push_cast at g2
  rcases eq_or_lt_of_le g2 with he | hl
  · right
    refine ⟨?_, ?_⟩
    · rw [he, hk]
      have : ((k : ℚ) + 1) = ((k + 1 : ℕ) : ℚ) := by push_cast; rfl
      rw [this, Int.floor_natCast]; simp
    · by_cases hs : x ≤ 1 / 2
      · have := (f64_mono_double (x := x) (y := 1 / 2) ⟨1, -1, by norm_num, by norm_num, by norm_num⟩).2 hs
        have hk0 : (0 : ℚ) ≤ k := by positivity
        linarith
      · have herr := f64_error (x := x) (by
          rw [abs_of_nonneg hx0]
          refine le_trans ?_ (not_le.1 hs).le
          norm_num)
        rw [abs_of_nonneg hx0] at herr
        have := (abs_le.1 herr).2
        rw [hk]
        push_cast
        linarith
  · left
    rw [hk, Int.floor_eq_iff]
    exact ⟨by exact_mod_cast g1, by exact_mod_cast hl⟩

/-- **C113 (fractions as typed).**  For `p = a / b` rounded to a double and fewer than `2 ^ 51 / b` waves, the count is `n a / b` rounded
down, unless `n a / b` is an integer and the double lies below `a / b`: then it may be one less. -/
theorem count_typed {n a b : ℕ} (hb : 0 < b) (hab : a ≤ b) (hs : n * b < 2 ^ 51) :
    ((¬ b ∣ n * a ∨ (a : ℚ) / b ≤ f64 ((a : ℚ) / b)) → nWavePF64 n (f64 ((a : ℚ) / b)) = ((n * a / b : ℕ) : ℤ)) ∧
    (nWavePF64 n (f64 ((a : ℚ) / b)) = ((n * a / b : ℕ) : ℤ) ∨ nWavePF64 n (f64 ((a : ℚ) / b)) = ((n * a / b : ℕ) : ℤ) - 1) := by
  have hbq : (0 : ℚ) < b := by exact_mod_cast hb
  rcases Nat.eq_zero_or_pos a with rfl | ha
  · unfold nWavePF64; simp [f64_zero]
  rcases Nat.eq_zero_or_pos n with rfl | hn
  · unfold nWavePF64; simp [f64_zero]
  have haq : (1 : ℚ) ≤ a := by exact_mod_cast ha
  have hnq : (1 : ℚ) ≤ n := by exact_mod_cast hn
  have habq : (a : ℚ) ≤ b := by exact_mod_cast hab
  have hsq : (n : ℚ) * b < 2 ^ 51 := by exact_mod_cast hs
  have hn51 : n < 2 ^ 51 := lt_of_le_of_lt (Nat.le_mul_of_pos_right n hb) hs
  have hb51 : b < 2 ^ 51 := lt_of_le_of_lt (Nat.le_mul_of_pos_left b hn) hs
  have hb51q : (b : ℚ) < 2 ^ 51 := by exact_mod_cast hb51
  set y := (a : ℚ) / b with hy
  have hy0 : 0 < y := by positivity
  have hy1 : y ≤ 1 := by rw [hy, div_le_one hbq]; exact habq
  have hylow : 1 / 2 ^ 51 ≤ y := by
    rw [hy, div_le_div_iff₀ (by positivity) hbq, one_mul]
    have : (2 : ℚ) ^ 51 ≤ a * 2 ^ 51 := le_mul_of_one_le_left (by positivity) haq
    linarith
  have e1 := f64_error (x := y) (by rw [abs_of_pos hy0]; exact le_trans (by norm_num) hylow)
  rw [abs_of_pos hy0] at e1
  set p := f64 y with hp
  obtain ⟨e1a, e1b⟩ := abs_le.1 e1
  have hplow : y / 2 ≤ p := by linarith
  have hp0 : 0 < p := by linarith
  set x := (n : ℚ) * p with hx
  have hx0 : 0 < x := by positivity
  have hxp : p ≤ x := le_mul_of_one_le_left hp0.le hnq
  have e2 := f64_error (x := x) (by rw [abs_of_pos hx0]; exact le_trans (by norm_num) (le_trans hylow (by linarith : y ≤ 2 * x)|> fun h => by linarith : (1 : ℚ) / 2 ^ 52 ≤ x))
  rw [abs_of_pos hx0] at e2
  obtain ⟨e2a, e2b⟩ := abs_le.1 e2
  -- total error below `1 / b`
  set z := (n : ℚ) * y with hz
  have hz0 : 0 < z := by positivity
  have hzn : z ≤ n := mul_le_of_le_one_right (by positivity) hy1
  have d1 : |x - z| ≤ z / 2 ^ 53 := by
    rw [hx, hz, ← mul_sub, abs_mul, abs_of_pos (by linarith : (0 : ℚ) < n), mul_div_assoc]
    exact mul_le_mul_of_nonneg_left e1 (by linarith)
  obtain ⟨d1a, d1b⟩ := abs_le.1 d1
  have hnb : (n : ℚ) / 2 ^ 51 < 1 / b := by
    rw [div_lt_div_iff₀ (by positivity) hbq, one_mul]; exact hsq
  have up : f64 x < z + 1 / b := by linarith
  have lo : z - 1 / b < f64 x := by linarith
  -- the exact product
  set k := n * a / b with hk
  have hdm : k * b ≤ n * a ∧ n * a + 1 ≤ k * b + b := by
    have h1 := Nat.div_mul_le_self (n * a) b
    have h2 := Nat.lt_div_mul_add hb (a := n * a)
    exact ⟨h1, h2⟩
  have hzb : z * b = ((n * a : ℕ) : ℚ) := by rw [hz, hy]; push_cast; field_simp
  have zk : z ≤ k + 1 - 1 / b := by
    have : ((n * a + 1 : ℕ) : ℚ) ≤ ((k * b + b : ℕ) : ℚ) := by exact_mod_cast hdm.2
    rw [Nat.cast_add, ← hzb] at this
    push_cast at this
    rw [← mul_le_mul_iff_left₀ hbq, sub_mul, div_mul_cancel₀ _ hbq.ne']
    linarith
  have kz : (k : ℚ) ≤ z := by
    have : ((k * b : ℕ) : ℚ) ≤ ((n * a : ℕ) : ℚ) := by exact_mod_cast hdm.1
    rw [← hzb] at this
    push_cast at this
    exact le_of_mul_le_mul_right this hbq
  have hkn : k ≤ 2 ^ 53 := by
    have : (k : ℚ) ≤ n := kz.trans hzn
    have : k ≤ n := by exact_mod_cast this
    omega
  have main : (¬ b ∣ n * a ∨ y ≤ p) → (k : ℚ) ≤ f64 x := by
    rintro (hnd | hge)
    · have : k * b + 1 ≤ n * a := by
        rcases Nat.lt_or_ge (k * b) (n * a) with h | h
        · exact h
        · exact absurd ⟨k, by rw [Nat.mul_comm b k]; exact le_antisymm h hdm.1⟩ hnd
      have h : ((k * b + 1 : ℕ) : ℚ) ≤ ((n * a : ℕ) : ℚ) := by exact_mod_cast this
      rw [← hzb] at h
      push_cast at h
      have : (k : ℚ) + 1 / b ≤ z := by
        rw [← mul_le_mul_iff_left₀ hbq, add_mul, div_mul_cancel₀ _ hbq.ne']
        exact h
      linarith
    · refine (f64_mono_double (isDouble_nat hkn)).1 (kz.trans ?_)
      exact mul_le_mul_of_nonneg_left hge (by linarith)
  have hup : f64 x < k + 1 := by linarith
  unfold nWavePF64
  constructor
  · intro h
    rw [Int.floor_eq_iff, Int.cast_natCast]
    exact ⟨main h, hup⟩
  · by_cases hc : (k : ℚ) ≤ f64 x
    · left
      rw [Int.floor_eq_iff, Int.cast_natCast]
      exact ⟨hc, hup⟩
    · right
      rw [Int.floor_eq_iff]
      push_cast
      have : (1 : ℚ) / b ≤ 1 := by rw [div_le_one hbq]; exact_mod_cast hb
      exact ⟨by linarith, by linarith⟩

/-! ## The objects -/

theorem highestWavesParamsF64_eq {h t : PyIn ℚ} {p p' : ℚ} (hp : (p < 0 ∨ 1 < p) ↔ (p' < 0 ∨ 1 < p'))
    (hc : nWavePF64 (toArr h).len p = ⌊((toArr h).len : ℚ) * p'⌋) : highestWavesParamsF64 h t p = highestWavesParams h t p' := by
  unfold highestWavesParamsF64 highestWavesParams
  simp only [hc, hp]

/-- the number of waves is not changed by sorting -/
theorem sort_len {A : Argsort ℚ} {s s' : WH ℚ} (hw : s.WF) (h : s.sort A = (.ok (), s')) : s'.hwave.len = s.hwave.len := by
  have := WH.sort_same A hw
  rw [h] at this
  unfold Arr.len
  rw [this.hshape]

theorem highestWavesF64_eq (A : Argsort ℚ) {s : WH ℚ} (hw : s.WF) {p p' : ℚ} (hp : (p < 0 ∨ 1 < p) ↔ (p' < 0 ∨ 1 < p'))
    (hc : nWavePF64 s.hwave.len p = ⌊(s.hwave.len : ℚ) * p'⌋) : s.highestWavesF64 A p = s.highestWaves A p' := by
  unfold WH.highestWavesF64 WH.highestWaves
  match h : s.sort A with
  | (.ok (), s') =>
    simp only
    rw [highestWavesParamsF64_eq hp]
    change nWavePF64 s'.hwave.len p = ⌊(s'.hwave.len : ℚ) * p'⌋
    rw [sort_len hw h]
    exact hc
  | (.error e, s') => rfl

theorem floor_nat_div (a b : ℕ) : ⌊(a : ℚ) / (b : ℚ)⌋ = ((a / b : ℕ) : ℤ) := Rat.floor_natCast_div_natCast a b

theorem run_facts (A : Argsort ℚ) {ph pt : PyIn ℚ} (hh : ph.WF) (ht : pt.WF) {s : WH ℚ} (hs : WH.init ph pt = .ok s) (ops : List (WHOp ℚ)) :
    (s.run A ops).WF ∧ (s.run A ops).hwave.len = s.hwave.len := by
  have hw := WH.init_wf hh ht hs
  have := waves_never_corrupted A ops hw
  refine ⟨this.wf hw, ?_⟩
  unfold Arr.len
  rw [this.hshape]

/-- **C113 (Hs).**  `get_Hs` in double precision averages the same waves as with the exact fraction one third. -/
theorem hs_double (A : Argsort ℚ) {ph pt : PyIn ℚ} (hh : ph.WF) (ht : pt.WF) {s : WH ℚ} (hs : WH.init ph pt = .ok s) (ops : List (WHOp ℚ))
    (hn : s.hwave.len < 2 ^ 53) : (s.run A ops).getHsF64 A = (s.run A ops).getHs A := by
  obtain ⟨hw, hlen⟩ := run_facts A hh ht hs ops
  rw [← hlen] at hn
  generalize s.run A ops = s at *
  refine highestWavesF64_eq A hw ?_ ?_
  · rw [f64_third]
    constructor <;> rintro (h | h) <;> norm_num at h
  · rw [third_count hn]
    have := floor_nat_div s.hwave.len 3
    rw [← this]
    congr 1
    push_cast; ring

/-- **C113 (typed fractions).**  `highest_waves(a / b)` in double precision averages the same waves as with the exact fraction, unless `n a`
is a multiple of `b` and the double lies below `a / b`. -/
theorem highest_double (A : Argsort ℚ) {ph pt : PyIn ℚ} (hh : ph.WF) (ht : pt.WF) {s : WH ℚ} (hs : WH.init ph pt = .ok s)
    (ops : List (WHOp ℚ)) {a b : ℕ} (hb : 0 < b) (hab : a ≤ b) (hn : s.hwave.len * b < 2 ^ 51)
    (h : ¬ b ∣ s.hwave.len * a ∨ (a : ℚ) / b ≤ f64 ((a : ℚ) / b)) :
    (s.run A ops).highestWavesF64 A (f64 ((a : ℚ) / b)) = (s.run A ops).highestWaves A ((a : ℚ) / b) := by
  obtain ⟨hw, hlen⟩ := run_facts A hh ht hs ops
  rw [← hlen] at hn h
  generalize s.run A ops = s at *
  have hbq : (0 : ℚ) < b := by exact_mod_cast hb
  have h0 : 0 ≤ (a : ℚ) / b := by positivity
  have h1 : (a : ℚ) / b ≤ 1 := by rw [div_le_one hbq]; exact_mod_cast hab
  refine highestWavesF64_eq A hw ?_ ?_
  · have g0 := f64_nonneg h0
    have g1 := f64_le_one h1
    constructor <;> rintro (h | h) <;> linarith
  · rw [(count_typed hb hab hn).1 h, ← floor_nat_div]
    congr 1
    push_cast; ring

/-- **C113 (exceedance).**  `get_exceedance_waveheight(q)` for a whole number of percent `q` picks the same wave in double precision. -/
theorem exceedance_double (A : Argsort ℚ) {ph pt : PyIn ℚ} (hh : ph.WF) (ht : pt.WF) {s : WH ℚ} (hs : WH.init ph pt = .ok s)
    (ops : List (WHOp ℚ)) {q : ℕ} (hn : s.hwave.len * q < 2 ^ 53) :
    (s.run A ops).getExceedanceF64 A q = (s.run A ops).getExceedance A q := by
  obtain ⟨hw, hlen⟩ := run_facts A hh ht hs ops
  rw [← hlen] at hn
  generalize s.run A ops = s at *
  unfold WH.getExceedanceF64 WH.getExceedance
  match h : s.sort A with
  | (.ok (), s') =>
    simp only
    congr 1
    unfold exceedanceWaveHeightF64 exceedanceWaveHeight
    have : iWavePF64 (toArr (.nd s'.hwave)).len q = ⌊((toArr (.nd s'.hwave)).len : ℚ) * q / 100⌋ := by
      change iWavePF64 s'.hwave.len q = ⌊(s'.hwave.len : ℚ) * q / 100⌋
      rw [sort_len hw h]
      unfold iWavePF64
      have e : (s.hwave.len : ℚ) * (q : ℚ) = ((s.hwave.len * q : ℕ) : ℚ) := by push_cast; rfl
      rw [e, f64_of_double (isDouble_nat hn.le)]
      have := floor_f64_div (a := s.hwave.len * q) (b := 100) hn (by norm_num) (by norm_num)
      have h2 := floor_nat_div (s.hwave.len * q) 100
      simp only [Nat.cast_ofNat] at this h2
      rw [this, h2]
    simp only [this]
  | (.error e, s') => rfl

/-- **C113 (bins).**  The number of averaged bins in double precision is the integer quotient. -/
theorem bins_double {n m : ℕ} (hn : n < 2 ^ 53) (hm : 0 < m) (hm' : m < 2 ^ 53) : nCoarseF64 n m = ((n / m : ℕ) : ℤ) := floor_f64_div hn hm hm'

/-! ## A finding: `highest_waves(1 / 49)` of 49 waves -/

theorem f64_49 : f64 (1 / 49) = 5882252574524729 / 288230376151711744 := by decide +kernel

/-- `49 * (1 / 49)` is `1 - 2 ^ -53` in double precision, so `highest_waves(1 / 49)` of 49 waves returns `(0, 0)`, not the highest wave. -/
theorem highest_double_misses : nWavePF64 49 (f64 (1 / 49)) = 0 ∧
    highestWavesParamsF64 (vec (List.replicate 49 2)) (vec (List.replicate 49 3)) (f64 (1 / 49)) = .ok (0, 0) ∧
    highestWavesParams (K := ℚ) (vec (List.replicate 49 2)) (vec (List.replicate 49 3)) (1 / 49) = .ok (2, 3) := by
  refine ⟨?_, ?_, ?_⟩ <;> decide +kernel

/-- `highest_waves(0.29)` of 100 waves averages 28. -/
theorem highest_double_misses' : nWavePF64 100 (f64 (29 / 100)) = 28 := by decide +kernel

/-- Hs of a record of seven waves after a call of `sort`. -/
example : ∃ s : WH ℚ, WH.init (vec [1, 5, 3, 4, 2, 7, 6]) (vec [1, 2, 3, 4, 5, 6, 7]) = .ok s ∧
    ((s.run stableArgsort [.sort]).getHsF64 stableArgsort).1 = .ok (13 / 2, 13 / 2) := by
  refine ⟨⟨arr1 [1, 5, 3, 4, 2, 7, 6], 7, arr1 [1, 2, 3, 4, 5, 6, 7]⟩, ?_, ?_⟩ <;> decide +kernel

/-- The fractions 0.1, 0.02, 0.01 and 0.001 are rounded up. -/
example : (1 / 10 : ℚ) ≤ f64 (1 / 10) ∧ (2 / 100 : ℚ) ≤ f64 (2 / 100) ∧ (1 / 100 : ℚ) ≤ f64 (1 / 100) ∧ (1 / 1000 : ℚ) ≤ f64 (1 / 1000) := by
  decide +kernel

/-! ## Concrete cases: the hypotheses of the theorems above are met -/

/-- The double nearest to 1/10 is nearer than 1/8. -/
example : |f64 (1 / 10) - 1 / 10| ≤ |1 / 8 - 1 / 10| := f64_nearest (1 / 10) ⟨1, -3, by norm_num, by norm_num, by norm_num⟩
example : nWavePF64 1000 (f64 (1 / 3)) = 333 := third_count (by norm_num)
example := count_any (n := 1000) (by norm_num) (p := 17 / 1000) (by norm_num) (by norm_num)
example : nWavePF64 1000 (f64 ((7 : ℕ) / (100 : ℕ))) = 70 ∨ nWavePF64 1000 (f64 ((7 : ℕ) / (100 : ℕ))) = 69 :=
  (count_typed (n := 1000) (a := 7) (b := 100) (by norm_num) (by norm_num) (by norm_num)).2
example : ⌊f64 ((1000 : ℕ) / (7 : ℕ))⌋ = 142 := floor_f64_div (by norm_num) (by norm_num) (by norm_num)
example : nCoarseF64 513 4 = 128 := bins_double (by norm_num) (by norm_num) (by norm_num)

/-- Ten waves: the mean of the highest third, the highest tenth and the 20 % exceedance height, also after sorting. -/
example : ∃ s : WH ℚ, WH.init (vec [1, 5, 3, 4, 2, 7, 6, 8, 9, 10]) (vec [1, 2, 3, 4, 5, 6, 7, 8, 9, 10]) = .ok s ∧
    (s.run stableArgsort [.sort]).getHsF64 stableArgsort = (s.run stableArgsort [.sort]).getHs stableArgsort ∧
    (s.run stableArgsort [.sort]).highestWavesF64 stableArgsort (f64 (1 / 10)) = (s.run stableArgsort [.sort]).highestWaves stableArgsort (1 / 10) ∧
    (s.run stableArgsort []).getExceedanceF64 stableArgsort 20 = (s.run stableArgsort []).getExceedance stableArgsort 20 := by
  have e : WH.init (K := ℚ) (vec [1, 5, 3, 4, 2, 7, 6, 8, 9, 10]) (vec [1, 2, 3, 4, 5, 6, 7, 8, 9, 10]) =
    .ok ⟨arr1 [1, 5, 3, 4, 2, 7, 6, 8, 9, 10], 10, arr1 [1, 2, 3, 4, 5, 6, 7, 8, 9, 10]⟩ := by decide +kernel
  refine ⟨_, e, hs_double _ (ph := vec [1, 5, 3, 4, 2, 7, 6, 8, 9, 10]) (pt := vec [1, 2, 3, 4, 5, 6, 7, 8, 9, 10]) rfl rfl e _ (by decide), ?_, exceedance_double _ (ph := vec [1, 5, 3, 4, 2, 7, 6, 8, 9, 10]) (pt := vec [1, 2, 3, 4, 5, 6, 7, 8, 9, 10]) rfl rfl e _ (q := 20) (by decide)⟩
  have := highest_double stableArgsort (ph := vec [1, 5, 3, 4, 2, 7, 6, 8, 9, 10]) (pt := vec [1, 2, 3, 4, 5, 6, 7, 8, 9, 10]) rfl rfl e [.sort] (a := 1) (b := 10) (by norm_num) (by norm_num) (by decide) (.inr (by decide +kernel))
  simpa using this

end Verif
