import Verif.Props.FloatMoments
import Verif.Props.FloatAxis
import Verif.Props.RecordHeight

/-! # C124: wave height and mean periods in double precision -/

set_option linter.unusedSectionVars false

namespace Verif
open Finset

/-- Specification: densities that are doubles, zero or between `2 ^ -200` and `2 ^ 200`. -/
def IsDensity (s : ℚ) : Prop := IsDouble s ∧ (s = 0 ∨ (1 / 2 ^ 200 ≤ s ∧ s ≤ 2 ^ 200))

theorem IsDensity.isSize {s : ℚ} (h : IsDensity s) : IsSize s :=
  ⟨h.1, h.2.imp_right fun h => le_trans (one_div_le_one_div_of_le (by positivity) (pow_le_pow_right₀ (by norm_num) (by norm_num))) h.1⟩

/-- The weighted sum that the exact moment is. -/
def momentValue (f0 h : ℚ) (S : List ℚ) (m : ℤ) : ℚ :=
  let d := if m < 0 ∧ f0 = 0 then 1 else 0
  h * ∑ k ∈ range (S.length - d), simpsonWeight ℚ (S.length - d) k * ((f0 + ((d + k : ℕ) : ℚ) * h) ^ m * S.getD (d + k) 0)

theorem exactAxis_getD {f0 h : ℚ} {n i : ℕ} (hi : i < n) : (exactAxis f0 h n).getD i 0 = f0 + i * h := by
  unfold exactAxis; rw [map_range_getD hi]

theorem momentValue_spec {f0 h : ℚ} (hh : 0 < h) (h0 : 0 ≤ f0) {S : List ℚ} (h2 : 2 ≤ S.length) (m : ℤ) :
    computeMoment (vec (exactAxis f0 h S.length)) (vec S) m (-1) (.fin (-1)) = .ok (momentValue f0 h S m) := by
  have el : (exactAxis f0 h S.length).length = S.length := by simp [exactAxis]
  have eg0 : (exactAxis f0 h S.length).getD 0 0 = f0 := by rw [exactAxis_getD (by omega)]; simp
  have ex := moment_exact_default (m := m) (fmax := .fin (-1)) (isArr_vec (exactAxis f0 h S.length)) (isArr_vec S) (exactAxis_uniform hh S.length)
    (by omega) (by omega) (by rw [eg0]; exact h0)
  simp only [eg0, el] at ex
  rw [ex]
  unfold momentValue
  congr 2
  refine sum_congr rfl fun k hk => ?_
  have := mem_range.1 hk
  rw [exactAxis_getD (by omega)]

/-- The axis and the densities as real numbers. -/
noncomputable def realList (l : List ℚ) : List ℝ := l.map fun (v : ℚ) => (v : ℝ)

theorem realList_length (l : List ℚ) : (realList l).length = l.length := by simp [realList]

theorem realList_getD (l : List ℚ) (i : ℕ) : (realList l).getD i 0 = ((l.getD i 0 : ℚ) : ℝ) := by
  unfold realList
  rw [List.getD_eq_getElem?_getD, List.getElem?_map, List.getD_eq_getElem?_getD]
  cases l[i]? <;> simp

theorem simpsonWeight_cast (n k : ℕ) : ((simpsonWeight ℚ n k : ℚ) : ℝ) = simpsonWeight ℝ n k := by
  unfold simpsonWeight
  split_ifs <;> norm_num

/-- The exact moments of the spectrum object are those rational numbers. -/
theorem real_moment {f0 h : ℚ} (hh : 0 < h) (h0 : 0 ≤ f0) {S : List ℚ} (h2 : 2 ≤ S.length) (m : ℤ) :
    let F := realList (exactAxis f0 h S.length)
    computeMoment (vec F) (.nd ⟨[S.length], realList S⟩) m (F.getD 0 0) (.fin (F.getD (F.length - 1) 0)) = .ok ((momentValue f0 h S m : ℚ) : ℝ) := by
  intro F
  have el : F.length = S.length := by simp [F, realList, exactAxis]
  have fg : ∀ i, i < S.length → F.getD i 0 = (f0 : ℝ) + i * h := by
    intro i hi
    simp only [F]
    rw [realList_getD, exactAxis_getD hi]; push_cast; ring
  have hu : UniformAxis F (h : ℝ) := by
    refine ⟨by exact_mod_cast hh, fun i hi => ?_⟩
    rw [fg _ (by omega), fg _ (by omega)]; push_cast; ring
  have g0 : F.getD 0 0 = (f0 : ℝ) := by rw [fg 0 (by omega)]; simp
  have e := full_range_moment hu (S := realList S) (by omega) (by rw [el, realList_length]) (by rw [g0]; exact_mod_cast h0) m
  rw [realList_length] at e
  rw [e]
  have fu : firstUsable F m = if m < 0 ∧ f0 = 0 then 1 else 0 := by
    unfold firstUsable
    rw [g0]
    have : ((f0 : ℝ) = 0) ↔ f0 = 0 := by exact_mod_cast Iff.rfl
    simp only [this]
  unfold momentValue
  simp only []
  rw [fu, el]
  generalize (if m < 0 ∧ f0 = 0 then 1 else 0) = d
  congr 1
  push_cast
  congr 1
  refine sum_congr rfl fun k hk => ?_
  have := mem_range.1 hk
  rw [fg _ (by omega), realList_getD, simpsonWeight_cast]
  push_cast
  ring

theorem inv_pow_add (a b : ℕ) : (1 : ℚ) / 2 ^ (a + b) = 1 / 2 ^ a * (1 / 2 ^ b) := by rw [pow_add, div_mul_div_comm, one_mul]

theorem inv_pow_le {a b : ℕ} (h : b ≤ a) : (1 : ℚ) / 2 ^ a ≤ 1 / 2 ^ b := one_div_le_one_div_of_le (by positivity) (pow_le_pow_right₀ (by norm_num) h)

/-- The exact moments of usual densities are zero or of usual size. -/
theorem momentValue_range {f : List ℚ} {f0 h : ℚ} (A : AxisDouble f f0 h) {S : List ℚ} (hl : f.length = S.length) (h2 : 2 ≤ f.length)
    (hS : ∀ s ∈ S, IsDensity s) {m : ℤ} (hm : |m| ≤ 2) :
    momentValue f0 h S m = 0 ∨ (1 / 2 ^ 470 ≤ momentValue f0 h S m ∧ momentValue f0 h S m ≤ 2 ^ 490) := by
  have h0 := A.hpos
  have z := A.f0_nonneg
  unfold momentValue
  simp only []
  set d := if m < 0 ∧ f0 = 0 then 1 else 0 with hd
  have d1 : d ≤ 1 := by rw [hd]; split_ifs <;> norm_num
  -- powers of the frequencies
  have Fm : ∀ i, d ≤ i → i < f.length → (f0 + (i : ℚ) * h) ^ m = 0 ∨ (1 / 2 ^ 200 ≤ (f0 + (i : ℚ) * h) ^ m ∧ (f0 + (i : ℚ) * h) ^ m ≤ 2 ^ 200) := by
    intro i hdi hi
    have am := abs_le.1 hm
    rcases A.freq_range hi with hz | ⟨p, q⟩
    · rw [hz]
      by_cases hm0 : m = 0
      · right; rw [hm0, zpow_zero]; norm_num
      · left; exact zero_zpow m hm0
    · right
      set F := f0 + (i : ℚ) * h
      have F0 : 0 < F := lt_of_lt_of_le (by positivity) p
      have q' : F ≤ 2 ^ 100 := q.trans (pow_le_pow_right₀ (by norm_num) (by norm_num))
      have ip : 1 / 2 ^ 100 ≤ 1 / F := one_div_le_one_div_of_le F0 q'
      have iq : 1 / F ≤ 2 ^ 100 := by
        rw [div_le_iff₀ F0]
        calc (1 : ℚ) = 2 ^ 100 * (1 / 2 ^ 100) := by norm_num
          _ ≤ 2 ^ 100 * F := mul_le_mul_of_nonneg_left p (by positivity)
      have sq : ∀ v : ℚ, 1 / 2 ^ 100 ≤ v → v ≤ 2 ^ 100 → (1 / 2 ^ 200 ≤ v ∧ v ≤ 2 ^ 200) ∧ (1 / 2 ^ 200 ≤ v * v ∧ v * v ≤ 2 ^ 200) := by
        intro v h1 h2
        have v0 : 0 ≤ v := le_trans (by positivity) h1
        refine ⟨⟨le_trans (by norm_num) h1, h2.trans (by norm_num)⟩, ?_, ?_⟩
        · calc (1 : ℚ) / 2 ^ 200 = 1 / 2 ^ 100 * (1 / 2 ^ 100) := by norm_num
            _ ≤ v * v := mul_le_mul h1 h1 (by positivity) v0
        · calc v * v ≤ 2 ^ 100 * 2 ^ 100 := mul_le_mul h2 h2 v0 (by positivity)
            _ = 2 ^ 200 := by norm_num
      have cases : m = -2 ∨ m = -1 ∨ m = 0 ∨ m = 1 ∨ m = 2 := by omega
      rcases cases with rfl | rfl | rfl | rfl | rfl
      · rw [show F ^ (-2 : ℤ) = 1 / F * (1 / F) by rw [zpow_neg, zpow_ofNat, pow_two, div_mul_div_comm, one_mul, one_div]]
        exact (sq _ ip iq).2
      · rw [zpow_neg_one, ← one_div]
        exact (sq _ ip iq).1
      · rw [zpow_zero]; norm_num
      · rw [zpow_one]; exact (sq _ p q').1
      · rw [zpow_ofNat, pow_two]; exact (sq _ p q').2
  have gS : ∀ i, i < f.length → S.getD i 0 = 0 ∨ (1 / 2 ^ 200 ≤ S.getD i 0 ∧ S.getD i 0 ≤ 2 ^ 200) := by
    intro i hi
    rw [List.getD_eq_getElem _ _ (by omega)]
    exact (hS _ (List.getElem_mem _)).2
  by_cases hn1 : S.length - d = 1
  · left
    rw [hn1]
    simp [simpsonWeight]
  have wlo : ∀ k, 1 / 3 ≤ simpsonWeight ℚ (S.length - d) k ∧ simpsonWeight ℚ (S.length - d) k ≤ 4 / 3 := fun k => simpsonWeight_bounds (by omega) k
  have term : ∀ k ∈ range (S.length - d), simpsonWeight ℚ (S.length - d) k * ((f0 + ((d + k : ℕ) : ℚ) * h) ^ m * S.getD (d + k) 0) = 0 ∨
      (1 / 2 ^ 402 ≤ simpsonWeight ℚ (S.length - d) k * ((f0 + ((d + k : ℕ) : ℚ) * h) ^ m * S.getD (d + k) 0) ∧
        simpsonWeight ℚ (S.length - d) k * ((f0 + ((d + k : ℕ) : ℚ) * h) ^ m * S.getD (d + k) 0) ≤ 2 ^ 401) := by
    intro k hk
    have hk' := mem_range.1 hk
    obtain ⟨w1, w2⟩ := wlo k
    rcases Fm (d + k) (by omega) (by omega) with hz | ⟨p, q⟩
    · left; rw [hz]; ring
    rcases gS (d + k) (by omega) with hz | ⟨r, s⟩
    · left; rw [hz]; ring
    right
    set a := (f0 + ((d + k : ℕ) : ℚ) * h) ^ m
    set b := S.getD (d + k) 0
    set w := simpsonWeight ℚ (S.length - d) k
    have a0 : 0 ≤ a := le_trans (by positivity) p
    have b0 : 0 ≤ b := le_trans (by positivity) r
    have ab1 : 1 / 2 ^ 400 ≤ a * b := by
      calc (1 : ℚ) / 2 ^ 400 = 1 / 2 ^ 200 * (1 / 2 ^ 200) := inv_pow_add 200 200
        _ ≤ a * b := mul_le_mul p r (by positivity) a0
    have ab2 : a * b ≤ 2 ^ 400 := by
      calc a * b ≤ 2 ^ 200 * 2 ^ 200 := mul_le_mul q s b0 (by positivity)
        _ = 2 ^ 400 := (pow_add 2 200 200).symm
    have ab0 : 0 ≤ a * b := mul_nonneg a0 b0
    constructor
    · calc (1 : ℚ) / 2 ^ 402 = 1 / 2 ^ 2 * (1 / 2 ^ 400) := inv_pow_add 2 400
        _ ≤ 1 / 3 * (1 / 2 ^ 400) := mul_le_mul_of_nonneg_right (by norm_num) (by positivity)
        _ ≤ w * (a * b) := mul_le_mul w1 ab1 (by positivity) (by linarith)
    · calc w * (a * b) ≤ 4 / 3 * 2 ^ 400 := mul_le_mul w2 ab2 ab0 (by norm_num)
        _ ≤ 2 * 2 ^ 400 := mul_le_mul_of_nonneg_right (by norm_num) (by positivity)
        _ = 2 ^ 401 := (pow_succ' 2 400).symm
  have tn : ∀ k ∈ range (S.length - d), 0 ≤ simpsonWeight ℚ (S.length - d) k * ((f0 + ((d + k : ℕ) : ℚ) * h) ^ m * S.getD (d + k) 0) := by
    intro k hk
    rcases term k hk with h | h
    · exact h.ge
    · exact le_trans (by positivity) h.1
  by_cases hz : ∀ k ∈ range (S.length - d), simpsonWeight ℚ (S.length - d) k * ((f0 + ((d + k : ℕ) : ℚ) * h) ^ m * S.getD (d + k) 0) = 0
  · left; rw [sum_eq_zero hz, mul_zero]
  right
  push Not at hz
  obtain ⟨k, hk, hk0⟩ := hz
  have hl1 := A.lo
  have hu1 := A.hi
  constructor
  · have s1 := single_le_sum tn hk
    have s2 := ((term k hk).resolve_left hk0).1
    calc (1 : ℚ) / 2 ^ 470 ≤ 1 / 2 ^ (60 + 402) := inv_pow_le (by norm_num)
      _ = 1 / 2 ^ 60 * (1 / 2 ^ 402) := inv_pow_add 60 402
      _ ≤ h * _ := mul_le_mul hl1 (s2.trans s1) (by positivity) h0.le
  · have s1 : ∑ k ∈ range (S.length - d), simpsonWeight ℚ (S.length - d) k * ((f0 + ((d + k : ℕ) : ℚ) * h) ^ m * S.getD (d + k) 0) ≤
        (S.length - d : ℕ) * 2 ^ 401 := by
      have := sum_le_card_nsmul (range (S.length - d))
        (fun k => simpsonWeight ℚ (S.length - d) k * ((f0 + ((d + k : ℕ) : ℚ) * h) ^ m * S.getD (d + k) 0)) ((2 : ℚ) ^ 401) (fun k hk => by
        rcases term k hk with h | h
        · simp only [h]; positivity
        · exact h.2)
      rwa [card_range, nsmul_eq_mul] at this
    have n1 : ((S.length - d : ℕ) : ℚ) ≤ 2 ^ 24 := by
      have a := A.size
      have : (f.length : ℚ) * h ≤ 2 ^ 24 * h := by linarith
      have := le_of_mul_le_mul_right this h0
      have c : ((S.length - d : ℕ) : ℚ) ≤ f.length := by rw [hl]; exact_mod_cast Nat.sub_le _ _
      linarith
    have s0 := sum_nonneg tn
    calc h * _ ≤ 2 ^ 60 * (2 ^ 24 * 2 ^ 401) :=
          mul_le_mul hu1 (s1.trans (mul_le_mul_of_nonneg_right n1 (by positivity))) s0 (by positivity)
      _ = 2 ^ (60 + (24 + 401)) := by rw [pow_add, pow_add]
      _ ≤ 2 ^ 490 := pow_le_pow_right₀ (by norm_num) (by norm_num)

/-! ## The getters -/

section
variable (R : NpSum) (P : NpPow) (Q : NpSqrt) {f S : List ℚ} {f0 h : ℚ} (A : AxisDouble f f0 h) (h2 : 2 ≤ f.length) (hl : f.length = S.length)
  (acc : monotonicF64 f = .ok true) (hS : ∀ s ∈ S, IsDensity s)
include A h2 hl acc hS

/-- A moment over the whole axis. -/
theorem moment_value_double {m : ℤ} (hm : |m| ≤ 2) :
    ∃ v, computeMomentF64 R P f S m (f.getD 0 0) (f.getD (f.length - 1) 0) = .ok v ∧ IsDouble v ∧
      Near (1 * ((f0 + f.length * h) / h / 2 ^ 44)) v (momentValue f0 h S m) := by
  obtain ⟨v, M, e1, d, e2, M0, er⟩ := moment_double R P A h2 hl acc (fun s hs => (hS s hs).isSize) hm (.inr ⟨rfl, rfl⟩)
  rw [hl, momentValue_spec A.hpos A.f0_nonneg (by omega)] at e2
  obtain rfl := Except.ok.inj e2
  exact ⟨v, e1, d, M0, by rwa [one_mul]⟩

omit acc hS hl in
theorem tol_range : 1 / 2 ^ 44 ≤ (f0 + f.length * h) / h / 2 ^ 44 ∧ (f0 + f.length * h) / h / 2 ^ 44 ≤ 1 / 2 ^ 20 := by
  have h0 := A.hpos
  constructor
  · have : 1 ≤ (f0 + f.length * h) / h := by
      rw [le_div_iff₀ h0, one_mul]
      have pos : (1 : ℚ) ≤ f.length := by exact_mod_cast (by omega : 1 ≤ f.length)
      have := le_mul_of_one_le_left h0.le pos
      have := A.f0_nonneg
      linarith
    linarith
  · have : (f0 + f.length * h) / h ≤ 2 ^ 24 := by rw [div_le_iff₀ h0]; exact A.size
    linarith

omit acc in
/-- The quotient of two moments. -/
theorem quotient_double {m m' : ℤ} (hm : |m| ≤ 2) (hm' : |m'| ≤ 2) {v v' : ℚ}
    (hv : Near (1 * ((f0 + f.length * h) / h / 2 ^ 44)) v (momentValue f0 h S m))
    (hv' : Near (1 * ((f0 + f.length * h) / h / 2 ^ 44)) v' (momentValue f0 h S m')) :
    (momentValue f0 h S m' = 0 → divF64 v v' = .error .nonFinite) ∧
    (momentValue f0 h S m' ≠ 0 → ∃ q, divF64 v v' = .ok q ∧ IsDouble q ∧
      Near (5 / 2 * ((f0 + f.length * h) / h / 2 ^ 44)) q (momentValue f0 h S m / momentValue f0 h S m')) := by
  obtain ⟨t1, t2⟩ := tol_range A h2
  have t0 : (1 : ℚ) / 2 ^ 50 ≤ (f0 + f.length * h) / h / 2 ^ 44 := le_trans (by norm_num) t1
  constructor
  · intro hz
    have := hv'.2
    rw [hz, mul_zero, sub_zero] at this
    have v0 : v' = 0 := abs_eq_zero.1 (le_antisymm this (abs_nonneg _))
    unfold divF64
    rw [if_pos v0]
  · intro hz
    have M'0 : 0 < momentValue f0 h S m' := lt_of_le_of_ne hv'.1 (Ne.symm hz)
    have v'0 : v' ≠ 0 := by
      have := (Near.pos t0 t2 hv' (by norm_num)).1
      intro h
      rw [h] at this
      linarith
    unfold divF64
    rw [if_neg v'0]
    refine ⟨_, rfl, f64_double _, ?_⟩
    refine Near.fdiv t0 t2 hv hv' M'0 (by norm_num) (by norm_num) (by norm_num) (by norm_num) ?_ (by norm_num)
    rcases momentValue_range A hl h2 hS hm with hz1 | ⟨lo, -⟩
    · left; rw [hz1, zero_div]
    · right
      have up := ((momentValue_range A hl h2 hS hm').resolve_left hz).2
      calc (1 : ℚ) / 2 ^ 1000 ≤ 1 / 2 ^ (470 + 490) := inv_pow_le (by norm_num)
        _ = 1 / 2 ^ 470 * (1 / 2 ^ 490) := inv_pow_add 470 490
        _ ≤ momentValue f0 h S m * (1 / momentValue f0 h S m') :=
          mul_le_mul lo (one_div_le_one_div_of_le M'0 up) (by positivity) hv.1
        _ = _ := by rw [mul_one_div]

omit A h2 hl acc hS in
/-- The square root of a number with a relative error. -/
theorem sqrt_double {t v M : ℚ} (t1 : 1 / 2 ^ 44 ≤ t) (t2 : t ≤ 1 / 2 ^ 18) (hv : Near t v M) :
    |((Q.sqrt v : ℚ) : ℝ) - Real.sqrt M| ≤ 3 / 5 * t * Real.sqrt M := by
  obtain ⟨M0, er⟩ := hv
  have T1 : (1 : ℝ) / 2 ^ 44 ≤ t := by
    have := (Rat.cast_le (K := ℝ)).2 t1
    push_cast at this
    exact this
  have T2 : (t : ℝ) ≤ 1 / 2 ^ 18 := by
    have := (Rat.cast_le (K := ℝ)).2 t2
    push_cast at this
    exact this
  have vlo : M * (1 - t) ≤ v := by have := (abs_le.1 er).1; linarith
  have v0 : 0 ≤ v := le_trans (mul_nonneg M0 (by linarith)) vlo
  obtain ⟨δ, hδ, e⟩ := Q.spec v v0
  rw [e]
  set a := Real.sqrt (v : ℝ) with ha
  set b := Real.sqrt (M : ℝ) with hb
  have a0 : 0 ≤ a := Real.sqrt_nonneg _
  have b0 : 0 ≤ b := Real.sqrt_nonneg _
  have a2 : a ^ 2 = v := Real.sq_sqrt (by exact_mod_cast v0)
  have b2 : b ^ 2 = M := Real.sq_sqrt (by exact_mod_cast M0)
  have d : |a ^ 2 - b ^ 2| ≤ t * b ^ 2 := by
    rw [a2, b2]; exact_mod_cast er
  have d1 : |a - b| ≤ 11 / 20 * t * b := by
    rcases b0.eq_or_lt with hz | hz
    · rw [← hz] at d ⊢
      have : a ^ 2 ≤ 0 := by simpa using d
      have : a = 0 := by nlinarith
      rw [this]; simp
    · have lo : 9 / 10 * b ≤ a := by
        by_contra hc
        push Not at hc
        have := (abs_le.1 d).1
        nlinarith
      have f : |a - b| * (a + b) = |a ^ 2 - b ^ 2| := by
        rw [show a ^ 2 - b ^ 2 = (a - b) * (a + b) by ring, abs_mul, abs_of_nonneg (by linarith : 0 ≤ a + b)]
      have : |a - b| * (19 / 10 * b) ≤ t * b ^ 2 := by
        calc |a - b| * (19 / 10 * b) ≤ |a - b| * (a + b) := mul_le_mul_of_nonneg_left (by linarith) (abs_nonneg _)
          _ ≤ _ := by rw [f]; exact d
      have : |a - b| * (19 / 10) ≤ t * b := by
        refine le_of_mul_le_mul_right (a := b) ?_ hz
        calc _ = |a - b| * (19 / 10 * b) := by ring
          _ ≤ t * b ^ 2 := this
          _ = _ := by ring
      have tb : 0 ≤ t * b := mul_nonneg (by linarith) b0
      linarith
  have ab : a ≤ 2 * b := by
    have := (abs_le.1 d1).2
    have : 11 / 20 * t * b ≤ b := by
      have : 11 / 20 * (t : ℝ) ≤ 1 := by linarith
      nlinarith
    linarith
  have : a * (1 + δ) - b = (a - b) + a * δ := by ring
  rw [this]
  have s1 : |a * δ| ≤ 2 * b * (1 / 2 ^ 53) := by
    rw [abs_mul, abs_of_nonneg a0]
    exact mul_le_mul ab hδ (abs_nonneg _) (by linarith)
  have s2 : 2 * b * (1 / 2 ^ 53) ≤ 1 / 20 * t * b := by
    have : 2 * (1 / 2 ^ 53) ≤ 1 / 20 * (t : ℝ) := by linarith
    calc _ = 2 * (1 / 2 ^ 53) * b := by ring
      _ ≤ _ := mul_le_mul_of_nonneg_right this b0
  calc _ ≤ |a - b| + |a * δ| := abs_add_le _ _
    _ ≤ 11 / 20 * t * b + 1 / 20 * t * b := by linarith
    _ = _ := by ring

/-- Specification: the exact wave height and mean periods, those of the spectrum with the same densities on the exact axis. -/
theorem exact_getters : let F := realList (exactAxis f0 h f.length)
    calcHm0 F ⟨[S.length], realList S⟩ (-1) (.fin (-1)) = heightOf ((momentValue f0 h S 0 : ℚ) : ℝ) ∧
    calcTmm10 F ⟨[S.length], realList S⟩ (-1) (.fin (-1)) = divE ((momentValue f0 h S (-1) : ℚ) : ℝ) ((momentValue f0 h S 0 : ℚ) : ℝ) ∧
    calcTm01 F ⟨[S.length], realList S⟩ (-1) (.fin (-1)) = divE ((momentValue f0 h S 0 : ℚ) : ℝ) ((momentValue f0 h S 1 : ℚ) : ℝ) ∧
    calcTm02 F ⟨[S.length], realList S⟩ (-1) (.fin (-1)) =
      (divE ((momentValue f0 h S 0 : ℚ) : ℝ) ((momentValue f0 h S 2 : ℚ) : ℝ) >>= sqrtE) := by
  intro F
  have rm : ∀ m : ℤ, computeMoment (vec F) (.nd ⟨[S.length], realList S⟩) m (F.getD 0 0) (.fin (F.getD (F.length - 1) 0)) =
      .ok ((momentValue f0 h S m : ℚ) : ℝ) := by
    intro m
    have := real_moment A.hpos A.f0_nonneg (S := S) (by omega) m
    simp only [F, hl]
    exact this
  refine ⟨?_, ?_, ?_, ?_⟩
  · unfold calcHm0
    simp only [getD_default_limits, rm, bind, Except.bind]
  · unfold calcTmm10
    simp only [getD_default_limits, rm, bind, Except.bind]
  · unfold calcTm01
    simp only [getD_default_limits, rm, bind, Except.bind]
  · unfold calcTm02
    simp only [getD_default_limits, rm, bind, Except.bind]

/-- **C124 (Hm0).**  The wave height of a spectrum computed in double precision — whatever the order of the additions, with a `pow` accurate to
`2 ^ -52` and a correctly rounded `sqrt` — is that of the same densities on the exact axis up to a relative error of `(f_max + h) / h / 2 ^ 44`. -/
theorem hm0_double : ∃ H Hx, hm0F64 R P Q f S (-1) (-1) = .ok H ∧
    calcHm0 (realList (exactAxis f0 h f.length)) ⟨[S.length], realList S⟩ (-1) (.fin (-1)) = .ok Hx ∧
    |((H : ℚ) : ℝ) - Hx| ≤ (((f0 + f.length * h) / h / 2 ^ 44 : ℚ) : ℝ) * Hx := by
  obtain ⟨v, e1, dv, nv⟩ := moment_value_double R P A h2 hl acc hS (m := 0) (by norm_num)
  obtain ⟨ex, -⟩ := exact_getters A h2 hl acc hS
  obtain ⟨t1, t2⟩ := tol_range A h2
  have t0 : (1 : ℚ) / 2 ^ 50 ≤ (f0 + f.length * h) / h / 2 ^ 44 := le_trans (by norm_num) t1
  have vlo := (Near.pos t0 t2 nv (by norm_num)).1
  have M0 := nv.1
  have rng := momentValue_range A hl h2 hS (m := 0) (by norm_num)
  set M := momentValue f0 h S 0
  set t := (f0 + f.length * h) / h / 2 ^ 44
  have v0 : 0 ≤ v := by linarith
  refine ⟨f64 (4 * Q.sqrt v), 4 * Real.sqrt M, ?_, ?_, ?_⟩
  · unfold hm0F64 setFlimF64
    simp only [if_true, e1, bind, Except.bind]
    rw [if_neg (not_lt.2 v0)]
  · rw [ex]
    unfold heightOf
    rw [if_neg (not_lt.2 (by exact_mod_cast M0))]
  rw [one_mul] at nv
  have sq := sqrt_double Q t1 (t2.trans (by norm_num)) nv
  have T1 : (1 : ℝ) / 2 ^ 44 ≤ t := by
    have := (Rat.cast_le (K := ℝ)).2 t1
    push_cast at this
    exact this
  have T2 : (t : ℝ) ≤ 1 / 2 ^ 20 := by
    have := (Rat.cast_le (K := ℝ)).2 t2
    push_cast at this
    exact this
  set b := Real.sqrt (M : ℝ) with hb
  have b0 : 0 ≤ b := Real.sqrt_nonneg _
  have tb : 0 ≤ t * b := mul_nonneg (by linarith) b0
  have q1 : 1 / 2 * b ≤ ((Q.sqrt v : ℚ) : ℝ) ∧ ((Q.sqrt v : ℚ) : ℝ) ≤ 2 * b := by
    have := abs_le.1 sq
    have c : 3 / 5 * t * b ≤ 1 / 2 * b := mul_le_mul_of_nonneg_right (by linarith) b0
    constructor <;> linarith
  have rnd : |((f64 (4 * Q.sqrt v) : ℚ) : ℝ) - 4 * ((Q.sqrt v : ℚ) : ℝ)| ≤ 8 * b / 2 ^ 53 := by
    have key : |f64 (4 * Q.sqrt v) - 4 * Q.sqrt v| ≤ |4 * Q.sqrt v| / 2 ^ 53 := by
      rcases rng with hz | ⟨lo, -⟩
      · have : b = 0 := by rw [hb, hz]; simp
        have : ((Q.sqrt v : ℚ) : ℝ) = 0 := by rw [this] at q1; linarith [q1.1, q1.2]
        have : Q.sqrt v = 0 := by exact_mod_cast this
        rw [this, mul_zero, f64_zero]; simp
      · apply f64_error_normal
        have b1 : ((1 / 2 ^ 235 : ℚ) : ℝ) ≤ b := by
          rw [hb]
          apply Real.le_sqrt_of_sq_le
          have : ((1 / 2 ^ 235 : ℚ)) ^ 2 ≤ M := by
            refine le_trans (le_of_eq ?_) lo
            rw [div_pow, one_pow, ← pow_mul]
          exact_mod_cast this
        have : ((1 / 2 ^ 236 : ℚ) : ℝ) ≤ ((Q.sqrt v : ℚ) : ℝ) := by
          refine le_trans ?_ q1.1
          have e : (1 / 2 ^ 236 : ℚ) = 1 / 2 * (1 / 2 ^ 235) := by norm_num
          rw [e]
          push_cast at b1 ⊢
          linarith
        have ql : 1 / 2 ^ 236 ≤ Q.sqrt v := by exact_mod_cast this
        rw [abs_of_nonneg (by have : (0 : ℚ) ≤ 1 / 2 ^ 236 := by positivity
                              linarith)]
        have c : (2 : ℚ) ^ (-1022 : ℤ) ≤ 1 / 2 ^ 236 := by
          rw [zpow_neg, ← one_div]
          exact one_div_le_one_div_of_le (by positivity) (by exact_mod_cast pow_le_pow_right₀ (by norm_num : (1 : ℚ) ≤ 2) (by norm_num : 236 ≤ 1022))
        have : (0 : ℚ) ≤ 1 / 2 ^ 236 := by positivity
        linarith
    have k2 : |((f64 (4 * Q.sqrt v) : ℚ) : ℝ) - 4 * ((Q.sqrt v : ℚ) : ℝ)| ≤ |4 * ((Q.sqrt v : ℚ) : ℝ)| / 2 ^ 53 := by
      have := (Rat.cast_le (K := ℝ)).2 key
      push_cast at this
      exact this
    refine k2.trans ?_
    rw [abs_of_nonneg (by linarith [q1.1])]
    have : 4 * ((Q.sqrt v : ℚ) : ℝ) ≤ 8 * b := by linarith [q1.2]
    exact div_le_div_of_nonneg_right this (by positivity)
  have tri := abs_sub_le ((f64 (4 * Q.sqrt v) : ℚ) : ℝ) (4 * ((Q.sqrt v : ℚ) : ℝ)) (4 * b)
  have : |4 * ((Q.sqrt v : ℚ) : ℝ) - 4 * b| ≤ 4 * (3 / 5 * t * b) := by
    rw [← mul_sub, abs_mul, abs_of_pos (by norm_num : (0 : ℝ) < 4)]
    exact mul_le_mul_of_nonneg_left sq (by norm_num)
  have c : 8 * b / 2 ^ 53 ≤ 1 / 5 * t * b := by
    have : 8 / 2 ^ 53 ≤ 1 / 5 * (t : ℝ) := by linarith
    calc _ = 8 / 2 ^ 53 * b := by ring
      _ ≤ _ := mul_le_mul_of_nonneg_right this b0
  calc _ ≤ 1 / 5 * t * b + 4 * (3 / 5 * t * b) := by linarith
    _ ≤ t * (4 * b) := by linarith

/-- **C124 (mean periods).**  The mean periods `Tm-1,0` and `Tm01` computed in double precision are non-finite exactly when the exact ones are;
otherwise they are the exact ones up to a relative error of `5/2 (f_max + h) / h / 2 ^ 44`. -/
theorem mean_periods_double :
    (∀ T, calcTmm10 (realList (exactAxis f0 h f.length)) ⟨[S.length], realList S⟩ (-1) (.fin (-1)) = .ok T →
      ∃ T', tmm10F64 R P f S (-1) (-1) = .ok T' ∧ |((T' : ℚ) : ℝ) - T| ≤ 5 / 2 * (((f0 + f.length * h) / h / 2 ^ 44 : ℚ) : ℝ) * T) ∧
    (∀ T, calcTm01 (realList (exactAxis f0 h f.length)) ⟨[S.length], realList S⟩ (-1) (.fin (-1)) = .ok T →
      ∃ T', tm01F64 R P f S (-1) (-1) = .ok T' ∧ |((T' : ℚ) : ℝ) - T| ≤ 5 / 2 * (((f0 + f.length * h) / h / 2 ^ 44 : ℚ) : ℝ) * T) ∧
    (∀ e, calcTmm10 (realList (exactAxis f0 h f.length)) ⟨[S.length], realList S⟩ (-1) (.fin (-1)) = .error e →
      e = .nonFinite ∧ tmm10F64 R P f S (-1) (-1) = .error .nonFinite) ∧
    (∀ e, calcTm01 (realList (exactAxis f0 h f.length)) ⟨[S.length], realList S⟩ (-1) (.fin (-1)) = .error e →
      e = .nonFinite ∧ tm01F64 R P f S (-1) (-1) = .error .nonFinite) := by
  obtain ⟨vm, em, -, nm⟩ := moment_value_double R P A h2 hl acc hS (m := -1) (by norm_num)
  obtain ⟨v0, e0, -, n0⟩ := moment_value_double R P A h2 hl acc hS (m := 0) (by norm_num)
  obtain ⟨v1, e1, -, n1⟩ := moment_value_double R P A h2 hl acc hS (m := 1) (by norm_num)
  obtain ⟨-, x1, x2, -⟩ := exact_getters A h2 hl acc hS
  obtain ⟨z1, q1⟩ := quotient_double A h2 hl hS (by norm_num) (by norm_num) nm n0
  obtain ⟨z2, q2⟩ := quotient_double A h2 hl hS (by norm_num) (by norm_num) n0 n1
  rw [x1, x2]
  have u1 : tmm10F64 R P f S (-1) (-1) = divF64 vm v0 := by
    unfold tmm10F64 setFlimF64
    simp only [if_true, em, e0, bind, Except.bind]
  have u2 : tm01F64 R P f S (-1) (-1) = divF64 v0 v1 := by
    unfold tm01F64 setFlimF64
    simp only [if_true, e1, e0, bind, Except.bind]
  rw [u1, u2]
  unfold divE
  have cast_near : ∀ {t q a b : ℚ}, Near (5 / 2 * t) q (a / b) → |((q : ℚ) : ℝ) - (a : ℝ) / (b : ℝ)| ≤ 5 / 2 * (t : ℝ) * ((a : ℝ) / (b : ℝ)) := by
    intro t q a b hn
    have := (Rat.cast_le (K := ℝ)).2 hn.2
    push_cast at this
    exact this
  refine ⟨fun T hT => ?_, fun T hT => ?_, fun e he => ?_, fun e he => ?_⟩
  · split_ifs at hT with hz
    obtain rfl := Except.ok.inj hT
    obtain ⟨q, a, -, b⟩ := q1 (by exact_mod_cast hz)
    exact ⟨q, a, cast_near b⟩
  · split_ifs at hT with hz
    obtain rfl := Except.ok.inj hT
    obtain ⟨q, a, -, b⟩ := q2 (by exact_mod_cast hz)
    exact ⟨q, a, cast_near b⟩
  · split_ifs at he with hz
    exact ⟨(Except.error.inj he).symm, z1 (by exact_mod_cast hz)⟩
  · split_ifs at he with hz
    exact ⟨(Except.error.inj he).symm, z2 (by exact_mod_cast hz)⟩

/-- **C124 (Tm02).**  Likewise for `Tm02 = sqrt(m0 / m2)`, with relative error `3/2 (f_max + h) / h / 2 ^ 44`. -/
theorem tm02_double :
    (∀ T, calcTm02 (realList (exactAxis f0 h f.length)) ⟨[S.length], realList S⟩ (-1) (.fin (-1)) = .ok T →
      ∃ T', tm02F64 R P Q f S (-1) (-1) = .ok T' ∧ |((T' : ℚ) : ℝ) - T| ≤ 3 / 2 * (((f0 + f.length * h) / h / 2 ^ 44 : ℚ) : ℝ) * T) ∧
    (∀ e, calcTm02 (realList (exactAxis f0 h f.length)) ⟨[S.length], realList S⟩ (-1) (.fin (-1)) = .error e →
      e = .nonFinite ∧ tm02F64 R P Q f S (-1) (-1) = .error .nonFinite) := by
  obtain ⟨v0, e0, -, n0⟩ := moment_value_double R P A h2 hl acc hS (m := 0) (by norm_num)
  obtain ⟨v2, e2, -, n2⟩ := moment_value_double R P A h2 hl acc hS (m := 2) (by norm_num)
  obtain ⟨-, -, -, x3⟩ := exact_getters A h2 hl acc hS
  obtain ⟨z2, q2⟩ := quotient_double A h2 hl hS (by norm_num) (by norm_num) n0 n2
  obtain ⟨t1, t2⟩ := tol_range A h2
  rw [x3]
  have u2 : tm02F64 R P Q f S (-1) (-1) = (divF64 v0 v2 >>= fun q => if q < 0 then .error .nonFinite else .ok (Q.sqrt q)) := by
    unfold tm02F64 setFlimF64
    simp only [if_true, e2, e0, bind, Except.bind]
  rw [u2]
  by_cases hz : momentValue f0 h S 2 = 0
  · rw [z2 hz]
    unfold divE
    rw [if_pos (by exact_mod_cast hz)]
    refine ⟨fun T hT => ?_, fun e he => ?_⟩
    · cases hT
    exact ⟨(Except.error.inj he).symm, rfl⟩
  · obtain ⟨q, a, -, b⟩ := q2 hz
    rw [a]
    unfold divE
    rw [if_neg (by exact_mod_cast hz)]
    have M0 : 0 ≤ momentValue f0 h S 0 / momentValue f0 h S 2 := b.1
    have MR : (0 : ℝ) ≤ ((momentValue f0 h S 0 : ℚ) : ℝ) / ((momentValue f0 h S 2 : ℚ) : ℝ) := by exact_mod_cast M0
    have qlo := (Near.pos (le_trans (by norm_num) t1) t2 b (by norm_num)).1
    have s1 : ((.ok (((momentValue f0 h S 0 : ℚ) : ℝ) / ((momentValue f0 h S 2 : ℚ) : ℝ)) : Except PyErr ℝ) >>= sqrtE) =
        .ok (Real.sqrt (((momentValue f0 h S 0 : ℚ) : ℝ) / ((momentValue f0 h S 2 : ℚ) : ℝ))) := by
      show sqrtE _ = _
      unfold sqrtE
      rw [if_neg (not_lt.2 MR)]
    have s2 : ((.ok q : Except PyErr ℚ) >>= fun q => if q < 0 then .error .nonFinite else .ok (Q.sqrt q)) = .ok (Q.sqrt q) := by
      show (if q < 0 then (.error .nonFinite : Except PyErr ℚ) else .ok (Q.sqrt q)) = _
      rw [if_neg (by linarith)]
    rw [s1, s2]
    refine ⟨fun T hT => ?_, fun e he => by cases he⟩
    obtain rfl := Except.ok.inj hT
    refine ⟨_, rfl, ?_⟩
    have := sqrt_double Q (by linarith) (by linarith) b
    push_cast at this ⊢
    refine this.trans (le_of_eq ?_)
    ring

end

/-! ## The axis of a record -/

/-- **C124 (records).**  The frequency axis of the raw spectrum of a record of `N` samples at steps `dt`, computed in double precision, is such an
axis, with the steps `1 / (N dt)`, and it passes the test of `compute_moment`. -/
theorem record_axis_double {t : List ℚ} {dt : ℚ} (hdt : dt = f64 (t.getD 1 0 - t.getD 0 0)) (hn : 2 ≤ t.length) (hn' : t.length ≤ 2 ^ 24)
    (hlo : 1 / 2 ^ 10 ≤ dt) (hhi : dt ≤ 2 ^ 5) :
    AxisDouble (nyquistAxisF64 t) 0 (1 / (t.length * dt)) ∧ (nyquistAxisF64 t).length = t.length / 2 + 1 ∧
      monotonicF64 (nyquistAxisF64 t) = .ok true := by
  have d0 : 0 < dt := lt_of_lt_of_le (by positivity) hlo
  have nq : (2 : ℚ) ≤ t.length := by exact_mod_cast hn
  have nq' : (t.length : ℚ) ≤ 2 ^ 24 := by exact_mod_cast hn'
  have len : (nyquistAxisF64 t).length = t.length / 2 + 1 := by
    unfold nyquistAxisF64 fftAxisF64
    simp only [List.length_take, List.length_map, List.length_range]
    omega
  have get : ∀ i, i < t.length / 2 + 1 → (nyquistAxisF64 t).getD i 0 = (fftAxisF64 t).getD i 0 := by
    intro i hi
    have fl : (fftAxisF64 t).length = t.length := by simp [fftAxisF64]
    rw [List.getD_eq_getElem _ _ (by omega), List.getD_eq_getElem _ _ (by omega)]
    unfold nyquistAxisF64
    rw [List.getElem_take]
  have nd0 : 0 < (t.length : ℚ) * dt := by positivity
  have near : ∀ i < (nyquistAxisF64 t).length,
      |(nyquistAxisF64 t).getD i 0 - (0 + i * (1 / (t.length * dt)))| ≤ (0 + i * (1 / (t.length * dt))) / 2 ^ 50 := by
    intro i hi
    rw [len] at hi
    have := fft_axis_double hdt (by omega) (by omega) (le_trans (by norm_num) hlo) (hhi.trans (by norm_num)) (show i < t.length by omega)
    rw [get i hi, zero_add, mul_one_div]
    exact this
  have h1 : 1 / 2 ^ 29 ≤ 1 / ((t.length : ℚ) * dt) := by
    apply one_div_le_one_div_of_le nd0
    calc (t.length : ℚ) * dt ≤ 2 ^ 24 * 2 ^ 5 := mul_le_mul nq' hhi d0.le (by positivity)
      _ = 2 ^ 29 := by norm_num
  have h2 : 1 / ((t.length : ℚ) * dt) ≤ 2 ^ 9 := by
    rw [div_le_iff₀ nd0]
    have : 2 * (1 / 2 ^ 10) ≤ (t.length : ℚ) * dt := mul_le_mul nq hlo (by positivity) (by linarith)
    linarith
  refine ⟨⟨?_, le_trans (by norm_num) h1, h2.trans (by norm_num), .inl rfl, near, ?_⟩, len, ?_⟩
  · intro x hx
    unfold nyquistAxisF64 fftAxisF64 at hx
    obtain ⟨i, -, rfl⟩ := List.mem_map.1 (List.mem_of_mem_take hx)
    exact f64_double _
  · rw [zero_add, len]
    refine mul_le_mul_of_nonneg_right ?_ (by positivity)
    have : t.length / 2 + 1 ≤ 2 ^ 24 := by omega
    exact_mod_cast this
  · refine axis_noise_accepted (by omega) (t0 := 0) (le_trans (by norm_num) h1) (h2.trans (by norm_num)) fun i hi => (near i hi).trans ?_
    rw [len] at hi
    have ci : (i : ℚ) ≤ t.length / 2 := by
      rw [le_div_iff₀ (by norm_num)]
      have : i * 2 ≤ t.length := by omega
      exact_mod_cast this
    have : (i : ℚ) * (1 / (t.length * dt)) ≤ 2 ^ 9 := by
      have e : (t.length : ℚ) / 2 * (1 / (t.length * dt)) = 1 / dt / 2 := by field_simp
      have : 1 / dt ≤ 2 ^ 10 := by
        rw [div_le_iff₀ d0]
        linarith
      calc _ ≤ (t.length : ℚ) / 2 * (1 / (t.length * dt)) := mul_le_mul_of_nonneg_right ci (by positivity)
        _ ≤ 2 ^ 9 := by rw [e]; linarith
    rw [zero_add]
    linarith

/-! ## Examples -/

/-- Correct rounding is a possible `x ** n`. -/
def roundPow : NpPow where
  pow := fun x n => f64 (x ^ n)
  double := fun x n => f64_double _
  one := fun x => by rw [zpow_zero]; exact f64_of_double (by exact_mod_cast isDouble_nat (n := 1) (by norm_num))
  zero := fun n hn => by rw [zero_zpow n hn.ne', f64_zero]
  spec := by
    intro x n h1 h2 hn
    have x0 : 0 < x := lt_of_lt_of_le (by positivity) h1
    have y0 : 0 < x ^ n := zpow_pos x0 n
    have lo : (2 : ℚ) ^ (-1022 : ℤ) ≤ x ^ n := by
      have ix : 1 / 2 ^ 200 ≤ 1 / x := one_div_le_one_div_of_le x0 h2
      have small : ∀ v : ℚ, 1 / 2 ^ 200 ≤ v → ∀ k : ℕ, k ≤ 3 → (2 : ℚ) ^ (-1022 : ℤ) ≤ v ^ k := by
        intro v hv k hk
        have a : (1 / 2 ^ 200 : ℚ) ^ 3 ≤ (1 / 2 ^ 200 : ℚ) ^ k := pow_le_pow_of_le_one (by positivity) (by
          rw [div_le_one (by positivity)]; exact one_le_pow₀ (by norm_num)) hk
        have b : (1 / 2 ^ 200 : ℚ) ^ k ≤ v ^ k := pow_le_pow_left₀ (by positivity) hv k
        have c : (2 : ℚ) ^ (-1022 : ℤ) ≤ (1 / 2 ^ 200 : ℚ) ^ 3 := by
          rw [zpow_neg, ← one_div, div_pow, one_pow, ← pow_mul]
          exact one_div_le_one_div_of_le (by positivity) (by exact_mod_cast pow_le_pow_right₀ (by norm_num : (1 : ℚ) ≤ 2) (by norm_num : 200 * 3 ≤ 1022))
        linarith
      have := abs_le.1 hn
      rcases le_total 0 n with h | h
      · obtain ⟨k, rfl⟩ := Int.eq_ofNat_of_zero_le h
        rw [zpow_natCast]
        exact small x h1 k (by omega)
      · obtain ⟨k, hk⟩ := Int.eq_ofNat_of_zero_le (by omega : 0 ≤ -n)
        have e : n = -(k : ℤ) := by omega
        rw [e, zpow_neg x, zpow_natCast x, ← inv_pow, ← one_div x]
        exact small (1 / x) ix k (by omega)
    have := f64_error_normal (x := x ^ n) (by rwa [abs_of_pos y0])
    rw [abs_of_pos y0] at this
    linarith

example : AxisDouble [0, 1 / 4, 1 / 2, 3 / 4] 0 (1 / 4) ∧ (∀ s ∈ ([0, 1, 3, 2] : List ℚ), IsDensity s) := by
  refine ⟨⟨?_, by norm_num, by norm_num, .inl rfl, ?_, by norm_num⟩, ?_⟩
  · intro x hx
    simp only [List.mem_cons, List.not_mem_nil, or_false] at hx
    rcases hx with rfl | rfl | rfl | rfl
    · exact isDouble_zero
    · exact ⟨1, -2, by norm_num, by norm_num, by norm_num⟩
    · exact ⟨1, -1, by norm_num, by norm_num, by norm_num⟩
    · exact ⟨3, -2, by norm_num, by norm_num, by norm_num⟩
  · intro i hi
    have : i < 4 := by simpa using hi
    interval_cases i <;> norm_num
  · intro s hs
    simp only [List.mem_cons, List.not_mem_nil, or_false] at hs
    rcases hs with rfl | rfl | rfl | rfl
    · exact ⟨isDouble_zero, .inl rfl⟩
    · exact ⟨⟨1, 0, by norm_num, by norm_num, by norm_num⟩, .inr (by norm_num)⟩
    · exact ⟨⟨3, 0, by norm_num, by norm_num, by norm_num⟩, .inr (by norm_num)⟩
    · exact ⟨⟨2, 0, by norm_num, by norm_num, by norm_num⟩, .inr (by norm_num)⟩


/-- Four frequencies: the exact moments of orders 0 and −1 are 61/48 and 23/9; the computed ones differ in the last digits. -/
theorem small_spectrum : momentValue 0 (1 / 4) [0, 1, 3, 2] 0 = 61 / 48 ∧ momentValue 0 (1 / 4) [0, 1, 3, 2] (-1) = 23 / 9 ∧
    (computeMomentF64 seqSum roundPow [0, 1 / 4, 1 / 2, 3 / 4] [0, 1, 3, 2] 0 0 (3 / 4)).toOption = some (5723324526450005 / 4503599627370496) ∧
    (computeMomentF64 seqSum roundPow [0, 1 / 4, 1 / 2, 3 / 4] [0, 1, 3, 2] (-1) 0 (3 / 4)).toOption = some (1438649880965575 / 562949953421312) := by
  refine ⟨?_, ?_, ?_, ?_⟩
  · norm_num [momentValue, sum_range_succ, simpsonWeight]
  · norm_num [momentValue, sum_range_succ, simpsonWeight, List.getD]
  · decide +kernel
  · decide +kernel

example : monotonicF64 [0, 1 / 4, 1 / 2, 3 / 4] = .ok true := by
  refine axis_noise_accepted (by norm_num) (t0 := 0) (h := 1 / 4) (by norm_num) (by norm_num) fun i hi => ?_
  have : i < 4 := by simpa using hi
  interval_cases i <;> norm_num

/-! ## Concrete cases: the hypotheses of the theorems above are met -/

/-- The four-point frequency axis of the cases below. -/
abbrev quarterAxis : List ℚ := [0, 1 / 4, 1 / 2, 3 / 4]

theorem quarterAxis_double : AxisDouble quarterAxis 0 (1 / 4) := by
  refine ⟨?_, by norm_num, by norm_num, .inl rfl, ?_, by norm_num⟩
  · intro x hx
    simp only [List.mem_cons, List.not_mem_nil, or_false] at hx
    rcases hx with rfl | rfl | rfl | rfl
    · exact isDouble_zero
    · exact ⟨1, -2, by norm_num, by norm_num, by norm_num⟩
    · exact ⟨1, -1, by norm_num, by norm_num, by norm_num⟩
    · exact ⟨3, -2, by norm_num, by norm_num, by norm_num⟩
  · intro i hi
    have : i < 4 := by simpa using hi
    interval_cases i <;> norm_num

theorem quarterAxis_accepted : monotonicF64 quarterAxis = .ok true := by
  refine axis_noise_accepted (by norm_num) (t0 := 0) (h := 1 / 4) (by norm_num) (by norm_num) fun i hi => ?_
  have : i < 4 := by simpa using hi
  interval_cases i <;> norm_num

theorem densities_four : ∀ s ∈ ([0, 1, 3, 2] : List ℚ), IsDensity s := by
  intro s hs
  simp only [List.mem_cons, List.not_mem_nil, or_false] at hs
  rcases hs with rfl | rfl | rfl | rfl
  · exact ⟨isDouble_zero, .inl rfl⟩
  · exact ⟨⟨1, 0, by norm_num, by norm_num, by norm_num⟩, .inr (by norm_num)⟩
  · exact ⟨⟨3, 0, by norm_num, by norm_num, by norm_num⟩, .inr (by norm_num)⟩
  · exact ⟨⟨2, 0, by norm_num, by norm_num, by norm_num⟩, .inr (by norm_num)⟩

example (R : NpSum) (P : NpPow) : ∃ v M, computeMomentF64 R P quarterAxis [0, 1, 3, 2] (-1) (-1) (-1) = .ok v ∧ IsDouble v ∧
    computeMoment (vec (exactAxis 0 (1 / 4) 4)) (vec ([0, 1, 3, 2] : List ℚ)) (-1) (-1) (.fin (-1)) = .ok M ∧
    0 ≤ M ∧ |v - M| ≤ (0 + (4 : ℕ) * (1 / 4)) / (1 / 4) / 2 ^ 44 * M :=
  moment_double R P quarterAxis_double (by simp) (S := [0, 1, 3, 2]) rfl quarterAxis_accepted
    (fun s hs => (densities_four s hs).isSize) (m := -1) (by norm_num) (.inl (.inl rfl))

example (R : NpSum) (P : NpPow) (Q : NpSqrt) : ∃ H Hx, hm0F64 R P Q quarterAxis [0, 1, 3, 2] (-1) (-1) = .ok H ∧
    calcHm0 (realList (exactAxis 0 (1 / 4) 4)) ⟨[4], realList [0, 1, 3, 2]⟩ (-1) (.fin (-1)) = .ok Hx ∧
    |((H : ℚ) : ℝ) - Hx| ≤ (((0 + (4 : ℕ) * (1 / 4)) / (1 / 4) / 2 ^ 44 : ℚ) : ℝ) * Hx :=
  hm0_double R P Q quarterAxis_double (by simp) (S := [0, 1, 3, 2]) rfl quarterAxis_accepted densities_four

example (R : NpSum) (P : NpPow) (T : ℝ)
    (hT : calcTm01 (realList (exactAxis 0 (1 / 4) 4)) ⟨[4], realList [0, 1, 3, 2]⟩ (-1) (.fin (-1)) = .ok T) :
    ∃ T', tm01F64 R P quarterAxis [0, 1, 3, 2] (-1) (-1) = .ok T' :=
  let ⟨T', h, _⟩ := (mean_periods_double R P quarterAxis_double (by simp) (S := [0, 1, 3, 2]) rfl quarterAxis_accepted densities_four).2.1 T hT
  ⟨T', h⟩

example (R : NpSum) (P : NpPow) (Q : NpSqrt) (T : ℝ)
    (hT : calcTm02 (realList (exactAxis 0 (1 / 4) 4)) ⟨[4], realList [0, 1, 3, 2]⟩ (-1) (.fin (-1)) = .ok T) :
    ∃ T', tm02F64 R P Q quarterAxis [0, 1, 3, 2] (-1) (-1) = .ok T' :=
  let ⟨T', h, _⟩ := (tm02_double R P Q quarterAxis_double (by simp) (S := [0, 1, 3, 2]) rfl quarterAxis_accepted densities_four).1 T hT
  ⟨T', h⟩

example : AxisDouble (nyquistAxisF64 eightSeconds) 0 (1 / ((8 : ℕ) * 1)) ∧ (nyquistAxisF64 eightSeconds).length = 8 / 2 + 1 ∧
    monotonicF64 (nyquistAxisF64 eightSeconds) = .ok true :=
  record_axis_double eightSeconds_step (by simp) (by simp) (by norm_num) (by norm_num)

end Verif
