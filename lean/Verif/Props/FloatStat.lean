import Verif.Model.FloatStat
import Verif.Props.Float64
import Verif.Props.HeightLaws
import Mathlib.Algebra.Order.BigOperators.Group.List

/-! # C120: wave statistics in double precision, whatever the order of addition -/

namespace Verif

theorem f64_error_normal {x : ℚ} (h : (2 : ℚ) ^ (-1022 : ℤ) ≤ |x|) : |f64 x - x| ≤ |x| / 2 ^ 53 := by
  have h0 : x ≠ 0 := by
    rintro rfl
    have : (0 : ℚ) < 2 ^ (-1022 : ℤ) := by positivity
    rw [abs_zero] at h
    exact absurd h (not_le.2 this)
  have hq : (0 : ℚ) < 2 ^ ulpExp x := by positivity
  obtain ⟨b1, b2⟩ := log_bounds h0
  have hE : ulpExp x = Int.log 2 |x| - 52 := by
    unfold ulpExp
    apply max_eq_left
    have : (2 : ℚ) ^ (-1022 : ℤ) < 2 ^ (Int.log 2 |x| + 1) := lt_of_le_of_lt h b2
    have := (zpow_lt_zpow_iff_right₀ (by norm_num : (1 : ℚ) < 2)).1 this
    omega
  obtain ⟨r, -⟩ := roundHalfEven_spec (x / 2 ^ ulpExp x)
  rw [f64_def h0]
  set n := roundHalfEven (x / 2 ^ ulpExp x)
  have ex : x = x / 2 ^ ulpExp x * 2 ^ ulpExp x := by field_simp
  have e : |(n : ℚ) * 2 ^ ulpExp x - x| = |(n : ℚ) - x / 2 ^ ulpExp x| * 2 ^ ulpExp x := by
    conv_lhs => rw [ex, ← ex]
    rw [show (n : ℚ) * 2 ^ ulpExp x - x = ((n : ℚ) - x / 2 ^ ulpExp x) * 2 ^ ulpExp x by rw [sub_mul, ← ex], abs_mul, abs_of_pos hq]
  rw [e]
  have e52 : (2 : ℚ) ^ Int.log 2 |x| = 2 ^ 52 * 2 ^ ulpExp x := by
    rw [hE, show (2 : ℚ) ^ 52 = 2 ^ (52 : ℤ) by norm_cast, ← zpow_add₀ (by norm_num)]
    congr 1; ring
  rw [e52] at b1
  rw [le_div_iff₀ (by positivity)]
  calc _ ≤ (1 / 2 : ℚ) * 2 ^ ulpExp x * 2 ^ 53 := by
        refine mul_le_mul_of_nonneg_right (mul_le_mul_of_nonneg_right r hq.le) (by positivity)
    _ = (2 : ℚ) ^ 52 * 2 ^ ulpExp x := by ring
    _ ≤ _ := b1

/-- A double is a whole multiple of `2 ^ -1074`. -/
theorem IsDouble.multiple {x : ℚ} (h : IsDouble x) : ∃ k : ℤ, x = k * 2 ^ (-1074 : ℤ) := by
  obtain ⟨m, e, -, he, rfl⟩ := h
  obtain ⟨j, hj⟩ : ∃ j : ℕ, e = -1074 + j := ⟨(e + 1074).toNat, by omega⟩
  refine ⟨m * 2 ^ j, ?_⟩
  rw [hj, zpow_add₀ (by norm_num)]
  push_cast
  rw [zpow_natCast]
  ring

/-- Adding two doubles has a relative error of at most `2 ^ -53`, underflow included (sums in the subnormal range are exact). -/
theorem f64_add_error {a b : ℚ} (ha : IsDouble a) (hb : IsDouble b) : |f64 (a + b) - (a + b)| ≤ |a + b| / 2 ^ 53 := by
  by_cases h : (2 : ℚ) ^ (-1022 : ℤ) ≤ |a + b|
  · exact f64_error_normal h
  · obtain ⟨j, hj⟩ := ha.multiple
    obtain ⟨k, hk⟩ := hb.multiple
    have e : a + b = ((j + k : ℤ) : ℚ) * 2 ^ (-1074 : ℤ) := by rw [hj, hk]; push_cast; ring
    have hd : IsDouble (a + b) := by
      refine ⟨j + k, -1074, ?_, le_refl _, e⟩
      rw [e, abs_mul, abs_of_pos (by positivity : (0 : ℚ) < 2 ^ (-1074 : ℤ)), not_le,
        show (2 : ℚ) ^ (-1022 : ℤ) = 2 ^ 52 * 2 ^ (-1074 : ℤ) by
          rw [show (2 : ℚ) ^ 52 = 2 ^ (52 : ℤ) by norm_cast, ← zpow_add₀ (by norm_num)]; norm_num] at h
      have := lt_of_mul_lt_mul_right h (by positivity)
      have h2 : |j + k| < 2 ^ 52 := by exact_mod_cast this
      omega
    rw [f64_of_double hd, sub_self, abs_zero]
    positivity

theorem abs_sum_le_list (l : List ℚ) : |l.sum| ≤ (l.map fun x => |x|).sum := by
  induction l with
  | nil => simp
  | cons a l ih =>
    simp only [List.sum_cons, List.map_cons]
    exact (abs_add_le _ _).trans (by linarith)

/-- Unit roundoff. -/
def unitRound : ℚ := 1 / 2 ^ 53

theorem unitRound_pos : 0 < unitRound := by unfold unitRound; positivity

/-- Number of non-zero elements. -/
def nnz (l : List ℚ) : ℕ := l.countP (fun x => decide (x ≠ 0))

theorem nnz_zero {l : List ℚ} (h : nnz l = 0) : ∀ x ∈ l, x = 0 := by
  intro x hx
  have := List.countP_eq_zero.1 h x hx
  simpa using this

theorem SumTree.eval_double : ∀ (T : SumTree), (∀ x ∈ T.leaves, IsDouble x) → IsDouble T.eval
  | .leaf x, h => h x (by simp [SumTree.leaves])
  | .add l r, _ => f64_double _

/-- Rounding errors of a sum in any order: `n` non-zero terms give at most `(1 + u) ^ (n - 1) - 1` relative to the sum of the sizes. -/
theorem SumTree.error : ∀ (T : SumTree), (∀ x ∈ T.leaves, IsDouble x) →
    (nnz T.leaves = 0 → T.eval = 0) ∧
      |T.eval - T.leaves.sum| ≤ ((1 + unitRound) ^ (nnz T.leaves - 1) - 1) * (T.leaves.map fun x => |x|).sum
  | .leaf x, _ => by
    refine ⟨fun h => nnz_zero h x (by simp [SumTree.leaves]), ?_⟩
    have : nnz [x] - 1 = 0 := by
      have : nnz [x] ≤ 1 := List.countP_le_length
      omega
    simp [SumTree.leaves, SumTree.eval, this]
  | .add l r, h => by
    have hl : ∀ x ∈ l.leaves, IsDouble x := fun x hx => h x (by simp [SumTree.leaves, hx])
    have hr : ∀ x ∈ r.leaves, IsDouble x := fun x hx => h x (by simp [SumTree.leaves, hx])
    obtain ⟨l0, el⟩ := SumTree.error l hl
    obtain ⟨r0, er⟩ := SumTree.error r hr
    have dl := l.eval_double hl
    have dr := r.eval_double hr
    have hn : nnz (SumTree.add l r).leaves = nnz l.leaves + nnz r.leaves := List.countP_append
    have hs : (SumTree.add l r).leaves.sum = l.leaves.sum + r.leaves.sum := List.sum_append
    have ha : ((SumTree.add l r).leaves.map fun x => |x|).sum = (l.leaves.map fun x => |x|).sum + (r.leaves.map fun x => |x|).sum := by
      simp only [SumTree.leaves, List.map_append, List.sum_append]
    have zsum : ∀ T : SumTree, nnz T.leaves = 0 → T.leaves.sum = 0 ∧ (T.leaves.map fun x => |x|).sum = 0 := by
      intro T hT
      have := nnz_zero hT
      constructor
      · exact List.sum_eq_zero this
      · apply List.sum_eq_zero
        intro y hy
        obtain ⟨x, hx, rfl⟩ := List.mem_map.1 hy
        rw [this x hx, abs_zero]
    rw [hn, hs, ha]
    change (_ → f64 (l.eval + r.eval) = 0) ∧ |f64 (l.eval + r.eval) - _| ≤ _
    by_cases c1 : nnz l.leaves = 0
    · obtain ⟨z1, z2⟩ := zsum l c1
      rw [l0 c1, zero_add, f64_of_double dr, c1, z1, z2, zero_add, zero_add, zero_add]
      exact ⟨fun h => r0 h, er⟩
    by_cases c2 : nnz r.leaves = 0
    · obtain ⟨z1, z2⟩ := zsum r c2
      rw [r0 c2, add_zero, f64_of_double dl, c2, z1, z2, add_zero, add_zero, add_zero]
      exact ⟨fun h => l0 h, el⟩
    refine ⟨fun h => by omega, ?_⟩
    set u := unitRound with hu
    have up : 0 < u := unitRound_pos
    set m1 := nnz l.leaves
    set m2 := nnz r.leaves
    set A1 := (l.leaves.map fun x => |x|).sum
    set A2 := (r.leaves.map fun x => |x|).sum
    have A1p : 0 ≤ A1 := List.sum_nonneg (by
      intro y hy
      obtain ⟨x, _, rfl⟩ := List.mem_map.1 hy
      exact abs_nonneg x)
    have A2p : 0 ≤ A2 := List.sum_nonneg (by
      intro y hy
      obtain ⟨x, _, rfl⟩ := List.mem_map.1 hy
      exact abs_nonneg x)
    have S1 : |l.leaves.sum| ≤ A1 := abs_sum_le_list _
    have S2 : |r.leaves.sum| ≤ A2 := abs_sum_le_list _
    have hf : |f64 (l.eval + r.eval) - (l.eval + r.eval)| ≤ |l.eval + r.eval| * u := by
      have := f64_add_error dl dr
      rw [hu]; unfold unitRound
      rw [mul_one_div]; exact this
    set g := (1 + u) ^ (m1 + m2 - 2) with hg
    have g1 : (1 + u) ^ (m1 - 1) ≤ g := pow_le_pow_right₀ (by linarith) (by omega)
    have g2 : (1 + u) ^ (m2 - 1) ≤ g := pow_le_pow_right₀ (by linarith) (by omega)
    have gg : (1 + u) ^ (m1 + m2 - 1) = g * (1 + u) := by
      rw [hg, ← pow_succ]; congr 1; omega
    have e1 : |l.eval - l.leaves.sum| ≤ (g - 1) * A1 := el.trans (mul_le_mul_of_nonneg_right (by linarith) A1p)
    have e2 : |r.eval - r.leaves.sum| ≤ (g - 1) * A2 := er.trans (mul_le_mul_of_nonneg_right (by linarith) A2p)
    rw [gg]
    have t1 : |l.eval + r.eval| ≤ g * (A1 + A2) := by
      have b1 := abs_add_le (l.eval - l.leaves.sum) l.leaves.sum
      have b2 := abs_add_le (r.eval - r.leaves.sum) r.leaves.sum
      rw [sub_add_cancel] at b1 b2
      have b3 := abs_add_le l.eval r.eval
      nlinarith
    have t2 : |f64 (l.eval + r.eval) - (l.leaves.sum + r.leaves.sum)| ≤
        |f64 (l.eval + r.eval) - (l.eval + r.eval)| + (|l.eval - l.leaves.sum| + |r.eval - r.leaves.sum|) := by
      have b1 := abs_add_le (f64 (l.eval + r.eval) - (l.eval + r.eval)) ((l.eval - l.leaves.sum) + (r.eval - r.leaves.sum))
      have b2 := abs_add_le (l.eval - l.leaves.sum) (r.eval - r.leaves.sum)
      rw [show f64 (l.eval + r.eval) - (l.leaves.sum + r.leaves.sum) =
        (f64 (l.eval + r.eval) - (l.eval + r.eval)) + ((l.eval - l.leaves.sum) + (r.eval - r.leaves.sum)) by ring]
      linarith
    have t3 : |l.eval + r.eval| * u ≤ g * (A1 + A2) * u := mul_le_mul_of_nonneg_right t1 up.le
    nlinarith

/-- `(1 + u) ^ n - 1 ≤ n / 2 ^ 52` for up to `2 ^ 52` roundings. -/
theorem growth {n : ℕ} (h : n ≤ 2 ^ 52) : (1 + unitRound) ^ n - 1 ≤ (n : ℚ) / 2 ^ 52 := by
  set u := unitRound with hu
  have up : 0 < u := unitRound_pos
  have hnu : (n : ℚ) * u ≤ 1 / 2 := by
    have : (n : ℚ) ≤ 2 ^ 52 := by exact_mod_cast h
    rw [hu]; unfold unitRound
    linarith
  have b : 1 - (n : ℚ) * u ≤ (1 - u) ^ n := by
    have := one_add_mul_le_pow (a := -u) (by rw [hu]; unfold unitRound; norm_num) n
    calc _ = 1 + (n : ℚ) * -u := by ring
      _ ≤ (1 + -u) ^ n := this
      _ = _ := by rw [← sub_eq_add_neg]
  have c : (1 + u) ^ n * (1 - u) ^ n ≤ 1 := by
    rw [← mul_pow]
    refine pow_le_one₀ ?_ ?_
    · rw [hu]; unfold unitRound; norm_num
    · nlinarith [sq_nonneg u]
  have p : 0 ≤ (1 + u) ^ n := by positivity
  have d : (1 + u) ^ n * (1 - (n : ℚ) * u) ≤ 1 := (mul_le_mul_of_nonneg_left b p).trans c
  have hnn : (0 : ℚ) ≤ (n : ℚ) * u := by positivity
  have e : (n : ℚ) / 2 ^ 52 = 2 * ((n : ℚ) * u) := by
    rw [hu]; unfold unitRound; ring
  rw [e]
  nlinarith

theorem nnz_le_length (l : List ℚ) : nnz l ≤ l.length := List.countP_le_length

/-- The sum of an array of non-negative doubles in any order. -/
theorem NpSum.error (R : NpSum) {l : List ℚ} (hd : ∀ x ∈ l, IsDouble x) (h0 : ∀ x ∈ l, 0 ≤ x) :
    |R.sum l - l.sum| ≤ ((1 + unitRound) ^ (l.length - 1) - 1) * l.sum := by
  obtain ⟨T, k, hp, he⟩ := R.spec l
  have hz : ∀ x ∈ T.leaves, x ∈ l ∨ x = 0 := by
    intro x hx
    have := hp.mem_iff.1 hx
    rcases List.mem_append.1 this with h | h
    · exact .inl h
    · exact .inr (List.eq_of_mem_replicate h)
  have hd' : ∀ x ∈ T.leaves, IsDouble x := by
    intro x hx
    rcases hz x hx with h | rfl
    · exact hd x h
    · exact ⟨0, 0, by norm_num, by norm_num, by norm_num⟩
  obtain ⟨-, e⟩ := T.error hd'
  have hs : T.leaves.sum = l.sum := by rw [hp.sum_eq]; simp
  have ha : (T.leaves.map fun x => |x|).sum = l.sum := by
    rw [← hs]
    congr 1
    conv_rhs => rw [← List.map_id T.leaves]
    apply List.map_congr_left
    intro x hx
    rcases hz x hx with h | rfl
    · exact abs_of_nonneg (h0 x h)
    · simp
  have hn : nnz T.leaves ≤ l.length := by
    have : nnz T.leaves = nnz l := by
      unfold nnz
      rw [hp.countP_eq, List.countP_append]
      have : List.countP (fun x => decide (x ≠ 0)) (List.replicate k (0 : ℚ)) = 0 := by
        rw [List.countP_eq_zero]
        intro x hx
        rw [List.eq_of_mem_replicate hx]; simp
      rw [this, add_zero]
    rw [this]; exact nnz_le_length l
  rw [hs, ha, he] at e
  refine e.trans (mul_le_mul_of_nonneg_right ?_ (List.sum_nonneg h0))
  have := pow_le_pow_right₀ (by linarith [unitRound_pos] : (1 : ℚ) ≤ 1 + unitRound) (show nnz T.leaves - 1 ≤ l.length - 1 by omega)
  linarith

/-- Sizes for which neither the squares nor the averages underflow: a double that is zero or at least `2 ^ -400`. -/
def IsSize (v : ℚ) : Prop := IsDouble v ∧ (v = 0 ∨ 1 / 2 ^ 400 ≤ v)

theorem IsSize.nonneg {v : ℚ} (h : IsSize v) : 0 ≤ v := by
  rcases h.2 with h | h
  · exact h.ge
  · exact le_trans (by positivity) h

/-- The mean of non-negative doubles in double precision, in any order of addition: relative error `(1 + u) ^ n - 1`. -/
theorem mean_error (R : NpSum) {l : List ℚ} (hne : l ≠ []) (hd : ∀ x ∈ l, IsDouble x) (h0 : ∀ x ∈ l, x = 0 ∨ 1 / 2 ^ 900 ≤ x)
    (hn : l.length ≤ 2 ^ 50) : |meanD R l - mean l| ≤ ((1 + unitRound) ^ l.length - 1) * mean l := by
  have hnn : ∀ x ∈ l, 0 ≤ x := fun x hx => by
    rcases h0 x hx with h | h
    · exact h.ge
    · exact le_trans (by positivity) h
  have hs := R.error hd hnn
  have lp : 0 < l.length := List.length_pos_of_ne_nil hne
  have lq : (0 : ℚ) < l.length := by exact_mod_cast lp
  have Sp : 0 ≤ l.sum := List.sum_nonneg hnn
  set u := unitRound with hu
  have up : 0 < u := unitRound_pos
  have hg : (1 + u) ^ (l.length - 1) - 1 ≤ 1 / 4 := by
    refine (growth (by omega)).trans ?_
    have : ((l.length - 1 : ℕ) : ℚ) ≤ 2 ^ 50 := by exact_mod_cast (by omega : l.length - 1 ≤ 2 ^ 50)
    linarith
  unfold meanD mean
  by_cases hz : l.sum = 0
  · rw [hz, mul_zero, sub_zero] at hs
    have : R.sum l = 0 := abs_eq_zero.1 (le_antisymm hs (abs_nonneg _))
    rw [this, hz, zero_div, f64_zero]; simp
  · have big : (1 : ℚ) / 2 ^ 900 ≤ l.sum := by
      obtain ⟨x, hx, hx0⟩ : ∃ x ∈ l, x ≠ 0 := by
        by_contra hc
        push Not at hc
        exact hz (List.sum_eq_zero hc)
      have := (h0 x hx).resolve_left hx0
      exact this.trans (List.single_le_sum hnn x hx)
    have lb := (abs_le.1 hs).1
    have lb2 : l.sum / 2 ≤ R.sum l := by nlinarith
    have nb : (2 : ℚ) ^ (-1022 : ℤ) ≤ |R.sum l / l.length| := by
      rw [abs_of_nonneg (div_nonneg (by linarith) lq.le), le_div_iff₀ lq]
      have ln : (l.length : ℚ) ≤ 2 ^ 50 := by exact_mod_cast hn
      have : (2 : ℚ) ^ (-1022 : ℤ) * l.length ≤ 2 ^ (-1022 : ℤ) * 2 ^ 50 := mul_le_mul_of_nonneg_left ln (by positivity)
      have h3 : (2 : ℚ) ^ (-1022 : ℤ) * 2 ^ 50 ≤ 1 / 2 ^ 900 / 2 := by
        rw [show (2 : ℚ) ^ 50 = 2 ^ (50 : ℤ) by norm_cast, ← zpow_add₀ (by norm_num), show (1 : ℚ) / 2 ^ 900 / 2 = 2 ^ (-901 : ℤ) by
          rw [zpow_neg, div_div, ← pow_succ, one_div]; norm_cast]
        exact zpow_le_zpow_right₀ (by norm_num) (by norm_num)
      linarith
    have fe := f64_error_normal nb
    have e1 : |R.sum l / l.length - l.sum / l.length| ≤ ((1 + u) ^ (l.length - 1) - 1) * (l.sum / l.length) := by
      rw [← sub_div, abs_div, abs_of_pos lq, div_le_iff₀ lq, mul_assoc, div_mul_cancel₀ _ lq.ne']
      exact hs
    set m := l.sum / (l.length : ℚ) with hm
    have mp : 0 ≤ m := div_nonneg Sp lq.le
    set g := (1 + u) ^ (l.length - 1) with hgd
    have gp : (1 + u) ^ l.length = g * (1 + u) := by
      rw [hgd, ← pow_succ]; congr 1; omega
    rw [gp]
    have t1 : |R.sum l / (l.length : ℚ)| ≤ g * m := by
      have := abs_add_le (R.sum l / (l.length : ℚ) - m) m
      rw [sub_add_cancel, abs_of_nonneg mp] at this
      linarith
    have t2 := abs_add_le (f64 (R.sum l / (l.length : ℚ)) - R.sum l / (l.length : ℚ)) (R.sum l / (l.length : ℚ) - m)
    rw [sub_add_sub_cancel] at t2
    have t3 : |R.sum l / (l.length : ℚ)| / 2 ^ 53 ≤ g * m * u := by
      rw [hu]; unfold unitRound; rw [mul_one_div]
      exact div_le_div_of_nonneg_right t1 (by positivity)
    nlinarith

theorem mean_nonneg' {l : List ℚ} (h : ∀ x ∈ l, 0 ≤ x) : 0 ≤ mean l := div_nonneg (List.sum_nonneg h) (Nat.cast_nonneg _)

/-- The mean of sizes, relative error `k / 2 ^ 52` if at most `k` elements are averaged. -/
theorem mean_double (R : NpSum) {l : List ℚ} {k : ℕ} (hne : l ≠ []) (hs : ∀ x ∈ l, IsSize x) (hk : l.length ≤ k) (hn : k ≤ 2 ^ 50) :
    |meanD R l - mean l| ≤ (k : ℚ) / 2 ^ 52 * mean l := by
  have h9 : (1 : ℚ) / 2 ^ 900 ≤ 1 / 2 ^ 400 := one_div_le_one_div_of_le (by positivity) (pow_le_pow_right₀ (by norm_num) (by norm_num))
  have := mean_error R hne (fun x hx => (hs x hx).1) (fun x hx => (hs x hx).2.imp_right fun h => h9.trans h) (by omega)
  refine this.trans (mul_le_mul_of_nonneg_right ?_ (mean_nonneg' fun x hx => (hs x hx).nonneg))
  refine (growth (by omega)).trans (div_le_div_of_nonneg_right (by exact_mod_cast hk) (by positivity))

/-- `highest_waves(p)` in double precision against the exact averages of the same waves, for any fraction. -/
theorem highest_D (R : NpSum) (A : Argsort ℚ) {s : WH ℚ} (hw : s.WF) (hn : s.hwave.len ≤ 2 ^ 50) (hh : ∀ v ∈ s.hwave.data, IsSize v)
    (ht : ∀ v ∈ s.twave.data, IsSize v) (p : ℚ) :
    (∃ e, (s.highestWavesF64 A p).1 = .error e ∧ (s.highestWavesD R A p).1 = .error e) ∨
    ∃ H T H' T', (s.highestWavesF64 A p).1 = .ok (H, T) ∧ (s.highestWavesD R A p).1 = .ok (H', T') ∧
      |H' - H| ≤ (min s.hwave.len (nWavePF64 s.hwave.len p).toNat : ℕ) / 2 ^ 52 * H ∧
      |T' - T| ≤ (min s.hwave.len (nWavePF64 s.hwave.len p).toNat : ℕ) / 2 ^ 52 * T := by
  have hsame := WH.sort_same A hw
  unfold WH.highestWavesF64 WH.highestWavesD
  rcases s.sort_cases A hw with ⟨e, he⟩ | ⟨h, t, hs, ts, e1, e2, h0, hc, e, l1, l2, hd, hp⟩
  · rw [he]; exact .inl ⟨e, rfl, rfl⟩
  · rw [e] at hsame ⊢
    simp only
    have hlen : s.hwave.len = h.length := by rw [e1]; rfl
    have mh : ∀ v ∈ hs, IsSize v := fun v hv => hh v (hsame.heights.mem_iff.1 (by exact hv))
    have mt : ∀ v ∈ ts, IsSize v := fun v hv => ht v (hsame.periods.mem_iff.1 (by exact hv))
    have len1 : (toArr (PyIn.nd (arr1 hs))).len = h.length := l1
    have len2 : (toArr (PyIn.nd (arr1 ts))).len = h.length := l2
    unfold highestWavesParamsF64 highestWavesParamsD
    simp only [len1, len2]
    split_ifs
    all_goals first
      | exact .inl ⟨_, rfl, rfl⟩
      | exact .inr ⟨0, 0, 0, 0, rfl, rfl, by simp, by simp⟩
      | skip
    rename_i c1 c2 c3 c4 c5 c6 c7
    right
    refine ⟨_, _, _, _, rfl, rfl, ?_⟩
    rw [hlen] at hn ⊢
    set k := (nWavePF64 h.length p).toNat with hk
    have kp : 0 < k := by omega
    have hpos : 0 < h.length := List.length_pos_of_ne_nil h0
    have bound : ∀ us : List ℚ, us.length = h.length → (∀ v ∈ us, IsSize v) →
        |meanD R (pySlice us 0 k) - mean (pySlice us 0 k)| ≤ (min h.length k : ℕ) / 2 ^ 52 * mean (pySlice us 0 k) := by
      intro us hl hu
      have hsl : pySlice us 0 k = us.take k := by unfold pySlice; simp
      rw [hsl]
      have htl : (us.take k).length = min h.length k := by rw [List.length_take, hl, min_comm]
      refine mean_double R ?_ (fun x hx => hu x (List.mem_of_mem_take hx)) htl.le (le_trans (min_le_left _ _) hn)
      rw [← List.length_pos_iff_ne_nil, htl]
      exact lt_min hpos kp
    exact ⟨bound hs l1 mh, bound ts l2 mt⟩

/-- **C120 (Hs).**  Significant wave height and period in double precision, after any calls and for any order of addition: the relative
error is at most `n / 3` units of `2 ^ -52`; an exception is raised exactly when it is in exact arithmetic. -/
theorem hs_accuracy (R : NpSum) (A : Argsort ℚ) {ph pt : PyIn ℚ} (hh : ph.WF) (ht : pt.WF) {s : WH ℚ} (hs : WH.init ph pt = .ok s)
    (ops : List (WHOp ℚ)) (hn : s.hwave.len ≤ 2 ^ 50) (sh : ∀ v ∈ s.hwave.data, IsSize v) (st : ∀ v ∈ s.twave.data, IsSize v) :
    (∃ e, ((s.run A ops).getHs A).1 = .error e ∧ ((s.run A ops).getHsD R A).1 = .error e) ∨
    ∃ H T H' T', ((s.run A ops).getHs A).1 = .ok (H, T) ∧ ((s.run A ops).getHsD R A).1 = .ok (H', T') ∧
      |H' - H| ≤ (s.hwave.len / 3 : ℕ) / 2 ^ 52 * H ∧ |T' - T| ≤ (s.hwave.len / 3 : ℕ) / 2 ^ 52 * T := by
  have h64 := hs_double A hh ht hs ops (lt_of_le_of_lt hn (by norm_num))
  obtain ⟨hw, hlen⟩ := run_facts A hh ht hs ops
  have same := waves_never_corrupted A ops (WH.init_wf hh ht hs)
  rw [← h64]
  have := highest_D R A hw (by rw [hlen]; exact hn) (fun v hv => sh v (same.heights.mem_iff.1 hv)) (fun v hv => st v (same.periods.mem_iff.1 hv))
    (f64 (1 / 3))
  rw [hlen, third_count (lt_of_le_of_lt hn (by norm_num))] at this
  have hmin : min s.hwave.len ((s.hwave.len / 3 : ℕ) : ℤ).toNat = s.hwave.len / 3 := by
    rw [Int.toNat_natCast]; omega
  rw [hmin] at this
  exact this

/-- **C120 (highest_waves).**  The same for `highest_waves(a / b)` whenever the count is right (C113). -/
theorem highest_accuracy (R : NpSum) (A : Argsort ℚ) {ph pt : PyIn ℚ} (hh : ph.WF) (ht : pt.WF) {s : WH ℚ} (hs : WH.init ph pt = .ok s)
    (ops : List (WHOp ℚ)) {a b : ℕ} (hb : 0 < b) (hab : a ≤ b) (hn : s.hwave.len * b < 2 ^ 50)
    (hx : ¬ b ∣ s.hwave.len * a ∨ (a : ℚ) / b ≤ f64 ((a : ℚ) / b))
    (sh : ∀ v ∈ s.hwave.data, IsSize v) (st : ∀ v ∈ s.twave.data, IsSize v) :
    (∃ e, ((s.run A ops).highestWaves A (a / b)).1 = .error e ∧ ((s.run A ops).highestWavesD R A (f64 (a / b))).1 = .error e) ∨
    ∃ H T H' T', ((s.run A ops).highestWaves A (a / b)).1 = .ok (H, T) ∧ ((s.run A ops).highestWavesD R A (f64 (a / b))).1 = .ok (H', T') ∧
      |H' - H| ≤ (s.hwave.len * a / b : ℕ) / 2 ^ 52 * H ∧ |T' - T| ≤ (s.hwave.len * a / b : ℕ) / 2 ^ 52 * T := by
  have h64 := highest_double A hh ht hs ops hb hab (lt_trans hn (by norm_num)) hx
  obtain ⟨hw, hlen⟩ := run_facts A hh ht hs ops
  have same := waves_never_corrupted A ops (WH.init_wf hh ht hs)
  rw [← h64]
  have hle : s.hwave.len ≤ s.hwave.len * b := Nat.le_mul_of_pos_right _ hb
  have := highest_D R A hw (by rw [hlen]; omega) (fun v hv => sh v (same.heights.mem_iff.1 hv)) (fun v hv => st v (same.periods.mem_iff.1 hv))
    (f64 (a / b))
  rw [hlen, (count_typed hb hab (lt_trans hn (by norm_num))).1 hx] at this
  have hmin : min s.hwave.len ((s.hwave.len * a / b : ℕ) : ℤ).toNat = s.hwave.len * a / b := by
    rw [Int.toNat_natCast, min_eq_right]
    exact Nat.div_le_of_le_mul (by rw [mul_comm b]; exact Nat.mul_le_mul_left _ hab)
  rw [hmin] at this
  exact this

/-! ## Hrms -/

/-- The object with its numbers read as real numbers. -/
noncomputable def WH.toReal (s : WH ℚ) : WH ℝ :=
  ⟨⟨s.hwave.shape, s.hwave.data.map fun (v : ℚ) => (v : ℝ)⟩, s.nwave, ⟨s.twave.shape, s.twave.data.map fun (v : ℚ) => (v : ℝ)⟩⟩

theorem mean_cast (l : List ℚ) : mean (l.map fun (v : ℚ) => (v : ℝ)) = ((mean l : ℚ) : ℝ) := by
  unfold mean
  rw [List.length_map]
  push_cast
  rfl

/-- The mean of the rounded squares. -/
theorem mean_square_error (R : NpSum) {l : List ℚ} (hne : l ≠ []) (hs : ∀ x ∈ l, IsSize x) (hn : l.length ≤ 2 ^ 50) :
    |meanD R (l.map fun v => f64 (v ^ 2)) - mean (l.map (· ^ 2))| ≤ ((1 + unitRound) ^ (l.length + 1) - 1) * mean (l.map (· ^ 2)) := by
  set u := unitRound with hu
  have up : 0 < u := unitRound_pos
  have sq : ∀ x ∈ l, |f64 (x ^ 2) - x ^ 2| ≤ u * x ^ 2 ∧ (f64 (x ^ 2) = 0 ∨ 1 / 2 ^ 900 ≤ f64 (x ^ 2)) := by
    intro x hx
    rcases (hs x hx).2 with h | h
    · rw [h, zero_pow (by norm_num), f64_zero]; simp
    · have x8 : (1 : ℚ) / 2 ^ 800 ≤ x ^ 2 := by
        have : (1 / 2 ^ 400 : ℚ) ^ 2 ≤ x ^ 2 := pow_le_pow_left₀ (by positivity) h 2
        refine le_trans (le_of_eq ?_) this
        rw [div_pow, one_pow, ← pow_mul]
      have xn : (2 : ℚ) ^ (-1022 : ℤ) ≤ |x ^ 2| := by
        rw [abs_of_nonneg (sq_nonneg x)]
        refine le_trans ?_ x8
        rw [show (1 : ℚ) / 2 ^ 800 = 2 ^ (-800 : ℤ) by rw [zpow_neg, one_div]; norm_cast]
        exact zpow_le_zpow_right₀ (by norm_num) (by norm_num)
      have fe := f64_error_normal xn
      rw [abs_of_nonneg (sq_nonneg x)] at fe
      have fe' : |f64 (x ^ 2) - x ^ 2| ≤ u * x ^ 2 := by rw [hu]; unfold unitRound; linarith
      refine ⟨fe', .inr ?_⟩
      have := (abs_le.1 fe').1
      have h9 : (1 : ℚ) / 2 ^ 900 ≤ 1 / 2 ^ 800 / 2 := by
        rw [div_div, ← pow_succ]
        exact one_div_le_one_div_of_le (by positivity) (pow_le_pow_right₀ (by norm_num) (by norm_num))
      have hu2 : u ≤ 1 / 2 := by rw [hu]; unfold unitRound; norm_num
      nlinarith
  have m1 := mean_error R (l := l.map fun v => f64 (v ^ 2)) (by simpa using hne)
    (by intro y hy; obtain ⟨x, _, rfl⟩ := List.mem_map.1 hy; exact f64_double _)
    (by intro y hy; obtain ⟨x, hx, rfl⟩ := List.mem_map.1 hy; exact (sq x hx).2)
    (by rw [List.length_map]; exact hn)
  rw [List.length_map, ← hu] at m1
  have lq : (0 : ℚ) < l.length := by exact_mod_cast List.length_pos_of_ne_nil hne
  have m2 : |mean (l.map fun v => f64 (v ^ 2)) - mean (l.map (· ^ 2))| ≤ u * mean (l.map (· ^ 2)) := by
    have key : ∀ l' : List ℚ, (∀ x ∈ l', |f64 (x ^ 2) - x ^ 2| ≤ u * x ^ 2) →
        |(l'.map fun v => f64 (v ^ 2)).sum - (l'.map (· ^ 2)).sum| ≤ u * (l'.map (· ^ 2)).sum := by
      intro l' h'
      induction l' with
      | nil => simp
      | cons a l' ih =>
        have i1 := ih fun x hx => h' x (List.mem_cons_of_mem _ hx)
        have i2 := h' a (List.mem_cons_self ..)
        simp only [List.map_cons, List.sum_cons]
        rw [show f64 (a ^ 2) + (l'.map fun v => f64 (v ^ 2)).sum - (a ^ 2 + (l'.map (· ^ 2)).sum) =
          (f64 (a ^ 2) - a ^ 2) + ((l'.map fun v => f64 (v ^ 2)).sum - (l'.map (· ^ 2)).sum) by ring]
        refine (abs_add_le _ _).trans ?_
        linarith
    have := key l fun x hx => (sq x hx).1
    unfold mean
    rw [List.length_map, List.length_map, ← sub_div, abs_div, abs_of_pos lq, div_le_iff₀ lq, mul_assoc, div_mul_cancel₀ _ lq.ne']
    exact this
  set M := mean (l.map (· ^ 2)) with hM
  have Mp : 0 ≤ M := mean_nonneg' (by intro y hy; obtain ⟨x, _, rfl⟩ := List.mem_map.1 hy; positivity)
  set M1 := mean (l.map fun v => f64 (v ^ 2))
  set g := (1 + u) ^ l.length with hg
  have g1 : 1 ≤ g := one_le_pow₀ (by linarith)
  rw [pow_succ, ← hg]
  have t := abs_add_le (meanD R (l.map fun v => f64 (v ^ 2)) - M1) (M1 - M)
  rw [sub_add_sub_cancel] at t
  have M1b : M1 ≤ (1 + u) * M := by have := (abs_le.1 m2).2; linarith
  have : (g - 1) * M1 ≤ (g - 1) * ((1 + u) * M) := mul_le_mul_of_nonneg_left M1b (by linarith)
  nlinarith

/-- **C120 (Hrms).**  The root-mean-square wave height in double precision, after any calls and for any order of addition: relative error at
most `n + 2` units of `2 ^ -52`.  (The exact value does not depend on the calls, C18; the double may, as `sort` changes the order.) -/
theorem hrms_accuracy (R : NpSum) (Q : NpSqrt) (A : Argsort ℚ) {s : WH ℚ} (hw : s.WF) (ops : List (WHOp ℚ)) (hne : s.hwave.data ≠ [])
    (hn : s.hwave.data.length ≤ 2 ^ 50) (sh : ∀ v ∈ s.hwave.data, IsSize v) :
    ∃ (r : ℝ) (r' : ℚ), s.toReal.getHrms = .ok r ∧ (s.run A ops).getHrmsD R Q = .ok r' ∧
      |(r' : ℝ) - r| ≤ ((s.hwave.data.length + 2 : ℕ) : ℝ) / 2 ^ 52 * r := by
  have same := (waves_never_corrupted A ops hw).heights
  set s' := s.run A ops with hs'
  have hne' : s'.hwave.data ≠ [] := fun h => hne (by rw [h] at same; exact (List.nil_perm.1 same))
  have hl : s'.hwave.data.length = s.hwave.data.length := same.length_eq
  have hm : mean (s'.hwave.data.map (· ^ 2)) = mean (s.hwave.data.map (· ^ 2)) := by
    unfold mean; rw [(same.map _).sum_eq, (same.map _).length_eq]
  have e := mean_square_error R hne' (fun v hv => sh v (same.mem_iff.1 hv)) (by rw [hl]; exact hn)
  rw [hm, hl] at e
  set M := mean (s.hwave.data.map (· ^ 2)) with hM
  set n := s.hwave.data.length with hnd
  have Mp : 0 ≤ M := mean_nonneg' (by intro y hy; obtain ⟨x, _, rfl⟩ := List.mem_map.1 hy; positivity)
  set M' := meanD R (s'.hwave.data.map fun v => f64 (v ^ 2)) with hM'
  set u := unitRound with hu
  have up : 0 < u := unitRound_pos
  set ε := (1 + u) ^ (n + 1) - 1 with hε
  have εp : 0 ≤ ε := by rw [hε]; linarith [one_le_pow₀ (n := n + 1) (by linarith : 1 ≤ 1 + u)]
  have ε1 : ε ≤ 1 := by
    rw [hε]
    refine (growth (by omega)).trans ?_
    have : ((n + 1 : ℕ) : ℚ) ≤ 2 ^ 52 := by exact_mod_cast (by omega : n + 1 ≤ 2 ^ 52)
    rw [div_le_one (by positivity)]; exact this
  obtain ⟨lo, hi⟩ := abs_le.1 e
  have M'p : 0 ≤ M' := by nlinarith
  obtain ⟨δ, hδ, hq⟩ := Q.spec M' M'p
  refine ⟨Real.sqrt M, Q.sqrt M', ?_, ?_, ?_⟩
  · unfold WH.getHrms WH.toReal
    rw [if_neg (by simpa using hne)]
    congr 2
    rw [← mean_cast]
    congr 1
    simp [List.map_map, Function.comp_def]
  · unfold WH.getHrmsD
    rw [if_neg hne']
  · rw [hq]
    set r := Real.sqrt M with hr
    have rp : 0 ≤ r := Real.sqrt_nonneg _
    have rsq : r ^ 2 = M := Real.sq_sqrt (by exact_mod_cast Mp)
    have εpR : (0 : ℝ) ≤ (ε : ℝ) := by exact_mod_cast εp
    have ε1R : (ε : ℝ) ≤ 1 := by exact_mod_cast ε1
    have loR : ((1 : ℝ) - ε) * M ≤ (M' : ℝ) := by
      have : (1 - ε) * M ≤ M' := by linarith
      exact_mod_cast this
    have hiR : (M' : ℝ) ≤ (1 + ε) * M := by
      have : M' ≤ (1 + ε) * M := by linarith
      exact_mod_cast this
    have up1 : Real.sqrt M' ≤ (1 + ε) * r := by
      rw [Real.sqrt_le_left (by positivity)]
      rw [mul_pow, rsq]
      refine hiR.trans (mul_le_mul_of_nonneg_right ?_ (by exact_mod_cast Mp))
      nlinarith
    have lo1 : (1 - ε) * r ≤ Real.sqrt M' := by
      apply Real.le_sqrt_of_sq_le
      rw [mul_pow, rsq]
      refine le_trans (mul_le_mul_of_nonneg_right ?_ (by exact_mod_cast Mp)) loR
      nlinarith
    have gro := growth (n := n + 2) (by omega)
    rw [← hu] at gro
    have gR : ((1 + (ε : ℝ)) * (1 + 1 / 2 ^ 53)) - 1 ≤ ((n + 2 : ℕ) : ℝ) / 2 ^ 52 := by
      have h1 : (1 + ε) * (1 + u) - 1 ≤ ((n + 2 : ℕ) : ℚ) / 2 ^ 52 := by
        refine le_trans (le_of_eq ?_) gro
        rw [hε]; ring
      have h2 : u = 1 / 2 ^ 53 := rfl
      rw [h2] at h1
      have h3 : (((1 + ε) * (1 + 1 / 2 ^ 53) - 1 : ℚ) : ℝ) ≤ ((((n + 2 : ℕ) : ℚ) / 2 ^ 52 : ℚ) : ℝ) := Rat.cast_le.2 h1
      push_cast at h3
      push_cast
      exact h3
    obtain ⟨d1, d2⟩ := abs_le.1 hδ
    have sp : 0 ≤ Real.sqrt M' := Real.sqrt_nonneg _
    have a1 : Real.sqrt M' * (1 + δ) ≤ (1 + ε) * r * (1 + 1 / 2 ^ 53) := by
      refine mul_le_mul up1 (by linarith) (by linarith) (by positivity)
    have a2 : (1 - ε) * r * (1 - 1 / 2 ^ 53) ≤ Real.sqrt M' * (1 + δ) := by
      refine mul_le_mul lo1 (by linarith) (by norm_num) sp
    have b : ((1 + (ε : ℝ)) * (1 + 1 / 2 ^ 53) - 1) * r ≤ ((n + 2 : ℕ) : ℝ) / 2 ^ 52 * r := mul_le_mul_of_nonneg_right gR rp
    have c : 0 ≤ (ε : ℝ) * r * (1 / 2 ^ 53) := by positivity
    rw [abs_le]
    constructor <;> nlinarith

/-! ## Ordering of the statistics -/

/-- **C120 (ordering).**  In double precision the significant wave height exceeds the maximum by at most `n / 3` units of `2 ^ -52`, relatively.
(It can exceed it: `hs_above_hmax`.) -/
theorem hs_hmax_double (R : NpSum) (A : Argsort ℚ) (ops : List (WHOp ℚ)) {h t : List ℚ} (hne : h ≠ []) (hlen : h.length = t.length)
    (hn : h.length ≤ 2 ^ 50) (sh : ∀ v ∈ h, IsSize v) (st : ∀ v ∈ t, IsSize v) :
    ∃ s m H T, WH.init (vec h) (vec t) = .ok s ∧ (s.run A ops).getHmax.1 = .ok m ∧ ((s.run A ops).getHsD R A).1 = .ok (H, T) ∧
      H ≤ (1 + (h.length / 3 : ℕ) / 2 ^ 52) * m := by
  obtain ⟨hs, hp, hd⟩ := exists_desc h
  obtain ⟨s, T, h1, h2, h3, -⟩ := object_stats (q := 0) (p := 1 / 3) A ops hne hlen hp hd (by norm_num) (by norm_num) (by norm_num) (by norm_num)
  have ws : ∀ l : List ℚ, (vec l).WF := fun l => by simp [vec, PyIn.WF, Arr.WF]
  have e : s = ⟨arr1 h, h.length, arr1 t⟩ := by
    have := (WH_init_vec (h := h) (t := t)).symm.trans h1
    exact (Except.ok.inj this).symm
  subst e
  have h3 : ((WH.run A ops ⟨arr1 h, h.length, arr1 t⟩).getHs A).1 = _ := h3
  have hne' : hs ≠ [] := fun c => by rw [c] at hp; exact hne (List.nil_perm.1 hp)
  have mp : ∀ v ∈ hs, 0 ≤ v := fun v hv => (sh v (hp.mem_iff.1 hv)).nonneg
  rcases hs_accuracy R A (ws h) (ws t) h1 ops hn sh st with ⟨e, h4, -⟩ | ⟨H, T1, H', T', h4, h5, h6, -⟩
  · rw [h3] at h4; cases h4
  refine ⟨_, _, H', T', h1, h2, h5, ?_⟩
  rw [h3] at h4
  have hH := (Prod.mk.inj (Except.ok.inj h4)).1
  have m0 : 0 ≤ hs.getD 0 0 := by
    rcases hs with _ | ⟨a, l⟩
    · exact absurd rfl hne'
    · exact mp a (List.mem_cons_self ..)
  have mx : ∀ v ∈ hs, v ≤ hs.getD 0 0 := by
    rcases hs with _ | ⟨a, l⟩
    · exact absurd rfl hne'
    · intro v hv
      rcases List.mem_cons.1 hv with rfl | hv
      · exact le_refl _
      · exact (List.pairwise_cons.1 hd).1 v hv
  have hb : H ≤ hs.getD 0 0 := by
    rw [← hH]
    split_ifs with c
    · exact m0
    · set k := ⌊(h.length : ℚ) * (1 / 3)⌋.toNat
      unfold mean
      rcases Nat.eq_zero_or_pos (hs.take k).length with z | z
      · rw [z]; simpa using m0
      · rw [div_le_iff₀ (by exact_mod_cast z)]
        have := sum_le_of_forall_le (l := hs.take k) (c := hs.getD 0 0) fun v hv => mx v (List.mem_of_mem_take hv)
        linarith
  have h7 := (abs_le.1 h6).2
  have h8 : ((h.length / 3 : ℕ) : ℚ) / 2 ^ 52 * H ≤ ((h.length / 3 : ℕ) : ℚ) / 2 ^ 52 * hs.getD 0 0 := mul_le_mul_of_nonneg_left hb (by positivity)
  have h9 : (⟨arr1 h, h.length, arr1 t⟩ : WH ℚ).hwave.len = h.length := rfl
  rw [h9] at h7
  linarith

/-! ## Non-vacuity and findings -/

/-- Adding one after the other (what numpy does for fewer than eight elements) is an order of addition. -/
def seqSum : NpSum where
  sum xs := xs.foldl (fun a x => f64 (a + x)) 0
  spec xs := by
    have key : ∀ (xs : List ℚ) (T : SumTree), ∃ T' : SumTree, T'.leaves = T.leaves ++ xs ∧
        T'.eval = xs.foldl (fun a x => f64 (a + x)) T.eval := by
      intro xs
      induction xs with
      | nil => intro T; exact ⟨T, by simp, rfl⟩
      | cons a l ih =>
        intro T
        obtain ⟨T', h1, h2⟩ := ih (.add T (.leaf a))
        exact ⟨T', by rw [h1]; simp [SumTree.leaves], by rw [h2]; rfl⟩
    obtain ⟨T, h1, h2⟩ := key xs (.leaf 0)
    refine ⟨T, 1, ?_, h2⟩
    rw [h1]
    exact List.perm_append_comm (l₁ := [0]) (l₂ := xs)

/-- A square root as required exists. -/
theorem npSqrt_exists : Nonempty NpSqrt := by
  have key : ∀ v : ℚ, ∃ r : ℚ, 0 ≤ v → ∃ δ : ℝ, |δ| ≤ 1 / 2 ^ 53 ∧ (r : ℝ) = Real.sqrt v * (1 + δ) := by
    intro v
    by_cases hv : 0 < v
    · have hp : 0 < Real.sqrt v := Real.sqrt_pos.2 (by exact_mod_cast hv)
      obtain ⟨r, h1, h2⟩ := exists_rat_btwn (show Real.sqrt v < Real.sqrt v * (1 + 1 / 2 ^ 53) by nlinarith)
      refine ⟨r, fun _ => ⟨r / Real.sqrt v - 1, ?_, by field_simp; ring⟩⟩
      have a1 : 1 < (r : ℝ) / Real.sqrt v := by rw [lt_div_iff₀ hp]; linarith
      have a2 : (r : ℝ) / Real.sqrt v < 1 + 1 / 2 ^ 53 := by rw [div_lt_iff₀ hp]; linarith
      rw [abs_of_pos (by linarith)]
      linarith
    · refine ⟨0, fun h0 => ⟨0, by norm_num, ?_⟩⟩
      have : v = 0 := le_antisymm (not_lt.1 hv) h0
      rw [this]; simp
  choose f hf using key
  exact ⟨⟨f, hf⟩⟩

/-- The double nearest to `0.1`. -/
def tenth : ℚ := f64 (1 / 10)

/-- **Finding.**  Nine waves of height `0.1`: `get_Hs` returns `0.10000000000000002`, more than `get_Hmax`. -/
theorem hs_above_hmax :
    let s : WH ℚ := ⟨arr1 (List.replicate 9 tenth), 9, arr1 (List.replicate 9 5)⟩
    s.getHmax.1 = .ok tenth ∧ ∃ H, (s.getHsD seqSum stableArgsort).1 = .ok (H, 5) ∧ tenth < H := by
  refine ⟨by decide +kernel, f64 (f64 (f64 (tenth + tenth) + tenth) / 3), ?_, by decide +kernel⟩
  decide +kernel

/-- The hypotheses hold for such heights. -/
example : IsSize tenth ∧ IsSize 5 := by
  refine ⟨⟨f64_double _, .inr ?_⟩, ⟨⟨5, 0, by norm_num, by norm_num, by norm_num⟩, .inr ?_⟩⟩
  · have : (1 : ℚ) / 16 ≤ tenth := by decide +kernel
    refine le_trans ?_ this
    rw [show (16 : ℚ) = 2 ^ 4 by norm_num]
    exact one_div_le_one_div_of_le (by positivity) (pow_le_pow_right₀ (by norm_num) (by norm_num))
  · refine le_trans ?_ (by norm_num : (1 : ℚ) ≤ 5)
    rw [div_le_one (by positivity)]
    exact one_le_pow₀ (by norm_num)

/-! ## Concrete cases: the hypotheses of the theorems above are met -/

theorem size_small {n : ℕ} (h0 : 0 < n) (h : n < 2 ^ 53) : IsSize (n : ℚ) := by
  refine ⟨isDouble_nat h.le, .inr ?_⟩
  refine le_trans ?_ (by exact_mod_cast h0 : (1 : ℚ) ≤ n)
  rw [div_le_one (by positivity)]
  exact one_le_pow₀ (by norm_num)

theorem sizes_three : (∀ v ∈ ([3, 1, 2] : List ℚ), IsSize v) ∧ ∀ v ∈ ([5, 4, 6] : List ℚ), IsSize v := by
  constructor <;>
  · intro v hv
    simp only [List.mem_cons, List.not_mem_nil, or_false] at hv
    rcases hv with rfl | rfl | rfl
    · exact_mod_cast size_small (n := _) (by norm_num) (by norm_num)
    · exact_mod_cast size_small (n := _) (by norm_num) (by norm_num)
    · exact_mod_cast size_small (n := _) (by norm_num) (by norm_num)

example (R : NpSum) (ops : List (WHOp ℚ)) : ∃ s m H T, WH.init (vec ([3, 1, 2] : List ℚ)) (vec [5, 4, 6]) = .ok s ∧ (s.run stableArgsort ops).getHmax.1 = .ok m ∧
    ((s.run stableArgsort ops).getHsD R stableArgsort).1 = .ok (H, T) ∧ H ≤ (1 + (3 / 3 : ℕ) / 2 ^ 52) * m :=
  hs_hmax_double R stableArgsort ops (h := [3, 1, 2]) (t := [5, 4, 6]) (by simp) rfl (by simp) sizes_three.1 sizes_three.2

example (R : NpSum) (ops : List (WHOp ℚ)) : let s : WH ℚ := ⟨⟨[3], [3, 1, 2]⟩, 3, ⟨[3], [5, 4, 6]⟩⟩
    (∃ e, ((s.run stableArgsort ops).getHs stableArgsort).1 = .error e ∧ ((s.run stableArgsort ops).getHsD R stableArgsort).1 = .error e) ∨
    ∃ H T H' T', ((s.run stableArgsort ops).getHs stableArgsort).1 = .ok (H, T) ∧ ((s.run stableArgsort ops).getHsD R stableArgsort).1 = .ok (H', T') ∧
      |H' - H| ≤ (3 / 3 : ℕ) / 2 ^ 52 * H ∧ |T' - T| ≤ (3 / 3 : ℕ) / 2 ^ 52 * T :=
  hs_accuracy R stableArgsort (ph := vec [3, 1, 2]) (pt := vec [5, 4, 6]) rfl rfl rfl ops (by norm_num [Arr.len, toVector, toArr, vec, size2, Arr.size]) sizes_three.1 sizes_three.2

example (R : NpSum) (ops : List (WHOp ℚ)) : let s : WH ℚ := ⟨⟨[3], [3, 1, 2]⟩, 3, ⟨[3], [5, 4, 6]⟩⟩
    (∃ e, ((s.run stableArgsort ops).highestWaves stableArgsort (((1 : ℕ) : ℚ) / (2 : ℕ))).1 = .error e ∧
      ((s.run stableArgsort ops).highestWavesD R stableArgsort (f64 (((1 : ℕ) : ℚ) / (2 : ℕ)))).1 = .error e) ∨
    ∃ H T H' T', ((s.run stableArgsort ops).highestWaves stableArgsort (((1 : ℕ) : ℚ) / (2 : ℕ))).1 = .ok (H, T) ∧
      ((s.run stableArgsort ops).highestWavesD R stableArgsort (f64 (((1 : ℕ) : ℚ) / (2 : ℕ)))).1 = .ok (H', T') ∧
      |H' - H| ≤ (3 * 1 / 2 : ℕ) / 2 ^ 52 * H ∧ |T' - T| ≤ (3 * 1 / 2 : ℕ) / 2 ^ 52 * T :=
  highest_accuracy R stableArgsort (ph := vec [3, 1, 2]) (pt := vec [5, 4, 6]) rfl rfl rfl ops (a := 1) (b := 2) (by norm_num) (by norm_num) (by norm_num [Arr.len, toVector, toArr, vec, size2, Arr.size])
    (.inl (by norm_num [Arr.len, toVector, toArr, vec, size2, Arr.size])) sizes_three.1 sizes_three.2

example (R : NpSum) (Q : NpSqrt) (ops : List (WHOp ℚ)) : let s : WH ℚ := ⟨⟨[3], [3, 1, 2]⟩, 3, ⟨[3], [5, 4, 6]⟩⟩
    ∃ (r : ℝ) (r' : ℚ), s.toReal.getHrms = .ok r ∧ (s.run stableArgsort ops).getHrmsD R Q = .ok r' ∧ |(r' : ℝ) - r| ≤ ((3 + 2 : ℕ) : ℝ) / 2 ^ 52 * r :=
  hrms_accuracy R Q stableArgsort (s := ⟨⟨[3], [3, 1, 2]⟩, 3, ⟨[3], [5, 4, 6]⟩⟩) ⟨rfl, rfl⟩ ops (by simp) (by simp) sizes_three.1

end Verif
