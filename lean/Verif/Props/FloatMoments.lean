import Verif.Props.FloatSimpson
import Verif.Props.Filter
import Verif.Props.Tps

/-! # C124: spectral moments, wave height and mean periods in double precision (continued) -/

namespace Verif
open Finset

/-- Specification: the doubles `f` represent the uniform axis `f0, f0 + h, f0 + 2 h, ...`, each up to a relative error of `2 ^ -50` (a few units
in the last place); the axis starts at zero or not far below a step, and its end is at most `2 ^ 24` steps from zero. -/
structure AxisDouble (f : List ℚ) (f0 h : ℚ) : Prop where
  doubles : ∀ x ∈ f, IsDouble x
  lo : 1 / 2 ^ 60 ≤ h
  hi : h ≤ 2 ^ 60
  start : f0 = 0 ∨ h / 2 ^ 40 ≤ f0
  near : ∀ i < f.length, |f.getD i 0 - (f0 + i * h)| ≤ (f0 + i * h) / 2 ^ 50
  size : f0 + f.length * h ≤ 2 ^ 24 * h

namespace AxisDouble
variable {f : List ℚ} {f0 h : ℚ} (A : AxisDouble f f0 h)
include A

theorem hpos : 0 < h := lt_of_lt_of_le (by positivity) A.lo

theorem f0_nonneg : 0 ≤ f0 := by
  have := A.hpos
  rcases A.start with h | h
  · exact h.ge
  · exact le_trans (by positivity) h

theorem double_getD {i : ℕ} (hi : i < f.length) : IsDouble (f.getD i 0) := by
  rw [List.getD_eq_getElem _ _ hi]; exact A.doubles _ (List.getElem_mem hi)

theorem step {i : ℕ} (hi : i + 1 < f.length) : |f.getD (i + 1) 0 - f.getD i 0 - h| ≤ (f0 + f.length * h) / 2 ^ 49 := by
  have h0 := A.hpos
  have a := A.near i (by omega)
  have b := A.near (i + 1) hi
  have ci : ((i : ℚ) + 1) ≤ f.length := by exact_mod_cast hi.le
  have ci' : ((i : ℚ) + 1) * h ≤ f.length * h := mul_le_mul_of_nonneg_right ci h0.le
  push_cast at b
  have := abs_sub (f.getD (i + 1) 0 - (f0 + ((i : ℚ) + 1) * h)) (f.getD i 0 - (f0 + i * h))
  rw [show f.getD (i + 1) 0 - (f0 + ((i : ℚ) + 1) * h) - (f.getD i 0 - (f0 + i * h)) = f.getD (i + 1) 0 - f.getD i 0 - h by ring] at this
  linarith

theorem increasing {i : ℕ} (hi : i + 1 < f.length) : h / 2 ≤ f.getD (i + 1) 0 - f.getD i 0 ∧ f.getD (i + 1) 0 - f.getD i 0 ≤ 2 * h := by
  have a := abs_le.1 (A.step hi)
  have := A.size
  have := A.hpos
  constructor <;> linarith

theorem lt {i j : ℕ} (hij : i < j) (hj : j < f.length) : f.getD i 0 < f.getD j 0 := by
  induction j with
  | zero => omega
  | succ j ih =>
    have := (A.increasing hj).1
    have := A.hpos
    rcases Nat.lt_or_ge i j with h | h
    · have := ih h (by omega); linarith
    · obtain rfl : i = j := by omega
      linarith

theorem steps (hne : f ≠ []) : StepsNear ((f0 + f.length * h) / h / 2 ^ 48) h f ∧ 1 / 2 ^ 50 ≤ (f0 + f.length * h) / h / 2 ^ 48 ∧
    (f0 + f.length * h) / h / 2 ^ 48 ≤ 1 / 2 ^ 20 := by
  have h0 := A.hpos
  have pos : (1 : ℚ) ≤ f.length := by exact_mod_cast List.length_pos_iff.2 hne
  have big : h ≤ f0 + f.length * h := by
    have := le_mul_of_one_le_left h0.le pos
    have := A.f0_nonneg
    linarith
  refine ⟨fun i hi => ?_, ?_, ?_⟩
  · obtain ⟨p, q⟩ := A.increasing hi
    have := f64_error (x := f.getD (i + 1) 0 - f.getD i 0) (by
      rw [abs_of_pos (by linarith)]
      have : (1 : ℚ) / 2 ^ 200 ≤ 1 / 2 ^ 60 / 2 := by norm_num
      have := A.lo
      linarith)
    rw [abs_of_pos (by linarith : 0 < f.getD (i + 1) 0 - f.getD i 0)] at this
    have t := abs_sub_le (f64 (f.getD (i + 1) 0 - f.getD i 0)) (f.getD (i + 1) 0 - f.getD i 0) h
    have s := A.step hi
    rw [show (f0 + f.length * h) / h / 2 ^ 48 * h = (f0 + f.length * h) / 2 ^ 48 by field_simp]
    linarith
  · have : 1 ≤ (f0 + f.length * h) / h := by rw [le_div_iff₀ h0]; linarith
    linarith
  · have : (f0 + f.length * h) / h ≤ 2 ^ 24 := by rw [div_le_iff₀ h0]; exact A.size
    linarith

theorem drop1 (hne : f ≠ []) : AxisDouble (f.drop 1) (f0 + h) h where
  doubles := fun x hx => A.doubles x (List.mem_of_mem_drop hx)
  lo := A.lo
  hi := A.hi
  start := .inr (by have := A.hpos; have := A.f0_nonneg; linarith)
  near := by
    intro i hi
    rw [List.length_drop] at hi
    have := A.near (i + 1) (by omega)
    push_cast at this
    rw [show (f.drop 1).getD i 0 = f.getD (i + 1) 0 by
      rw [List.getD_eq_getElem _ _ (by rw [List.length_drop]; exact hi), List.getElem_drop, List.getD_eq_getElem _ _ (by omega)]
      congr 1; omega]
    rw [show f0 + h + (i : ℚ) * h = f0 + ((i : ℚ) + 1) * h by ring]
    exact this
  size := by
    have := A.size
    have h0 := A.hpos
    have hz := List.length_pos_iff.2 hne
    rw [List.length_drop, Nat.cast_sub hz]
    push_cast
    linarith

/-- The frequencies: zero, or in a range where no power overflows. -/
theorem freq_range {i : ℕ} (hi : i < f.length) : f0 + i * h = 0 ∨ (1 / 2 ^ 100 ≤ f0 + i * h ∧ f0 + i * h ≤ 2 ^ 88) := by
  have h0 := A.hpos
  have l := A.lo
  have u := A.hi
  have z := A.f0_nonneg
  have up : f0 + i * h ≤ 2 ^ 88 := by
    have : (i : ℚ) ≤ f.length := by exact_mod_cast hi.le
    have := mul_le_mul_of_nonneg_right this h0.le
    have := A.size
    have : (2 : ℚ) ^ 24 * h ≤ 2 ^ 28 * 2 ^ 60 := by linarith
    have : (2 : ℚ) ^ 28 * 2 ^ 60 = 2 ^ 88 := by norm_num
    linarith
  have low : h / 2 ^ 40 ≤ f0 + i * h → 1 / 2 ^ 100 ≤ f0 + i * h := by
    intro hh
    have : (1 : ℚ) / 2 ^ 100 = 1 / 2 ^ 60 / 2 ^ 40 := by norm_num
    have : (1 : ℚ) / 2 ^ 60 / 2 ^ 40 ≤ h / 2 ^ 40 := by linarith
    linarith
  have ih : 0 ≤ (i : ℚ) * h := by positivity
  rcases A.start with rfl | hs
  · rcases Nat.eq_zero_or_pos i with rfl | hip
    · left; simp
    · right
      have : (1 : ℚ) ≤ i := by exact_mod_cast hip
      have := le_mul_of_one_le_left h0.le this
      exact ⟨low (by linarith), up⟩
  · exact .inr ⟨low (by linarith), up⟩

end AxisDouble

/-- One value of the integrand. -/
theorem integrand_double (P : NpPow) {x F s : ℚ} {m : ℤ} (hm : |m| ≤ 2) (hx : |x - F| ≤ F / 2 ^ 50) (hF : F = 0 ∨ (1 / 2 ^ 100 ≤ F ∧ F ≤ 2 ^ 88))
    (hneg : m < 0 → F ≠ 0) (hs : Ge 400 s) :
    Near (4 * (1 / 2 ^ 50)) (f64 (P.pow x m * s)) (F ^ m * s) ∧ Ge 700 (f64 (P.pow x m * s)) := by
  have he0 : (1 : ℚ) / 2 ^ 50 ≤ 1 / 2 ^ 50 := le_rfl
  have he1 : (1 : ℚ) / 2 ^ 50 ≤ 1 / 2 ^ 20 := by norm_num
  have es : Near (0 * (1 / 2 ^ 50)) s s := Near.exact he0 he1 hs.nonneg
  -- the power
  have key : Near (7 / 2 * (1 / 2 ^ 50)) (P.pow x m) (F ^ m) ∧ Ge 250 (F ^ m) := by
    by_cases m0 : m = 0
    · subst m0
      rw [P.one, zpow_zero]
      exact ⟨Near.le he0 he1 (Near.exact he0 he1 zero_le_one) (by norm_num), .inr (by
        rw [div_le_one (by positivity)]
        exact one_le_pow₀ (by norm_num))⟩
    rcases hF with rfl | ⟨hlo, hhi⟩
    · have mp : 0 < m := by
        rcases lt_trichotomy m 0 with h | h | h
        · exact absurd rfl (hneg h)
        · exact absurd h m0
        · exact h
      have x0 : x = 0 := by
        have : |x - 0| ≤ 0 := by simpa using hx
        rw [sub_zero] at this
        exact abs_eq_zero.1 (le_antisymm this (abs_nonneg _))
      rw [x0, P.zero m mp, zero_zpow m m0]
      exact ⟨⟨le_rfl, by simp⟩, .inl rfl⟩
    · have F0 : 0 < F := lt_of_lt_of_le (by positivity) hlo
      have n1 : Near (1 * (1 / 2 ^ 50)) x F := ⟨F0.le, by rw [one_mul]; calc _ ≤ F / 2 ^ 50 := hx
                                                                          _ = _ := by ring⟩
      obtain ⟨p, q⟩ := Near.pos he0 he1 n1 (by norm_num)
      have x0 : 0 < x := by linarith
      have gF : Ge 100 F := .inr hlo
      have gi : Ge 100 (1 / F) := .inr (one_div_le_one_div_of_le F0 (hhi.trans (pow_le_pow_right₀ (by norm_num) (by norm_num))))
      have n2 := Near.mul he0 he1 n1 n1 (by norm_num) (by norm_num) (by norm_num) (by norm_num)
      have pw : Near (5 / 2 * (1 / 2 ^ 50)) (x ^ m) (F ^ m) ∧ Ge 250 (F ^ m) := by
        have := abs_le.1 hm
        have cases : m = -2 ∨ m = -1 ∨ m = 1 ∨ m = 2 := by omega
        rcases cases with rfl | rfl | rfl | rfl
        · have := Near.inv he0 he1 n2 (by positivity) (by norm_num) (by norm_num)
          rw [show x ^ (-2 : ℤ) = 1 / (x * x) by rw [zpow_neg, one_div, zpow_ofNat, pow_two],
            show F ^ (-2 : ℤ) = 1 / (F * F) by rw [zpow_neg, one_div, zpow_ofNat, pow_two]]
          refine ⟨Near.le he0 he1 this (by norm_num), ?_⟩
          rw [show 1 / (F * F) = 1 / F * (1 / F) by rw [div_mul_div_comm, one_mul]]
          exact (gi.mul gi).mono (by norm_num)
        · have := Near.inv he0 he1 n1 F0 (by norm_num) (by norm_num)
          rw [zpow_neg_one, zpow_neg_one, ← one_div, ← one_div]
          exact ⟨Near.le he0 he1 this (by norm_num), gi.mono (by norm_num)⟩
        · rw [zpow_one, zpow_one]
          exact ⟨Near.le he0 he1 n1 (by norm_num), gF.mono (by norm_num)⟩
        · rw [zpow_ofNat, zpow_ofNat, pow_two, pow_two]
          exact ⟨Near.le he0 he1 n2 (by norm_num), (gF.mul gF).mono (by norm_num)⟩
      have sp := P.spec x m (by
        have : (1 : ℚ) / 2 ^ 200 ≤ 1 / 2 ^ 100 / 2 := by norm_num
        linarith) (by
        have : (2 : ℚ) * 2 ^ 88 ≤ 2 ^ 200 := by norm_num
        linarith) (by omega)
      refine ⟨⟨pw.1.1, ?_⟩, pw.2⟩
      have t := abs_sub_le (P.pow x m) (x ^ m) (F ^ m)
      have b := (Near.pos he0 he1 pw.1 (by norm_num)).2
      have := pw.1.2
      have := pw.1.1
      linarith
  obtain ⟨k1, k2⟩ := key
  have fin := Near.fmul he0 he1 k1 es (by norm_num) (by norm_num) (by norm_num) (by norm_num) ((k2.mul hs).mono (by norm_num)) (c := 4) (by norm_num)
  refine ⟨fin, ?_⟩
  rcases k2.mul hs with hz | hz
  · left
    have := fin.2
    rw [hz, mul_zero, sub_zero] at this
    exact abs_eq_zero.1 (le_antisymm this (abs_nonneg _))
  · right
    have := (Near.pos he0 he1 fin (by norm_num)).1
    have c : (1 : ℚ) / 2 ^ 700 ≤ 1 / 2 ^ (250 + 400) / 2 := by
      rw [div_div, ← pow_succ]
      exact one_div_le_one_div_of_le (by positivity) (pow_le_pow_right₀ (by norm_num) (by norm_num))
    linarith

/-- The integral of `freq ** m * spec` over all given frequencies. -/
theorem momentSum_double (R : NpSum) (P : NpPow) {f S : List ℚ} {f0 h : ℚ} (A : AxisDouble f f0 h) (hne : f ≠ []) (hl : f.length = S.length)
    (hS : ∀ s ∈ S, Ge 400 s) {m : ℤ} (hm : |m| ≤ 2) (hneg : m < 0 → 0 < f0) :
    ∃ v, momentSumF64 R P m f S = .ok v ∧ IsDouble v ∧
      |v - h * ∑ k ∈ range f.length, simpsonWeight ℚ f.length k * ((f0 + k * h) ^ m * S.getD k 0)| ≤
        (f0 + f.length * h) / h / 2 ^ 44 * (h * ∑ k ∈ range f.length, simpsonWeight ℚ f.length k * ((f0 + k * h) ^ m * S.getD k 0)) := by
  have h0 := A.hpos
  obtain ⟨st, he0, he1⟩ := A.steps hne
  set e := (f0 + f.length * h) / h / 2 ^ 48 with hee
  have e0 : 0 < e := lt_of_lt_of_le (by positivity) he0
  set y := List.zipWith (fun a s => f64 (P.pow a m * s)) f S with hy
  have yl : y.length = f.length := by simp [hy, hl]
  have zf : ¬ (m < 0 ∧ (0 : ℚ) ∈ f) := by
    rintro ⟨hmn, hz⟩
    obtain ⟨i, hi, e⟩ := List.getElem_of_mem hz
    have := A.near i hi
    rw [List.getD_eq_getElem _ _ hi, e, zero_sub, abs_neg] at this
    have p : 0 < f0 + i * h := add_pos_of_pos_of_nonneg (hneg hmn) (by positivity)
    rw [abs_of_pos p] at this
    linarith
  have gS : ∀ i, i < f.length → Ge 400 (S.getD i 0) := by
    intro i hi
    rw [List.getD_eq_getElem _ _ (by omega)]
    exact hS _ (List.getElem_mem _)
  have yg : ∀ i, i < f.length → y.getD i 0 = f64 (P.pow (f.getD i 0) m * S.getD i 0) := by
    intro i hi
    rw [List.getD_eq_getElem _ _ (by omega), List.getD_eq_getElem _ _ hi, List.getD_eq_getElem _ _ (by omega)]
    simp [hy]
  have int : ∀ i, i < f.length → Near (4 * (1 / 2 ^ 50)) (y.getD i 0) ((f0 + i * h) ^ m * S.getD i 0) ∧ Ge 700 (y.getD i 0) := by
    intro i hi
    rw [yg i hi]
    refine integrand_double P hm (A.near i hi) (A.freq_range hi) (fun hn => ?_) (gS i hi)
    exact (add_pos_of_pos_of_nonneg (hneg hn) (by positivity)).ne'
  have yG : ∀ v ∈ y, Ge 700 v := by
    intro v hv
    obtain ⟨i, hi, rfl⟩ := List.getElem_of_mem hv
    have := (int i (by omega)).2
    rwa [List.getD_eq_getElem _ _ hi] at this
  have fl : f.length ≤ 2 ^ 24 := by
    have := A.size
    have := A.f0_nonneg
    have : (f.length : ℚ) * h ≤ 2 ^ 24 * h := by linarith
    have := le_of_mul_le_mul_right this h0
    exact_mod_cast this
  obtain ⟨v, hv, dv, er⟩ := simpson_double R P he0 he1 (le_trans (by norm_num) A.lo) (A.hi.trans (by norm_num)) hne yl.symm
    (fl.trans (by norm_num)) st yG
  refine ⟨v, by unfold momentSumF64; rw [if_neg zf]; exact hv, dv, ?_⟩
  rw [yl] at er
  set Q' := h * ∑ k ∈ range f.length, simpsonWeight ℚ f.length k * y.getD k 0 with hQ'
  set Q := h * ∑ k ∈ range f.length, simpsonWeight ℚ f.length k * ((f0 + k * h) ^ m * S.getD k 0) with hQ
  have Q0 : 0 ≤ Q := mul_nonneg h0.le (sum_nonneg fun k hk => mul_nonneg (weight_nonneg _ _) (int k (mem_range.1 hk)).1.1)
  have dQ : |Q' - Q| ≤ e * Q := by
    rw [hQ', hQ, ← mul_sub, ← sum_sub_distrib, abs_mul, abs_of_pos h0, mul_left_comm]
    refine mul_le_mul_of_nonneg_left ?_ h0.le
    refine (abs_sum_le_sum_abs _ _).trans ?_
    rw [mul_sum]
    refine sum_le_sum fun k hk => ?_
    have := (int k (mem_range.1 hk)).1
    rw [← mul_sub, abs_mul, abs_of_nonneg (weight_nonneg _ _), mul_left_comm]
    refine mul_le_mul_of_nonneg_left (this.2.trans (mul_le_mul_of_nonneg_right ?_ this.1)) (weight_nonneg _ _)
    have : 1 ≤ (f0 + f.length * h) / h := by
      rw [le_div_iff₀ h0, one_mul]
      have pos : (1 : ℚ) ≤ f.length := by exact_mod_cast List.length_pos_iff.2 hne
      have := le_mul_of_one_le_left h0.le pos
      have := A.f0_nonneg
      linarith
    rw [hee]
    linarith
  have nb : (f.length : ℚ) / 2 ^ 51 ≤ 1 / 8 * e := by
    have : (f.length : ℚ) ≤ (f0 + f.length * h) / h := by
      rw [le_div_iff₀ h0]
      have := A.f0_nonneg
      linarith
    rw [hee]
    linarith
  have Q'le : Q' ≤ (1 + e) * Q := by
    have := (abs_le.1 dQ).2
    linarith
  have t := abs_sub_le v Q' Q
  have c1 : (11 * e + (f.length : ℚ) / 2 ^ 51) * Q' ≤ (89 / 8 * e) * ((1 + e) * Q) :=
    (mul_le_mul_of_nonneg_right (by linarith) (by
      rw [hQ']
      exact mul_nonneg h0.le (sum_nonneg fun k hk => mul_nonneg (weight_nonneg _ _) (int k (mem_range.1 hk)).2.nonneg))).trans
      (mul_le_mul_of_nonneg_left Q'le (by positivity))
  have c2 : (89 / 8 * e) * ((1 + e) * Q) ≤ 12 * e * Q := by
    have : 89 / 8 * (1 + e) ≤ 12 := by linarith
    calc _ = 89 / 8 * (1 + e) * (e * Q) := by ring
      _ ≤ 12 * (e * Q) := mul_le_mul_of_nonneg_right this (by positivity)
      _ = _ := by ring
  have c3 : (f0 + f.length * h) / h / 2 ^ 44 = 16 * e := by rw [hee]; ring
  rw [c3]
  have : 0 ≤ e * Q := by positivity
  calc _ ≤ 12 * e * Q + e * Q := by linarith
    _ ≤ _ := by linarith

/-! ## The moments -/

/-- Specification: the exact axis. -/
def exactAxis (f0 h : ℚ) (n : ℕ) : List ℚ := (List.range n).map fun i : ℕ => f0 + i * h

theorem exactAxis_uniform {f0 h : ℚ} (hh : 0 < h) (n : ℕ) : UniformAxis (exactAxis f0 h n) h := by
  refine ⟨hh, fun i hi => ?_⟩
  have hi' : i + 1 < n := by simpa [exactAxis] using hi
  unfold exactAxis
  rw [map_range_getD hi', map_range_getD (by omega)]
  push_cast; ring

theorem pySlice_whole {α : Type} (l : List α) {n : ℕ} (hn : l.length ≤ n) : pySlice l 0 n = l := by
  unfold pySlice
  rw [List.drop_zero, List.take_of_length_le hn]

/-- The index of a frequency of the axis is found. -/
theorem AxisDouble.index {f : List ℚ} {f0 h : ℚ} (A : AxisDouble f f0 h) {k : ℕ} (hk : k < f.length) :
    approxArrayIndexF64 f (f.getD k 0) = .ok k := by
  have hne : f ≠ [] := by rintro rfl; simp at hk
  obtain ⟨i, h1, h2, -, h4⟩ := nearest_double hne A.doubles (A.double_getD hk)
  rw [h1, h4 k hk fun j hj hjk => ?_]
  rw [sub_self, abs_zero, zero_mul, abs_pos, sub_ne_zero]
  rcases Nat.lt_or_ge j k with h | h
  · exact (A.lt h hk).ne
  · exact (A.lt (by omega : k < j) hj).ne'

/-- **C124 (moments).**  The moment of order `m` (−2, …, 2) over the whole axis — computed in double precision, with any order of the additions
and any `pow` accurate to `2 ^ -52` — is the moment of the same densities on the exact axis, up to a relative error of `(f_max + h) / h / 2 ^ 44`:
about `6e-14` times the number of frequencies between zero and the end of the axis. -/
theorem moment_double (R : NpSum) (P : NpPow) {f S : List ℚ} {f0 h : ℚ} (A : AxisDouble f f0 h) (h2 : 2 ≤ f.length) (hl : f.length = S.length)
    (acc : monotonicF64 f = .ok true) (hS : ∀ s ∈ S, IsSize s) {m : ℤ} (hm : |m| ≤ 2) {lo hi : ℚ}
    (hlim : (lo = -1 ∨ hi = -1) ∨ (lo = f.getD 0 0 ∧ hi = f.getD (f.length - 1) 0)) :
    ∃ v M, computeMomentF64 R P f S m lo hi = .ok v ∧ IsDouble v ∧
      computeMoment (vec (exactAxis f0 h f.length)) (vec S) m (-1) (.fin (-1)) = .ok M ∧
      0 ≤ M ∧ |v - M| ≤ (f0 + f.length * h) / h / 2 ^ 44 * M := by
  have h0 := A.hpos
  have z := A.f0_nonneg
  have hne : f ≠ [] := by rintro rfl; simp at h2
  have el : (exactAxis f0 h f.length).length = f.length := by simp [exactAxis]
  have eg : ∀ i, i < f.length → (exactAxis f0 h f.length).getD i 0 = f0 + i * h := fun i hi => by
    unfold exactAxis; rw [map_range_getD hi]
  have eg0 : (exactAxis f0 h f.length).getD 0 0 = f0 := by rw [eg 0 (by omega)]; simp
  have f00 : f.getD 0 0 = 0 ↔ f0 = 0 := by
    have := A.near 0 (by omega)
    simp only [Nat.cast_zero, zero_mul, add_zero] at this
    constructor
    · intro hz
      rw [hz, zero_sub, abs_neg, abs_of_nonneg z] at this
      linarith
    · intro hz
      rw [hz, zero_div, sub_zero] at this
      exact abs_eq_zero.1 (le_antisymm this (abs_nonneg _))
  have f0p : 0 ≤ f.getD 0 0 := by
    have := A.near 0 (by omega)
    simp only [Nat.cast_zero, zero_mul, add_zero] at this
    have := (abs_le.1 this).1
    linarith
  have gS : ∀ s ∈ S, Ge 400 s := fun s hs => (hS s hs).2
  have ex := moment_exact_default (m := m) (fmax := .fin (-1)) (isArr_vec (exactAxis f0 h f.length)) (isArr_vec S) (exactAxis_uniform h0 f.length)
    (by omega) (by omega) (by rw [eg0]; exact z)
  simp only [eg0, el] at ex
  unfold computeMomentF64
  simp only [acc, bind, Except.bind]
  rw [if_neg (by simp), if_neg (by simpa using hl)]
  unfold computeMomentLF64
  simp only [getE_getD (show 0 < f.length by omega), bind, Except.bind]
  by_cases hd : m < 0 ∧ f0 = 0
  · rw [if_pos hd] at ex
    have hd' : m < 0 ∧ f.getD 0 0 = 0 := ⟨hd.1, f00.2 hd.2⟩
    simp only [decide_eq_true hd', if_true]
    have A' := A.drop1 hne
    have ne' : f.drop 1 ≠ [] := by
      intro h
      have := congrArg List.length h
      rw [List.length_drop, List.length_nil] at this
      omega
    obtain ⟨v, hv, dv, er⟩ := momentSum_double R P A' ne' (S := S.drop 1) (by simp [hl]) (fun s hs => gS s (List.mem_of_mem_drop hs)) hm
      (fun _ => by linarith)
    have dl : (f.drop 1).length = f.length - 1 := by rw [List.length_drop]
    have sum_eq : h * ∑ k ∈ range (f.drop 1).length, simpsonWeight ℚ (f.drop 1).length k * ((f0 + h + k * h) ^ m * (S.drop 1).getD k 0) =
        h * ∑ k ∈ range (f.length - 1), simpsonWeight ℚ (f.length - 1) k * ((exactAxis f0 h f.length).getD (1 + k) 0 ^ m * S.getD (1 + k) 0) := by
      rw [dl]
      congr 1
      refine sum_congr rfl fun k hk => ?_
      have hk' := mem_range.1 hk
      rw [eg (1 + k) (by omega), show (S.drop 1).getD k 0 = S.getD (1 + k) 0 by
        rw [List.getD_eq_getElem _ _ (by rw [List.length_drop]; omega), List.getElem_drop, List.getD_eq_getElem _ _ (by omega)]]
      push_cast
      rw [show f0 + h + (k : ℚ) * h = f0 + (1 + (k : ℚ)) * h by ring]
    rw [sum_eq] at er
    refine ⟨v, _, ?_, dv, ex, ?_, ?_⟩
    · rcases hlim with hlim | ⟨rfl, rfl⟩
      · rw [if_pos hlim]; exact hv
      · have m1 : 0 < f.getD (f.length - 1) 0 := by
          have := A.lt (i := 0) (j := f.length - 1) (by omega) (by omega)
          linarith
        rw [if_neg (by rintro (h | h) <;> linarith), if_pos hd'.2]
        have last : (f.drop 1).getD (f.length - 1 - 1) 0 = f.getD (f.length - 1) 0 := by
          rw [List.getD_eq_getElem _ _ (by rw [List.length_drop]; omega), List.getElem_drop, List.getD_eq_getElem _ _ (by omega)]
          congr 1; omega
        simp only [lastE_getD ne', dl, last]
        rw [if_pos le_rfl]
        unfold momentBetweenF64
        have i0 := A'.index (k := 0) (by omega)
        have i1 := A'.index (k := f.length - 1 - 1) (by omega)
        rw [last] at i1
        rw [show (f.drop 1).getD 0 0 = f.getD 1 0 by
          rw [List.getD_eq_getElem _ _ (by omega), List.getElem_drop, List.getD_eq_getElem _ _ (by omega)]] at i0
        simp only [i0, i1, bind, Except.bind]
        rw [pySlice_whole _ (by omega), pySlice_whole _ (by rw [List.length_drop]; omega)]
        exact hv
    · exact mul_nonneg h0.le (sum_nonneg fun k hk => mul_nonneg (weight_nonneg _ _) (by
        have hk' := mem_range.1 hk
        rw [eg _ (by omega)]
        refine mul_nonneg (zpow_nonneg (by positivity) _) ?_
        rw [List.getD_eq_getElem _ _ (by omega)]
        exact (gS _ (List.getElem_mem _)).nonneg))
    · rw [dl, Nat.cast_sub (by omega), Nat.cast_one, show f0 + h + ((f.length : ℚ) - 1) * h = f0 + f.length * h by ring] at er
      exact er
  · rw [if_neg hd] at ex
    have hd' : ¬ (m < 0 ∧ f.getD 0 0 = 0) := fun h => hd ⟨h.1, f00.1 h.2⟩
    simp only [decide_eq_false hd', Bool.false_eq_true, if_false]
    obtain ⟨v, hv, dv, er⟩ := momentSum_double R P A hne hl gS hm
      (fun hn => lt_of_le_of_ne z fun h => hd ⟨hn, h.symm⟩)
    have sum_eq : h * ∑ k ∈ range f.length, simpsonWeight ℚ f.length k * ((f0 + k * h) ^ m * S.getD k 0) =
        h * ∑ k ∈ range (f.length - 0), simpsonWeight ℚ (f.length - 0) k * ((exactAxis f0 h f.length).getD (0 + k) 0 ^ m * S.getD (0 + k) 0) := by
      rw [Nat.sub_zero]
      congr 1
      refine sum_congr rfl fun k hk => ?_
      rw [zero_add, eg k (mem_range.1 hk)]
    rw [sum_eq] at er
    refine ⟨v, _, ?_, dv, ex, ?_, er⟩
    · rcases hlim with hlim | ⟨rfl, rfl⟩
      · rw [if_pos hlim]; exact hv
      · have m1 : 0 < f.getD (f.length - 1) 0 := by
          have := A.lt (i := 0) (j := f.length - 1) (by omega) (by omega)
          linarith
        rw [if_neg (by rintro (h | h) <;> linarith)]
        simp only [lastE_getD hne]
        rw [if_pos le_rfl]
        unfold momentBetweenF64
        simp only [A.index (k := 0) (by omega), A.index (k := f.length - 1) (by omega), bind, Except.bind]
        rw [pySlice_whole _ (by omega), pySlice_whole _ (by omega)]
        exact hv
    · exact mul_nonneg h0.le (sum_nonneg fun k hk => mul_nonneg (weight_nonneg _ _) (by
        have hk' := mem_range.1 hk
        rw [eg _ (by omega)]
        refine mul_nonneg (zpow_nonneg (by positivity) _) ?_
        rw [List.getD_eq_getElem _ _ (by omega)]
        exact (gS _ (List.getElem_mem _)).nonneg))

end Verif
