import Verif.Props.FloatMomentTiny
import Verif.Props.FloatJonswapShape

/-! # C184: the zeroth moment, the wave height and the scaling of a JONSWAP spectrum in double precision, with densities that underflow -/

set_option linter.unusedSectionVars false

namespace Verif
open Finset

/-- Rounding, with a bound that holds for subnormal results too. -/
theorem f64_error_any (x : ℚ) : |f64 x - x| ≤ |x| / 2 ^ 53 + 1 / 2 ^ 1022 := by
  by_cases h : (2 : ℚ) ^ (-1022 : ℤ) ≤ |x|
  · have a := f64_error_normal h
    have : (0 : ℚ) ≤ 1 / 2 ^ 1022 := by positivity
    linarith
  · have a := f64_nearest x isDouble_zero
    rw [zero_sub, abs_neg] at a
    have b : |x| < 1 / 2 ^ 1022 := by
      have := not_le.1 h
      rwa [zpow_neg, ← one_div, zpow_ofNat] at this
    have : 0 ≤ |x| / 2 ^ 53 := by positivity
    linarith

/-- The list with the small densities put to zero. -/
def lowList (c : ℚ) (S : List ℚ) : List ℚ := S.map fun s => if s < c then 0 else s

/-- The list with the small densities put to `c`. -/
def highList (c : ℚ) (S : List ℚ) : List ℚ := S.map fun s => max s c

theorem lowList_le {c : ℚ} {S : List ℚ} (h : ∀ s ∈ S, 0 ≤ s) : List.Forall₂ (· ≤ ·) (lowList c S) S := by
  unfold lowList
  rw [List.forall₂_map_left_iff, List.forall₂_same]
  intro s hs
  split_ifs
  · exact h s hs
  · exact le_rfl

theorem le_highList {c : ℚ} {S : List ℚ} : List.Forall₂ (· ≤ ·) S (highList c S) := by
  unfold highList
  rw [List.forall₂_map_right_iff, List.forall₂_same]
  exact fun s _ => le_max_left _ _

theorem lowList_ge {n : ℕ} {S : List ℚ} : ∀ v ∈ lowList (1 / 2 ^ n) S, Ge n v := by
  intro v hv
  obtain ⟨s, -, rfl⟩ := List.mem_map.1 hv
  unfold Ge
  by_cases h : s < 1 / 2 ^ n
  · exact .inl (if_pos h)
  · exact .inr (by simp only [if_neg h]; exact not_lt.1 h)

theorem highList_ge {n : ℕ} {S : List ℚ} : ∀ v ∈ highList (1 / 2 ^ n) S, Ge n v := by
  intro v hv
  obtain ⟨s, -, rfl⟩ := List.mem_map.1 hv
  exact .inr (le_max_right _ _)

theorem list_gap {c : ℚ} (hc : 0 ≤ c) (S : List ℚ) : ∀ k < (lowList c S).length, (highList c S).getD k 0 ≤ (lowList c S).getD k 0 + c := by
  intro k hk
  have hk' : k < S.length := by simpa [lowList] using hk
  rw [List.getD_eq_getElem _ _ hk, List.getD_eq_getElem _ _ (by simpa [highList] using hk')]
  simp only [highList, lowList, List.getElem_map]
  split_ifs with h
  · rw [max_eq_right h.le]; linarith
  · push Not at h
    rw [max_eq_left h]; linarith

/-- The zeroth moment over a whole axis, in double precision, of any non-negative doubles. -/
theorem momentSum_zero (R : NpSum) (P : NpPow) {f S : List ℚ} {f0 h : ℚ} (A : AxisDouble f f0 h) (hne : f ≠ []) (hl : f.length = S.length)
    (hd : ∀ s ∈ S, IsDouble s) (hp : ∀ s ∈ S, 0 ≤ s) (hM : 1 / 2 ^ 500 ≤ momentValue f0 h S 0) :
    ∃ v, momentSumF64 R P 0 f S = .ok v ∧ IsDouble v ∧ |v - momentValue f0 h S 0| ≤ (f0 + f.length * h) / h / 2 ^ 44 * momentValue f0 h S 0 := by
  have h0 := A.hpos
  obtain ⟨st, he0, he1⟩ := A.steps hne
  have eM : momentValue f0 h S 0 = exactRule h S := momentValue_zero f0 h S
  rw [eM] at hM ⊢
  have ey : List.zipWith (fun a s => f64 (P.pow a 0 * s)) f S = S := by
    apply List.ext_getElem (by simp [hl])
    intro i h1 h2
    rw [List.getElem_zipWith, P.one, one_mul]
    exact f64_of_double (hd _ (List.getElem_mem _))
  have nh : (f.length : ℚ) * h ≤ 2 ^ 84 := by
    have := A.size
    have := A.f0_nonneg
    have := A.hi
    norm_num at *
    linarith
  have fl : f.length ≤ 2 ^ 24 := by
    have := A.size
    have := A.f0_nonneg
    have : (f.length : ℚ) * h ≤ 2 ^ 24 * h := by linarith
    have := le_of_mul_le_mul_right this h0
    exact_mod_cast this
  set L := lowList (1 / 2 ^ 700) S with hL
  set H := highList (1 / 2 ^ 700) S with hH
  have mL : List.Forall₂ (· ≤ ·) L S := lowList_le hp
  have mH : List.Forall₂ (· ≤ ·) S H := le_highList
  obtain ⟨v, e1, dv, b1, b2⟩ := simpson_between he0 he1 (le_trans (by norm_num) A.lo) (A.hi.trans (by norm_num)) R P hne hl
    (fl.trans (by norm_num)) st lowList_ge highList_ge mL mH
  rw [← hL, ← hH] at b1 b2
  have gap := exactRule_diff h0.le (y := L) (z := H) (by simp [hL, hH, lowList, highList]) (list_gap (by positivity) S) (by positivity)
  have Ll : (L.length : ℚ) = f.length := by simp [hL, lowList, hl]
  rw [Ll] at gap
  have gap2 : exactRule h H - exactRule h L ≤ 1 / 2 ^ 60 * exactRule h S := by
    refine gap.trans ?_
    calc 2 * (f.length * h) * (1 / 2 ^ 700) ≤ 2 * 2 ^ 84 * (1 / 2 ^ 700) := mul_le_mul_of_nonneg_right (by linarith) (by positivity)
      _ = 2 * 2 ^ 84 * (1 / 2 ^ 140 * (1 / 2 ^ 60) * (1 / 2 ^ 500)) := by rw [← inv_pow_add, ← inv_pow_add]
      _ = 2 * 2 ^ 84 * (1 / 2 ^ 140) * (1 / 2 ^ 60) * (1 / 2 ^ 500) := by ring
      _ ≤ 1 / 2 ^ 60 * (1 / 2 ^ 500) := mul_le_mul_of_nonneg_right (by norm_num) (by positivity)
      _ ≤ _ := mul_le_mul_of_nonneg_left hM (by positivity)
  have QLS := exactRule_mono h0.le mL
  have QSH := exactRule_mono h0.le mH
  have M0 : 0 ≤ exactRule h S := le_trans (by positivity) hM
  have et : (f0 + f.length * h) / h / 2 ^ 44 = 16 * ((f0 + f.length * h) / h / 2 ^ 48) := by ring
  rw [et]
  have nb : (f.length : ℚ) / 2 ^ 51 ≤ 1 / 8 * ((f0 + f.length * h) / h / 2 ^ 48) := by
    have : (f.length : ℚ) ≤ (f0 + f.length * h) / h := by
      rw [le_div_iff₀ h0]
      have := A.f0_nonneg
      linarith
    linarith
  have nb0 : (0 : ℚ) ≤ (f.length : ℚ) / 2 ^ 51 := by positivity
  generalize (f0 + f.length * h) / h / 2 ^ 48 = e at *
  generalize (f.length : ℚ) / 2 ^ 51 = ν at *
  generalize exactRule h S = M at *
  generalize exactRule h L = ML at *
  generalize exactRule h H = MH at *
  refine ⟨v, by unfold momentSumF64; rw [if_neg (by simp), ey]; exact e1, dv, ?_⟩
  have MHle : MH ≤ (1 + 1 / 2 ^ 60) * M := by linarith
  have c : (11 * e + ν) * MH ≤ (89 / 8 * e) * ((1 + 1 / 2 ^ 60) * M) :=
    mul_le_mul (by linarith) MHle (by linarith) (by norm_num at he0; linarith)
  have eM' : 1 / 2 ^ 50 * M ≤ e * M := mul_le_mul_of_nonneg_right he0 M0
  have c' : (89 / 8 * e) * ((1 + 1 / 2 ^ 60) * M) = 89 / 8 * (1 + 1 / 2 ^ 60) * (e * M) := by ring
  rw [c'] at c
  rw [show 16 * e * M = 16 * (e * M) by ring]
  generalize e * M = p at *
  generalize (11 * e + ν) * MH = q at *
  clear hM gap nb nb0 he0 he1
  rw [abs_le]
  norm_num at *
  constructor <;> linarith

/-- **C184 (moment).**  The zeroth moment over the whole axis, in double precision, of any list of non-negative doubles — tiny, subnormal and zero ones
included — is the exact moment of the same densities on the exact axis up to a relative error of `(f_max + h) / h / 2 ^ 44`, when that moment is at
least `2 ^ -500`. -/
theorem moment_zero_double (R : NpSum) (P : NpPow) {f S : List ℚ} {f0 h M : ℚ} (A : AxisDouble f f0 h) (h2 : 2 ≤ f.length) (hl : f.length = S.length)
    (acc : monotonicF64 f = .ok true) (hd : ∀ s ∈ S, IsDouble s) (hp : ∀ s ∈ S, 0 ≤ s)
    (hM : computeMoment (vec (exactAxis f0 h f.length)) (vec S) 0 (-1) (.fin (-1)) = .ok M) (M1 : 1 / 2 ^ 500 ≤ M) {lo hi : ℚ}
    (hlim : (lo = -1 ∨ hi = -1) ∨ (lo = f.getD 0 0 ∧ hi = f.getD (f.length - 1) 0)) :
    ∃ v, computeMomentF64 R P f S 0 lo hi = .ok v ∧ IsDouble v ∧ |v - M| ≤ (f0 + f.length * h) / h / 2 ^ 44 * M := by
  have hne : f ≠ [] := by rintro rfl; simp at h2
  have z := A.f0_nonneg
  rw [hl, momentValue_spec A.hpos z (by omega)] at hM
  obtain rfl := Except.ok.inj hM
  obtain ⟨v, hv, dv, er⟩ := momentSum_zero R P A hne hl hd hp M1
  refine ⟨v, ?_, dv, er⟩
  have f0p : 0 ≤ f.getD 0 0 := by
    have := A.near 0 (by omega)
    simp only [Nat.cast_zero, zero_mul, add_zero] at this
    have := (abs_le.1 this).1
    linarith
  unfold computeMomentF64
  simp only [acc, bind, Except.bind]
  rw [if_neg (by simp), if_neg (by simpa using hl)]
  unfold computeMomentLF64
  have hd' : ¬ ((0 : ℤ) < 0 ∧ f.getD 0 0 = 0) := fun h => absurd h.1 (lt_irrefl _)
  simp only [getE_getD (show 0 < f.length by omega), bind, Except.bind, decide_eq_false hd', Bool.false_eq_true, if_false]
  rcases hlim with hlim | ⟨rfl, rfl⟩
  · rw [if_pos hlim]; exact hv
  · have m1 : 0 < f.getD (f.length - 1) 0 := by
      have := A.lt (i := 0) (j := f.length - 1) (by omega) (by omega)
      linarith
    rw [if_neg (by rintro (h | h) <;> linarith)]
    simp only [lastE_getD hne]
    rw [if_pos le_rfl]
    unfold momentBetweenF64
    simp only [A.index (k := 0) (by omega), A.index (k := f.length - 1) (by omega), bind, Except.bind]
    rw [pySlice_whole _ (by omega), pySlice_whole _ (by omega)]
    exact hv

/-! ## The scaling of a JONSWAP spectrum -/

/-- The moment of rounded multiples. -/
theorem moment_scaled_any {f0 h s : ℚ} (hh : 0 < h) {U S : List ℚ} (hl : S.length = U.length) {d : ℚ} (d0 : 0 ≤ d)
    (hc : ∀ i < U.length, |S.getD i 0 - s * U.getD i 0| ≤ s * U.getD i 0 / 2 ^ 53 + d) :
    |momentValue f0 h S 0 - s * momentValue f0 h U 0| ≤ s * momentValue f0 h U 0 / 2 ^ 53 + 2 * (U.length * h) * d := by
  rw [momentValue_zero, momentValue_zero, hl]
  have e : h * ∑ k ∈ range U.length, simpsonWeight ℚ U.length k * S.getD k 0 - s * (h * ∑ k ∈ range U.length, simpsonWeight ℚ U.length k * U.getD k 0) =
      h * ∑ k ∈ range U.length, simpsonWeight ℚ U.length k * (S.getD k 0 - s * U.getD k 0) := by
    simp only [mul_sub, sum_sub_distrib]
    rw [mul_sum (s := range U.length) (a := h), mul_sum (s := range U.length) (a := h), mul_sum (s := range U.length) (a := s),
      mul_sum (s := range U.length) (a := h)]
    congr 1
    exact sum_congr rfl fun k _ => by ring
  rw [e, abs_mul, abs_of_pos hh]
  have b : |∑ k ∈ range U.length, simpsonWeight ℚ U.length k * (S.getD k 0 - s * U.getD k 0)| ≤
      ∑ k ∈ range U.length, (simpsonWeight ℚ U.length k * (s * U.getD k 0 / 2 ^ 53) + 2 * d) := by
    refine (abs_sum_le_sum_abs _ _).trans (sum_le_sum fun k hk => ?_)
    rw [abs_mul, abs_of_nonneg (weight_nonneg _ _)]
    have a := mul_le_mul_of_nonneg_left (hc k (mem_range.1 hk)) (weight_nonneg U.length k)
    have w := mul_le_mul_of_nonneg_right (weight_le_two U.length k) d0
    rw [mul_add] at a
    linarith
  rw [sum_add_distrib, sum_const, card_range, nsmul_eq_mul] at b
  calc _ ≤ h * (∑ k ∈ range U.length, simpsonWeight ℚ U.length k * (s * U.getD k 0 / 2 ^ 53) + U.length * (2 * d)) := mul_le_mul_of_nonneg_left b hh.le
    _ = _ := by
        rw [mul_add]
        congr 1
        · rw [mul_sum, mul_sum, mul_sum, sum_div]
          exact sum_congr rfl fun k _ => by ring
        · ring

theorem height_close_any {t m w : ℚ} (t1 : 1 / 2 ^ 44 ≤ t) (t2 : t ≤ 1 / 2 ^ 20) (w0 : 0 ≤ w) {y : ℚ} (hy : |y - w| ≤ 4 / 3 * t * w)
    (hm : |16 * m - y| ≤ y / 2 ^ 52) : |16 * m - w| ≤ 3 / 2 * t * w := by
  obtain ⟨a1, a2⟩ := abs_le.1 hy
  obtain ⟨b1, b2⟩ := abs_le.1 hm
  have tw : 1 / 2 ^ 44 * w ≤ t * w := mul_le_mul_of_nonneg_right t1 w0
  have tw' : t * w ≤ 1 / 2 ^ 20 * w := mul_le_mul_of_nonneg_right t2 w0
  have e2 : 4 / 3 * t * w = 4 / 3 * (t * w) := by ring
  have e3 : 3 / 2 * t * w = 3 / 2 * (t * w) := by ring
  rw [e2] at a1 a2
  rw [e3]
  generalize t * w = p at *
  rw [abs_le]
  norm_num at *
  constructor <;> linarith

section
variable (R : NpSum) (P : NpPow) (Q : NpSqrt) {f U : List ℚ} {f0 h H M : ℚ} (A : AxisDouble f f0 h) (h2 : 2 ≤ f.length) (hl : f.length = U.length)
  (acc : monotonicF64 f = .ok true) (hd : ∀ u ∈ U, IsDouble u) (hp : ∀ u ∈ U, 0 ≤ u)
  (hM : computeMoment (vec (exactAxis f0 h f.length)) (vec U) 0 (-1) (.fin (-1)) = .ok M) (M1 : 1 / 2 ^ 60 ≤ M) (M2 : M ≤ 2 ^ 40)
  (H1 : 1 / 2 ^ 20 ≤ H) (H2 : H ≤ 2 ^ 20)
include A h2 hl acc hd hp hM M1 M2 H1 H2

/-- **C184 (scaling).**  Whatever the unscaled densities `U` are (non-negative doubles), the densities that `create_spectrum_jonswap` returns are `U`
times one positive factor, each up to one rounding, and their wave height — the exact one, and the one that `get_Hm0` computes in double precision — is
the prescribed one up to a relative error of `2 (f_max + h) / h / 2 ^ 44`. -/
theorem scaled_any : ∃ S s, jonswapScaledF64 R P Q f U H = .ok S ∧ S.length = U.length ∧ (∀ v ∈ S, IsDouble v ∧ 0 ≤ v) ∧ 0 < s ∧
    (∀ i < U.length, |S.getD i 0 - s * U.getD i 0| ≤ s * U.getD i 0 / 2 ^ 53 + 1 / 2 ^ 1022) ∧
    (∃ Hc, hm0F64 R P Q f S (-1) (-1) = .ok Hc ∧ |Hc - H| ≤ 2 * ((f0 + f.length * h) / h / 2 ^ 44) * H) ∧
    ∃ Hx, calcHm0 (realList (exactAxis f0 h f.length)) ⟨[S.length], realList S⟩ (-1) (.fin (-1)) = .ok Hx ∧
      |Hx - H| ≤ 2 * (((f0 + f.length * h) / h / 2 ^ 44 : ℚ) : ℝ) * H := by
  obtain ⟨v, e1, dv, er⟩ := moment_zero_double R P A h2 hl acc hd hp hM ((inv_pow_le (by norm_num)).trans M1) (.inr ⟨rfl, rfl⟩)
  have hMv : M = momentValue f0 h U 0 := by
    rw [hl, momentValue_spec A.hpos A.f0_nonneg (by omega)] at hM
    exact (Except.ok.inj hM).symm
  obtain ⟨t1, t2⟩ := tol_range A h2
  have hh := A.hpos
  have nh : (U.length : ℚ) * h ≤ 2 ^ 84 := by
    rw [← hl]
    have a := A.size
    have b := A.f0_nonneg
    have c := A.hi
    norm_num at *
    linarith
  set t := (f0 + f.length * h) / h / 2 ^ 44 with ht
  have t0 : 0 < t := lt_of_lt_of_le (by positivity) t1
  have Mp : 0 < M := lt_of_lt_of_le (by positivity) M1
  have Hp : 0 < H := lt_of_lt_of_le (by positivity) H1
  have tM : t * M ≤ 1 / 2 ^ 20 * M := mul_le_mul_of_nonneg_right t2 Mp.le
  have vp : 0 < v := by have := (abs_le.1 er).1; norm_num at tM; linarith
  obtain ⟨sc, s91⟩ := scale_close P Q t1 t2 ⟨Mp.le, er⟩ M1 M2 H1 H2
  set s := P.pow (f64 (H / f64 (4 * Q.sqrt v))) 2 with hs
  have s0 : 0 < s := lt_of_lt_of_le (by positivity) s91
  have hS : jonswapScaledF64 R P Q f U H = .ok (U.map fun v => f64 (v * s)) := by
    unfold jonswapScaledF64
    rw [e1]
    simp only
    rw [if_neg (not_le.2 vp)]
  set S := U.map fun v => f64 (v * s) with hSd
  have Sl : S.length = U.length := by simp [hSd]
  have Sg : ∀ i < U.length, S.getD i 0 = f64 (U.getD i 0 * s) := fun i hi => by
    rw [List.getD_eq_getElem _ _ (by omega), List.getD_eq_getElem _ _ hi]
    simp [hSd]
  have Sc : ∀ i < U.length, |S.getD i 0 - s * U.getD i 0| ≤ s * U.getD i 0 / 2 ^ 53 + 1 / 2 ^ 1022 := fun i hi => by
    have a := f64_error_any (U.getD i 0 * s)
    have b : 0 ≤ U.getD i 0 := by rw [List.getD_eq_getElem _ _ hi]; exact hp _ (List.getElem_mem _)
    rw [abs_of_nonneg (mul_nonneg b s0.le)] at a
    rw [Sg i hi, mul_comm s]
    exact a
  have Ss : ∀ v ∈ S, IsDouble v ∧ 0 ≤ v := by
    intro w hw
    obtain ⟨u, hu, rfl⟩ := List.mem_map.1 hw
    exact ⟨f64_double _, f64_nonneg (mul_nonneg (hp u hu) s0.le)⟩
  have sM : 1 / 2 ^ 151 ≤ s * M := by
    calc (1 : ℚ) / 2 ^ 151 = 1 / 2 ^ 91 * (1 / 2 ^ 60) := inv_pow_add 91 60
      _ ≤ _ := mul_le_mul s91 M1 (by positivity) s0.le
  -- the moment of the result
  have mS := moment_scaled_any (f0 := f0) hh Sl (by positivity) Sc
  rw [← hMv] at mS
  have mS' : |momentValue f0 h S 0 - s * M| ≤ s * M / 2 ^ 52 := by
    refine mS.trans ?_
    have : 2 * (U.length * h) * (1 / 2 ^ 1022) ≤ s * M / 2 ^ 53 := by
      calc 2 * (U.length * h) * (1 / 2 ^ 1022) ≤ 2 * 2 ^ 84 * (1 / 2 ^ (100 + 200)) :=
            mul_le_mul (by linarith) (inv_pow_le (by norm_num)) (by positivity) (by positivity)
        _ = 2 * 2 ^ 84 * (1 / 2 ^ 100 * (1 / 2 ^ 200)) := by rw [inv_pow_add]
        _ ≤ 1 / 2 ^ 151 / 2 ^ 53 := by norm_num
        _ ≤ _ := div_le_div_of_nonneg_right sM (by positivity)
    linarith
  set M' := momentValue f0 h S 0 with hM'
  have M'1 : 1 / 2 ^ 152 ≤ M' := by
    have := (abs_le.1 mS').1
    norm_num at this sM ⊢
    linarith
  have M0' : 0 ≤ M' := le_trans (by positivity) M'1
  have eM' : computeMoment (vec (exactAxis f0 h f.length)) (vec S) 0 (-1) (.fin (-1)) = .ok M' := by
    rw [hl, ← Sl]
    exact momentValue_spec A.hpos A.f0_nonneg (by omega) 0
  obtain ⟨v', e3, dv', er'⟩ := moment_zero_double R P A h2 (hl.trans Sl.symm) acc (fun v hv => (Ss v hv).1) (fun v hv => (Ss v hv).2) eM'
    ((inv_pow_le (by norm_num)).trans M'1) (.inr ⟨rfl, rfl⟩)
  rw [← ht] at er'
  have hc1 : |16 * M' - H ^ 2| ≤ 3 / 2 * t * H ^ 2 := by
    refine height_close_any t1 t2 (sq_nonneg H) sc ?_
    rw [show 16 * M' - 16 * M * s = 16 * (M' - s * M) by ring, abs_mul, abs_of_pos (by norm_num : (0 : ℚ) < 16)]
    calc (16 : ℚ) * |M' - s * M| ≤ 16 * (s * M / 2 ^ 52) := mul_le_mul_of_nonneg_left mS' (by norm_num)
      _ = _ := by ring
  have hc2 := height_close' t1 t2 (sq_nonneg H) hc1 er'
  refine ⟨S, s, hS, Sl, Ss, s0, Sc, ?_, ?_⟩
  · have t83 : (1 : ℚ) / 2 ^ 44 ≤ 8 / 3 * t := by linarith
    have t83' : 8 / 3 * t ≤ (1 : ℚ) / 2 ^ 18 := by norm_num at t2 ⊢; linarith
    have sq := sqrt_double Q t83 t83' (v := v') (M := H ^ 2 / 16) ⟨by positivity, hc2⟩
    have rt : Real.sqrt ((H ^ 2 / 16 : ℚ) : ℝ) = H / 4 := by
      rw [show ((H ^ 2 / 16 : ℚ) : ℝ) = ((H : ℝ) / 4) ^ 2 by push_cast; ring]
      exact Real.sqrt_sq (by have : (0 : ℝ) < H := by exact_mod_cast Hp
                             positivity)
    rw [rt] at sq
    have sqq : |Q.sqrt v' - H / 4| ≤ 3 / 5 * (8 / 3 * t) * (H / 4) := by
      rw [show ((Q.sqrt v' : ℚ) : ℝ) - H / 4 = ((Q.sqrt v' - H / 4 : ℚ) : ℝ) by push_cast; ring, ← Rat.cast_abs,
        show 3 / 5 * ((8 / 3 * t : ℚ) : ℝ) * (H / 4) = ((3 / 5 * (8 / 3 * t) * (H / 4) : ℚ) : ℝ) by push_cast; ring] at sq
      exact (Rat.cast_le (K := ℝ)).1 sq
    have v'0 : 0 ≤ v' := by
      have := (abs_le.1 er').1
      have := mul_le_mul_of_nonneg_right t2 M0'
      norm_num at this
      linarith
    refine ⟨f64 (4 * Q.sqrt v'), ?_, ?_⟩
    · unfold hm0F64 setFlimF64
      simp only [if_true, e3, bind, Except.bind]
      rw [if_neg (not_lt.2 v'0)]
    · exact round_height t1 t2 H1 sqq
  · refine ⟨4 * Real.sqrt M', ?_, ?_⟩
    · have rm := real_moment A.hpos A.f0_nonneg (S := S) (by omega) 0
      rw [Sl, ← hl] at rm
      unfold calcHm0
      simp only [getD_default_limits, bind, Except.bind]
      rw [Sl, ← hl]
      simp only at rm
      rw [rm]
      simp only [← hM']
      unfold heightOf
      rw [if_neg (not_lt.2 (by exact_mod_cast M0'))]
    · have := real_sqrt_close (t := (t : ℝ)) (m := (M' : ℝ)) (H := (H : ℝ)) (by exact_mod_cast Hp) (by exact_mod_cast M0') (by
        have := (Rat.cast_le (K := ℝ)).2 hc1
        push_cast at this
        exact this)
      refine this.trans ?_
      have : (0 : ℝ) ≤ t * H := by
        have := mul_pos t0 Hp
        exact_mod_cast this.le
      nlinarith

end

/-- The unscaled density is not negative, when the library's exponential and powers of non-negative numbers are not. -/
theorem shape_nonneg (P : NpPow) (E : NpElem) (hP : ∀ x n, 0 ≤ x → 0 ≤ P.pow x n) (hE : ∀ z, 0 ≤ E.exp z) (hL : ∀ x p, 0 ≤ x → 0 ≤ E.pow x p)
    {fp g : ℚ} (g0 : 0 ≤ g) (fi : ℚ) : 0 ≤ jonswapShapeF64 P E fp g fi := by
  unfold jonswapShapeF64
  split
  · rename_i h
    have f0 : 0 ≤ fi := le_trans (by positivity) (le_of_lt h)
    have c : 0 ≤ jonswapConstF64 P := by
      unfold jonswapConstF64
      refine f64_nonneg (mul_nonneg (hP _ _ (f64_nonneg (by norm_num))) (hP _ _ ?_))
      unfold twoPiF64
      norm_num
    exact f64_nonneg (mul_nonneg (f64_nonneg (mul_nonneg (f64_nonneg (mul_nonneg c (hP _ _ f0))) (hE _))) (hL _ _ g0))
  · exact le_rfl

/-- **C184.**  `create_spectrum_jonswap` in double precision on an accepted axis: when the exact zeroth moment of its unscaled densities is in range, it
returns a spectrum whose wave height — exactly, and as `get_Hm0` computes it in double precision — is the prescribed one up to the stated relative
error, and the densities are the unscaled ones times one factor.  Any of the densities may underflow. -/
theorem jonswap_double_any (R : NpSum) (P : NpPow) (Q : NpSqrt) (E : NpElem) (hP : ∀ x n, 0 ≤ x → 0 ≤ P.pow x n) (hE : ∀ z, 0 ≤ E.exp z)
    (hL : ∀ x p, 0 ≤ x → 0 ≤ E.pow x p) {f : List ℚ} {f0 h H M fp g : ℚ} (A : AxisDouble f f0 h) (h2 : 2 ≤ f.length)
    (acc : monotonicF64 f = .ok true) (g0 : 0 ≤ g)
    (hM : computeMoment (vec (exactAxis f0 h f.length)) (vec (f.map (jonswapShapeF64 P E fp g))) 0 (-1) (.fin (-1)) = .ok M)
    (M1 : 1 / 2 ^ 60 ≤ M) (M2 : M ≤ 2 ^ 40) (H1 : 1 / 2 ^ 20 ≤ H) (H2 : H ≤ 2 ^ 20) :
    ∃ S s, createSpectrumJonswapF64 R P Q E f fp H g = .ok S ∧ S.length = f.length ∧ (∀ v ∈ S, IsDouble v ∧ 0 ≤ v) ∧ 0 < s ∧
      (∀ i < f.length, |S.getD i 0 - s * jonswapShapeF64 P E fp g (f.getD i 0)| ≤
        s * jonswapShapeF64 P E fp g (f.getD i 0) / 2 ^ 53 + 1 / 2 ^ 1022) ∧
      (∃ Hc, hm0F64 R P Q f S (-1) (-1) = .ok Hc ∧ |Hc - H| ≤ 2 * ((f0 + f.length * h) / h / 2 ^ 44) * H) ∧
      ∃ Hx, calcHm0 (realList (exactAxis f0 h f.length)) ⟨[S.length], realList S⟩ (-1) (.fin (-1)) = .ok Hx ∧
        |Hx - H| ≤ 2 * (((f0 + f.length * h) / h / 2 ^ 44 : ℚ) : ℝ) * H := by
  obtain ⟨S, s, e, l, d, s0, c, r1, r2⟩ := scaled_any R P Q A h2 (U := f.map (jonswapShapeF64 P E fp g)) (by simp) acc
    (fun u hu => by
      obtain ⟨fi, -, rfl⟩ := List.mem_map.1 hu
      exact shape_isDouble P E fp g fi)
    (fun u hu => by
      obtain ⟨fi, -, rfl⟩ := List.mem_map.1 hu
      exact shape_nonneg P E hP hE hL g0 fi) hM M1 M2 H1 H2
  refine ⟨S, s, ?_, by simpa using l, d, s0, fun i hi => ?_, r1, r2⟩
  · unfold createSpectrumJonswapF64
    rw [if_neg (by rintro rfl; simp at h2)]
    exact e
  · have := c i (by simpa using hi)
    rwa [List.getD_eq_getElem (f.map _) _ (by simpa using hi), List.getElem_map, ← List.getD_eq_getElem (d := 0)] at this

/-- The densities `2 ^ -1074`, 1, 3, 2: the first is the smallest positive double. -/
theorem densities_tiny : (∀ s ∈ ([1 / 2 ^ 1074, 1, 3, 2] : List ℚ), IsDouble s) ∧ ∀ s ∈ ([1 / 2 ^ 1074, 1, 3, 2] : List ℚ), 0 ≤ s := by
  constructor
  · intro s hs
    simp only [List.mem_cons, List.not_mem_nil, or_false] at hs
    rcases hs with rfl | rfl | rfl | rfl
    · exact ⟨1, -1074, by norm_num, le_rfl, by rw [Int.cast_one, one_mul, zpow_neg, one_div, zpow_ofNat]⟩
    · exact_mod_cast isDouble_nat (n := 1) (by norm_num)
    · exact_mod_cast isDouble_nat (n := 3) (by norm_num)
    · exact_mod_cast isDouble_nat (n := 2) (by norm_num)
  · intro s hs
    simp only [List.mem_cons, List.not_mem_nil, or_false] at hs
    rcases hs with rfl | rfl | rfl | rfl
    · positivity
    all_goals norm_num

theorem tiny_moment : ∃ M, computeMoment (vec (exactAxis 0 (1 / 4) 4)) (vec [1 / 2 ^ 1074, 1, 3, 2]) 0 (-1) (.fin (-1)) = .ok M ∧ 1 / 2 ^ 60 ≤ M ∧ M ≤ 2 ^ 40 := by
  refine ⟨_, momentValue_spec (f0 := 0) (h := 1 / 4) (S := [1 / 2 ^ 1074, 1, 3, 2]) (by norm_num) le_rfl (by simp) 0, ?_⟩
  have a : (0 : ℚ) ≤ 1 / 2 ^ 1074 := by positivity
  have b : (1 : ℚ) / 2 ^ 1074 ≤ 1 / 2 ^ 0 := inv_pow_le (by norm_num)
  generalize (1 : ℚ) / 2 ^ 1074 = x at *
  rw [momentValue_zero]
  simp only [List.length_cons, List.length_nil, sum_range_succ, sum_range_zero, simpsonWeight]
  norm_num at b ⊢
  constructor <;> linarith

/-- The theorem on a small spectrum with a subnormal density and the prescribed height 2. -/
example (R : NpSum) (P : NpPow) (Q : NpSqrt) : ∃ S s, jonswapScaledF64 R P Q quarterAxis [1 / 2 ^ 1074, 1, 3, 2] 2 = .ok S ∧ S.length = 4 ∧ (0 : ℚ) < s ∧
    ∃ Hc, hm0F64 R P Q quarterAxis S (-1) (-1) = .ok Hc ∧ |Hc - 2| ≤ 2 * ((0 + (4 : ℕ) * (1 / 4)) / (1 / 4) / 2 ^ 44) * 2 := by
  obtain ⟨M, hM, M1, M2⟩ := tiny_moment
  obtain ⟨S, s, e, l, -, s0, -, r, -⟩ := scaled_any R P Q quarterAxis_double (by simp) (U := [1 / 2 ^ 1074, 1, 3, 2]) rfl quarterAxis_accepted
    densities_tiny.1 densities_tiny.2 hM M1 M2 (H := 2) (by norm_num) (by norm_num)
  exact ⟨S, s, e, l, s0, r⟩

/-- Powers that meet the assumptions exist: the correctly rounded ones. -/
theorem npPow5_exists : ∃ P : NpPow5, ∀ x n, 0 ≤ x → 0 ≤ P.pow x n := by
  have sp : ∀ (x : ℚ) (n : ℤ), 1 / 2 ^ 200 ≤ x → x ≤ 2 ^ 200 → |n| ≤ 5 → |f64 (x ^ n) - x ^ n| ≤ x ^ n / 2 ^ 52 := by
    intro x n h1 h2 hn
    have x0 : 0 < x := lt_of_lt_of_le (by positivity) h1
    have p := zpow_pos x0 n
    have lo : (2 : ℚ) ^ (-1022 : ℤ) ≤ x ^ n := by
      have up : ∀ (y : ℚ) (k : ℕ), 1 / 2 ^ 200 ≤ y → k ≤ 5 → 1 / 2 ^ 1022 ≤ y ^ k := by
        intro y k hy hk
        calc (1 : ℚ) / 2 ^ 1022 ≤ 1 / 2 ^ (200 * k) := inv_pow_le (by omega)
          _ = (1 / 2 ^ 200) ^ k := by rw [div_pow, one_pow, pow_mul]
          _ ≤ _ := pow_le_pow_left₀ (by positivity) hy k
      rw [zpow_neg, ← one_div, zpow_ofNat]
      rcases Int.eq_nat_or_neg n with ⟨k, rfl | rfl⟩
      · rw [zpow_natCast]
        exact up x k h1 (by rw [Nat.abs_cast] at hn; exact_mod_cast hn)
      · rw [zpow_neg, ← inv_zpow, zpow_natCast]
        refine up x⁻¹ k ?_ (by rw [abs_neg, Nat.abs_cast] at hn; exact_mod_cast hn)
        rw [one_div]
        exact inv_anti₀ x0 h2
    have e := f64_error_normal (x := x ^ n) (by rwa [abs_of_pos p])
    rw [abs_of_pos p] at e
    refine e.trans ?_
    exact div_le_div_of_nonneg_left p.le (by positivity) (by norm_num)
  exact ⟨⟨⟨fun x n => f64 (x ^ n), fun x n => f64_double _, fun x => by
      rw [zpow_zero]
      exact f64_of_double (by exact_mod_cast isDouble_nat (n := 1) (by norm_num)), fun n hn => by rw [zero_zpow _ hn.ne', f64_zero],
    fun x n h1 h2 hn => sp x n h1 h2 (hn.trans (by norm_num))⟩, sp, fun x => by simp only [zpow_ofNat]; rw [neg_sq]⟩,
    fun x n hx => f64_nonneg (zpow_nonneg hx n)⟩

/-- Elementary functions that meet the assumptions exist. -/
theorem npElem_nonneg_exists' : ∃ E : NpElem, (∀ z, 0 ≤ E.exp z) ∧ ∀ x p, 0 ≤ x → 0 ≤ E.pow x p := by
  obtain ⟨E, hE⟩ := npElem_nonneg_exists
  refine ⟨⟨E.exp, E.tanh, fun x p => max (E.pow x p) 0, E.exp_spec, E.tanh_spec, fun x p h1 h2 h3 h4 => ?_⟩, hE, fun x p _ => le_max_right _ _⟩
  have h := E.pow_spec x p h1 h2 h3 h4
  have x0 : (0 : ℝ) < x := by exact_mod_cast lt_of_lt_of_le (by positivity) h1
  have q := Real.rpow_nonneg x0.le (p : ℝ)
  rcases le_total (E.pow x p) 0 with h0 | h0
  · rw [max_eq_right h0]
    have h0' : (E.pow x p : ℝ) ≤ 0 := by exact_mod_cast h0
    rw [abs_of_nonpos (by linarith)] at h
    rw [Rat.cast_zero, zero_sub, abs_neg, abs_of_nonneg q]
    linarith
  · rwa [max_eq_left h0]

/-- Some library functions, and the spectrum that `create_spectrum_jonswap` then returns on `[0, 1/4, 1/2, 3/4]` for a peak at 1/2 Hz and a height of 2. -/
example (R : NpSum) (Q : NpSqrt) : ∃ (P : NpPow5) (E : NpElem), ∃ S s, createSpectrumJonswapF64 R P.toNpPow Q E quarterAxis (1 / 2) 2 (33 / 10) = .ok S ∧
    S.length = 4 ∧ (0 : ℚ) < s ∧ ∃ Hc, hm0F64 R P.toNpPow Q quarterAxis S (-1) (-1) = .ok Hc ∧ |Hc - 2| ≤ 2 * ((0 + (4 : ℕ) * (1 / 4)) / (1 / 4) / 2 ^ 44) * 2 := by
  obtain ⟨P, hP⟩ := npPow5_exists
  obtain ⟨E, hE, hL⟩ := npElem_nonneg_exists'
  obtain ⟨-, M, hM, M1, M2⟩ := quarter_jonswap P E hE
  obtain ⟨S, s, e, l, -, s0, -, r, -⟩ := jonswap_double_any R P.toNpPow Q E hP hE hL quarterAxis_double (by simp) quarterAxis_accepted
    (fp := 1 / 2) (g := 33 / 10) (by norm_num) hM M1 M2 (H := 2) (by norm_num) (by norm_num)
  exact ⟨P, E, S, s, e, by simpa using l, s0, r⟩

/-- **C184 (wave height).**  `get_Hm0` in double precision of any non-negative double densities — tiny, subnormal and zero ones included — is the exact
one up to a relative error of `(f_max + h) / h / 2 ^ 44`, when the exact zeroth moment is at least `2 ^ -470`. -/
theorem hm0_double_any (R : NpSum) (P : NpPow) (Q : NpSqrt) {f S : List ℚ} {f0 h M : ℚ} (A : AxisDouble f f0 h) (h2 : 2 ≤ f.length)
    (hl : f.length = S.length) (acc : monotonicF64 f = .ok true) (hd : ∀ s ∈ S, IsDouble s) (hp : ∀ s ∈ S, 0 ≤ s)
    (hM : computeMoment (vec (exactAxis f0 h f.length)) (vec S) 0 (-1) (.fin (-1)) = .ok M) (lo : 1 / 2 ^ 470 ≤ M) :
    ∃ H Hx, hm0F64 R P Q f S (-1) (-1) = .ok H ∧
      calcHm0 (realList (exactAxis f0 h f.length)) ⟨[S.length], realList S⟩ (-1) (.fin (-1)) = .ok Hx ∧
      |((H : ℚ) : ℝ) - Hx| ≤ (((f0 + f.length * h) / h / 2 ^ 44 : ℚ) : ℝ) * Hx := by
  obtain ⟨v, e1, dv, er⟩ := moment_zero_double R P A h2 hl acc hd hp hM ((inv_pow_le (by norm_num)).trans lo) (.inr ⟨rfl, rfl⟩)
  have hM' : M = momentValue f0 h S 0 := by
    rw [hl, momentValue_spec A.hpos A.f0_nonneg (by omega)] at hM
    exact (Except.ok.inj hM).symm
  obtain ⟨t1, t2⟩ := tol_range A h2
  have M0 : 0 ≤ M := le_trans (by positivity) lo
  set t := (f0 + f.length * h) / h / 2 ^ 44
  have v0 : 0 ≤ v := by
    have := (abs_le.1 er).1
    have := mul_le_mul_of_nonneg_right t2 M0
    clear lo
    norm_num at this
    linarith
  have nv : Near t v M := ⟨M0, er⟩
  refine ⟨f64 (4 * Q.sqrt v), 4 * Real.sqrt M, ?_, ?_, ?_⟩
  · unfold hm0F64 setFlimF64
    simp only [if_true, e1, bind, Except.bind]
    rw [if_neg (not_lt.2 v0)]
  · have rm := real_moment A.hpos A.f0_nonneg (S := S) (by omega) 0
    rw [← hl] at rm
    unfold calcHm0
    simp only [getD_default_limits, bind, Except.bind]
    rw [← hl]
    simp only at rm
    rw [rm]
    simp only [← hM']
    unfold heightOf
    rw [if_neg (not_lt.2 (by exact_mod_cast M0))]
  have sq := sqrt_double Q t1 (t2.trans (by norm_num)) nv
  have T1 : (1 : ℝ) / 2 ^ 44 ≤ t := by
    have := (Rat.cast_le (K := ℝ)).2 t1
    push_cast at this
    exact this
  have T2 : (t : ℝ) ≤ 1 / 2 ^ 20 := by
    have := (Rat.cast_le (K := ℝ)).2 t2
    push_cast at this
    exact this
  set b := Real.sqrt (M : ℝ) with hb
  have b0 : 0 ≤ b := Real.sqrt_nonneg _
  have tb : 0 ≤ t * b := mul_nonneg (by linarith) b0
  have q1 : 1 / 2 * b ≤ ((Q.sqrt v : ℚ) : ℝ) ∧ ((Q.sqrt v : ℚ) : ℝ) ≤ 2 * b := by
    have := abs_le.1 sq
    have c : 3 / 5 * t * b ≤ 1 / 2 * b := mul_le_mul_of_nonneg_right (by linarith) b0
    constructor <;> linarith
  have rnd : |((f64 (4 * Q.sqrt v) : ℚ) : ℝ) - 4 * ((Q.sqrt v : ℚ) : ℝ)| ≤ 8 * b / 2 ^ 53 := by
    have key : |f64 (4 * Q.sqrt v) - 4 * Q.sqrt v| ≤ |4 * Q.sqrt v| / 2 ^ 53 := by
      apply f64_error_normal
      have b1 : ((1 / 2 ^ 235 : ℚ) : ℝ) ≤ b := by
        rw [hb]
        apply Real.le_sqrt_of_sq_le
        have : ((1 / 2 ^ 235 : ℚ)) ^ 2 ≤ M := by
          refine le_trans (le_of_eq ?_) lo
          rw [div_pow, one_pow, ← pow_mul]
        exact_mod_cast this
      have : ((1 / 2 ^ 236 : ℚ) : ℝ) ≤ ((Q.sqrt v : ℚ) : ℝ) := by
        refine le_trans ?_ q1.1
        have e : (1 / 2 ^ 236 : ℚ) = 1 / 2 * (1 / 2 ^ 235) := by norm_num
        rw [e]
        push_cast at b1 ⊢
        linarith
      have ql : 1 / 2 ^ 236 ≤ Q.sqrt v := by exact_mod_cast this
      rw [abs_of_nonneg (by have : (0 : ℚ) ≤ 1 / 2 ^ 236 := by positivity
                            linarith)]
      have c : (2 : ℚ) ^ (-1022 : ℤ) ≤ 1 / 2 ^ 236 := by
        rw [zpow_neg, ← one_div]
        exact one_div_le_one_div_of_le (by positivity) (by exact_mod_cast pow_le_pow_right₀ (by norm_num : (1 : ℚ) ≤ 2) (by norm_num : 236 ≤ 1022))
      have : (0 : ℚ) ≤ 1 / 2 ^ 236 := by positivity
      linarith
    have k2 : |((f64 (4 * Q.sqrt v) : ℚ) : ℝ) - 4 * ((Q.sqrt v : ℚ) : ℝ)| ≤ |4 * ((Q.sqrt v : ℚ) : ℝ)| / 2 ^ 53 := by
      have := (Rat.cast_le (K := ℝ)).2 key
      push_cast at this
      exact this
    refine k2.trans ?_
    rw [abs_of_nonneg (by linarith [q1.1])]
    have : 4 * ((Q.sqrt v : ℚ) : ℝ) ≤ 8 * b := by linarith [q1.2]
    exact div_le_div_of_nonneg_right this (by positivity)
  have tri := abs_sub_le ((f64 (4 * Q.sqrt v) : ℚ) : ℝ) (4 * ((Q.sqrt v : ℚ) : ℝ)) (4 * b)
  have : |4 * ((Q.sqrt v : ℚ) : ℝ) - 4 * b| ≤ 4 * (3 / 5 * t * b) := by
    rw [← mul_sub, abs_mul, abs_of_pos (by norm_num : (0 : ℝ) < 4)]
    exact mul_le_mul_of_nonneg_left sq (by norm_num)
  have c : 8 * b / 2 ^ 53 ≤ 1 / 5 * t * b := by
    have : 8 / 2 ^ 53 ≤ 1 / 5 * (t : ℝ) := by linarith
    calc _ = 8 / 2 ^ 53 * b := by ring
      _ ≤ _ := mul_le_mul_of_nonneg_right this b0
  calc _ ≤ 1 / 5 * t * b + 4 * (3 / 5 * t * b) := by linarith
    _ ≤ t * (4 * b) := by linarith

/-- Its hypotheses are met by a spectrum with a subnormal density. -/
example (R : NpSum) (P : NpPow) (Q : NpSqrt) : ∃ H Hx, hm0F64 R P Q quarterAxis [1 / 2 ^ 1074, 1, 3, 2] (-1) (-1) = .ok H ∧
    calcHm0 (realList (exactAxis 0 (1 / 4) 4)) ⟨[4], realList [1 / 2 ^ 1074, 1, 3, 2]⟩ (-1) (.fin (-1)) = .ok Hx ∧
    |((H : ℚ) : ℝ) - Hx| ≤ (((0 + (4 : ℕ) * (1 / 4)) / (1 / 4) / 2 ^ 44 : ℚ) : ℝ) * Hx := by
  obtain ⟨M, hM, M1, -⟩ := tiny_moment
  exact hm0_double_any R P Q quarterAxis_double (by simp) (S := [1 / 2 ^ 1074, 1, 3, 2]) rfl quarterAxis_accepted
    densities_tiny.1 densities_tiny.2 hM ((inv_pow_le (by norm_num)).trans M1)

end Verif
