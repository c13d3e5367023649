import Verif.Props.FloatInterp
import Verif.Props.FloatFftExists
import Mathlib.Analysis.Real.Pi.Bounds

/-! # C180: the synthesised series in double precision -/

namespace Verif
open Finset
open scoped Classical

variable {ε : ℝ}

/-! ## Specification -/

/-- The random-phase sum of `n` components at the frequencies `(i+1) df`, for densities `S i` and phases `φ i`, at time `j dt` after the start; the component
at the Nyquist frequency has half weight. -/
noncomputable def phaseSum (n : ℕ) (dt : ℝ) (S φ : ℕ → ℝ) (j : ℕ) : ℝ :=
  ∑ i ∈ range n, (if i + 1 < n then 1 else 1 / 2) * Real.sqrt (2 * S i * genDf n dt) *
    Real.cos (2 * Real.pi * ((i + 1) * genDf n dt) * (j * dt) + φ i)

/-! ## One component -/

theorem sqrt_close {w W e τ : ℝ} (hw : 0 ≤ w) (he : 0 ≤ e) (he1 : e ≤ 1) (hτ : 0 ≤ τ) (h : |W - w| ≤ e * w + τ) :
    |Real.sqrt W - Real.sqrt w| ≤ e * Real.sqrt w + Real.sqrt τ := by
  obtain ⟨h1, h2⟩ := abs_le.1 h
  have sw := Real.sq_sqrt hw
  have sτ := Real.sq_sqrt hτ
  have w0 := Real.sqrt_nonneg w
  have τ0 := Real.sqrt_nonneg τ
  rw [abs_le]
  constructor
  · by_cases hc : (1 - e) * Real.sqrt w ≤ Real.sqrt τ
    · have := Real.sqrt_nonneg W
      linarith
    · push Not at hc
      have : (1 - e) * Real.sqrt w - Real.sqrt τ ≤ Real.sqrt W := by
        apply Real.le_sqrt_of_sq_le
        have e1 : ((1 - e) * Real.sqrt w - Real.sqrt τ) ^ 2 = (1 - e) * ((1 - e) * Real.sqrt w ^ 2) - Real.sqrt τ ^ 2 - 2 * Real.sqrt τ * ((1 - e) * Real.sqrt w - Real.sqrt τ) := by ring
        rw [e1, sw, sτ]
        have p1 : 0 ≤ 2 * Real.sqrt τ * ((1 - e) * Real.sqrt w - Real.sqrt τ) := mul_nonneg (by linarith) (by linarith)
        have p2 : (1 - e) * ((1 - e) * w) ≤ 1 * ((1 - e) * w) := mul_le_mul_of_nonneg_right (by linarith) (mul_nonneg (by linarith) hw)
        linarith
      linarith
  · have : Real.sqrt W ≤ (1 + e) * Real.sqrt w + Real.sqrt τ := by
      apply Real.sqrt_le_iff.2
      refine ⟨by positivity, ?_⟩
      have e1 : ((1 + e) * Real.sqrt w + Real.sqrt τ) ^ 2 = (1 + e) * ((1 + e) * Real.sqrt w ^ 2) + Real.sqrt τ ^ 2 + 2 * Real.sqrt τ * ((1 + e) * Real.sqrt w) := by ring
      rw [e1, sw, sτ]
      have p1 : 0 ≤ 2 * Real.sqrt τ * ((1 + e) * Real.sqrt w) := by positivity
      have p2 : 1 * ((1 + e) * w) ≤ (1 + e) * ((1 + e) * w) := mul_le_mul_of_nonneg_right (by linarith) (mul_nonneg (by linarith) hw)
      linarith
    linarith

/-- The argument of the square root. -/
theorem twiceDens_close {D v : ℚ} {g η : ℝ} (hv : 0 ≤ v) (hg : 0 ≤ g) (hg' : g ≤ 2 ^ 40) (hη : |η| ≤ 1 / 2 ^ 51) (hD : (D : ℝ) = g * (1 + η)) :
    |(twiceDensF64 D v : ℝ) - 2 * v * g| ≤ 1 / 2 ^ 49 * (2 * v * g) + 1 / 2 ^ 156 := by
  have v0 : (0 : ℝ) ≤ v := by exact_mod_cast hv
  obtain ⟨η1, η2⟩ := abs_le.1 hη
  have r1 := f64_rd (2 * v)
  unfold Rd at r1
  push_cast at r1
  rw [abs_of_nonneg (by positivity : (0 : ℝ) ≤ 2 * v)] at r1
  have r2 := f64_rd (f64 (2 * v) * D)
  push_cast at r2
  have b0 : 0 ≤ 2 * (v : ℝ) * g := by positivity
  have hD2 : |(D : ℝ)| ≤ 2 * g := by
    rw [hD, abs_of_nonneg (mul_nonneg hg (by linarith))]
    calc g * (1 + η) ≤ g * 2 := mul_le_mul_of_nonneg_left (by linarith) hg
      _ = 2 * g := by ring
  have r3 : |(f64 (2 * v) : ℝ) * D - 2 * v * g| ≤ 2 * v * g * (6 / 2 ^ 53) + 1 / 2 ^ 158 := by
    have e : (f64 (2 * v) : ℝ) * D - 2 * v * g = ((f64 (2 * v) : ℝ) - 2 * v) * D + 2 * v * g * η := by rw [hD]; ring
    rw [e]
    refine (abs_add_le _ _).trans ?_
    rw [abs_mul, abs_mul, abs_of_nonneg b0]
    have s1 : |(f64 (2 * v) : ℝ) - 2 * v| * |(D : ℝ)| ≤ (2 * v / 2 ^ 53 + 1 / 2 ^ 200) * (2 * g) := mul_le_mul r1 hD2 (abs_nonneg _) (by positivity)
    have s2 : 2 * (v : ℝ) * g * |η| ≤ 2 * v * g * (1 / 2 ^ 51) := mul_le_mul_of_nonneg_left hη b0
    have s3 : (1 : ℝ) / 2 ^ 200 * (2 * g) ≤ 1 / 2 ^ 158 := by
      calc (1 : ℝ) / 2 ^ 200 * (2 * g) ≤ 1 / 2 ^ 200 * (2 * 2 ^ 40) := by gcongr
        _ ≤ _ := by norm_num
    have s4 : (2 * (v : ℝ) / 2 ^ 53 + 1 / 2 ^ 200) * (2 * g) = 2 * v * g * (2 / 2 ^ 53) + 1 / 2 ^ 200 * (2 * g) := by ring
    have s5 : 2 * (v : ℝ) * g * (6 / 2 ^ 53) = 2 * v * g * (2 / 2 ^ 53) + 2 * v * g * (1 / 2 ^ 51) := by ring
    linarith
  have r4 := r2.err r3
  rw [abs_of_nonneg b0] at r4
  unfold twiceDensF64
  refine r4.trans ?_
  generalize 2 * (v : ℝ) * g = b at *
  norm_num at *
  linarith

/-- The amplitude, halved. -/
theorem half_amplitude_close (Q : NpSqrt) {D v : ℚ} {g η : ℝ} (hv : 0 ≤ v) (hD0 : 0 ≤ D) (hg : 0 ≤ g) (hg' : g ≤ 2 ^ 40) (hη : |η| ≤ 1 / 2 ^ 51)
    (hD : (D : ℝ) = g * (1 + η)) :
    |(f64 (Q.sqrt (twiceDensF64 D v) / 2) : ℝ) - Real.sqrt (2 * v * g) / 2| ≤ 1 / 2 ^ 47 * (Real.sqrt (2 * v * g) / 2) + 1 / 2 ^ 77 := by
  have v0 : (0 : ℝ) ≤ v := by exact_mod_cast hv
  have hW : 0 ≤ twiceDensF64 D v := f64_nonneg (mul_nonneg (f64_nonneg (by linarith)) hD0)
  obtain ⟨δ, hδ, e⟩ := Q.spec _ hW
  have c := sqrt_close (by positivity) (by positivity) (by norm_num) (by positivity) (twiceDens_close hv hg hg' hη hD)
  have st : Real.sqrt (1 / 2 ^ 156) = 1 / 2 ^ 78 := by
    rw [show (1 : ℝ) / 2 ^ 156 = (1 / 2 ^ 78) ^ 2 by norm_num, Real.sqrt_sq (by positivity)]
  rw [st] at c
  set s := Real.sqrt (2 * v * g) with hs
  have s0 : 0 ≤ s := Real.sqrt_nonneg _
  set W := Real.sqrt (twiceDensF64 D v : ℝ) with hWd
  have a1 : |(Q.sqrt (twiceDensF64 D v) : ℝ) - s| ≤ s * (18 / 2 ^ 53) + 1 / 2 ^ 77 := by
    rw [e, show W * (1 + δ) - s = (W - s) + W * δ by ring]
    have hWb : |W| ≤ 2 * s + 1 / 2 ^ 78 := by
      have := abs_sub_abs_le_abs_sub W s
      rw [abs_of_nonneg s0] at this
      have : 1 / 2 ^ 49 * s ≤ s := by linarith [show (1 : ℝ) / 2 ^ 49 * s ≤ 1 * s from mul_le_mul_of_nonneg_right (by norm_num) s0]
      linarith
    have h2 : |W * δ| ≤ (2 * s + 1 / 2 ^ 78) * (1 / 2 ^ 53) := by
      rw [abs_mul]
      exact mul_le_mul hWb hδ (abs_nonneg _) (by positivity)
    have h3 := abs_add_le (W - s) (W * δ)
    norm_num at c h2 h3 ⊢
    linarith
  have r := (f64_rd (Q.sqrt (twiceDensF64 D v) / 2)).err (w := s / 2) (e := s * (9 / 2 ^ 53) + 1 / 2 ^ 78) (by
    push_cast
    rw [← sub_div, abs_div, abs_of_pos (by norm_num : (0 : ℝ) < 2), div_le_iff₀ (by norm_num)]
    refine a1.trans (le_of_eq (by ring)))
  rw [abs_of_nonneg (by positivity : (0 : ℝ) ≤ s / 2)] at r
  refine r.trans ?_
  norm_num
  linarith

/-- The phase. -/
theorem phase_close {u : ℚ} (h0 : 0 ≤ u) (h1 : u < 1) :
    0 ≤ f64 (twoPiF64 * u) ∧ f64 (twoPiF64 * u) ≤ 7 ∧ |(f64 (twoPiF64 * u) : ℝ) - 2 * Real.pi * u| ≤ 1 / 2 ^ 49 := by
  have hT : (0 : ℚ) < twoPiF64 := by norm_num [twoPiF64]
  have hT7 : twoPiF64 ≤ 63 / 10 := by norm_num [twoPiF64]
  have hb : twoPiF64 * u ≤ 63 / 10 := by
    calc twoPiF64 * u ≤ 63 / 10 * 1 := mul_le_mul hT7 h1.le h0 (by norm_num)
      _ = _ := by norm_num
  refine ⟨f64_nonneg (by positivity), ?_, ?_⟩
  · exact (f64_mono_double (isDouble_nat (n := 7) (by norm_num))).2 (hb.trans (by norm_num))
  · have u0 : (0 : ℝ) ≤ u := by exact_mod_cast h0
    have u1 : (u : ℝ) ≤ 1 := by exact_mod_cast h1.le
    have hpi : |(twoPiF64 : ℝ) - 2 * Real.pi| ≤ 1 / 2 ^ 51 := by
      have p1 := Real.pi_gt_d20
      have p2 := Real.pi_lt_d20
      unfold twoPiF64
      push_cast
      rw [abs_le]
      norm_num at p1 p2 ⊢
      constructor <;> linarith
    have r := f64_rd (twoPiF64 * u)
    unfold Rd at r
    push_cast at r
    have hb' : (twoPiF64 : ℝ) * u ≤ 63 / 10 := by
      have := (Rat.cast_le (K := ℝ)).2 hb
      push_cast at this
      exact this
    have hT' : (0 : ℝ) ≤ twoPiF64 := by exact_mod_cast hT.le
    rw [abs_of_nonneg (by positivity : (0 : ℝ) ≤ (twoPiF64 : ℝ) * u)] at r
    have t := abs_sub_le (f64 (twoPiF64 * u) : ℝ) (twoPiF64 * u) (2 * Real.pi * u)
    have t2 : |(twoPiF64 : ℝ) * u - 2 * Real.pi * u| ≤ 1 / 2 ^ 51 := by
      rw [← sub_mul, abs_mul, abs_of_nonneg u0]
      calc |(twoPiF64 : ℝ) - 2 * Real.pi| * u ≤ 1 / 2 ^ 51 * 1 := mul_le_mul hpi u1 u0 (by positivity)
        _ = _ := mul_one _
    have t3 : (twoPiF64 : ℝ) * u / 2 ^ 53 ≤ 63 / 10 / 2 ^ 53 := div_le_div_of_nonneg_right hb' (by positivity)
    norm_num at *
    linarith

theorem cx_norm_le (z : ℚ × ℚ) : ‖cx z‖ ≤ |(z.1 : ℝ)| + |(z.2 : ℝ)| := Complex.norm_le_abs_re_add_abs_im (cx z)

/-- One component. -/
theorem component_close (Q : NpSqrt) (E : NpCexp) {D v u : ℚ} {g η : ℝ} (hv : 0 ≤ v) (hD0 : 0 ≤ D) (hg : 0 ≤ g) (hg' : g ≤ 2 ^ 40)
    (hη : |η| ≤ 1 / 2 ^ 51) (hD : (D : ℝ) = g * (1 + η)) (h0 : 0 ≤ u) (h1 : u < 1) :
    ‖cx (componentF64 E (Q.sqrt (twiceDensF64 D v)) (f64 (twoPiF64 * u))) -
      ((Real.sqrt (2 * v * g) : ℝ) : ℂ) / 2 * Complex.exp (Complex.I * ((2 * Real.pi * u : ℝ) : ℂ))‖ ≤
      1 / 2 ^ 46 * (Real.sqrt (2 * v * g) / 2) + 1 / 2 ^ 75 := by
  obtain ⟨p0, p7, pc⟩ := phase_close h0 h1
  set p := f64 (twoPiF64 * u) with hp
  have ha := half_amplitude_close Q hv hD0 hg hg' hη hD
  unfold componentF64
  dsimp only
  set h := f64 (Q.sqrt (twiceDensF64 D v) / 2) with hh
  set s := Real.sqrt (2 * v * g) / 2 with hs
  have s0 : 0 ≤ s := by have := Real.sqrt_nonneg (2 * v * g); positivity
  set c := E.exp p with hc
  have hE := E.spec p p0 p7
  rw [← hc] at hE
  set θ := 2 * Real.pi * (u : ℝ) with hθ
  have hx : ‖Complex.exp (Complex.I * ((p : ℝ) : ℂ)) - Complex.exp (Complex.I * (θ : ℂ))‖ ≤ 1 / 2 ^ 49 := by
    have e : Complex.exp (Complex.I * ((p : ℝ) : ℂ)) - Complex.exp (Complex.I * (θ : ℂ)) =
        Complex.exp (Complex.I * (θ : ℂ)) * (Complex.exp (Complex.I * ((p - θ : ℝ) : ℂ)) - 1) := by
      rw [mul_sub, ← Complex.exp_add, mul_one]
      congr 2
      push_cast
      ring
    rw [e, norm_mul, mul_comm Complex.I (θ : ℂ), Complex.norm_exp_ofReal_mul_I, one_mul]
    refine Real.norm_exp_I_mul_ofReal_sub_one_le.trans ?_
    rw [Real.norm_eq_abs]
    exact pc
  have hcE : ‖cx c - Complex.exp (Complex.I * (θ : ℂ))‖ ≤ 3 / 2 ^ 50 := by
    have := norm_sub_le_norm_sub_add_norm_sub (cx c) (Complex.exp (Complex.I * ((p : ℝ) : ℂ))) (Complex.exp (Complex.I * (θ : ℂ)))
    norm_num at *
    linarith
  have hcn : ‖cx c‖ ≤ 2 := by
    have h2 : ‖Complex.exp (Complex.I * (θ : ℂ))‖ = 1 := by rw [mul_comm, Complex.norm_exp_ofReal_mul_I]
    have := norm_le_norm_add_norm_sub' (cx c) (Complex.exp (Complex.I * (θ : ℂ)))
    rw [h2] at this
    norm_num at *
    linarith
  have hh2 : |(h : ℝ)| ≤ 2 * s + 1 / 2 ^ 77 := by
    have := abs_sub_abs_le_abs_sub (h : ℝ) s
    rw [abs_of_nonneg s0] at this
    norm_num at *
    linarith
  have rnd : ∀ q : ℚ, |(q : ℝ)| ≤ 2 → |(f64 (h * q) : ℝ) - h * q| ≤ |(h : ℝ)| * (2 / 2 ^ 53) + 1 / 2 ^ 200 := by
    intro q hq
    have r := f64_rd (h * q)
    unfold Rd at r
    push_cast at r
    refine r.trans ?_
    rw [abs_mul]
    have := mul_le_mul_of_nonneg_left hq (abs_nonneg (h : ℝ))
    have h2 : |(h : ℝ)| * |(q : ℝ)| / 2 ^ 53 ≤ |(h : ℝ)| * 2 / 2 ^ 53 := div_le_div_of_nonneg_right this (by positivity)
    have h3 : |(h : ℝ)| * (2 / 2 ^ 53) = |(h : ℝ)| * 2 / 2 ^ 53 := by ring
    linarith
  have c1 : |(c.1 : ℝ)| ≤ 2 := (Complex.abs_re_le_norm (cx c)).trans hcn
  have c2 : |(c.2 : ℝ)| ≤ 2 := (Complex.abs_im_le_norm (cx c)).trans hcn
  have n1 : ‖cx (f64 (h * c.1), f64 (h * c.2)) - (h : ℂ) * cx c‖ ≤ |(h : ℝ)| * (4 / 2 ^ 53) + 1 / 2 ^ 199 := by
    have e : cx (f64 (h * c.1), f64 (h * c.2)) - (h : ℂ) * cx c = cx (f64 (h * c.1) - h * c.1, f64 (h * c.2) - h * c.2) := by
      unfold cx
      apply Complex.ext
      · simp
      · simp
    rw [e]
    refine (cx_norm_le _).trans ?_
    dsimp only
    push_cast
    have := add_le_add (rnd _ c1) (rnd _ c2)
    refine this.trans ?_
    norm_num
    linarith
  have n2 : ‖(h : ℂ) * cx c - (s : ℂ) * Complex.exp (Complex.I * (θ : ℂ))‖ ≤ |(h : ℝ)| * (3 / 2 ^ 50) + (1 / 2 ^ 47 * s + 1 / 2 ^ 77) := by
    have e : (h : ℂ) * cx c - (s : ℂ) * Complex.exp (Complex.I * (θ : ℂ)) =
        ((h : ℝ) : ℂ) * (cx c - Complex.exp (Complex.I * (θ : ℂ))) + (((h : ℝ) - s : ℝ) : ℂ) * Complex.exp (Complex.I * (θ : ℂ)) := by push_cast; ring
    rw [e]
    refine (norm_add_le _ _).trans ?_
    rw [norm_mul, norm_mul, Complex.norm_real, Complex.norm_real, mul_comm Complex.I (θ : ℂ), Complex.norm_exp_ofReal_mul_I, mul_one, Real.norm_eq_abs,
      Real.norm_eq_abs]
    rw [mul_comm Complex.I (θ : ℂ)] at hcE
    exact add_le_add (mul_le_mul_of_nonneg_left hcE (abs_nonneg _)) ha
  have e3 : ((Real.sqrt (2 * v * g) : ℝ) : ℂ) / 2 = (s : ℂ) := by rw [hs]; push_cast; ring
  rw [e3]
  refine (norm_sub_le_norm_sub_add_norm_sub _ ((h : ℂ) * cx c) _).trans ?_
  refine (add_le_add n1 n2).trans ?_
  norm_num at *
  linarith

/-! ## The components -/

theorem setSlice_map {α β : Type} (g : α → β) (l : List α) (a : ℕ) (v : List α) : (setSlice l a v).map g = setSlice (l.map g) a (v.map g) := by
  simp [setSlice, List.map_take, List.map_drop]

/-- Setting the components and their mirror images. -/
theorem mirror_eq {n : ℕ} (hn : 0 < n) {C : List ℂ} (hCl : C.length = n) :
    setSlice (setSlice (List.replicate (2 * n) 0) 1 C) n ((pySlice (setSlice (List.replicate (2 * n) 0) 1 C) 1 (n + 1)).map (starRingEnd ℂ)).reverse =
      (List.range (2 * n)).map (symExt (2 * n) fun k => if k = 0 then 0 else C.getD (k - 1) 0) := by
  have hCg : ∀ i (h : i < C.length), C[i] = (if i + 1 = 0 then 0 else C.getD (i + 1 - 1) 0) := by
    intro i h
    rw [if_neg (by omega), Nat.add_sub_cancel, List.getD_eq_getElem _ _ h]
  set G : ℕ → ℂ := fun k => if k = 0 then 0 else C.getD (k - 1) 0 with hG
  have hCG : ∀ i (h : i < C.length), C[i] = G (i + 1) := hCg
  simp only [setSlice]
  obtain ⟨x1, hx1⟩ : ∃ x1, x1 = (List.replicate (2 * n) (0 : ℂ)).take 1 ++ C ++ (List.replicate (2 * n) (0 : ℂ)).drop (1 + C.length) := ⟨_, rfl⟩
  rw [← hx1]
  have ht1 : ((List.replicate (2 * n) (0 : ℂ)).take 1).length = 1 := by simp; omega
  have hslice : pySlice x1 1 (n + 1) = C := by
    unfold pySlice
    rw [hx1, List.take_left' (by rw [List.length_append, ht1, hCl]; omega), List.drop_left' ht1]
  rw [hslice]
  have hx1l : x1.length = 2 * n := by
    rw [hx1]; simp [hCl]; omega
  apply List.ext_getElem
  · simp [hx1l, hCl]; omega
  · intro k h1 h2
    have hk : k < 2 * n := by simpa using h2
    rw [List.getElem_map, List.getElem_range]
    have htl : (x1.take n).length = n := by simp [hx1l]; omega
    have hrl : ((C.map (starRingEnd ℂ)).reverse).length = n := by simp [hCl]
    have hdrop : x1.drop (n + ((C.map (starRingEnd ℂ)).reverse).length) = [] := by
      apply List.drop_eq_nil_of_le; rw [hx1l, hrl]; omega
    simp only [hdrop, List.append_nil]
    unfold symExt
    have e1 : (2 * n + 1) / 2 = n := by omega
    rw [e1]
    by_cases hkn : k < n
    · rw [List.getElem_append_left (by omega), if_pos hkn, List.getElem_take]
      simp only [hx1]
      by_cases hk0 : k = 0
      · subst hk0
        rw [List.getElem_append_left (by rw [List.length_append, ht1]; omega), List.getElem_append_left (by rw [ht1]; omega)]
        simp [hG]
      · rw [List.getElem_append_left (by rw [List.length_append, ht1, hCl]; omega), List.getElem_append_right (by rw [ht1]; omega)]
        simp only [ht1]
        rw [hCG]
        congr 1
        omega
    · rw [List.getElem_append_right (by rw [htl]; omega), if_neg hkn, List.getElem_reverse, List.getElem_map, hCG]
      congr 2
      simp only [List.length_map, hCl, htl]
      omega

/-- The computed components. -/
theorem fourierComponentsF64_spec (E : NpCexp) {n : ℕ} (hn : 0 < n) {A P : List ℚ} (hA : A.length = n) (hP : P.length = n) :
    (fourierComponentsF64 E (2 * n) n A P).length = 2 * n ∧
    ∀ k < 2 * n, cx ((fourierComponentsF64 E (2 * n) n A P).getD k 0) =
      symExt (2 * n) (fun k => if k = 0 then 0 else cx (componentF64 E (A.getD (k - 1) 0) (P.getD (k - 1) 0))) k := by
  set C := List.zipWith (componentF64 E) A P with hC
  have hCl : C.length = n := by simp [hC, hA, hP]
  have key : (fourierComponentsF64 E (2 * n) n A P).map cx =
      (List.range (2 * n)).map (symExt (2 * n) fun k => if k = 0 then 0 else (C.map cx).getD (k - 1) 0) := by
    rw [← mirror_eq hn (C := C.map cx) (by simpa using hCl)]
    unfold fourierComponentsF64
    dsimp only
    rw [← hC, setSlice_map, setSlice_map, List.map_reverse, List.map_replicate, cx_zero]
    congr 2
    rw [List.map_map]
    have e1 : (setSlice (List.replicate (2 * n) 0) 1 (C.map cx)) = (setSlice (List.replicate (2 * n) 0) 1 C).map cx := by
      rw [setSlice_map, List.map_replicate, cx_zero]
    rw [e1]
    have e2 : ∀ (l : List (ℚ × ℚ)), pySlice (l.map cx) 1 (n + 1) = (pySlice l 1 (n + 1)).map cx := by
      intro l
      simp [pySlice, List.map_take]
    rw [e2, List.map_map]
    apply List.map_congr_left
    intro z _
    exact cx_conj z
  have hl : (fourierComponentsF64 E (2 * n) n A P).length = 2 * n := by
    have := congrArg List.length key
    simpa using this
  refine ⟨hl, fun k hk => ?_⟩
  have hg : cx ((fourierComponentsF64 E (2 * n) n A P).getD k 0) = ((fourierComponentsF64 E (2 * n) n A P).map cx).getD k 0 := by
    rw [List.getD_eq_getElem _ _ (by omega), List.getD_eq_getElem _ _ (by simp; omega), List.getElem_map]
  rw [hg, key, getD_map_range _ _ _ _ hk]
  refine symExt_congr (fun i hi => ?_) hk
  by_cases h0 : i = 0
  · simp [h0]
  · rw [if_neg h0, if_neg h0, List.getD_eq_getElem _ _ (by simp [hCl]; omega), List.getElem_map]
    congr 1
    simp only [hC, List.getElem_zipWith]
    rw [List.getD_eq_getElem _ _ (by omega), List.getD_eq_getElem _ _ (by omega)]

/-! ## The inverse transform -/

/-- The inverse transform computed from components `U` near `V`. -/
theorem ifft_error (F : NpFftD ε) {n : ℕ} (hn : 0 < n) {U : List (ℚ × ℚ)} (hU : U.length = n) (V : ℕ → ℂ) :
    n * ∑ j ∈ range n, Complex.normSq (cx ((F.ifft U).getD j 0) - inv n V j) ≤
      2 * (ε ^ 2 * (∑ k ∈ range n, Complex.normSq (cx (U.getD k 0)) + (n : ℝ) ^ 2 * (1 / 2 ^ 100) ^ 3)) +
        2 * ∑ k ∈ range n, Complex.normSq (cx (U.getD k 0) - V k) := by
  set Uc : ℕ → ℂ := fun k => cx (U.getD k 0) with hUc
  have n0 : (0 : ℝ) ≤ n := Nat.cast_nonneg n
  have hpU := parseval_inv hn Uc
  have hpD := parseval_inv hn fun k => Uc k - V k
  have hlin : ∀ j, inv n Uc j = inv n (fun k => Uc k - V k) j + inv n V j := by
    intro j
    rw [← inv_add]
    exact inv_congr (fun k _ => by ring) j
  have hifft := F.ifft_spec U
  unfold energy at hifft
  have hg : ∀ j < n, (npIfft (U.map cx)).getD j 0 = inv n Uc j := by
    intro j hj
    unfold npIfft
    rw [List.length_map, hU, getD_map_range _ _ _ _ hj]
    refine inv_congr (fun k hk => ?_) j
    rw [hUc]
    beta_reduce
    rw [List.getD_eq_getElem _ _ (by rw [List.length_map, hU]; exact hk), List.getElem_map, List.getD_eq_getElem _ _ (by rw [hU]; exact hk)]
  rw [hU] at hifft
  have e4 : ∑ j ∈ range n, Complex.normSq ((npIfft (U.map cx)).getD j 0) = ∑ j ∈ range n, Complex.normSq (inv n Uc j) :=
    sum_congr rfl fun j hj => by rw [hg j (mem_range.1 hj)]
  have e5 : ∑ j ∈ range n, Complex.normSq (cx ((F.ifft U).getD j 0) - (npIfft (U.map cx)).getD j 0) =
      ∑ j ∈ range n, Complex.normSq (cx ((F.ifft U).getD j 0) - inv n Uc j) :=
    sum_congr rfl fun j hj => by rw [hg j (mem_range.1 hj)]
  rw [e4, e5] at hifft
  have hs : ∑ j ∈ range n, Complex.normSq (cx ((F.ifft U).getD j 0) - inv n V j) ≤
      2 * ∑ j ∈ range n, Complex.normSq (cx ((F.ifft U).getD j 0) - inv n Uc j) + 2 * ∑ j ∈ range n, Complex.normSq (inv n (fun k => Uc k - V k) j) := by
    rw [mul_sum, mul_sum, ← sum_add_distrib]
    refine sum_le_sum fun j hj => ?_
    have h4 := normSq_add_le (cx ((F.ifft U).getD j 0) - inv n Uc j) (inv n (fun k => Uc k - V k) j) (t := 1) (by norm_num)
    rw [show cx ((F.ifft U).getD j 0) - inv n Uc j + inv n (fun k => Uc k - V k) j = cx ((F.ifft U).getD j 0) - inv n V j by
      rw [hlin j]; ring] at h4
    refine h4.trans (le_of_eq ?_)
    norm_num
  have h1 := mul_le_mul_of_nonneg_left hs n0
  have h2 := mul_le_mul_of_nonneg_left hifft n0
  change _ ≤ 2 * (ε ^ 2 * (∑ k ∈ range n, Complex.normSq (Uc k) + (n : ℝ) ^ 2 * (1 / 2 ^ 100) ^ 3)) + 2 * ∑ k ∈ range n, Complex.normSq (Uc k - V k)
  beta_reduce at hpD
  rw [hpU, hpD]
  generalize ((1 : ℝ) / 2 ^ 100) ^ 3 = T at *
  refine h1.trans ?_
  linarith

/-- The generated spacing. -/
theorem genDf_double {n : ℕ} (hn : 0 < n) (hn' : n ≤ 2 ^ 40) {dt : ℚ} (hlo : 1 / 2 ^ 40 ≤ dt) (hhi : dt ≤ 2 ^ 40) :
    0 ≤ dfGenF64 (2 * n) dt ∧ 0 < genDf n (dt : ℝ) ∧ genDf n (dt : ℝ) ≤ 2 ^ 40 ∧
      ∃ η : ℝ, |η| ≤ 1 / 2 ^ 51 ∧ (dfGenF64 (2 * n) dt : ℝ) = genDf n dt * (1 + η) := by
  have d0 : 0 < dt := lt_of_lt_of_le (by positivity) hlo
  have n1 : (1 : ℚ) ≤ n := by exact_mod_cast hn
  have n2 : (n : ℚ) ≤ 2 ^ 40 := by exact_mod_cast hn'
  obtain ⟨e, he, hD⟩ := recip_near (c := ((2 * n : ℕ) : ℚ)) (dt := dt) (by push_cast; linarith) (by push_cast; linarith) hlo hhi
  have d0' : (0 : ℝ) < dt := by exact_mod_cast d0
  have n0' : (0 : ℝ) < n := by exact_mod_cast hn
  refine ⟨f64_nonneg (div_nonneg zero_le_one (f64_nonneg (by positivity))), by unfold genDf; positivity, ?_, e, ?_, ?_⟩
  · have h : (1 : ℚ) / (2 * n * dt) ≤ 2 ^ 40 := by
      rw [div_le_iff₀ (by positivity)]
      have : 1 / 2 ^ 40 ≤ 2 * n * dt := hlo.trans (le_mul_of_one_le_left d0.le (by linarith))
      calc (1 : ℚ) = 2 ^ 40 * (1 / 2 ^ 40) := by norm_num
        _ ≤ _ := mul_le_mul_of_nonneg_left this (by positivity)
    have h2 := (Rat.cast_le (K := ℝ)).2 h
    push_cast at h2
    exact h2
  · have h2 := (Rat.cast_le (K := ℝ)).2 he
    push_cast at h2
    exact h2
  · unfold dfGenF64
    rw [hD]
    unfold genDf
    push_cast
    rfl

/-- One sample, the multiplication by the number of samples included. -/
theorem sample_close {N p q y a b : ℝ} (N0 : 0 ≤ N) (r : |y - p * N| ≤ |p * N| / 2 ^ 53 + 1 / 2 ^ 200) (q1 : (p - q) ^ 2 ≤ a) (q2 : q ^ 2 ≤ b) :
    (y - N * q) ^ 2 ≤ 3 * N ^ 2 * a + (1 / 2 ^ 50) ^ 2 * N ^ 2 * b + 6 * (1 / 2 ^ 200) ^ 2 := by
  have k1 : |y - N * q| ≤ N * |p - q| * (1 + 1 / 2 ^ 53) + (N * |q| / 2 ^ 53 + 1 / 2 ^ 200) := by
    have t1 := abs_sub_le y (p * N) (N * q)
    have t2 : |p * N - N * q| = N * |p - q| := by rw [show p * N - N * q = N * (p - q) by ring, abs_mul, abs_of_nonneg N0]
    have t3 : |p * N| ≤ N * |p - q| + N * |q| := by
      rw [abs_mul, abs_of_nonneg N0, mul_comm, ← mul_add]
      apply mul_le_mul_of_nonneg_left _ N0
      have := abs_add_le (p - q) q
      rwa [sub_add_cancel] at this
    have t4 : |p * N| / 2 ^ 53 ≤ (N * |p - q| + N * |q|) / 2 ^ 53 := div_le_div_of_nonneg_right t3 (by positivity)
    have t5 : N * |p - q| * (1 + 1 / 2 ^ 53) + (N * |q| / 2 ^ 53 + 1 / 2 ^ 200) = (N * |p - q| + N * |q|) / 2 ^ 53 + 1 / 2 ^ 200 + N * |p - q| := by ring
    rw [t5]
    rw [t2] at t1
    linarith
  have k2 : (y - N * q) ^ 2 ≤ (N * |p - q| * (1 + 1 / 2 ^ 53) + (N * |q| / 2 ^ 53 + 1 / 2 ^ 200)) ^ 2 := by
    rw [← sq_abs (y - N * q)]
    exact pow_le_pow_left₀ (abs_nonneg _) k1 2
  have k3 : ∀ a b c : ℝ, (a + (b + c)) ^ 2 ≤ 2 * a ^ 2 + 4 * b ^ 2 + 4 * c ^ 2 := fun a b c => by
    nlinarith [sq_nonneg (a - (b + c)), sq_nonneg (b - c)]
  refine k2.trans ((k3 _ _ _).trans ?_)
  have b0 : 0 ≤ b := (sq_nonneg q).trans q2
  have a0 : 0 ≤ a := (sq_nonneg _).trans q1
  have k4 : 2 * (N * |p - q| * (1 + 1 / 2 ^ 53)) ^ 2 ≤ 3 * N ^ 2 * a := by
    have e : 2 * (N * |p - q| * (1 + 1 / 2 ^ 53)) ^ 2 = 2 * (1 + 1 / 2 ^ 53) ^ 2 * (N ^ 2 * (p - q) ^ 2) := by rw [mul_pow, mul_pow, sq_abs]; ring
    have c : (2 : ℝ) * (1 + 1 / 2 ^ 53) ^ 2 ≤ 3 := by norm_num
    rw [e, mul_assoc (3 : ℝ)]
    exact mul_le_mul c (mul_le_mul_of_nonneg_left q1 (sq_nonneg N)) (by positivity) (by norm_num)
  have k5 : 4 * (N * |q| / 2 ^ 53) ^ 2 ≤ (1 / 2 ^ 50) ^ 2 * N ^ 2 * b := by
    have e : 4 * (N * |q| / 2 ^ 53) ^ 2 = 4 / (2 ^ 53) ^ 2 * (N ^ 2 * q ^ 2) := by rw [div_pow, mul_pow, sq_abs]; ring
    have c : (4 : ℝ) / (2 ^ 53) ^ 2 ≤ (1 / 2 ^ 50) ^ 2 := by norm_num
    rw [e, mul_assoc (((1 : ℝ) / 2 ^ 50) ^ 2)]
    exact mul_le_mul c (mul_le_mul_of_nonneg_left q2 (sq_nonneg N)) (by positivity) (by positivity)
  have k6 : 4 * ((1 : ℝ) / 2 ^ 200) ^ 2 ≤ 6 * (1 / 2 ^ 200) ^ 2 := mul_le_mul_of_nonneg_right (by norm_num) (sq_nonneg _)
  linarith

/-- The constants. -/
theorem synth_constants {ε N nr M a b v d e : ℝ} (hε : 0 ≤ ε) (hε' : ε ≤ 1 / 10) (M0 : 0 ≤ M) (N1 : 1 ≤ N) (N41 : N ≤ 2 ^ 41) (nN : nr ≤ 2 ^ 40)
    (hB : d ≤ 2 * ((1 / 2 ^ 46) ^ 2 * M + nr * (2 * (1 / 2 ^ 75) ^ 2))) (hVE : v ≤ M) (hUE : e ≤ 2 * v + 2 * d)
    (hinv : N * a ≤ 2 * (ε ^ 2 * (e + N ^ 2 * (1 / 2 ^ 100) ^ 3)) + 2 * d) (hpV : v = N * b) :
    3 * N ^ 2 * a + (1 / 2 ^ 50) ^ 2 * N ^ 2 * b + N * (6 * (1 / 2 ^ 200) ^ 2) ≤ ((4 * (ε + 1 / 2 ^ 45)) ^ 2 * M + 1 / 2 ^ 100) * N := by
  have N0 : 0 ≤ N := by linarith
  have q1 : ε ^ 2 ≤ 1 / 100 := by nlinarith
  have q0 : 0 ≤ ε ^ 2 := sq_nonneg ε
  have z2 : N ^ 2 * (1 / 2 ^ 100 : ℝ) ^ 3 ≤ 1 / 2 ^ 200 := by
    calc N ^ 2 * (1 / 2 ^ 100 : ℝ) ^ 3 ≤ (2 ^ 41) ^ 2 * (1 / 2 ^ 100) ^ 3 := by gcongr
      _ ≤ _ := by norm_num
  have z3 : d ≤ 2 * (1 / 2 ^ 46) ^ 2 * M + 1 / 2 ^ 107 := by
    have h1 : nr * (2 * (1 / 2 ^ 75) ^ 2) ≤ 2 ^ 40 * (2 * (1 / 2 ^ 75) ^ 2) := mul_le_mul_of_nonneg_right nN (by positivity)
    have h2 : (2 : ℝ) * (2 ^ 40 * (2 * (1 / 2 ^ 75) ^ 2)) ≤ 1 / 2 ^ 107 := by norm_num
    linarith
  set Y : ℝ := 2 * (2 * (1 / 2 ^ 46) ^ 2 * M + 1 / 2 ^ 107) + 1 / 2 ^ 200 with hY
  have y0 : 0 ≤ Y := by positivity
  have z4 : ε ^ 2 * (e + N ^ 2 * (1 / 2 ^ 100) ^ 3) ≤ 2 * (ε ^ 2 * M) + 1 / 100 * Y := by
    have y1 : e + N ^ 2 * (1 / 2 ^ 100) ^ 3 ≤ 2 * M + Y := by linarith
    have y2 := mul_le_mul_of_nonneg_left y1 q0
    have y3 := mul_le_mul_of_nonneg_right q1 y0
    linarith
  have z5 : N * a ≤ 4 * (ε ^ 2 * M) + 5 * (1 / 2 ^ 46) ^ 2 * M + 1 / 2 ^ 105 := by
    rw [hY] at z4
    clear hY
    clear_value Y
    generalize ε ^ 2 * M = w at *
    norm_num at z3 z4 ⊢
    linarith
  have z6 : N * b ≤ M := by rw [← hpV]; exact hVE
  have z7 : 3 * N ^ 2 * a + (1 / 2 ^ 50) ^ 2 * N ^ 2 * b + N * (6 * (1 / 2 ^ 200) ^ 2) = (3 * (N * a) + (1 / 2 ^ 50) ^ 2 * (N * b) + 6 * (1 / 2 ^ 200) ^ 2) * N := by ring
  rw [z7]
  refine mul_le_mul_of_nonneg_right ?_ N0
  have w0 : 0 ≤ ε ^ 2 * M := mul_nonneg q0 M0
  have w1 : 0 ≤ ε * (1 / 2 ^ 45) * M := by positivity
  have w2 : (4 * (ε + 1 / 2 ^ 45)) ^ 2 * M = 16 * (ε ^ 2 * M) + 32 * (ε * (1 / 2 ^ 45) * M) + 16 * (1 / 2 ^ 45) ^ 2 * M := by ring
  rw [w2]
  clear hY y0 z4 z7 hB
  clear_value Y
  generalize ε ^ 2 * M = w at *
  generalize ε * (1 / 2 ^ 45) * M = w' at *
  norm_num at z5 z6 ⊢
  linarith

/-- **C180.**  In double precision, for a time step between `2 ^ -40` and `2 ^ 40`, `2 n` samples or one fewer, and an inverse transform off by at most
`ε`: if the interpolated densities `S i` are not negative, `spectrum2timeseries` succeeds, the series has the length of its time axis, and it differs from
the random-phase sum of these densities and the phases `2 π u i` by at most `4 (ε + 2 ^ -45)` times the root of the sum of `S i df`, in the
root-mean-square sense (up to `2 ^ -50`). -/
theorem synth_double (F : NpFftD ε) (Q : NpSqrt) (E : NpCexp) (hε : 0 ≤ ε) (hε' : ε ≤ 1 / 10) {f S : List ℚ} (hl : f.length = S.length) (hf : f ≠ [])
    (hp : f.Pairwise (· ≤ ·)) {tInit tEnd dt : ℚ} (hlo : 1 / 2 ^ 40 ≤ dt) (hhi : dt ≤ 2 ^ 40) {n : ℕ} (hn : 0 < n) (hn' : n ≤ 2 ^ 40)
    (hN : nTimeEven (synthTimeF64 tInit tEnd dt).length = 2 * n) {u : List ℚ} (hul : u.length = n) (hu : ∀ v ∈ u, 0 ≤ v ∧ v < 1)
    (hS : ∀ i < n, 0 ≤ npInterpF64 f S ((genAxisF64 (2 * n) dt).getD i 0)) :
    ∃ x, synthF64 F Q E f S tInit tEnd dt u = .ok (synthTimeF64 tInit tEnd dt, x) ∧ x.length = (synthTimeF64 tInit tEnd dt).length ∧
      (∑ j ∈ range x.length, ((x.getD j 0 : ℝ) - phaseSum n dt (fun i => (npInterpF64 f S ((genAxisF64 (2 * n) dt).getD i 0) : ℝ))
          (fun i => 2 * Real.pi * (u.getD i 0 : ℚ)) j) ^ 2) / (2 * n) ≤
        (4 * (ε + 1 / 2 ^ 45)) ^ 2 * ∑ i ∈ range n, (npInterpF64 f S ((genAxisF64 (2 * n) dt).getD i 0) : ℝ) * genDf n dt + 1 / 2 ^ 100 := by
  obtain ⟨D0, g0, g40, η, hη, hD⟩ := genDf_double hn hn' hlo hhi
  have d0 : 0 < dt := lt_of_lt_of_le (by positivity) hlo
  have d0' : (0 : ℝ) < dt := by exact_mod_cast d0
  have hgl := gen_axis_count hn hn' hlo hhi
  set t := synthTimeF64 tInit tEnd dt with ht
  set D := dfGenF64 (2 * n) dt with hDd
  set g := genDf n (dt : ℝ) with hg
  set s : ℕ → ℚ := fun i => npInterpF64 f S ((genAxisF64 (2 * n) dt).getD i 0) with hs
  set w := (genAxisF64 (2 * n) dt).map fun x => twiceDensF64 D (npInterpF64 f S x) with hw
  have hwl : w.length = n := by simp [hw, hgl]
  have hwg : ∀ i < n, w.getD i 0 = twiceDensF64 D (s i) := by
    intro i hi
    rw [List.getD_eq_getElem _ _ (by omega)]
    simp only [hw, List.getElem_map, hs]
    rw [List.getD_eq_getElem _ _ (by omega)]
  have hw0 : (w.any fun v => decide (v < 0)) = false := by
    rw [List.any_eq_false]
    intro v hv
    obtain ⟨i, hi, rfl⟩ := List.mem_iff_getElem.1 hv
    have hi' : i < n := by omega
    rw [← List.getD_eq_getElem _ 0 hi, hwg i hi']
    have : 0 ≤ twiceDensF64 D (s i) := f64_nonneg (mul_nonneg (f64_nonneg (by have := hS i hi'; linarith)) D0)
    simp [this]
  set A := w.map Q.sqrt with hA
  set P := phasesF64 u with hP
  have hAl : A.length = n := by simp [hA, hwl]
  have hPl : P.length = n := by simp [hP, phasesF64, hul]
  set U := fourierComponentsF64 E (2 * n) n A P with hU
  obtain ⟨hUl, hUg⟩ := fourierComponentsF64_spec E hn hAl hPl
  rw [← hU] at hUl hUg
  set X := (F.ifft U).map fun z => f64 (z.1 * ((2 * n : ℕ) : ℚ)) with hX
  have hXl : X.length = 2 * n := by simp [hX, F.ifft_length, hUl]
  have htl : t.length ≤ 2 * n := by rw [← hN]; unfold nTimeEven; omega
  have hrun : synthF64 F Q E f S tInit tEnd dt u = .ok (t, X.take t.length) := by
    unfold synthF64
    dsimp only
    rw [← ht, hN, if_neg (not_not.2 hl), if_neg d0.ne', if_neg (by omega), if_neg hf, if_neg (not_not.2 hp), hgl, hul, if_neg (by simp), ← hDd]
    rw [← hw, hw0, if_neg (by simp)]
  refine ⟨_, hrun, by rw [List.length_take, hXl]; omega, ?_⟩
  -- exact components
  set Ar : List ℝ := (List.range n).map fun i => Real.sqrt (2 * (s i : ℝ) * g) with hAr
  set φ : List ℝ := (List.range n).map fun i => 2 * Real.pi * ((u.getD i 0 : ℚ) : ℝ) with hφ
  have hArg : ∀ i < n, Ar.getD i 0 = Real.sqrt (2 * (s i : ℝ) * g) := fun i hi => by rw [hAr, getD_map_range _ _ _ _ hi]
  have hφg : ∀ i < n, φ.getD i 0 = 2 * Real.pi * ((u.getD i 0 : ℚ) : ℝ) := fun i hi => by rw [hφ, getD_map_range _ _ _ _ hi]
  set W : ℕ → ℂ := compAt Ar φ with hW
  set Z : ℕ → ℂ := fun k => if k = 0 then 0 else cx (componentF64 E (A.getD (k - 1) 0) (P.getD (k - 1) 0)) with hZ
  set V : ℕ → ℂ := symExt (2 * n) W with hV
  have hval : ∀ j, phaseSum n dt (fun i => (s i : ℝ)) (fun i => 2 * Real.pi * (u.getD i 0 : ℚ)) j = (2 * n : ℝ) * (inv (2 * n) V j).re := by
    intro j
    have h := synth_value hn d0' Ar φ j
    rw [← hW, ← hV] at h
    have e : (inv (2 * n) V j * ((2 * n : ℕ) : ℂ)).re = (2 * n : ℝ) * (inv (2 * n) V j).re := by
      rw [mul_comm, show ((2 * n : ℕ) : ℂ) = ((2 * n : ℝ) : ℂ) by push_cast; ring, Complex.re_ofReal_mul]
    rw [← e, h]
    unfold phaseSum
    refine sum_congr rfl fun i hi => ?_
    have hi := mem_range.1 hi
    rw [hArg i hi, hφg i hi]
  -- errors of the components
  have sn : ∀ i < n, (0 : ℝ) ≤ s i := fun i hi => by exact_mod_cast hS i hi
  have hcomp : ∀ i < n, Complex.normSq (Z (i + 1) - W (i + 1)) ≤ (1 / 2 ^ 46) ^ 2 * ((s i : ℝ) * g) + 2 * (1 / 2 ^ 75) ^ 2 := by
    intro i hi
    have hum : u.getD i 0 ∈ u := by rw [List.getD_eq_getElem _ _ (by omega)]; exact List.getElem_mem _
    obtain ⟨u0, u1⟩ := hu _ hum
    have hc := component_close Q E (D := D) (v := s i) (u := u.getD i 0) (hS i hi) D0 g0.le g40 hη hD u0 u1
    have e1 : A.getD i 0 = Q.sqrt (twiceDensF64 D (s i)) := by
      rw [← hwg i hi, List.getD_eq_getElem _ _ (by omega), List.getD_eq_getElem _ _ (by omega)]
      simp only [hA, List.getElem_map]
    have e2 : P.getD i 0 = f64 (twoPiF64 * u.getD i 0) := by
      rw [List.getD_eq_getElem _ _ (by omega), List.getD_eq_getElem _ _ (by omega)]
      simp only [hP, phasesF64, List.getElem_map]
    have e3 : Z (i + 1) - W (i + 1) = cx (componentF64 E (Q.sqrt (twiceDensF64 D (s i))) (f64 (twoPiF64 * u.getD i 0))) -
        ((Real.sqrt (2 * s i * g) : ℝ) : ℂ) / 2 * Complex.exp (Complex.I * ((2 * Real.pi * (u.getD i 0 : ℚ) : ℝ) : ℂ)) := by
      simp only [hZ, hW, compAt]
      rw [if_neg (by omega), if_neg (by omega), Nat.add_sub_cancel, e1, e2, hArg i hi, hφg i hi]
    rw [e3, Complex.normSq_eq_norm_sq]
    have sq : Real.sqrt (2 * (s i : ℝ) * g) ^ 2 = 2 * s i * g := Real.sq_sqrt (by have := sn i hi; positivity)
    set r := Real.sqrt (2 * (s i : ℝ) * g) with hr
    have h2 := pow_le_pow_left₀ (norm_nonneg _) hc 2
    refine h2.trans ?_
    have h3 : ∀ a b : ℝ, (a + b) ^ 2 ≤ 2 * a ^ 2 + 2 * b ^ 2 := fun a b => by nlinarith [sq_nonneg (a - b)]
    refine (h3 _ _).trans (le_of_eq ?_)
    have : (1 / 2 ^ 46 * (r / 2)) ^ 2 = (1 / 2 ^ 46) ^ 2 * (r ^ 2 / 4) := by ring
    rw [this, sq]
    ring
  have hWn : ∀ i < n, Complex.normSq (W (i + 1)) = (s i : ℝ) * g / 2 := by
    intro i hi
    simp only [hW, compAt]
    rw [if_neg (by omega), Nat.add_sub_cancel, hArg i hi, Complex.normSq_mul, mul_comm Complex.I]
    have e1 : Complex.normSq (Complex.exp (((φ.getD i 0 : ℝ) : ℂ) * Complex.I)) = 1 := by
      rw [Complex.normSq_eq_norm_sq, Complex.norm_exp_ofReal_mul_I, one_pow]
    rw [e1, mul_one, show ((Real.sqrt (2 * (s i : ℝ) * g) : ℝ) : ℂ) / 2 = ((Real.sqrt (2 * (s i : ℝ) * g) / 2 : ℝ) : ℂ) by push_cast; ring,
      Complex.normSq_ofReal, ← sq, div_pow, Real.sq_sqrt (by have := sn i hi; positivity)]
    ring
  set M := ∑ i ∈ range n, (s i : ℝ) * g with hM
  have M0 : 0 ≤ M := sum_nonneg fun i hi => mul_nonneg (sn i (mem_range.1 hi)) g0.le
  have e2n : 2 * n / 2 + 1 = n + 1 := by omega
  have hB : ∑ k ∈ range (2 * n), Complex.normSq (cx (U.getD k 0) - V k) ≤ 2 * ((1 / 2 ^ 46) ^ 2 * M + n * (2 * (1 / 2 ^ 75) ^ 2)) := by
    have e : ∑ k ∈ range (2 * n), Complex.normSq (cx (U.getD k 0) - V k) = ∑ k ∈ range (2 * n), Complex.normSq (symExt (2 * n) Z k - symExt (2 * n) W k) :=
      sum_congr rfl fun k hk => by rw [hUg k (mem_range.1 hk)]
    rw [e]
    refine (symExt_error Z W).trans (mul_le_mul_of_nonneg_left ?_ (by norm_num))
    rw [e2n, sum_range_succ']
    have z0 : Complex.normSq (Z 0 - W 0) = 0 := by simp [hZ, hW, compAt]
    rw [z0, add_zero]
    refine (sum_le_sum fun i hi => hcomp i (mem_range.1 hi)).trans (le_of_eq ?_)
    rw [sum_add_distrib, ← mul_sum, sum_const, card_range, nsmul_eq_mul]
  have hVE : ∑ k ∈ range (2 * n), Complex.normSq (V k) ≤ M := by
    have e : ∀ k, symExt (2 * n) (fun _ => (0 : ℂ)) k = 0 := by intro k; unfold symExt; split_ifs <;> simp
    have h := symExt_error (n := 2 * n) W fun _ => 0
    simp only [e, sub_zero] at h
    refine h.trans ?_
    rw [e2n, sum_range_succ']
    have z0 : Complex.normSq (W 0) = 0 := by simp [hW, compAt]
    rw [z0, add_zero, sum_congr rfl fun i hi => hWn i (mem_range.1 hi), ← sum_div]
    apply le_of_eq
    rw [← hM]
    ring
  have hUE : ∑ k ∈ range (2 * n), Complex.normSq (cx (U.getD k 0)) ≤ 2 * ∑ k ∈ range (2 * n), Complex.normSq (V k) +
      2 * ∑ k ∈ range (2 * n), Complex.normSq (cx (U.getD k 0) - V k) := by
    rw [mul_sum, mul_sum, ← sum_add_distrib]
    refine sum_le_sum fun k _ => ?_
    have := normSq_add_le (V k) (cx (U.getD k 0) - V k) (t := 1) (by norm_num)
    rw [add_sub_cancel] at this
    refine this.trans (le_of_eq ?_)
    norm_num
  have hinv := ifft_error F (by omega : 0 < 2 * n) hUl V
  have hpV := parseval_inv (by omega : 0 < 2 * n) V
  -- samples
  have hsample : ∀ j < 2 * n, ((X.getD j 0 : ℝ) - phaseSum n dt (fun i => (s i : ℝ)) (fun i => 2 * Real.pi * (u.getD i 0 : ℚ)) j) ^ 2 ≤
      3 * ((2 * n : ℕ) : ℝ) ^ 2 * Complex.normSq (cx ((F.ifft U).getD j 0) - inv (2 * n) V j) +
        (1 / 2 ^ 50) ^ 2 * ((2 * n : ℕ) : ℝ) ^ 2 * Complex.normSq (inv (2 * n) V j) + 6 * (1 / 2 ^ 200) ^ 2 := by
    intro j hj
    have hXj : X.getD j 0 = f64 (((F.ifft U).getD j 0).1 * ((2 * n : ℕ) : ℚ)) := by
      rw [List.getD_eq_getElem _ _ (by omega), List.getD_eq_getElem _ _ (by rw [F.ifft_length]; omega)]
      simp only [hX, List.getElem_map]
    rw [hval j, hXj]
    have r := f64_rd (((F.ifft U).getD j 0).1 * ((2 * n : ℕ) : ℚ))
    unfold Rd at r
    push_cast at r
    have q1 : ((((F.ifft U).getD j 0).1 : ℝ) - (inv (2 * n) V j).re) ^ 2 ≤ Complex.normSq (cx ((F.ifft U).getD j 0) - inv (2 * n) V j) := by
      rw [Complex.normSq_apply, Complex.sub_re, Complex.sub_im]
      unfold cx
      nlinarith [mul_self_nonneg ((((F.ifft U).getD j 0).2 : ℝ) - (inv (2 * n) V j).im)]
    have q2 : (inv (2 * n) V j).re ^ 2 ≤ Complex.normSq (inv (2 * n) V j) := by
      rw [Complex.normSq_apply]
      nlinarith [mul_self_nonneg (inv (2 * n) V j).im]
    push_cast
    exact sample_close (by positivity) r q1 q2
  have hlen : (X.take t.length).length = t.length := by rw [List.length_take, hXl]; omega
  rw [hlen]
  have htake : ∑ j ∈ range t.length, (((X.take t.length).getD j 0 : ℚ) - phaseSum n dt (fun i => (s i : ℝ)) (fun i => 2 * Real.pi * (u.getD i 0 : ℚ)) j) ^ 2 ≤
      ∑ j ∈ range (2 * n), (((X.getD j 0 : ℚ) : ℝ) - phaseSum n dt (fun i => (s i : ℝ)) (fun i => 2 * Real.pi * (u.getD i 0 : ℚ)) j) ^ 2 := by
    have e : ∀ j ∈ range t.length, (((X.take t.length).getD j 0 : ℚ) - phaseSum n dt (fun i => (s i : ℝ)) (fun i => 2 * Real.pi * (u.getD i 0 : ℚ)) j) ^ 2 =
        (((X.getD j 0 : ℚ) : ℝ) - phaseSum n dt (fun i => (s i : ℝ)) (fun i => 2 * Real.pi * (u.getD i 0 : ℚ)) j) ^ 2 := by
      intro j hj
      have hj := mem_range.1 hj
      rw [List.getD_eq_getElem?_getD, List.getElem?_take, if_pos hj, ← List.getD_eq_getElem?_getD]
    rw [sum_congr rfl e]
    exact sum_le_sum_of_subset_of_nonneg (range_subset_range.2 htl) fun j _ _ => sq_nonneg _
  have hsum := sum_le_sum fun j (hj : j ∈ range (2 * n)) => hsample j (mem_range.1 hj)
  rw [sum_add_distrib, sum_add_distrib, ← mul_sum, ← mul_sum, sum_const, card_range, nsmul_eq_mul] at hsum
  have hfin := htake.trans hsum
  have N1 : (1 : ℝ) ≤ ((2 * n : ℕ) : ℝ) := by exact_mod_cast (by omega : 1 ≤ 2 * n)
  have N41 : ((2 * n : ℕ) : ℝ) ≤ 2 ^ 41 := by
    have : 2 * n ≤ 2 ^ 41 := by omega
    exact_mod_cast this
  have nN : (n : ℝ) ≤ 2 ^ 40 := by exact_mod_cast hn'
  have nn0 : (0 : ℝ) ≤ n := Nat.cast_nonneg n
  rw [show (2 * (n : ℝ)) = ((2 * n : ℕ) : ℝ) by push_cast; ring]
  rw [div_le_iff₀ (by linarith)]
  refine hfin.trans ?_
  exact synth_constants hε hε' M0 N1 N41 nN hB hVE hUE hinv hpV

theorem genAxis_doubles {n : ℕ} {dt : ℚ} {i : ℕ} (hi : i < (genAxisF64 n dt).length) : IsDouble ((genAxisF64 n dt).getD i 0) := by
  unfold genAxisF64 arangeF64 at hi ⊢
  simp only [List.length_map, List.length_range] at hi
  simp only []
  rw [map_range_getD hi]
  split_ifs
  · exact f64_double _
  · exact f64_double _
  · exact f64_double _

/-- **C180 (valid spectra).**  The same, with conditions on the spectrum instead of the interpolated densities: increasing frequencies of which each is zero or
at least half the next, and densities that are zero or at least `2 ^ -100`.  Then `spectrum2timeseries` succeeds for every draw of phases. -/
theorem synth_double_valid (F : NpFftD ε) (Q : NpSqrt) (E : NpCexp) (hε : 0 ≤ ε) (hε' : ε ≤ 1 / 10) {f S : List ℚ} (hl : f.length = S.length) (hf : f ≠ [])
    (hp : f.Pairwise (· < ·)) (hfd : ∀ v ∈ f, IsDouble v ∧ 0 ≤ v ∧ v ≤ 2 ^ 40)
    (hgap : ∀ i, i + 1 < f.length → f.getD i 0 = 0 ∨ f.getD (i + 1) 0 ≤ 2 * f.getD i 0) (hSd : ∀ v ∈ S, IsDouble v ∧ (v = 0 ∨ 1 / 2 ^ 100 ≤ v))
    {tInit tEnd dt : ℚ} (hlo : 1 / 2 ^ 40 ≤ dt) (hhi : dt ≤ 2 ^ 40) {n : ℕ} (hn : 0 < n) (hn' : n ≤ 2 ^ 40)
    (hN : nTimeEven (synthTimeF64 tInit tEnd dt).length = 2 * n) {u : List ℚ} (hul : u.length = n) (hu : ∀ v ∈ u, 0 ≤ v ∧ v < 1) :
    ∃ x, synthF64 F Q E f S tInit tEnd dt u = .ok (synthTimeF64 tInit tEnd dt, x) ∧ x.length = (synthTimeF64 tInit tEnd dt).length ∧
      (∑ j ∈ range x.length, ((x.getD j 0 : ℝ) - phaseSum n dt (fun i => (npInterpF64 f S ((genAxisF64 (2 * n) dt).getD i 0) : ℝ))
          (fun i => 2 * Real.pi * (u.getD i 0 : ℚ)) j) ^ 2) / (2 * n) ≤
        (4 * (ε + 1 / 2 ^ 45)) ^ 2 * ∑ i ∈ range n, (npInterpF64 f S ((genAxisF64 (2 * n) dt).getD i 0) : ℝ) * genDf n dt + 1 / 2 ^ 100 :=
  synth_double F Q E hε hε' hl hf (hp.imp fun h => h.le) hlo hhi hn hn' hN hul hu fun i hi =>
    interp_nonneg_double hl hp hfd hgap hSd (genAxis_doubles (by rw [gen_axis_count hn hn' hlo hhi]; exact hi))

/-! ## The variance -/

/-- Zero mean and variance of a random-phase sum over the even period. -/
theorem phaseSum_energy {n : ℕ} (hn : 0 < n) {dt : ℝ} (hdt : 0 < dt) {S : ℕ → ℝ} (hS : ∀ i < n, 0 ≤ S i) (φ : ℕ → ℝ) :
    (∑ j ∈ range (2 * n), phaseSum n dt S φ j ^ 2) / (2 * n) =
      ∑ i ∈ range (n - 1), S i * genDf n dt + S (n - 1) * genDf n dt * Real.cos (φ (n - 1)) ^ 2 / 2 := by
  have n0 : (0 : ℝ) < n := by exact_mod_cast hn
  have g0 : 0 < genDf n dt := by unfold genDf; positivity
  set T : ℝ → ℝ := fun v => if (⌊v / genDf n dt⌋.toNat - 1) < n then S (⌊v / genDf n dt⌋.toNat - 1) else 0 with hT
  have T0 : ∀ v, 0 ≤ T v := by
    intro v
    simp only [hT]
    split_ifs with h
    · exact hS _ h
    · exact le_rfl
  have Tv : ∀ i < n, T ((i + 1) * genDf n dt) = S i := by
    intro i hi
    simp only [hT]
    rw [mul_div_cancel_right₀ _ g0.ne']
    have : ⌊(i : ℝ) + 1⌋.toNat - 1 = i := by
      rw [show (i : ℝ) + 1 = ((i + 1 : ℕ) : ℝ) by push_cast; ring, Int.floor_natCast, Int.toNat_natCast, Nat.add_sub_cancel]
    rw [this, if_pos hi]
  have e : ∀ j, phaseSum n dt S φ j = randomPhaseSum n dt T φ j := by
    intro j
    unfold phaseSum randomPhaseSum
    refine sum_congr rfl fun i hi => ?_
    rw [Tv i (mem_range.1 hi)]
  have h := (random_phase_energy hn hdt T0 φ).2
  rw [sum_congr rfl fun j _ => by rw [e j], h]
  have l := Tv (n - 1) (by omega)
  rw [show (((n - 1 : ℕ) : ℝ) + 1) = n by rw [Nat.cast_sub (by omega)]; push_cast; ring] at l
  rw [l]
  congr 1
  refine sum_congr rfl fun i hi => ?_
  have := mem_range.1 hi
  rw [Tv i (by omega)]

/-- Mean squares of two series. -/
theorem meanSq_close {m : ℕ} {x y : ℕ → ℝ} {δ M B : ℝ} (hδ : 0 < δ) (hM : (∑ j ∈ range m, y j ^ 2) / m ≤ M)
    (hB : (∑ j ∈ range m, (x j - y j) ^ 2) / m ≤ B) :
    |(∑ j ∈ range m, x j ^ 2) / m - (∑ j ∈ range m, y j ^ 2) / m| ≤ δ * M + (1 + 1 / δ) * B := by
  have m0 : (0 : ℝ) ≤ m := Nat.cast_nonneg m
  have key : ∀ j, |x j ^ 2 - y j ^ 2| ≤ δ * y j ^ 2 + (1 + 1 / δ) * (x j - y j) ^ 2 := by
    intro j
    have h := normSq_perturb ((y j : ℝ) : ℂ) (((x j - y j : ℝ)) : ℂ) hδ
    rw [← Complex.ofReal_add, add_sub_cancel, Complex.normSq_ofReal, Complex.normSq_ofReal, Complex.normSq_ofReal, ← sq, ← sq, ← sq] at h
    exact h
  rw [← sub_div, ← sum_sub_distrib, abs_div, abs_of_nonneg m0]
  have h1 : |∑ j ∈ range m, (x j ^ 2 - y j ^ 2)| ≤ ∑ j ∈ range m, (δ * y j ^ 2 + (1 + 1 / δ) * (x j - y j) ^ 2) :=
    (abs_sum_le_sum_abs _ _).trans (sum_le_sum fun j _ => key j)
  refine (div_le_div_of_nonneg_right h1 m0).trans ?_
  rw [sum_add_distrib, ← mul_sum, ← mul_sum, add_div, mul_div_assoc, mul_div_assoc]
  exact add_le_add (mul_le_mul_of_nonneg_left hM hδ.le) (mul_le_mul_of_nonneg_left hB (by positivity))

/-- **C180 (variance).**  For an even number of samples the mean square of the computed series is the sum of `S i df` over the generated frequencies below
the Nyquist frequency, plus a Nyquist term that depends on the last phase, up to `12 (ε + 2 ^ -45)` times the sum of `S i df` (and `2 ^ -55`). -/
theorem synth_variance_double (F : NpFftD ε) (Q : NpSqrt) (E : NpCexp) (hε : 0 ≤ ε) (hε' : ε ≤ 1 / 10) {f S : List ℚ} (hl : f.length = S.length) (hf : f ≠ [])
    (hp : f.Pairwise (· ≤ ·)) {tInit tEnd dt : ℚ} (hlo : 1 / 2 ^ 40 ≤ dt) (hhi : dt ≤ 2 ^ 40) {n : ℕ} (hn : 0 < n) (hn' : n ≤ 2 ^ 40)
    (hN : (synthTimeF64 tInit tEnd dt).length = 2 * n) {u : List ℚ} (hul : u.length = n) (hu : ∀ v ∈ u, 0 ≤ v ∧ v < 1)
    (hS : ∀ i < n, 0 ≤ npInterpF64 f S ((genAxisF64 (2 * n) dt).getD i 0)) :
    ∃ x, synthF64 F Q E f S tInit tEnd dt u = .ok (synthTimeF64 tInit tEnd dt, x) ∧ x.length = 2 * n ∧
      |(∑ j ∈ range (2 * n), ((x.getD j 0 : ℚ) : ℝ) ^ 2) / (2 * n) -
        (∑ i ∈ range (n - 1), (npInterpF64 f S ((genAxisF64 (2 * n) dt).getD i 0) : ℝ) * genDf n dt +
          (npInterpF64 f S ((genAxisF64 (2 * n) dt).getD (n - 1) 0) : ℝ) * genDf n dt * Real.cos (2 * Real.pi * (u.getD (n - 1) 0 : ℚ)) ^ 2 / 2)| ≤
        12 * (ε + 1 / 2 ^ 45) * ∑ i ∈ range n, (npInterpF64 f S ((genAxisF64 (2 * n) dt).getD i 0) : ℝ) * genDf n dt + 1 / 2 ^ 55 := by
  obtain ⟨x, h1, h2, h3⟩ := synth_double F Q E hε hε' hl hf hp hlo hhi hn hn' (by rw [hN]; unfold nTimeEven; omega) hul hu hS
  refine ⟨x, h1, by rw [h2, hN], ?_⟩
  rw [h2, hN] at h3
  have d0 : (0 : ℝ) < dt := by exact_mod_cast (lt_of_lt_of_le (by positivity) hlo : (0 : ℚ) < dt)
  have n0 : (0 : ℝ) < n := by exact_mod_cast hn
  have g0 : 0 < genDf n (dt : ℝ) := by unfold genDf; positivity
  set s : ℕ → ℝ := fun i => (npInterpF64 f S ((genAxisF64 (2 * n) dt).getD i 0) : ℝ) with hs
  have sn : ∀ i < n, 0 ≤ s i := fun i hi => by simp only [hs]; exact_mod_cast hS i hi
  set φ : ℕ → ℝ := fun i => 2 * Real.pi * (u.getD i 0 : ℚ) with hφ
  have he := phaseSum_energy hn d0 sn φ
  have hM : (∑ j ∈ range (2 * n), phaseSum n dt s φ j ^ 2) / ((2 * n : ℕ) : ℝ) ≤ ∑ i ∈ range n, s i * genDf n dt := by
    push_cast
    rw [he]
    obtain ⟨m, rfl⟩ : ∃ m, n = m + 1 := ⟨n - 1, by omega⟩
    rw [Nat.add_sub_cancel, sum_range_succ]
    have h0 : 0 ≤ s m * genDf (m + 1) dt := mul_nonneg (sn m (by omega)) g0.le
    have hc : Real.cos (φ m) ^ 2 ≤ 1 := by rw [sq_le_one_iff_abs_le_one]; exact Real.abs_cos_le_one _
    have h4 := mul_le_mul_of_nonneg_left hc h0
    linarith
  set M := ∑ i ∈ range n, s i * genDf n dt with hMd
  have M0 : 0 ≤ M := sum_nonneg fun i hi => mul_nonneg (sn i (mem_range.1 hi)) g0.le
  set δ : ℝ := 4 * (ε + 1 / 2 ^ 45) with hδ
  have δ0 : 1 / 2 ^ 43 ≤ δ := by rw [hδ]; norm_num; linarith
  have δ1 : δ ≤ 1 / 2 := by rw [hδ]; norm_num; linarith
  have δp : 0 < δ := lt_of_lt_of_le (by positivity) δ0
  have hc := meanSq_close (m := 2 * n) (x := fun j => ((x.getD j 0 : ℚ) : ℝ)) (y := fun j => phaseSum n dt s φ j) δp hM (by push_cast; exact h3)
  push_cast at hc
  rw [he] at hc
  refine hc.trans ?_
  have i1 : 1 / δ ≤ 2 ^ 43 := by
    rw [div_le_iff₀ δp]
    calc (1 : ℝ) = 2 ^ 43 * (1 / 2 ^ 43) := by norm_num
      _ ≤ _ := mul_le_mul_of_nonneg_left δ0 (by positivity)
  have i2 : (1 + 1 / δ) * (δ ^ 2 * M + 1 / 2 ^ 100) = δ * (δ * M) + δ * M + (1 + 1 / δ) * (1 / 2 ^ 100) := by field_simp
  have i3 : (1 + 1 / δ) * (1 / 2 ^ 100) ≤ (1 + 2 ^ 43) * (1 / 2 ^ 100 : ℝ) := mul_le_mul_of_nonneg_right (by linarith) (by positivity)
  have i4 : (1 + 2 ^ 43) * (1 / 2 ^ 100 : ℝ) ≤ 1 / 2 ^ 55 := by norm_num
  have i5 : δ * (δ * M) ≤ 1 * (δ * M) := mul_le_mul_of_nonneg_right (by linarith) (by positivity)
  have i6 : 12 * (ε + 1 / 2 ^ 45) * M = 3 * (δ * M) := by rw [hδ]; ring
  rw [i2, i6]
  linarith

/-! ## Existence of the library functions, and a concrete case -/

theorem npCexp_exists : Nonempty NpCexp := by
  have h : ∀ p : ℚ, ∃ z : ℚ × ℚ, ‖cx z - Complex.exp (Complex.I * ((p : ℝ) : ℂ))‖ ≤ 1 / 2 ^ 50 := by
    intro p
    set w := Complex.exp (Complex.I * ((p : ℝ) : ℂ)) with hw
    obtain ⟨a, a1, a2⟩ := exists_rat_btwn (show w.re < w.re + 1 / 2 ^ 51 by linarith [show (0 : ℝ) < 1 / 2 ^ 51 by positivity])
    obtain ⟨b, b1, b2⟩ := exists_rat_btwn (show w.im < w.im + 1 / 2 ^ 51 by linarith [show (0 : ℝ) < 1 / 2 ^ 51 by positivity])
    refine ⟨(a, b), (Complex.norm_le_abs_re_add_abs_im _).trans ?_⟩
    have e1 : (cx (a, b) - w).re = a - w.re := rfl
    have e2 : (cx (a, b) - w).im = b - w.im := rfl
    rw [e1, e2, abs_of_nonneg (by linarith), abs_of_nonneg (by linarith)]
    norm_num at a2 b2 ⊢
    linarith
  choose e he using h
  exact ⟨⟨e, fun p _ _ => he p⟩⟩

/-- A spectrum of three densities, four samples at two per second: all hypotheses hold. -/
example (F : NpFftD (1 / 2 ^ 45)) (Q : NpSqrt) (E : NpCexp) :
    ∃ x, synthF64 F Q E [0, 1 / 4, 2 / 4] [0, 3 / 4, 1 / 4] 0 (3 / 2) (1 / 2) [1 / 2, 1 / 4] = .ok (synthTimeF64 0 (3 / 2) (1 / 2), x) ∧ x.length = 4 := by
  have q : ∀ n : ℕ, n ≤ 3 → IsDouble ((n : ℚ) / 4) := fun n h => double_quarters n (by omega)
  have q0 := q 0 (by norm_num)
  have q1 := q 1 (by norm_num)
  have q2 := q 2 (by norm_num)
  have q3 := q 3 (by norm_num)
  norm_num at q0 q1 q2 q3
  have hlen : (synthTimeF64 0 (3 / 2) (1 / 2)).length = 4 := by decide +kernel
  obtain ⟨x, h1, h2, -⟩ := synth_double_valid F Q E (by positivity) (by norm_num) (f := [0, 1 / 4, 2 / 4]) (S := [0, 3 / 4, 1 / 4]) (by simp) (by simp)
    (by norm_num) (by
      simp only [List.mem_cons, List.not_mem_nil, or_false, forall_eq_or_imp, forall_eq]
      norm_num
      exact ⟨q0, q1, q2⟩) (by
      intro i hi
      have : i = 0 ∨ i = 1 := by simp at hi; omega
      rcases this with rfl | rfl
      · left; rfl
      · right; norm_num) (by
      simp only [List.mem_cons, List.not_mem_nil, or_false, forall_eq_or_imp, forall_eq]
      norm_num
      exact ⟨q0, q3, q1⟩) (tInit := 0) (tEnd := 3 / 2) (dt := 1 / 2) (by norm_num) (by norm_num) (n := 2) (by norm_num) (by norm_num)
    (by rw [hlen]; rfl) (u := [1 / 2, 1 / 4]) (by simp) (by norm_num)
  exact ⟨x, h1, by rw [h2, hlen]⟩

/-- The two interpolated densities of this case. -/
example : (genAxisF64 4 (1 / 2)).map (npInterpF64 [0, 1 / 4, 2 / 4] [0, 3 / 4, 1 / 4]) = [1 / 4, 0] := by decide +kernel

end Verif
