import Verif.Props.FloatPeriods

/-! # The zeroth moment in double precision with densities that underflow

`moment_double` asks that no density be tiny without being zero.  For the zeroth moment this is not needed: the computed integral lies between the
computed integrals of two lists of usual densities around the given one, because every computed coefficient is non-negative and rounding is monotone. -/

set_option linter.unusedSectionVars false

namespace Verif
open Finset

section
variable {e : ℚ} (he0 : 1 / 2 ^ 50 ≤ e) (he1 : e ≤ 1 / 2 ^ 20) {h : ℚ} (hlo : 1 / 2 ^ 100 ≤ h) (hhi : h ≤ 2 ^ 100)
include he0 he1 hlo hhi

theorem step_range {H0 : ℚ} (h1 : |H0 - h| ≤ e * h) : 3 / 4 * h ≤ H0 ∧ H0 ≤ 5 / 4 * h := by
  have h0 : 0 < h := lt_of_lt_of_le (by positivity) hlo
  have : e * h ≤ 1 / 4 * h := mul_le_mul_of_nonneg_right (he1.trans (by norm_num)) h0.le
  obtain ⟨a, b⟩ := abs_le.1 h1
  constructor <;> linarith

/-- One panel is monotone in the densities. -/
theorem term_mono {x0 x1 x2 y0 y1 y2 z0 z1 z2 : ℚ} (h1 : |f64 (x1 - x0) - h| ≤ e * h) (h2 : |f64 (x2 - x1) - h| ≤ e * h)
    (m0 : y0 ≤ z0) (m1 : y1 ≤ z1) (m2 : y2 ≤ z2) : simpTermF64 x0 x1 x2 y0 y1 y2 ≤ simpTermF64 x0 x1 x2 z0 z1 z2 := by
  have h0 : 0 < h := lt_of_lt_of_le (by positivity) hlo
  obtain ⟨a1, a2⟩ := step_range he0 he1 hlo hhi h1
  obtain ⟨b1, b2⟩ := step_range he0 he1 hlo hhi h2
  unfold simpTermF64
  simp only []
  set H0 := f64 (x1 - x0)
  set H1 := f64 (x2 - x1)
  have H0p : 0 < H0 := by linarith
  have H1p : 0 < H1 := by linarith
  have two : IsDouble (2 : ℚ) := by exact_mod_cast isDouble_nat (n := 2) (by norm_num)
  have half : IsDouble (1 / 2 : ℚ) := ⟨1, -1, by norm_num, by norm_num, by norm_num⟩
  have r1 : 1 / 2 ≤ f64 (H0 / H1) := (f64_mono_double half).1 (by rw [le_div_iff₀ H1p]; linarith)
  have r2 : f64 (H0 / H1) ≤ 2 := (f64_mono_double two).2 (by rw [div_le_iff₀ H1p]; linarith)
  have i2 : f64 (1 / f64 (H0 / H1)) ≤ 2 := (f64_mono_double two).2 (by rw [div_le_iff₀ (by linarith)]; linarith)
  have c0 : 0 ≤ f64 (2 - f64 (1 / f64 (H0 / H1))) := f64_nonneg (by linarith)
  have c2 : 0 ≤ f64 (2 - f64 (H0 / H1)) := f64_nonneg (by linarith)
  have s0 : 0 ≤ f64 (H0 + H1) := f64_nonneg (by linarith)
  have p0 : 0 ≤ f64 (H0 * H1) := f64_nonneg (by positivity)
  have c1 : 0 ≤ f64 (f64 (H0 + H1) * f64 (f64 (H0 + H1) / f64 (H0 * H1))) := f64_nonneg (mul_nonneg s0 (f64_nonneg (div_nonneg s0 p0)))
  have d0 : 0 ≤ f64 (f64 (H0 + H1) / 6) := f64_nonneg (div_nonneg s0 (by norm_num))
  exact f64_mono (mul_le_mul_of_nonneg_left (f64_mono (add_le_add (f64_mono (add_le_add (f64_mono (mul_le_mul_of_nonneg_right m0 c0))
    (f64_mono (mul_le_mul_of_nonneg_right m1 c1)))) (f64_mono (mul_le_mul_of_nonneg_right m2 c2)))) d0)

theorem terms_mono : ∀ {x y z : List ℚ}, StepsNear e h x → List.Forall₂ (· ≤ ·) y z → List.Forall₂ (· ≤ ·) (simpTermsF64 x y) (simpTermsF64 x z)
  | x0 :: x1 :: x2 :: xs, y0 :: y1 :: y2 :: ys, z0 :: z1 :: z2 :: zs => by
    intro hs hf
    simp only [List.forall₂_cons] at hf
    obtain ⟨m0, m1, m2, t⟩ := hf
    rw [simpTermsF64, simpTermsF64]
    have s0 := hs 0 (by simp)
    have s1 := hs 1 (by simp)
    exact .cons (term_mono he0 he1 hlo hhi (by simpa using s0) (by simpa using s1) m0 m1 m2)
      (terms_mono hs.tail2 (List.forall₂_cons.2 ⟨m2, t⟩))
  | [], y, z => fun _ _ => by simp [simpTermsF64]
  | [_], y, z => fun _ _ => by simp [simpTermsF64]
  | [_, _], y, z => fun _ _ => by simp [simpTermsF64]
  | _ :: _ :: _ :: _, [], z => fun _ hf => by cases hf; simp [simpTermsF64]
  | _ :: _ :: _ :: _, [_], z => fun _ hf => by
    rcases hf with _ | ⟨_, _ | _⟩
    simp [simpTermsF64]
  | _ :: _ :: _ :: _, [_, _], z => fun _ hf => by
    rcases hf with _ | ⟨_, _ | ⟨_, _ | _⟩⟩
    simp [simpTermsF64]
  | _ :: _ :: _ :: _, _ :: _ :: _ :: _, [] => fun _ hf => by cases hf
  | _ :: _ :: _ :: _, _ :: _ :: _ :: _, [_] => fun _ hf => by simp at hf
  | _ :: _ :: _ :: _, _ :: _ :: _ :: _, [_, _] => fun _ hf => by simp at hf

/-- The correction for the last interval is monotone in the last two densities and antitone in the one before. -/
theorem last_mono (P : NpPow) {x y z : List ℚ} (h4 : 3 ≤ x.length) (hs : StepsNear e h x) (m2 : y.getD (x.length - 1) 0 ≤ z.getD (x.length - 1) 0)
    (m1 : y.getD (x.length - 2) 0 ≤ z.getD (x.length - 2) 0) (m0 : z.getD (x.length - 3) 0 ≤ y.getD (x.length - 3) 0) :
    simpLastF64 P x y ≤ simpLastF64 P x z := by
  have h0 : 0 < h := lt_of_lt_of_le (by positivity) hlo
  have q0 := hs (x.length - 3) (by omega)
  rw [show x.length - 3 + 1 = x.length - 2 by omega] at q0
  have q1 := hs (x.length - 2) (by omega)
  rw [show x.length - 2 + 1 = x.length - 1 by omega] at q1
  obtain ⟨a1, a2⟩ := step_range he0 he1 hlo hhi q0
  obtain ⟨b1, b2⟩ := step_range he0 he1 hlo hhi q1
  unfold simpLastF64
  simp only []
  set H0 := f64 (x.getD (x.length - 2) 0 - x.getD (x.length - 3) 0)
  set H1 := f64 (x.getD (x.length - 1) 0 - x.getD (x.length - 2) 0)
  have H0p : 0 < H0 := by linarith
  have H1p : 0 < H1 := by linarith
  have pw : ∀ n : ℤ, |n| ≤ 3 → 0 ≤ P.pow H1 n := by
    intro n hn
    have sp := P.spec H1 n (by
        have : (1 : ℚ) / 2 ^ 200 ≤ 3 / 4 * (1 / 2 ^ 100) := by norm_num
        linarith) (by
        have : (5 / 4 : ℚ) * 2 ^ 100 ≤ 2 ^ 200 := by norm_num
        linarith) hn
    have hp : 0 < H1 ^ n := zpow_pos H1p n
    have := (abs_le.1 sp).1
    have : H1 ^ n / 2 ^ 52 ≤ H1 ^ n := div_le_self hp.le (by norm_num)
    linarith
  have p2 := pw 2 (by norm_num)
  have p3 := pw 3 (by norm_num)
  have cr : 0 ≤ f64 (f64 (3 * H0) * H1) := f64_nonneg (mul_nonneg (f64_nonneg (by positivity)) H1p.le)
  have d6 : 0 ≤ f64 (6 * H0) := f64_nonneg (by positivity)
  have sA : 0 ≤ f64 (H1 + H0) := f64_nonneg (by positivity)
  have sB : 0 ≤ f64 (H0 + H1) := f64_nonneg (by positivity)
  have al : 0 ≤ f64 (f64 (f64 (2 * P.pow H1 2) + f64 (f64 (3 * H0) * H1)) / f64 (6 * f64 (H1 + H0))) :=
    f64_nonneg (div_nonneg (f64_nonneg (add_nonneg (f64_nonneg (by positivity)) cr)) (f64_nonneg (by positivity)))
  have be : 0 ≤ f64 (f64 (P.pow H1 2 + f64 (f64 (3 * H0) * H1)) / f64 (6 * H0)) :=
    f64_nonneg (div_nonneg (f64_nonneg (add_nonneg p2 cr)) d6)
  have et : 0 ≤ f64 (f64 (1 * P.pow H1 3) / f64 (f64 (6 * H0) * f64 (H0 + H1))) :=
    f64_nonneg (div_nonneg (f64_nonneg (by rw [one_mul]; exact p3)) (f64_nonneg (mul_nonneg d6 sB)))
  exact f64_mono (sub_le_sub (f64_mono (add_le_add (f64_mono (mul_le_mul_of_nonneg_left m2 al)) (f64_mono (mul_le_mul_of_nonneg_left m1 be))))
    (f64_mono (mul_le_mul_of_nonneg_left m0 et)))

/-- The sum of the panels, between two lists of usual densities. -/
theorem odd_between (R : NpSum) {x L y H : List ℚ} (hl : x.length = L.length) (hh : x.length = H.length) (hn : x.length ≤ 2 ^ 40) (hs : StepsNear e h x)
    (gL : ∀ v ∈ L, Ge 700 v) (gH : ∀ v ∈ H, Ge 700 v) (mL : List.Forall₂ (· ≤ ·) L y) (mH : List.Forall₂ (· ≤ ·) y H) :
    (panels h L).sum - (9 * e + (x.length : ℚ) / 2 ^ 52) * (panels h L).sum ≤ R.sum (simpTermsF64 x y) ∧
      R.sum (simpTermsF64 x y) ≤ (panels h H).sum + (9 * e + (x.length : ℚ) / 2 ^ 52) * (panels h H).sum ∧ IsDouble (R.sum (simpTermsF64 x y)) := by
  have nL := near_sum (terms_near he0 he1 hlo hhi hl hs gL)
  have nH := near_sum (terms_near he0 he1 hlo hhi hh hs gH)
  have tL := terms_mono he0 he1 hlo hhi hs mL
  have tH := terms_mono he0 he1 hlo hhi hs mH
  have sL := List.Forall₂.sum_le_sum tL
  have sH := List.Forall₂.sum_le_sum tH
  have fL := terms_near he0 he1 hlo hhi hl hs gL
  have nn : ∀ v ∈ simpTermsF64 x y, 0 ≤ v := by
    intro v hv
    obtain ⟨i, hi, rfl⟩ := List.getElem_of_mem hv
    have i2 : i < (simpTermsF64 x L).length := by rw [tL.length_eq]; exact hi
    have a := (List.forall₂_iff_get.1 tL).2 i i2 hi
    have b := (List.forall₂_iff_get.1 fL).2 i i2 (by rw [← fL.length_eq]; exact i2)
    have := (Near.pos he0 he1 b (by norm_num)).1
    have := b.1
    simp only [List.get_eq_getElem] at *
    linarith
  have len : (simpTermsF64 x y).length ≤ x.length / 2 := by
    rw [← tL.length_eq, fL.length_eq, hl]; exact panels_length h L
  have er := R.error (terms_double x y) nn
  have gr := growth (n := (simpTermsF64 x y).length - 1) (by omega)
  have cl : (((simpTermsF64 x y).length - 1 : ℕ) : ℚ) ≤ (x.length : ℚ) / 2 := by
    have : ((simpTermsF64 x y).length - 1) * 2 ≤ x.length := by omega
    have : (((simpTermsF64 x y).length - 1 : ℕ) : ℚ) * 2 ≤ x.length := by exact_mod_cast this
    linarith
  have T0 : 0 ≤ (simpTermsF64 x y).sum := List.sum_nonneg nn
  have er' : |R.sum (simpTermsF64 x y) - (simpTermsF64 x y).sum| ≤ (x.length : ℚ) / 2 / 2 ^ 52 * (simpTermsF64 x y).sum :=
    er.trans (mul_le_mul_of_nonneg_right (gr.trans (by linarith)) T0)
  have nu : (x.length : ℚ) ≤ 2 ^ 40 := by exact_mod_cast hn
  have nu0 : (0 : ℚ) ≤ x.length := by positivity
  have e0 : 0 < e := lt_of_lt_of_le (by positivity) he0
  have pL := nL.1
  have pH := nH.1
  obtain ⟨a1, -⟩ := abs_le.1 nL.2
  obtain ⟨-, a2⟩ := abs_le.1 nH.2
  obtain ⟨b1, b2⟩ := abs_le.1 er'
  generalize hR : R.sum (simpTermsF64 x y) = r at *
  generalize (simpTermsF64 x y).sum = T at *
  generalize (simpTermsF64 x L).sum = TL at *
  generalize (simpTermsF64 x H).sum = TH at *
  generalize (panels h L).sum = OL at *
  generalize (panels h H).sum = OH at *
  set ν := (x.length : ℚ) / 2 / 2 ^ 52 with hν
  have ν0 : 0 ≤ ν := by positivity
  have ν1 : ν ≤ 1 / 2 := by rw [hν, div_div, div_le_iff₀ (by positivity)]; norm_num at nu ⊢; linarith
  have e2 : (x.length : ℚ) / 2 ^ 52 = 2 * ν := by rw [hν]; ring
  rw [e2]
  have e9 : 9 * e ≤ 1 := by norm_num at he1 ⊢; linarith
  refine ⟨?_, ?_, ?_⟩
  · have h1 : (1 - ν) * TL ≤ (1 - ν) * T := mul_le_mul_of_nonneg_left sL (by linarith)
    have h2 : (1 - ν) * ((1 - 9 * e) * OL) ≤ (1 - ν) * TL := mul_le_mul_of_nonneg_left (by linarith) (by linarith)
    have h3 : 0 ≤ ν * (9 * e) * OL := by positivity
    have h4 : 0 ≤ ν * OL := by positivity
    calc OL - (9 * e + 2 * ν) * OL ≤ (1 - ν) * ((1 - 9 * e) * OL) := by linarith
      _ ≤ r := by linarith
  · have h1 : (1 + ν) * T ≤ (1 + ν) * TH := mul_le_mul_of_nonneg_left sH (by linarith)
    have h2 : (1 + ν) * TH ≤ (1 + ν) * ((1 + 9 * e) * OH) := mul_le_mul_of_nonneg_left (by linarith) (by linarith)
    have h3 : ν * (9 * e) * OH ≤ ν * OH := mul_le_mul_of_nonneg_right (mul_le_of_le_one_right ν0 e9) pH
    calc r ≤ (1 + ν) * ((1 + 9 * e) * OH) := by linarith
      _ ≤ _ := by linarith
  · rw [← hR]
    obtain ⟨T', k, hp, hT⟩ := R.spec (simpTermsF64 x y)
    rw [← hT]
    apply SumTree.eval_double
    intro v hv
    rcases List.mem_append.1 (hp.mem_iff.1 hv) with hv | hv
    · exact terms_double x y v hv
    · rw [List.eq_of_mem_replicate hv]; exact isDouble_zero

end

/-- Specification: the exact integral of the densities `y` by Simpson's rule with step `h`. -/
def exactRule (h : ℚ) (y : List ℚ) : ℚ := h * ∑ k ∈ range y.length, simpsonWeight ℚ y.length k * y.getD k 0

theorem forall2_getD {y z : List ℚ} (hf : List.Forall₂ (· ≤ ·) y z) (k : ℕ) : y.getD k 0 ≤ z.getD k 0 := by
  by_cases hk : k < y.length
  · have hk' : k < z.length := by rw [← hf.length_eq]; exact hk
    rw [List.getD_eq_getElem _ _ hk, List.getD_eq_getElem _ _ hk']
    exact (List.forall₂_iff_get.1 hf).2 k hk hk'
  · rw [List.getD_eq_default _ _ (by omega), List.getD_eq_default _ _ (by rw [← hf.length_eq]; omega)]

theorem exactRule_mono {h : ℚ} (h0 : 0 ≤ h) {y z : List ℚ} (hf : List.Forall₂ (· ≤ ·) y z) : exactRule h y ≤ exactRule h z := by
  unfold exactRule
  rw [← hf.length_eq]
  exact mul_le_mul_of_nonneg_left (sum_le_sum fun k _ => mul_le_mul_of_nonneg_left (forall2_getD hf k) (weight_nonneg _ _)) h0

/-- A term of the difference of two integrals. -/
theorem exactRule_term {h : ℚ} (h0 : 0 ≤ h) {y z : List ℚ} (hf : List.Forall₂ (· ≤ ·) y z) {k : ℕ} (hk : k < y.length) :
    h * (simpsonWeight ℚ y.length k * (z.getD k 0 - y.getD k 0)) ≤ exactRule h z - exactRule h y := by
  unfold exactRule
  rw [← hf.length_eq, ← mul_sub, ← sum_sub_distrib]
  refine mul_le_mul_of_nonneg_left ?_ h0
  have := single_le_sum (f := fun k => simpsonWeight ℚ y.length k * z.getD k 0 - simpsonWeight ℚ y.length k * y.getD k 0) (s := range y.length)
    (fun k _ => sub_nonneg.2 (mul_le_mul_of_nonneg_left (forall2_getD hf k) (weight_nonneg _ _))) (mem_range.2 hk)
  rw [mul_sub]
  exact this

theorem weight_le_two (n k : ℕ) : simpsonWeight ℚ n k ≤ 2 := by
  unfold simpsonWeight
  split_ifs <;> norm_num

/-- Densities that differ by at most `d` have integrals that differ by at most `2 n h d`. -/
theorem exactRule_diff {h d : ℚ} (h0 : 0 ≤ h) {y z : List ℚ} (hl : y.length = z.length) (hd : ∀ k < y.length, z.getD k 0 ≤ y.getD k 0 + d) (d0 : 0 ≤ d) :
    exactRule h z - exactRule h y ≤ 2 * (y.length * h) * d := by
  unfold exactRule
  rw [← hl, ← mul_sub, ← sum_sub_distrib]
  have : ∑ k ∈ range y.length, (simpsonWeight ℚ y.length k * z.getD k 0 - simpsonWeight ℚ y.length k * y.getD k 0) ≤ ∑ _k ∈ range y.length, 2 * d := by
    refine sum_le_sum fun k hk => ?_
    rw [← mul_sub]
    have a := hd k (mem_range.1 hk)
    calc simpsonWeight ℚ y.length k * (z.getD k 0 - y.getD k 0) ≤ simpsonWeight ℚ y.length k * d := mul_le_mul_of_nonneg_left (by linarith) (weight_nonneg _ _)
      _ ≤ 2 * d := mul_le_mul_of_nonneg_right (weight_le_two _ _) d0
  rw [sum_const, card_range, nsmul_eq_mul] at this
  calc _ ≤ h * (y.length * (2 * d)) := mul_le_mul_of_nonneg_left this h0
    _ = _ := by ring

theorem forall2_dropLast : ∀ {y z : List ℚ}, List.Forall₂ (· ≤ ·) y z → List.Forall₂ (· ≤ ·) y.dropLast z.dropLast
  | [], [], _ => by simp
  | [_], [_], _ => by simp
  | _ :: _ :: _, [_], hf => by simp at hf
  | [_], _ :: _ :: _, hf => by simp at hf
  | a :: b :: ys, c :: d :: zs, hf => by
    rw [List.forall₂_cons] at hf
    have := forall2_dropLast hf.2
    simp only [List.dropLast_cons_cons]
    exact .cons hf.1 this

section
variable {e : ℚ} (he0 : 1 / 2 ^ 50 ≤ e) (he1 : e ≤ 1 / 2 ^ 20) {h : ℚ} (hlo : 1 / 2 ^ 100 ≤ h) (hhi : h ≤ 2 ^ 100)
include he0 he1 hlo hhi

/-- Simpson's rule in double precision, between two lists of usual densities. -/
theorem simpson_between (R : NpSum) (P : NpPow) {x L y H : List ℚ} (hne : x ≠ []) (hl : x.length = y.length) (hn : x.length ≤ 2 ^ 40)
    (hs : StepsNear e h x) (gL : ∀ v ∈ L, Ge 700 v) (gH : ∀ v ∈ H, Ge 700 v) (mL : List.Forall₂ (· ≤ ·) L y) (mH : List.Forall₂ (· ≤ ·) y H) :
    ∃ v, simpsonF64 R P x y = .ok v ∧ IsDouble v ∧
      exactRule h L - (exactRule h H - exactRule h L) - (11 * e + (x.length : ℚ) / 2 ^ 51) * exactRule h H ≤ v ∧
      v ≤ exactRule h H + (exactRule h H - exactRule h L) + (11 * e + (x.length : ℚ) / 2 ^ 51) * exactRule h H := by
  have h0 : 0 < h := lt_of_lt_of_le (by positivity) hlo
  have e0 : 0 < e := lt_of_lt_of_le (by positivity) he0
  have pos := List.length_pos_iff.2 hne
  have lL : x.length = L.length := by rw [hl, mL.length_eq]
  have lH : x.length = H.length := by rw [hl, mH.length_eq]
  have mLH : List.Forall₂ (· ≤ ·) L H := List.forall₂_iff_get.2 ⟨by omega, fun i h1 h2 => by
    have a := (List.forall₂_iff_get.1 mL).2 i h1 (by omega)
    have b := (List.forall₂_iff_get.1 mH).2 i (by omega) h2
    exact a.trans b⟩
  have QLH := exactRule_mono h0.le mLH
  have gL' : ∀ i, i < x.length → Ge 700 (L.getD i 0) := by
    intro i hi
    rw [List.getD_eq_getElem _ _ (by omega)]
    exact gL _ (List.getElem_mem _)
  have gH' : ∀ i, i < x.length → Ge 700 (H.getD i 0) := by
    intro i hi
    rw [List.getD_eq_getElem _ _ (by omega)]
    exact gH _ (List.getElem_mem _)
  have QL0 : 0 ≤ exactRule h L := mul_nonneg h0.le (sum_nonneg fun k hk => mul_nonneg (weight_nonneg _ _) (gL' k (by have := mem_range.1 hk; omega)).nonneg)
  have N0 : (0 : ℚ) ≤ x.length := by positivity
  have nu : (x.length : ℚ) ≤ 2 ^ 40 := by exact_mod_cast hn
  unfold simpsonF64
  rw [if_neg (by simpa using hl), if_neg hne]
  by_cases ho : x.length % 2 = 1
  · rw [if_pos ho]
    obtain ⟨a, b, c⟩ := odd_between he0 he1 hlo hhi R lL lH hn hs gL gH mL mH
    refine ⟨_, rfl, c, ?_⟩
    have wL : exactRule h L = (panels h L).sum := weights_odd h0 (by omega)
    have wH : exactRule h H = (panels h H).sum := weights_odd h0 (by omega)
    rw [← wL] at a
    rw [← wH] at b
    set ν := (x.length : ℚ) / 2 ^ 52 with hν
    have ν0 : 0 ≤ ν := by positivity
    have e2 : (x.length : ℚ) / 2 ^ 51 = 2 * ν := by rw [hν]; ring
    rw [e2]
    have c1 : (9 * e + ν) * exactRule h L ≤ (11 * e + 2 * ν) * exactRule h H := mul_le_mul (by linarith) QLH QL0 (by positivity)
    have c2 : (9 * e + ν) * exactRule h H ≤ (11 * e + 2 * ν) * exactRule h H := mul_le_mul_of_nonneg_right (by linarith) (QL0.trans QLH)
    constructor <;> linarith
  rw [if_neg ho]
  by_cases h2 : x.length = 2
  · rw [if_pos h2]
    refine ⟨_, rfl, f64_double _, ?_⟩
    obtain ⟨vL, eL, -, rL⟩ := simpson_double R P he0 he1 hlo hhi hne lL hn hs gL
    obtain ⟨vH, eH, -, rH⟩ := simpson_double R P he0 he1 hlo hhi hne lH hn hs gH
    unfold simpsonF64 at eL eH
    rw [if_neg (by simpa using lL), if_neg hne, if_neg ho, if_pos h2] at eL
    rw [if_neg (by simpa using lH), if_neg hne, if_neg ho, if_pos h2] at eH
    have eL' := Except.ok.inj eL
    have eH' := Except.ok.inj eH
    have s := hs 0 (by omega)
    rw [zero_add] at s
    have d0 := (step_range he0 he1 hlo hhi s).1
    have w0 : 0 ≤ f64 (1 / 2 * f64 (x.getD 1 0 - x.getD 0 0)) := f64_nonneg (by linarith)
    have mono : ∀ {p q : List ℚ}, List.Forall₂ (· ≤ ·) p q → f64 (f64 (1 / 2 * f64 (x.getD 1 0 - x.getD 0 0)) * f64 (p.getD 1 0 + p.getD 0 0)) ≤
        f64 (f64 (1 / 2 * f64 (x.getD 1 0 - x.getD 0 0)) * f64 (q.getD 1 0 + q.getD 0 0)) := fun hf =>
      f64_mono (mul_le_mul_of_nonneg_left (f64_mono (add_le_add (forall2_getD hf 1) (forall2_getD hf 0))) w0)
    have m1 := mono mL
    have m2 := mono mH
    rw [eL'] at m1
    rw [eH'] at m2
    rw [← lL] at rL
    rw [← lH] at rH
    have rL' : |vL - exactRule h L| ≤ (11 * e + (x.length : ℚ) / 2 ^ 51) * exactRule h L := by unfold exactRule; rw [← lL]; exact rL
    have rH' : |vH - exactRule h H| ≤ (11 * e + (x.length : ℚ) / 2 ^ 51) * exactRule h H := by unfold exactRule; rw [← lH]; exact rH
    have c1 : (11 * e + (x.length : ℚ) / 2 ^ 51) * exactRule h L ≤ (11 * e + (x.length : ℚ) / 2 ^ 51) * exactRule h H :=
      mul_le_mul_of_nonneg_left QLH (by positivity)
    have := (abs_le.1 rL').1
    have := (abs_le.1 rH').2
    constructor <;> linarith
  rw [if_neg h2]
  refine ⟨_, rfl, f64_double _, ?_⟩
  have ld : ∀ {z : List ℚ}, x.length = z.length → x.dropLast.length = z.dropLast.length := fun h => by simp [h]
  obtain ⟨a1, a2, da⟩ := odd_between he0 he1 hlo hhi R (ld lL) (ld lH) (by rw [List.length_dropLast]; omega) hs.dropLast
    (fun v hv => gL v (List.mem_of_mem_dropLast hv)) (fun v hv => gH v (List.mem_of_mem_dropLast hv)) (forall2_dropLast mL) (forall2_dropLast mH)
  -- the correction for the last interval
  set L' := L.set (x.length - 3) (H.getD (x.length - 3) 0) with hL'
  set H' := H.set (x.length - 3) (L.getD (x.length - 3) 0) with hH'
  have gs : ∀ (z : List ℚ) (w : ℚ), x.length = z.length → (z.set (x.length - 3) w).getD (x.length - 1) 0 = z.getD (x.length - 1) 0 ∧
      (z.set (x.length - 3) w).getD (x.length - 2) 0 = z.getD (x.length - 2) 0 ∧ (z.set (x.length - 3) w).getD (x.length - 3) 0 = w := by
    intro z w hz
    refine ⟨?_, ?_, ?_⟩ <;> rw [List.getD_eq_getElem _ _ (by rw [List.length_set]; omega), List.getElem_set]
    · rw [if_neg (by omega), List.getD_eq_getElem _ _ (by omega)]
    · rw [if_neg (by omega), List.getD_eq_getElem _ _ (by omega)]
    · rw [if_pos rfl]
  obtain ⟨l1, l2, l3⟩ := gs L (H.getD (x.length - 3) 0) lL
  obtain ⟨k1, k2, k3⟩ := gs H (L.getD (x.length - 3) 0) lH
  rw [← hL'] at l1 l2 l3
  rw [← hH'] at k1 k2 k3
  have gmem : ∀ (z : List ℚ) (w : ℚ), (∀ v ∈ z, Ge 700 v) → Ge 700 w → ∀ v ∈ z.set (x.length - 3) w, Ge 700 v := fun z w hz hw v hv =>
    (List.mem_or_eq_of_mem_set hv).elim (hz v) fun h => h ▸ hw
  obtain ⟨b, -⟩ := last_double he0 he1 hlo hhi P (x := x) (y := L') (by omega) (by rw [hL', List.length_set]; exact lL) hs
    (gmem L _ gL (gH' (x.length - 3) (by omega)))
  obtain ⟨c, -⟩ := last_double he0 he1 hlo hhi P (x := x) (y := H') (by omega) (by rw [hH', List.length_set]; exact lH) hs
    (gmem H _ gH (gL' (x.length - 3) (by omega)))
  rw [l1, l2, l3] at b
  rw [k1, k2, k3] at c
  have mb := last_mono he0 he1 hlo hhi P (x := x) (y := L') (z := y) (by omega) hs (by rw [l1]; exact forall2_getD mL _) (by rw [l2]; exact forall2_getD mL _)
    (by rw [l3]; exact forall2_getD mH _)
  have mc := last_mono he0 he1 hlo hhi P (x := x) (y := y) (z := H') (by omega) hs (by rw [k1]; exact forall2_getD mH _) (by rw [k2]; exact forall2_getD mH _)
    (by rw [k3]; exact forall2_getD mL _)
  have dl : IsDouble (simpLastF64 P x y) := by unfold simpLastF64; exact f64_double _
  have er := f64_add_error da dl
  have wL : exactRule h L = (panels h L.dropLast).sum + (h * (5 / 12 * L.getD (x.length - 1) 0 + 2 / 3 * L.getD (x.length - 2) 0) -
      h * (1 / 12 * L.getD (x.length - 3) 0)) := by rw [lL]; exact weights_even h0 (y := L) (by omega) (by omega)
  have wH : exactRule h H = (panels h H.dropLast).sum + (h * (5 / 12 * H.getD (x.length - 1) 0 + 2 / 3 * H.getD (x.length - 2) 0) -
      h * (1 / 12 * H.getD (x.length - 3) 0)) := by rw [lH]; exact weights_even h0 (y := H) (by omega) (by omega)
  have w54 : simpsonWeight ℚ x.length (x.length - 3) = 5 / 4 := by
    unfold simpsonWeight
    rw [if_neg (by omega), if_neg (by omega), if_neg (by omega), if_neg (by omega), if_pos (by omega)]
  have sd := exactRule_term h0.le mLH (k := x.length - 3) (by omega)
  rw [← lL, w54, mul_sub (5 / 4 : ℚ), mul_sub h] at sd
  have sH : h * (5 / 4 * H.getD (x.length - 3) 0) ≤ exactRule h H := by
    unfold exactRule
    rw [← lH]
    refine mul_le_mul_of_nonneg_left ?_ h0.le
    have := single_le_sum (f := fun k => simpsonWeight ℚ x.length k * H.getD k 0) (s := range x.length)
      (fun k hk => mul_nonneg (weight_nonneg _ _) (gH' k (mem_range.1 hk)).nonneg) (mem_range.2 (by omega : x.length - 3 < x.length))
    simp only [w54] at this
    exact this
  have z0 := mul_nonneg h0.le (gL' (x.length - 3) (by omega)).nonneg
  have z0' := mul_le_mul_of_nonneg_left (forall2_getD mLH (x.length - 3)) h0.le
  have z1 := mul_nonneg h0.le (gL' (x.length - 2) (by omega)).nonneg
  have z2 := mul_nonneg h0.le (gL' (x.length - 1) (by omega)).nonneg
  have z1' := mul_nonneg h0.le (gH' (x.length - 2) (by omega)).nonneg
  have z2' := mul_nonneg h0.le (gH' (x.length - 1) (by omega)).nonneg
  have OL0 : 0 ≤ (panels h L.dropLast).sum := List.sum_nonneg (panels_nonneg h0.le fun v hv => (gL v (List.mem_of_mem_dropLast hv)).nonneg)
  have OH0 : 0 ≤ (panels h H.dropLast).sum := List.sum_nonneg (panels_nonneg h0.le fun v hv => (gH v (List.mem_of_mem_dropLast hv)).nonneg)
  have dN : (x.dropLast.length : ℚ) ≤ x.length := by
    have : x.dropLast.length ≤ x.length := by rw [List.length_dropLast]; omega
    exact_mod_cast this
  have dN0 : (0 : ℚ) ≤ x.dropLast.length := by positivity
  set ν := (x.length : ℚ) / 2 ^ 52 with hν
  have ν0 : 0 ≤ ν := by positivity
  have ν1 : ν ≤ 1 / 2 ^ 12 := by rw [hν, div_le_iff₀ (by positivity)]; norm_num at nu ⊢; linarith
  have νd : (x.dropLast.length : ℚ) / 2 ^ 52 ≤ ν := div_le_div_of_nonneg_right dN (by positivity)
  have e2 : (x.length : ℚ) / 2 ^ 51 = 2 * ν := by rw [hν]; ring
  rw [e2]
  have a1' := mul_le_mul_of_nonneg_right (show 9 * e + (x.dropLast.length : ℚ) / 2 ^ 52 ≤ 9 * e + ν by linarith) OL0
  have a2' := mul_le_mul_of_nonneg_right (show 9 * e + (x.dropLast.length : ℚ) / 2 ^ 52 ≤ 9 * e + ν by linarith) OH0
  have b1 := (abs_le.1 b).1
  have c2 := (abs_le.1 c).2
  clear b c
  generalize hu : R.sum (simpTermsF64 x.dropLast y.dropLast) = u at *
  generalize simpLastF64 P x y = l at *
  generalize simpLastF64 P x L' = lL' at *
  generalize simpLastF64 P x H' = lH' at *
  generalize exactRule h L = QL at *
  generalize exactRule h H = QH at *
  generalize (panels h L.dropLast).sum = OL at *
  generalize (panels h H.dropLast).sum = OH at *
  have eS : ∀ p q : ℚ, h * (5 / 12 * p + 2 / 3 * q) = 5 / 12 * (h * p) + 2 / 3 * (h * q) := fun p q => by ring
  have eT : ∀ p : ℚ, h * (1 / 12 * p) = 1 / 12 * (h * p) := fun p => by ring
  have eU : ∀ p : ℚ, h * (5 / 4 * p) = 5 / 4 * (h * p) := fun p => by ring
  simp only [eS, eT, eU] at *
  generalize h * L.getD (x.length - 1) 0 = L1 at *
  generalize h * L.getD (x.length - 2) 0 = L2 at *
  generalize h * L.getD (x.length - 3) 0 = L3 at *
  generalize h * H.getD (x.length - 1) 0 = H1 at *
  generalize h * H.getD (x.length - 2) 0 = H2 at *
  generalize h * H.getD (x.length - 3) 0 = H3 at *
  have QH0 : 0 ≤ QH := QL0.trans QLH
  have p1 : 9 * e * (5 / 12 * L1 + 2 / 3 * L2 + 1 / 12 * H3) ≤ (9 * e + ν) * (5 / 12 * L1 + 2 / 3 * L2 + 1 / 12 * H3) :=
    mul_le_mul_of_nonneg_right (by linarith) (by linarith)
  have p2 : 9 * e * (5 / 12 * H1 + 2 / 3 * H2 + 1 / 12 * L3) ≤ (9 * e + ν) * (5 / 12 * H1 + 2 / 3 * H2 + 1 / 12 * L3) :=
    mul_le_mul_of_nonneg_right (by linarith) (by linarith)
  have q1 : (9 * e + ν) * (OL + (5 / 12 * L1 + 2 / 3 * L2 + 1 / 12 * H3)) ≤ (9 * e + ν) * (17 / 15 * QH) :=
    mul_le_mul_of_nonneg_left (by linarith) (by linarith)
  have q2 : (9 * e + ν) * (OH + (5 / 12 * H1 + 2 / 3 * H2 + 1 / 12 * L3)) ≤ (9 * e + ν) * (17 / 15 * QH) :=
    mul_le_mul_of_nonneg_left (by linarith) (by linarith)
  have up : u + l ≤ QH + 1 / 15 * (QH - QL) + (9 * e + ν) * (17 / 15 * QH) := by linarith
  have dn : QL - 1 / 15 * (QH - QL) - (9 * e + ν) * (17 / 15 * QH) ≤ u + l := by linarith
  have small : (9 * e + ν) * (17 / 15 * QH) ≤ 1 / 2 * QH := by
    have : (9 * e + ν) * (17 / 15) ≤ 1 / 2 := by norm_num at he1 ν1 ⊢; linarith
    calc _ = (9 * e + ν) * (17 / 15) * QH := by ring
      _ ≤ _ := mul_le_mul_of_nonneg_right this QH0
  have ab : |u + l| ≤ 2 * QH := by rw [abs_le]; constructor <;> linarith
  have r : |u + l| / 2 ^ 53 ≤ 1 / 4 * e * QH := by
    have : 1 / 2 ^ 52 * QH ≤ 1 / 4 * e * QH := mul_le_mul_of_nonneg_right (by norm_num at he0 ⊢; linarith) QH0
    norm_num at this ⊢
    linarith
  have t := abs_le.1 (er.trans r)
  have z : 0 ≤ e * QH := mul_nonneg e0.le QH0
  have z' : 0 ≤ ν * QH := mul_nonneg ν0 QH0
  have x1 : (9 * e + ν) * (17 / 15 * QH) = 51 / 5 * (e * QH) + 17 / 15 * (ν * QH) := by ring
  have x2 : (11 * e + 2 * ν) * QH = 11 * (e * QH) + 2 * (ν * QH) := by ring
  have x3 : 1 / 4 * e * QH = 1 / 4 * (e * QH) := by ring
  rw [x1] at up dn
  rw [x2]
  rw [x3] at t
  constructor <;> linarith [t.1, t.2]

end

end Verif
