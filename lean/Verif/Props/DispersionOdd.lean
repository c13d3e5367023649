import Verif.Props.Dispersion

/-! # `disper` for every depth and every gravity

`disper` has no check of its arguments.  Here is what it does outside the physical range, completing C64 and C65. -/

namespace Verif

/-- The sign of a number, as 1, 0 or −1. -/
def IsSign (w s : ℝ) : Prop := (0 < w ∧ s = 1) ∨ (w = 0 ∧ s = 0) ∨ (w < 0 ∧ s = -1)

theorem isSign_sign (w : ℝ) : IsSign w (SignType.sign w : ℝ) := by
  rcases lt_trichotomy w 0 with h | h | h
  · exact Or.inr (Or.inr ⟨h, by rw [sign_neg h]; simp⟩)
  · exact Or.inr (Or.inl ⟨h, by subst h; simp⟩)
  · exact Or.inl ⟨h, by rw [sign_pos h]; simp⟩

/-- Both branches for a non-positive or infinite depth fail, whatever the gravity. -/
theorem disper_no_depth (ws : List ℝ) (g : ℝ) :
    disper (.list ws) .inf g = .error (.unboundLocalError "q") ∧
      ∀ h : ℝ, h < 0 → disper (.list ws) (.fin h) g = .error (.unboundLocalError "q") := by
  constructor
  · rfl
  · intro h hh
    unfold disper
    simp only [toArr]
    rw [if_pos hh]

/-- **C169.**  Gravity zero: no error, and every wave number is zero. -/
theorem disper_no_gravity (ws : List ℝ) {h : ℝ} (hh : 0 ≤ h) :
    ∃ ks, disper (.list ws) (.fin h) 0 = .ok ks ∧ ks.length = ws.length ∧ ∀ k ∈ ks, k = 0 := by
  refine ⟨ws.map fun _ => 0, ?_, by simp, fun k hk => by
    obtain ⟨_, _, e⟩ := List.mem_map.1 hk
    exact e.symm⟩
  unfold disper
  simp only [toArr]
  unfold disperFinite
  rw [if_neg (by linarith), if_pos rfl]

/-- **C169.**  Depth zero: wave numbers are infinite as soon as one frequency is not zero, and zero otherwise. -/
theorem disper_no_water (ws : List ℝ) {g : ℝ} (hg : g ≠ 0) :
    ((∃ w ∈ ws, w ≠ 0) → disper (.list ws) (.fin 0) g = .error .nonFinite) ∧
      ((∀ w ∈ ws, w = 0) → disper (.list ws) (.fin 0) g = .ok ws) := by
  unfold disper
  simp only [toArr]
  unfold disperFinite
  rw [if_neg (lt_irrefl _), if_neg hg, if_pos rfl]
  constructor
  · intro h
    rw [if_pos h]
  · intro h
    rw [if_neg (by rintro ⟨w, hw, hne⟩; exact hne (h w hw))]
    congr 1
    conv_rhs => rw [← List.map_id ws]
    exact List.map_congr_left fun w hw => by rw [h w hw]; rfl

/-- **C169.**  Negative gravity: there is one positive number `q0` such that for every positive depth `h` and every list of frequencies each
wave number is the sign of its frequency times `q0 / h` — independent of the size of the frequency and of the gravity. -/
theorem disper_negative_gravity :
    ∃ q0 : ℝ, 0 < q0 ∧ |q0 * Real.tanh q0 - 1 / 10 ^ 8| ≤ 1 / 10 ^ 21 ∧ ∀ (ws : List ℝ) (h g : ℝ), 0 < h → g < 0 →
      ∃ ks, disper (.list ws) (.fin h) g = .ok ks ∧ ks.length = ws.length ∧
        ∀ i, i < ws.length → ∃ s, IsSign (ws.getD i 0) s ∧ ks.getD i 0 = s * (q0 / h) := by
  obtain ⟨q', hq', h1, h2⟩ := disp_two_rounds (y := 1 / 10 ^ 8) (by norm_num)
  refine ⟨q', h1, ?_, fun ws h g hh hg => ?_⟩
  · rw [min_eq_left (by norm_num)] at h2
    refine h2.trans (by norm_num)
  have hel : ∀ w, disperElem w h g = (SignType.sign w : ℝ) * (q' / h) := by
    intro w
    have e : dispW2 w h g = 1 / 10 ^ 8 := by
      unfold dispW2
      dsimp only
      rw [if_pos (lt_of_le_of_lt (div_nonpos_of_nonneg_of_nonpos (by positivity) hg.le) (by norm_num))]
    unfold disperElem
    dsimp only
    rw [e, hq']
    simp only []
    ring
  refine ⟨ws.map fun w => disperElem w h g, ?_, by simp, fun i hi => ⟨_, isSign_sign (ws.getD i 0), ?_⟩⟩
  · unfold disper
    simp only [toArr]
    unfold disperFinite
    rw [if_neg (by linarith), if_neg hg.ne, if_neg hh.ne']
  · rw [List.getD_eq_getElem _ _ (by simpa using hi), List.getElem_map, List.getD_eq_getElem _ _ hi]
    exact hel _

theorem tanh_nonneg' {x : ℝ} (hx : 0 ≤ x) : 0 ≤ Real.tanh x := by
  rcases hx.eq_or_lt with h | h
  · rw [← h, Real.tanh_zero]
  · exact (tanh_pos' h).le

/-- **C169.**  So no argument outside `0 < h < ∞`, `0 < g` gives a wave number that solves the dispersion relation at a non-zero frequency:
whenever a value is returned there, it is not a solution. -/
theorem disper_unphysical {w h g : ℝ} (hw : w ≠ 0) (hbad : h ≤ 0 ∨ g ≤ 0) {k : ℝ} (hk : disper (.list [w]) (.fin h) g = .ok [k]) :
    ¬ SolvesDispersion w h g k := by
  have hw2 : 0 < w ^ 2 := by positivity
  intro hs
  unfold SolvesDispersion at hs
  rcases lt_trichotomy h 0 with hh | hh | hh
  · rw [(disper_no_depth [w] g).2 h hh] at hk
    cases hk
  · subst hh
    rw [mul_zero, Real.tanh_zero, mul_zero] at hs
    exact hw2.ne' hs
  · rcases lt_trichotomy g 0 with hg | hg | hg
    · have : 0 ≤ k * Real.tanh (k * h) := by
        rcases le_total 0 k with h0 | h0
        · exact mul_nonneg h0 (tanh_nonneg' (mul_nonneg h0 hh.le))
        · have : 0 ≤ Real.tanh (-(k * h)) := tanh_nonneg' (by nlinarith)
          rw [Real.tanh_neg] at this
          exact mul_nonneg_of_nonpos_of_nonpos h0 (by linarith)
      rw [mul_assoc] at hs
      nlinarith
    · subst hg
      rw [zero_mul, zero_mul] at hs
      exact hw2.ne' hs
    · rcases hbad with h1 | h1 <;> linarith

example : ∃ ks, disper (.list [1, -2, 0]) (.fin 10) 0 = .ok ks ∧ ks.length = 3 ∧ ∀ k ∈ ks, k = 0 :=
  disper_no_gravity _ (by norm_num)
example : disper (.list [0, 1]) (.fin 0) (981 / 100) = .error .nonFinite :=
  (disper_no_water _ (by norm_num)).1 ⟨1, by simp, by norm_num⟩
example : disper (.list [0, 0]) (.fin 0) (981 / 100) = .ok [0, 0] := (disper_no_water _ (by norm_num)).2 (by simp)
example : disper (.list [1]) (.fin (-10)) (-1) = .error (.unboundLocalError "q") := (disper_no_depth _ _).2 _ (by norm_num)
/-- Negative gravity, two frequencies: the wave numbers are the same although the frequencies differ by a factor of seven. -/
example : ∃ k : ℝ, 0 < k ∧ disper (.list [1, 7]) (.fin 10) (-981 / 100) = .ok [k, k] := by
  obtain ⟨q, hq, -, h⟩ := disper_negative_gravity
  obtain ⟨ks, h1, h2, h3⟩ := h [1, 7] 10 (-981 / 100) (by norm_num) (by norm_num)
  have hs : ∀ w s : ℝ, 0 < w → IsSign w s → s = 1 := by
    rintro w s hw (⟨-, e⟩ | ⟨e, -⟩ | ⟨e, -⟩)
    · exact e
    · linarith
    · linarith
  refine ⟨q / 10, by positivity, ?_⟩
  obtain ⟨s0, a0, b0⟩ := h3 0 (by simp)
  obtain ⟨s1, a1, b1⟩ := h3 1 (by simp)
  rw [hs _ _ (by norm_num) a0, one_mul] at b0
  rw [hs _ _ (by norm_num) a1, one_mul] at b1
  rw [h1]
  match ks, h2, b0, b1 with
  | [x, y], _, b0, b1 =>
    have e0 : x = q / 10 := b0
    have e1 : y = q / 10 := b1
    rw [e0, e1]
example (k : ℝ) (hk : disper (.list [1]) (.fin 10) (-1) = .ok [k]) : ¬ SolvesDispersion 1 10 (-1) k :=
  disper_unphysical one_ne_zero (Or.inr (by norm_num)) hk

end Verif
