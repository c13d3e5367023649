import Verif.Props.SpectrumValues

/-! # C97: density arrays of any shape -/

set_option linter.unusedSectionVars false

namespace Verif

/-- The array as it is stored: a 2D array of one column is flattened, every other array is kept as it is. -/
def storedShape (shape : List Nat) : List Nat :=
  match shape with
  | [n, 1] => [n]
  | s => s

/-- **C97 (constructor).**  For a non-empty density array of any shape and a 1D axis, `Spectrum(f, S)` succeeds exactly when the axis passes the
uniformity check and `S` is a 1D or 2D array with as many rows as the axis has entries; the object then holds exactly the axis and the array (a single
column is flattened). -/
theorem spectrum_init_any_shape {pf : PyIn ℝ} {f : List ℝ} (hf : pf.IsArr f) {shape : List Nat} {data : List ℝ} (hwf : data.length = shape.prod)
    (hne : data ≠ []) {s : SpecObj} :
    SpecObj.init pf (.nd ⟨shape, data⟩) = .ok s ↔
      monotonicIncreasingConstantStep f = .ok true ∧ (shape = [f.length] ∨ ∃ m, shape = [f.length, m]) ∧
        s = { f := f, sVarDens := ⟨storedShape shape, data⟩, nf := f.length } := by
  obtain ⟨a, b⟩ := toVector_of_isArr hf
  have h0 : (⟨shape, data⟩ : Arr ℝ).size ≠ 0 := by
    unfold Arr.size
    dsimp only
    rw [← hwf]
    exact fun h => hne (List.length_eq_zero_iff.1 h)
  have hS : toVector (.nd ⟨shape, data⟩) = ((⟨storedShape shape, data⟩ : Arr ℝ), size2 ⟨shape, data⟩) := by
    unfold toVector toArr storedShape
    dsimp only
    rcases shape with _ | ⟨n, _ | ⟨m, _ | ⟨k, l⟩⟩⟩
    · simp [size2, h0]
    · simp [size2, h0]
    · by_cases hm : m = 1
      · subst hm
        simp [size2, h0, hwf]
      · simp only [size2, if_pos h0, if_neg hm]
        congr 1
        congr 1
        split
        · rename_i heq; simp only [List.cons.injEq, and_true] at heq; exact absurd heq.2 hm
        · rfl
    · simp [size2, h0]
  have hsz : (size2 (⟨shape, data⟩ : Arr ℝ)).1 = f.length ∧ 2 ≤ f.length ↔ (shape = [f.length] ∨ ∃ m, shape = [f.length, m]) ∧ 2 ≤ f.length := by
    refine and_congr_left fun h2 => ?_
    unfold size2
    rw [if_pos h0]
    rcases shape with _ | ⟨n, _ | ⟨m, _ | ⟨k, l⟩⟩⟩ <;> simp
    all_goals omega
  rw [show SpecObj.init pf (.nd ⟨shape, data⟩) = _ from rfl, SpecObj.init, hS]
  rcases hv : toVector pf with ⟨fa, n1, n2⟩
  rw [hv] at a b
  dsimp only at a b ⊢
  subst a b
  dsimp only
  cases hm : monotonicIncreasingConstantStep f with
  | error e => simp
  | ok r =>
    cases r with
    | false => simp
    | true =>
      have h2 := mono_two_le hm
      have hsz' := (and_congr_left_iff.1 hsz) h2
      simp only [Bool.true_eq_false, if_false, true_and]
      by_cases hc : (size2 (⟨shape, data⟩ : Arr ℝ)).1 = f.length
      · rw [if_neg (by rw [hc]; simp)]
        rw [Except.ok.injEq]
        refine ⟨fun h => ⟨hsz'.1 hc, h.symm⟩, fun h => h.2.symm⟩
      · rw [if_pos (by intro h; exact hc h.symm)]
        constructor
        · intro h; cases h
        · rintro ⟨h, -⟩; exact absurd (hsz'.2 h) hc

/-- **C97 (getters).**  For a `Spectrum` with a density array of two or more columns all moment-based getters raise `ValueError`, after any calls. -/
theorem several_columns_raise {pf : PyIn ℝ} {f : List ℝ} (hf : pf.IsArr f) {m : Nat} (hm : 2 ≤ m) {data : List ℝ} (hwf : data.length = f.length * m)
    (hne : data ≠ []) {s : SpecObj} (hs : SpecObj.init pf (.nd ⟨[f.length, m], data⟩) = .ok s) (hist : List SpecOp) (fmin : ℝ) (fmax : FMax ℝ) :
    let err : Except PyErr ℝ := .error (.valueError "compute_moment: Input error: input should be 1d arrays")
    ((s.after hist).getHm0 fmin fmax).1 = err ∧ ((s.after hist).getTmm10 fmin fmax).1 = err ∧ ((s.after hist).getTm01 fmin fmax).1 = err ∧
      ((s.after hist).getTm02 fmin fmax).1 = err := by
  intro err
  have hprod : [f.length, m].prod = f.length * m := by simp
  obtain ⟨hmono, -, rfl⟩ := (spectrum_init_any_shape hf (by rw [hprod]; exact hwf) hne).1 hs
  obtain ⟨d, d'⟩ := spectrum_after_data { f := f, sVarDens := ⟨storedShape [f.length, m], data⟩, nf := f.length } hist
  have hst : storedShape [f.length, m] = [f.length, m] := by
    unfold storedShape
    split
    · rename_i heq; simp only [List.cons.injEq, and_true] at heq; omega
    · rfl
  have key : ∀ (k : Int) (lo : ℝ) (hi : FMax ℝ), computeMoment (vec f) (.nd ⟨[f.length, m], data⟩) k lo hi = err := by
    intro k lo hi
    unfold computeMoment
    rw [vecIn_of_isArr (isArr_vec f)]
    have : vecIn "compute_moment" (.nd (⟨[f.length, m], data⟩ : Arr ℝ)) = .error (.valueError "compute_moment: Input error: input should be 1d arrays") := by
      have hsz : size2 (⟨[f.length, m], data⟩ : Arr ℝ) = (f.length, m) := by
        unfold size2 Arr.size
        rw [if_pos (by rw [hprod, ← hwf]; exact fun h => hne (List.length_eq_zero_iff.1 h))]
      unfold vecIn toVector toArr
      dsimp only
      have hm1 : ¬ m = 1 := by omega
      have hm2 : 1 < m := by omega
      rw [hsz]
      simp only [if_neg hm1, if_pos hm2]
      rfl
    rw [this]
    rfl
  dsimp only at d d'
  rw [hst] at d d' ⊢
  simp only [SpecObj.getHm0, SpecObj.getTmm10, SpecObj.getTm01, SpecObj.getTm02, d, d', calcHm0, calcTmm10, calcTm01, calcTm02, key]
  exact ⟨rfl, rfl, rfl, rfl⟩

/-- Non-vacuity: two columns on two frequencies. -/
example : ∃ s, SpecObj.init (vec [0, 1]) (.nd ⟨[2, 2], [1, 2, 3, 4]⟩) = .ok s ∧ s.sVarDens = ⟨[2, 2], [1, 2, 3, 4]⟩ ∧
    ((s.after [.getTm01 0 .inf]).getHm0 (-1) (.fin (-1))).1 = .error (.valueError "compute_moment: Input error: input should be 1d arrays") := by
  have hs := (spectrum_init_any_shape (isArr_vec [0, 1]) (shape := [2, 2]) (data := [1, 2, 3, 4]) (by simp) (by simp)).2
    ⟨by norm_num [monotonicIncreasingConstantStep, diff, stepTol], Or.inr ⟨2, rfl⟩, rfl⟩
  exact ⟨_, hs, rfl, (several_columns_raise (isArr_vec [0, 1]) (le_refl 2) (by simp) (by simp) hs [.getTm01 0 .inf] _ _).1⟩

end Verif
