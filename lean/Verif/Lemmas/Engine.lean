import Verif.Model.Engine
import Mathlib.Tactic.Ring
import Mathlib.Tactic.Linarith
import Mathlib.Tactic.FieldSimp
import Mathlib.Tactic.NormNum
import Mathlib.Tactic.Positivity

/-! # Helper lemmas on inputs and numpy primitives -/

namespace Verif

/-- `p` is an input that denotes the 1D array `xs` (a scalar denotes a one-element array). -/
inductive PyIn.IsVec {α : Type} : PyIn α → List α → Prop
  | num (x : α) : PyIn.IsVec (.num x) [x]
  | list (xs : List α) : PyIn.IsVec (.list xs) xs
  | nd (xs : List α) : PyIn.IsVec (.nd ⟨[xs.length], xs⟩) xs

theorem isVec_vec {α : Type} (xs : List α) : (vec xs).IsVec xs := .nd xs

theorem toArr_of_isVec {α : Type} {p : PyIn α} {xs : List α} (h : p.IsVec xs) :
    toArr p = ⟨[xs.length], xs⟩ := by
  cases h <;> rfl

theorem isOneD_vec {α : Type} (xs : List α) : isOneD (⟨[xs.length], xs⟩ : Arr α) = !xs.isEmpty := by
  cases xs <;> simp [isOneD, size2, Arr.size]

theorem isOneD_iff {α : Type} {p : PyIn α} (hp : p.WF) :
    isOneD (toArr p) = true ↔ ∃ xs, xs ≠ [] ∧ p.IsVec xs := by
  constructor
  · intro h
    cases p with
    | num x => exact ⟨[x], by simp, .num x⟩
    | list xs =>
      refine ⟨xs, ?_, .list xs⟩
      rintro rfl
      simp [toArr, isOneD, size2, Arr.size] at h
    | nd a =>
      obtain ⟨sh, d⟩ := a
      simp only [PyIn.WF, Arr.WF] at hp
      change isOneD (⟨sh, d⟩ : Arr α) = true at h
      rcases sh with _ | ⟨n, _ | ⟨m, _ | ⟨k, l⟩⟩⟩
      · simp [isOneD, size2, Arr.size] at h
      · simp at hp
        subst hp
        refine ⟨d, ?_, .nd d⟩
        rintro rfl
        simp [isOneD, size2, Arr.size] at h
      · simp only [isOneD, size2, Arr.size] at h
        by_cases h0 : n = 0 <;> by_cases h1 : m = 0 <;> simp_all
      · simp only [isOneD, size2, Arr.size] at h
        split_ifs at h <;> simp at h
  · rintro ⟨xs, hne, hv⟩
    rw [toArr_of_isVec hv, isOneD_vec]
    cases xs <;> simp_all

end Verif
