import Verif.Lemmas.Periods
import Verif.Model.SpectrumObj

/-! # C44–C46, C55–C57: the `Spectrum` object -/

set_option linter.unusedSectionVars false

namespace Verif
open Finset

/-! ## C57: the constructor -/

theorem toVector_of_isArr {α : Type} {p : PyIn α} {xs : List α} (h : p.IsArr xs) :
    (toVector p).1 = ⟨[xs.length], xs⟩ ∧ (toVector p).2.1 = xs.length := by
  cases h with
  | num x => simp [toVector, toArr, size2, Arr.size]
  | list xs => simp only [toVector, toArr, size2, Arr.size]; split_ifs <;> simp_all
  | nd xs => simp only [toVector, toArr, size2, Arr.size]; split_ifs <;> simp_all
  | col xs h => simp only [toVector, toArr, size2, Arr.size]; split_ifs <;> simp_all

/-- **C57 (accepted inputs).**  For 1D (or single-column) inputs the constructor succeeds exactly when the axis passes the
uniformity check and the lengths agree; it then stores exactly the two arrays, `nf = len(f)` and no cached results. -/
theorem spectrum_init_iff_partial {pf pS : PyIn ℝ} {f S : List ℝ} (hf : pf.IsArr f) (hS : pS.IsArr S) {s : SpecObj} :
    SpecObj.init pf pS = .ok s ↔
      monotonicIncreasingConstantStep f = .ok true ∧ f.length = S.length ∧ s = { f := f, sVarDens := ⟨[S.length], S⟩, nf := f.length } := by
  obtain ⟨a, b⟩ := toVector_of_isArr hf
  obtain ⟨c, d⟩ := toVector_of_isArr hS
  rw [show SpecObj.init pf pS = _ from rfl, SpecObj.init]
  rcases hv : toVector pf with ⟨fa, n1, n2⟩
  rcases hw : toVector pS with ⟨Sa, m1, m2⟩
  rw [hv] at a b
  rw [hw] at c d
  dsimp only at a b c d ⊢
  subst a b c d
  dsimp only
  cases hm : monotonicIncreasingConstantStep f with
  | error e => simp
  | ok b =>
    cases b with
    | false => simp
    | true =>
      simp only [Bool.true_eq_false, if_false, true_and]
      by_cases hl : f.length = S.length
      · rw [if_neg (by simpa using hl)]
        simp only [Except.ok.injEq, hl, true_and, Arr.len, List.headD_cons]
        exact eq_comm
      · rw [if_pos hl]; simp [hl]

/-- **C57 (what acceptance guarantees).**  The stored axis has at least two strictly increasing entries and as many
densities. -/
theorem spectrum_init_sound {pf pS : PyIn ℝ} {f S : List ℝ} (hf : pf.IsArr f) (hS : pS.IsArr S) {s : SpecObj}
    (h : SpecObj.init pf pS = .ok s) :
    s.f = f ∧ s.sVarDens.data = S ∧ s.nf = f.length ∧ 2 ≤ f.length ∧ f.length = S.length ∧ f.Pairwise (· < ·) := by
  obtain ⟨hm, hl, rfl⟩ := (spectrum_init_iff_partial hf hS).1 h
  exact ⟨rfl, rfl, rfl, mono_two_le hm, hl, uniform_check_increasing hm⟩

/-- **C57 (rejections).**  An axis with fewer than two or with non-increasing entries raises, and so does a length mismatch. -/
theorem spectrum_init_rejects {pf pS : PyIn ℝ} {f S : List ℝ} (hf : pf.IsArr f) (hS : pS.IsArr S)
    (hbad : f.length < 2 ∨ ¬ f.Pairwise (· < ·) ∨ f.length ≠ S.length) :
    ∃ e, SpecObj.init pf pS = .error e ∧ e ≠ .unmodelled := by
  cases h : SpecObj.init pf pS with
  | ok s =>
    obtain ⟨-, -, -, a, b, c⟩ := spectrum_init_sound hf hS h
    rcases hbad with h | h | h
    · omega
    · exact absurd c h
    · exact absurd b h
  | error e =>
    refine ⟨e, rfl, ?_⟩
    rintro rfl
    obtain ⟨a, b⟩ := toVector_of_isArr hf
    rw [SpecObj.init] at h
    rcases hv : toVector pf with ⟨fa, n1, n2⟩
    rcases hw : toVector pS with ⟨Sa, m1, m2⟩
    rw [hv] at a h
    rw [hw] at h
    dsimp only at a h
    subst a
    dsimp only at h
    cases hm : monotonicIncreasingConstantStep f with
    | error e =>
      rw [hm] at h
      dsimp only at h
      unfold monotonicIncreasingConstantStep at hm
      split at hm
      · rw [← Except.error.inj hm] at h
        simp at h
      · simp at hm
    | ok b =>
      rw [hm] at h
      dsimp only at h
      split_ifs at h <;> simp at h

/-- **C57 (finding).**  The densities need not have as many entries as the axis: a two-column array with the right number
of rows is accepted. -/
theorem spectrum_init_accepts_two_columns : ∃ s, SpecObj.init (vec [0, 1]) (.nd ⟨[2, 2], [1, 2, 3, 4]⟩) = .ok s ∧
    s.f.length = 2 ∧ s.sVarDens.data.length = 4 := by
  refine ⟨{ f := [0, 1], sVarDens := ⟨[2, 2], [1, 2, 3, 4]⟩, nf := 2 }, ?_, rfl, rfl⟩
  simp [SpecObj.init, toVector, toArr, size2, Arr.size, vec, monotonicIncreasingConstantStep, diff, Arr.len, stepTol]

/-! ## C55: histories -/

theorem cutoff_data (s : SpecObj) : s.cutoff.2.f = s.f ∧ s.cutoff.2.sVarDens = s.sVarDens := by
  unfold SpecObj.cutoff SpecObj.getTmm10
  cases s.Tmm10 with
  | some c => dsimp only; split <;> (try split_ifs) <;> exact ⟨rfl, rfl⟩
  | none => dsimp only; split <;> (try split_ifs) <;> exact ⟨rfl, rfl⟩

theorem ensure_data {c : Cache} {r : Except PyErr ℝ × SpecObj} {s : SpecObj} (h : r.2.f = s.f ∧ r.2.sVarDens = s.sVarDens) :
    (ensure c r s).2.f = s.f ∧ (ensure c r s).2.sVarDens = s.sVarDens := by
  unfold ensure
  cases c with
  | some _ => exact ⟨rfl, rfl⟩
  | none =>
    obtain ⟨a, b⟩ := r
    cases a with
    | ok v => exact h
    | error e => cases e <;> exact h

theorem getHm0HF_data (s : SpecObj) (a : ℝ) (b : FMax ℝ) : (s.getHm0HF a b).2.f = s.f ∧ (s.getHm0HF a b).2.sVarDens = s.sVarDens := by
  have hc := cutoff_data s
  unfold SpecObj.getHm0HF
  split_ifs
  · rcases hh : s.cutoff with ⟨_ | _, s'⟩ <;> rw [hh] at hc <;> exact hc
  · exact ⟨rfl, rfl⟩

theorem getHm0LF_data (s : SpecObj) (a : ℝ) (b : FMax ℝ) : (s.getHm0LF a b).2.f = s.f ∧ (s.getHm0LF a b).2.sVarDens = s.sVarDens := by
  have hc := cutoff_data s
  unfold SpecObj.getHm0LF
  split_ifs
  · rcases hh : s.cutoff with ⟨_ | _, s'⟩ <;> rw [hh] at hc <;> exact hc
  · exact ⟨rfl, rfl⟩

theorem getTmm10HF_data (s : SpecObj) (a : ℝ) (b : FMax ℝ) : (s.getTmm10HF a b).2.f = s.f ∧ (s.getTmm10HF a b).2.sVarDens = s.sVarDens := by
  have hc := cutoff_data s
  unfold SpecObj.getTmm10HF
  split_ifs
  · rcases hh : s.cutoff with ⟨_ | _, s'⟩ <;> rw [hh] at hc <;> exact hc
  · exact ⟨rfl, rfl⟩

theorem getTmm10LF_data (s : SpecObj) (a : ℝ) (b : FMax ℝ) : (s.getTmm10LF a b).2.f = s.f ∧ (s.getTmm10LF a b).2.sVarDens = s.sVarDens := by
  have hc := cutoff_data s
  unfold SpecObj.getTmm10LF
  split_ifs
  · rcases hh : s.cutoff with ⟨_ | _, s'⟩ <;> rw [hh] at hc <;> exact hc
  · exact ⟨rfl, rfl⟩

theorem getS0p_data (s : SpecObj) (a : ℝ) (b : FMax ℝ) (g : ℝ) :
    (s.getS0p a b g).2.f = s.f ∧ (s.getS0p a b g).2.sVarDens = s.sVarDens := by
  have h1 := ensure_data (c := s.Hm0) (r := s.getHm0 a b) (s := s) ⟨rfl, rfl⟩
  unfold SpecObj.getS0p
  rcases e1 : ensure s.Hm0 (s.getHm0 a b) s with ⟨_ | _, s1⟩
  · rw [e1] at h1; exact h1
  · rw [e1] at h1
    have h2 := ensure_data (c := s1.Tps) (r := s1.getTps a b) (s := s1) ⟨rfl, rfl⟩
    dsimp only at h1 ⊢
    rcases e2 : ensure s1.Tps (s1.getTps a b) s1 with ⟨_ | _, s2⟩ <;> rw [e2] at h2
    · exact ⟨h2.1.trans h1.1, h2.2.trans h1.2⟩
    · exact ⟨h2.1.trans h1.1, h2.2.trans h1.2⟩

theorem getSmm10_data (s : SpecObj) (a : ℝ) (b : FMax ℝ) (g : ℝ) :
    (s.getSmm10 a b g).2.f = s.f ∧ (s.getSmm10 a b g).2.sVarDens = s.sVarDens := by
  have h1 := ensure_data (c := s.Hm0) (r := s.getHm0 a b) (s := s) ⟨rfl, rfl⟩
  unfold SpecObj.getSmm10
  rcases e1 : ensure s.Hm0 (s.getHm0 a b) s with ⟨_ | _, s1⟩
  · rw [e1] at h1; exact h1
  · rw [e1] at h1
    have h2 := ensure_data (c := s1.Tmm10) (r := s1.getTmm10 a b) (s := s1) ⟨rfl, rfl⟩
    dsimp only at h1 ⊢
    rcases e2 : ensure s1.Tmm10 (s1.getTmm10 a b) s1 with ⟨_ | _, s2⟩ <;> rw [e2] at h2
    · exact ⟨h2.1.trans h1.1, h2.2.trans h1.2⟩
    · exact ⟨h2.1.trans h1.1, h2.2.trans h1.2⟩

theorem getSmm10HF_data (s : SpecObj) (a : ℝ) (b : FMax ℝ) (g : ℝ) :
    (s.getSmm10HF a b g).2.f = s.f ∧ (s.getSmm10HF a b g).2.sVarDens = s.sVarDens := by
  have h1 := ensure_data (c := s.Hm0HF) (r := s.getHm0HF a b) (s := s) (getHm0HF_data s a b)
  unfold SpecObj.getSmm10HF
  rcases e1 : ensure s.Hm0HF (s.getHm0HF a b) s with ⟨_ | _, s1⟩
  · rw [e1] at h1; exact h1
  · rw [e1] at h1
    have h2 := ensure_data (c := s1.Tmm10HF) (r := s1.getTmm10HF a b) (s := s1) (getTmm10HF_data s1 a b)
    dsimp only at h1 ⊢
    rcases e2 : ensure s1.Tmm10HF (s1.getTmm10HF a b) s1 with ⟨_ | _, s2⟩ <;> rw [e2] at h2
    · exact ⟨h2.1.trans h1.1, h2.2.trans h1.2⟩
    · exact ⟨h2.1.trans h1.1, h2.2.trans h1.2⟩

/-- **C55 (the data are immutable).**  No call changes the frequencies or the densities of the spectrum. -/
theorem spectrum_call_keeps_data (s : SpecObj) (op : SpecOp) : (s.call op).2.f = s.f ∧ (s.call op).2.sVarDens = s.sVarDens := by
  cases op with
  | getHm0 a b => exact ⟨rfl, rfl⟩
  | getHm0HF a b => exact getHm0HF_data s a b
  | getHm0LF a b => exact getHm0LF_data s a b
  | getTps a b => exact ⟨rfl, rfl⟩
  | getTp a b => exact ⟨rfl, rfl⟩
  | getTmm10 a b => exact ⟨rfl, rfl⟩
  | getTmm10HF a b => exact getTmm10HF_data s a b
  | getTmm10LF a b => exact getTmm10LF_data s a b
  | getTm01 a b => exact ⟨rfl, rfl⟩
  | getTm02 a b => exact ⟨rfl, rfl⟩
  | getS0p a b g => exact getS0p_data s a b g
  | getSmm10 a b g => exact getSmm10_data s a b g
  | getSmm10HF a b g => exact getSmm10HF_data s a b g

theorem spectrum_after_data (s : SpecObj) (hist : List SpecOp) : (s.after hist).f = s.f ∧ (s.after hist).sVarDens = s.sVarDens := by
  induction hist generalizing s with
  | nil => exact ⟨rfl, rfl⟩
  | cons op l ih =>
    have h1 := spectrum_call_keeps_data s op
    have h2 := ih (s.call op).2
    exact ⟨h2.1.trans h1.1, h2.2.trans h1.2⟩

/-- The getters with a range that the property C55 is about, and the HF/LF getters with an explicit cut-off. -/
def SpecOp.PlainGetter : SpecOp → Prop
  | .getHm0 _ _ => True
  | .getTps _ _ => True
  | .getTp _ _ => True
  | .getTmm10 _ _ => True
  | .getTm01 _ _ => True
  | .getTm02 _ _ => True
  | .getHm0HF fmin _ => fmin ≠ -1
  | .getTmm10HF fmin _ => fmin ≠ -1
  | .getHm0LF _ fmax => fmax ≠ .fin (-1)
  | .getTmm10LF _ fmax => fmax ≠ .fin (-1)
  | _ => False

theorem plain_call {s s' : SpecObj} {op : SpecOp} (hp : op.PlainGetter) (hf : s.f = s'.f) (hS : s.sVarDens = s'.sVarDens) :
    (s.call op).1 = (s'.call op).1 := by
  cases op with
  | getHm0 a b => simp only [SpecObj.call, SpecObj.getHm0, hf, hS]
  | getHm0HF a b => simp only [SpecOp.PlainGetter] at hp; simp only [SpecObj.call, SpecObj.getHm0HF, hf, hS, if_neg hp]
  | getHm0LF a b => simp only [SpecOp.PlainGetter] at hp; simp only [SpecObj.call, SpecObj.getHm0LF, hf, hS, if_neg hp]
  | getTps a b => simp only [SpecObj.call, SpecObj.getTps, hf, hS]
  | getTp a b => simp only [SpecObj.call, SpecObj.getTp, hf, hS]
  | getTmm10 a b => simp only [SpecObj.call, SpecObj.getTmm10, hf, hS]
  | getTmm10HF a b => simp only [SpecOp.PlainGetter] at hp; simp only [SpecObj.call, SpecObj.getTmm10HF, hf, hS, if_neg hp]
  | getTmm10LF a b => simp only [SpecOp.PlainGetter] at hp; simp only [SpecObj.call, SpecObj.getTmm10LF, hf, hS, if_neg hp]
  | getTm01 a b => simp only [SpecObj.call, SpecObj.getTm01, hf, hS]
  | getTm02 a b => simp only [SpecObj.call, SpecObj.getTm02, hf, hS]
  | getS0p a b g => exact absurd hp id
  | getSmm10 a b g => exact absurd hp id
  | getSmm10HF a b g => exact absurd hp id

/-- **C55.**  Two objects with the same spectrum give the same result for the same call, whatever was called on them
before (including calls that raised). -/
theorem spectrum_getters_history_independent {s s' : SpecObj} (hist hist' : List SpecOp) {op : SpecOp} (hp : op.PlainGetter)
    (hf : s.f = s'.f) (hS : s.sVarDens = s'.sVarDens) :
    ((s.after hist).call op).1 = ((s'.after hist').call op).1 := by
  obtain ⟨a, b⟩ := spectrum_after_data s hist
  obtain ⟨a', b'⟩ := spectrum_after_data s' hist'
  exact plain_call hp (a.trans (hf.trans a'.symm)) (b.trans (hS.trans b'.symm))

/-! ## Concrete cases: the hypotheses of the theorems above are met -/

example (s : SpecObj) := spectrum_getters_history_independent (s := s) (s' := s) [.getTmm10 1 (.fin 2), .getHm0 1 .inf] [] (op := .getHm0 1 (.fin 3)) trivial rfl rfl
example : ∃ s, SpecObj.init (vec [1, 2, 3]) (vec [1, 2, 1]) = .ok s ∧ s.f = [1, 2, 3] ∧ s.nf = 3 := by
  have hm : monotonicIncreasingConstantStep ([1, 2, 3] : List ℝ) = .ok true := by
    norm_num [monotonicIncreasingConstantStep, diff, stepTol]
  have hs := (spectrum_init_iff_partial (isArr_vec [1, 2, 3]) (isArr_vec [1, 2, 1])).2 ⟨hm, rfl, rfl⟩
  have h := spectrum_init_sound (isArr_vec [1, 2, 3]) (isArr_vec [1, 2, 1]) hs
  exact ⟨_, hs, h.1, h.2.2.1⟩
example := spectrum_init_rejects (isArr_vec [1, 2, 3]) (isArr_vec [1, 2]) (.inr (.inr (by simp)))

end Verif
