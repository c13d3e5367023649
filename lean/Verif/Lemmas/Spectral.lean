import Verif.Model.Spectral
import Verif.Lemmas.Fourier
import Verif.Props.Engine
import Mathlib.Data.List.GetD

/-! # Closed forms of the functions of core_spectral.py on accepted inputs -/

set_option linter.unusedSectionVars false

namespace Verif
open Finset

/-- `p` is an input that the spectral functions read as the 1D array `xs`: a number, a flat list, a 1D array or a
non-empty column `(n, 1)`. -/
inductive PyIn.IsArr {α : Type} : PyIn α → List α → Prop
  | num (x : α) : PyIn.IsArr (.num x) [x]
  | list (xs : List α) : PyIn.IsArr (.list xs) xs
  | nd (xs : List α) : PyIn.IsArr (.nd ⟨[xs.length], xs⟩) xs
  | col (xs : List α) (h : xs ≠ []) : PyIn.IsArr (.nd ⟨[xs.length, 1], xs⟩) xs

theorem isArr_vec {α : Type} (xs : List α) : (vec xs).IsArr xs := .nd xs

theorem vecIn_of_isArr {α : Type} {p : PyIn α} {xs : List α} (h : p.IsArr xs) (who : String) : vecIn who p = .ok xs := by
  cases h with
  | num x => simp [vecIn, toVector, toArr, size2, Arr.size]
  | list xs =>
    simp only [vecIn, toVector, toArr, size2, Arr.size]
    split_ifs <;> simp_all
  | nd xs =>
    simp only [vecIn, toVector, toArr, size2, Arr.size]
    split_ifs <;> simp_all
  | col xs h =>
    simp only [vecIn, toVector, toArr, size2, Arr.size]
    have : xs.length ≠ 0 := by simpa using h
    simp [this]

theorem vecIn_vec {α : Type} (xs : List α) (who : String) : vecIn who (vec xs) = .ok xs := vecIn_of_isArr (isArr_vec xs) who

/-- 2D inputs with more than one column are rejected. -/
theorem vecIn_matrix {α : Type} {a : Arr α} {n m : Nat} (ha : a.shape = [n, m]) (hn : n ≠ 0) (hm : 2 ≤ m) (who : String) :
    vecIn who (.nd a) = .error (.valueError (who ++ ": Input error: input should be 1d arrays")) := by
  have : ¬ (n = 0 ∨ m = 0) := by omega
  simp only [vecIn, toVector, toArr, size2, Arr.size, ha]
  have h2 : [n, m].prod ≠ 0 := by simp; omega
  have h3 : ¬ m = 1 := by omega
  have h4 : 1 < m := by omega
  simp only [if_pos h2, if_neg h3, if_pos h4]

theorem toArr_len_of_isArr {α : Type} {p : PyIn α} {xs : List α} (h : p.IsArr xs) : (toArr p).len = xs.length := by
  cases h <;> rfl

theorem mono_two_le {K : Type} [Field K] [LinearOrder K] {x : List K} (h : monotonicIncreasingConstantStep x = .ok true) :
    2 ≤ x.length := by
  rcases x with _ | ⟨a, _ | ⟨b, l⟩⟩
  · simp [monotonicIncreasingConstantStep, diff] at h
  · simp [monotonicIncreasingConstantStep, diff] at h
  · simp

theorem mono_dt_pos {ts : List ℝ} (h : monotonicIncreasingConstantStep ts = .ok true) : 0 < ts.getD 1 0 - ts.getD 0 0 := by
  obtain ⟨b, hb, hiff⟩ := uniform_check_iff_partial (mono_two_le h)
  rw [h] at hb
  simp only [Except.ok.injEq] at hb
  have h2 := mono_two_le h
  exact (hiff.1 hb.symm 0 (by omega)).1

/-- `np.arange(0, n) * df`. -/
noncomputable def freqAxis (n : Nat) (df : ℝ) : List ℝ := (List.range n).map fun (i : Nat) => (i : ℝ) * df

/-- The Fourier coefficient `k` of the real signal `xs`. -/
noncomputable def coef (xs : List ℝ) (k : Nat) : ℂ := fwd xs.length (fun j => ((xs.getD j 0 : ℝ) : ℂ)) k

theorem npFft_ofReal (xs : List ℝ) : npFft (xs.map fun (v : ℝ) => (v : ℂ)) = (List.range xs.length).map (coef xs) := by
  unfold npFft
  rw [List.length_map]
  refine List.map_congr_left fun k _ => ?_
  unfold coef
  refine fwd_congr (fun j hj => ?_) k
  have h2 : j < (xs.map fun (v : ℝ) => (v : ℂ)).length := by simpa using hj
  rw [List.getD_eq_getElem _ _ h2, List.getD_eq_getElem _ _ hj, List.getElem_map]

/-- `1 / (nT * dt)`. -/
noncomputable def dfOf (ts : List ℝ) : ℝ := 1 / ((ts.length : ℝ) * (ts.getD 1 0 - ts.getD 0 0))

theorem dfOf_pos {ts : List ℝ} (h : monotonicIncreasingConstantStep ts = .ok true) : 0 < dfOf ts := by
  have h1 := mono_dt_pos h
  have h2 := mono_two_le h
  unfold dfOf
  have : (0 : ℝ) < ts.length := by exact_mod_cast (by omega : 0 < ts.length)
  positivity

theorem time2freq_eq {t x : PyIn ℝ} {ts xs : List ℝ} (ht : t.IsArr ts) (hx : x.IsArr xs)
    (hm : monotonicIncreasingConstantStep ts = .ok true) (hl : ts.length = xs.length) :
    time2freq t x = .ok (freqAxis ts.length (dfOf ts), (List.range xs.length).map (coef xs)) := by
  unfold time2freq
  simp only [vecIn_of_isArr ht, vecIn_of_isArr hx, hm, bind, Except.bind]
  rw [if_neg (by simp), if_neg (by simpa using hl), npFft_ofReal]
  rfl

theorem time2freqNyquist_eq {t x : PyIn ℝ} {ts xs : List ℝ} (ht : t.IsArr ts) (hx : x.IsArr xs)
    (hm : monotonicIncreasingConstantStep ts = .ok true) (hl : ts.length = xs.length) :
    time2freqNyquist t x = .ok (freqAxis (xs.length / 2 + 1) (dfOf ts), (List.range (xs.length / 2 + 1)).map (coef xs),
      decide (xs.length % 2 = 1)) := by
  have h2 := mono_two_le hm
  unfold time2freqNyquist
  simp only [vecIn_of_isArr ht, vecIn_of_isArr hx, hm, bind, Except.bind]
  rw [if_neg (by simp), if_neg (by simpa using hl), time2freq_eq (isArr_vec ts) (isArr_vec xs) hm hl]
  simp only [pure, Except.pure, freqAxis]
  rw [← List.map_take, ← List.map_take, List.take_range, List.take_range, hl]
  have : min (xs.length / 2 + 1) xs.length = xs.length / 2 + 1 := by omega
  rw [this]

theorem getD_map_range {β : Type} (g : Nat → β) (n k : Nat) (d : β) (hk : k < n) : ((List.range n).map g).getD k d = g k := by
  rw [List.getD_eq_getElem _ _ (by simpa using hk)]
  simp

/-- Symmetric extension of a folded spectrum to `n` components. -/
noncomputable def symExt (n : Nat) (Z : Nat → ℂ) (k : Nat) : ℂ := if k < (n + 1) / 2 then Z k else (starRingEnd ℂ) (Z (n - k))

theorem symExt_congr {n : Nat} {Z W : Nat → ℂ} (h : ∀ k, k ≤ n / 2 → Z k = W k) {k : Nat} (hk : k < n) :
    symExt n Z k = symExt n W k := by
  unfold symExt
  split_ifs with h1
  · exact h k (by omega)
  · rw [h (n - k) (by omega)]

theorem unfold_eq {n : Nat} (hn : 2 ≤ n) {f : List ℝ} (hf : f.length = n / 2 + 1) {X : List ℂ} (hX : X.length = n / 2 + 1) :
    unfoldSpectrumL f X (decide (n % 2 = 1)) =
      .ok (freqAxis n (f.getD 1 0 - f.getD 0 0), (List.range n).map (symExt n fun k => X.getD k 0)) := by
  obtain ⟨f0, f1, l, rfl⟩ : ∃ f0 f1 l, f = f0 :: f1 :: l := by
    rcases f with _ | ⟨a, _ | ⟨b, l⟩⟩
    · simp at hf
    · simp at hf; omega
    · exact ⟨_, _, _, rfl⟩
  have hodd : (decide (n % 2 = 1)).toNat = n % 2 := by
    rcases Nat.mod_two_eq_zero_or_one n with h | h <;> simp [h]
  unfold unfoldSpectrumL
  simp only [hf, hX]
  rw [if_neg (fun h => lt_irrefl _ h.1), if_neg (lt_irrefl _), hodd]
  have htot : (n / 2 + 1 - 1) * 2 + n % 2 = n := by omega
  have e1 : n / 2 + 1 - 1 + n % 2 = (n + 1) / 2 := by omega
  rw [htot, e1]
  congr 1
  congr 1
  have ht1 : X.take (n / 2 + 1) = X := List.take_of_length_le (by omega)
  rw [ht1]
  set tot0 := X ++ List.replicate (n - (n / 2 + 1)) (0 : ℂ) with htot0
  have ht2 : tot0.take (n / 2 + 1) = X := by
    rw [htot0, ← hX, List.take_left']
    rfl
  rw [ht2]
  have hlen0 : tot0.length = n := by rw [htot0]; simp [hX]; omega
  apply List.ext_getElem
  · simp [hlen0, hX]; omega
  · intro k h1 h2
    have hk : k < n := by simpa using h2
    rw [List.getElem_map, List.getElem_range, List.getElem_append]
    have hlt : (tot0.take ((n + 1) / 2)).length = (n + 1) / 2 := by simp [hlen0]; omega
    unfold symExt
    by_cases hk2 : k < (n + 1) / 2
    · rw [dif_pos (by rw [hlt]; exact hk2), if_pos hk2, List.getElem_take]
      have hkX : k < X.length := by omega
      beta_reduce
      rw [List.getD_eq_getElem _ _ hkX]
      simp only [htot0]
      rw [List.getElem_append_left hkX]
    · rw [dif_neg (by rw [hlt]; exact hk2), if_neg hk2, List.getElem_reverse, List.getElem_map, List.getElem_drop]
      have hkX : n - k < X.length := by omega
      beta_reduce
      rw [List.getD_eq_getElem _ _ hkX]
      congr 2
      simp only [List.length_map, List.length_drop, hX, hlt]
      omega

theorem freq2time_eq {X : PyIn ℂ} {Xs : List ℂ} (hX : X.IsArr Xs) (hne : Xs ≠ []) :
    freq2time X = .ok ((List.range Xs.length).map fun j => (inv Xs.length (fun k => Xs.getD k 0) j).re) := by
  unfold freq2time
  simp only [vecIn_of_isArr hX, bind, Except.bind]
  rw [if_neg hne]
  simp [pure, Except.pure, npIfft]

theorem freq2time_range {n : Nat} (hn : 0 < n) (G : Nat → ℂ) :
    freq2time (vec ((List.range n).map G)) = .ok ((List.range n).map fun j => (inv n G j).re) := by
  rw [freq2time_eq (isArr_vec _) (by simp; omega)]
  simp only [List.length_map, List.length_range]
  congr 1
  refine List.map_congr_left fun j _ => ?_
  congr 1
  exact inv_congr (fun k hk => getD_map_range G n k 0 hk) j

theorem coef_conj (xs : List ℝ) {k : Nat} (hk : k ≤ xs.length) (hn : 0 < xs.length) :
    coef xs (xs.length - k) = (starRingEnd ℂ) (coef xs k) :=
  fwd_conj hn (fun j _ => Complex.conj_ofReal _) hk

/-- The full transform is the symmetric extension of the folded one. -/
theorem symExt_coef (xs : List ℝ) {k : Nat} (hk : k < xs.length) : symExt xs.length (coef xs) k = coef xs k := by
  unfold symExt
  split_ifs with h
  · rfl
  · rw [coef_conj xs hk.le (by omega), Complex.conj_conj]

theorem list_eq_map_range (xs : List ℝ) : xs = (List.range xs.length).map fun j => xs.getD j 0 := by
  apply List.ext_getElem
  · simp
  · intro i h1 h2
    rw [List.getElem_map, List.getElem_range, List.getD_eq_getElem _ _ h1]

end Verif
