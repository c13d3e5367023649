import Verif.Props.Wrappers

/-! # A `Series` object only exists for one-dimensional data (C119) -/

namespace Verif
set_option linter.unusedSectionVars false
variable {K : Type} [Field K] [LinearOrder K] [IsStrictOrderedRing K]

/-- After `convert_to_vector` an input is a 1D array only if it was a number, a list, an `(n,)` or an `(n, 1)` array. -/
theorem isArr_of_toVector {α : Type} {p : PyIn α} (hw : p.WF) {n : Nat} (h : (toVector p).1.shape = [n]) :
    ∃ xs, p.IsArr xs ∧ toVector p = (⟨[xs.length], xs⟩, (size2 (toArr p))) := by
  rcases p with x | xs | ⟨sh, d⟩
  · exact ⟨[x], .num x, rfl⟩
  · refine ⟨xs, .list xs, ?_⟩
    by_cases h1 : (size2 (⟨[xs.length], xs⟩ : Arr α)).2 = 1
    · exact if_pos h1
    · exact if_neg h1
  · have hw : d.length = sh.prod := hw
    by_cases h1 : (size2 (⟨sh, d⟩ : Arr α)).2 = 1
    · have hs : ∃ m, sh = [m, 1] ∧ d ≠ [] := by
        unfold size2 at h1
        by_cases h0 : (⟨sh, d⟩ : Arr α).size ≠ 0
        · rw [if_pos h0] at h1
          have hd : d ≠ [] := by
            rintro rfl
            exact h0 hw.symm
          rcases sh with _ | ⟨a, _ | ⟨b, _ | ⟨c, l⟩⟩⟩
          · simp at h1
          · simp at h1
          · exact ⟨a, by rw [show b = 1 from h1], hd⟩
          · simp at h1
        · rw [if_neg h0] at h1; simp at h1
      obtain ⟨m, rfl, hd⟩ := hs
      have hm : m = d.length := by simpa using hw.symm
      subst hm
      exact ⟨d, .col d hd, if_pos h1⟩
    · have e : toVector (.nd ⟨sh, d⟩) = (⟨sh, d⟩, size2 (⟨sh, d⟩ : Arr α)) := if_neg h1
      rw [e] at h
      have h : sh = [n] := h
      subst h
      have hn : n = d.length := by simpa using hw.symm
      subst hn
      exact ⟨d, .nd d, e⟩

/-- **C119.** A `Series` object is only ever made from one-dimensional data: whatever (well-formed) inputs are passed, if the
constructor returns then both are numbers, lists, `(n,)` or `(n, 1)` arrays of the same length, at least 2, the object stores exactly
these values as 1D arrays with their number and mean step, and the time steps satisfied the constructor's test. -/
theorem series_only_oneD {pt px : PyIn K} (wt : pt.WF) (wx : px.WF) {s : SeriesObj K} (h : SeriesObj.init pt px = .ok s) :
    ∃ t x, pt.IsArr t ∧ px.IsArr x ∧ t.length = x.length ∧ 2 ≤ t.length ∧ s.time = arr1 t ∧ s.xTime = arr1 x ∧ s.nt = t.length ∧
      s.dt = meanStep t ∧ stepVariance t < meanStep t / 100 := by
  unfold SeriesObj.init at h
  rcases hvt : toVector pt with ⟨t, tS⟩
  rcases hvx : toVector px with ⟨x, xS⟩
  rw [hvt, hvx] at h
  simp only at h
  by_cases h1 : tS.1 ≠ xS.1
  · rw [if_pos h1] at h; cases h
  rw [if_neg h1, bind_ok] at h
  obtain ⟨d, hd, h⟩ := h
  by_cases h2 : d ≠ [] ∧ variance d < mean (d.map (· / 100))
  swap
  · rw [if_neg h2] at h; simp at h
  rw [if_pos h2, bind_ok] at h
  obtain ⟨⟨w, tc, s1⟩, h3, h⟩ := h
  obtain ⟨n, hn, hm, h2n⟩ := analysis_ok_shape h3
  simp only at hn hm
  obtain ⟨ts, a1, a2⟩ := isArr_of_toVector wt (n := n) (by rw [hvt]; exact hn)
  obtain ⟨xs, b1, b2⟩ := isArr_of_toVector wx (n := n) (by rw [hvx]; exact hm)
  rw [hvt] at a2
  rw [hvx] at b2
  obtain ⟨rfl, rfl⟩ := Prod.mk.inj a2
  obtain ⟨rfl, rfl⟩ := Prod.mk.inj b2
  have hn : ts.length = n := by simpa using hn
  have hm : xs.length = n := by simpa using hm
  have hd : d = diff ts := (Except.ok.inj hd).symm
  subst hd
  rw [variance_diff, mean_diff_div] at h2
  simp only at h
  rw [bind_ok] at h
  obtain ⟨wh, h4, h⟩ := h
  simp only [pure, Except.pure, Except.ok.injEq] at h
  have hs1 : s1.time = arr1 ts ∧ s1.xTime = arr1 xs ∧ s1.nt = ts.length ∧ s1.dt = meanStep ts := by
    unfold determineIndividualWaves at h3
    rw [bind_ok] at h3
    obtain ⟨⟨_, tc'⟩, _, h3⟩ := h3
    simp only at h3
    rw [bind_ok] at h3
    obtain ⟨w', _, h3⟩ := h3
    rw [bind_ok] at h3
    obtain ⟨wh', _, h3⟩ := h3
    simp only [pure, Except.pure, Except.ok.injEq, Prod.mk.injEq] at h3
    obtain ⟨_, _, h3⟩ := h3
    rw [← h3, ← mean_diff]
    exact ⟨rfl, rfl, rfl, rfl⟩
  subst h
  exact ⟨ts, xs, a1, b1, by omega, by omega, hs1.1, hs1.2.1, hs1.2.2.1, hs1.2.2.2, h2.2⟩

/-- The wave analysis of an object whose time or signal array is not 1D raises `ValueError`. -/
theorem analysis_not_oneD {s : SeriesObj K} {ty : String} {xlow : List K} {mw : K}
    (h : (∀ n, s.time.shape ≠ [n]) ∨ (∀ n, s.xTime.shape ≠ [n])) :
    ∃ m, determineIndividualWaves s ty xlow mw = .error (.valueError m) := by
  unfold determineIndividualWaves determineZeroCrossing
  dsimp only
  by_cases a : (!isOneD (toArr (PyIn.nd s.time))) = true
  · rw [if_pos a]; exact ⟨_, rfl⟩
  rw [if_neg a]
  by_cases b : (!isOneD (toArr (PyIn.nd (⟨s.xTime.shape, List.zipWith (· - ·) s.xTime.data xlow⟩ : Arr K)))) = true
  · rw [if_pos b]; exact ⟨_, rfl⟩
  exfalso
  simp only [Bool.not_eq_true', Bool.not_eq_false] at a b
  obtain ⟨n, hn, -⟩ := isOneD_shape a
  obtain ⟨m, hm, -⟩ := isOneD_shape b
  rcases h with h | h
  · exact h n hn
  · exact h m hm

/-- **C119.** Any other input is rejected with `AssertionError` or `ValueError`: no object is made, and no other exception is raised. -/
theorem series_rejects_other_shapes {pt px : PyIn K} (wt : pt.WF) (wx : px.WF)
    (h : (¬ ∃ t, pt.IsArr t) ∨ ¬ ∃ x, px.IsArr x) :
    ∃ m, SeriesObj.init pt px = .error (.assertionError m) ∨ SeriesObj.init pt px = .error (.valueError m) := by
  have hsh : (∀ n, (toVector pt).1.shape ≠ [n]) ∨ ∀ n, (toVector px).1.shape ≠ [n] := by
    rcases h with h | h
    · exact .inl fun n hn => h (let ⟨t, a, _⟩ := isArr_of_toVector wt hn; ⟨t, a⟩)
    · exact .inr fun n hn => h (let ⟨t, a, _⟩ := isArr_of_toVector wx hn; ⟨t, a⟩)
  unfold SeriesObj.init
  rcases hvt : toVector pt with ⟨t, tS⟩
  rcases hvx : toVector px with ⟨x, xS⟩
  rw [hvt, hvx] at hsh
  simp only at hsh ⊢
  by_cases h1 : tS.1 ≠ xS.1
  · rw [if_pos h1]; exact ⟨_, .inl rfl⟩
  rw [if_neg h1]
  rcases hd : timeSteps t with e | d
  · unfold timeSteps at hd
    split at hd
    · cases hd; exact ⟨_, .inr rfl⟩
    · cases hd
    · cases hd
  · simp only [bind, Except.bind]
    by_cases h2 : d ≠ [] ∧ variance d < mean (d.map (· / 100))
    · rw [if_pos h2]
      obtain ⟨m, hm⟩ := analysis_not_oneD (s := { time := t, xTime := x, nt := t.len, dt := mean d, tCross := [], wh := ⟨arr1 [], 0, arr1 []⟩ })
        (ty := "down") (xlow := zerosLike x) (mw := 0) hsh
      rw [hm]
      exact ⟨m, .inr rfl⟩
    · rw [if_neg h2]; exact ⟨_, .inl rfl⟩

/-- A 2D array with a uniform time axis in each row is rejected with `ValueError`, although it passes the time step test. -/
example : ∃ m, SeriesObj.init (K := ℚ) (.nd ⟨[2, 3], [0, 1, 2, 0, 1, 2]⟩) (.nd ⟨[2, 3], [0, 1, 0, 0, 1, 0]⟩) = .error (.valueError m) :=
  ⟨"determine_zero_crossing: t is not 1D", by decide +kernel⟩

/-- A column array with three samples is accepted and stored as a 1D array. -/
example : ∃ s, SeriesObj.init (K := ℚ) (.nd ⟨[3, 1], [0, 1, 2]⟩) (.list [1, -1, 1]) = .ok s ∧ s.time = arr1 [0, 1, 2] :=
  ⟨⟨arr1 [0, 1, 2], arr1 [1, -1, 1], 3, 1, [1/2], ⟨arr1 [], 0, arr1 []⟩⟩, by decide +kernel, rfl⟩

/-! ## Concrete cases: the hypotheses of the theorems above are met -/

example : ∃ s, SeriesObj.init (K := ℚ) (.nd ⟨[3, 1], [0, 1, 2]⟩) (.list [1, -1, 1]) = .ok s ∧ s.nt = 3 := by
  have e : SeriesObj.init (K := ℚ) (.nd ⟨[3, 1], [0, 1, 2]⟩) (.list [1, -1, 1]) = .ok ⟨arr1 [0, 1, 2], arr1 [1, -1, 1], 3, 1, [1/2], ⟨arr1 [], 0, arr1 []⟩⟩ := by
    decide +kernel
  obtain ⟨t, x, h1, h2, -⟩ := series_only_oneD (pt := .nd ⟨[3, 1], ([0, 1, 2] : List ℚ)⟩) (px := .list [1, -1, 1]) rfl trivial e
  exact ⟨_, e, rfl⟩
example := series_rejects_other_shapes (pt := .nd ⟨[2, 3], ([0, 1, 2, 0, 1, 2] : List ℚ)⟩) (px := .nd ⟨[2, 3], [0, 1, 0, 0, 1, 0]⟩) rfl rfl
  (.inl fun ⟨t, h⟩ => by
    generalize e : (PyIn.nd ⟨[2, 3], ([0, 1, 2, 0, 1, 2] : List ℚ)⟩) = p at h
    cases h with
    | num | list => cases e
    | nd xs => injection e with e; injection e with e; simp at e
    | col xs => injection e with e; injection e with e; simp at e)

end Verif
