import Verif.Props.Coherence
import Verif.Props.Fourier
import Verif.Props.DecompMore

/-! # C118: `unfold_spectrum` of any folded spectrum, and operands of different lengths -/

namespace Verif

/-- The number of points of the unfolded spectrum. -/
def unfoldedLength (nF : Nat) (isOdd : Bool) : Nat := (nF - 1) * 2 + isOdd.toNat

/-- **C118 (unfolding).**  For any frequency axis with at least two points and any spectrum on it, the unfolded spectrum has `2 (nF - 1) + isOdd` points
at the multiples of the frequency step; it starts with the given values (all of them for an odd length, all but the last for an even length) and
continues with their conjugates in reverse order. -/
theorem unfold_any {f : List ℝ} {X : List ℂ} (isOdd : Bool) (h2 : 2 ≤ f.length) (hX : X.length = f.length) :
    ∃ fT XT, unfoldSpectrum (vec f) (vec X) isOdd = .ok (fT, XT) ∧ fT.length = unfoldedLength f.length isOdd ∧
      XT.length = unfoldedLength f.length isOdd ∧ (∀ k < unfoldedLength f.length isOdd, fT.getD k 0 = k * (f.getD 1 0 - f.getD 0 0)) ∧
      (∀ k, k + 1 < f.length → XT.getD k 0 = X.getD k 0) ∧ (isOdd = true → XT.getD (f.length - 1) 0 = X.getD (f.length - 1) 0) ∧
      (∀ k, 0 < k → k < f.length → XT.getD (unfoldedLength f.length isOdd - k) 0 = (starRingEnd ℂ) (X.getD k 0)) := by
  set n := unfoldedLength f.length isOdd with hn
  have hb : isOdd.toNat ≤ 1 := by cases isOdd <;> simp
  have hn2 : 2 ≤ n := by rw [hn]; unfold unfoldedLength; omega
  have hfn : f.length = n / 2 + 1 := by rw [hn]; unfold unfoldedLength; omega
  have hodd : decide (n % 2 = 1) = isOdd := by
    have : n % 2 = isOdd.toNat := by rw [hn]; unfold unfoldedLength; omega
    rw [this]; cases isOdd <;> simp
  have hpar : n % 2 = isOdd.toNat := by rw [hn]; unfold unfoldedLength; omega
  have e := unfold_eq (n := n) hn2 hfn (hX.trans hfn)
  rw [hodd] at e
  refine ⟨_, _, by unfold unfoldSpectrum; rw [vecIn_vec, vecIn_vec]; exact e, by simp [freqAxis], by simp, ?_, ?_, ?_, ?_⟩
  · intro k hk
    unfold freqAxis
    rw [getD_map_range _ _ _ _ hk]
  · intro k hk
    rw [getD_map_range _ _ _ _ (by omega)]
    unfold symExt
    rw [if_pos (by omega)]
  · intro ho
    have : isOdd.toNat = 1 := by rw [ho]; rfl
    rw [getD_map_range _ _ _ _ (by omega)]
    unfold symExt
    rw [if_pos (by omega)]
  · intro k h0 hk
    rw [getD_map_range _ _ _ _ (by omega)]
    unfold symExt
    rw [if_neg (by omega)]
    congr 2
    omega

/-- **C118 (fold inverts unfold).**  If moreover the mean is real and, for an even number of samples, the last value is real, then the signal made from the
unfolded spectrum has exactly this folded transform. -/
theorem fold_inverts_unfold {ts f : List ℝ} {X : List ℂ} (isOdd : Bool) (h2 : 2 ≤ f.length) (hX : X.length = f.length) (hm : AcceptedAxis ts)
    (hl : ts.length = unfoldedLength f.length isOdd) (h0 : (X.getD 0 0).im = 0) (hlast : isOdd = false → (X.getD (f.length - 1) 0).im = 0) :
    ∃ fT XT x fN, unfoldSpectrum (vec f) (vec X) isOdd = .ok (fT, XT) ∧ freq2time (vec XT) = .ok x ∧ x.length = ts.length ∧
      time2freqNyquist (vec ts) (vec x) = .ok (fN, X, isOdd) := by
  obtain ⟨fT, XT, e1, -, lX, -, v1, v2, v3⟩ := unfold_any isOdd h2 hX
  set n := unfoldedLength f.length isOdd with hn
  have hb : isOdd.toNat ≤ 1 := by cases isOdd <;> simp
  have hn2 : 2 ≤ n := by rw [hn]; unfold unfoldedLength; omega
  have hpar : n % 2 = isOdd.toNat := by rw [hn]; unfold unfoldedLength; omega
  have hfn : f.length = n / 2 + 1 := by rw [hn]; unfold unfoldedLength; omega
  have v2' : ∀ k < f.length, XT.getD k 0 = X.getD k 0 := by
    intro k hk
    by_cases hk1 : k + 1 < f.length
    · exact v1 k hk1
    · have hk' : k = f.length - 1 := by omega
      cases ho : isOdd with
      | true => rw [hk']; exact v2 ho
      | false =>
        have he : n - k = k := by
          rw [ho] at hpar
          simp only [Bool.toNat_false] at hpar
          omega
        have := v3 k (by omega) hk
        rw [he] at this
        rw [this, Complex.conj_eq_iff_im, hk']
        exact hlast ho
  have hs : ConjSymmetric XT := by
    refine ⟨?_, fun k hk hkn => ?_⟩
    · rw [v2' 0 (by omega), Complex.conj_eq_iff_im]; exact h0
    · rw [lX] at hkn ⊢
      by_cases hk1 : k < f.length
      · rw [v3 k hk hk1, v2' k hk1]
      · have := v3 (n - k) (by omega) (by omega)
        rw [show n - (n - k) = k by omega] at this
        rw [this, Complex.conj_conj, v2' (n - k) (by omega)]
  obtain ⟨x, fN, e2, lx, e3⟩ := spectrum_round_trip (isArr_vec ts) (isArr_vec XT) hm (by rw [hl, lX]) hs
  have hlx : ts.length = x.length := by rw [lx, hl, lX]
  refine ⟨fT, XT, x, freqAxis (x.length / 2 + 1) (dfOf ts), e1, e2, hlx.symm, ?_⟩
  rw [time2freqNyquist_eq (isArr_vec ts) (isArr_vec x) hm hlx]
  rw [time2freq_eq (isArr_vec ts) (isArr_vec x) hm hlx] at e3
  simp only [Except.ok.injEq, Prod.mk.injEq] at e3
  have hc := e3.2
  have hxn : x.length = n := by rw [lx, lX]
  congr 3
  · apply List.ext_getElem
    · simp [hX, hxn, hfn]
    · intro k a b
      have hkf : k < f.length := by rw [← hX]; exact b
      have := congrArg (fun l => l.getD k 0) hc
      rw [getD_map_range _ _ _ _ (by omega), v2' k hkf, List.getD_eq_getElem _ _ b] at this
      rw [List.getElem_map, List.getElem_range, this]
  · rw [hxn, hpar]
    cases isOdd <;> simp

/-- **C118 (lengths).**  A spectrum with more values than frequencies is cut off without notice, one with a single value is taken as constant, and any
other spectrum with too few values raises `ValueError`. -/
theorem unfold_lengths {f : List ℝ} {X : List ℂ} (isOdd : Bool) (h2 : 2 ≤ f.length) :
    (f.length ≤ X.length → unfoldSpectrum (vec f) (vec X) isOdd = unfoldSpectrum (vec f) (vec (X.take f.length)) isOdd) ∧
    (∀ z, X = [z] → unfoldSpectrum (vec f) (vec X) isOdd = unfoldSpectrum (vec f) (vec (List.replicate f.length z)) isOdd) ∧
    (X.length < f.length → X.length ≠ 1 → ∃ m, unfoldSpectrum (vec f) (vec X) isOdd = .error (.valueError m)) := by
  obtain ⟨f0, f1, l, rfl⟩ : ∃ f0 f1 l, f = f0 :: f1 :: l := by
    rcases f with _ | ⟨a, _ | ⟨b, l⟩⟩
    · simp at h2
    · simp at h2
    · exact ⟨_, _, _, rfl⟩
  have red : ∀ Y, unfoldSpectrum (vec (f0 :: f1 :: l)) (vec Y) isOdd = unfoldSpectrumL (f0 :: f1 :: l) Y isOdd := by
    intro Y
    unfold unfoldSpectrum
    rw [vecIn_vec, vecIn_vec]
    rfl
  obtain ⟨g, body⟩ : ∃ g : List ℂ → List ℝ × List ℂ, ∀ Y, unfoldSpectrumL (f0 :: f1 :: l) Y isOdd =
      if Y.length < (f0 :: f1 :: l).length ∧ Y.length ≠ 1 then .error (.valueError "could not broadcast input array")
      else .ok (g (if Y.length < (f0 :: f1 :: l).length then List.replicate (f0 :: f1 :: l).length (Y.getD 0 0) else Y.take (f0 :: f1 :: l).length)) :=
    ⟨fun W => ((List.range (((f0 :: f1 :: l).length - 1) * 2 + isOdd.toNat)).map fun (i : Nat) => (i : ℝ) * (f1 - f0),
      (W ++ List.replicate (((f0 :: f1 :: l).length - 1) * 2 + isOdd.toNat - (f0 :: f1 :: l).length) 0).take ((f0 :: f1 :: l).length - 1 + isOdd.toNat) ++
        ((((W ++ List.replicate (((f0 :: f1 :: l).length - 1) * 2 + isOdd.toNat - (f0 :: f1 :: l).length) 0).take (f0 :: f1 :: l).length).drop 1).map
          (starRingEnd ℂ)).reverse), fun Y => rfl⟩
  generalize f0 :: f1 :: l = f at *
  rw [red, body]
  refine ⟨fun h => ?_, fun z hz => ?_, fun h h1 => ?_⟩
  · rw [red, body]
    have hl : (X.take f.length).length = f.length := by rw [List.length_take]; omega
    rw [hl, if_neg (fun c => absurd c.1 (by omega)), if_neg (by omega), if_neg (fun c => absurd c.1 (by omega)), if_neg (by omega), List.take_take,
      min_self]
  · rw [red, body, hz]
    have hl : (List.replicate f.length z).length = f.length := List.length_replicate
    have h1 : ([z] : List ℂ).length = 1 := rfl
    have ht : (List.replicate f.length z).take f.length = List.replicate f.length z := List.take_of_length_le (by omega)
    rw [hl, h1, if_neg (fun c => c.2 rfl), if_pos (by omega), if_neg (fun c => absurd c.1 (by omega)), if_neg (by omega), ht]
    rfl
  · rw [if_pos ⟨h, h1⟩]
    exact ⟨_, rfl⟩

/-- **C118 (coherence of different lengths).**  Signals of different lengths raise `ValueError`, unless one of them has a single value. -/
theorem coherence_lengths {f : List ℝ} {X1 X2 : List ℂ} (df : ℝ) (h : X1.length ≠ X2.length) (h1 : X1.length ≠ 1) (h2 : X2.length ≠ 1) :
    ∃ m, coherence f X1 X2 df = .error (.valueError m) := by
  unfold coherence
  have e : ∀ X : List ℂ, ∃ r, absProd X X = .ok r := by
    intro X
    unfold absProd
    rw [if_pos rfl]
    exact ⟨_, rfl⟩
  obtain ⟨r1, q1⟩ := e X1
  obtain ⟨r2, q2⟩ := e X2
  have q3 : absProd X1 X2 = .error (.valueError "operands could not be broadcast") := by
    unfold absProd
    rw [if_neg h, if_neg h1, if_neg h2]
  rw [q1, q2, q3]
  exact ⟨_, rfl⟩

theorem fillColumns_mismatch {n m : ℕ} (pre post : List (List ℝ)) (x : List ℝ) (hpre : ∀ y ∈ pre, y.length = n) (hx : x.length ≠ n) (h1 : x.length ≠ 1)
    (i : ℕ) (hi : i + pre.length < m) (a : Arr ℝ) : ∃ e, fillColumns n m (pre ++ x :: post) i a = .error (.valueError e) := by
  induction pre generalizing i a with
  | nil =>
    rw [List.length_nil] at hi
    rw [List.nil_append]
    unfold fillColumns
    rw [if_neg (by omega), if_pos ⟨hx, h1⟩]
    exact ⟨_, rfl⟩
  | cons y pre ih =>
    rw [List.length_cons] at hi
    rw [List.cons_append]
    unfold fillColumns
    rw [if_neg (by omega), if_neg (by simp [hpre y (by simp)])]
    exact ih (fun z hz => hpre z (List.mem_cons_of_mem _ hz)) (i + 1) (by omega) _

/-- **C118 (gauges of different lengths).**  `decompose_linear_ZS_series` raises `ValueError` if some gauge record (of two or more samples) is shorter or
longer than the first one. -/
theorem gauges_lengths {s0 : SeriesObj ℝ} {ss pre post : List (SeriesObj ℝ)} {s : SeriesObj ℝ} {t x : List ℝ} {xpre xpost : List (List ℝ)}
    (hss : s0 :: ss = pre ++ s :: post) (ht : s0.time = arr1 t) (hpre : List.Forall₂ (fun s x => s.xTime = arr1 x ∧ x.length = t.length) pre xpre)
    (hs : s.xTime = arr1 x) (hpost : List.Forall₂ (fun s x => s.xTime = arr1 x) post xpost) (hx : x.length ≠ t.length) (h1 : 2 ≤ x.length)
    (h : Depth) {xLoc : List ℝ} (hm : pre.length < xLoc.length) (wLoc : List ℝ) (detLim : ℝ) :
    ∃ e, decomposeZSSeries (s0 :: ss) h xLoc wLoc detLim = .error (.valueError e) := by
  have hall : List.Forall₂ (fun (s : SeriesObj ℝ) x => s.xTime = arr1 x) (s0 :: ss) (xpre ++ x :: xpost) := by
    rw [hss]
    exact List.rel_append (hpre.imp fun _ _ h => h.1) (List.Forall₂.cons hs hpost)
  unfold decomposeZSSeries
  rw [sigs_ok hall]
  have hle : xpre.length = pre.length := hpre.length_eq.symm
  obtain ⟨e, he⟩ := fillColumns_mismatch (n := s0.time.data.length) (m := xLoc.length) xpre xpost x (by
    intro y hy
    rw [ht]
    have : ∀ {a b}, List.Forall₂ (fun (s : SeriesObj ℝ) (x : List ℝ) => s.xTime = arr1 x ∧ x.length = t.length) a b → ∀ y ∈ b, y.length = t.length := by
      intro a b hab
      induction hab with
      | nil => intro y hy; simp at hy
      | cons h1 _ ih =>
        intro y hy
        rcases List.mem_cons.1 hy with rfl | hy
        · exact h1.2
        · exact ih y hy
    exact this hpre y hy) (by rw [ht]; exact hx) (by omega) 0 (by omega)
    ⟨[s0.time.data.length, xLoc.length], List.replicate (s0.time.data.length * xLoc.length) 0⟩
  simp only [bind, Except.bind]
  rw [he]
  exact ⟨e, rfl⟩

/-- Two gauges, the second with one sample more. -/
example (h : Depth) : ∃ e, decomposeZSSeries
    [{ time := arr1 [0, 1], xTime := arr1 [1, -1], nt := 2, dt := 1, tCross := [], wh := ⟨arr1 [], 0, arr1 []⟩ },
     { time := arr1 [0, 1, 2], xTime := arr1 [1, -1, 1], nt := 3, dt := 1, tCross := [], wh := ⟨arr1 [], 0, arr1 []⟩ }] h [0, 1] [1, 1] (1 / 8) =
      .error (.valueError e) :=
  gauges_lengths (pre := [{ time := arr1 [0, 1], xTime := arr1 [1, -1], nt := 2, dt := 1, tCross := [], wh := ⟨arr1 [], 0, arr1 []⟩ }])
    (t := [0, 1]) (x := [1, -1, 1]) (xpre := [[1, -1]]) (xpost := []) (post := []) rfl rfl (.cons ⟨rfl, rfl⟩ .nil) rfl .nil (by simp) (by simp) h
    (by simp) _ _

/-- A folded spectrum of four samples that satisfies the hypotheses. -/
example : ∃ fT XT, unfoldSpectrum (vec [0, 1, 2]) (vec [1, Complex.I, -1]) false = .ok (fT, XT) ∧ XT.length = 4 ∧
    XT.getD 3 0 = -Complex.I := by
  obtain ⟨fT, XT, e, -, l, -, -, -, v⟩ := unfold_any (f := [0, 1, 2]) (X := [1, Complex.I, -1]) false (by simp) rfl
  have h3 := v 1 (by norm_num) (by simp)
  refine ⟨fT, XT, e, l, ?_⟩
  have : unfoldedLength ([0, 1, 2] : List ℝ).length false - 1 = 3 := rfl
  rw [this] at h3
  rw [h3]
  simp

/-! ## Concrete cases: the hypotheses of the theorems above are met -/

example := fold_inverts_unfold (ts := [0, 1, 2, 3]) (f := [0, 1 / 4, 1 / 2]) (X := [1, Complex.I, -1]) false (by simp) rfl
  (uniform_check_accepts_uniform (by simp) (uniformAxis_of_steps (dt := 1) (by norm_num) fun i hi => by have : i < 3 := hi; interval_cases i <;> norm_num))
  rfl (by simp) (by simp)
example := (unfold_lengths (f := [0, 1 / 4, 1 / 2]) (X := [1, Complex.I]) true (by simp)).2.2 (by simp) (by simp)
example := coherence_lengths (f := [0, 1, 2]) (X1 := [1, 2, 3]) (X2 := [1, 2]) 1 (by simp) (by simp) (by simp)

end Verif
