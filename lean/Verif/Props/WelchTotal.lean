import Verif.Props.Welch

/-! # C96: what `get_spectrum(dfDesired)` does for every resolution -/

namespace Verif
open Complex

/-- **C96.**  For a valid series of `n` samples and every resolution `df > 0` let `N = round(1/(dt df))` and `v = round(N/2)` (ties to even).  With the
Hann window and the default `nfft`, `get_spectrum(dfDesired = df)`:
for `N = 0` uses segments of `min 256 n` samples with an overlap of half a segment;
for `N = 1` raises `IndexError` (a spectrum of one frequency is not accepted);
for `N ≥ 2` and `v < n` uses segments of `min N n` samples with an overlap of `v` samples;
for `N ≥ 2` and `v ≥ n` raises `ValueError`.  The explicit segment length and overlap are ignored. -/
theorem get_spectrum_total {pt px : PyIn ℝ} {t x : List ℝ} {dt : ℝ} (ht : pt.IsVec t) (hx : px.IsVec x) (h2 : 2 ≤ t.length)
    (hlen : t.length = x.length) (hu : UniformAxis t dt) {df : ℝ} (hdf : 0 < df) (nps nov : Int) :
    ∃ (s : SeriesObj ℝ) (N v : Nat), SeriesObj.init pt px = .ok s ∧ IsRounded (N : Int) (1 / (dt * df)) ∧ IsRounded (v : Int) ((N : ℝ) / 2) ∧
      (N = 0 → ∃ sp S, s.getSpectrum nps nov 0 "hann" df true = .ok sp ∧ sp.sVarDens = arr1 S ∧
        IsWelch x dt (hann (min 256 x.length)) (min 256 x.length) (min 256 x.length / 2) (min 256 x.length) sp.f S) ∧
      (N = 1 → s.getSpectrum nps nov 0 "hann" df true = .error .indexError) ∧
      (2 ≤ N → v < x.length → ∃ sp S, s.getSpectrum nps nov 0 "hann" df true = .ok sp ∧ sp.sVarDens = arr1 S ∧
        IsWelch x dt (hann (min N x.length)) (min N x.length) v (min N x.length) sp.f S) ∧
      (2 ≤ N → x.length ≤ v → s.getSpectrum nps nov 0 "hann" df true = .error (.valueError "noverlap must be less than nperseg.")) := by
  obtain ⟨s, -, -, -, hs, -, hsx, -, hsd, -⟩ := series_never_fails ht hx h2 hlen hu
  have hdt := hu.1
  obtain ⟨N, hN⟩ : ∃ N : Nat, roundHalfEven (1 / dt / df) = N := by
    have h3 := roundHalfEven_near (1 / dt / df)
    rw [abs_le] at h3
    have : 0 < 1 / dt / df := by positivity
    have b : (-1 : ℝ) < (roundHalfEven (1 / dt / df) : ℝ) := by linarith
    have b' : -1 < roundHalfEven (1 / dt / df) := by exact_mod_cast b
    exact ⟨(roundHalfEven (1 / dt / df)).toNat, by omega⟩
  obtain ⟨v, hv, hv1, hv2⟩ := roundHalf_half N
  have hxne : x ≠ [] := by rintro rfl; rw [List.length_nil] at hlen; omega
  have hform : s.getSpectrum nps nov 0 "hann" df true =
      (do let (f, S) ← welch x (1 / dt) "hann" (if (N : Int) = 0 then none else some (N : Int)) (if (v : Int) = 0 then none else some (v : Int)) none
          SpecObj.init (vec f) (vec S)) := by
    unfold SeriesObj.getSpectrum
    rw [sig_of hsx]
    simp only [bind, Except.bind, if_true]
    rw [if_neg (by rw [hsd]; intro h; rcases h with h | h <;> linarith), hsd, hN]
    simp only [Int.cast_natCast]
    rw [hv]
    unfold welchWrapper
    rw [if_neg hdt.ne']
    dsimp only
    rw [if_pos rfl]
  have hNr : IsRounded (N : Int) (1 / (dt * df)) := by
    have := roundHalfEven_spec (1 / dt / df)
    rwa [hN, div_div] at this
  have hvr : IsRounded (v : Int) ((N : ℝ) / 2) := hv ▸ roundHalfEven_spec _
  refine ⟨s, N, v, hs, hNr, hvr, ?_, ?_, ?_, ?_⟩
  · rintro rfl
    have hv0 : v = 0 := by
      have h00 : roundHalfEven (((0 : ℕ) : ℝ) / 2) = 0 := by unfold roundHalfEven; norm_num
      rw [h00] at hv; omega
    subst hv0
    obtain ⟨f, S, hW, hI⟩ := welch_ok (x := x) hxne (dt := dt) (window := "hann") (nperseg := none) (noverlap := none) (nfft := none)
      (N := min 256 x.length) (v := min 256 x.length / 2) (M := min 256 x.length) (w := hann (min 256 x.length)) (by simp)
      (by simp) (by unfold getWindow; rw [if_pos rfl]) (hann_length _) (by rfl) le_rfl (by rfl) (by omega)
    refine ⟨{ f := f, sVarDens := ⟨[S.length], S⟩, nf := f.length }, S, ?_, rfl, hI⟩
    rw [hform, if_pos (by simp), hW]
    exact welch_spectrum hI (by omega) hdt
  · rintro rfl
    have hv0 : v = 0 := by
      have h00 : roundHalfEven (((1 : ℕ) : ℝ) / 2) = 0 := by
        unfold roundHalfEven; norm_num
      rw [h00] at hv; omega
    subst hv0
    obtain ⟨f, S, hW, hI⟩ := welch_ok (x := x) hxne (dt := dt) (window := "hann") (nperseg := some 1) (noverlap := none) (nfft := none)
      (N := 1) (v := 0) (M := 1) (w := hann 1) (by simp)
      (by rw [Option.getD_some, Int.toNat_one]; omega) (by unfold getWindow; rw [if_pos rfl]) (hann_length _) (by rfl) le_rfl (by rfl) (by omega)
    rw [hform, if_neg (by simp), if_pos (by simp), Nat.cast_one, hW]
    have hf1 : f.length = 1 := by rw [hI.freq]; simp
    simp only [bind, Except.bind]
    unfold SpecObj.init
    obtain ⟨a, -⟩ := toVector_of_isArr (isArr_vec f)
    rw [show toVector (vec f) = ((toVector (vec f)).1, (toVector (vec f)).2) from rfl, a]
    dsimp only
    rw [uniform_check_short (by omega)]
  · intro hN2 hvx
    have hvN : v < min N x.length := by omega
    obtain ⟨f, S, hW, hI⟩ := welch_ok (x := x) hxne (dt := dt) (window := "hann") (nperseg := some (N : Int)) (noverlap := some (v : Int)) (nfft := none)
      (N := min N x.length) (v := v) (M := min N x.length) (w := hann (min N x.length)) (by rw [Option.getD_some]; omega)
      (by rw [Option.getD_some, Int.toNat_natCast]) (by unfold getWindow; rw [if_pos rfl]) (hann_length _)
      (by rfl) le_rfl (by rfl) (by exact_mod_cast hvN)
    refine ⟨{ f := f, sVarDens := ⟨[S.length], S⟩, nf := f.length }, S, ?_, rfl, hI⟩
    rw [hform, if_neg (by omega), if_neg (by omega), hW]
    exact welch_spectrum hI (by omega) hdt
  · intro hN2 hvx
    rw [hform, if_neg (by omega), if_neg (by omega)]
    unfold welch
    rw [if_neg hxne, Option.getD_some, if_neg (by omega)]
    dsimp only
    unfold getWindow
    rw [if_pos rfl]
    dsimp only
    rw [Int.toNat_natCast, Nat.min_eq_right (by omega), Option.getD_none, Option.getD_some, if_neg (by omega), if_pos (by omega)]
    rfl

/-- Non-vacuity: three samples, one second apart.  With `df = 1/4` the segment has 3 samples with an overlap of 2; with `df = 1/6` the overlap is
3 samples and `ValueError` is raised; with `df = 1` it is `IndexError`. -/
example : ∃ s : SeriesObj ℝ, SeriesObj.init (vec [0, 1, 2]) (vec [1, -1, 1]) = .ok s ∧
    (∃ sp S, s.getSpectrum 256 0 0 "hann" (1 / 4) true = .ok sp ∧ sp.sVarDens = arr1 S ∧ IsWelch [1, -1, 1] 1 (hann 3) 3 2 3 sp.f S) ∧
    s.getSpectrum 256 0 0 "hann" (1 / 6) true = .error (.valueError "noverlap must be less than nperseg.") ∧
    s.getSpectrum 256 0 0 "hann" 1 true = .error .indexError := by
  have hu : UniformAxis ([0, 1, 2] : List ℝ) 1 := by
    refine ⟨by norm_num, ?_⟩
    intro i hi
    simp only [List.length_cons, List.length_nil] at hi
    have : i = 0 ∨ i = 1 := by omega
    rcases this with rfl | rfl <;> norm_num
  have g := fun (df : ℝ) (hdf : 0 < df) => get_spectrum_total (isVec_vec [0, 1, 2]) (isVec_vec [1, -1, 1]) (by simp) rfl hu hdf 256 0
  obtain ⟨s, N, v, hs, hN, hv, -, -, h3, -⟩ := g (1 / 4) (by norm_num)
  obtain ⟨s', N', v', hs', hN', hv', -, -, -, h4⟩ := g (1 / 6) (by norm_num)
  obtain ⟨s'', N'', v'', hs'', hN'', hv'', -, h1, -, -⟩ := g 1 (by norm_num)
  obtain rfl : s = s' := Except.ok.inj (hs.symm.trans hs')
  obtain rfl : s = s'' := Except.ok.inj (hs.symm.trans hs'')
  have e : ∀ (k : ℕ) (y : ℝ), y = k → IsRounded (k : Int) y := by
    rintro k y rfl
    refine ⟨by simp, fun h => ?_⟩
    simp at h
  have r4 : N = 4 := by exact_mod_cast isRounded_unique hN (e 4 _ (by norm_num))
  have r6 : N' = 6 := by exact_mod_cast isRounded_unique hN' (e 6 _ (by norm_num))
  have r1 : N'' = 1 := by exact_mod_cast isRounded_unique hN'' (e 1 _ (by norm_num))
  subst r4 r6 r1
  have w4 : v = 2 := by exact_mod_cast isRounded_unique hv (e 2 _ (by norm_num))
  have w6 : v' = 3 := by exact_mod_cast isRounded_unique hv' (e 3 _ (by norm_num))
  subst w4 w6
  exact ⟨s, hs, h3 (by norm_num) (by simp), h4 (by norm_num) (by simp), h1 rfl⟩

end Verif
