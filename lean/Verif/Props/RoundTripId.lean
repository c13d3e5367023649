import Verif.Props.RoundTrip

/-! # C91: a spectrum on the harmonics of the record survives the round trip unchanged -/

namespace Verif

theorem harmonics_uniform {n : Nat} (hn : 0 < n) {dt : ℝ} (hdt : 0 < dt) :
    UniformAxis ((List.range (n + 1)).map fun (k : Nat) => (k : ℝ) / (2 * n * dt)) (1 / (2 * n * dt)) := by
  have hn' : (0 : ℝ) < n := by exact_mod_cast hn
  refine ⟨by positivity, fun i hi => ?_⟩
  rw [List.length_map, List.length_range] at hi
  rw [getD_map_range _ _ _ _ hi, getD_map_range _ _ _ _ (by omega)]
  push_cast; ring

/-- **C91.** Let a record have `2 n` samples with step `dt`.  Every spectrum on the harmonics `k / (2 n dt)`, `k = 0..n`, with
non-negative densities that vanish at zero frequency and at the Nyquist frequency, is accepted by the constructor; the series
created from it over `2 n` samples, with any random phases, has exactly that spectrum as its raw spectrum: `get_spectrum_raw`
returns an object equal to the one started from, so every parameter computed from it agrees. -/
theorem round_trip_identity (R : Rng) {n : Nat} (hn : 0 < n) {dt tstart : ℝ} (hdt : 0 < dt) {S : List ℝ}
    (hl : S.length = n + 1) (hpos : ∀ v ∈ S, 0 ≤ v) (h0 : S.getD 0 0 = 0) (hN : S.getD n 0 = 0) (g : R.State) :
    ∃ sp o g', SpecObj.init (vec ((List.range (n + 1)).map fun (k : Nat) => (k : ℝ) / (2 * n * dt))) (vec S) = .ok sp ∧
      sp.createSeries R tstart (tstart + (2 * n - 1) * dt) dt g = (.ok o, g') ∧ o.nt = 2 * n ∧
      o.getSpectrumRaw 0 = .ok sp := by
  set f := (List.range (n + 1)).map fun (k : Nat) => (k : ℝ) / (2 * n * dt) with hf
  have hn' : (1 : ℝ) ≤ n := by exact_mod_cast hn
  have hfl : f.length = S.length := by simp [hf, hl]
  have hu : UniformAxis f (1 / (2 * n * dt)) := harmonics_uniform hn hdt
  have hacc := uniform_check_accepts_uniform (by simp [hf]; omega) hu
  have hinc := uniform_check_increasing hacc
  have hne : f ≠ [] := by simp [hf]
  have hsp := (spectrum_init_iff_partial (isArr_vec f) (isArr_vec S) (s := _)).2 ⟨hacc, hfl, rfl⟩
  have ht : tstart < tstart + (2 * n - 1) * dt := by
    have : 0 < (2 * (n : ℝ) - 1) * dt := mul_pos (by linarith) hdt
    linarith
  obtain ⟨o, g', h1, h2, h3⟩ := spectrum_series_spectrum R (isArr_vec f) (isArr_vec S) hsp hpos hdt ht g
  have hnt : o.nt = 2 * n := by
    obtain ⟨t, x, o2, g2, b1, b2, -, -, b5, -⟩ := synth_object R (isArr_vec f) (.nd S) hfl hne hinc hpos hdt ht
      (seed := -1) (by norm_num) g
    have hoo : o2 = o := by
      have := b2.symm.trans h1
      simp only [Prod.mk.injEq, Except.ok.injEq] at this
      exact this.1
    obtain ⟨t', x', S'', φ, a1, a2, a3, a4, a5, a6, -⟩ := synth_formula R (isArr_vec f) (.nd S) hfl hne hinc hpos hdt ht.le
      (seed := -1) (by norm_num) g
    have htt : t' = t := by
      have := a1.symm.trans b1
      simp only [Prod.mk.injEq, Except.ok.injEq] at this
      exact this.1.1
    subst htt hoo
    rw [b5]
    rw [a4 _ (by omega)] at a5 a6
    have e1 : (2 * n - 1 : ℝ) ≤ ((t'.length - 1 : ℕ) : ℝ) := by
      refine le_of_mul_le_mul_right ?_ hdt; linarith
    have e2 : ((t'.length - 1 : ℕ) : ℝ) < 2 * n := by
      refine lt_of_mul_lt_mul_right ?_ hdt.le; linarith
    have e1' : 2 * n ≤ t'.length - 1 + 1 := by
      have : (2 * n : ℝ) ≤ ((t'.length - 1 : ℕ) : ℝ) + 1 := by linarith
      exact_mod_cast this
    have e2' : t'.length - 1 < 2 * n := by exact_mod_cast e2
    omega
  refine ⟨_, o, g', hsp, h1, hnt, ?_⟩
  obtain ⟨sp2, D, c1, c2, c3, c4, c5, c6, c7, c8⟩ := h3 n _ hnt (npInterp_spec hinc hfl)
  have hgrid : ∀ k ≤ n, npInterp f S ((k : ℝ) / (2 * n * dt)) = S.getD k 0 := by
    intro k hk
    have := (npInterp_spec hinc hfl).2.1 k (by rw [hfl, hl]; omega)
    have e : f.getD k 0 = (k : ℝ) / (2 * n * dt) := getD_map_range _ _ _ _ (by omega)
    rwa [e] at this
  have hD : D = S := by
    rw [eq_map_range_getD D 0, eq_map_range_getD S 0, c4, hl]
    refine List.map_congr_left fun k hk => ?_
    have hk := List.mem_range.1 hk
    rcases Nat.eq_zero_or_pos k with rfl | hk0
    · rw [c5, h0]
    · by_cases hkn : k < n
      · rw [c6 k hk0 hkn, hgrid k hkn.le]
      · have : k = n := by omega
        subst this
        rw [hgrid k le_rfl, hN] at c8
        rw [hN]; exact le_antisymm c8 c7
  rw [c1]
  have hraw := c1
  unfold SeriesObj.getSpectrumRaw at hraw
  rw [bind_ok] at hraw
  obtain ⟨⟨F, G⟩, -, hraw⟩ := hraw
  obtain ⟨-, -, e⟩ := (spectrum_init_iff_partial (isArr_vec F) (isArr_vec G)).1 hraw
  subst e
  simp only at c2 c3
  rw [Except.ok.injEq, c3, c2, hD]
  rfl

/-- Non-vacuity: a triangular spectrum on the harmonics of a record of 8 samples; the raw spectrum of any random series of it has
the same peak. -/
example (R : Rng) (g : R.State) : ∃ sp o g', SpecObj.init (vec ((List.range 5).map fun (k : Nat) => (k : ℝ) / (2 * (4 : ℕ) * 1))) (vec [0, 1, 2, 1, 0]) = .ok sp ∧
    sp.createSeries R 0 (0 + (2 * (4 : ℕ) - 1) * 1) 1 g = (.ok o, g') ∧ o.nt = 2 * 4 ∧ o.getSpectrumRaw 0 = .ok sp :=
  round_trip_identity R (by norm_num) one_pos rfl (by norm_num) rfl rfl g

end Verif
