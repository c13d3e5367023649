import Verif.Props.WelchSine
import Verif.Props.RecordHeight
import Verif.Props.RawInvariance

/-! # C153: the Welch spectrum with a rectangular window is the average of the raw spectra of the segments -/

set_option linter.unusedSectionVars false

namespace Verif
open Finset

/-- The Fourier coefficients of a rectangular segment: those of the samples, without the mean. -/
theorem boxcar_coef {seg : List ℝ} {N : Nat} (hl : seg.length = N) (hN : 0 < N) {k : Nat} (hk : k < N) :
    fwd N (fun j => ((tapered (List.replicate N 1) seg j : ℝ) : ℂ)) k = if k = 0 then 0 else coef seg k := by
  have e : fwd N (fun j => ((tapered (List.replicate N 1) seg j : ℝ) : ℂ)) k = coef (seg.map fun v => v + -mean seg) k := by
    unfold coef
    rw [List.length_map, hl]
    refine fwd_congr (fun j hj => ?_) k
    beta_reduce
    unfold tapered
    rw [if_pos (by omega)]
    have h1 : (List.replicate N (1 : ℝ)).getD j 0 = 1 := by
      rw [List.getD, List.getElem?_replicate, if_pos hj]; rfl
    have h2 : (seg.map fun v => v + -mean seg).getD j 0 = seg.getD j 0 + -mean seg := by
      rw [List.getD, List.getD, List.getElem?_map, List.getElem?_eq_getElem (by omega)]; rfl
    rw [h1, h2, one_mul, sub_eq_add_neg]
  rw [e]
  split_ifs with h0
  · subst h0
    rw [coef_zero]
    have : (seg.map fun v => v + -mean seg).sum = 0 := by
      have h3 : ∀ (l : List ℝ) (c : ℝ), (l.map fun v => v + c).sum = l.sum + l.length * c := by
        intro l c
        induction l with
        | nil => simp
        | cons a l ih => rw [List.map_cons, List.sum_cons, ih, List.sum_cons, List.length_cons]; push_cast; ring
      rw [h3, hl]
      unfold mean
      rw [hl]
      have : (N : ℝ) ≠ 0 := by positivity
      field_simp
      ring
    rw [this]; simp
  · exact coef_add_const _ (by omega) (by omega)

/-- A part of a uniform axis is uniform. -/
theorem segment_axis {t : List ℝ} {dt : ℝ} (hu : UniformAxis t dt) {N i : Nat} {v : Int} (h : i * ((N : Int) - v).toNat + N ≤ t.length) :
    UniformAxis (segment t N v i) dt := by
  have hl : (segment t N v i).length = N := by
    unfold segment pySlice; rw [List.length_drop, List.length_take]; omega
  have hg : ∀ j < N, (segment t N v i).getD j 0 = t.getD (i * ((N : Int) - v).toNat + j) 0 := by
    intro j hj
    unfold segment pySlice
    rw [List.getD, List.getElem?_drop, List.getElem?_take, if_pos (by omega)]; rfl
  refine ⟨hu.1, fun j hj => ?_⟩
  rw [hl] at hj
  rw [hg _ hj, hg _ (by omega), ← add_assoc]
  exact hu.2 _ (by omega)

theorem mean_half {l : List Nat} {f g : Nat → ℝ} (h : ∀ i ∈ l, f i = g i / 2) : mean (l.map f) = mean (l.map g) / 2 := by
  have : (l.map f).sum = (l.map g).sum / 2 := by
    induction l with
    | nil => simp
    | cons a l ih =>
      rw [List.map_cons, List.sum_cons, List.map_cons, List.sum_cons, ih fun i hi => h i (List.mem_cons_of_mem _ hi), h a List.mem_cons_self]
      ring
  unfold mean
  rw [this, List.length_map, List.length_map]
  ring

/-- **C153.**  With a rectangular window, whatever the segment length and overlap, the Welch spectrum of a series has the frequency axis of the raw
spectra of its segments and, between zero and the Nyquist frequency, the average of their densities; its density at zero is 0 and at the Nyquist
frequency half the average. -/
theorem welch_boxcar {pt px : PyIn ℝ} {t x : List ℝ} {dt : ℝ} (ht : pt.IsVec t) (hx : px.IsVec x) (hlen : t.length = x.length)
    (hu : UniformAxis t dt) {nps N : Nat} {nov v : Int} (hN : N = min (if nps = 0 then 256 else nps) x.length) (hv : v = if nov = 0 then ((N / 2 : Nat) : Int) else nov)
    (hN2 : 2 ≤ N) (hvN : v < N) (df : ℝ) :
    ∃ s sp S, ∃ G : Nat → List ℝ, SeriesObj.init pt px = .ok s ∧ s.getSpectrum nps nov 0 "boxcar" df false = .ok sp ∧ sp.sVarDens = arr1 S ∧ S.length = N / 2 + 1 ∧
      (∀ i < nSegments x.length N v, ∃ si r, SeriesObj.init (vec (segment t N v i)) (vec (segment x N v i)) = .ok si ∧
        si.getSpectrumRaw 0 = .ok r ∧ r.f = sp.f ∧ r.sVarDens = arr1 (G i)) ∧
      (∀ k : Nat, 0 < k → 2 * k < N → S.getD k 0 = mean ((List.range (nSegments x.length N v)).map fun i => (G i).getD k 0)) ∧
      S.getD 0 0 = 0 ∧ (N % 2 = 0 → S.getD (N / 2) 0 = mean ((List.range (nSegments x.length N v)).map fun i => (G i).getD (N / 2) 0) / 2) := by
  have hNx : N ≤ x.length := by rw [hN]; exact Nat.min_le_right _ _
  obtain ⟨s, sp, S, hs, hsp, hS, hW⟩ := get_spectrum_explicit (nfft := 0) ht hx (by omega) hlen hu hN (M := N) (by simp) hv (by omega) hN2 le_rfl hvN
    (window := "boxcar") (w := List.replicate N 1) (by simp [getWindow]) df
  have hdt := hu.1
  have hNr : (N : ℝ) ≠ 0 := by have : 0 < N := by omega
                               positivity
  have hw : ∑ j ∈ range N, (List.replicate N (1 : ℝ)).getD j 0 ^ 2 = N := by
    rw [Finset.sum_congr rfl (g := fun _ => (1 : ℝ))]
    · simp
    · intro j hj
      rw [List.getD, List.getElem?_replicate, if_pos (Finset.mem_range.1 hj)]; norm_num
  have hbin : ∀ i < nSegments x.length N v, ∀ k : Nat, 0 < k → k < N → rawBin (segment x N v i) dt k =
      2 * Complex.normSq (fwd N (fun j => ((tapered (List.replicate N 1) (segment x N v i) j : ℝ) : ℂ)) k) * dt / N := by
    intro i hi k h0 hk
    obtain ⟨hl, -⟩ := segment_length (x := x) (nov := v) hNx hi
    rw [boxcar_coef hl (by omega) hk, if_neg (by omega)]
    unfold rawBin
    rw [← coef_eq_sum, hl]
  refine ⟨s, sp, S, fun i => (List.range (N / 2 + 1)).map (rawBin (segment x N v i) dt), hs, hsp, hS, hW.len, ?_, ?_, ?_, ?_⟩
  · intro i hi
    obtain ⟨hl, hb⟩ := segment_length (x := x) (nov := v) hNx hi
    have hlt : (segment t N v i).length = N := (segment_length (x := t) (nov := v) (by omega) (by rwa [hlen])).1
    have hax := segment_axis hu (N := N) (v := v) (i := i) (by omega)
    obtain ⟨si, -, -, -, hsi, -⟩ := series_never_fails (isVec_vec (segment t N v i)) (isVec_vec (segment x N v i)) (by omega) (by omega) hax
    obtain ⟨hV, -⟩ := validSeries_of_init (isVec_vec _) (isVec_vec _) (by omega) (by omega) hax hsi
    obtain ⟨F, G, hF, hG, -, hr⟩ := raw_object hV
    rw [hl] at hF hG
    refine ⟨si, _, hsi, hr, ?_, ?_⟩
    · dsimp only; rw [hF, hW.freq]
    · dsimp only; rw [hG]; rfl
  · intro k h0 hk
    rw [hW.dens k (by omega)]
    congr 1
    refine List.map_congr_left fun i hi => ?_
    rw [getD_map_range _ _ _ _ (by omega), hbin i (List.mem_range.1 hi) k h0 (by omega), if_neg (by omega), if_neg (by omega), hw]
  · rw [hW.dens 0 (by omega)]
    have : ∀ l : List Nat, (∀ i ∈ l, i < nSegments x.length N v) → (l.map fun i =>
        (if 0 = 0 then 1 else if N % 2 = 0 ∧ 0 = N / 2 then 1 else 2) *
          Complex.normSq (fwd N (fun j => ((tapered (List.replicate N 1) (segment x N v i) j : ℝ) : ℂ)) 0) * dt /
            ∑ j ∈ range N, (List.replicate N (1 : ℝ)).getD j 0 ^ 2) = List.replicate l.length 0 := by
      intro l hl
      rw [List.eq_replicate_iff]
      refine ⟨by simp, fun b hb => ?_⟩
      obtain ⟨i, hi, rfl⟩ := List.mem_map.1 hb
      rw [boxcar_coef (segment_length (x := x) (nov := v) hNx (hl i hi)).1 (by omega) (by omega), if_pos rfl]
      simp
    rw [this _ fun i hi => List.mem_range.1 hi]
    unfold mean
    simp
  · intro he
    rw [hW.dens _ (by omega)]
    refine mean_half fun i hi => ?_
    rw [getD_map_range _ _ _ _ (by omega), hbin i (List.mem_range.1 hi) (N / 2) (by omega) (by omega), if_neg (by omega), if_pos ⟨he, rfl⟩, hw]
    ring

/-- **C153 (one segment).**  With one rectangular segment as long as the record, the Welch spectrum is the raw spectrum, except that the density at
zero is 0 and that at the Nyquist frequency (even number of samples) is half. -/
theorem welch_whole_record {pt px : PyIn ℝ} {t x : List ℝ} {dt : ℝ} (ht : pt.IsVec t) (hx : px.IsVec x) (h2 : 2 ≤ t.length) (hlen : t.length = x.length)
    (hu : UniformAxis t dt) {nps : Nat} {nov : Int} (hnps : x.length ≤ nps) (hnov : nov < x.length) (df : ℝ) :
    ∃ s sp r S G, SeriesObj.init pt px = .ok s ∧ s.getSpectrum nps nov 0 "boxcar" df false = .ok sp ∧ s.getSpectrumRaw 0 = .ok r ∧ r.f = sp.f ∧
      sp.sVarDens = arr1 S ∧ r.sVarDens = arr1 G ∧ S.length = G.length ∧ S.getD 0 0 = 0 ∧
      (∀ k : Nat, 0 < k → 2 * k < x.length → S.getD k 0 = G.getD k 0) ∧ (x.length % 2 = 0 → S.getD (x.length / 2) 0 = G.getD (x.length / 2) 0 / 2) := by
  obtain ⟨s, sp, S, G, hs, hsp, hS, hSl, hr, hd, h0, hny⟩ := welch_boxcar ht hx hlen hu (nps := nps) (nov := nov) (N := x.length)
    (v := if nov = 0 then ((x.length / 2 : Nat) : Int) else nov) (by rw [if_neg (by omega), Nat.min_eq_right hnps]) rfl (by omega) (by split_ifs <;> omega) df
  set v : Int := if nov = 0 then ((x.length / 2 : Nat) : Int) else nov
  have hn : nSegments x.length x.length v = 1 := by unfold nSegments; simp
  have hsegx : segment x x.length v 0 = x := by unfold segment pySlice; simp
  have hsegt : segment t x.length v 0 = t := by unfold segment pySlice; rw [← hlen]; simp
  obtain ⟨si, r, k1, k2, k3, k4⟩ := hr 0 (by rw [hn]; exact one_pos)
  rw [hsegx, hsegt] at k1
  obtain ⟨hV, -, -⟩ := validSeries_of_init ht hx h2 hlen hu hs
  obtain ⟨hV', -, -⟩ := validSeries_of_init (isVec_vec t) (isVec_vec x) h2 hlen hu k1
  obtain ⟨F, G1, hF, hG, -, e1⟩ := raw_object hV
  obtain ⟨F', G', hF', hG', -, e2⟩ := raw_object hV'
  have er : s.getSpectrumRaw 0 = .ok r := by
    rw [e1, hF, hG, ← hF', ← hG', ← e2, k2]
  have m1 : ∀ a : ℝ, mean [a] = a := fun a => by unfold mean; simp
  have hGl : (G 0).length = x.length / 2 + 1 := by
    rw [e2] at k2
    have := Except.ok.inj k2
    rw [← this] at k4
    have := congrArg (fun a : Arr ℝ => a.data.length) k4
    dsimp only [arr1] at this
    rw [← this, hG']; simp
  simp only [hn, List.range_one, List.map_cons, List.map_nil, m1] at hd hny
  exact ⟨s, sp, r, S, G 0, hs, hsp, er, k3, hS, k4, by rw [hSl, hGl], h0, hd, hny⟩

/-- A record of six samples in rectangular segments of four, two apart, and as a whole. -/
example : ∃ s sp, SeriesObj.init (vec [0, 1, 2, 3, 4, 5]) (vec [1, 0, 5, 2, 2, 7]) = .ok s ∧ s.getSpectrum (4 : ℕ) (2 : ℕ) 0 "boxcar" 0 false = .ok sp ∧
    ∃ s sp r : _, SeriesObj.init (vec [0, 1, 2, 3, 4, 5]) (vec [1, 0, 5, 2, 2, 7]) = .ok s ∧ s.getSpectrum (6 : ℕ) (0 : ℕ) 0 "boxcar" 0 false = .ok sp ∧
      s.getSpectrumRaw 0 = .ok r ∧ r.f = sp.f := by
  have hu : UniformAxis ([0, 1, 2, 3, 4, 5] : List ℝ) 1 := uniformAxis_of_steps one_pos fun i hi => by
    have : i < 5 := hi
    interval_cases i <;> norm_num
  obtain ⟨s, sp, S, G, h1, h2, -⟩ := welch_boxcar (isVec_vec [0, 1, 2, 3, 4, 5]) (isVec_vec [1, 0, 5, 2, 2, 7]) rfl hu (nps := 4) (nov := 2) (N := 4)
    (v := 2) (by simp) (by simp) (by norm_num) (by norm_num) 0
  obtain ⟨s', sp', r, S', G', k1, k2, k3, k4, -⟩ := welch_whole_record (isVec_vec [0, 1, 2, 3, 4, 5]) (isVec_vec [1, 0, 5, 2, 2, 7]) (by simp) rfl hu
    (nps := 6) (nov := 0) (by simp) (by simp) 0
  exact ⟨s, sp, h1, h2, s', sp', r, k1, k2, k3, k4⟩

end Verif
