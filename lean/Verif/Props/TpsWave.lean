import Verif.Props.WelchSea
import Verif.Props.TpsTotal

/-! # C155: the smoothed peak period against the peak period -/

set_option linter.unusedSectionVars false

namespace Verif
open Finset

/-- With the default limits the whole spectrum is used. -/
theorem bandSlice_all {f S : List ℝ} (hp : f.Pairwise (· < ·)) (hf : f ≠ []) (hl : f.length = S.length) :
    bandSlice f S (f.getD 0 0) (.fin (f.getD (f.length - 1) 0)) = .ok (f, S) := by
  have hpos : 0 < f.length := List.length_pos_iff.2 hf
  have hin : ∀ k < f.length, k < f.length ∧ f.getD 0 0 ≤ f.getD k 0 ∧ (FMax.fin (f.getD (f.length - 1) 0)).ge (f.getD k 0) = true := by
    intro k hk
    refine ⟨hk, inc_le hp (Nat.zero_le k) hk, ?_⟩
    simp only [FMax.ge, decide_eq_true_eq]
    exact inc_le hp (by omega) (by omega)
  obtain ⟨r, hr⟩ := bandSlice_defined (S := S) (hin 0 hpos)
  obtain ⟨i, j, hj, e, h⟩ := bandSlice_spec hp hr
  have hi : i = 0 := by have := (h 0).2 (hin 0 hpos); omega
  have hj' : j + 1 = f.length := by have := (h (f.length - 1)).2 (hin _ (by omega)); omega
  rw [hr, e, hi, hj']
  unfold pySlice
  simp [hl]

/-- `get_Tps()` is `compute_tps` of the whole spectrum. -/
theorem getTps_default {pf pS : PyIn ℝ} {f S : List ℝ} (hf : pf.IsArr f) (hS : pS.IsArr S) {s : SpecObj} (hs : SpecObj.init pf pS = .ok s) :
    (s.getTps (-1) (.fin (-1))).1 = computeTps (vec f) (vec S) := by
  obtain ⟨hm, hl, rfl⟩ := (spectrum_init_iff_partial hf hS).1 hs
  show calcTps f ⟨[S.length], S⟩ (-1) (.fin (-1)) = _
  unfold calcTps
  rw [getD_default_limits]
  dsimp only
  rw [if_neg (by simp), bandSlice_all (uniform_check_increasing hm) (by
    rintro rfl; simp [monotonicIncreasingConstantStep, diff] at hm) hl]
  rfl

/-- **C155.**  On a spectrum with equidistant non-negative frequencies whose largest density (at least `1e-10`) is attained at one grid point, with
neighbours on both sides, `get_Tp()` is the inverse of its frequency and `get_Tps()` that of a frequency `F` less than half a step away, on the side
of the higher neighbour; the two agree exactly if the neighbours are equal. -/
theorem tps_side {pf pS : PyIn ℝ} {f S : List ℝ} {h : ℝ} (hf : pf.IsArr f) (hS : pS.IsArr S) (hu : UniformAxis f h) (h0 : 0 ≤ f.getD 0 0) {i : Nat}
    (hm : IsOnlyMaxAt S i) (hi : 0 < i) (hi' : i + 1 < f.length) (hbig : 1 / 10 ^ 10 ≤ S.getD i 0) {s : SpecObj} (hs : SpecObj.init pf pS = .ok s) :
    ∃ F, (s.getTp (-1) (.fin (-1))).1 = .ok (1 / f.getD i 0) ∧ (s.getTps (-1) (.fin (-1))).1 = .ok (1 / F) ∧ 0 < F ∧ |F - f.getD i 0| < h / 2 ∧
      (f.getD i 0 < F ↔ S.getD (i - 1) 0 < S.getD (i + 1) 0) ∧ (F < f.getD i 0 ↔ S.getD (i + 1) 0 < S.getD (i - 1) 0) ∧
      (F = f.getD i 0 ↔ S.getD (i - 1) 0 = S.getD (i + 1) 0) := by
  obtain ⟨hmono, hl, -⟩ := (spectrum_init_iff_partial hf hS).1 hs
  have hp := uniform_check_increasing hmono
  obtain ⟨F, e1, e2, e3, e4⟩ := tps_interior (isArr_vec f) (isArr_vec S) hl hu h0 hm hi hi' hbig
  have hh := hu.1
  have a1 := hm.2 (i - 1) (by omega) (by omega)
  have a2 := hm.2 (i + 1) (by omega) (by omega)
  have hc : 0 < 2 * (2 * S.getD i 0 - S.getD (i - 1) 0 - S.getD (i + 1) 0) := by linarith
  set d := S.getD (i + 1) 0 - S.getD (i - 1) 0 with hd
  have hF : F - f.getD i 0 = h / (2 * (2 * S.getD i 0 - S.getD (i - 1) 0 - S.getD (i + 1) 0)) * d := by rw [e4]; ring
  have hk : 0 < h / (2 * (2 * S.getD i 0 - S.getD (i - 1) 0 - S.getD (i + 1) 0)) := div_pos hh hc
  set κ := h / (2 * (2 * S.getD i 0 - S.getD (i - 1) 0 - S.getD (i + 1) 0))
  refine ⟨F, ?_, (getTps_default hf hS hs).trans e1, e2, e3, ?_, ?_, ?_⟩
  · refine get_Tp_complete hf hS hs ⟨i, ⟨by omega, Or.inl rfl, Or.inl rfl⟩, ?_, rfl, fun l hlr => ?_⟩
    · have := inc_lt hp hi (by omega : i < f.length); exact (lt_of_le_of_lt h0 this).ne'
    · by_cases e : l = i
      · rw [e]; exact ⟨le_rfl, fun hlt => absurd hlt (lt_irrefl _)⟩
      · have := hm.2 l (by have := hlr.1; omega) e
        exact ⟨this.le, fun _ => this⟩
  · rw [← sub_pos, hF, mul_pos_iff_of_pos_left hk, hd, sub_pos]
  · rw [← sub_neg, hF, ← sub_neg (a := S.getD (i + 1) 0), ← hd]
    exact ⟨fun h => by by_contra hc; have := mul_nonneg hk.le (not_lt.1 hc); linarith, fun h => mul_neg_of_pos_of_neg hk h⟩
  · rw [← sub_eq_zero, hF, mul_eq_zero, or_iff_right hk.ne', hd, sub_eq_zero]
    exact eq_comm

/-- **C155 (raw spectrum of a regular wave).**  For a record with a whole number `p` of regular waves (not in the last bins of the axis; the density
at least `1e-10`) the smoothed peak period of the raw spectrum is exactly the period. -/
theorem tps_sinusoid {s : SeriesObj ℝ} {t : List ℝ} {dt a φ : ℝ} {N p : Nat} (hp : 0 < p) (hpN : p + 1 ≤ N / 2)
    (hbig : 1 / 10 ^ 10 ≤ a ^ 2 / 2 * (N * dt)) (h : ValidSeries s t (sinusoid N p a φ) dt) :
    ∃ sp, s.getSpectrumRaw 0 = .ok sp ∧ (sp.getTps (-1) (.fin (-1))).1 = .ok (N * dt / p) := by
  have hl : (sinusoid N p a φ).length = N := by simp [sinusoid]
  have hdt := h.axis.1
  have hN : (0 : ℝ) < N := by exact_mod_cast (by omega : 0 < N)
  have hp' : (0 : ℝ) < p := by exact_mod_cast hp
  obtain ⟨F, G, hF, hG, hu, hsp⟩ := raw_object h
  rw [hl] at hF hG hu
  have hFl : F.length = N / 2 + 1 := by simp [hF]
  have hGl : G.length = N / 2 + 1 := by simp [hG]
  have hFg : ∀ k, k < N / 2 + 1 → F.getD k 0 = (k : ℝ) / (N * dt) := fun k hk => by
    rw [hF, getD_map_range (fun (k : Nat) => (k : ℝ) / (N * dt)) _ k 0 hk]
  have hGg : ∀ k, k < N / 2 + 1 → G.getD k 0 = if k = p then a ^ 2 / 2 * (N * dt) else 0 := fun k hk => by
    rw [hG, getD_map_range (rawBin (sinusoid N p a φ) dt) _ k 0 hk, rawBin_sinusoid hp (by omega) a φ dt (by omega)]
  have hF0 : F.getD 0 0 = 0 := by rw [hFg 0 (by omega)]; simp
  refine ⟨_, hsp, ?_⟩
  have hi : SpecObj.init (vec F) (vec G) = .ok { f := F, sVarDens := ⟨[G.length], G⟩, nf := F.length } :=
    (spectrum_init_iff_partial (isArr_vec F) (isArr_vec G)).2 ⟨uniform_check_accepts_uniform (by omega) hu, by omega, rfl⟩
  have hpos : 0 < a ^ 2 / 2 * (N * dt) := lt_of_lt_of_le (by norm_num) hbig
  have hmax : IsOnlyMaxAt G p := ⟨by omega, fun k hk hne => by rw [hGg k (by omega), hGg p (by omega), if_pos rfl, if_neg hne]; exact hpos⟩
  obtain ⟨F', -, e2, -, -, -, -, e⟩ := tps_side (isArr_vec F) (isArr_vec G) hu hF0.ge hmax hp (by omega) (by rw [hGg p (by omega), if_pos rfl]; exact hbig) hi
  rw [e2, e.2 (by rw [hGg _ (by omega), hGg _ (by omega), if_neg (by omega), if_neg (by omega)]), hFg p (by omega), one_div_div]

/-- **C155 (Welch spectrum of regular waves).**  For the seas of C154 the smoothed peak period is exactly the period of the wave with the largest
amplitude (if its density reaches `1e-10`). -/
theorem tps_sea {N : Nat} {dt : ℝ} {cs : List Comp} {sp : SpecObj} (hcs : ∀ q ∈ cs, FitsSegment N q) (hap : Apart cs) (hdt : 0 < dt) (hN : 5 ≤ N)
    (h : WelchSea sp N dt cs) (hi : ∃ f S : List ℝ, SpecObj.init (vec f) (vec S) = .ok sp) {q : Comp} (hq : q ∈ cs)
    (hmax : ∀ r ∈ cs, r.p ≠ q.p → |r.a| < |q.a|) (hbig : 1 / 10 ^ 10 ≤ q.a ^ 2 / 3 * (N * dt)) :
    (sp.getTps (-1) (.fin (-1))).1 = .ok (N * dt / q.p) := by
  obtain ⟨S, hS, ⟨hF, hl, hd⟩, -⟩ := h.lines
  obtain ⟨f', S', hi⟩ := hi
  have hi' := (spectrum_init_iff_partial (isArr_vec f') (isArr_vec S')).1 hi
  have e1 : sp.f = f' := by rw [hi'.2.2]
  have e2 : S' = S := by
    have : sp.sVarDens = arr1 S' := by rw [hi'.2.2]; rfl
    rw [this] at hS
    exact congrArg Arr.data hS
  rw [e1] at hF
  subst e2
  obtain ⟨hp, hpN⟩ := hcs q hq
  have hNr : (0 : ℝ) < N := by exact_mod_cast (by omega : 0 < N)
  have hND : 0 < N * dt := by positivity
  have hFl : f'.length = N / 2 + 1 := by simp [hF]
  have hFg : ∀ k, k < N / 2 + 1 → f'.getD k 0 = (k : ℝ) / (N * dt) := fun k hk => by
    rw [hF, getD_map_range (fun (k : Nat) => (k : ℝ) / (N * dt)) _ k 0 hk]
  have hF0 : f'.getD 0 0 = 0 := by rw [hFg 0 (by omega)]; simp
  have hu : UniformAxis f' (1 / (N * dt)) := by rw [hF]; exact freq_uniform (by omega) hdt
  -- near `q` there is only `q`
  have near : ∀ k < N / 2 + 1, (k = q.p ∨ k + 1 = q.p ∨ k = q.p + 1) → S'.getD k 0 = lineDens N dt q k := by
    intro k hk hkq
    rw [hd k hk]
    have pos : q.a ^ 2 ≠ 0 := by
      intro h0; rw [h0] at hbig; norm_num at hbig
    have hq0 : lineDens N dt q k ≠ 0 := by
      unfold lineDens
      split_ifs
      · exact mul_ne_zero (div_ne_zero pos (by norm_num)) hND.ne'
      · exact mul_ne_zero (div_ne_zero pos (by norm_num)) hND.ne'
      · tauto
    rcases sea_local (N := N) (dt := dt) hap k with h | ⟨r, hr, h1, h2⟩
    · exact absurd (h q hq) hq0
    · by_cases e : r = q
      · rw [h2, e]
      · have := apart_ne hap hr hq e
        omega
  have hSp : S'.getD q.p 0 = q.a ^ 2 / 3 * (N * dt) := by
    rw [near q.p (by omega) (Or.inl rfl)]; unfold lineDens; rw [if_pos rfl]
  have h0 : 0 < q.a ^ 2 / 3 * (N * dt) := lt_of_lt_of_le (by norm_num) hbig
  have honly : IsOnlyMaxAt S' q.p := by
    refine ⟨by omega, fun k hk hne => ?_⟩
    rw [hSp, hd k (by omega)]
    rcases sea_local (N := N) (dt := dt) hap k with h | ⟨r, hr, h1, h2⟩
    · rw [List.sum_eq_zero]
      · exact h0
      · intro v hv
        obtain ⟨r, hr, rfl⟩ := List.mem_map.1 hv
        exact h r hr
    · rw [h2]
      have hq2 : 0 < q.a ^ 2 := by
        by_contra hc
        have : q.a ^ 2 = 0 := le_antisymm (not_lt.1 hc) (sq_nonneg _)
        rw [this] at h0; norm_num at h0
      by_cases e : r = q
      · rw [e] at h1 ⊢
        unfold lineDens
        rw [if_neg hne, if_pos (by omega)]
        apply mul_lt_mul_of_pos_right _ hND; linarith
      · have := apart_ne hap hr hq e
        have h3 : r.a ^ 2 < q.a ^ 2 := sq_lt_sq.2 (hmax r hr (by omega))
        have h4 : 0 ≤ r.a ^ 2 := sq_nonneg _
        unfold lineDens
        split_ifs
        · apply mul_lt_mul_of_pos_right _ hND; linarith
        · apply mul_lt_mul_of_pos_right _ hND; linarith
        · exact h0
  obtain ⟨F', -, k2, -, -, -, -, k3⟩ := tps_side (isArr_vec f') (isArr_vec S') hu hF0.ge honly (by omega) (by omega) (by rw [hSp]; exact hbig) hi
  rw [k2, k3.2 (by
    rw [near _ (by omega) (by omega), near _ (by omega) (by omega)]
    unfold lineDens
    rw [if_neg (by omega), if_pos (by omega), if_neg (by omega), if_pos (by omega)]), hFg q.p (by omega), one_div_div]

/-! ## Concrete cases -/

/-- The bump `[1, 2, 5, 3, 1]` on 1, …, 5 Hz leans to the right. -/
example : ∃ s F, SpecObj.init (vec [1, 2, 3, 4, 5]) (vec [1, 2, 5, 3, 1]) = .ok s ∧ (s.getTp (-1) (.fin (-1))).1 = .ok (1 / 3) ∧
    (s.getTps (-1) (.fin (-1))).1 = .ok (1 / F) ∧ 3 < F ∧ |F - 3| < 1 / 2 := by
  have hu : UniformAxis ([1, 2, 3, 4, 5] : List ℝ) 1 := uniformAxis_of_steps one_pos fun i hi => by
    have : i < 4 := hi
    interval_cases i <;> norm_num
  have hs := (spectrum_init_iff_partial (isArr_vec ([1, 2, 3, 4, 5] : List ℝ)) (isArr_vec [1, 2, 5, 3, 1])).2
    ⟨uniform_check_accepts_uniform (by simp) hu, rfl, rfl⟩
  obtain ⟨F, a1, a2, -, a4, a5, -⟩ := tps_side (i := 2) (isArr_vec [1, 2, 3, 4, 5]) (isArr_vec [1, 2, 5, 3, 1]) hu (by norm_num)
    ⟨by simp, fun k hk hne => by
      have : k < 5 := hk
      interval_cases k <;> first | exact absurd rfl hne | norm_num⟩ (by norm_num) (by simp) (by norm_num) hs
  exact ⟨_, F, hs, a1, a2, a5.2 (by norm_num), a4⟩

/-- The swell and wind sea of C154: `Tps` is 8, as is `Tp`. -/
example : ∃ s sp, SeriesObj.init (vec ((List.range 100).map fun (i : Nat) => (i : ℝ))) (vec (longSea 100 40 2 [⟨5, 3, 1⟩, ⟨10, 1, 0⟩])) = .ok s ∧
    s.getSpectrum (40 : ℕ) (0 : ℕ) 0 "hann" 0 false = .ok sp ∧ (sp.getTps (-1) (.fin (-1))).1 = .ok 8 := by
  have hf : ∀ q ∈ ([⟨5, 3, 1⟩, ⟨10, 1, 0⟩] : List Comp), FitsSegment 40 q := by
    intro q hq; simp only [List.mem_cons, List.not_mem_nil, or_false] at hq; unfold FitsSegment; rcases hq with rfl | rfl <;> simp
  have hap : Apart [⟨5, 3, 1⟩, ⟨10, 1, 0⟩] := by unfold Apart; simp
  obtain ⟨s, sp, h1, h2, h3⟩ := welch_sea_explicit (c := 2) (N := 40) (L := 100) (nov := 0) hf hap (by norm_num) (by norm_num) (isVec_vec _) (isVec_vec _)
    (by simp) (axis_range 100) (by norm_num) 0
  refine ⟨s, sp, h1, h2, (tps_sea hf hap one_pos (by norm_num) h3 (getSpectrum_init h2) (q := ⟨5, 3, 1⟩) (by simp) ?_ (by norm_num)).trans (by norm_num)⟩
  intro q hq hne
  simp only [List.mem_cons, List.not_mem_nil, or_false] at hq
  rcases hq with rfl | rfl
  · exact absurd rfl hne
  · norm_num

example : ∃ s t sp, SeriesObj.init (vec t) (vec (sinusoid 16 3 2 1)) = .ok s ∧ s.getSpectrumRaw 0 = .ok sp ∧ (sp.getTps (-1) (.fin (-1))).1 = .ok (16 / 3) := by
  obtain ⟨s, t, e, hv⟩ := series_of_record (sinusoid 16 3 2 1) (by simp [sinusoid])
  obtain ⟨sp, h1, h2⟩ := tps_sinusoid (by norm_num) (by norm_num) (by norm_num) hv
  exact ⟨s, t, sp, e, h1, h2.trans (by norm_num)⟩

end Verif
