import Verif.Props.FloatSynth
import Verif.Props.Engine
import Verif.Props.Averaging

/-! # C123: frequency axes, band limits and segment settings in double precision -/

namespace Verif

/-- Specification: harmonic `i` of a record of `n` samples at steps `dt`. -/
def harmonic (n : ℕ) (dt : ℚ) (i : ℕ) : ℚ := (i : ℚ) / (n * dt)

/-- **C123 (frequency axis).**  Frequency `i` of the transform, computed in double precision, is harmonic `i` up to a relative error of `2 ^ -50`. -/
theorem fft_axis_double {t : List ℚ} {dt : ℚ} (hdt : dt = f64 (t.getD 1 0 - t.getD 0 0)) (hn : 0 < t.length) (hn' : t.length ≤ 2 ^ 40)
    (hlo : 1 / 2 ^ 40 ≤ dt) (hhi : dt ≤ 2 ^ 40) {i : ℕ} (hi : i < t.length) :
    |(fftAxisF64 t).getD i 0 - harmonic t.length dt i| ≤ harmonic t.length dt i / 2 ^ 50 := by
  have d0 : 0 < dt := lt_of_lt_of_le (by positivity) hlo
  have nq : (1 : ℚ) ≤ t.length := by exact_mod_cast hn
  have nq' : (t.length : ℚ) ≤ 2 ^ 40 := by exact_mod_cast hn'
  obtain ⟨e, he, hD⟩ := recip_near (c := (t.length : ℚ)) (dt := dt) nq (by linarith) hlo hhi
  unfold fftAxisF64 harmonic
  simp only []
  rw [map_range_getD hi, ← hdt, hD]
  rcases Nat.eq_zero_or_pos i with rfl | hip
  · simp [f64_zero]
  have iq : (1 : ℚ) ≤ i := by exact_mod_cast hip
  set F := 1 / ((t.length : ℚ) * dt) with hF
  have F0 : 0 < F := by positivity
  obtain ⟨e1, e2⟩ := abs_le.1 he
  have Flo : (1 : ℚ) / 2 ^ 80 ≤ F := by
    apply one_div_le_one_div_of_le (by positivity)
    calc (t.length : ℚ) * dt ≤ 2 ^ 40 * 2 ^ 40 := mul_le_mul nq' hhi d0.le (by positivity)
      _ = 2 ^ 80 := by norm_num
  have x0 : F / 2 ≤ i * (F * (1 + e)) := by
    have a : F / 2 ≤ F * (1 + e) := by
      have : F * (1 / 2) ≤ F * (1 + e) := mul_le_mul_of_nonneg_left (by linarith) F0.le
      linarith
    exact a.trans (le_mul_of_one_le_left (by linarith) iq)
  obtain ⟨b, hb, eb⟩ := f64_rel (x := (i : ℚ) * (F * (1 + e))) (by
    rw [abs_of_pos (by linarith)]
    have h : (1 : ℚ) / 2 ^ 200 ≤ 1 / 2 ^ 81 := one_div_le_one_div_of_le (by positivity) (pow_le_pow_right₀ (by norm_num) (by norm_num))
    linarith)
  rw [eb, show (i : ℚ) / ((t.length : ℚ) * dt) = i * F by rw [hF]; ring,
    show (i : ℚ) * (F * (1 + e)) * (1 + b) - i * F = i * F * (e + b + e * b) by ring, abs_mul, abs_of_pos (by positivity)]
  have h3 : |e + b + e * b| ≤ 1 / 2 ^ 50 := by
    have a1 := abs_add_le (e + b) (e * b)
    have a2 := abs_add_le e b
    have a3 : |e * b| ≤ 1 / 2 ^ 51 * (1 / 2 ^ 53) := by rw [abs_mul]; exact mul_le_mul he hb (abs_nonneg _) (by positivity)
    have a4 : (1 : ℚ) / 2 ^ 51 + 1 / 2 ^ 53 + 1 / 2 ^ 51 * (1 / 2 ^ 53) ≤ 1 / 2 ^ 50 := by norm_num
    linarith
  calc (i : ℚ) * F * |e + b + e * b| ≤ i * F * (1 / 2 ^ 50) := mul_le_mul_of_nonneg_left h3 (by positivity)
    _ = _ := by ring

/-- **C123 (unfolding).**  In double precision, too, unfolding restores exactly the frequency axis of the transform. -/
theorem unfold_axis_double {t : List ℚ} (h2 : 2 ≤ t.length) : unfoldAxisF64 (nyquistAxisF64 t) (decide (t.length % 2 = 1)) = fftAxisF64 t := by
  have hl : (nyquistAxisF64 t).length = t.length / 2 + 1 := by
    unfold nyquistAxisF64 fftAxisF64
    simp only [List.length_take, List.length_map, List.length_range]
    omega
  have hg : ∀ i, i < t.length / 2 + 1 → (nyquistAxisF64 t).getD i 0 = (fftAxisF64 t).getD i 0 := by
    intro i hi
    unfold nyquistAxisF64
    rw [List.getD_eq_getElem?_getD, List.getD_eq_getElem?_getD, List.getElem?_take, if_pos hi]
  unfold unfoldAxisF64
  simp only []
  rw [hl, hg 1 (by omega), hg 0 (by omega)]
  have e1 : (fftAxisF64 t).getD 1 0 = f64 (1 / f64 ((t.length : ℚ) * f64 (t.getD 1 0 - t.getD 0 0))) := by
    unfold fftAxisF64
    simp only []
    rw [map_range_getD (by omega), Nat.cast_one, one_mul, f64_of_double (f64_double _)]
  have e0 : (fftAxisF64 t).getD 0 0 = 0 := by
    unfold fftAxisF64
    simp only []
    rw [map_range_getD (by omega), Nat.cast_zero, zero_mul, f64_zero]
  rw [e1, e0, sub_zero, f64_of_double (f64_double _)]
  have : (t.length / 2 + 1 - 1) * 2 + (decide (t.length % 2 = 1)).toNat = t.length := by
    by_cases h : t.length % 2 = 1
    · simp [h]; omega
    · simp [h]; omega
  rw [this]
  rfl

/-! ## The band filter -/

theorem bandIndices_congr {f g : List ℚ} (hl : f.length = g.length) {lo hi : ℚ}
    (h1 : ∀ i < f.length, (f.getD i 0 < lo ↔ g.getD i 0 < lo) ∧ (lo ≤ f.getD i 0 ↔ lo ≤ g.getD i 0) ∧ (f.getD i 0 ≤ lo ↔ g.getD i 0 ≤ lo))
    (h2 : ∀ i < f.length, (f.getD i 0 < hi ↔ g.getD i 0 < hi) ∧ (hi ≤ f.getD i 0 ↔ hi ≤ g.getD i 0) ∧ (f.getD i 0 ≤ hi ↔ g.getD i 0 ≤ hi)) :
    bandIndices f lo hi = bandIndices g lo hi := by
  rcases Nat.eq_zero_or_pos f.length with h0 | hpos
  · have a : f = [] := List.eq_nil_of_length_eq_zero h0
    have b : g = [] := List.eq_nil_of_length_eq_zero (hl ▸ h0)
    rw [a, b]
  have wh : ∀ lim : ℚ, (∀ i < f.length, (f.getD i 0 < lim ↔ g.getD i 0 < lim)) →
      whereIdx (fun v => decide (v < lim)) f = whereIdx (fun v => decide (v < lim)) g := by
    intro lim h
    unfold whereIdx
    rw [hl]
    apply List.filter_congr
    intro i hi
    have hg : i < g.length := List.mem_range.1 hi
    have hf : i < f.length := by omega
    have := h i hf
    rw [List.getD_eq_getElem _ _ hf, List.getD_eq_getElem _ _ hg] at this
    simp [List.getElem?_eq_getElem hf, List.getElem?_eq_getElem hg, this]
  have lst : ∀ l : List ℚ, 0 < l.length → lastE l = .ok (l.getD (l.length - 1) 0) := by
    intro l h
    unfold lastE
    rw [List.getLast?_eq_getElem?, List.getElem?_eq_getElem (by omega), List.getD_eq_getElem _ _ (by omega)]
  have fst : ∀ l : List ℚ, 0 < l.length → getE l 0 = .ok (l.getD 0 0) := by
    intro l h
    unfold getE
    rw [List.getElem?_eq_getElem h, List.getD_eq_getElem _ _ h]
  unfold bandIndices
  rw [fst f hpos, fst g (by omega), lst f hpos, lst g (by omega), ← hl]
  simp only [bind, Except.bind]
  have b1 : bandLow f (f.getD 0 0) (f.getD (f.length - 1) 0) lo = bandLow g (g.getD 0 0) (g.getD (f.length - 1) 0) lo := by
    unfold bandLow
    rw [wh lo fun i hi => (h1 i hi).1, hl]
    have c1 := (h1 0 hpos).2.1
    have c2 := (h1 (f.length - 1) (by omega)).2.2
    simp only [hl] at c2 ⊢
    simp only [c1, c2]
  have b2 : bandHigh f (f.getD 0 0) (f.getD (f.length - 1) 0) hi = bandHigh g (g.getD 0 0) (g.getD (f.length - 1) 0) hi := by
    unfold bandHigh
    rw [wh hi fun i hi => (h2 i hi).1, hl]
    have c1 := (h2 0 hpos).2.1
    have c2 := (h2 (f.length - 1) (by omega)).2.2
    simp only [hl] at c2 ⊢
    simp only [c1, c2]
  rw [b1, b2]

/-- Specification: the limit keeps a relative distance of `2 ^ -50` from every harmonic. -/
def ClearOf (n : ℕ) (dt lim : ℚ) : Prop := ∀ i, 0 < i → i ≤ n / 2 → harmonic n dt i / 2 ^ 50 < |lim - harmonic n dt i|

theorem clear_iff {n : ℕ} {dt lim f : ℚ} {i : ℕ} (hc : ClearOf n dt lim) (hd : 0 < dt) (hi : i ≤ n / 2) (h0 : i = 0 → f = 0)
    (hf : |f - harmonic n dt i| ≤ harmonic n dt i / 2 ^ 50) :
    (f < lim ↔ harmonic n dt i < lim) ∧ (lim ≤ f ↔ lim ≤ harmonic n dt i) ∧ (f ≤ lim ↔ harmonic n dt i ≤ lim) := by
  rcases Nat.eq_zero_or_pos i with h | h
  · have : harmonic n dt i = 0 := by rw [h]; simp [harmonic]
    rw [this, h0 h]
    exact ⟨Iff.rfl, Iff.rfl, Iff.rfl⟩
  have c := hc i h hi
  have p : 0 ≤ harmonic n dt i := by unfold harmonic; positivity
  set g := harmonic n dt i
  obtain ⟨a, b⟩ := abs_le.1 hf
  rcases lt_or_ge lim g with hlt | hge
  · rw [abs_of_neg (by linarith)] at c
    refine ⟨⟨fun _ => by linarith, fun _ => by linarith⟩, ⟨fun _ => hlt.le, fun _ => by linarith⟩, ⟨fun _ => by linarith, fun _ => by linarith⟩⟩
  · rw [abs_of_nonneg (by linarith)] at c
    have hgt : g < lim := by
      have : 0 ≤ g / 2 ^ 50 := by positivity
      linarith
    refine ⟨⟨fun _ => by linarith, fun _ => by linarith⟩, ⟨fun _ => by linarith, fun _ => by linarith⟩, ⟨fun _ => by linarith, fun _ => by linarith⟩⟩

/-- **C123 (band filter).**  If both limits keep clear of the harmonics, the components kept by the filter in double precision are exactly those kept
in exact arithmetic. -/
theorem band_double {R : Type} [Zero R] {t : List ℚ} {dt : ℚ} (hdt : dt = f64 (t.getD 1 0 - t.getD 0 0)) (hn : 2 ≤ t.length)
    (hn' : t.length ≤ 2 ^ 40) (hlo : 1 / 2 ^ 40 ≤ dt) (hhi : dt ≤ 2 ^ 40) {lo hi : ℚ} (h1 : ClearOf t.length dt lo) (h2 : ClearOf t.length dt hi)
    (X : List R) :
    applyBandFilter (nyquistAxisF64 t) X lo hi = applyBandFilter ((List.range (t.length / 2 + 1)).map (harmonic t.length dt)) X lo hi := by
  have d0 : 0 < dt := lt_of_lt_of_le (by positivity) hlo
  have hl : (nyquistAxisF64 t).length = t.length / 2 + 1 := by
    unfold nyquistAxisF64 fftAxisF64
    simp only [List.length_take, List.length_map, List.length_range]
    omega
  have hg : ∀ i, i < t.length / 2 + 1 → (nyquistAxisF64 t).getD i 0 = (fftAxisF64 t).getD i 0 := by
    intro i hi
    unfold nyquistAxisF64
    rw [List.getD_eq_getElem?_getD, List.getD_eq_getElem?_getD, List.getElem?_take, if_pos hi]
  have z : ∀ i, i = 0 → (fftAxisF64 t).getD i 0 = 0 := by
    rintro _ rfl
    unfold fftAxisF64
    simp only []
    rw [map_range_getD (by omega), Nat.cast_zero, zero_mul, f64_zero]
  unfold applyBandFilter
  rw [bandIndices_congr]
  · rw [hl]; simp
  all_goals
    intro i hi
    rw [hl] at hi
    rw [hg i hi, map_range_getD hi]
    have hb := fft_axis_double hdt (by omega) hn' hlo hhi (i := i) (by omega)
    first
      | exact clear_iff h1 d0 (by omega) (z i) hb
      | exact clear_iff h2 d0 (by omega) (z i) hb

/-! ## Numbers of bins and of samples per segment -/

theorem round_stable {x q e : ℚ} {m : ℤ} (hx : |x - q| ≤ e) (hm : |q - m| < 1 / 2 - e) : roundHalfEven x = m ∧ roundHalfEven q = m := by
  have h0 : 0 ≤ e := (abs_nonneg _).trans hx
  have a : ∀ y : ℚ, |y - m| < 1 / 2 → roundHalfEven y = m := by
    intro y hy
    rw [abs_sub_comm] at hy
    exact isRounded_unique (roundHalfEven_spec y) ⟨hy.le, fun h => absurd h (ne_of_lt hy)⟩
  refine ⟨a x ?_, a q (by linarith)⟩
  have := abs_add_le (x - q) (q - m)
  rw [sub_add_sub_cancel] at this
  linarith

theorem quotient_near {q δ : ℚ} (hδ : |δ| ≤ 1 / 2 ^ 53) (hq : |q| ≤ 2 ^ 40) : |f64 (q / (1 + δ)) - q| ≤ 1 / 2 ^ 10 := by
  obtain ⟨a, b⟩ := abs_le.1 hδ
  have h : (0 : ℚ) < 1 + δ := by linarith
  have h1 : |q / (1 + δ) - q * 1| ≤ (1 / 2 ^ 11) * 1 := by
    rw [mul_one, mul_one, show q / (1 + δ) - q = q * (-δ / (1 + δ)) by field_simp; ring, abs_mul, abs_div, abs_neg, abs_of_pos h]
    have : |δ| / (1 + δ) ≤ 1 / 2 ^ 52 := by
      rw [div_le_iff₀ h]
      linarith
    calc |q| * (|δ| / (1 + δ)) ≤ 2 ^ 40 * (1 / 2 ^ 52) := mul_le_mul hq this (by positivity) (by positivity)
      _ ≤ _ := by norm_num
  have := f64_step (D := 1) (by norm_num) h1 hq
  rw [mul_one, mul_one] at this
  exact this.trans (by norm_num)

theorem f64_sub_rel {a b : ℚ} (ha : IsDouble a) (hb : IsDouble b) (h : a - b ≠ 0) : ∃ δ : ℚ, |δ| ≤ 1 / 2 ^ 53 ∧ f64 (a - b) = (a - b) * (1 + δ) := by
  have := f64_add_error ha (b := -b) (by
    obtain ⟨m, e, u, v, w⟩ := hb
    exact ⟨-m, e, by rwa [abs_neg], v, by rw [w]; push_cast; ring⟩)
  rw [← sub_eq_add_neg] at this
  refine ⟨(f64 (a - b) - (a - b)) / (a - b), ?_, by field_simp; ring⟩
  rw [abs_div, div_le_iff₀ (abs_pos.2 h)]
  linarith

/-- **C123 (averaging).**  The number of bins averaged in double precision is the exact one, unless the exact quotient is within `2 ^ -9` of the middle
between two whole numbers. -/
theorem factor_double {f0 f1 : ℚ} {fs : List ℚ} (h0 : IsDouble f0) (h1 : IsDouble f1) (hlt : f0 < f1) {df : ℚ} (hdf : df ≠ 0)
    (hq : |df / (f1 - f0)| ≤ 2 ^ 40) {m : ℤ} (hm : |df / (f1 - f0) - m| < 1 / 2 - 1 / 2 ^ 9) :
    nFactorF64 (f0 :: f1 :: fs) df = max m 1 ∧ nFactorOf (f0 :: f1 :: fs) df = .ok (max m 1).toNat := by
  have hne : f1 - f0 ≠ 0 := by linarith
  obtain ⟨δ, hδ, e⟩ := f64_sub_rel h1 h0 hne
  obtain ⟨r1, r2⟩ := round_stable (quotient_near hδ hq) (m := m) (hm.trans_le (by norm_num))
  have a : nFactorF64 (f0 :: f1 :: fs) df = max (roundHalfEven (f64 (df / f64 (f1 - f0)))) 1 := by
    unfold nFactorF64
    rw [if_neg hdf]
    rfl
  have b : nFactorOf (f0 :: f1 :: fs) df = .ok (max (roundHalfEven (df / (f1 - f0))) 1).toNat := by
    unfold nFactorOf
    rw [if_neg hdf]
    exact if_neg hne
  rw [a, b, e, ← div_div, r1, r2]
  exact ⟨rfl, rfl⟩

/-- **C123 (Welch segments).**  The length of the segments chosen in double precision is the exact one, unless the exact quotient is within `2 ^ -9`
of the middle between two whole numbers; the overlap is then exact. -/
theorem nperseg_double {dt df : ℚ} (hdt : 0 < dt) (hdt' : dt ≤ 2 ^ 200) (hq : |1 / dt / df| ≤ 2 ^ 40) {m : ℤ} (hm : |1 / dt / df - m| < 1 / 2 - 1 / 2 ^ 9) :
    npersegF64 dt df = m ∧ roundHalfEven (1 / dt / df) = m ∧ noverlapF64 m = roundHalfEven ((m : ℚ) / 2) := by
  have r0 : 0 < 1 / dt := by positivity
  obtain ⟨δ, hδ, e⟩ := f64_rel (x := 1 / dt) (by rw [abs_of_pos r0]; exact one_div_le_one_div_of_le hdt hdt')
  obtain ⟨a, b⟩ := abs_le.1 hδ
  have near : |f64 (1 / dt * (1 + δ) / df) - 1 / dt / df| ≤ 1 / 2 ^ 10 := by
    have h1 : |1 / dt * (1 + δ) / df - 1 / dt / df * 1| ≤ (1 / 2 ^ 11) * 1 := by
      rw [mul_one, mul_one, show 1 / dt * (1 + δ) / df - 1 / dt / df = 1 / dt / df * δ by ring, abs_mul]
      calc |1 / dt / df| * |δ| ≤ 2 ^ 40 * (1 / 2 ^ 53) := mul_le_mul hq hδ (abs_nonneg _) (by positivity)
        _ ≤ _ := by norm_num
    have := f64_step (D := 1) (by norm_num) h1 hq
    rw [mul_one, mul_one] at this
    exact this.trans (by norm_num)
  obtain ⟨r1, r2⟩ := round_stable near (m := m) (hm.trans_le (by norm_num))
  refine ⟨?_, r2, ?_⟩
  · unfold npersegF64; rw [e]; exact r1
  · unfold noverlapF64
    rw [f64_of_double]
    have mb : |(m : ℚ)| ≤ 2 ^ 41 := by
      have h1 := abs_sub_abs_le_abs_sub (m : ℚ) (1 / dt / df)
      rw [abs_sub_comm] at h1
      have h2 : (1 : ℚ) / 2 - 1 / 2 ^ 9 ≤ 1 := by norm_num
      linarith
    refine ⟨m, -1, ?_, by norm_num, by rw [zpow_neg_one]; ring⟩
    have : |m| ≤ 2 ^ 41 := by exact_mod_cast mb
    exact this.trans (by norm_num)

/-! ## The nearest grid index -/

theorem approxF64_eq (a : List ℚ) (v : ℚ) : approxArrayIndexF64 a v = approxArrayIndex (a.map fun x => f64 (x - v)) 0 := by
  unfold approxArrayIndexF64 approxArrayIndex
  rw [List.map_map]
  have : (fun x => |x - 0|) ∘ (fun x => f64 (x - v)) = fun x => |f64 (x - v)| := by funext x; simp
  rw [this]
  generalize (a.map fun x => |f64 (x - v)|) = l
  cases l <;> rfl

/-- **C123 (nearest grid index).**  In double precision the index found is in range and as close as every other one up to a factor `1 + 2 ^ -51`;
an element nearer than all others by that factor is always found. -/
theorem nearest_double {a : List ℚ} (hne : a ≠ []) (ha : ∀ x ∈ a, IsDouble x) {v : ℚ} (hv : IsDouble v) :
    ∃ i, approxArrayIndexF64 a v = .ok i ∧ i < a.length ∧ (∀ j < a.length, |a.getD i 0 - v| ≤ |a.getD j 0 - v| * (1 + 1 / 2 ^ 51)) ∧
      ∀ k < a.length, (∀ j < a.length, j ≠ k → |a.getD k 0 - v| * (1 + 1 / 2 ^ 51) < |a.getD j 0 - v|) → i = k := by
  obtain ⟨i, h1, h2, h3, -⟩ := nearest_index (a := a.map fun x => f64 (x - v)) (by simpa using hne) 0
  rw [List.length_map] at h2 h3
  have get : ∀ j, j < a.length → (a.map fun x => f64 (x - v)).getD j 0 = f64 (a.getD j 0 - v) := by
    intro j hj
    rw [List.getD_eq_getElem _ _ (by simpa using hj), List.getElem_map, List.getD_eq_getElem _ _ hj]
  have rel : ∀ j, j < a.length → |a.getD j 0 - v| * (1 - 1 / 2 ^ 53) ≤ |f64 (a.getD j 0 - v)| ∧
      |f64 (a.getD j 0 - v)| ≤ |a.getD j 0 - v| * (1 + 1 / 2 ^ 53) := by
    intro j hj
    by_cases hz : a.getD j 0 - v = 0
    · rw [hz, f64_zero, abs_zero]; simp
    · obtain ⟨δ, hδ, e⟩ := f64_sub_rel (by rw [List.getD_eq_getElem _ _ hj]; exact ha _ (List.getElem_mem hj)) hv hz
      obtain ⟨u, w⟩ := abs_le.1 hδ
      rw [e, abs_mul, abs_of_pos (by linarith : (0 : ℚ) < 1 + δ)]
      exact ⟨mul_le_mul_of_nonneg_left (by linarith) (abs_nonneg _), mul_le_mul_of_nonneg_left (by linarith) (abs_nonneg _)⟩
  have near : ∀ j < a.length, |a.getD i 0 - v| ≤ |a.getD j 0 - v| * (1 + 1 / 2 ^ 51) := by
    intro j hj
    have := h3 j hj
    rw [get i h2, get j hj, sub_zero, sub_zero] at this
    have r1 := (rel i h2).1
    have r2 := (rel j hj).2
    have n1 := abs_nonneg (a.getD j 0 - v)
    have n2 := abs_nonneg (a.getD i 0 - v)
    by_contra hc
    push Not at hc
    have c2 : |a.getD j 0 - v| * (1 + 1 / 2 ^ 51) * (1 - 1 / 2 ^ 53) < |a.getD i 0 - v| * (1 - 1 / 2 ^ 53) := mul_lt_mul_of_pos_right hc (by norm_num)
    have c3 : |a.getD j 0 - v| * (1 + 1 / 2 ^ 53) ≤ |a.getD j 0 - v| * ((1 + 1 / 2 ^ 51) * (1 - 1 / 2 ^ 53)) :=
      mul_le_mul_of_nonneg_left (by norm_num) n1
    rw [← mul_assoc] at c3
    linarith
  refine ⟨i, by rw [approxF64_eq]; exact h1, h2, near, fun k hk hkk => ?_⟩
  by_contra hc
  have := hkk i h2 hc
  exact absurd (near k hk) (not_le.2 this)

/-! ## Findings and examples -/

/-- Thirty seconds at ten samples per second. -/
def thirtySeconds : List ℚ := (List.range 300).map fun (i : ℕ) => f64 (i * f64 (1 / 10))

/-- **Finding.**  Component 111 of this record has a frequency of exactly `111 / 30 = 3.7` Hz; in double precision it is computed as
`3.6999999999999997`, so that a filter from 3.7 Hz upward starts at component 112 and loses it. -/
theorem limit_loses_component : (111 : ℚ) / 30 = 37 / 10 ∧ (nyquistAxisF64 thirtySeconds).getD 111 0 < f64 (37 / 10) ∧
    bandIndices (nyquistAxisF64 thirtySeconds) (f64 (37 / 10)) 10 = .ok (112, 151) ∧
    bandIndices ((List.range 151).map fun (i : ℕ) => (i : ℚ) / 30) (37 / 10) 10 = .ok (111, 151) := by
  refine ⟨by norm_num, by decide +kernel, by decide +kernel, by decide +kernel⟩

/-- The default resolution `dfDesired = 0.01` at ten samples per second: segments of exactly 1000 samples, half of them overlapping. -/
theorem default_segments : npersegF64 (f64 (1 / 10)) (f64 (1 / 100)) = 1000 ∧ noverlapF64 1000 = 500 := by
  constructor <;> decide +kernel

example : npersegF64 (1 / 8) (f64 (1 / 100)) = 800 ∧ roundHalfEven (1 / (1 / 8) / f64 (1 / 100)) = 800 ∧ noverlapF64 800 = roundHalfEven (((800 : ℤ) : ℚ) / 2) := by
  have h : f64 (1 / 100) = 5764607523034235 / 576460752303423488 := by decide +kernel
  rw [h]
  exact nperseg_double (by norm_num) (by norm_num) (by norm_num [abs_le]) (by norm_num [abs_lt])

/-- A limit clear of the harmonics. -/
example : ClearOf 8 1 (3 / 16) := by
  intro i h1 h2
  have : i = 1 ∨ i = 2 ∨ i = 3 ∨ i = 4 := by omega
  rcases this with rfl | rfl | rfl | rfl <;> (unfold harmonic; norm_num [abs_lt, lt_abs])

/-! ## Concrete cases: the hypotheses of the theorems above are met -/

/-- The time axis 0, 1, ..., 7 s. -/
abbrev eightSeconds : List ℚ := [0, 1, 2, 3, 4, 5, 6, 7]

theorem eightSeconds_step : (1 : ℚ) = f64 (eightSeconds.getD 1 0 - eightSeconds.getD 0 0) := by decide +kernel

example : |(fftAxisF64 eightSeconds).getD 3 0 - harmonic 8 1 3| ≤ harmonic 8 1 3 / 2 ^ 50 :=
  fft_axis_double eightSeconds_step (by simp) (by simp) (by norm_num) (by norm_num) (by simp)

example : unfoldAxisF64 (nyquistAxisF64 eightSeconds) false = fftAxisF64 eightSeconds := unfold_axis_double (t := eightSeconds) (by simp)

example (X : List ℂ) : applyBandFilter (nyquistAxisF64 eightSeconds) X (3 / 16) (3 / 16) =
    applyBandFilter ((List.range 5).map (harmonic 8 1)) X (3 / 16) (3 / 16) :=
  have h : ClearOf 8 1 (3 / 16) := by
    intro i h1 h2
    have : i = 1 ∨ i = 2 ∨ i = 3 ∨ i = 4 := by omega
    rcases this with rfl | rfl | rfl | rfl <;> (unfold harmonic; norm_num [abs_lt, lt_abs])
  band_double eightSeconds_step (by simp) (by simp) (by norm_num) (by norm_num) h h X

example : nFactorF64 [0, 1, 2] 2 = max 2 1 ∧ nFactorOf [0, 1, 2] (2 : ℚ) = .ok (max 2 1 : ℤ).toNat :=
  factor_double isDouble_zero ⟨1, 0, by norm_num, by norm_num, by norm_num⟩ (by norm_num) (by norm_num) (by norm_num [abs_le]) (m := 2) (by norm_num [abs_lt])

example : ∃ i, approxArrayIndexF64 [0, 1, 2] 2 = .ok i ∧ i < 3 := by
  obtain ⟨i, a, b, -⟩ := nearest_double (a := [0, 1, 2]) (v := 2) (by simp) (by
    intro x hx
    simp only [List.mem_cons, List.not_mem_nil, or_false] at hx
    rcases hx with rfl | rfl | rfl
    · exact isDouble_zero
    · exact ⟨1, 0, by norm_num, by norm_num, by norm_num⟩
    · exact ⟨2, 0, by norm_num, by norm_num, by norm_num⟩) ⟨2, 0, by norm_num, by norm_num, by norm_num⟩
  exact ⟨i, a, b⟩

end Verif
