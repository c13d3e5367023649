import Verif.Model.FloatAxes
import Verif.Props.FloatCross
import Verif.Props.FloatWaves

/-! # C122: the axes of a synthesised series in double precision -/

namespace Verif

/-- One rounding, in units of `D`. -/
theorem f64_step {x a e M D : ℚ} (hD : 1 / 2 ^ 100 ≤ D) (h : |x - a * D| ≤ e * D) (hM : |a| ≤ M) :
    |f64 x - a * D| ≤ (e + (M + e) / 2 ^ 53 + 1 / 2 ^ 100) * D := by
  have D0 : 0 < D := lt_of_lt_of_le (by positivity) hD
  have h1 := f64_abs x
  have h2 : |x| ≤ (M + e) * D := by
    have := abs_sub_abs_le_abs_sub x (a * D)
    rw [abs_mul, abs_of_pos D0] at this
    have := mul_le_mul_of_nonneg_right hM D0.le
    linarith
  have h3 : (1 : ℚ) / 2 ^ 200 ≤ 1 / 2 ^ 100 * D := by
    calc (1 : ℚ) / 2 ^ 200 = 1 / 2 ^ 100 * (1 / 2 ^ 100) := by norm_num
      _ ≤ _ := mul_le_mul_of_nonneg_left hD (by positivity)
  have h4 := abs_add_le (f64 x - x) (x - a * D)
  rw [sub_add_sub_cancel] at h4
  have h5 : |x| / 2 ^ 53 ≤ (M + e) * D / 2 ^ 53 := div_le_div_of_nonneg_right h2 (by positivity)
  have : (e + (M + e) / 2 ^ 53 + 1 / 2 ^ 100) * D = e * D + (M + e) * D / 2 ^ 53 + 1 / 2 ^ 100 * D := by ring
  rw [this]
  linarith

theorem ceil_between {x a e : ℚ} (h : |x - a| ≤ e) : ⌈a - e⌉ ≤ ⌈x⌉ ∧ ⌈x⌉ ≤ ⌈a + e⌉ := by
  obtain ⟨h1, h2⟩ := abs_le.1 h
  exact ⟨Int.ceil_le_ceil (by linarith), Int.ceil_le_ceil (by linarith)⟩

/-- **C122 (number of samples).**  The number of samples of the synthesised series, computed in double precision, is the exact one up to a
perturbation of the duration by `2 ^ -10` steps. -/
theorem synth_count {tInit tEnd dt : ℚ} (hdt : 1 / 2 ^ 100 ≤ dt) (hM : |tInit| + |tEnd| + dt ≤ 2 ^ 40 * dt) :
    ⌈(tEnd - tInit) / dt + 1 - 1 / 2 ^ 10⌉.toNat ≤ (synthTimeF64 tInit tEnd dt).length ∧
    (synthTimeF64 tInit tEnd dt).length ≤ ⌈(tEnd - tInit) / dt + 1 + 1 / 2 ^ 10⌉.toNat := by
  have d0 : 0 < dt := lt_of_lt_of_le (by positivity) hdt
  set q := (tEnd - tInit) / dt + 1 with hq
  have key : |f64 (f64 (f64 (tEnd + dt) - tInit) / dt) - q| ≤ 1 / 2 ^ 10 := by
    have e1 : (tEnd / dt + 1) * dt = tEnd + dt := by field_simp
    have ab : |tInit / dt| + |tEnd / dt| + 1 ≤ 2 ^ 40 := by
      rw [abs_div, abs_div, abs_of_pos d0, ← add_div, div_add_one d0.ne', div_le_iff₀ d0]
      exact hM
    have s1 := f64_step (x := tEnd + dt) (a := tEnd / dt + 1) (e := 0) (M := 2 ^ 40) hdt (by rw [e1]; simp) (by
      have := abs_add_le (tEnd / dt) 1
      rw [abs_one] at this
      have := abs_nonneg (tInit / dt)
      linarith)
    have e2 : q * dt = (tEnd / dt + 1) * dt - tInit := by rw [hq, e1]; field_simp; ring
    have hqM : |q| ≤ 2 ^ 40 := by
      have : q = tEnd / dt + (-(tInit / dt) + 1) := by rw [hq]; ring
      rw [this]
      have a1 := abs_add_le (tEnd / dt) (-(tInit / dt) + 1)
      have a2 := abs_add_le (-(tInit / dt)) 1
      rw [abs_neg, abs_one] at a2
      linarith
    have s2 := f64_step (x := f64 (tEnd + dt) - tInit) (a := q) (e := 0 + (2 ^ 40 + 0) / 2 ^ 53 + 1 / 2 ^ 100) (M := 2 ^ 40) hdt (by
      rw [e2, show f64 (tEnd + dt) - tInit - ((tEnd / dt + 1) * dt - tInit) = f64 (tEnd + dt) - (tEnd / dt + 1) * dt by ring]
      exact s1) hqM
    set y := f64 (f64 (tEnd + dt) - tInit) with hy
    have s3 : |y / dt - q * 1| ≤ (0 + (2 ^ 40 + 0) / 2 ^ 53 + 1 / 2 ^ 100 + (2 ^ 40 + (0 + (2 ^ 40 + 0) / 2 ^ 53 + 1 / 2 ^ 100)) / 2 ^ 53 + 1 / 2 ^ 100) * 1 := by
      rw [mul_one, mul_one, show y / dt - q = (y - q * dt) / dt by field_simp, abs_div, abs_of_pos d0, div_le_iff₀ d0]
      exact s2
    have s4 := f64_step (D := 1) (by norm_num) s3 hqM
    rw [mul_one, mul_one] at s4
    exact s4.trans (by norm_num)
  obtain ⟨c1, c2⟩ := ceil_between key
  unfold synthTimeF64 arangeF64
  simp only [List.length_map, List.length_range]
  exact ⟨Int.toNat_le_toNat c1, Int.toNat_le_toNat c2⟩

/-- **C122 (nominal duration).**  For a duration of `n` steps (up to a quarter of a thousandth of a step) there are `n + 1` samples, or `n + 2`. -/
theorem synth_count_nominal {tInit tEnd dt : ℚ} (hdt : 1 / 2 ^ 100 ≤ dt) (hM : |tInit| + |tEnd| + dt ≤ 2 ^ 40 * dt) {n : ℕ}
    (hn : |(tEnd - tInit) - n * dt| ≤ dt / 2 ^ 12) :
    (synthTimeF64 tInit tEnd dt).length = n + 1 ∨ (synthTimeF64 tInit tEnd dt).length = n + 2 := by
  obtain ⟨h1, h2⟩ := synth_count hdt hM
  have d0 : 0 < dt := lt_of_lt_of_le (by positivity) hdt
  have hq : |(tEnd - tInit) / dt - n| ≤ 1 / 2 ^ 12 := by
    rw [show (tEnd - tInit) / dt - n = ((tEnd - tInit) - n * dt) / dt by field_simp, abs_div, abs_of_pos d0, div_le_iff₀ d0]
    linarith
  obtain ⟨a1, a2⟩ := abs_le.1 hq
  have l : ⌈(tEnd - tInit) / dt + 1 - 1 / 2 ^ 10⌉ = ((n + 1 : ℕ) : ℤ) := by
    rw [Int.ceil_eq_iff]
    push_cast
    constructor <;> linarith
  have u : ⌈(tEnd - tInit) / dt + 1 + 1 / 2 ^ 10⌉ = ((n + 2 : ℕ) : ℤ) := by
    rw [Int.ceil_eq_iff]
    push_cast
    constructor <;> linarith
  rw [l, Int.toNat_natCast] at h1
  rw [u, Int.toNat_natCast] at h2
  omega

/-- **C122 (exact count).**  If the duration is not within a thousandth of a step of a whole number of steps, the count is the exact one. -/
theorem synth_count_exact {tInit tEnd dt : ℚ} (hdt : 1 / 2 ^ 100 ≤ dt) (hM : |tInit| + |tEnd| + dt ≤ 2 ^ 40 * dt) {n : ℕ}
    (h1 : n * dt + dt / 2 ^ 10 < tEnd - tInit) (h2 : tEnd - tInit < (n + 1) * dt - dt / 2 ^ 10) :
    (synthTimeF64 tInit tEnd dt).length = n + 2 := by
  obtain ⟨c1, c2⟩ := synth_count hdt hM
  have d0 : 0 < dt := lt_of_lt_of_le (by positivity) hdt
  have a1 : n + 1 / 2 ^ 10 < (tEnd - tInit) / dt := by rw [lt_div_iff₀ d0]; linarith
  have a2 : (tEnd - tInit) / dt < n + 1 - 1 / 2 ^ 10 := by rw [div_lt_iff₀ d0]; linarith
  have l : ⌈(tEnd - tInit) / dt + 1 - 1 / 2 ^ 10⌉ = ((n + 2 : ℕ) : ℤ) := by
    rw [Int.ceil_eq_iff]
    push_cast
    constructor <;> linarith
  have u : ⌈(tEnd - tInit) / dt + 1 + 1 / 2 ^ 10⌉ = ((n + 2 : ℕ) : ℤ) := by
    rw [Int.ceil_eq_iff]
    push_cast
    constructor <;> linarith
  rw [l, Int.toNat_natCast] at c1
  rw [u, Int.toNat_natCast] at c2
  omega

theorem isDouble_zero : IsDouble 0 := ⟨0, 0, by norm_num, by norm_num, by norm_num⟩

/-- **C122 (times).**  Starting at zero, sample `i` is at the double nearest to `i * dt`; the axis passes the constant-step check. -/
theorem synth_times {tEnd dt : ℚ} (hd : IsDouble dt) :
    synthTimeF64 0 tEnd dt = (List.range (synthTimeF64 0 tEnd dt).length).map fun (i : ℕ) => f64 (i * dt) := by
  have e : synthTimeF64 0 tEnd dt = (List.range (arangeLenF64 0 (f64 (tEnd + dt)) dt)).map fun (i : ℕ) => f64 (i * dt) := by
    unfold synthTimeF64 arangeF64
    simp only [zero_add, sub_zero, f64_of_double hd]
    apply List.map_congr_left
    intro i _
    split_ifs with h1 h2
    · subst h1; simp [f64_zero]
    · subst h2; simp [f64_of_double hd]
    · exact f64_of_double (f64_double _)
  rw [e]
  simp

theorem synth_accepted {tEnd dt : ℚ} (hd : IsDouble dt) (hlo : 1 / 2 ^ 30 ≤ dt) (hhi : dt ≤ 2 ^ 10) (ht : dt ≤ tEnd) (hT : tEnd + 3 * dt ≤ 2 ^ 18)
    (hM : tEnd + dt ≤ 2 ^ 40 * dt) : monotonicF64 (synthTimeF64 0 tEnd dt) = .ok true := by
  have d0 : 0 < dt := lt_of_lt_of_le (by positivity) hlo
  obtain ⟨c1, c2⟩ := synth_count (tInit := 0) (tEnd := tEnd) (dt := dt) (le_trans (one_div_le_one_div_of_le (by positivity)
    (pow_le_pow_right₀ (by norm_num) (by norm_num))) hlo) (by
      rw [abs_zero, abs_of_nonneg (by linarith)]
      linarith)
  rw [synth_times hd]
  rw [sub_zero] at c1 c2
  have q1 : 1 ≤ tEnd / dt := by rw [le_div_iff₀ d0]; linarith
  refine arange_axis_accepted ?_ hlo hhi ?_
  · refine le_trans ?_ c1
    have : (2 : ℤ) ≤ ⌈tEnd / dt + 1 - 1 / 2 ^ 10⌉ := by
      rw [Int.le_ceil_iff]
      push_cast
      linarith
    omega
  · set N := (synthTimeF64 0 tEnd dt).length
    have hc : ((⌈tEnd / dt + 1 + 1 / 2 ^ 10⌉.toNat : ℕ) : ℚ) ≤ tEnd / dt + 3 := by
      have h1 := Int.ceil_lt_add_one (tEnd / dt + 1 + 1 / 2 ^ 10)
      have h0 : 0 ≤ ⌈tEnd / dt + 1 + 1 / 2 ^ 10⌉ := Int.ceil_nonneg (by linarith)
      have : ((⌈tEnd / dt + 1 + 1 / 2 ^ 10⌉.toNat : ℕ) : ℚ) = (⌈tEnd / dt + 1 + 1 / 2 ^ 10⌉ : ℚ) := by exact_mod_cast Int.toNat_of_nonneg h0
      rw [this]
      linarith
    have hN : (N : ℚ) ≤ tEnd / dt + 3 := le_trans (by exact_mod_cast c2) hc
    calc (N : ℚ) * dt ≤ (tEnd / dt + 3) * dt := mul_le_mul_of_nonneg_right hN d0.le
      _ = tEnd + 3 * dt := by field_simp
      _ ≤ _ := hT

/-! ## The frequency axis -/

theorem ratio_near {a b : ℚ} (ha : |a| ≤ 1 / 2 ^ 53) (hb : |b| ≤ 1 / 2 ^ 53) : |(1 + b) / (1 + a) - 1| ≤ 1 / 2 ^ 51 := by
  obtain ⟨a1, a2⟩ := abs_le.1 ha
  obtain ⟨b1, b2⟩ := abs_le.1 hb
  have h : (0 : ℚ) < 1 + a := by linarith
  rw [div_sub_one h.ne', abs_div, abs_of_pos h, div_le_iff₀ h, abs_le]
  constructor <;> linarith

/-- A reciprocal of a product, two roundings. -/
theorem recip_near {c dt : ℚ} (hc : 1 ≤ c) (hc' : c ≤ 2 ^ 41) (hlo : 1 / 2 ^ 40 ≤ dt) (hhi : dt ≤ 2 ^ 40) :
    ∃ e : ℚ, |e| ≤ 1 / 2 ^ 51 ∧ f64 (1 / f64 (c * dt)) = 1 / (c * dt) * (1 + e) := by
  have d0 : 0 < dt := lt_of_lt_of_le (by positivity) hlo
  have c0 : 0 < c := by linarith
  have p0 : 0 < c * dt := mul_pos c0 d0
  have small : ∀ n m : ℕ, n ≤ m → (1 : ℚ) / 2 ^ m ≤ 1 / 2 ^ n := fun n m h =>
    one_div_le_one_div_of_le (by positivity) (pow_le_pow_right₀ (by norm_num) h)
  have plo : 1 / 2 ^ 40 ≤ c * dt := hlo.trans (le_mul_of_one_le_left d0.le hc)
  have phi : c * dt ≤ 2 ^ 81 := by
    calc c * dt ≤ 2 ^ 41 * 2 ^ 40 := mul_le_mul hc' hhi d0.le (by positivity)
      _ = 2 ^ 81 := by norm_num
  obtain ⟨a, ha, e1⟩ := f64_rel (x := c * dt) (by rw [abs_of_pos p0]; exact (small 40 200 (by norm_num)).trans plo)
  obtain ⟨a1, a2⟩ := abs_le.1 ha
  have h1 : (0 : ℚ) < 1 + a := by linarith
  have r0 : 0 < 1 / (c * dt * (1 + a)) := by positivity
  obtain ⟨b, hb, e2⟩ := f64_rel (x := 1 / (c * dt * (1 + a))) (by
    rw [abs_of_pos r0]
    apply one_div_le_one_div_of_le (by positivity)
    calc c * dt * (1 + a) ≤ 2 ^ 81 * 2 := mul_le_mul phi (by linarith) h1.le (by positivity)
      _ ≤ 2 ^ 200 := by norm_num)
  refine ⟨(1 + b) / (1 + a) - 1, ratio_near ha hb, ?_⟩
  rw [e1, e2]
  field_simp
  ring

/-- **C122 (number of frequencies).**  In double precision the generated frequency axis has exactly `n / 2` elements for every time step and every
even number `n` of samples, so that the Fourier components always fit (`xFreq[1 : nF + 1]` and `xFreq[nF : n]`). -/
theorem gen_axis_count {k : ℕ} (hk : 0 < k) (hk' : k ≤ 2 ^ 40) {dt : ℚ} (hlo : 1 / 2 ^ 40 ≤ dt) (hhi : dt ≤ 2 ^ 40) :
    (genAxisF64 (2 * k) dt).length = k := by
  have d0 : 0 < dt := lt_of_lt_of_le (by positivity) hlo
  have kq : (1 : ℚ) ≤ k := by exact_mod_cast hk
  have kq' : (k : ℚ) ≤ 2 ^ 40 := by exact_mod_cast hk'
  obtain ⟨e, he, hD⟩ := recip_near (c := ((2 * k : ℕ) : ℚ)) (dt := dt) (by push_cast; linarith) (by push_cast; linarith) hlo hhi
  obtain ⟨e', he', hF⟩ := recip_near (c := 2) (dt := dt) (by norm_num) (by norm_num) hlo hhi
  unfold genAxisF64 dfGenF64
  rw [hF]
  set D := f64 (1 / f64 (((2 * k : ℕ) : ℚ) * dt)) with hDd
  obtain ⟨e1, e2⟩ := abs_le.1 he
  obtain ⟨e3, e4⟩ := abs_le.1 he'
  have hn0 : (0 : ℚ) < 1 / (2 * k * dt) := by positivity
  have Dlo : 1 / 2 ^ 100 ≤ D := by
    rw [hD]
    push_cast
    have h1 : (1 : ℚ) / 2 ^ 99 ≤ 1 / (2 * k * dt) := by
      apply one_div_le_one_div_of_le (by positivity)
      calc (2 : ℚ) * k * dt ≤ 2 * 2 ^ 40 * 2 ^ 40 := mul_le_mul (by linarith) hhi d0.le (by positivity)
        _ ≤ 2 ^ 99 := by norm_num
    have h2 : 1 / (2 * k * dt) * (1 / 2) ≤ 1 / (2 * k * dt) * (1 + e) := mul_le_mul_of_nonneg_left (by linarith) hn0.le
    refine le_trans ?_ h2
    calc (1 : ℚ) / 2 ^ 100 = 1 / 2 ^ 99 * (1 / 2) := by norm_num
      _ ≤ _ := mul_le_mul_of_nonneg_right h1 (by norm_num)
  have D0 : 0 < D := lt_of_lt_of_le (by positivity) Dlo
  have small : ∀ x : ℚ, 0 ≤ x → x ≤ 1 / 2 ^ 4 → x ≤ 1 := fun x _ h => by linarith
  -- the Nyquist frequency in units of D
  have hN : |1 / (2 * dt) * (1 + e') - (k : ℚ) * D| ≤ 1 / 2 ^ 9 * D := by
    have hkD : 1 / (2 * dt) * (1 + e) = k * D := by
      rw [hD]; push_cast; field_simp
    have hb : 1 / (2 * dt) ≤ 2 * (k * D) := by
      rw [← hkD]
      have : 1 / (2 * dt) * (1 / 2) ≤ 1 / (2 * dt) * (1 + e) := mul_le_mul_of_nonneg_left (by linarith) (by positivity)
      linarith
    rw [← hkD, ← mul_sub, abs_mul, abs_of_pos (by positivity : (0 : ℚ) < 1 / (2 * dt))]
    have hee : |1 + e' - (1 + e)| ≤ 1 / 2 ^ 50 := by rw [abs_le]; constructor <;> linarith
    calc 1 / (2 * dt) * |1 + e' - (1 + e)| ≤ 2 * (k * D) * (1 / 2 ^ 50) := mul_le_mul hb hee (abs_nonneg _) (by positivity)
      _ ≤ 2 * (2 ^ 40 * D) * (1 / 2 ^ 50) := by
        apply mul_le_mul_of_nonneg_right _ (by positivity)
        have := mul_le_mul_of_nonneg_right kq' D0.le
        linarith
      _ = 1 / 2 ^ 9 * D := by ring
  have hh := f64_step (x := D / 2) (a := 1 / 2) (e := 0) (M := 1) Dlo (by rw [zero_mul]; apply le_of_eq; rw [abs_eq_zero]; ring) (by norm_num)
  set H := f64 (D / 2) with hHd
  have hs := f64_step (x := 1 / (2 * dt) * (1 + e') + H) (a := k + 1 / 2) (e := 1 / 2 ^ 8) (M := 2 ^ 41) Dlo (by
    rw [show 1 / (2 * dt) * (1 + e') + H - ((k : ℚ) + 1 / 2) * D = (1 / (2 * dt) * (1 + e') - (k : ℚ) * D) + (H - 1 / 2 * D) by ring]
    refine (abs_add_le _ _).trans ?_
    have : (0 + (1 + 0) / 2 ^ 53 + 1 / 2 ^ 100 : ℚ) * D ≤ 1 / 2 ^ 9 * D := mul_le_mul_of_nonneg_right (by norm_num) D0.le
    linarith) (by rw [abs_of_nonneg (by positivity)]; linarith)
  set S := f64 (1 / (2 * dt) * (1 + e') + H) with hSd
  have hd := f64_step (x := S - D) (a := k - 1 / 2) (e := 1 / 2 ^ 7) (M := 2 ^ 41) Dlo (by
    rw [show S - D - ((k : ℚ) - 1 / 2) * D = S - ((k : ℚ) + 1 / 2) * D by ring]
    refine hs.trans (mul_le_mul_of_nonneg_right (by norm_num) D0.le)) (by rw [abs_of_nonneg (by linarith)]; linarith)
  have hq := f64_step (x := f64 (S - D) / D) (a := k - 1 / 2) (e := 1 / 2 ^ 6) (M := 2 ^ 41) (D := 1) (by norm_num) (by
    rw [mul_one, mul_one, show f64 (S - D) / D - ((k : ℚ) - 1 / 2) = (f64 (S - D) - ((k : ℚ) - 1 / 2) * D) / D by field_simp, abs_div, abs_of_pos D0,
      div_le_iff₀ D0]
    exact hd.trans (mul_le_mul_of_nonneg_right (by norm_num) D0.le)) (by rw [abs_of_nonneg (by linarith)]; linarith)
  rw [mul_one, mul_one] at hq
  have hq' : |f64 (f64 (S - D) / D) - (k - 1 / 2)| ≤ 1 / 4 := hq.trans (by norm_num)
  obtain ⟨q1, q2⟩ := abs_le.1 hq'
  unfold arangeF64 arangeLenF64
  simp only [List.length_map, List.length_range]
  have : ⌈f64 (f64 (S - D) / D)⌉ = (k : ℤ) := by
    rw [Int.ceil_eq_iff]
    push_cast
    constructor <;> linarith
  rw [this, Int.toNat_natCast]

theorem IsDouble.twice {x : ℚ} (h : IsDouble x) : IsDouble (x + x) := by
  obtain ⟨m, e, h1, h2, h3⟩ := h
  refine ⟨m, e + 1, h1, by omega, ?_⟩
  rw [h3, zpow_add_one₀ (by norm_num)]
  ring

theorem map_range_getD {g : ℕ → ℚ} {n i : ℕ} (h : i < n) : ((List.range n).map g).getD i 0 = g i := by
  rw [List.getD_eq_getElem _ _ (by simpa using h), List.getElem_map, List.getElem_range]

/-- **C122 (frequencies).**  Frequency `i` of the generated axis is the harmonic `i + 1` of the record up to a relative error of `2 ^ -49`. -/
theorem gen_axis_values {k : ℕ} (hk : 0 < k) (hk' : k ≤ 2 ^ 40) {dt : ℚ} (hlo : 1 / 2 ^ 40 ≤ dt) (hhi : dt ≤ 2 ^ 40) {i : ℕ} (hi : i < k) :
    |(genAxisF64 (2 * k) dt).getD i 0 - ((i : ℚ) + 1) / (2 * k * dt)| ≤ ((i : ℚ) + 1) / (2 * k * dt) / 2 ^ 49 := by
  have d0 : 0 < dt := lt_of_lt_of_le (by positivity) hlo
  have kq : (1 : ℚ) ≤ k := by exact_mod_cast hk
  have kq' : (k : ℚ) ≤ 2 ^ 40 := by exact_mod_cast hk'
  have hc := gen_axis_count hk hk' hlo hhi
  obtain ⟨e, he, hD⟩ := recip_near (c := ((2 * k : ℕ) : ℚ)) (dt := dt) (by push_cast; linarith) (by push_cast; linarith) hlo hhi
  unfold genAxisF64 dfGenF64 arangeF64 at hc ⊢
  set D := f64 (1 / f64 (((2 * k : ℕ) : ℚ) * dt)) with hDd
  simp only [List.length_map, List.length_range] at hc
  simp only []
  rw [hc, map_range_getD hi]
  have Dd : IsDouble D := f64_double _
  rw [f64_of_double Dd.twice, add_sub_cancel_right, f64_of_double Dd]
  push_cast at hD
  set F := 1 / (2 * k * dt) with hF
  have F0 : 0 < F := by positivity
  obtain ⟨e1, e2⟩ := abs_le.1 he
  have DF : |D - F| ≤ F / 2 ^ 51 := by
    rw [hD, show F * (1 + e) - F = F * e by ring, abs_mul, abs_of_pos F0]
    calc F * |e| ≤ F * (1 / 2 ^ 51) := mul_le_mul_of_nonneg_left he F0.le
      _ = _ := by ring
  have D0 : 0 < D := by rw [hD]; exact mul_pos F0 (by linarith)
  have Flo : (1 : ℚ) / 2 ^ 99 ≤ F := by
    apply one_div_le_one_div_of_le (by positivity)
    calc (2 : ℚ) * k * dt ≤ 2 * 2 ^ 40 * 2 ^ 40 := mul_le_mul (by linarith) hhi d0.le (by positivity)
      _ ≤ 2 ^ 99 := by norm_num
  have Dlo : (1 : ℚ) / 2 ^ 200 ≤ D := by
    have := (abs_le.1 DF).1
    have h : (1 : ℚ) / 2 ^ 200 ≤ 1 / 2 ^ 100 := one_div_le_one_div_of_le (by positivity) (pow_le_pow_right₀ (by norm_num) (by norm_num))
    linarith
  have iq : (0 : ℚ) ≤ i := Nat.cast_nonneg i
  -- the value in units of D
  have val : |(if i = 0 then D else if i = 1 then D + D else f64 (D + f64 (i * D))) - (i + 1) * D| ≤ (i + 1) * D / 2 ^ 51 := by
    split_ifs with h0 h1
    · subst h0
      simp only [Nat.cast_zero, zero_add, one_mul, sub_self, abs_zero]
      positivity
    · subst h1
      rw [show D + D - ((1 : ℕ) + 1) * D = 0 by push_cast; ring, abs_zero]
      positivity
    · have i1 : (1 : ℚ) ≤ i := by exact_mod_cast Nat.one_le_iff_ne_zero.2 h0
      have iD : D ≤ i * D := le_mul_of_one_le_left D0.le i1
      obtain ⟨a, ha, ea⟩ := f64_rel (x := (i : ℚ) * D) (by rw [abs_of_nonneg (by linarith)]; linarith)
      obtain ⟨a1, a2⟩ := abs_le.1 ha
      have p1 : |f64 (i * D) - i * D| ≤ i * D / 2 ^ 53 := by
        rw [ea, show (i : ℚ) * D * (1 + a) - i * D = i * D * a by ring, abs_mul, abs_of_nonneg (by linarith)]
        calc (i : ℚ) * D * |a| ≤ i * D * (1 / 2 ^ 53) := mul_le_mul_of_nonneg_left ha (by linarith)
          _ = _ := by ring
      obtain ⟨p2, p3⟩ := abs_le.1 p1
      have p4 := f64_add_error Dd (f64_double (i * D))
      rw [abs_of_nonneg (by linarith : 0 ≤ D + f64 (i * D))] at p4
      have p5 := abs_le.1 p4
      rw [abs_le]
      constructor <;> linarith
  have tr := abs_add_le ((if i = 0 then D else if i = 1 then D + D else f64 (D + f64 (i * D))) - (i + 1) * D) ((i + 1) * D - (i + 1) / (2 * k * dt))
  rw [sub_add_sub_cancel] at tr
  have eF : ((i : ℚ) + 1) / (2 * k * dt) = (i + 1) * F := by rw [hF]; ring
  rw [eF] at tr ⊢
  refine tr.trans ?_
  rw [← mul_sub, abs_mul, abs_of_pos (by linarith : (0 : ℚ) < i + 1)]
  have t1 : ((i : ℚ) + 1) * |D - F| ≤ (i + 1) * (F / 2 ^ 51) := mul_le_mul_of_nonneg_left DF (by linarith)
  have t2 : D ≤ 2 * F := by have := (abs_le.1 DF).2; linarith
  have t3 : ((i : ℚ) + 1) * D ≤ (i + 1) * (2 * F) := mul_le_mul_of_nonneg_left t2 (by linarith)
  have t4 : 0 ≤ ((i : ℚ) + 1) * F := by positivity
  linarith

/-- **C122 (time axis with any start).**  Sample `i` is within `(i + 1) (|tInit| + (i + 1) dt) 2 ^ -50` of `tInit + i dt`: the error of the step, of
the order of the last place of `tInit`, accumulates. -/
theorem synth_drift {tInit tEnd dt : ℚ} (h0 : IsDouble tInit) (hd : IsDouble dt) (hdt : 1 / 2 ^ 100 ≤ dt) {i : ℕ}
    (hi : i < (synthTimeF64 tInit tEnd dt).length) (hi' : i ≤ 2 ^ 50) :
    |(synthTimeF64 tInit tEnd dt).getD i 0 - (tInit + i * dt)| ≤ ((i : ℚ) + 1) * (|tInit| + (i + 1) * dt) / 2 ^ 50 := by
  have d0 : 0 < dt := lt_of_lt_of_le (by positivity) hdt
  unfold synthTimeF64 arangeF64 at hi ⊢
  simp only [List.length_map, List.length_range] at hi
  simp only []
  rw [map_range_getD hi]
  set nx := f64 (tInit + dt) with hnx
  set δ := f64 (nx - tInit) with hδ
  set A := |tInit| + dt with hA
  have A0 : 0 < A := by positivity
  have iq : (0 : ℚ) ≤ i := Nat.cast_nonneg i
  have iq' : (i : ℚ) ≤ 2 ^ 50 := by exact_mod_cast hi'
  have dA : dt ≤ A := by rw [hA]; linarith [abs_nonneg tInit]
  have tA : |tInit| ≤ A := by rw [hA]; linarith
  have n1 : |nx - (tInit + dt)| ≤ A / 2 ^ 53 := by
    refine (f64_add_error h0 hd).trans (div_le_div_of_nonneg_right ?_ (by positivity))
    have := abs_add_le tInit dt
    rwa [abs_of_pos d0] at this
  have n2 : |δ - (nx - tInit)| ≤ |nx - tInit| / 2 ^ 53 := by
    have := f64_add_error (f64_double (tInit + dt)) (b := -tInit) (by
      obtain ⟨m, e, u, v, w⟩ := h0
      exact ⟨-m, e, by rwa [abs_neg], v, by rw [w]; push_cast; ring⟩)
    rw [← sub_eq_add_neg] at this
    exact this
  obtain ⟨n3, n4⟩ := abs_le.1 n1
  have n5 : |nx - tInit| ≤ 2 * A := by rw [abs_le]; constructor <;> linarith
  have n6 : |δ - dt| ≤ 3 * A / 2 ^ 53 := by
    obtain ⟨u, v⟩ := abs_le.1 n2
    rw [abs_le]
    constructor <;> linarith
  obtain ⟨n7, n8⟩ := abs_le.1 n6
  have A2 : (i : ℚ) * A ≤ (i + 1) * (|tInit| + (i + 1) * dt) := by
    rw [hA]
    have h1 : 0 ≤ (i : ℚ) * ((i : ℚ) * dt) := by positivity
    have h2 : 0 ≤ (i : ℚ) * dt := by positivity
    have h3 := abs_nonneg tInit
    have : ((i : ℚ) + 1) * (|tInit| + (i + 1) * dt) = i * (|tInit| + dt) + i * (i * dt) + |tInit| + (i * dt + dt) := by ring
    rw [this]
    linarith
  split_ifs with c0 c1
  · subst c0
    simp only [Nat.cast_zero, zero_mul, add_zero, sub_self, abs_zero]
    positivity
  · subst c1
    push_cast
    rw [one_mul]
    refine n1.trans ?_
    have := abs_nonneg tInit
    rw [hA]
    linarith
  · have i1 : (1 : ℚ) ≤ i := by exact_mod_cast Nat.one_le_iff_ne_zero.2 c0
    have m1 := f64_abs ((i : ℚ) * δ)
    have tiny : (1 : ℚ) / 2 ^ 200 ≤ dt / 2 ^ 100 := by
      rw [le_div_iff₀ (by positivity)]
      exact le_trans (by norm_num) hdt
    have bδ : |δ| ≤ dt + 3 * A / 2 ^ 53 := by rw [abs_le]; constructor <;> linarith
    have m2 : |(i : ℚ) * δ| ≤ i * (dt + 3 * A / 2 ^ 53) := by
      rw [abs_mul, abs_of_nonneg iq]
      exact mul_le_mul_of_nonneg_left bδ iq
    have m3 : |(i : ℚ) * δ - i * dt| ≤ i * (3 * A / 2 ^ 53) := by
      rw [← mul_sub, abs_mul, abs_of_nonneg iq]
      exact mul_le_mul_of_nonneg_left n6 iq
    set P := f64 ((i : ℚ) * δ) with hP
    obtain ⟨u1, u2⟩ := abs_le.1 m1
    obtain ⟨v1, v2⟩ := abs_le.1 m3
    have m4 := f64_add_error h0 (f64_double ((i : ℚ) * δ))
    rw [← hP] at m4
    have e1 : (i : ℚ) * (3 * A / 2 ^ 53) = 3 * (i * A) / 2 ^ 53 := by ring
    have e2 : (i : ℚ) * (dt + 3 * A / 2 ^ 53) = i * dt + 3 * (i * A) / 2 ^ 53 := by ring
    rw [e1] at v1 v2
    rw [e2] at m2
    set W := (i : ℚ) * A with hW
    have idA : (i : ℚ) * dt ≤ W := mul_le_mul_of_nonneg_left dA iq
    have AW : A ≤ W := le_mul_of_one_le_left A0.le i1
    have W0 : 0 < W := lt_of_lt_of_le A0 AW
    have id0 : 0 ≤ (i : ℚ) * dt := by positivity
    have hPb : |tInit + P| ≤ 3 * W := by
      have := abs_le.1 tA
      rw [abs_le]
      constructor <;> linarith
    obtain ⟨w1, w2⟩ := abs_le.1 m4
    have : |f64 (tInit + P) - (tInit + i * dt)| ≤ W / 2 ^ 50 := by
      rw [abs_le]
      constructor <;> linarith
    refine this.trans (div_le_div_of_nonneg_right A2 (by positivity))

/-- **C122 (the components fit).**  For every number of samples the components and their mirror images fill the transform: `2 nF` is the padded
length, which is the number of samples or one more. -/
theorem synth_fits {N : ℕ} (hN : 0 < N) (hN' : N ≤ 2 ^ 40) {dt : ℚ} (hlo : 1 / 2 ^ 40 ≤ dt) (hhi : dt ≤ 2 ^ 40) :
    2 * (genAxisF64 (nTimeEven N) dt).length = nTimeEven N ∧ N ≤ nTimeEven N ∧ nTimeEven N ≤ N + 1 := by
  unfold nTimeEven
  refine ⟨?_, by omega, by omega⟩
  rw [gen_axis_count (by omega) (by omega) hlo hhi]

/-! ## Findings -/

theorem synth_length (tInit tEnd dt : ℚ) : (synthTimeF64 tInit tEnd dt).length = arangeLenF64 tInit (f64 (tEnd + dt)) dt := by
  unfold synthTimeF64 arangeF64
  simp only [List.length_map, List.length_range]

/-- **Finding.**  Twenty seconds at a hundred samples per second: `20 + 0.01` divided by `0.01` is rounded up to `2001.0000000000002`, so that the
series has 2002 samples and ends at 20.01 s, after the requested end. -/
theorem extra_sample : (synthTimeF64 0 20 (f64 (1 / 100))).length = 2002 ∧ 20 < (synthTimeF64 0 20 (f64 (1 / 100))).getD 2001 0 := by
  have h : arangeLenF64 0 (f64 (20 + f64 (1 / 100))) (f64 (1 / 100)) = 2002 := by decide +kernel
  refine ⟨by rw [synth_length]; exact h, ?_⟩
  unfold synthTimeF64 arangeF64
  rw [h]
  simp only []
  rw [map_range_getD (by norm_num)]
  decide +kernel

/-- With twenty samples per second the same duration gives the expected number. -/
example : (synthTimeF64 0 20 (f64 (1 / 20))).length = 401 := by
  have h : arangeLenF64 0 (f64 (20 + f64 (1 / 20))) (f64 (1 / 20)) = 401 := by decide +kernel
  rw [synth_length]; exact h

/-- **Finding.**  One hour from a start at `1.6e9` s (seconds since 1970) at ten samples per second: the step becomes `0.09999990463256836` s, so
that the last sample lies 3.4 ms before the requested end. -/
theorem epoch_drift : (synthTimeF64 1600000000 1600003600 (f64 (1 / 10))).length = 36001 ∧
    (synthTimeF64 1600000000 1600003600 (f64 (1 / 10))).getD 36000 0 < 1600003600 - 34 / 10000 := by
  have h : arangeLenF64 1600000000 (f64 (1600003600 + f64 (1 / 10))) (f64 (1 / 10)) = 36001 := by decide +kernel
  refine ⟨by rw [synth_length]; exact h, ?_⟩
  unfold synthTimeF64 arangeF64
  rw [h]
  simp only []
  rw [map_range_getD (by norm_num)]
  decide +kernel

/-- The hypotheses of `synth_count_nominal` hold for these numbers. -/
example : (synthTimeF64 0 20 (f64 (1 / 100))).length = 2000 + 1 ∨ (synthTimeF64 0 20 (f64 (1 / 100))).length = 2000 + 2 := by
  have h : f64 (1 / 100) = 5764607523034235 / 576460752303423488 := by decide +kernel
  rw [h]
  exact synth_count_nominal (by norm_num) (by norm_num) (by norm_num [abs_le])

/-- The hypotheses of `gen_axis_count` hold for these numbers. -/
example : (genAxisF64 (2 * 1001) (f64 (1 / 100))).length = 1001 := by
  have h : f64 (1 / 100) = 5764607523034235 / 576460752303423488 := by decide +kernel
  rw [h]
  exact gen_axis_count (by norm_num) (by norm_num) (by norm_num) (by norm_num)

/-! ## Concrete cases: the hypotheses of the theorems above are met -/

theorem double_eighth : IsDouble (1 / 8) := ⟨1, -3, by norm_num, by norm_num, by norm_num⟩

example : ⌈((20 : ℚ) - 0) / (1 / 8) + 1 - 1 / 2 ^ 10⌉.toNat ≤ (synthTimeF64 0 20 (1 / 8)).length :=
  (synth_count (by norm_num) (by norm_num)).1

example : (synthTimeF64 0 (20 + 1 / 16) (1 / 8)).length = 160 + 2 :=
  synth_count_exact (by norm_num) (by norm_num [abs_of_pos]) (n := 160) (by norm_num) (by norm_num)

example : synthTimeF64 0 20 (1 / 8) = (List.range (synthTimeF64 0 20 (1 / 8)).length).map fun (i : ℕ) => f64 (i * (1 / 8)) := synth_times double_eighth

example : monotonicF64 (synthTimeF64 0 20 (1 / 8)) = .ok true :=
  synth_accepted double_eighth (by norm_num) (by norm_num) (by norm_num) (by norm_num) (by norm_num)

example : |(genAxisF64 (2 * 1001) (1 / 8)).getD 3 0 - (((3 : ℕ) : ℚ) + 1) / (2 * (1001 : ℕ) * (1 / 8))| ≤ (((3 : ℕ) : ℚ) + 1) / (2 * (1001 : ℕ) * (1 / 8)) / 2 ^ 49 :=
  gen_axis_values (by norm_num) (by norm_num) (by norm_num) (by norm_num) (by norm_num)

example : |(synthTimeF64 1024 1044 (1 / 8)).getD 100 0 - (1024 + ((100 : ℕ) : ℚ) * (1 / 8))| ≤ (((100 : ℕ) : ℚ) + 1) * (|1024| + ((100 : ℕ) + 1) * (1 / 8)) / 2 ^ 50 := by
  have h := (synth_count (tInit := 1024) (tEnd := 1044) (dt := 1 / 8) (by norm_num) (by norm_num [abs_of_pos])).1
  have e : ⌈((1044 : ℚ) - 1024) / (1 / 8) + 1 - 1 / 2 ^ 10⌉.toNat = 161 := by decide +kernel
  exact synth_drift ⟨1024, 0, by norm_num, by norm_num, by norm_num⟩ double_eighth (by norm_num) (by omega) (by norm_num)

example : 2 * (genAxisF64 (nTimeEven 161) (1 / 8)).length = nTimeEven 161 := (synth_fits (by norm_num) (by norm_num) (by norm_num) (by norm_num)).1

end Verif
