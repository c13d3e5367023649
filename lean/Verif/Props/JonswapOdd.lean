import Verif.Props.JonswapLaws

/-! # C167: `create_spectrum_jonswap` for every argument -/

set_option linter.unusedSectionVars false

namespace Verif

/-- A non-negative shape is scaled to the prescribed energy. -/
theorem jonswapScaled_spec {f S : List ℝ} {h hm0 lF : ℝ} (hu : UniformAxis f h) (h2 : 2 ≤ f.length) (h0 : 0 ≤ f.getD 0 0) (hl : S.length = f.length)
    (hnn : ∀ v ∈ S, 0 ≤ v) (hlast : 0 < S.getD (f.length - 1) 0) {fmax : FMax ℝ}
    (hfmax : fmax = if lF = 0 then .fin (f.getD (f.length - 1) 0) else .inf) :
    ∃ c, 0 ≤ c ∧ (hm0 ≠ 0 → 0 < c) ∧ jonswapScaled f S hm0 fmax = .ok (S.map fun v => v * c) ∧
      computeMoment (vec f) (vec (S.map fun v => v * c)) 0 (f.getD 0 0) fmax = .ok (hm0 ^ 2 / 16) := by
  have hm : monotonicIncreasingConstantStep f = .ok true := uniform_check_accepts_uniform h2 hu
  have hp := uniform_check_increasing hm
  have hl01 := inc_lt hp (show 0 < f.length - 1 by omega) (by omega)
  have hab : fmax.above (f.getD 0 0) := by
    rw [hfmax]; split_ifs
    · exact hl01.le
    · trivial
  obtain ⟨m0, em0, hm00⟩ := moment_defined (m := 0) (fmin := f.getD 0 0) (fmax := fmax) (isArr_vec f) (isArr_vec S) hu h2 hl.symm h0
    hnn (Or.inl hab) (Or.inl (by norm_num))
  have fu : firstUsable f 0 = 0 := by simp [firstUsable]
  have hsel : SelectedRange f 0 (f.getD 0 0) fmax 0 (f.length - 1) := by
    refine ⟨by rw [fu]; exact isNearest_self hp (le_refl _) (by omega), ?_⟩
    rw [hfmax]
    by_cases hl : lF = 0
    · rw [if_pos hl, fu]; exact isNearest_self hp (Nat.zero_le _) (by omega)
    · rw [if_neg hl]
  have hmaxne : fmax ≠ .fin (-1) := by
    rw [hfmax]
    split_ifs
    · intro e
      have e := FMax.fin.inj e
      linarith
    · intro e; cases e
  obtain ⟨t, hr⟩ := momentRange_of_selected hm (by linarith) hmaxne hsel
  have hm0pos : 0 < m0 :=
    moment_pos (isArr_vec f) (isArr_vec S) hu h0 hnn hr (by omega) (Nat.zero_le _) (le_refl _) (Or.inr rfl) hlast em0
  refine ⟨(hm0 / (4 * Real.sqrt m0)) ^ 2, by positivity, fun hne => by positivity, ?_, ?_⟩
  · unfold jonswapScaled
    rw [em0]
    dsimp only
    rw [if_neg (not_le.2 hm0pos)]
  · have := moment_linear (p := vec (S.map fun v => v * (hm0 / (4 * Real.sqrt m0)) ^ 2)) ((hm0 / (4 * Real.sqrt m0)) ^ 2) 0 (isArr_vec f) (isArr_vec S)
      (isArr_vec S) (by rw [specComb_scale]; exact isArr_vec _) em0 em0
    rw [this]
    congr 1
    rw [div_pow, mul_pow, Real.sq_sqrt hm00]
    field_simp
    ring

/-- A spectrum without energy cannot be scaled. -/
theorem jonswapScaled_none {f S : List ℝ} {h lF : ℝ} (hu : UniformAxis f h) (h2 : 2 ≤ f.length) (h0 : 0 ≤ f.getD 0 0) (hl : S.length = f.length)
    (hz : ∀ v ∈ S, v = 0) (hm0 : ℝ) {fmax : FMax ℝ}
    (hfmax : fmax = if lF = 0 then .fin (f.getD (f.length - 1) 0) else .inf) : jonswapScaled f S hm0 fmax = .error .nonFinite := by
  have hm : monotonicIncreasingConstantStep f = .ok true := uniform_check_accepts_uniform h2 hu
  have hp := uniform_check_increasing hm
  have hl01 := inc_lt hp (show 0 < f.length - 1 by omega) (by omega)
  have hab : fmax.above (f.getD 0 0) := by
    rw [hfmax]; split_ifs
    · exact hl01.le
    · trivial
  obtain ⟨m0, em0, -⟩ := moment_defined (m := 0) (fmin := f.getD 0 0) (fmax := fmax) (isArr_vec f) (isArr_vec S) hu h2 hl.symm h0
    (fun v hv => (hz v hv).ge) (Or.inl hab) (Or.inl (by norm_num))
  have hS : S = S.map fun v => v * 0 := by
    conv_lhs => rw [← List.map_id S]
    exact List.map_congr_left fun v hv => by rw [hz v hv]; simp
  have e := moment_linear (p := vec (S.map fun v => v * 0)) 0 0 (isArr_vec f) (isArr_vec S) (isArr_vec S) (by rw [specComb_scale]; exact isArr_vec _) em0 em0
  rw [← hS, em0] at e
  have h00 : m0 = 0 := by have := Except.ok.inj e; linarith
  unfold jonswapScaled
  rw [em0]
  dsimp only
  rw [if_pos h00.le]

/-- The arguments for which a spectrum can be made: some frequency counts as positive, and the peak factor is positive unless the peak
frequency is zero. -/
def JonswapArgs (f : List ℝ) (fp γ : ℝ) : Prop := 1 / 2 ^ 52 < f.getD (f.length - 1) 0 ∧ (fp = 0 ∨ 0 < γ)

/-- The formula for a peak frequency of zero: the tail `f^-5` alone. -/
noncomputable def specTail (f : ℝ) : ℝ := f ^ (-5 : ℤ)

/-- **C167.**  `create_spectrum_jonswap` on a uniform axis of non-negative frequencies, for all values of the other arguments: `l_fmax` other than 0
and 1 raises `ValueError`; without a positive frequency, or with `gammaPeak <= 0` and `fp != 0`, the result is NaN; in all other cases, also
for a negative `fp` or a negative `hm0`, a spectrum is returned whose energy is that of a wave height `|hm0|` over the axis (`l_fmax = 0`) or up to infinity (`l_fmax = 1`),
a multiple of the JONSWAP formula, or, for `fp = 0`, of `f^-5`. -/
theorem jonswap_total {pf : PyIn ℝ} {f : List ℝ} {h : ℝ} (hf : pf.IsArr f) (hu : UniformAxis f h) (h2 : 2 ≤ f.length) (h0 : 0 ≤ f.getD 0 0)
    (fp hm0 γ lF : ℝ) :
    (lF ≠ 0 → lF ≠ 1 → ∃ msg, createSpectrumJonswap pf fp hm0 γ lF = .error (.valueError msg)) ∧
    (lF = 0 ∨ lF = 1 → ¬ JonswapArgs f fp γ → createSpectrumJonswap pf fp hm0 γ lF = .error .nonFinite) ∧
    (lF = 0 ∨ lF = 1 → JonswapArgs f fp γ → ∃ S c, createSpectrumJonswap pf fp hm0 γ lF = .ok S ∧ 0 ≤ c ∧ (hm0 ≠ 0 → 0 < c) ∧
      S.length = f.length ∧ (∀ k < f.length, S.getD k 0 = if f.getD k 0 ≤ 1 / 2 ^ 52 then 0 else
        c * if fp = 0 then specTail (f.getD k 0) else specJonswap fp γ (f.getD k 0)) ∧
      computeMoment pf (vec S) 0 (f.getD 0 0) (if lF = 0 then .fin (f.getD (f.length - 1) 0) else .inf) = .ok (hm0 ^ 2 / 16)) := by
  have hne : f ≠ [] := by intro e; rw [e] at h2; simp at h2
  have hp := uniform_check_increasing (uniform_check_accepts_uniform h2 hu)
  have hmf : ∀ (S : PyIn ℝ) (k : Int) (lo : ℝ) (hi : FMax ℝ), computeMoment pf S k lo hi = computeMoment (vec f) S k lo hi := by
    intro S k lo hi
    unfold computeMoment
    rw [vecIn_of_isArr hf, vecIn_of_isArr (isArr_vec f)]
  have hC : (0 : ℝ) < 1 * (981 / 100) ^ 2 * (2 * Real.pi) ^ (-4 : ℤ) := by positivity
  unfold createSpectrumJonswap
  rw [vecIn_of_isArr hf]
  dsimp only
  rw [if_neg hne]
  refine ⟨fun h1 h2 => ⟨_, if_pos ⟨h1, h2⟩⟩, fun hlF hno => ?_, fun hlF hyes => ?_⟩
  · rw [if_neg (by tauto)]
    have hsmall : f.getD (f.length - 1) 0 ≤ 1 / 2 ^ 52 → ∀ x ∈ f, ¬ x > 1 / 2 ^ 52 := by
      intro hs x hx
      obtain ⟨i, hi, rfl⟩ := List.getElem_of_mem hx
      have := inc_le hp (show i ≤ f.length - 1 by omega) (by omega)
      rw [List.getD_eq_getElem _ _ hi] at this
      exact not_lt.2 (this.trans hs)
    by_cases hfp : fp = 0
    · rw [if_pos hfp]
      refine jonswapScaled_none hu h2 h0 (by simp) ?_ hm0 rfl
      intro v hv
      obtain ⟨x, hx, rfl⟩ := List.mem_map.1 hv
      have hs : f.getD (f.length - 1) 0 ≤ 1 / 2 ^ 52 := by
        by_contra hc; exact hno ⟨not_le.1 hc, Or.inl hfp⟩
      unfold jonswapShapeZero
      rw [if_neg (hsmall hs x hx)]
    rw [if_neg hfp]
    by_cases hγ : γ ≤ 0
    · rw [if_pos hγ]
      refine jonswapScaled_none hu h2 h0 (by simp) ?_ hm0 rfl
      intro v hv
      obtain ⟨x, -, rfl⟩ := List.mem_map.1 hv
      rfl
    rw [if_neg hγ]
    refine jonswapScaled_none hu h2 h0 (by simp) ?_ hm0 rfl
    intro v hv
    obtain ⟨x, hx, rfl⟩ := List.mem_map.1 hv
    have hs : f.getD (f.length - 1) 0 ≤ 1 / 2 ^ 52 := by
      by_contra hc; exact hno ⟨not_le.1 hc, Or.inr (not_le.1 hγ)⟩
    exact jonswapShape_zero (not_lt.1 (hsmall hs x hx))
  · rw [if_neg (by tauto)]
    obtain ⟨hlast, hor⟩ := hyes
    have main : ∀ (G G0 : ℝ → ℝ) (C : ℝ), 0 < C → (∀ x, 1 / 2 ^ 52 < x → G x = C * G0 x ∧ 0 < G x) → (∀ x, x ≤ 1 / 2 ^ 52 → G x = 0) →
        ∃ S c, jonswapScaled f (f.map G) hm0 (if lF = 0 then .fin (f.getD (f.length - 1) 0) else .inf) = .ok S ∧ 0 ≤ c ∧ (hm0 ≠ 0 → 0 < c) ∧
          S.length = f.length ∧ (∀ k < f.length, S.getD k 0 = if f.getD k 0 ≤ 1 / 2 ^ 52 then 0 else c * G0 (f.getD k 0)) ∧
          computeMoment (vec f) (vec S) 0 (f.getD 0 0) (if lF = 0 then .fin (f.getD (f.length - 1) 0) else .inf) = .ok (hm0 ^ 2 / 16) := by
      intro G G0 C hC h1 h3
      have hg : ∀ k < f.length, (f.map G).getD k 0 = G (f.getD k 0) := by
        intro k hk
        rw [List.getD_eq_getElem _ _ (by simpa using hk), List.getElem_map, List.getD_eq_getElem _ _ hk]
      obtain ⟨c, hc, hc', e, e'⟩ := jonswapScaled_spec (hm0 := hm0) (S := f.map G) hu h2 h0 (by simp)
        (by
          intro v hv
          obtain ⟨x, -, rfl⟩ := List.mem_map.1 hv
          rcases lt_or_ge (1 / 2 ^ 52) x with hx | hx
          · exact (h1 x hx).2.le
          · exact (h3 x hx).ge)
        (by rw [hg _ (by omega)]; exact (h1 _ hlast).2) rfl
      refine ⟨_, c * C, e, by positivity, fun hm => mul_pos (hc' hm) hC, by simp, fun k hk => ?_, e'⟩
      have : ((f.map G).map fun v => v * c).getD k 0 = (f.map G).getD k 0 * c := by
        rw [List.getD_eq_getElem _ _ (by simpa using hk), List.getElem_map, List.getD_eq_getElem _ _ (by simpa using hk)]
      rw [this, hg k hk]
      by_cases hx : f.getD k 0 ≤ 1 / 2 ^ 52
      · rw [if_pos hx, h3 _ hx, zero_mul]
      · rw [if_neg hx, (h1 _ (not_le.1 hx)).1]; ring
    simp only [hmf]
    by_cases hfp : fp = 0
    · simp only [if_pos hfp]
      refine main jonswapShapeZero specTail _ hC (fun x hx => ?_) (fun x hx => ?_)
      · have hx0 : 0 < x := lt_trans (by positivity) hx
        unfold jonswapShapeZero specTail
        rw [if_pos hx]
        exact ⟨rfl, by positivity⟩
      · unfold jonswapShapeZero
        rw [if_neg (not_lt.2 hx)]
    · have hγ : 0 < γ := hor.resolve_left hfp
      simp only [if_neg hfp, if_neg (not_le.2 hγ)]
      obtain ⟨C, hC, hCe⟩ : ∃ C : ℝ, 0 < C ∧ ∀ x, 1 / 2 ^ 52 < x → jonswapShape fp γ x = C * specJonswap fp γ x := 
        ⟨1, one_pos, fun x hx => by rw [one_mul]; exact jonswapShape_eq_spec hfp hx⟩
      exact main (jonswapShape fp γ) (specJonswap fp γ) C hC (fun x hx => ⟨hCe x hx, jonswapShape_pos hγ hx⟩) (fun x hx => jonswapShape_zero hx)

/-- **C167 (shape).**  An array of frequencies that is neither a non-empty row nor a non-empty single column raises `ValueError`, whatever the
other arguments. -/
theorem jonswap_bad_shape {shape : List Nat} {data : List ℝ} (hwf : data.length = shape.prod) (h : ∀ n, 0 < n → shape ≠ [n] ∧ shape ≠ [n, 1])
    (fp hm0 γ lF : ℝ) : ∃ msg, createSpectrumJonswap (.nd ⟨shape, data⟩) fp hm0 γ lF = .error (.valueError msg) := by
  unfold createSpectrumJonswap
  cases e : vecIn "create_spectrum_jonswap" (.nd (⟨shape, data⟩ : Arr ℝ)) with
  | error er =>
    dsimp only
    unfold jonswapBadShape
    split_ifs
    · exact ⟨_, rfl⟩
    · exact ⟨_, rfl⟩
    · exact ⟨_, rfl⟩
  | ok fs =>
    dsimp only
    by_cases hn : fs = []
    · rw [if_pos hn]; exact ⟨_, rfl⟩
    · exfalso
      unfold vecIn toVector toArr size2 Arr.size at e
      rcases shape with _ | ⟨n, _ | ⟨m, _ | ⟨l, ls⟩⟩⟩
      · simp at e
      · have : n = 0 := by
          by_contra hc
          exact (h n (by omega)).1 rfl
        subst this
        have : data = [] := List.length_eq_zero_iff.1 (by simpa using hwf)
        simp [this] at e
        exact hn e
      · by_cases hm : m = 1
        · subst hm
          have : n = 0 := by
            by_contra hc
            exact (h n (by omega)).2 rfl
          subst this
          simp at e
        · dsimp only at e
          split_ifs at e
          all_goals contradiction
      · dsimp only at e
        split_ifs at e
        all_goals contradiction

/-- **C167 (sign).**  The Pierson-Moskowitz spectrum does not depend on the sign of the peak frequency. -/
theorem jonswap_negative_peak (pf : PyIn ℝ) (fp hm0 lF : ℝ) :
    createSpectrumPiersonMoskowitz pf (-fp) hm0 1 lF = createSpectrumPiersonMoskowitz pf fp hm0 1 lF := by
  have : jonswapShape (-fp) 1 = jonswapShape fp 1 := by
    funext x
    unfold jonswapShape
    simp only [Real.one_rpow, div_neg]
    have : ∀ y : ℝ, (-y) ^ (-4 : ℤ) = y ^ (-4 : ℤ) := fun y => Even.neg_zpow (by decide) y
    simp only [this]
  unfold createSpectrumPiersonMoskowitz createSpectrumJonswap
  simp only [neg_eq_zero, this]

/-! ## Concrete cases: the hypotheses of the theorems above are met -/

theorem threeAxis : UniformAxis ([0, 1, 2] : List ℝ) 1 :=
  ⟨by norm_num, fun i hi => by
    simp only [List.length_cons, List.length_nil] at hi
    rcases i with _ | _ | i
    · norm_num
    · norm_num
    · omega⟩

/-- A peak frequency of 0 gives a spectrum with the prescribed energy, and densities in the ratio 32 : 1 at 1 and 2 Hz. -/
example : ∃ S c, createSpectrumJonswap (vec [0, 1, 2]) 0 4 (-5) 0 = .ok S ∧ 0 < c ∧ S.getD 0 7 = 0 ∧ S.getD 1 0 = c ∧ S.getD 2 0 = c / 32 ∧
    computeMoment (vec [0, 1, 2]) (vec S) 0 0 (.fin 2) = .ok 1 := by
  obtain ⟨S, c, h1, -, hc, hl, hk, hm⟩ := (jonswap_total (isArr_vec [0, 1, 2]) threeAxis (by simp) (by norm_num) 0 4 (-5) 0).2.2 (Or.inl rfl)
    ⟨by norm_num, Or.inl rfl⟩
  have k0 := hk 0 (by norm_num)
  have k1 := hk 1 (by norm_num)
  have k2 := hk 2 (by norm_num)
  refine ⟨S, c, h1, hc (by norm_num), ?_, ?_, ?_, ?_⟩
  · rw [List.getD_eq_getElem _ _ (by rw [hl]; norm_num)] at k0 ⊢
    rw [k0]; norm_num
  · rw [k1]; norm_num [specTail]
  · rw [k2]; norm_num [specTail]; ring
  · simp at hm; norm_num at hm; exact hm

example : createSpectrumJonswap (vec [0, 1, 2]) 1 4 (-1) 0 = .error .nonFinite :=
  (jonswap_total (isArr_vec [0, 1, 2]) threeAxis (by simp) (by norm_num) 1 4 (-1) 0).2.1 (Or.inl rfl) (by
    rintro ⟨-, h | h⟩ <;> norm_num at h)

/-- A negative peak frequency raises nothing. -/
example : ∃ S, createSpectrumJonswap (vec [0, 1, 2]) (-1) 4 3 1 = .ok S := by
  obtain ⟨S, c, h1, -⟩ := (jonswap_total (isArr_vec [0, 1, 2]) threeAxis (by simp) (by norm_num) (-1) 4 3 1).2.2 (Or.inr rfl)
    ⟨by norm_num, Or.inr (by norm_num)⟩
  exact ⟨S, h1⟩

example : ∃ msg, createSpectrumJonswap (.nd ⟨[2, 2], [0, 1, 2, 3]⟩) 1 4 3 0 = .error (.valueError msg) :=
  jonswap_bad_shape (by simp) (by simp) 1 4 3 0

end Verif
