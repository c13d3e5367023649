import Verif.Props.SpecScale

/-! # C86: the unit of time of a spectrum -/

set_option linter.unusedSectionVars false

namespace Verif

section
variable {K : Type} [Field K] [LinearOrder K] [IsStrictOrderedRing K]

/-- An upper frequency limit multiplied by `a`. -/
def FMax.times (a : K) : FMax K → FMax K
  | .fin F => .fin (a * F)
  | .inf => .inf

theorem simpOdd_axis {a : K} (ha : a ≠ 0) (x y : List K) : simpOdd (x.map (a * ·)) y = a * simpOdd x y := by
  fun_induction simpOdd x y with
  | case1 x0 x1 x2 xs y0 y1 y2 ys h0 h1 hsum hprod h0divh1 ih =>
    simp only [List.map_cons] at ih ⊢
    rw [simpOdd, ih]
    have e0 : a * x1 - a * x0 = a * h0 := by simp only [h0]; ring
    have e1 : a * x2 - a * x1 = a * h1 := by simp only [h1]; ring
    rw [e0, e1, mul_div_mul_left _ _ ha, ← mul_add, show a * h0 * (a * h1) = a * a * (h0 * h1) by ring]
    have e2 : a * (h0 + h1) * (a * (h0 + h1) / (a * a * (h0 * h1))) = (h0 + h1) * ((h0 + h1) / (h0 * h1)) := by
      rw [mul_assoc a a, mul_div_mul_left _ _ ha, mul_comm a (h0 + h1), mul_assoc, mul_div_assoc', mul_comm a (h0 * h1), mul_comm a, mul_div_mul_right _ _ ha]
    rw [e2]
    simp only [hsum, hprod, h0divh1]
    ring
  | case2 x y h =>
    rw [mul_zero]
    unfold simpOdd
    split
    · next x0 x1 x2 xs y0 y1 y2 ys hx =>
      rcases x with _ | ⟨b0, _ | ⟨b1, _ | ⟨b2, bs⟩⟩⟩
      · simp at hx
      · simp at hx
      · simp at hx
      · exact absurd rfl (h b0 b1 b2 bs y0 y1 y2 ys rfl)
    · rfl

theorem simpLast_axis {a : K} (ha : a ≠ 0) (x y : List K) : simpLast (x.map (a * ·)) y = a * simpLast x y := by
  unfold simpLast
  dsimp only
  rw [List.length_map, getD_mulc, getD_mulc, getD_mulc, ← mul_sub, ← mul_sub]
  generalize x.getD (x.length - 2) 0 - x.getD (x.length - 3) 0 = h0
  generalize x.getD (x.length - 1) 0 - x.getD (x.length - 2) 0 = h1
  have e1 : (2 * (a * h1) ^ 2 + 3 * (a * h0) * (a * h1)) / (6 * (a * h1 + a * h0)) = a * ((2 * h1 ^ 2 + 3 * h0 * h1) / (6 * (h1 + h0))) := by
    rw [show 2 * (a * h1) ^ 2 + 3 * (a * h0) * (a * h1) = a * (a * (2 * h1 ^ 2 + 3 * h0 * h1)) by ring,
      show 6 * (a * h1 + a * h0) = a * (6 * (h1 + h0)) by ring, mul_div_mul_left _ _ ha, mul_div_assoc]
  have e2 : ((a * h1) ^ 2 + 3 * (a * h0) * (a * h1)) / (6 * (a * h0)) = a * ((h1 ^ 2 + 3 * h0 * h1) / (6 * h0)) := by
    rw [show (a * h1) ^ 2 + 3 * (a * h0) * (a * h1) = a * (a * (h1 ^ 2 + 3 * h0 * h1)) by ring,
      show 6 * (a * h0) = a * (6 * h0) by ring, mul_div_mul_left _ _ ha, mul_div_assoc]
  have e3 : 1 * (a * h1) ^ 3 / (6 * (a * h0) * (a * h0 + a * h1)) = a * (1 * h1 ^ 3 / (6 * h0 * (h0 + h1))) := by
    rw [show 1 * (a * h1) ^ 3 = a * a * (a * (1 * h1 ^ 3)) by ring,
      show 6 * (a * h0) * (a * h0 + a * h1) = a * a * (6 * h0 * (h0 + h1)) by ring, mul_div_mul_left _ _ (mul_ne_zero ha ha), mul_div_assoc]
  rw [e1, e2, e3]
  ring

theorem simpson_axis {a : K} (ha : a ≠ 0) (x y : List K) : simpson (x.map (a * ·)) y = (simpson x y).map (a * ·) := by
  unfold simpson
  rw [List.length_map, ← List.map_dropLast, simpOdd_axis ha, simpOdd_axis ha, simpLast_axis ha]
  by_cases h1 : x.length ≠ y.length
  · rw [if_pos h1, if_pos h1]; rfl
  · rw [if_neg h1, if_neg h1]
    by_cases h2 : x = []
    · rw [if_pos h2, if_pos (by rw [h2]; rfl)]; rfl
    · rw [if_neg h2, if_neg (by simpa using h2)]
      split_ifs
      · rfl
      · simp only [Except.map]
        congr 1
        rw [getD_mulc, getD_mulc]; ring
      · simp only [Except.map]
        congr 1
        ring

theorem momentSum_axis {a : K} (ha : 0 < a) (m : Int) (f S : List K) :
    momentSum m (f.map (a * ·)) S = (momentSum m f S).map (a ^ (m + 1) * ·) := by
  unfold momentSum
  have hz : (0 : K) ∈ f.map (a * ·) ↔ (0 : K) ∈ f := by
    rw [List.mem_map]
    constructor
    · rintro ⟨b, hb, e⟩
      rcases mul_eq_zero.1 e with h | h
      · exact absurd h ha.ne'
      · rwa [← h]
    · intro h; exact ⟨0, h, mul_zero _⟩
  by_cases h : m < 0 ∧ (0 : K) ∈ f
  · rw [if_pos h, if_pos (show m < 0 ∧ (0 : K) ∈ f.map (a * ·) from ⟨h.1, hz.2 h.2⟩)]; rfl
  · rw [if_neg h, if_neg (show ¬ (m < 0 ∧ (0 : K) ∈ f.map (a * ·)) from fun e => h ⟨e.1, hz.1 e.2⟩), simpson_axis ha.ne']
    have e : List.zipWith (fun b s => b ^ m * s) (f.map (a * ·)) S = (List.zipWith (fun b s => b ^ m * s) f S).map (a ^ m * ·) := by
      rw [List.zipWith_map_left, List.map_zipWith]
      congr 1
      funext b s
      rw [mul_zpow]; ring
    rw [e, simpson_scale]
    cases simpson f (List.zipWith (fun b s => b ^ m * s) f S) with
    | error e => rfl
    | ok v =>
      simp only [Except.map]
      congr 1
      rw [zpow_add_one₀ ha.ne']; ring

theorem tailMoment_axis {a : K} (ha : 0 < a) (m : Int) (fe se : K) (fmax : FMax K) :
    tailMoment m (a * fe) se (fmax.times a) = (tailMoment m fe se fmax).map (a ^ (m + 1) * ·) := by
  unfold tailMoment
  dsimp only
  by_cases h : m + -5 + 1 = 0 ∨ fe = 0
  · rw [if_pos h, if_pos (by rcases h with h | h; exacts [.inl h, .inr (by rw [h, mul_zero])])]; rfl
  · have h' : ¬ (m + -5 + 1 = 0 ∨ a * fe = 0) := by
      rintro (e | e)
      · exact h (.inl e)
      · rcases mul_eq_zero.1 e with e | e
        · exact ha.ne' e
        · exact h (.inr e)
    rw [if_neg h, if_neg h']
    have e5 : a ^ (m + 1) = a ^ (m + -5 + 1) * (a ^ (-5 : Int))⁻¹ := by
      rw [← zpow_neg, ← zpow_add₀ ha.ne']; congr 1; ring
    rcases fmax with F | _
    · have hF : (a * F = 0 ∧ m + -5 + 1 < 0) ↔ (F = 0 ∧ m + -5 + 1 < 0) := by
        rw [mul_eq_zero, or_iff_right ha.ne']
      simp only [FMax.times]
      by_cases hh : F = 0 ∧ m + -5 + 1 < 0
      · rw [if_pos hh, if_pos (hF.2 hh)]; rfl
      · rw [if_neg hh, if_neg (fun e => hh (hF.1 e))]
        simp only [Except.map]
        congr 1
        rw [mul_zpow, mul_zpow, mul_zpow, e5, ← mul_sub, div_mul_eq_div_div, div_eq_mul_inv se]
        have : (a ^ (-5 : Int)) ≠ 0 := zpow_ne_zero _ ha.ne'
        field_simp
    · simp only [FMax.times]
      by_cases hh : m + -5 + 1 < 0
      · rw [if_pos hh, if_pos hh]
        simp only [Except.map]
        congr 1
        rw [mul_zpow, mul_zpow, e5]
        have : (a ^ (-5 : Int)) ≠ 0 := zpow_ne_zero _ ha.ne'
        field_simp
        ring
      · rw [if_neg hh, if_neg hh]; rfl

theorem momentOn_axis {a : K} (ha : 0 < a) (m : Int) (f S : List K) (i j : Nat) (t : Bool) (fmax : FMax K) :
    momentOn m (f.map (a * ·)) S i j t (fmax.times a) = (momentOn m f S i j t fmax).map (a ^ (m + 1) * ·) := by
  unfold momentOn
  rw [pySlice_map, momentSum_axis ha, List.length_map, getD_mulc, tailMoment_axis ha]
  cases momentSum m (pySlice f i (j + 1)) (pySlice S i (j + 1)) with
  | error e => rfl
  | ok v =>
    cases t with
    | false => rfl
    | true =>
      simp only [bind, Except.bind, Except.map, if_true]
      cases tailMoment m (f.getD (f.length - 1) 0) (S.getD (f.length - 1) 0) fmax with
      | error e => rfl
      | ok w => simp only [pure, Except.pure]; congr 1; ring

theorem isNearest_axis {a : K} (ha : 0 < a) {f : List K} {d i : Nat} {v : K} (h : IsNearest f d v i) :
    IsNearest (f.map (a * ·)) d (a * v) i := by
  have e : ∀ k, |(f.map (a * ·)).getD k 0 - a * v| = a * |f.getD k 0 - v| := by
    intro k
    rw [getD_mulc, ← mul_sub, abs_mul, abs_of_pos ha]
  obtain ⟨h1, h2, h3, h4⟩ := h
  refine ⟨h1, by rw [List.length_map]; exact h2, fun k hk hl => ?_, fun k hk hl => ?_⟩
  · rw [e, e]; exact mul_le_mul_of_nonneg_left (h3 k hk (by rwa [List.length_map] at hl)) ha.le
  · rw [e, e]; exact mul_lt_mul_of_pos_left (h4 k hk hl) ha

theorem firstUsable_axis {a : K} (ha : 0 < a) (f : List K) (m : Int) : firstUsable (f.map (a * ·)) m = firstUsable f m := by
  unfold firstUsable
  rw [getD_mulc]
  by_cases h : m < 0 ∧ f.getD 0 0 = 0
  · rw [if_pos h, if_pos ⟨h.1, by rw [h.2, mul_zero]⟩]
  · rw [if_neg h, if_neg (fun e => h ⟨e.1, (mul_eq_zero.1 e.2).resolve_left ha.ne'⟩)]

/-- Both limits given (not -1), before and after. -/
theorem momentRange_axis {a : K} (ha : 0 < a) {f : List K} {m : Int} {lo : K} {hi : FMax K} (h1 : lo ≠ -1) (h2 : hi ≠ .fin (-1))
    (h3 : a * lo ≠ -1) (h4 : hi.times a ≠ .fin (-1)) {i j : Nat} {t : Bool} (h : MomentRange f m lo hi i j t) :
    MomentRange (f.map (a * ·)) m (a * lo) (hi.times a) i j t := by
  have hn : ¬ (lo = -1 ∨ hi = .fin (-1)) := by rintro (h | h) <;> contradiction
  have hn' : ¬ (a * lo = -1 ∨ hi.times a = .fin (-1)) := by rintro (h | h) <;> contradiction
  refine ⟨fun e => absurd e hn', fun _ => ?_, fun F _ e hF => ?_, fun F _ e hF => ?_, fun _ e => ?_⟩
  · rw [firstUsable_axis ha]; exact isNearest_axis ha (h.lower hn)
  · rcases hi with F' | _
    · obtain rfl : a * F' = F := FMax.fin.inj e
      rw [List.length_map, getD_mulc] at hF
      obtain ⟨p, q⟩ := h.upper F' hn rfl (le_of_mul_le_mul_left hF ha)
      rw [firstUsable_axis ha]
      exact ⟨isNearest_axis ha p, q⟩
    · cases e
  · rcases hi with F' | _
    · obtain rfl : a * F' = F := FMax.fin.inj e
      rw [List.length_map, getD_mulc] at hF
      rw [List.length_map]
      exact h.beyond F' hn rfl (lt_of_mul_lt_mul_left hF ha.le)
    · cases e
  · rcases hi with F' | _
    · cases e
    · rw [List.length_map]; exact h.infinite hn rfl

/-- **C86 (moments).**  With all frequencies and both limits multiplied by `a > 0` a moment of order `m` is multiplied by `a^(m+1)`; it raises
exactly when it did. -/
theorem moment_axis_scaling {pf pf' pS : PyIn K} {f S : List K} {a : K} (ha : 0 < a) (hf : pf.IsArr f) (hf' : pf'.IsArr (f.map (a * ·))) (hS : pS.IsArr S)
    (hm : monotonicIncreasingConstantStep f = .ok true) (hm' : monotonicIncreasingConstantStep (f.map (a * ·)) = .ok true) (hl : f.length = S.length)
    (m : Int) {lo : K} {hi : FMax K} (h1 : lo ≠ -1) (h2 : hi ≠ .fin (-1)) (h3 : a * lo ≠ -1) (h4 : hi.times a ≠ .fin (-1)) :
    computeMoment pf' pS m (a * lo) (hi.times a) = (computeMoment pf pS m lo hi).map (a ^ (m + 1) * ·) := by
  obtain ⟨i, j, t, hr, -, -, e⟩ := computeMoment_structure hm m lo hi
  obtain ⟨i', j', t', hr', -, -, e'⟩ := computeMoment_structure hm' m (a * lo) (hi.times a)
  obtain ⟨rfl, rfl, rfl⟩ := momentRange_unique (momentRange_axis ha h1 h2 h3 h4 hr) hr'
  rw [e hf hS hl, e' hf' hS (by rw [List.length_map, hl]), momentOn_axis ha]

end

/-! ## The getters -/

/-- A lower limit in the new unit: -1 (the default) stays -1, any other (non-negative) limit is divided by `c`. -/
def NewMin (c fmin fmin' : ℝ) : Prop := (fmin = -1 ∧ fmin' = -1) ∨ (0 ≤ fmin ∧ fmin' = fmin / c)

/-- An upper limit in the new unit. -/
def NewMax (c : ℝ) (fmax fmax' : FMax ℝ) : Prop :=
  (fmax = .fin (-1) ∧ fmax' = .fin (-1)) ∨ (∃ F, 0 ≤ F ∧ fmax = .fin F ∧ fmax' = .fin (F / c)) ∨ (fmax = .inf ∧ fmax' = .inf)

theorem setFlim_unit {f : List ℝ} {c fmin fmin' : ℝ} {fmax fmax' : FMax ℝ} (hc : 0 < c) (h0 : 0 ≤ f.getD 0 0)
    (he : 0 ≤ f.getD (f.length - 1) 0) (h1 : NewMin c fmin fmin') (h2 : NewMax c fmax fmax') :
    ∃ lo hi, setFlim f fmin fmax = (lo, hi) ∧ setFlim (f.map (c⁻¹ * ·)) fmin' fmax' = (c⁻¹ * lo, hi.times c⁻¹) ∧
      lo ≠ -1 ∧ hi ≠ .fin (-1) ∧ c⁻¹ * lo ≠ -1 ∧ hi.times c⁻¹ ≠ .fin (-1) := by
  have hci : 0 < c⁻¹ := inv_pos.2 hc
  have pos : ∀ v : ℝ, 0 ≤ v → v ≠ -1 := fun v hv e => by linarith
  have posi : ∀ v : ℝ, 0 ≤ v → c⁻¹ * v ≠ -1 := fun v hv => pos _ (mul_nonneg hci.le hv)
  have A : ∃ lo, (if fmin = -1 then f.getD 0 0 else fmin) = lo ∧ (if fmin' = -1 then (f.map (c⁻¹ * ·)).getD 0 0 else fmin') = c⁻¹ * lo ∧ 0 ≤ lo := by
    rcases h1 with ⟨rfl, rfl⟩ | ⟨h, rfl⟩
    · refine ⟨_, rfl, ?_, ?_⟩
      · rw [if_pos rfl, if_pos rfl, getD_mulc]
      · rw [if_pos rfl]; exact h0
    · refine ⟨_, rfl, ?_, ?_⟩
      · rw [if_neg (pos _ h), if_neg (pos _ (div_nonneg h hc.le)), div_eq_inv_mul]
      · rw [if_neg (pos _ h)]; exact h
  have fne : ∀ v : ℝ, 0 ≤ v → FMax.fin v ≠ .fin (-1) := fun v hv e => pos v hv (FMax.fin.inj e)
  have B : ∃ hi, (if fmax = .fin (-1) then FMax.fin (f.getD (f.length - 1) 0) else fmax) = hi ∧
      (if fmax' = .fin (-1) then FMax.fin ((f.map (c⁻¹ * ·)).getD ((f.map (c⁻¹ * ·)).length - 1) 0) else fmax') = hi.times c⁻¹ ∧
      hi ≠ .fin (-1) ∧ hi.times c⁻¹ ≠ .fin (-1) := by
    rcases h2 with ⟨rfl, rfl⟩ | ⟨F, hF, rfl, rfl⟩ | ⟨rfl, rfl⟩
    · rw [if_pos rfl, if_pos rfl, List.length_map, getD_mulc]
      exact ⟨_, rfl, rfl, fne _ he, fne _ (mul_nonneg hci.le he)⟩
    · rw [if_neg (fne _ hF), if_neg (fne _ (div_nonneg hF hc.le))]
      exact ⟨_, rfl, by rw [div_eq_inv_mul]; rfl, fne _ hF, fne _ (mul_nonneg hci.le hF)⟩
    · rw [if_neg (by intro e; cases e), if_neg (by intro e; cases e)]
      exact ⟨_, rfl, rfl, (by intro e; cases e), (by intro e; cases e)⟩
  obtain ⟨lo, a1, a2, a3⟩ := A
  obtain ⟨hi, b1, b2, b3, b4⟩ := B
  refine ⟨lo, hi, ?_, ?_, pos _ a3, b3, posi _ a3, b4⟩
  · unfold setFlim; rw [a1, b1]
  · unfold setFlim; rw [a2, b2]

theorem divE_axis (p q : ℝ) (hp : p ≠ 0) (hq : q ≠ 0) (x y : ℝ) : divE (p * x) (q * y) = (divE x y).map (p / q * ·) := by
  unfold divE
  by_cases h : y = 0
  · rw [if_pos h, if_pos (by rw [h, mul_zero])]; rfl
  · rw [if_neg h, if_neg (mul_ne_zero hq h)]
    simp only [Except.map]
    congr 1
    field_simp

theorem sqrtE_axis {p : ℝ} (hp : 0 < p) (x : ℝ) : sqrtE (p ^ 2 * x) = (sqrtE x).map (p * ·) := by
  unfold sqrtE
  have h2 : 0 < p ^ 2 := by positivity
  by_cases h : x < 0
  · rw [if_pos h, if_pos (mul_neg_of_pos_of_neg h2 h)]; rfl
  · rw [if_neg h, if_neg (not_lt.2 (mul_nonneg h2.le (not_lt.1 h)))]
    simp only [Except.map]
    rw [Real.sqrt_mul h2.le, Real.sqrt_sq hp.le]

theorem whereIdx_axis {a : ℝ} (f : List ℝ) (p q : ℝ → Bool) (h : ∀ v, q (a * v) = p v) :
    whereIdx q (f.map (a * ·)) = whereIdx p f := by
  unfold whereIdx
  rw [List.length_map]
  refine List.filter_congr fun i _ => ?_
  rw [List.getElem?_map]
  cases f[i]? with
  | none => rfl
  | some v => exact h v

theorem bandSlice_axis {a : ℝ} (ha : 0 < a) (f S : List ℝ) (lo : ℝ) (hi : FMax ℝ) :
    bandSlice (f.map (a * ·)) S (a * lo) (hi.times a) = (bandSlice f S lo hi).map (fun p => (p.1.map (a * ·), p.2)) := by
  unfold bandSlice
  rw [whereIdx_axis f (fun v => decide (lo ≤ v)) (fun v => decide (a * lo ≤ v)) (fun v => by rw [decide_eq_decide]; exact mul_le_mul_iff_right₀ ha),
    whereIdx_axis f (fun v => hi.ge v) (fun v => (hi.times a).ge v) (fun v => by
      rcases hi with F | _
      · simp only [FMax.ge, FMax.times]; rw [decide_eq_decide]; exact mul_le_mul_iff_right₀ ha
      · rfl)]
  cases getE (whereIdx (fun v => decide (lo ≤ v)) f) 0 with
  | error e => rfl
  | ok i =>
    cases lastE (whereIdx (fun v => hi.ge v) f) with
    | error e => rfl
    | ok j =>
      simp only [bind, Except.bind, pure, Except.pure, Except.map]
      rw [pySlice_map]

theorem peakPeriod_axis {c : ℝ} (hc : 0 < c) (f S : List ℝ) : peakPeriod (f.map (c⁻¹ * ·)) S = (peakPeriod f S).map (c * ·) := by
  unfold peakPeriod
  cases pyMax S with
  | error e => rfl
  | ok m =>
    simp only [bind, Except.bind]
    cases lastE (whereIdx (fun v => decide (v = m)) S) with
    | error e => rfl
    | ok i =>
      dsimp only
      unfold getE
      rw [List.getElem?_map]
      cases f[i]? with
      | none => rfl
      | some v =>
        simp only [Option.map_some]
        unfold invE
        by_cases h : v = 0
        · rw [if_pos h, if_pos (by rw [h, mul_zero])]; rfl
        · rw [if_neg h, if_neg (mul_ne_zero (inv_ne_zero hc.ne') h)]
          simp only [Except.map]
          congr 1
          field_simp

/-- **C86.**  Changing the unit of time of a spectrum — all frequencies and limits divided by `c > 0`, all densities multiplied by `c` — leaves
`Hm0` unchanged and multiplies the periods `Tp`, `Tm-1,0`, `Tm01` and `Tm02` by `c`, for every range (default, given or infinite) and after any
histories; they raise or are NaN exactly when they were. -/
theorem spectrum_time_unit {pf pS pf' pS' : PyIn ℝ} {f S : List ℝ} {h c : ℝ} (hc : 0 < c) (hf : pf.IsArr f) (hS : pS.IsArr S)
    (hf' : pf'.IsArr (f.map (· / c))) (hS' : pS'.IsArr (S.map (c * ·))) (hu : UniformAxis f h) (h2 : 2 ≤ f.length) (hl : f.length = S.length)
    (h0 : 0 ≤ f.getD 0 0) :
    ∃ s s', SpecObj.init pf pS = .ok s ∧ SpecObj.init pf' pS' = .ok s' ∧
      ∀ (hist hist' : List SpecOp) (fmin fmin' : ℝ) (fmax fmax' : FMax ℝ), NewMin c fmin fmin' → NewMax c fmax fmax' →
        ((s'.after hist').getHm0 fmin' fmax').1 = ((s.after hist).getHm0 fmin fmax).1 ∧
        ((s'.after hist').getTp fmin' fmax').1 = ((s.after hist).getTp fmin fmax).1.map (c * ·) ∧
        ((s'.after hist').getTmm10 fmin' fmax').1 = ((s.after hist).getTmm10 fmin fmax).1.map (c * ·) ∧
        ((s'.after hist').getTm01 fmin' fmax').1 = ((s.after hist).getTm01 fmin fmax).1.map (c * ·) ∧
        ((s'.after hist').getTm02 fmin' fmax').1 = ((s.after hist).getTm02 fmin fmax).1.map (c * ·) := by
  have hci : 0 < c⁻¹ := inv_pos.2 hc
  have ediv : f.map (· / c) = f.map (c⁻¹ * ·) := List.map_congr_left fun v _ => div_eq_inv_mul v c
  rw [ediv] at hf'
  have hm := uniform_check_accepts_uniform h2 hu
  have hu' : UniformAxis (f.map (c⁻¹ * ·)) (c⁻¹ * h) := by
    refine ⟨mul_pos hci hu.1, fun i hi => ?_⟩
    rw [List.length_map] at hi
    rw [getD_mulc, getD_mulc, hu.2 i hi]; ring
  have hm' := uniform_check_accepts_uniform (by rw [List.length_map]; exact h2) hu'
  have hp := uniform_check_increasing hm
  have hfe : 0 ≤ f.getD (f.length - 1) 0 := h0.trans (inc_le hp (Nat.zero_le _) (by omega))
  refine ⟨_, _, (spectrum_init_iff_partial hf hS).2 ⟨hm, hl, rfl⟩, (spectrum_init_iff_partial hf' hS').2 ⟨hm', by simp [hl], rfl⟩, ?_⟩
  intro hist hist' fmin fmin' fmax fmax' a1 a2
  obtain ⟨lo, hi, l1, l2, n1, n2, n3, n4⟩ := setFlim_unit hc h0 hfe a1 a2
  have af := isArr_vec f
  have af' := isArr_vec (f.map (c⁻¹ * ·))
  have aS : (PyIn.nd (⟨[S.length], S⟩ : Arr ℝ)).IsArr S := .nd S
  have eS : (⟨[(S.map (c * ·)).length], S.map (c * ·)⟩ : Arr ℝ) = (⟨[S.length], S⟩ : Arr ℝ).scale c := by simp [Arr.scale]
  have key : ∀ m : Int, computeMoment (vec (f.map (c⁻¹ * ·))) (.nd (⟨[(S.map (c * ·)).length], S.map (c * ·)⟩ : Arr ℝ)) m (c⁻¹ * lo) (hi.times c⁻¹) =
      (computeMoment (vec f) (.nd (⟨[S.length], S⟩ : Arr ℝ)) m lo hi).map (c⁻¹ ^ m * ·) := by
    intro m
    rw [eS, computeMoment_scale, moment_axis_scaling hci af af' aS hm hm' hl m n1 n2 n3 n4]
    cases computeMoment (vec f) (.nd (⟨[S.length], S⟩ : Arr ℝ)) m lo hi with
    | error e => rfl
    | ok v =>
      simp only [Except.map]
      congr 1
      rw [zpow_add_one₀ hci.ne']
      field_simp
  obtain ⟨d1, d2⟩ := spectrum_after_data (⟨f, ⟨[S.length], S⟩, f.length, none, none, none, none, none, none, none, none, none, none, none, none, none⟩ : SpecObj) hist
  obtain ⟨d3, d4⟩ := spectrum_after_data (⟨f.map (c⁻¹ * ·), ⟨[(S.map (c * ·)).length], S.map (c * ·)⟩, (f.map (c⁻¹ * ·)).length, none, none, none, none, none, none, none, none, none, none, none, none, none⟩ : SpecObj) hist'
  dsimp only at d1 d2 d3 d4
  simp only [SpecObj.getHm0, SpecObj.getTp, SpecObj.getTmm10, SpecObj.getTm01, SpecObj.getTm02]
  rw [d1, d2, d3, d4]
  have z0 : c⁻¹ ^ (0 : Int) = 1 := zpow_zero _
  have z_1 : c⁻¹ ^ (-1 : Int) = c := by rw [zpow_neg_one, inv_inv]
  have z1 : c⁻¹ ^ (1 : Int) = c⁻¹ := zpow_one _
  have z2 : c⁻¹ ^ (2 : Int) = (c ^ 2)⁻¹ := by rw [show (2 : Int) = ((2 : Nat) : Int) by rfl, zpow_natCast, inv_pow]
  have k0 := key 0
  rw [z0] at k0
  have k_1 := key (-1)
  rw [z_1] at k_1
  have k1 := key 1
  rw [z1] at k1
  have k2 := key 2
  rw [z2] at k2
  refine ⟨?_, ?_, ?_, ?_, ?_⟩
  · simp only [calcHm0, l1, l2, k0]
    cases computeMoment (vec f) (.nd (⟨[S.length], S⟩ : Arr ℝ)) 0 lo hi with
    | error e => rfl
    | ok v => simp only [bind, Except.bind, Except.map, one_mul]
  · simp only [calcTp, l1, l2, List.length_cons, List.length_nil]
    rw [if_neg (by simp), if_neg (by simp), bandSlice_axis hci, bandSlice_scale]
    cases bandSlice f S lo hi with
    | error e => rfl
    | ok p =>
      simp only [bind, Except.bind, Except.map]
      rw [peakPeriod_axis hc, peakPeriod_scale hc]
      rfl
  · simp only [calcTmm10, l1, l2, k0, k_1]
    cases computeMoment (vec f) (.nd (⟨[S.length], S⟩ : Arr ℝ)) (-1) lo hi with
    | error e => rfl
    | ok v =>
      cases computeMoment (vec f) (.nd (⟨[S.length], S⟩ : Arr ℝ)) 0 lo hi with
      | error e => rfl
      | ok w =>
        simp only [bind, Except.bind, Except.map]
        have := divE_axis c 1 hc.ne' one_ne_zero v w
        rw [div_one] at this
        exact this
  · simp only [calcTm01, l1, l2, k0, k1]
    cases computeMoment (vec f) (.nd (⟨[S.length], S⟩ : Arr ℝ)) 0 lo hi with
    | error e => rfl
    | ok v =>
      cases computeMoment (vec f) (.nd (⟨[S.length], S⟩ : Arr ℝ)) 1 lo hi with
      | error e => rfl
      | ok w =>
        simp only [bind, Except.bind, Except.map]
        have := divE_axis 1 c⁻¹ one_ne_zero hci.ne' v w
        rw [one_div, inv_inv] at this
        exact this
  · simp only [calcTm02, l1, l2, k0, k2]
    cases computeMoment (vec f) (.nd (⟨[S.length], S⟩ : Arr ℝ)) 0 lo hi with
    | error e => rfl
    | ok v =>
      cases computeMoment (vec f) (.nd (⟨[S.length], S⟩ : Arr ℝ)) 2 lo hi with
      | error e => rfl
      | ok w =>
        simp only [bind, Except.bind, Except.map]
        have := divE_axis 1 (c ^ 2)⁻¹ one_ne_zero (by positivity) v w
        rw [one_div, inv_inv] at this
        rw [this]
        cases divE v w with
        | error e => rfl
        | ok q => exact sqrtE_axis hc q

/-- The triangular spectrum 1, 2, 1 at 1, 2, 3 Hz in minutes (frequencies times 60, densities divided by 60): the peak period is 1/120 min. -/
example : ∃ s', SpecObj.init (vec [60, 120, 180]) (vec [1 / 60, 1 / 30, 1 / 60]) = .ok s' ∧
    ((s'.after [.getHm0 3 .inf]).getTp (-1) .inf).1 = .ok (1 / 120) ∧ (s'.getHm0 0 (.fin 60)).1 = .ok 0 := by
  have hu : UniformAxis ([1, 2, 3] : List ℝ) 1 := by
    refine ⟨by norm_num, ?_⟩
    intro i hi
    simp only [List.length_cons, List.length_nil] at hi
    have : i = 0 ∨ i = 1 := by omega
    rcases this with rfl | rfl <;> norm_num
  have e1 : ([1, 2, 3] : List ℝ).map (· / (1 / 60)) = [60, 120, 180] := by norm_num
  have e2 : ([1, 2, 1] : List ℝ).map ((1 / 60 : ℝ) * ·) = [1 / 60, 1 / 30, 1 / 60] := by norm_num
  obtain ⟨s, s', h1, h2, h3⟩ := spectrum_time_unit (c := 1 / 60) (by norm_num) (isArr_vec [1, 2, 3]) (isArr_vec [1, 2, 1])
    (by rw [e1]; exact isArr_vec _) (by rw [e2]; exact isArr_vec _) hu (by simp) (by simp) (by norm_num)
  obtain ⟨hm, hl, rfl⟩ := (spectrum_init_iff_partial (isArr_vec [1, 2, 3]) (isArr_vec [1, 2, 1])).1 h1
  refine ⟨s', h2, ?_, ?_⟩
  · have := (h3 [] [.getHm0 3 .inf] (-1) (-1) .inf .inf (.inl ⟨rfl, rfl⟩) (.inr (.inr ⟨rfl, rfl⟩))).2.1
    rw [this]
    have e : (SpecObj.getTp (SpecObj.after ({ f := [1, 2, 3], sVarDens := { shape := [[1, 2, 1].length], data := [1, 2, 1] }, nf := [1, 2, 3].length } : SpecObj) []) (-1) .inf).1 =
        (.ok (1 / 2) : Except PyErr ℝ) := by
      show calcTp [1, 2, 3] ⟨[3], [1, 2, 1]⟩ (-1) .inf = _
      have l : setFlim [1, 2, 3] (-1) .inf = (1, .inf) := by
        unfold setFlim
        rw [if_pos rfl, if_neg (by intro e; cases e)]; rfl
      simp only [calcTp, l]
      norm_num [bandSlice, whereIdx, getE, lastE, FMax.ge, pySlice, bind, Except.bind, pure, Except.pure, List.range, List.range.loop, List.filter,
        peakPeriod, pyMax, invE]
    refine (congrArg (Except.map _) e).trans ?_
    norm_num [Except.map]
  · have := (h3 [] [] 0 0 (.fin 1) (.fin 60) (.inr ⟨le_refl _, by norm_num⟩) (.inr (.inl ⟨1, by norm_num, rfl, by norm_num⟩))).1
    refine this.trans ?_
    show calcHm0 [1, 2, 3] ⟨[3], [1, 2, 1]⟩ 0 (.fin 1) = _
    have aS : (PyIn.nd (⟨[3], [1, 2, 1]⟩ : Arr ℝ)).IsArr [1, 2, 1] := .nd [1, 2, 1]
    have hr : MomentRange ([1, 2, 3] : List ℝ) 0 0 (.fin 1) 0 0 false := by
      have hp := uniform_check_increasing hm
      have hn0 : IsNearest ([1, 2, 3] : List ℝ) 0 0 0 := isNearest_first hp (by simp) (by norm_num)
      have hn1 : IsNearest ([1, 2, 3] : List ℝ) 0 1 0 := isNearest_first hp (by simp) (by norm_num)
      have fu : firstUsable ([1, 2, 3] : List ℝ) 0 = 0 := by simp [firstUsable]
      refine ⟨fun e => ?_, fun _ => by rw [fu]; exact hn0, fun F _ e _ => ?_, fun F _ e h => ?_, fun _ e => by cases e⟩
      · rcases e with e | e
        · norm_num at e
        · have := FMax.fin.inj e; norm_num at this
      · rw [← FMax.fin.inj e, fu]; exact ⟨hn1, rfl⟩
      · rw [← FMax.fin.inj e] at h; norm_num at h
    obtain ⟨i, j, t, hr', -, -, e⟩ := computeMoment_structure hm 0 0 (.fin 1)
    obtain ⟨rfl, rfl, rfl⟩ := momentRange_unique hr hr'
    have l : setFlim [1, 2, 3] 0 (.fin 1) = (0, .fin 1) := by
      unfold setFlim
      rw [if_neg (by norm_num), if_neg (by intro e; have := FMax.fin.inj e; norm_num at this)]
    simp only [calcHm0, l]
    rw [e (isArr_vec _) aS rfl, momentOn_false]
    simp [pySlice, momentSum, simpson, simpOdd, heightOf, bind, Except.bind]

/-! ## Concrete cases: the hypotheses of the theorems above are met -/

/-- From Hz to cycles per minute. -/
example := moment_axis_scaling (f := ([1, 2, 3] : List ℚ)) (S := [1, 2, 1]) (a := 60) (by norm_num) (isArr_vec _) (isArr_vec _) (isArr_vec _)
  (by decide +kernel) (by decide +kernel) rfl 2 (lo := 1) (hi := .fin 3) (by norm_num) (by simp; norm_num) (by norm_num) (by simp [FMax.times]; norm_num)

end Verif
