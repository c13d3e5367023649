import Verif.Props.SpectrumCache

/-! # C81 splitting the energy at a frequency, C82 mean periods lie within the band -/

set_option linter.unusedSectionVars false

namespace Verif
open Finset

section field
variable {K : Type} [Field K] [LinearOrder K] [IsStrictOrderedRing K]

theorem simpOdd_split : ∀ (m : Nat) (x y : List K), 2 * m + 1 ≤ x.length → x.length = y.length →
    simpOdd x y = simpOdd (x.take (2 * m + 1)) (y.take (2 * m + 1)) + simpOdd (x.drop (2 * m)) (y.drop (2 * m))
  | 0, x, y, h, hl => by
    rcases x with _ | ⟨a, x⟩
    · simp at h
    rcases y with _ | ⟨b, y⟩
    · simp at hl
    simp [simpOdd]
  | m + 1, x, y, h, hl => by
    rcases x with _ | ⟨a, _ | ⟨b, _ | ⟨c, x⟩⟩⟩
    · simp at h
    · simp at h
    · simp at h; omega
    rcases y with _ | ⟨a', _ | ⟨b', _ | ⟨c', y⟩⟩⟩
    · simp at hl
    · simp at hl
    · simp at hl
    have ih := simpOdd_split m (c :: x) (c' :: y) (by simp at h ⊢; omega) (by simpa using hl)
    rw [show 2 * (m + 1) + 1 = 2 * m + 1 + 1 + 1 by ring, show 2 * (m + 1) = 2 * m + 1 + 1 by ring]
    simp only [List.take_succ_cons, List.drop_succ_cons] at ih ⊢
    rw [simpOdd, simpOdd, ih]
    ring

theorem simpson_split (m : Nat) {x y : List K} (h : 2 * m + 1 ≤ x.length) (hl : x.length = y.length) (h2 : x.length ≠ 2 * m + 2) :
    simpson x y = (do
      let a ← simpson (x.take (2 * m + 1)) (y.take (2 * m + 1))
      let b ← simpson (x.drop (2 * m)) (y.drop (2 * m))
      return a + b) := by
  have hne : x ≠ [] := by rintro rfl; simp at h
  have t1 : simpson (x.take (2 * m + 1)) (y.take (2 * m + 1)) = .ok (simpOdd (x.take (2 * m + 1)) (y.take (2 * m + 1))) := by
    unfold simpson
    rw [if_neg (by simp [List.length_take]; omega), if_neg, if_pos (by rw [List.length_take]; omega)]
    intro e
    have := congrArg List.length e
    rw [List.length_take, List.length_nil] at this
    omega
  have hdne : x.drop (2 * m) ≠ [] := by
    intro e
    have := congrArg List.length e
    rw [List.length_drop] at this
    simp at this
    omega
  rw [t1]
  by_cases ho : x.length % 2 = 1
  · have t2 : simpson (x.drop (2 * m)) (y.drop (2 * m)) = .ok (simpOdd (x.drop (2 * m)) (y.drop (2 * m))) := by
      unfold simpson
      rw [if_neg (by simp [List.length_drop]; omega), if_neg hdne, if_pos (by rw [List.length_drop]; omega)]
    rw [t2]
    unfold simpson
    rw [if_neg (by simpa using hl), if_neg hne, if_pos ho, simpOdd_split m x y h hl]
    rfl
  · have t2 : simpson (x.drop (2 * m)) (y.drop (2 * m)) =
        .ok (simpOdd (x.drop (2 * m)).dropLast (y.drop (2 * m)).dropLast + simpLast (x.drop (2 * m)) (y.drop (2 * m))) := by
      unfold simpson
      rw [if_neg (by simp [List.length_drop]; omega), if_neg hdne, if_neg (by rw [List.length_drop]; omega),
        if_neg (by rw [List.length_drop]; omega)]
    rw [t2]
    unfold simpson
    rw [if_neg (by simpa using hl), if_neg hne, if_neg ho, if_neg (by omega)]
    have hlast : simpLast (x.drop (2 * m)) (y.drop (2 * m)) = simpLast x y := by
      unfold simpLast
      dsimp only
      rw [List.length_drop]
      simp only [getD_drop']
      rw [show 2 * m + (x.length - 2 * m - 1) = x.length - 1 by omega, show 2 * m + (x.length - 2 * m - 2) = x.length - 2 by omega,
        show 2 * m + (x.length - 2 * m - 3) = x.length - 3 by omega]
    have hs := simpOdd_split m x.dropLast y.dropLast (by rw [List.length_dropLast]; omega) (by simp [hl])
    rw [hs, hlast]
    have td : ∀ l : List K, l.length = x.length → l.dropLast.take (2 * m + 1) = l.take (2 * m + 1) := by
      intro l hl
      rw [List.dropLast_eq_take, List.take_take]; congr 1; omega
    rw [td x rfl, td y hl.symm]
    simp only [bind, Except.bind, pure, Except.pure]
    congr 1
    rw [← add_assoc]
    congr 1
    congr 1
    simp [List.dropLast_eq_take, List.drop_take]
    congr 1 <;> congr 1 <;> omega

theorem pySlice_take {α : Type} {l : List α} {i m j : Nat} (h : i + m ≤ j) (hj : j < l.length) :
    (pySlice l i (j + 1)).take (m + 1) = pySlice l i (i + m + 1) := by
  unfold pySlice
  rw [List.take_drop, List.take_take]
  congr 2; omega

theorem pySlice_drop_left {α : Type} {l : List α} {i m j : Nat} : (pySlice l i (j + 1)).drop m = pySlice l (i + m) (j + 1) := by
  unfold pySlice
  rw [List.drop_drop]

theorem momentSum_split {f S : List K} {m : Int} {i j k : Nat} (hl : f.length = S.length) (hk : i + 2 * k ≤ j) (hj : j < f.length)
    (hne : j ≠ i + 2 * k + 1) :
    momentSum m (pySlice f i (j + 1)) (pySlice S i (j + 1)) = (do
      let a ← momentSum m (pySlice f i (i + 2 * k + 1)) (pySlice S i (i + 2 * k + 1))
      let b ← momentSum m (pySlice f (i + 2 * k) (j + 1)) (pySlice S (i + 2 * k) (j + 1))
      return a + b) := by
  have hfl := pySlice_len1 (i := i) hj
  have hSl := pySlice_len1 (l := S) (i := i) (j := j) (by omega)
  rw [← pySlice_take hk hj, ← pySlice_take (l := S) hk (by omega), ← pySlice_drop_left, ← pySlice_drop_left (l := S)]
  generalize pySlice f i (j + 1) = x at hfl ⊢
  generalize pySlice S i (j + 1) = y at hSl ⊢
  unfold momentSum
  by_cases hz : m < 0 ∧ (0 : K) ∈ x
  · rw [if_pos hz]
    obtain ⟨hm, hx⟩ := hz
    have : (0 : K) ∈ x.take (2 * k + 1) ∨ (0 : K) ∈ x.drop (2 * k) := by
      rw [← List.take_append_drop (2 * k) x, List.mem_append] at hx
      rcases hx with h | h
      · left
        exact List.take_subset_take_left _ (by omega) h
      · exact .inr h
    by_cases h1 : (0 : K) ∈ x.take (2 * k + 1)
    · rw [if_pos ⟨hm, h1⟩]; rfl
    · rw [if_neg (by tauto), if_pos (show m < 0 ∧ 0 ∈ x.drop (2 * k) from ⟨hm, by tauto⟩)]
      obtain ⟨v, hv⟩ := simpson_ok (x := x.take (2 * k + 1)) (y := List.zipWith (fun a s => a ^ m * s) (x.take (2 * k + 1)) (y.take (2 * k + 1)))
        (by intro e; have := congrArg List.length e; rw [List.length_take, List.length_nil] at this; omega)
        (by simp; omega)
      rw [hv]; rfl
  · rw [if_neg hz, if_neg (fun h => hz ⟨h.1, List.mem_of_mem_take h.2⟩), if_neg (fun h => hz ⟨h.1, List.mem_of_mem_drop h.2⟩)]
    rw [simpson_split k (by omega) (by simp; omega) (by omega)]
    rw [List.take_zipWith, List.drop_zipWith]

/-- **C81.**  A moment splits exactly at `fc` when the grid point nearest to `fc` lies an even number of steps above the one nearest to `fmin`
and is not the last but one point of the range: the moment over `[fmin, fmax]` is the sum of the moments over `[fmin, fc]` and `[fc, fmax]` (for
every order, with or without tail, and it raises exactly when one of the parts does). -/
theorem moment_split {pf pS : PyIn K} {f S : List K} {m : Int} {fmin fc : K} {fmax : FMax K} {i c j : Nat} (hf : pf.IsArr f) (hS : pS.IsArr S)
    (hm : monotonicIncreasingConstantStep f = .ok true) (hl : f.length = S.length) (h1 : fmin ≠ -1) (h2 : fc ≠ -1) (h3 : fmax ≠ .fin (-1))
    (hlo : SelectedRange f m fmin (.fin fc) i c) (hhi : SelectedRange f m fc fmax c j) (hfc : fc ≤ f.getD (f.length - 1) 0)
    (hic : i ≤ c) (hcj : c ≤ j) (he : Even (c - i)) (hne : j ≠ c + 1) :
    computeMoment pf pS m fmin fmax = (do
      let a ← computeMoment pf pS m fmin (.fin fc)
      let b ← computeMoment pf pS m fc fmax
      return a + b) := by
  have hsel : SelectedRange f m fmin fmax i j := ⟨hlo.1, hhi.2⟩
  have h2' : FMax.fin fc ≠ .fin (-1) := fun h => h2 (FMax.fin.inj h)
  obtain ⟨t, hr⟩ := momentRange_of_selected hm h1 h3 hsel
  obtain ⟨t1, hr1⟩ := momentRange_of_selected hm h1 h2' hlo
  obtain ⟨t2, hr2⟩ := momentRange_of_selected hm h2 h3 hhi
  have hn1 : ¬ (fmin = -1 ∨ FMax.fin fc = .fin (-1)) := by rintro (h | h) <;> contradiction
  have hn : ¬ (fmin = -1 ∨ fmax = .fin (-1)) := by rintro (h | h) <;> contradiction
  have hn2 : ¬ (fc = -1 ∨ fmax = .fin (-1)) := by rintro (h | h) <;> contradiction
  have ht1 : t1 = false := (hr1.upper fc hn1 rfl hfc).2
  have ht : t = t2 := by
    rcases fmax with F | _
    · by_cases hF : F ≤ f.getD (f.length - 1) 0
      · rw [(hr.upper F hn rfl hF).2, (hr2.upper F hn2 rfl hF).2]
      · rw [(hr.beyond F hn rfl (not_le.1 hF)).2, (hr2.beyond F hn2 rfl (not_le.1 hF)).2]
    · rw [(hr.infinite hn rfl).2, (hr2.infinite hn2 rfl).2]
  have ev : ∀ {a : K} {b : FMax K} {i' j' : Nat} {t' : Bool}, MomentRange f m a b i' j' t' →
      j' < f.length ∧ computeMoment pf pS m a b = momentOn m f S i' j' t' b := by
    intro a b i' j' t' h
    obtain ⟨i'', j'', t'', h', -, hj, e⟩ := computeMoment_structure hm m a b
    obtain ⟨rfl, rfl, rfl⟩ := momentRange_unique h h'
    exact ⟨hj, e hf hS hl⟩
  obtain ⟨hj, e⟩ := ev hr
  obtain ⟨hc, e1⟩ := ev hr1
  obtain ⟨-, e2⟩ := ev hr2
  rw [e, e1, e2, ht1, ht, momentOn_false]
  obtain ⟨k, hk⟩ := he
  obtain rfl : c = i + 2 * k := by omega
  unfold momentOn
  rw [momentSum_split hl hcj hj hne]
  cases momentSum m (pySlice f i (i + 2 * k + 1)) (pySlice S i (i + 2 * k + 1)) with
  | error e => rfl
  | ok a =>
    cases momentSum m (pySlice f (i + 2 * k) (j + 1)) (pySlice S (i + 2 * k) (j + 1)) with
    | error e => rfl
    | ok b =>
      cases t2 with
      | false => rfl
      | true =>
        simp only [bind, Except.bind, pure, Except.pure, if_true]
        cases tailMoment m (f.getD (f.length - 1) 0) (S.getD (f.length - 1) 0) fmax with
        | error e => rfl
        | ok v => simp only [add_assoc]

/-! ## Specification of the band used by the getters -/

/-- The lowest frequency used: the grid point nearest to `lo` (the lower one in case of a tie). -/
def LowEdge (f : List K) (lo e : K) : Prop := ∃ i, IsNearest f 0 lo i ∧ e = f.getD i 0

/-- The highest frequency used: the grid point nearest to the upper bound, or the bound itself if it lies beyond the last grid point (with an
infinite bound there is none). -/
def HighEdge (f : List K) (hi : FMax K) (e : K) : Prop :=
  match hi with
  | .fin F => if F ≤ f.getD (f.length - 1) 0 then ∃ j, IsNearest f 0 F j ∧ e = f.getD j 0 else e = F
  | .inf => False

theorem tail_low {s r : K} (hr : 0 ≤ r) (hs : r ≤ s) : (s ^ 5 - r ^ 5) / 5 ≤ s * ((s ^ 4 - r ^ 4) / 4) := by
  have hs0 : 0 ≤ s := hr.trans hs
  have : 0 ≤ (s - r) ^ 2 * (s ^ 3 + 2 * s ^ 2 * r + 3 * s * r ^ 2 + 4 * r ^ 3) := mul_nonneg (sq_nonneg _) (by positivity)
  nlinarith

theorem tail_high (s r : K) : r ^ 2 * ((s ^ 2 - r ^ 2) / 2) ≤ (s ^ 4 - r ^ 4) / 4 := by
  have : 0 ≤ (s ^ 2 - r ^ 2) ^ 2 := sq_nonneg _
  nlinarith

/-- `m_{-1} ≤ m_0 / lo` and `m_2 ≤ hi² m_0`. -/
theorem moments_in_band {pf pS : PyIn K} {f S : List K} {h fmin : K} {fmax : FMax K} (hf : pf.IsArr f) (hS : pS.IsArr S)
    (hu : UniformAxis f h) (h0 : 0 < f.getD 0 0) (hpos : ∀ s ∈ S, 0 ≤ s) (h1 : fmin ≠ -1) (h2 : fmax ≠ .fin (-1)) {v_1 v0 v2 : K}
    (e_1 : computeMoment pf pS (-1) fmin fmax = .ok v_1) (e0 : computeMoment pf pS 0 fmin fmax = .ok v0)
    (e2 : computeMoment pf pS 2 fmin fmax = .ok v2) :
    (∀ lo, LowEdge f fmin lo → v_1 * lo ≤ v0) ∧ (∀ hi, HighEdge f fmax hi → v2 ≤ hi ^ 2 * v0) := by
  obtain ⟨hmono, hl⟩ := computeMoment_ok_pre hf hS e0
  have hp := uniform_check_increasing hmono
  have hl2 := mono_two_le hmono
  have hfe : 0 < f.getD (f.length - 1) 0 := lt_trans h0 (inc_lt hp (by omega) (by omega))
  obtain ⟨i, j, t, w, hr, hj, hw, hab, hall⟩ := computeMoment_common_range hu hmono fmin fmax
  have hn : ¬ (fmin = -1 ∨ fmax = .fin (-1)) := by rintro (h | h) <;> contradiction
  have fu : ∀ k : Int, firstUsable f k = 0 := by
    intro k
    unfold firstUsable
    rw [if_neg]
    rintro ⟨-, b⟩
    exact h0.ne' b
  obtain ⟨c_1, r_1, a_1, b_1⟩ := hall (-1) (fu _) hf hS hl e_1
  obtain ⟨c0, r0, a0, b0⟩ := hall 0 (fu _) hf hS hl e0
  obtain ⟨c2, r2, a2, b2⟩ := hall 2 (fu _) hf hS hl e2
  have hfp : ∀ k, k < f.length → 0 < f.getD k 0 := fun k hk => lt_of_lt_of_le h0 (inc_le hp (Nat.zero_le _) hk)
  have hSe := getD_nonneg hpos (f.length - 1)
  have hiN := hr.lower hn
  rw [fu] at hiN
  have hil := hiN.2.1
  constructor
  · rintro lo ⟨i', hi', rfl⟩
    obtain rfl := isNearest_unique hiN hi'
    have hsum : (∑ k ∈ Icc i j, w k * (f.getD k 0 ^ (-1 : Int) * S.getD k 0)) * f.getD i 0 ≤
        ∑ k ∈ Icc i j, w k * (f.getD k 0 ^ (0 : Int) * S.getD k 0) := by
      rw [sum_mul]
      refine sum_le_sum fun k hk => ?_
      rw [mem_Icc] at hk
      have hk1 := hfp k (by omega)
      have hle : f.getD i 0 ≤ f.getD k 0 := inc_le hp hk.1 (by omega)
      have hq : (f.getD k 0)⁻¹ * f.getD i 0 ≤ 1 := by
        rw [inv_mul_eq_div, div_le_one hk1]; exact hle
      have hwS := mul_nonneg (hw k hk.1 hk.2) (getD_nonneg hpos k)
      rw [zpow_neg_one, zpow_zero, one_mul]
      calc w k * ((f.getD k 0)⁻¹ * S.getD k 0) * f.getD i 0 = w k * S.getD k 0 * ((f.getD k 0)⁻¹ * f.getD i 0) := by ring
        _ ≤ w k * S.getD k 0 * 1 := mul_le_mul_of_nonneg_left hq hwS
        _ = _ := by ring
    have htail : c_1 * f.getD i 0 ≤ c0 := by
      cases t with
      | false => rw [a_1 rfl, a0 rfl]; simp
      | true =>
        have hab := hab rfl
        obtain ⟨hr0, hrs⟩ := recip_le hfe hab
        have k1 := tail_closed (n := 5) (c := c_1) (fmax := fmax) (by norm_num) hfe (b_1 rfl)
        have k0 := tail_closed (n := 4) (c := c0) (fmax := fmax) (by norm_num) hfe (b0 rfl)
        have hle : f.getD i 0 ≤ f.getD (f.length - 1) 0 := inc_le hp (by omega) (by omega)
        have hq : f.getD i 0 * (f.getD (f.length - 1) 0)⁻¹ ≤ 1 := by
          rw [← div_eq_mul_inv, div_le_one hfe]; exact hle
        have hc1 : 0 ≤ c_1 := tail_coeff_nonneg hfe hab (b_1 rfl)
        have hc0 : 0 ≤ c0 := tail_coeff_nonneg hfe hab (b0 rfl)
        have h5 : 0 ≤ (f.getD (f.length - 1) 0) ^ 5 := by positivity
        have hlow := mul_le_mul_of_nonneg_left (tail_low hr0 hrs) h5
        push_cast at k1 k0
        have h6 : c_1 ≤ (f.getD (f.length - 1) 0)⁻¹ * c0 := by rw [k1, k0]; linarith
        calc c_1 * f.getD i 0 ≤ (f.getD (f.length - 1) 0)⁻¹ * c0 * f.getD i 0 := mul_le_mul_of_nonneg_right h6 (hfp i (by omega)).le
          _ = c0 * (f.getD i 0 * (f.getD (f.length - 1) 0)⁻¹) := by ring
          _ ≤ c0 * 1 := mul_le_mul_of_nonneg_left hq hc0
          _ = c0 := mul_one _
    rw [r_1, r0, add_mul]
    refine add_le_add hsum ?_
    calc c_1 * S.getD (f.length - 1) 0 * f.getD i 0 = c_1 * f.getD i 0 * S.getD (f.length - 1) 0 := by ring
      _ ≤ c0 * S.getD (f.length - 1) 0 := mul_le_mul_of_nonneg_right htail hSe
  · intro hi hhi
    have hbound : (∀ k, i ≤ k → k ≤ j → f.getD k 0 ≤ hi) ∧ (t = true → fmax = .fin hi) := by
      rcases fmax with F | _
      · unfold HighEdge at hhi
        dsimp only at hhi
        split_ifs at hhi with hF
        · obtain ⟨j', hj', rfl⟩ := hhi
          have := hr.upper F hn rfl hF
          rw [fu] at this
          obtain rfl := isNearest_unique this.1 hj'
          exact ⟨fun k _ hk => inc_le hp hk hj, fun ht => by rw [this.2] at ht; cases ht⟩
        · subst hhi
          obtain ⟨hj', ht⟩ := hr.beyond hi hn rfl (not_le.1 hF)
          refine ⟨fun k _ hk => ?_, fun _ => rfl⟩
          exact (inc_le hp (by omega : k ≤ f.length - 1) (by omega)).trans (not_le.1 hF).le
      · exact absurd hhi (by simp [HighEdge])
    have hsum : (∑ k ∈ Icc i j, w k * (f.getD k 0 ^ (2 : Int) * S.getD k 0)) ≤
        hi ^ 2 * ∑ k ∈ Icc i j, w k * (f.getD k 0 ^ (0 : Int) * S.getD k 0) := by
      rw [mul_sum]
      refine sum_le_sum fun k hk => ?_
      rw [mem_Icc] at hk
      have hk1 := hfp k (by omega)
      have hle := hbound.1 k hk.1 hk.2
      have hq : f.getD k 0 ^ 2 ≤ hi ^ 2 := pow_le_pow_left₀ hk1.le hle 2
      have hwS := mul_nonneg (hw k hk.1 hk.2) (getD_nonneg hpos k)
      have e2 : f.getD k 0 ^ (2 : Int) = f.getD k 0 ^ 2 := by norm_cast
      rw [e2, zpow_zero, one_mul]
      calc w k * (f.getD k 0 ^ 2 * S.getD k 0) = w k * S.getD k 0 * f.getD k 0 ^ 2 := by ring
        _ ≤ w k * S.getD k 0 * hi ^ 2 := mul_le_mul_of_nonneg_left hq hwS
        _ = _ := by ring
    have htail : c2 ≤ hi ^ 2 * c0 := by
      cases t with
      | false => rw [a2 rfl, a0 rfl]; simp
      | true =>
        have hab := hab rfl
        obtain rfl := hbound.2 rfl
        have hhi0 : 0 < hi := lt_of_lt_of_le hfe hab
        have k2 := tail_closed (n := 2) (c := c2) (fmax := .fin hi) (by norm_num) hfe (b2 rfl)
        have k0 := tail_closed (n := 4) (c := c0) (fmax := .fin hi) (by norm_num) hfe (b0 rfl)
        have h5 : 0 ≤ (f.getD (f.length - 1) 0) ^ 5 * hi ^ 2 := by positivity
        have hh := mul_le_mul_of_nonneg_left (tail_high (f.getD (f.length - 1) 0)⁻¹ (FMax.fin hi).recip) h5
        have e : hi ^ 2 * (FMax.fin hi).recip ^ 2 = 1 := by
          simp only [FMax.recip]; field_simp
        push_cast at k2 k0
        rw [k2, k0]
        have e' : (f.getD (f.length - 1) 0) ^ 5 * hi ^ 2 * ((FMax.fin hi).recip ^ 2 * (((f.getD (f.length - 1) 0)⁻¹ ^ 2 - (FMax.fin hi).recip ^ 2) / 2))
            = (f.getD (f.length - 1) 0) ^ 5 * (((f.getD (f.length - 1) 0)⁻¹ ^ 2 - (FMax.fin hi).recip ^ 2) / 2) * (hi ^ 2 * (FMax.fin hi).recip ^ 2) := by ring
        rw [e', e, mul_one] at hh
        linarith
    rw [r2, r0, mul_add]
    refine add_le_add hsum ?_
    calc c2 * S.getD (f.length - 1) 0 ≤ hi ^ 2 * c0 * S.getD (f.length - 1) 0 := mul_le_mul_of_nonneg_right htail hSe
      _ = _ := by ring

end field

/-! ## C82: the getters -/

/-- The limits that the getters use: -1 stands for the first respectively the last frequency. -/
def Limits (f : List ℝ) (fmin : ℝ) (fmax : FMax ℝ) (lo : ℝ) (hi : FMax ℝ) : Prop :=
  (fmin = -1 → lo = f.getD 0 0) ∧ (fmin ≠ -1 → lo = fmin) ∧
    (fmax = .fin (-1) → hi = .fin (f.getD (f.length - 1) 0)) ∧ (fmax ≠ .fin (-1) → hi = fmax)

theorem limits_iff {f : List ℝ} {fmin : ℝ} {fmax : FMax ℝ} {lo : ℝ} {hi : FMax ℝ} :
    Limits f fmin fmax lo hi ↔ setFlim f fmin fmax = (lo, hi) := by
  unfold Limits setFlim
  by_cases h1 : fmin = -1 <;> by_cases h2 : fmax = .fin (-1) <;> simp [h1, h2] <;> constructor <;> rintro ⟨rfl, rfl⟩ <;> simp

theorem limits_ne {f : List ℝ} (hp : f.Pairwise (· < ·)) (hl : 2 ≤ f.length) (h0 : 0 ≤ f.getD 0 0) {fmin : ℝ} {fmax : FMax ℝ} {lo : ℝ} {hi : FMax ℝ}
    (h : Limits f fmin fmax lo hi) : lo ≠ -1 ∧ hi ≠ .fin (-1) := by
  obtain ⟨a, b, c, d⟩ := h
  constructor
  · by_cases h1 : fmin = -1
    · rw [a h1]; linarith
    · rw [b h1]; exact h1
  · by_cases h1 : fmax = .fin (-1)
    · rw [c h1]
      intro e
      have := FMax.fin.inj e
      have h3 := inc_le hp (Nat.zero_le (f.length - 1)) (by omega)
      linarith
    · rw [d h1]; exact h1

/-- **C82.**  On a uniform axis of positive frequencies and for non-negative densities, whenever the range contains energy, the mean periods lie
within the band that is used: `1 / highest ≤ Tm02 ≤ Tm01 ≤ Tm-1,0 ≤ 1 / lowest` (the first part for a bounded range), after any history of calls. -/
theorem mean_periods_in_band {pf pS : PyIn ℝ} {f S : List ℝ} {h : ℝ} (hf : pf.IsArr f) (hS : pS.IsArr S) {s : SpecObj}
    (hs : SpecObj.init pf pS = .ok s) (hu : UniformAxis f h) (h0 : 0 < f.getD 0 0) (hpos : ∀ v ∈ S, 0 ≤ v)
    {fmin : ℝ} {fmax : FMax ℝ} {lo : ℝ} {hi : FMax ℝ} (hlim : Limits f fmin fmax lo hi)
    {H : ℝ} (hH : (s.getHm0 fmin fmax).1 = .ok H) (hHpos : 0 < H) (hist : List SpecOp) :
    ∃ Tmm10 Tm01 Tm02, ((s.after hist).getTmm10 fmin fmax).1 = .ok Tmm10 ∧ ((s.after hist).getTm01 fmin fmax).1 = .ok Tm01 ∧
      ((s.after hist).getTm02 fmin fmax).1 = .ok Tm02 ∧ 0 < Tm02 ∧ Tm02 ≤ Tm01 ∧ Tm01 ≤ Tmm10 ∧
      (∀ e, LowEdge f lo e → Tmm10 ≤ 1 / e) ∧ (∀ e, HighEdge f hi e → 1 / e ≤ Tm02) := by
  obtain ⟨Tmm10, Tm01, Tm02, t1, t2, t3, o1, o2, o3⟩ := mean_period_ordering hf hS hs hu h0 hpos hH hHpos
  obtain ⟨d1, d2⟩ := spectrum_after_data s hist
  have same : ((s.after hist).getTmm10 fmin fmax).1 = (s.getTmm10 fmin fmax).1 ∧ ((s.after hist).getTm01 fmin fmax).1 = (s.getTm01 fmin fmax).1 ∧
      ((s.after hist).getTm02 fmin fmax).1 = (s.getTm02 fmin fmax).1 := by
    simp only [SpecObj.getTmm10, SpecObj.getTm01, SpecObj.getTm02, d1, d2, and_self]
  refine ⟨Tmm10, Tm01, Tm02, same.1.trans t1, same.2.1.trans t2, same.2.2.trans t3, o3, o2, o1, ?_⟩
  obtain ⟨hm, hl, rfl⟩ := (spectrum_init_iff_partial hf hS).1 hs
  have hp := uniform_check_increasing hm
  have h2 := mono_two_le hm
  obtain ⟨hlo, hhi⟩ := limits_ne hp h2 h0.le hlim
  simp only [SpecObj.getHm0, SpecObj.getTmm10, SpecObj.getTm01, SpecObj.getTm02, calcHm0, calcTmm10, calcTm01, calcTm02, limits_iff.1 hlim] at hH t1 t2 t3
  rw [bind_ok] at hH t1 t3
  obtain ⟨m0, e0, hH⟩ := hH
  have hm0 : 0 < m0 := by
    unfold heightOf at hH
    split_ifs at hH with hneg
    rw [← Except.ok.inj hH] at hHpos
    by_contra hc
    rw [Real.sqrt_eq_zero_of_nonpos (not_lt.1 hc)] at hHpos
    simp at hHpos
  have af := isArr_vec f
  have aS : (PyIn.nd (⟨[S.length], S⟩ : Arr ℝ)).IsArr S := .nd S
  obtain ⟨m_1, e_1⟩ := moment_orders_defined af aS (Or.inl h0) e0 (m := -1) (by norm_num) (Or.inr h0)
  obtain ⟨m2, e2⟩ := moment_orders_defined af aS (Or.inl h0) e0 (m := 2) (by norm_num) (Or.inr h0)
  obtain ⟨b1, b2⟩ := moments_in_band af aS hu h0 hpos hlo hhi e_1 e0 e2
  have r1 : Tmm10 = m_1 / m0 := by
    obtain ⟨x, hx, t1⟩ := t1
    rw [bind_ok] at t1
    obtain ⟨y, hy, t1⟩ := t1
    first
      | (rw [e_1] at hx; rw [e0] at hy; cases hx; cases hy)
      | (rw [e0] at hx; rw [e_1] at hy; cases hx; cases hy)
    unfold divE at t1
    rw [if_neg hm0.ne'] at t1
    exact (Except.ok.inj t1).symm
  have r3 : m2 ≠ 0 ∧ Tm02 = Real.sqrt (m0 / m2) := by
    obtain ⟨x, hx, t3⟩ := t3
    rw [bind_ok] at t3
    obtain ⟨y, hy, t3⟩ := t3
    first
      | (rw [e2] at hx; rw [e0] at hy; cases hx; cases hy)
      | (rw [e0] at hx; rw [e2] at hy; cases hx; cases hy)
    rw [bind_ok] at t3
    obtain ⟨q, hq, t3⟩ := t3
    unfold divE at hq
    split_ifs at hq with hz
    unfold sqrtE at t3
    split_ifs at t3 with hz'
    rw [← Except.ok.inj t3, ← Except.ok.inj hq]
    exact ⟨hz, rfl⟩
  have n2 := moment_nonneg af aS hu h0.le hpos e2
  have p2 : 0 < m2 := lt_of_le_of_ne n2 (Ne.symm r3.1)
  constructor
  · intro e he
    have hb := b1 e he
    obtain ⟨i, hi', rfl⟩ := he
    have hep : 0 < f.getD i 0 := lt_of_lt_of_le h0 (inc_le hp (Nat.zero_le _) hi'.2.1)
    rw [r1, div_le_div_iff₀ hm0 hep]; linarith
  · intro e he
    have hb := b2 e he
    have hep : 0 < e := by
      unfold HighEdge at he
      rcases hi with F | _
      · dsimp only at he
        split_ifs at he with hF
        · obtain ⟨j, hj, rfl⟩ := he
          exact lt_of_lt_of_le h0 (inc_le hp (Nat.zero_le _) hj.2.1)
        · rw [he]
          exact lt_trans (lt_of_lt_of_le h0 (inc_le hp (Nat.zero_le _) (by omega))) (not_le.1 hF)
      · exact absurd he (by simp)
    rw [r3.2]
    apply Real.le_sqrt_of_sq_le
    rw [div_pow, one_pow, div_le_div_iff₀ (by positivity) p2]
    linarith

/-- **C82 (defaults).**  With the default range the mean periods lie between the inverse of the last and of the first frequency. -/
theorem mean_periods_in_axis {pf pS : PyIn ℝ} {f S : List ℝ} {h : ℝ} (hf : pf.IsArr f) (hS : pS.IsArr S) {s : SpecObj}
    (hs : SpecObj.init pf pS = .ok s) (hu : UniformAxis f h) (h0 : 0 < f.getD 0 0) (hpos : ∀ v ∈ S, 0 ≤ v)
    {H : ℝ} (hH : (s.getHm0 (-1) (.fin (-1))).1 = .ok H) (hHpos : 0 < H) (hist : List SpecOp) :
    ∃ Tmm10 Tm01 Tm02, ((s.after hist).getTmm10 (-1) (.fin (-1))).1 = .ok Tmm10 ∧ ((s.after hist).getTm01 (-1) (.fin (-1))).1 = .ok Tm01 ∧
      ((s.after hist).getTm02 (-1) (.fin (-1))).1 = .ok Tm02 ∧ 1 / f.getD (f.length - 1) 0 ≤ Tm02 ∧ Tm02 ≤ Tm01 ∧ Tm01 ≤ Tmm10 ∧
      Tmm10 ≤ 1 / f.getD 0 0 := by
  have hm := ((spectrum_init_iff_partial hf hS).1 hs).1
  have hp := uniform_check_increasing hm
  have h2 := mono_two_le hm
  obtain ⟨a, b, c, q1, q2, q3, q4, q5, q6, q7, q8⟩ := mean_periods_in_band hf hS hs hu h0 hpos (fmin := -1) (fmax := .fin (-1))
    (lo := f.getD 0 0) (hi := .fin (f.getD (f.length - 1) 0)) ⟨fun _ => rfl, fun h => absurd rfl h, fun _ => rfl, fun h => absurd rfl h⟩ hH hHpos hist
  refine ⟨a, b, c, q1, q2, q3, q8 _ ?_, q5, q6, q7 _ ⟨0, isNearest_self hp (Nat.zero_le _) (by omega), rfl⟩⟩
  unfold HighEdge
  dsimp only
  rw [if_pos (le_refl _)]
  exact ⟨f.length - 1, isNearest_self hp (Nat.zero_le _) (by omega), rfl⟩

/-! ## C81: the getters -/

theorem height_sq {m0 H : ℝ} (h : heightOf m0 = .ok H) : 0 ≤ m0 ∧ H ^ 2 = 16 * m0 := by
  unfold heightOf at h
  split_ifs at h with hn
  rw [← Except.ok.inj h, mul_pow, Real.sq_sqrt (not_lt.1 hn)]
  exact ⟨not_lt.1 hn, by norm_num⟩

theorem height_def {m0 : ℝ} (h : 0 ≤ m0) : heightOf m0 = .ok (4 * Real.sqrt m0) := by
  unfold heightOf; rw [if_neg (not_lt.2 h)]

/-- The heights of the parts, from the moments. -/
theorem calc_split {f S : List ℝ} {fmin fc : ℝ} {fmax : FMax ℝ} {lo : ℝ} {hi : FMax ℝ} {i c j : Nat}
    (hm : monotonicIncreasingConstantStep f = .ok true) (hl : f.length = S.length) (h0 : 0 ≤ f.getD 0 0) (hlim : Limits f fmin fmax lo hi) (hfc1 : fc ≠ -1)
    (hlo : SelectedRange f 0 lo (.fin fc) i c) (hhi : SelectedRange f 0 fc hi c j) (hfc : fc ≤ f.getD (f.length - 1) 0)
    (hic : i ≤ c) (hcj : c ≤ j) (he : Even (c - i)) (hne : j ≠ c + 1) {L F : ℝ}
    (hL : calcHm0 f ⟨[S.length], S⟩ fmin (.fin fc) = .ok L) (hF : calcHm0 f ⟨[S.length], S⟩ fc fmax = .ok F) :
    ∃ H, calcHm0 f ⟨[S.length], S⟩ fmin fmax = .ok H ∧ H ^ 2 = L ^ 2 + F ^ 2 := by
  have hp := uniform_check_increasing hm
  have h2 := mono_two_le hm
  obtain ⟨n1, n2⟩ := limits_ne hp h2 h0 hlim
  have af := isArr_vec f
  have aS : (PyIn.nd (⟨[S.length], S⟩ : Arr ℝ)).IsArr S := .nd S
  have l1 : setFlim f fmin (.fin fc) = (lo, .fin fc) := limits_iff.1 ⟨hlim.1, hlim.2.1, fun h => absurd (FMax.fin.inj h) hfc1, fun _ => rfl⟩
  have l2 : setFlim f fc fmax = (fc, hi) := limits_iff.1 ⟨fun h => absurd h hfc1, fun _ => rfl, hlim.2.2.1, hlim.2.2.2⟩
  simp only [calcHm0, limits_iff.1 hlim, l1, l2] at hL hF ⊢
  rw [bind_ok] at hL hF
  obtain ⟨a, ea, hL⟩ := hL
  obtain ⟨b, eb, hF⟩ := hF
  have := moment_split af aS hm hl n1 hfc1 n2 hlo hhi hfc hic hcj he hne
  rw [ea, eb] at this
  rw [this]
  obtain ⟨pa, qa⟩ := height_sq hL
  obtain ⟨pb, qb⟩ := height_sq hF
  refine ⟨4 * Real.sqrt (a + b), height_def (by positivity), ?_⟩
  rw [mul_pow, Real.sq_sqrt (by positivity), qa, qb]; ring

/-- **C81 (energy balance of the getters).**  `Hm0² = Hm0_LF² + Hm0_HF²` when the low part ends and the high part starts at `fc`, the grid point
nearest to `fc` lies an even number of steps above the lowest one used, and it is not the last but one of the range; after any histories. -/
theorem energy_split {pf pS : PyIn ℝ} {f S : List ℝ} (hf : pf.IsArr f) (hS : pS.IsArr S) {s : SpecObj}
    (hs : SpecObj.init pf pS = .ok s) (h0 : 0 ≤ f.getD 0 0) {fmin fc : ℝ} {fmax : FMax ℝ} {lo : ℝ} {hi : FMax ℝ} {i c j : Nat}
    (hlim : Limits f fmin fmax lo hi) (hfc1 : fc ≠ -1)
    (hlo : SelectedRange f 0 lo (.fin fc) i c) (hhi : SelectedRange f 0 fc hi c j) (hfc : fc ≤ f.getD (f.length - 1) 0)
    (hic : i ≤ c) (hcj : c ≤ j) (he : Even (c - i)) (hne : j ≠ c + 1) (hist1 hist2 hist3 : List SpecOp) {L F : ℝ}
    (hL : ((s.after hist1).getHm0LF fmin (.fin fc)).1 = .ok L) (hF : ((s.after hist2).getHm0HF fc fmax).1 = .ok F) :
    ∃ H, ((s.after hist3).getHm0 fmin fmax).1 = .ok H ∧ H ^ 2 = L ^ 2 + F ^ 2 := by
  obtain ⟨d1, d2⟩ := spectrum_after_data s hist1
  obtain ⟨d3, d4⟩ := spectrum_after_data s hist2
  obtain ⟨d5, d6⟩ := spectrum_after_data s hist3
  unfold SpecObj.getHm0LF at hL
  rw [if_neg (fun h => hfc1 (FMax.fin.inj h))] at hL
  unfold SpecObj.getHm0HF at hF
  rw [if_neg hfc1] at hF
  unfold SpecObj.getHm0
  dsimp only at hL hF ⊢
  rw [d1, d2] at hL
  rw [d3, d4] at hF
  rw [d5, d6]
  obtain ⟨hm, hl, rfl⟩ := (spectrum_init_iff_partial hf hS).1 hs
  exact calc_split hm hl h0 hlim hfc1 hlo hhi hfc hic hcj he hne hL hF

/-- **C81 (default cut-off).**  For a new spectrum object with energy, on a uniform axis of positive frequencies and with non-negative densities,
the default calls `get_Hm0_LF()` and `get_Hm0_HF()` split the spectrum at the grid point nearest to `0.45 / Tm-1,0`; if its index is even and not
the last but one, then `Hm0² = Hm0_LF² + Hm0_HF²`. -/
theorem energy_split_default {pf pS : PyIn ℝ} {f S : List ℝ} {h : ℝ} (hf : pf.IsArr f) (hS : pS.IsArr S) {s : SpecObj}
    (hs : SpecObj.init pf pS = .ok s) (hu : UniformAxis f h) (h0 : 0 < f.getD 0 0) (hpos : ∀ v ∈ S, 0 ≤ v)
    {H : ℝ} (hH : (s.getHm0 (-1) (.fin (-1))).1 = .ok H) (hHpos : 0 < H) :
    ∃ T c L F, (s.getTmm10 (-1) (.fin (-1))).1 = .ok T ∧ IsNearest f 0 (45 / 100 / T) c ∧
      (s.getHm0LF (-1) (.fin (-1))).1 = .ok L ∧ (s.getHm0HF (-1) (.fin (-1))).1 = .ok F ∧
      (Even c → c + 2 ≠ f.length → H ^ 2 = L ^ 2 + F ^ 2) := by
  obtain ⟨T, T1, T2, t1, u1, u2, t4, t5, t6, t7⟩ := mean_periods_in_axis hf hS hs hu h0 hpos hH hHpos []
  have t1 : (s.getTmm10 (-1) (.fin (-1))).1 = .ok T := t1
  obtain ⟨hm, hl, hs'⟩ := (spectrum_init_iff_partial hf hS).1 hs
  have hp := uniform_check_increasing hm
  have h2 := mono_two_le hm
  have hfe : 0 < f.getD (f.length - 1) 0 := lt_of_lt_of_le h0 (inc_le hp (Nat.zero_le _) (by omega))
  have hT : 1 / f.getD (f.length - 1) 0 ≤ T := t4.trans (t5.trans t6)
  have hT0 : 0 < T := lt_of_lt_of_le (by positivity) hT
  have hfc : 45 / 100 / T ≤ f.getD (f.length - 1) 0 := by
    rw [div_le_iff₀ hfe] at hT
    rw [div_le_iff₀ hT0]; linarith
  have hfc0 : 0 < 45 / 100 / T := by positivity
  obtain ⟨c, -, hc, -⟩ := moment_range_exists hm 0 (45 / 100 / T) (.fin (45 / 100 / T))
  have hfu : firstUsable f 0 = 0 := by unfold firstUsable; rw [if_neg (by omega)]
  have hlim : Limits f (-1) (.fin (-1)) (f.getD 0 0) (.fin (f.getD (f.length - 1) 0)) :=
    ⟨fun _ => rfl, fun h => absurd rfl h, fun _ => rfl, fun h => absurd rfl h⟩
  have hcl : c < f.length := hc.2.1
  have n0 : IsNearest f 0 (f.getD 0 0) 0 := isNearest_self hp (Nat.zero_le _) (by omega)
  have ne : IsNearest f 0 (f.getD (f.length - 1) 0) (f.length - 1) := isNearest_self hp (Nat.zero_le _) (by omega)
  have hcut : ∃ s', s.cutoff = (.ok (45 / 100 / T), s') ∧ s'.f = s.f ∧ s'.sVarDens = s.sVarDens := by
    unfold SpecObj.cutoff
    rw [hs'] at t1 ⊢
    dsimp only
    unfold SpecObj.getTmm10 at t1 ⊢
    dsimp only at t1 ⊢
    rw [t1]
    dsimp only [store]
    rw [if_neg hT0.ne']
    exact ⟨_, rfl, rfl, rfl⟩
  obtain ⟨s', q1, q2, q3⟩ := hcut
  have af := isArr_vec f
  have aS : (PyIn.nd (⟨[S.length], S⟩ : Arr ℝ)).IsArr S := .nd S
  have hfc1 : 45 / 100 / T ≠ -1 := by linarith
  have dL : ∃ L, calcHm0 f ⟨[S.length], S⟩ (-1) (.fin (45 / 100 / T)) = .ok L := by
    have l1 : setFlim f (-1) (.fin (45 / 100 / T)) = (f.getD 0 0, .fin (45 / 100 / T)) :=
      limits_iff.1 ⟨hlim.1, hlim.2.1, fun h => absurd (FMax.fin.inj h) hfc1, fun _ => rfl⟩
    obtain ⟨i', j', t', hr, -, -, e⟩ := computeMoment_structure hm 0 (f.getD 0 0) (.fin (45 / 100 / T))
    have hn : ¬ (f.getD 0 0 = -1 ∨ FMax.fin (45 / 100 / T) = .fin (-1)) := by
      rintro (h | h)
      · linarith
      · exact hfc1 (FMax.fin.inj h)
    have a1 := hr.lower hn
    obtain ⟨a2, a3⟩ := hr.upper _ hn rfl hfc
    rw [hfu] at a1 a2 hc
    obtain rfl := isNearest_unique a1 n0
    obtain rfl := isNearest_unique a2 hc
    obtain ⟨w, hw, hsum⟩ := momentSum_slice_weights (f := f) (Nat.zero_le j') hcl
    have em : computeMoment (vec f) (PyIn.nd (⟨[S.length], S⟩ : Arr ℝ)) 0 (f.getD 0 0) (.fin (45 / 100 / T)) =
        .ok (∑ k ∈ Icc 0 j', w k * (f.getD k 0 ^ (0 : Int) * S.getD k 0)) := by
      rw [e af aS hl, a3, momentOn_false]
      exact hsum 0 S hl.symm (by rintro ⟨h, -⟩; omega)
    have hnn := moment_nonneg af aS hu h0.le hpos em
    exact ⟨_, by simp only [calcHm0, l1]; rw [em]; exact height_def hnn⟩
  have dF : ∃ F, calcHm0 f ⟨[S.length], S⟩ (45 / 100 / T) (.fin (-1)) = .ok F := by
    have l1 : setFlim f (45 / 100 / T) (.fin (-1)) = (45 / 100 / T, .fin (f.getD (f.length - 1) 0)) :=
      limits_iff.1 ⟨fun h => absurd h hfc1, fun _ => rfl, hlim.2.2.1, hlim.2.2.2⟩
    obtain ⟨v, em, hnn⟩ := moment_defined af aS hu h2 hl h0.le hpos (m := 0) (fmin := 45 / 100 / T) (fmax := .fin (f.getD (f.length - 1) 0))
      (Or.inl hfc) (Or.inr (Or.inr ⟨_, rfl, le_refl _⟩))
    exact ⟨_, by simp only [calcHm0, l1]; rw [em]; exact height_def hnn⟩
  obtain ⟨L, hL⟩ := dL
  obtain ⟨F, hF⟩ := dF
  have gL : (s.getHm0LF (-1) (.fin (-1))).1 = .ok L := by
    unfold SpecObj.getHm0LF
    rw [if_pos rfl, q1]
    dsimp only
    rw [q2, q3, hs']
    exact hL
  have gF : (s.getHm0HF (-1) (.fin (-1))).1 = .ok F := by
    unfold SpecObj.getHm0HF
    rw [if_pos rfl, q1]
    dsimp only
    rw [q2, q3, hs']
    exact hF
  rw [hfu] at hc
  refine ⟨T, c, L, F, t1, hc, gL, gF, fun he hne => ?_⟩
  obtain ⟨H', hH', e⟩ := calc_split hm hl h0.le hlim hfc1 (i := 0) (c := c) (j := f.length - 1)
    ⟨by rw [hfu]; exact n0, by dsimp only; rw [hfu]; exact hc⟩ ⟨by rw [hfu]; exact hc, by dsimp only; rw [hfu]; exact ne⟩ hfc (Nat.zero_le _) (by omega) (by simpa using he) (by omega)
    hL hF
  have : calcHm0 f ⟨[S.length], S⟩ (-1) (.fin (-1)) = .ok H := by rw [hs'] at hH; exact hH
  rw [this] at hH'
  cases hH'
  exact e

/-- Concrete split: five grid points, cut at the third one. -/
example : computeMoment (K := ℚ) (vec [1, 2, 3, 4, 5]) (vec [1, 2, 5, 2, 1]) 0 1 (.fin 5) =
    (do let a ← computeMoment (K := ℚ) (vec [1, 2, 3, 4, 5]) (vec [1, 2, 5, 2, 1]) 0 1 (.fin 3)
        let b ← computeMoment (K := ℚ) (vec [1, 2, 3, 4, 5]) (vec [1, 2, 5, 2, 1]) 0 3 (.fin 5)
        return a + b) :=
  moment_split (i := 0) (c := 2) (j := 4) (isArr_vec _) (isArr_vec _) (by decide +kernel) rfl (by norm_num) (by norm_num)
    (by intro h; have := FMax.fin.inj h; norm_num at this)
    ⟨⟨by decide, by decide, by decide +kernel, by decide⟩, ⟨by decide, by decide, by decide +kernel, by decide +kernel⟩⟩
    ⟨⟨by decide, by decide, by decide +kernel, by decide +kernel⟩, ⟨by decide, by decide, by decide +kernel, by decide +kernel⟩⟩
    (by decide +kernel) (by decide) (by decide) (by decide) (by decide)

/-- **C81 (the parity condition is needed).**  Cut one step above the first grid point the parts do not add up to the whole. -/
theorem energy_split_odd_fails : computeMoment (K := ℚ) (vec [1, 2, 3]) (vec [1, 2, 1]) 0 1 (.fin 3) = .ok (10 / 3) ∧
    computeMoment (K := ℚ) (vec [1, 2, 3]) (vec [1, 2, 1]) 0 1 (.fin 2) = .ok (3 / 2) ∧
    computeMoment (K := ℚ) (vec [1, 2, 3]) (vec [1, 2, 1]) 0 2 (.fin 3) = .ok (3 / 2) := by
  refine ⟨?_, ?_, ?_⟩ <;> decide +kernel

/-- The hypotheses are met by the triangular spectrum 1, 2, 1 at 1, 2, 3 Hz (`Tm-1,0 = 8/15`, cut-off 0.84 Hz, nearest grid point 0). -/
example : ∃ s T1 T2 L F, SpecObj.init (vec [1, 2, 3]) (vec [1, 2, 1]) = .ok s ∧ (s.getTmm10 (-1) (.fin (-1))).1 = .ok (8 / 15) ∧
    ((s.after [.getHm0 1 .inf]).getTm01 (-1) (.fin (-1))).1 = .ok T1 ∧ ((s.after [.getHm0 1 .inf]).getTm02 (-1) (.fin (-1))).1 = .ok T2 ∧
    1 / 3 ≤ T2 ∧ T2 ≤ T1 ∧ T1 ≤ 1 ∧
    (s.getHm0LF (-1) (.fin (-1))).1 = .ok L ∧ (s.getHm0HF (-1) (.fin (-1))).1 = .ok F ∧ L ^ 2 + F ^ 2 = 160 / 3 := by
  obtain ⟨s, hs⟩ := tri_init
  have h := getters_agree_with_params (isArr_vec [1, 2, 3]) (isArr_vec [1, 2, 1]) hs tri_params (by simp)
  have val : ∀ {r : Except PyErr ℝ} {v : ℝ}, valE r = .ok (some v) → r = .ok v := by
    intro r v h
    rcases r with e | w
    · cases e <;> cases h
    · cases h; rfl
  have hu : UniformAxis ([1, 2, 3] : List ℝ) 1 := by
    refine ⟨by norm_num, ?_⟩
    intro i hi
    simp only [List.length_cons, List.length_nil] at hi
    have : i = 0 ∨ i = 1 := by omega
    rcases this with rfl | rfl <;> norm_num
  have hH := val h.1
  have hT := val h.2.2.2.1
  have hH0 : 0 < 4 * Real.sqrt (10 / 3) := by positivity
  have hpos : ∀ v ∈ ([1, 2, 1] : List ℝ), 0 ≤ v := by simp
  obtain ⟨T, T1, T2, q1, q2, q3, q4, q5, q6, q7⟩ := mean_periods_in_axis (isArr_vec [1, 2, 3]) (isArr_vec [1, 2, 1]) hs hu (by norm_num) hpos hH hH0
    [.getHm0 1 .inf]
  obtain ⟨T', c, L, F, r1, r2, r3, r4, r5⟩ := energy_split_default (isArr_vec [1, 2, 3]) (isArr_vec [1, 2, 1]) hs hu (by norm_num) hpos hH hH0
  rw [hT] at r1
  cases r1
  have hc : c = 0 := isNearest_unique r2 (isNearest_first (uniform_check_increasing (uniform_check_accepts_uniform (by simp) hu)) (by simp) (by norm_num))
  subst hc
  have := r5 (by decide) (by simp)
  refine ⟨s, T1, T2, L, F, hs, hT, q2, q3, ?_, q5, ?_, r3, r4, ?_⟩
  · simpa using q4
  · have := q6.trans q7
    simpa using this
  · rw [← this, mul_pow, Real.sq_sqrt (by norm_num)]; norm_num

/-! ## Concrete cases: the hypotheses of the theorems above are met -/

theorem bump_axis : UniformAxis ([1, 2, 3, 4, 5] : List ℝ) 1 := uniformAxis_of_steps one_pos fun i hi => by
  have : i < 4 := hi
  interval_cases i <;> norm_num

theorem bump_init : ∃ s, SpecObj.init (vec [1, 2, 3, 4, 5]) (vec [1, 2, 5, 2, 1]) = .ok s :=
  ⟨_, (spectrum_init_iff_partial (isArr_vec [1, 2, 3, 4, 5]) (isArr_vec [1, 2, 5, 2, 1])).2
    ⟨uniform_check_accepts_uniform (by simp) bump_axis, rfl, rfl⟩⟩

theorem bump_nearest' (v : ℝ) (i : ℕ) (hi : i < 5) (hv : v = i + 1) : IsNearest ([1, 2, 3, 4, 5] : List ℝ) 0 v i := by
  have : v = ([1, 2, 3, 4, 5] : List ℝ).getD i 0 := by
    rw [hv]
    interval_cases i <;> norm_num
  rw [this]
  exact isNearest_self (uniform_check_increasing (uniform_check_accepts_uniform (by simp) bump_axis)) (Nat.zero_le _) hi

theorem bump_nearest (v : ℝ) (i : ℕ) (hi : i < 5) (hv : v = i + 1) :
    IsNearest ([1, 2, 3, 4, 5] : List ℝ) (firstUsable ([1, 2, 3, 4, 5] : List ℝ) 0) v i := by
  have fu : firstUsable ([1, 2, 3, 4, 5] : List ℝ) 0 = 0 := by unfold firstUsable; rw [if_neg (by omega)]
  rw [fu]
  exact bump_nearest' v i hi hv

/-- Explicit ranges within the axis: the wave height is defined and positive. -/
theorem bump_hm0 {a b : ℝ} (h1 : a ≠ -1) (h2 : b ≠ -1) (hab : a < b) (hb : b ≤ 5) :
    ∃ H, calcHm0 [1, 2, 3, 4, 5] ⟨[5], [1, 2, 5, 2, 1]⟩ a (.fin b) = .ok H ∧ ∃ v, computeMoment (vec [1, 2, 3, 4, 5]) (vec [1, 2, 5, 2, 1]) 0 a (.fin b) = .ok v ∧
      H = 4 * Real.sqrt v := by
  obtain ⟨v, e, hv⟩ := moment_defined (m := 0) (fmin := a) (fmax := .fin b) (isArr_vec [1, 2, 3, 4, 5]) (isArr_vec [1, 2, 5, 2, 1]) bump_axis
    (by simp) rfl (by norm_num) (by simp) (.inl hab.le) (.inl (by norm_num))
  refine ⟨4 * Real.sqrt v, ?_, v, e, rfl⟩
  have hlim : Limits [1, 2, 3, 4, 5] a (.fin b) a (.fin b) :=
    ⟨fun h => absurd h h1, fun _ => rfl, fun h => absurd (FMax.fin.inj h) h2, fun _ => rfl⟩
  unfold calcHm0
  rw [limits_iff.1 hlim]
  show (computeMoment (vec [1, 2, 3, 4, 5]) (vec [1, 2, 5, 2, 1]) 0 a (.fin b) >>= heightOf) = _
  rw [e]
  exact height_def hv

/-- Splitting the range from 1 to 5 at 3. -/
example : ∃ s L F H, SpecObj.init (vec [1, 2, 3, 4, 5]) (vec [1, 2, 5, 2, 1]) = .ok s ∧ (s.getHm0LF 1 (.fin 3)).1 = .ok L ∧
    ((s.after [.getHm0 2 .inf]).getHm0HF 3 (.fin 5)).1 = .ok F ∧ (s.getHm0 1 (.fin 5)).1 = .ok H ∧ H ^ 2 = L ^ 2 + F ^ 2 := by
  obtain ⟨s, hs⟩ := bump_init
  obtain ⟨-, -, e⟩ := (spectrum_init_iff_partial (isArr_vec [1, 2, 3, 4, 5]) (isArr_vec [1, 2, 5, 2, 1])).1 hs
  obtain ⟨L, hL, -⟩ := bump_hm0 (a := 1) (b := 3) (by norm_num) (by norm_num) (by norm_num) (by norm_num)
  obtain ⟨F, hF, -⟩ := bump_hm0 (a := 3) (b := 5) (by norm_num) (by norm_num) (by norm_num) (by norm_num)
  have hL' : (s.getHm0LF 1 (.fin 3)).1 = .ok L := by
    unfold SpecObj.getHm0LF
    rw [if_neg (by intro h; have := FMax.fin.inj h; norm_num at this), e]
    exact hL
  have hF' : ((s.after [.getHm0 2 .inf]).getHm0HF 3 (.fin 5)).1 = .ok F := by
    unfold SpecObj.getHm0HF
    rw [if_neg (by norm_num)]
    dsimp only
    rw [(spectrum_after_data s _).1, (spectrum_after_data s _).2, e]
    exact hF
  obtain ⟨H, hH, hq⟩ := energy_split (i := 0) (c := 2) (j := 4) (isArr_vec [1, 2, 3, 4, 5]) (isArr_vec [1, 2, 5, 2, 1]) hs (by norm_num)
    (fmin := 1) (fc := 3) (fmax := .fin 5) (lo := 1) (hi := .fin 5)
    ⟨fun h => by norm_num at h, fun _ => rfl, fun h => by have := FMax.fin.inj h; norm_num at this, fun _ => rfl⟩ (by norm_num)
    ⟨bump_nearest 1 0 (by norm_num) (by norm_num), bump_nearest 3 2 (by norm_num) (by norm_num)⟩
    ⟨bump_nearest 3 2 (by norm_num) (by norm_num), bump_nearest 5 4 (by norm_num) (by norm_num)⟩ (by norm_num) (by norm_num) (by norm_num) (by decide) (by norm_num)
    [] [.getHm0 2 .inf] [] hL' hF'
  exact ⟨s, L, F, H, hs, hL', hF', hH, hq⟩

/-- The mean periods of the range from 2 to 4 lie between 1/4 and 1/2. -/
example : ∃ s T T1 T2, SpecObj.init (vec [1, 2, 3, 4, 5]) (vec [1, 2, 5, 2, 1]) = .ok s ∧ (s.getTmm10 2 (.fin 4)).1 = .ok T ∧
    (s.getTm01 2 (.fin 4)).1 = .ok T1 ∧ (s.getTm02 2 (.fin 4)).1 = .ok T2 ∧ 1 / 4 ≤ T2 ∧ T2 ≤ T1 ∧ T1 ≤ T ∧ T ≤ 1 / 2 := by
  obtain ⟨s, hs⟩ := bump_init
  obtain ⟨-, -, e⟩ := (spectrum_init_iff_partial (isArr_vec [1, 2, 3, 4, 5]) (isArr_vec [1, 2, 5, 2, 1])).1 hs
  obtain ⟨H, hH, v, hv, hHv⟩ := bump_hm0 (a := 2) (b := 4) (by norm_num) (by norm_num) (by norm_num) (by norm_num)
  obtain ⟨t, hr⟩ := momentRange_of_selected (m := 0) (fmin := 2) (fmax := .fin 4) (i := 1) (j := 3)
    (uniform_check_accepts_uniform (by simp) bump_axis) (by norm_num) (by intro h; have := FMax.fin.inj h; norm_num at this)
    ⟨bump_nearest 2 1 (by norm_num) (by norm_num), bump_nearest 4 3 (by norm_num) (by norm_num)⟩
  have hvp : 0 < v := moment_pos (isArr_vec [1, 2, 3, 4, 5]) (isArr_vec [1, 2, 5, 2, 1]) bump_axis (by norm_num) (by simp) hr (by norm_num)
    (k := 2) (by norm_num) (by norm_num) (.inr rfl) (by norm_num) hv
  have hlim : Limits [1, 2, 3, 4, 5] 2 (.fin 4) 2 (.fin 4) :=
    ⟨fun h => by norm_num at h, fun _ => rfl, fun h => by have := FMax.fin.inj h; norm_num at this, fun _ => rfl⟩
  obtain ⟨T, T1, T2, a, b, c, -, d1, d2, d3, d4⟩ := mean_periods_in_band (isArr_vec [1, 2, 3, 4, 5]) (isArr_vec [1, 2, 5, 2, 1]) hs bump_axis
    (by norm_num) (by simp) hlim (H := H) (by rw [e]; exact hH) (by rw [hHv]; positivity) []
  refine ⟨s, T, T1, T2, hs, a, b, c, d4 4 ?_, d1, d2, d3 2 ⟨1, bump_nearest' 2 1 (by norm_num) (by norm_num), rfl⟩⟩
  show if (4 : ℝ) ≤ _ then _ else _
  rw [if_pos (by norm_num)]
  exact ⟨3, bump_nearest' 4 3 (by norm_num) (by norm_num), rfl⟩

end Verif
