import Verif.Props.Sort
import Verif.Props.Waves
import Mathlib.Tactic.Linarith

/-! # C12 - C16: highest waves and exceedance -/

set_option linter.unusedSectionVars false

namespace Verif
variable {K : Type} [Field K] [LinearOrder K]

theorem isSortedDesc_iff (h : List K) : isSortedDesc h = true ↔ h.Pairwise (· ≥ ·) := by
  simp only [isSortedDesc, decide_eq_true_eq]
  constructor
  · intro he
    rw [he, List.pairwise_reverse]
    exact List.pairwise_insertionSort (· ≤ ·) h
  · intro hp
    have h1 : (h.reverse).Pairwise (· ≤ ·) := by rw [List.pairwise_reverse]; exact hp
    have h2 : (h.insertionSort (· ≤ ·)).Pairwise (· ≤ ·) := List.pairwise_insertionSort _ h
    have h3 : (h.insertionSort (· ≤ ·)) = h.reverse :=
      List.Perm.eq_of_pairwise' h2 h1 ((List.perm_insertionSort _ h).trans (List.reverse_perm h).symm)
    rw [h3, List.reverse_reverse]

/-- Reduction of `highest_waves_params` on valid shapes. -/
theorem highest_eq [FloorRing K] {ph pt : PyIn K} {h t : List K} (hh : ph.IsVec h) (ht : pt.IsVec t) (hne : h ≠ [])
    (hlen : h.length = t.length) (p : K) :
    highestWavesParams ph pt p =
      if p < 0 ∨ 1 < p then .error (.valueError "highest_waves_params: fracP")
      else if !isSortedDesc h then .error (.valueError "highest_waves_params: not sorted")
      else if 0 < ⌊(h.length : K) * p⌋ then
        .ok (mean (h.take ⌊(h.length : K) * p⌋.toNat), mean (t.take ⌊(h.length : K) * p⌋.toNat))
      else .ok (0, 0) := by
  have ht0 : t ≠ [] := by rintro rfl; simp at hlen; exact hne hlen
  have h1 : ¬ (h.length < 1) := by cases h <;> simp_all
  unfold highestWavesParams
  rw [toArr_of_isVec hh, toArr_of_isVec ht]
  simp only [isOneD_vec, Arr.len, pySlice, List.drop_zero, List.headD_cons]
  simp [hne, ht0, hlen]

/-- Reduction of `exceedance_wave_height` on valid shapes. -/
theorem exceed_eq [FloorRing K] {ph : PyIn K} {h : List K} (hh : ph.IsVec h) (hne : h ≠ []) (p : K) :
    exceedanceWaveHeight ph p =
      if 100 < p ∨ p < 0 then .error (.valueError "exceedance_wave_height: excPerc")
      else if !isSortedDesc h then .error (.valueError "exceedance_wave_height: not sorted")
      else if ¬ (⌊(h.length : K) * p / 100⌋ - 1 < 0) then getE h (⌊(h.length : K) * p / 100⌋ - 1).toNat
      else .ok 0 := by
  unfold exceedanceWaveHeight
  rw [toArr_of_isVec hh]
  simp only [isOneD_vec, Arr.len, List.headD_cons]
  simp [hne]

/-! ## C12 -/

section
variable [FloorRing K] [IsStrictOrderedRing K]

theorem floor_np_bounds {n : Nat} {p : K} (h0 : 0 ≤ p) (h1 : p ≤ 1) :
    0 ≤ ⌊(n : K) * p⌋ ∧ ⌊(n : K) * p⌋.toNat ≤ n := by
  have hn : (0 : K) ≤ n := Nat.cast_nonneg n
  have h2 : 0 ≤ ⌊(n : K) * p⌋ := Int.floor_nonneg.2 (mul_nonneg hn h0)
  refine ⟨h2, ?_⟩
  have h3 : (⌊(n : K) * p⌋ : K) ≤ n := le_trans (Int.floor_le _) (by nlinarith)
  have h4 : ⌊(n : K) * p⌋ ≤ (n : Int) := by exact_mod_cast h3
  omega

/-- **C12 (core function).** On sorted input and `0 ≤ p ≤ 1` the result is the mean height and mean period of the first
(= highest) `floor (n p)` waves, `(0, 0)` if that number is 0. -/
theorem highest_is_mean_of_top {ph pt : PyIn K} {h t : List K} (hh : ph.IsVec h) (ht : pt.IsVec t)
    (hne : h ≠ []) (hlen : h.length = t.length) (hs : h.Pairwise (· ≥ ·)) {p : K} (h0 : 0 ≤ p) (h1 : p ≤ 1) :
    highestWavesParams ph pt p =
      if ⌊(h.length : K) * p⌋ = 0 then .ok (0, 0)
      else .ok (mean (h.take ⌊(h.length : K) * p⌋.toNat), mean (t.take ⌊(h.length : K) * p⌋.toNat)) := by
  rw [highest_eq hh ht hne hlen, if_neg (by push Not; exact ⟨h0, h1⟩), (isSortedDesc_iff h).2 hs]
  have := (floor_np_bounds (n := h.length) h0 h1).1
  by_cases h2 : ⌊(h.length : K) * p⌋ = 0
  · simp [h2]
  · rw [if_neg (by simp), if_pos (by omega), if_neg h2]

/-- `top` is a set of `k` highest waves of the wave train `pairs` (pairs are (height, period)). -/
def IsTop (k : Nat) (pairs top : List (K × K)) : Prop :=
  top.length = k ∧ ∃ rest, (top ++ rest).Perm pairs ∧ ∀ a ∈ top, ∀ b ∈ rest, b.1 ≤ a.1

/-- Result of averaging a set of waves; `(0, 0)` for the empty set. -/
def averages (top : List (K × K)) : K × K :=
  if top = [] then (0, 0) else (mean (top.map Prod.fst), mean (top.map Prod.snd))

/-- Sorting followed by averaging = averaging a set of `floor (n p)` highest waves (used by `WaveHeights`). -/
theorem sorted_highest_spec {h t hs ts : List K} (hlen : h.length = t.length)
    (hne : h ≠ []) (l1 : hs.length = h.length) (l2 : ts.length = h.length) (hd : hs.Pairwise (· ≥ ·))
    (hp : (hs.zip ts).Perm (h.zip t)) {p : K} (h0 : 0 ≤ p) (h1 : p ≤ 1) :
    ∃ top, IsTop ⌊(h.length : K) * p⌋.toNat (h.zip t) top ∧
      highestWavesParams (vec hs) (vec ts) p = .ok (averages top) := by
  have hne' : hs ≠ [] := by rintro rfl; simp at l1; exact hne (List.length_eq_zero_iff.1 l1.symm)
  have hb := floor_np_bounds (n := h.length) h0 h1
  set k := ⌊(h.length : K) * p⌋.toNat with hk
  refine ⟨(hs.zip ts).take k, ⟨by simp [l1, l2, hb.2], (hs.zip ts).drop k, ?_, ?_⟩, ?_⟩
  · rw [List.take_append_drop]; exact hp
  · intro a ha b hb
    rw [List.mem_iff_getElem] at ha hb
    obtain ⟨i, hi, rfl⟩ := ha
    obtain ⟨j, hj, rfl⟩ := hb
    simp only [List.getElem_take, List.getElem_drop, List.getElem_zip]
    simp only [List.length_take, List.length_drop, List.length_zip, l1, l2] at hi hj
    have := List.pairwise_iff_getElem.1 hd i (k + j) (by omega) (by omega) (by omega)
    exact this
  · rw [highest_is_mean_of_top (isVec_vec _) (isVec_vec _) hne' (by omega) hd h0 h1, l1]
    have e1 : ((hs.zip ts).take k).map Prod.fst = hs.take k := by
      rw [List.map_take, List.map_fst_zip (by omega)]
    have e2 : ((hs.zip ts).take k).map Prod.snd = ts.take k := by
      rw [List.map_take, List.map_snd_zip (by omega)]
    simp only [averages, e1, e2]
    by_cases h2 : ⌊(h.length : K) * p⌋ = 0
    · simp [h2, hk]
    · rw [if_neg h2, if_neg]
      intro hc
      have := congrArg List.length hc
      simp only [List.length_take, List.length_zip, l1, l2, List.length_nil] at this
      have : h.length ≠ 0 := fun h => hne (List.length_eq_zero_iff.1 h)
      omega

/-- **C12.** Sorting and then calling `highest_waves_params` with `0 ≤ p ≤ 1` returns the mean height and the mean period
of a set of `floor (n p)` highest waves of the (unsorted) wave train, `(0, 0)` if that number is 0 - for every behaviour
of `np.argsort` on ties. -/
theorem highest_waves_spec (A : Argsort K) {ph pt : PyIn K} {h t : List K} (hh : ph.IsVec h) (ht : pt.IsVec t)
    (hne : h ≠ []) (hlen : h.length = t.length) {p : K} (h0 : 0 ≤ p) (h1 : p ≤ 1) :
    ∃ hs ts top, sortWaveParams A ph pt = .ok (hs, ts) ∧ IsTop ⌊(h.length : K) * p⌋.toNat (h.zip t) top ∧
      highestWavesParams (vec hs) (vec ts) p = .ok (averages top) := by
  obtain ⟨hs, ts, e, l1, l2, hd, hp⟩ := sort_keeps_waves A hh ht hne hlen
  obtain ⟨top, h3, h4⟩ := sorted_highest_spec hlen hne l1 l2 hd hp h0 h1
  exact ⟨hs, ts, top, e, h3, h4⟩

end

/-- **C12 (validation).** A fraction outside `[0, 1]` raises `ValueError`, whatever the (valid 1D) waves are. -/
theorem highest_bad_fraction [FloorRing K] {ph pt : PyIn K} {h t : List K} (hh : ph.IsVec h) (ht : pt.IsVec t)
    (hne : h ≠ []) (hlen : h.length = t.length) {p : K} (hp : p < 0 ∨ 1 < p) :
    ∃ msg, highestWavesParams ph pt p = .error (.valueError msg) := by
  rw [highest_eq hh ht hne hlen, if_pos hp]; exact ⟨_, rfl⟩

/-- Descending lists with the same elements are equal. -/
theorem desc_unique {l l' : List K} (h : l.Pairwise (· ≥ ·)) (h' : l'.Pairwise (· ≥ ·)) (hp : l.Perm l') : l = l' :=
  List.Perm.eq_of_pairwise' h h' hp

/-- **C12 (multiset).** The height result depends only on the multiset of heights: two wave trains with the same heights
(in any order, with any periods) give the same mean height, for any two tie orders. -/
theorem highest_height_multiset [FloorRing K] (A A' : Argsort K) {h t h' t' : List K}
    (hne : h ≠ []) (hlen : h.length = t.length) (hlen' : h'.length = t'.length) (hp : h.Perm h') (p : K) :
    ∃ hs ts hs' ts', sortWaveParams A (vec h) (vec t) = .ok (hs, ts) ∧
      sortWaveParams A' (vec h') (vec t') = .ok (hs', ts') ∧
      (highestWavesParams (vec hs) (vec ts) p).map Prod.fst = (highestWavesParams (vec hs') (vec ts') p).map Prod.fst := by
  have hne' : h' ≠ [] := by rintro rfl; exact hne (List.perm_nil.1 hp)
  obtain ⟨hs, ts, e, l1, l2, hd, hz⟩ := sort_keeps_waves A (isVec_vec h) (isVec_vec t) hne hlen
  obtain ⟨hs', ts', e', l1', l2', hd', hz'⟩ := sort_keeps_waves A' (isVec_vec h') (isVec_vec t') hne' hlen'
  have q1 : hs.Perm h := by
    have := hz.map Prod.fst
    rwa [List.map_fst_zip (by omega), List.map_fst_zip (by omega)] at this
  have q2 : hs'.Perm h' := by
    have := hz'.map Prod.fst
    rwa [List.map_fst_zip (by omega), List.map_fst_zip (by omega)] at this
  have heq : hs = hs' := desc_unique hd hd' (q1.trans (hp.trans q2.symm))
  subst heq
  have hne2 : hs ≠ [] := by rintro rfl; exact hne (List.nil_perm.1 q1)
  refine ⟨hs, ts, hs, ts', e, e', ?_⟩
  rw [highest_eq (isVec_vec hs) (isVec_vec ts) hne2 (by omega),
    highest_eq (isVec_vec hs) (isVec_vec ts') hne2 (by omega)]
  split_ifs <;> rfl

/-! ## C13 -/

section
variable [IsStrictOrderedRing K]

theorem sum_le_of_forall_le {l : List K} {c : K} (h : ∀ v ∈ l, v ≤ c) : l.sum ≤ l.length * c := by
  induction l with
  | nil => simp
  | cons a l ih =>
    simp only [List.sum_cons, List.length_cons, Nat.cast_add, Nat.cast_one]
    have := h a (by simp)
    have := ih fun v hv => h v (List.mem_cons_of_mem _ hv)
    linarith

theorem le_sum_of_forall_le {l : List K} {c : K} (h : ∀ v ∈ l, c ≤ v) : l.length * c ≤ l.sum := by
  induction l with
  | nil => simp
  | cons a l ih =>
    simp only [List.sum_cons, List.length_cons, Nat.cast_add, Nat.cast_one]
    have := h a (by simp)
    have := ih fun v hv => h v (List.mem_cons_of_mem _ hv)
    linarith

/-- In a descending list the mean of a longer prefix is at most the mean of a shorter one. -/
theorem prefix_mean_antitone {h : List K} (hd : h.Pairwise (· ≥ ·)) {k l : Nat} (hk : 1 ≤ k) (hkl : k ≤ l)
    (hl : l ≤ h.length) : mean (h.take l) ≤ mean (h.take k) := by
  have e : h.take l = h.take k ++ (h.take l).drop k := by
    conv_lhs => rw [← List.take_append_drop k (h.take l)]
    rw [List.take_take, min_eq_left hkl]
  have hk0 : (0 : K) < k := by exact_mod_cast hk
  have hl0 : (0 : K) < l := by exact_mod_cast (by omega : 0 < l)
  have hlen1 : (h.take k).length = k := by simp; omega
  have hlen2 : ((h.take l).drop k).length = l - k := by simp; omega
  have hle : ∀ a ∈ h.take k, ∀ b ∈ (h.take l).drop k, b ≤ a := by
    have := hd.sublist (List.take_sublist l h)
    rw [e, List.pairwise_append] at this
    exact this.2.2
  have hb : ∀ b ∈ (h.take l).drop k, b ≤ mean (h.take k) := by
    intro b hb
    have := le_sum_of_forall_le (l := h.take k) (c := b) fun a ha => hle a ha b hb
    rw [hlen1] at this
    unfold mean
    rw [hlen1, le_div_iff₀ hk0]
    linarith
  have h3 := sum_le_of_forall_le hb
  rw [hlen2] at h3
  have h4 : (h.take k).sum = k * mean (h.take k) := by
    unfold mean; rw [hlen1]; field_simp
  have h5 : ((l - k : Nat) : K) = l - k := by push_cast [hkl]; ring
  rw [h5] at h3
  have hlenl : (h.take l).length = l := by simp; omega
  have h6 : mean (h.take l) = ((h.take k).sum + ((h.take l).drop k).sum) / l := by
    unfold mean; rw [hlenl]; conv_lhs => rw [e, List.sum_append]
  rw [h6, div_le_iff₀ hl0, h4]
  nlinarith

/-- **C13.** For fractions `p ≤ q` in `[0, 1]` such that `p` selects at least one wave, the mean height of the highest `p`
is at least the mean height of the highest `q`. -/
theorem highest_antitone [FloorRing K] {ph pt : PyIn K} {h t : List K} (hh : ph.IsVec h) (ht : pt.IsVec t)
    (hne : h ≠ []) (hlen : h.length = t.length) (hs : h.Pairwise (· ≥ ·)) {p q : K} (h0 : 0 ≤ p) (hpq : p ≤ q)
    (h1 : q ≤ 1) (hsel : 1 ≤ (h.length : K) * p) :
    ∃ rp rq, highestWavesParams ph pt p = .ok rp ∧ highestWavesParams ph pt q = .ok rq ∧ rq.1 ≤ rp.1 := by
  have hn : (0 : K) ≤ h.length := Nat.cast_nonneg _
  have f1 : (1 : Int) ≤ ⌊(h.length : K) * p⌋ := Int.le_floor.2 (by exact_mod_cast hsel)
  have f2 : ⌊(h.length : K) * p⌋ ≤ ⌊(h.length : K) * q⌋ := Int.floor_le_floor (by nlinarith)
  have f3 := floor_np_bounds (n := h.length) (le_trans h0 hpq) h1
  have e1 := highest_is_mean_of_top hh ht hne hlen hs h0 (le_trans hpq h1)
  have e2 := highest_is_mean_of_top hh ht hne hlen hs (le_trans h0 hpq) h1
  rw [if_neg (by omega)] at e1 e2
  exact ⟨_, _, e1, e2, prefix_mean_antitone hs (by omega) (by omega) f3.2⟩

/-- **C13 (corollary).** mean height ≤ H(1/3) ≤ H(1/10) ≤ Hmax for at least ten waves, where Hmax is the highest wave. -/
theorem standard_height_order [FloorRing K] {ph pt : PyIn K} {h t : List K} (hh : ph.IsVec h) (ht : pt.IsVec t)
    (h10 : 10 ≤ h.length) (hlen : h.length = t.length) (hs : h.Pairwise (· ≥ ·)) :
    ∃ r1 r3 r10, highestWavesParams ph pt 1 = .ok r1 ∧ highestWavesParams ph pt (1 / 3) = .ok r3 ∧
      highestWavesParams ph pt (1 / 10) = .ok r10 ∧ r1.1 = mean h ∧ r1.1 ≤ r3.1 ∧ r3.1 ≤ r10.1 ∧
      r10.1 ≤ h.getD 0 0 := by
  have hne : h ≠ [] := by rintro rfl; simp at h10
  have hn : (10 : K) ≤ h.length := by exact_mod_cast h10
  obtain ⟨a, b, e1, e2, l1⟩ := highest_antitone hh ht hne hlen hs (p := 1 / 3) (q := 1) (by norm_num) (by norm_num)
    (by norm_num) (by linarith)
  obtain ⟨c, d, e3, e4, l2⟩ := highest_antitone hh ht hne hlen hs (p := 1 / 10) (q := 1 / 3) (by norm_num)
    (by norm_num) (by norm_num) (by linarith)
  rw [e1] at e4
  simp only [Except.ok.injEq] at e4
  subst e4
  refine ⟨b, a, c, e2, e1, e3, ?_, l1, l2, ?_⟩
  · rw [highest_is_mean_of_top hh ht hne hlen hs (by norm_num) (le_refl _), mul_one] at e2
    have hfl : ⌊(h.length : K)⌋ = (h.length : Int) := by exact_mod_cast Int.floor_intCast (h.length : Int)
    rw [hfl, if_neg (by omega)] at e2
    simp only [Except.ok.injEq] at e2
    rw [← e2]
    simp
  · have f1 : (1 : Int) ≤ ⌊(h.length : K) * (1 / 10)⌋ := Int.le_floor.2 (by push_cast; linarith)
    have f3 := floor_np_bounds (n := h.length) (p := (1 / 10 : K)) (by norm_num) (by norm_num)
    rw [highest_is_mean_of_top hh ht hne hlen hs (by norm_num) (by norm_num), if_neg (by omega)] at e3
    simp only [Except.ok.injEq] at e3
    rw [← e3]
    have h1 := prefix_mean_antitone hs (k := 1) (l := ⌊(h.length : K) * (1 / 10)⌋.toNat) (le_refl _) (by omega) f3.2
    refine le_trans h1 (le_of_eq ?_)
    cases h with
    | nil => exact absurd rfl hne
    | cons a l => simp [mean]

end

/-- Non-vacuity, replay of /repo/tests/core_time_test.py `test_highest_waves_params` (fraction 1/3: the two highest). -/
example : highestWavesParams (K := ℚ) (vec [71/10, 6, 58/10, 44/10, 31/10, 22/10, 14/10])
    (vec [51/10, 32/10, 37/10, 0, 2, 3, 11/10]) (1/3) = .ok (655/100, 415/100) := by decide +kernel
example : highestWavesParams (K := ℚ) (vec [71/10, 6, 58/10, 44/10, 31/10, 22/10, 14/10])
    (vec [51/10, 32/10, 37/10, 0, 2, 3, 11/10]) (1/10) = .ok (0, 0) := by decide +kernel

/-! ## C14, C15 -/

section
variable [IsStrictOrderedRing K]

/-- **C14.** With `k = floor (n p / 100) ≥ 1` and `0 ≤ p ≤ 100`, the result is the `k`-th highest wave: it is one of the
heights, at least `k` waves are as high, and fewer than `k` are strictly higher. -/
theorem exceedance_kth_highest [FloorRing K] {ph : PyIn K} {h : List K} (hh : ph.IsVec h) (hs : h.Pairwise (· ≥ ·))
    {p : K} (h0 : 0 ≤ p) (h1 : p ≤ 100) (hsel : 1 ≤ ⌊(h.length : K) * p / 100⌋) :
    ∃ v, exceedanceWaveHeight ph p = .ok v ∧ v ∈ h ∧
      ⌊(h.length : K) * p / 100⌋.toNat ≤ h.countP (fun w => decide (v ≤ w)) ∧
      h.countP (fun w => decide (v < w)) < ⌊(h.length : K) * p / 100⌋.toNat := by
  have hne : h ≠ [] := by rintro rfl; simp at hsel
  have hn : (0 : K) ≤ h.length := Nat.cast_nonneg _
  have hle : ⌊(h.length : K) * p / 100⌋ ≤ (h.length : Int) := by
    have h3 : (⌊(h.length : K) * p / 100⌋ : K) ≤ h.length :=
      le_trans (Int.floor_le _) (by rw [div_le_iff₀ (by norm_num)]; nlinarith)
    exact_mod_cast h3
  set k := ⌊(h.length : K) * p / 100⌋ with hk
  have hi : (k - 1).toNat < h.length := by omega
  refine ⟨h[(k - 1).toNat], ?_, List.getElem_mem hi, ?_, ?_⟩
  · rw [exceed_eq hh hne, if_neg (by push Not; exact ⟨h1, h0⟩), (isSortedDesc_iff h).2 hs, if_neg (by simp),
      if_pos (by omega)]
    exact getE_ok.2 (List.getElem?_eq_getElem hi)
  · have h2 : (h.take k.toNat).countP (fun w => decide (h[(k - 1).toNat] ≤ w)) = (h.take k.toNat).length := by
      rw [List.countP_eq_length]
      intro a ha
      obtain ⟨i, hil, rfl⟩ := List.mem_iff_getElem.1 ha
      simp only [List.length_take] at hil
      simp only [List.getElem_take, decide_eq_true_eq]
      rcases Nat.lt_or_eq_of_le (by omega : i ≤ (k - 1).toNat) with h | h
      · exact List.pairwise_iff_getElem.1 hs _ _ (by omega) hi h
      · subst h; exact le_refl _
    have h3 := List.Sublist.countP_le (p := fun w => decide (h[(k - 1).toNat] ≤ w)) (List.take_sublist k.toNat h)
    rw [h2] at h3
    simp only [List.length_take] at h3
    omega
  · have h2 : h.countP (fun w => decide (h[(k - 1).toNat] < w)) ≤
        (h.take (k - 1).toNat).countP (fun w => decide (h[(k - 1).toNat] < w)) := by
      have happ : ∀ q : K → Bool, h.countP q =
          (h.take (k - 1).toNat).countP q + (h.drop (k - 1).toNat).countP q := by
        intro q; rw [← List.countP_append, List.take_append_drop]
      have : (h.drop (k - 1).toNat).countP (fun w => decide (h[(k - 1).toNat] < w)) = 0 := by
        rw [List.countP_eq_zero]
        intro a ha
        obtain ⟨i, hil, rfl⟩ := List.mem_iff_getElem.1 ha
        simp only [List.length_drop] at hil
        simp only [List.getElem_drop, decide_eq_true_eq, not_lt]
        rcases Nat.eq_zero_or_pos i with rfl | h
        · simp
        · exact List.pairwise_iff_getElem.1 hs _ _ hi (by omega) (by omega)
      rw [happ]
      omega
    have h3 := List.countP_le_length (p := fun w => decide (h[(k - 1).toNat] < w)) (l := h.take (k - 1).toNat)
    simp only [List.length_take] at h3
    omega

/-- **C14 (validation).** -/
theorem exceedance_bad_percentage [FloorRing K] {ph : PyIn K} {h : List K} (hh : ph.IsVec h) (hne : h ≠ []) {p : K}
    (hp : p < 0 ∨ 100 < p) : ∃ msg, exceedanceWaveHeight ph p = .error (.valueError msg) := by
  rw [exceed_eq hh hne, if_pos hp.symm]; exact ⟨_, rfl⟩

/-- **C15 (partial).** For `p ≤ q`, where `p` selects at least one wave, the exceedance height for `p` is at least the one
for `q`.  Missing: percentages that select no wave, see `exceedance_not_monotone`. -/
theorem exceedance_antitone_partial [FloorRing K] {ph : PyIn K} {h : List K} (hh : ph.IsVec h)
    (hs : h.Pairwise (· ≥ ·)) {p q : K} (h0 : 0 ≤ p) (hpq : p ≤ q) (h1 : q ≤ 100)
    (hsel : 1 ≤ ⌊(h.length : K) * p / 100⌋) :
    ∃ vp vq, exceedanceWaveHeight ph p = .ok vp ∧ exceedanceWaveHeight ph q = .ok vq ∧ vq ≤ vp := by
  have hne : h ≠ [] := by rintro rfl; simp at hsel
  have hn : (0 : K) ≤ h.length := Nat.cast_nonneg _
  have hle : ⌊(h.length : K) * q / 100⌋ ≤ (h.length : Int) := by
    have h3 : (⌊(h.length : K) * q / 100⌋ : K) ≤ h.length :=
      le_trans (Int.floor_le _) (by rw [div_le_iff₀ (by norm_num)]; nlinarith)
    exact_mod_cast h3
  have hle2 : ⌊(h.length : K) * p / 100⌋ ≤ ⌊(h.length : K) * q / 100⌋ :=
    Int.floor_le_floor (by
      apply div_le_div_of_nonneg_right _ (by norm_num)
      nlinarith)
  set k := ⌊(h.length : K) * p / 100⌋ with hk
  set l := ⌊(h.length : K) * q / 100⌋ with hl
  have hi : (k - 1).toNat < h.length := by omega
  have hj : (l - 1).toNat < h.length := by omega
  refine ⟨h[(k - 1).toNat], h[(l - 1).toNat], ?_, ?_, ?_⟩
  · rw [exceed_eq hh hne, if_neg (by push Not; exact ⟨le_trans hpq h1, h0⟩), (isSortedDesc_iff h).2 hs, if_neg (by simp),
      if_pos (by omega)]
    exact getE_ok.2 (List.getElem?_eq_getElem hi)
  · rw [exceed_eq hh hne, if_neg (by push Not; exact ⟨h1, le_trans h0 hpq⟩), (isSortedDesc_iff h).2 hs, if_neg (by simp),
      if_pos (by omega)]
    exact getE_ok.2 (List.getElem?_eq_getElem hj)
  · rcases Nat.lt_or_eq_of_le (by omega : (k - 1).toNat ≤ (l - 1).toNat) with h | h
    · exact List.pairwise_iff_getElem.1 hs _ _ hi hj h
    · simp only [h]; exact le_refl _

end

/-- **C15 is false as stated**: with 7 waves the 10% exceedance height is reported as 0, below the 33% one. -/
theorem exceedance_not_monotone :
    exceedanceWaveHeight (K := ℚ) (vec [71/10, 6, 58/10, 44/10, 31/10, 22/10, 14/10]) 10 = .ok 0 ∧
    exceedanceWaveHeight (K := ℚ) (vec [71/10, 6, 58/10, 44/10, 31/10, 22/10, 14/10]) 33 = .ok 6 := by
  constructor <;> decide +kernel

/-! ## C16 -/

/-- **C16.** With valid shapes and fraction, `highest_waves_params` raises exactly when the heights are not in descending
order; then it is a `ValueError`. -/
theorem highest_rejects_unsorted [FloorRing K] {ph pt : PyIn K} {h t : List K} (hh : ph.IsVec h) (ht : pt.IsVec t)
    (hne : h ≠ []) (hlen : h.length = t.length) {p : K} (h0 : 0 ≤ p) (h1 : p ≤ 1) :
    if h.Pairwise (· ≥ ·) then ∃ r, highestWavesParams ph pt p = .ok r
    else ∃ msg, highestWavesParams ph pt p = .error (.valueError msg) := by
  have hp : ¬ (p < 0 ∨ 1 < p) := by rintro (h | h) <;> [exact absurd h (not_lt.2 h0); exact absurd h (not_lt.2 h1)]
  rw [highest_eq hh ht hne hlen, if_neg hp]
  by_cases hs : h.Pairwise (· ≥ ·)
  · rw [if_pos hs, (isSortedDesc_iff h).2 hs]
    simp only [Bool.not_true, Bool.false_eq_true, if_false]
    split_ifs <;> exact ⟨_, rfl⟩
  · have hb : isSortedDesc h = false := by
      by_contra hc; exact hs ((isSortedDesc_iff h).1 (by simpa using hc))
    rw [if_neg hs, hb]
    exact ⟨_, rfl⟩

/-- **C16** for `exceedance_wave_height`. -/
theorem exceedance_rejects_unsorted [FloorRing K] [IsStrictOrderedRing K] {ph : PyIn K} {h : List K} (hh : ph.IsVec h)
    (hne : h ≠ []) {p : K} (h0 : 0 ≤ p) (h1 : p ≤ 100) :
    if h.Pairwise (· ≥ ·) then ∃ r, exceedanceWaveHeight ph p = .ok r
    else ∃ msg, exceedanceWaveHeight ph p = .error (.valueError msg) := by
  split_ifs with hs
  · by_cases hsel : 1 ≤ ⌊(h.length : K) * p / 100⌋
    · obtain ⟨v, hv, _⟩ := exceedance_kth_highest hh hs h0 h1 hsel
      exact ⟨v, hv⟩
    · rw [exceed_eq hh hne, if_neg (by push Not; exact ⟨h1, h0⟩), (isSortedDesc_iff h).2 hs, if_neg (by simp),
        if_neg (by omega)]
      exact ⟨_, rfl⟩
  · have hb : isSortedDesc h = false := by
      by_contra hc; exact hs ((isSortedDesc_iff h).1 (by simpa using hc))
    rw [exceed_eq hh hne, if_neg (by push Not; exact ⟨h1, h0⟩), hb]
    exact ⟨_, rfl⟩

/-- **C16 (arrays from `sort_wave_params` are accepted).** -/
theorem sorted_output_accepted [FloorRing K] [IsStrictOrderedRing K] (A : Argsort K) {ph pt : PyIn K} {hs ts : List K}
    (hh : ph.WF) (ht : pt.WF) (h : sortWaveParams A ph pt = .ok (hs, ts)) {p q : K} (h0 : 0 ≤ p) (h1 : p ≤ 1)
    (q0 : 0 ≤ q) (q1 : q ≤ 100) :
    (∃ r, highestWavesParams (vec hs) (vec ts) p = .ok r) ∧ ∃ r, exceedanceWaveHeight (vec hs) q = .ok r := by
  have hok : ph.OneDim ∧ pt.OneDim ∧ ph.count = pt.count := by
    by_contra hc
    obtain ⟨e, he, _⟩ := (sort_shape_contract A hh ht).2 hc
    rw [h] at he; cases he
  obtain ⟨⟨l, l0, lv⟩, ⟨m, m0, mv⟩, hc⟩ := hok
  rw [lv.count_eq, mv.count_eq] at hc
  obtain ⟨hs', ts', e, l1, l2, hd, hp⟩ := sort_keeps_waves A lv mv l0 hc
  rw [h] at e
  simp only [Except.ok.injEq, Prod.mk.injEq] at e
  obtain ⟨rfl, rfl⟩ := e
  have hne : hs ≠ [] := by
    rintro rfl; simp at l1; exact l0 (List.length_eq_zero_iff.1 l1.symm)
  have r1 := highest_rejects_unsorted (isVec_vec hs) (isVec_vec ts) hne (by omega) h0 h1
  have r2 := exceedance_rejects_unsorted (isVec_vec hs) hne q0 q1
  rw [if_pos hd] at r1 r2
  exact ⟨r1, r2⟩

example : highestWavesParams (K := ℚ) (vec [1, 2]) (vec [1, 2]) (1/2) =
    .error (.valueError "highest_waves_params: not sorted") := by decide +kernel

/-! ## Concrete cases: the hypotheses of the theorems above are met -/

/-- Seven waves sorted by decreasing height. -/
abbrev seven : List ℚ := [71/10, 6, 58/10, 44/10, 31/10, 22/10, 14/10]
/-- Their periods. -/
abbrev sevenT : List ℚ := [51/10, 32/10, 37/10, 0, 2, 3, 11/10]
/-- Ten waves sorted by decreasing height. -/
abbrev ten : List ℚ := [10, 9, 8, 7, 6, 5, 4, 3, 2, 1]

theorem seven_sorted : seven.Pairwise (· ≥ ·) := by decide +kernel

example := highest_is_mean_of_top (isVec_vec seven) (isVec_vec sevenT) (by simp) rfl seven_sorted (p := 1 / 3) (by norm_num) (by norm_num)
example := highest_waves_spec (stableArgsort (K := ℚ)) (isVec_vec [1, 5, 3]) (isVec_vec [4, 6, 9]) (by simp) rfl (p := 2 / 3) (by norm_num) (by norm_num)
example := highest_bad_fraction (isVec_vec seven) (isVec_vec sevenT) (by simp) rfl (p := 3 / 2) (.inr (by norm_num))
example := highest_height_multiset (stableArgsort (K := ℚ)) stableArgsort (h := [1, 5, 3]) (t := [4, 6, 9]) (h' := [5, 1, 3]) (t' := [7, 7, 8])
  (by simp) rfl rfl (List.Perm.swap ..) (2 / 3)
example := highest_antitone (isVec_vec seven) (isVec_vec sevenT) (by simp) rfl seven_sorted (p := 1 / 3) (q := 2 / 3) (by norm_num) (by norm_num) (by norm_num) (by norm_num)
example := standard_height_order (isVec_vec ten) (isVec_vec ten) (by simp) rfl (by decide +kernel)
example := exceedance_kth_highest (isVec_vec seven) seven_sorted (p := 33) (by norm_num) (by norm_num) (by norm_num [Int.le_floor])
example := exceedance_bad_percentage (isVec_vec seven) (by simp) (p := 101) (.inr (by norm_num))
example := exceedance_antitone_partial (isVec_vec seven) seven_sorted (p := 33) (q := 66) (by norm_num) (by norm_num) (by norm_num) (by norm_num [Int.le_floor])
example := highest_rejects_unsorted (isVec_vec seven) (isVec_vec sevenT) (by simp) rfl (p := 1 / 3) (by norm_num) (by norm_num)
/-- Heights that are not sorted are refused. -/
example : ∃ msg, exceedanceWaveHeight (vec ([1, 2] : List ℚ)) 50 = .error (.valueError msg) := by
  have h := exceedance_rejects_unsorted (isVec_vec ([1, 2] : List ℚ)) (by simp) (p := 50) (by norm_num) (by norm_num)
  rwa [if_neg (by decide +kernel)] at h
example := sorted_output_accepted (stableArgsort (K := ℚ)) (ph := vec [1, 5, 3]) (pt := vec [4, 6, 9]) rfl rfl
  (hs := [5, 3, 1]) (ts := [6, 9, 4]) (by decide +kernel) (p := 1 / 3) (q := 50) (by norm_num) (by norm_num) (by norm_num) (by norm_num)

end Verif
