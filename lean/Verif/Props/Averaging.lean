import Verif.Lemmas.Spectral

/-! # C28: band averaging -/

set_option linter.unusedSectionVars false

namespace Verif
open Finset

section
variable {K : Type} [Field K] [LinearOrder K] [IsStrictOrderedRing K] [FloorRing K]

theorem list_sum_map_range {M : Type} [AddCommMonoid M] (g : Nat → M) (n : Nat) :
    ((List.range n).map g).sum = ∑ i ∈ range n, g i := by
  induction n with
  | zero => simp
  | succ n ih => rw [List.range_succ, List.map_append, List.sum_append, ih, sum_range_succ]; simp

theorem eq_map_range_getD {α : Type} (l : List α) (d : α) : l = (List.range l.length).map fun j => l.getD j d := by
  apply List.ext_getElem
  · simp
  · intro i h1 h2
    rw [List.getElem_map, List.getElem_range, List.getD_eq_getElem _ _ h1]

theorem list_sum_getD {M : Type} [AddCommMonoid M] (l : List M) : l.sum = ∑ i ∈ range l.length, l.getD i 0 := by
  conv_lhs => rw [eq_map_range_getD l 0]
  exact list_sum_map_range _ _

theorem pySlice_eq {α : Type} (l : List α) (d : α) {a b : Nat} (hb : b ≤ l.length) :
    pySlice l a b = (List.range (b - a)).map fun j => l.getD (a + j) d := by
  apply List.ext_getElem
  · rw [pySlice_length]; simp; omega
  · intro i h1 h2
    have hi : i < b - a := by simpa using h2
    rw [List.getElem_map, List.getElem_range, List.getD_eq_getElem _ _ (by omega : a + i < l.length)]
    simp [pySlice]

/-- Specification of "every coarse value is the mean of its `n` fine values". -/
def BlockMeans (n : Nat) (fine coarse : List K) (nFine : Nat) : Prop :=
  coarse.length = nFine / n ∧
    ∀ i, i < nFine / n → coarse.getD i 0 = (∑ j ∈ range n, fine.getD (i * n + j) 0) / (n : K)

theorem slice_bound {i n N : Nat} (hi : i < N / n) : (i + 1) * n ≤ N :=
  le_trans (Nat.mul_le_mul_right n hi) (Nat.div_mul_le_self N n)

theorem mean_block {l : List K} {n : Nat} (hn : 0 < n) {i N : Nat} (hN : N ≤ l.length) (hi : i < N / n) :
    meanE (pySlice l (i * n) ((i + 1) * n)) = .ok ((∑ j ∈ range n, l.getD (i * n + j) 0) / (n : K)) := by
  have hb := slice_bound hi
  rw [pySlice_eq l 0 (le_trans hb hN)]
  have e : (i + 1) * n - i * n = n := by rw [Nat.add_mul, Nat.one_mul]; omega
  rw [e]
  unfold meanE mean
  rw [if_neg (by simp; omega), list_sum_map_range]
  simp

theorem mapM_ok_of {α β : Type} {f : α → Except PyErr β} {g : α → β} {l : List α} (h : ∀ a ∈ l, f a = .ok (g a)) :
    l.mapM f = .ok (l.map g) := by
  induction l with
  | nil => rfl
  | cons a l ih =>
    rw [List.mapM_cons, h a (by simp), ih fun b hb => h b (by simp [hb])]
    rfl

theorem frequencyAveragingL_eq {f S : List K} {df : K} {n : Nat} (hn : nFactorOf f df = .ok n) (h0 : 0 < n)
    (hS : S ≠ []) (hl : f.length ≤ S.length) :
    frequencyAveragingL f S df =
      .ok ((List.range (f.length / n)).map fun i => (∑ j ∈ range n, f.getD (i * n + j) 0) / (n : K),
           (List.range (f.length / n)).map fun i => (∑ j ∈ range n, S.getD (i * n + j) 0) / (n : K)) := by
  unfold frequencyAveragingL
  rw [hn]
  simp only [bind, Except.bind]
  rw [if_neg hS]
  have h1 := mapM_ok_of (l := List.range (f.length / n)) (f := fun i => meanE (pySlice f (i * n) ((i + 1) * n)))
    (g := fun i => (∑ j ∈ range n, f.getD (i * n + j) 0) / (n : K))
    (fun i hi => mean_block h0 le_rfl (List.mem_range.1 hi))
  have h2 := mapM_ok_of (l := List.range (f.length / n)) (f := fun i => meanE (pySlice S (i * n) ((i + 1) * n)))
    (g := fun i => (∑ j ∈ range n, S.getD (i * n + j) 0) / (n : K))
    (fun i hi => mean_block h0 hl (List.mem_range.1 hi))
  rw [h1]
  simp only
  rw [h2]
  rfl

theorem nFactorOf_pos {f : List K} {df : K} {n : Nat} (h : nFactorOf f df = .ok n) : 0 < n := by
  unfold nFactorOf at h
  by_cases h0 : df = 0
  · rw [if_pos h0] at h
    simp at h; omega
  · rw [if_neg h0] at h
    rcases f with _ | ⟨f0, _ | ⟨f1, l⟩⟩
    · cases h
    · cases h
    · simp only at h
      by_cases h1 : f1 - f0 = 0
      · rw [if_pos h1] at h
        simp only [Except.ok.injEq] at h
        split_ifs at h <;> omega
      · rw [if_neg h1] at h
        simp only [Except.ok.injEq] at h
        have : (1 : Int) ≤ max (roundHalfEven (df / (f1 - f0))) 1 := le_max_right _ _
        omega

/-- `n` is `x` rounded to the nearest integer, to the even one if there are two (`np.round`). -/
def IsRounded (n : Int) (x : K) : Prop := |(n : K) - x| ≤ 1 / 2 ∧ (|(n : K) - x| = 1 / 2 → n % 2 = 0)

theorem roundHalfEven_spec (x : K) : IsRounded (roundHalfEven x) x := by
  unfold roundHalfEven
  have h1 := Int.floor_le x
  have h2 := Int.lt_floor_add_one x
  simp only
  split_ifs with ha hb hc
  · refine ⟨by rw [abs_le]; constructor <;> linarith, fun h => ?_⟩
    rw [abs_of_nonpos (by linarith)] at h
    linarith
  · refine ⟨by rw [abs_le]; push_cast; constructor <;> linarith, fun h => ?_⟩
    push_cast at h
    rw [abs_of_nonneg (by linarith)] at h
    linarith
  · refine ⟨by rw [abs_le]; constructor <;> linarith, fun _ => hc⟩
  · refine ⟨by rw [abs_le]; push_cast; constructor <;> linarith, fun _ => by omega⟩

theorem isRounded_unique {n m : Int} {x : K} (hn : IsRounded n x) (hm : IsRounded m x) : n = m := by
  have a := abs_le.1 hn.1
  have b := abs_le.1 hm.1
  rcases lt_trichotomy n m with h | h | h
  · have h' : (n : K) + 1 ≤ m := by exact_mod_cast h
    have e1 : |(n : K) - x| = 1 / 2 := by rw [abs_of_nonpos (by linarith)]; linarith
    have e2 : |(m : K) - x| = 1 / 2 := by rw [abs_of_nonneg (by linarith)]; linarith
    have h3 : (m : K) ≤ n + 1 := by linarith
    have h4 : m ≤ n + 1 := by exact_mod_cast h3
    have := hn.2 e1
    have := hm.2 e2
    omega
  · exact h
  · have h' : (m : K) + 1 ≤ n := by exact_mod_cast h
    have e1 : |(m : K) - x| = 1 / 2 := by rw [abs_of_nonpos (by linarith)]; linarith
    have e2 : |(n : K) - x| = 1 / 2 := by rw [abs_of_nonneg (by linarith)]; linarith
    have h3 : (n : K) ≤ m + 1 := by linarith
    have h4 : n ≤ m + 1 := by exact_mod_cast h3
    have := hn.2 e2
    have := hm.2 e1
    omega

/-- Specification of the averaging factor: `n` is 1 if `dfDesired = 0`, and otherwise `dfDesired / df` rounded to the nearest integer (ties to even),
but at least 1. -/
def IsFactor (n : Nat) (dfDesired df : K) : Prop :=
  1 ≤ n ∧ (dfDesired = 0 → n = 1) ∧ (1 / 2 < dfDesired / df → IsRounded n (dfDesired / df)) ∧
    (dfDesired / df ≤ 1 / 2 → n = 1)

theorem isFactor_unique {n m : Nat} {r d : K} (hn : IsFactor n r d) (hm : IsFactor m r d) : n = m := by
  rcases le_or_gt (r / d) (1 / 2) with h | h
  · rw [hn.2.2.2 h, hm.2.2.2 h]
  · exact_mod_cast isRounded_unique (hn.2.2.1 h) (hm.2.2.1 h)

theorem roundHalfEven_near (x : K) : |(roundHalfEven x : K) - x| ≤ 1 / 2 := (roundHalfEven_spec x).1

theorem averaging_factor {f0 f1 : K} {l : List K} {df : K} (hdf : 0 < f1 - f0) :
    ∃ n, nFactorOf (f0 :: f1 :: l) df = .ok n ∧ IsFactor n df (f1 - f0) := by
  unfold nFactorOf
  by_cases h0 : df = 0
  · rw [if_pos h0]
    subst h0
    refine ⟨1, rfl, le_rfl, fun _ => rfl, ?_, fun _ => rfl⟩
    intro h
    rw [zero_div] at h
    have : (0 : K) < 1 / 2 := by norm_num
    linarith
  · rw [if_neg h0]
    simp only
    rw [if_neg hdf.ne']
    refine ⟨_, rfl, ?_, fun h => absurd h h0, ?_, ?_⟩
    · have : (1 : Int) ≤ max (roundHalfEven (df / (f1 - f0))) 1 := le_max_right _ _
      omega
    · intro h
      have hr := roundHalfEven_near (df / (f1 - f0))
      have hpos : (0 : K) < (roundHalfEven (df / (f1 - f0)) : K) := by
        have := (abs_le.1 hr).1
        linarith
      have hpos' : 1 ≤ roundHalfEven (df / (f1 - f0)) := by
        have : (0 : Int) < roundHalfEven (df / (f1 - f0)) := by exact_mod_cast hpos
        omega
      rw [max_eq_left hpos']
      rw [Int.toNat_of_nonneg (by omega)]
      exact roundHalfEven_spec _
    · intro h
      have hle : roundHalfEven (df / (f1 - f0)) ≤ 1 := by
        have := (abs_le.1 (roundHalfEven_near (df / (f1 - f0)))).2
        have h1 : (roundHalfEven (df / (f1 - f0)) : K) ≤ 1 := by linarith
        exact_mod_cast h1
      rw [max_eq_right hle]
      rfl

/-- **C28 (blocks).** `frequency_averaging` never fails on a spectrum given on an axis with `f[0] < f[1]`; with `n` the
nearest integer to `dfDesired/df` (at least 1) it returns `floor(N / n)` bins for frequency and density, each the mean of
its `n` fine bins. -/
theorem averaging_block_means {f S : PyIn K} {fs Ss : List K} {df : K} (hf : f.IsArr fs) (hS : S.IsArr Ss)
    (hl : fs.length = Ss.length) (h2 : 2 ≤ fs.length) (hd : fs.getD 0 0 < fs.getD 1 0) :
    ∃ n fc sc, IsFactor n df (fs.getD 1 0 - fs.getD 0 0) ∧ frequencyAveraging f S df = .ok (fc, sc) ∧
      BlockMeans n fs fc fs.length ∧ BlockMeans n Ss sc fs.length := by
  obtain ⟨f0, f1, l, rfl⟩ : ∃ f0 f1 l, fs = f0 :: f1 :: l := by
    rcases fs with _ | ⟨a, _ | ⟨b, l⟩⟩
    · simp at h2
    · simp at h2
    · exact ⟨_, _, _, rfl⟩
  simp only [List.getD_cons_succ, List.getD_cons_zero] at hd ⊢
  obtain ⟨n, hn, hspec⟩ := averaging_factor (l := l) (df := df) (sub_pos.2 hd)
  have hne : Ss ≠ [] := by rintro rfl; simp at hl
  have hpos := nFactorOf_pos hn
  have e1 : frequencyAveraging f S df = frequencyAveragingL (f0 :: f1 :: l) Ss df := by
    unfold frequencyAveraging
    rw [vecIn_of_isArr hf, vecIn_of_isArr hS]
    rfl
  have key := e1.trans (frequencyAveragingL_eq hn hpos hne hl.le)
  refine ⟨n, _, _, hspec, key, ?_, ?_⟩
  · exact ⟨by simp, fun i hi => by rw [getD_map_range _ _ _ _ hi]⟩
  · exact ⟨by simp, fun i hi => by rw [getD_map_range _ _ _ _ hi]⟩

theorem sum_blocks (g : Nat → K) (n N : Nat) :
    ∑ i ∈ range N, ∑ j ∈ range n, g (i * n + j) = ∑ k ∈ range (N * n), g k := by
  induction N with
  | zero => simp
  | succ N ih => rw [sum_range_succ, ih, Nat.succ_mul, sum_range_add]

/-- **C28 (energy).** The coarse spectrum has the same total as the covered fine spectrum: `n * sum(coarse) = ` sum of the
first `floor(N/n) * n` fine values (at most `n - 1` fine bins, the highest frequencies, are left out). -/
theorem averaging_conserves_energy {n : Nat} (hn : 1 ≤ n) {fine coarse : List K} {N : Nat} (h : BlockMeans n fine coarse N) :
    (n : K) * coarse.sum = ∑ k ∈ range (N / n * n), fine.getD k 0 ∧ N < N / n * n + n := by
  have hn' : (n : K) ≠ 0 := by exact_mod_cast (by omega : n ≠ 0)
  refine ⟨?_, ?_⟩
  · rw [list_sum_getD, h.1, mul_sum, ← sum_blocks]
    refine sum_congr rfl fun i hi => ?_
    rw [h.2 i (mem_range.1 hi), mul_div_cancel₀ _ hn']
  · have h1 := Nat.div_add_mod N n
    have h2 := Nat.mod_lt N (by omega : 0 < n)
    have : n * (N / n) = N / n * n := Nat.mul_comm _ _
    omega

/-- **C28 (sign).** Non-negative (and, more generally, bounded) densities stay so. -/
theorem averaging_bounds {n : Nat} (hn : 1 ≤ n) {fine coarse : List K} {N : Nat} (hN : N ≤ fine.length)
    (h : BlockMeans n fine coarse N) {a b : K} (hab : ∀ v ∈ fine, a ≤ v ∧ v ≤ b) : ∀ v ∈ coarse, a ≤ v ∧ v ≤ b := by
  intro v hv
  obtain ⟨i, hi, rfl⟩ := List.getElem_of_mem hv
  have hi' : i < N / n := by rw [← h.1]; exact hi
  have hb := slice_bound hi'
  have hn' : (0 : K) < n := by exact_mod_cast (by omega : 0 < n)
  have := h.2 i hi'
  rw [List.getD_eq_getElem _ _ hi] at this
  rw [this, le_div_iff₀ hn', div_le_iff₀ hn']
  have hj : ∀ j ∈ range n, a ≤ fine.getD (i * n + j) 0 ∧ fine.getD (i * n + j) 0 ≤ b := by
    intro j hj
    have hj' := mem_range.1 hj
    have hlt : i * n + j < fine.length := by rw [Nat.add_mul, Nat.one_mul] at hb; omega
    rw [List.getD_eq_getElem _ _ hlt]
    exact hab _ (List.getElem_mem hlt)
  constructor
  · calc a * n = ∑ _j ∈ range n, a := by rw [sum_const, card_range, nsmul_eq_mul, mul_comm]
      _ ≤ _ := sum_le_sum fun j hj' => (hj j hj').1
  · calc _ ≤ ∑ _j ∈ range n, b := sum_le_sum fun j hj' => (hj j hj').2
      _ = b * n := by rw [sum_const, card_range, nsmul_eq_mul, mul_comm]

/-- **C28 (axis).** On a uniform axis the coarse axis is uniform with `n` times the spacing. -/
theorem averaging_axis_uniform {n : Nat} (hn : 1 ≤ n) {fine coarse : List K} {d : K} (hu : UniformAxis fine d)
    (h : BlockMeans n fine coarse fine.length) : UniformAxis coarse (n * d) := by
  have hn' : (0 : K) < n := by exact_mod_cast (by omega : 0 < n)
  refine ⟨mul_pos hn' hu.1, ?_⟩
  intro i hi
  rw [h.1] at hi
  rw [h.2 (i + 1) hi, h.2 i (by omega), div_add' _ _ _ hn'.ne']
  congr 1
  have hshift : ∀ m k, k + m < fine.length → fine.getD (k + m) 0 = fine.getD k 0 + m * d := by
    intro m k
    induction m with
    | zero => intro _; simp
    | succ m ih =>
      intro hk
      rw [← Nat.add_assoc, hu.2 (k + m) (by omega), ih (by omega)]
      push_cast; ring
  have hb := slice_bound hi
  have : ∀ j ∈ range n, fine.getD ((i + 1) * n + j) 0 = fine.getD (i * n + j) 0 + n * d := by
    intro j hj
    have hj' := mem_range.1 hj
    have e : (i + 1) * n + j = i * n + j + n := by rw [Nat.add_mul, Nat.one_mul]; omega
    rw [e]
    apply hshift
    rw [Nat.add_mul, Nat.add_mul, Nat.one_mul] at hb
    omega
  rw [sum_congr rfl this, sum_add_distrib, sum_const, card_range, nsmul_eq_mul]
  ring

/-- **C28 (identity).** `dfDesired = 0` leaves axis and spectrum unchanged. -/
theorem averaging_identity {f S : PyIn K} {fs Ss : List K} (hf : f.IsArr fs) (hS : S.IsArr Ss) (hl : fs.length = Ss.length)
    (hne : Ss ≠ []) : frequencyAveraging f S 0 = .ok (fs, Ss) := by
  unfold frequencyAveraging
  rw [vecIn_of_isArr hf, vecIn_of_isArr hS]
  show frequencyAveragingL fs Ss 0 = _
  rw [frequencyAveragingL_eq (n := 1) (by simp [nFactorOf]) one_pos hne hl.le]
  simp only [Nat.div_one, range_one, sum_singleton, Nat.mul_one, Nat.add_zero, Nat.cast_one, div_one]
  rw [← eq_map_range_getD fs 0, hl, ← eq_map_range_getD Ss 0]

/-- **C28 (axis with two equal frequencies).** If the first two frequencies are equal, a positive `dfDesired` gives the two empty arrays (the factor is
infinite), whatever the densities, and a negative one leaves axis and spectrum unchanged. -/
theorem averaging_equal_frequencies {f S : PyIn K} {f0 : K} {l Ss : List K} {df : K} (hf : f.IsArr (f0 :: f0 :: l)) (hS : S.IsArr Ss) (hne : Ss ≠ []) :
    (0 < df → frequencyAveraging f S df = .ok ([], [])) ∧
    (df < 0 → (f0 :: f0 :: l).length = Ss.length → frequencyAveraging f S df = .ok (f0 :: f0 :: l, Ss)) := by
  have e1 : frequencyAveraging f S df = frequencyAveragingL (f0 :: f0 :: l) Ss df := by
    unfold frequencyAveraging
    rw [vecIn_of_isArr hf, vecIn_of_isArr hS]
    rfl
  rw [e1]
  refine ⟨fun h => ?_, fun h hl => ?_⟩
  · have hn : nFactorOf (f0 :: f0 :: l) df = .ok ((f0 :: f0 :: l).length + 1) := by
      unfold nFactorOf
      rw [if_neg h.ne']
      simp only [sub_self, if_true]
      rw [if_pos h]
    unfold frequencyAveragingL
    rw [hn]
    simp only [bind, Except.bind]
    rw [if_neg hne, Nat.div_eq_of_lt (Nat.lt_succ_self _)]
    rfl
  · have hn : nFactorOf (f0 :: f0 :: l) df = .ok 1 := by
      unfold nFactorOf
      rw [if_neg h.ne]
      simp only [sub_self, if_true]
      rw [if_neg (not_lt.2 h.le)]
    rw [frequencyAveragingL_eq hn one_pos hne hl.le]
    simp only [Nat.div_one, range_one, sum_singleton, Nat.mul_one, Nat.add_zero, Nat.cast_one, div_one]
    rw [← eq_map_range_getD (f0 :: f0 :: l) 0, hl, ← eq_map_range_getD Ss 0]

/-- **C28 (axis running backwards).** If the first step is negative, a positive `dfDesired` leaves axis and spectrum unchanged. -/
theorem averaging_backwards {f S : PyIn K} {f0 f1 : K} {l Ss : List K} {df : K} (hf : f.IsArr (f0 :: f1 :: l)) (hS : S.IsArr Ss) (h : f1 < f0) (hdf : 0 ≤ df)
    (hl : (f0 :: f1 :: l).length = Ss.length) : frequencyAveraging f S df = .ok (f0 :: f1 :: l, Ss) := by
  have hne : Ss ≠ [] := by rintro rfl; simp at hl
  rcases hdf.eq_or_lt with rfl | hdf
  · exact averaging_identity hf hS hl hne
  have e1 : frequencyAveraging f S df = frequencyAveragingL (f0 :: f1 :: l) Ss df := by
    unfold frequencyAveraging
    rw [vecIn_of_isArr hf, vecIn_of_isArr hS]
    rfl
  have hn : nFactorOf (f0 :: f1 :: l) df = .ok 1 := by
    unfold nFactorOf
    rw [if_neg hdf.ne']
    simp only
    rw [if_neg (sub_neg.2 h).ne]
    have q : df / (f1 - f0) < 0 := div_neg_of_pos_of_neg hdf (sub_neg.2 h)
    have hr := (abs_le.1 (roundHalfEven_near (df / (f1 - f0)))).2
    have : (roundHalfEven (df / (f1 - f0)) : K) < 1 := by linarith
    have : roundHalfEven (df / (f1 - f0)) < 1 := by exact_mod_cast this
    rw [max_eq_right this.le]
    rfl
  rw [e1, frequencyAveragingL_eq hn one_pos hne hl.le]
  simp only [Nat.div_one, range_one, sum_singleton, Nat.mul_one, Nat.add_zero, Nat.cast_one, div_one]
  rw [← eq_map_range_getD (f0 :: f1 :: l) 0, hl, ← eq_map_range_getD Ss 0]

/-- **C28 (too short).** A frequency axis of fewer than two points, with `dfDesired ≠ 0`, and an empty spectrum, both raise `IndexError`. -/
theorem averaging_too_short {f S : PyIn K} {fs Ss : List K} {df : K} (hf : f.IsArr fs) (hS : S.IsArr Ss) (h : (fs.length < 2 ∧ df ≠ 0) ∨ Ss = []) :
    frequencyAveraging f S df = .error .indexError := by
  have e1 : frequencyAveraging f S df = frequencyAveragingL fs Ss df := by
    unfold frequencyAveraging
    rw [vecIn_of_isArr hf, vecIn_of_isArr hS]
    rfl
  rw [e1]
  unfold frequencyAveragingL
  cases hn : nFactorOf fs df with
  | error e =>
    unfold nFactorOf at hn
    by_cases h0 : df = 0
    · rw [if_pos h0] at hn; cases hn
    · rw [if_neg h0] at hn
      rcases fs with _ | ⟨a, _ | ⟨b, l⟩⟩
      · cases hn; rfl
      · cases hn; rfl
      · simp only at hn
        by_cases h1 : b - a = 0
        · rw [if_pos h1] at hn; cases hn
        · rw [if_neg h1] at hn; cases hn
  | ok n =>
    rcases h with ⟨h, hd⟩ | h
    · unfold nFactorOf at hn
      rw [if_neg hd] at hn
      rcases fs with _ | ⟨a, _ | ⟨b, l⟩⟩
      · cases hn
      · cases hn
      · simp at h
    · simp only [bind, Except.bind]
      rw [if_pos h]

end

example : frequencyAveraging (K := ℚ) (vec [1, 1, 2]) (vec [1, 3, 5]) 1 = .ok ([], []) ∧
    frequencyAveraging (K := ℚ) (vec [1, 1, 2]) (vec [1, 3, 5]) (-1) = .ok ([1, 1, 2], [1, 3, 5]) :=
  ⟨(averaging_equal_frequencies (isArr_vec _) (isArr_vec _) (by simp)).1 (by norm_num),
   (averaging_equal_frequencies (isArr_vec _) (isArr_vec _) (by simp)).2 (by norm_num) rfl⟩
example : frequencyAveraging (K := ℚ) (vec [2, 1, 0]) (vec [1, 3, 5]) 1 = .ok ([2, 1, 0], [1, 3, 5]) :=
  averaging_backwards (isArr_vec _) (isArr_vec _) (by norm_num) (by norm_num) rfl
example : frequencyAveraging (K := ℚ) (vec [2]) (vec [1]) 1 = .error .indexError :=
  averaging_too_short (isArr_vec _) (isArr_vec _) (Or.inl ⟨by simp, by norm_num⟩)

-- Non-vacuity: 5 bins averaged in pairs, the last one is left out (dfDesired = 1/5, df = 1/10).
example : frequencyAveraging (K := ℚ) (vec [0, 1/10, 2/10, 3/10, 4/10]) (vec [1, 3, 5, 7, 100]) (1/5) =
    .ok ([1/20, 1/4], [2, 6]) := by decide +kernel
example : nFactorOf (K := ℚ) [0, 1/10, 2/10, 3/10, 4/10] (1/5) = .ok 2 := by decide +kernel

/-! ## Concrete cases: the hypotheses of the theorems above are met -/

/-- Blocks of two bins. -/
example : BlockMeans 2 ([1, 3, 5, 7, 100] : List ℚ) [2, 6] 5 ∧ (2 : ℚ) * 8 = 1 + 3 + 5 + 7 ∧ ∀ v ∈ ([2, 6] : List ℚ), 1 ≤ v ∧ v ≤ 100 := by
  have h : BlockMeans 2 ([1, 3, 5, 7, 100] : List ℚ) [2, 6] 5 := ⟨rfl, by decide +kernel⟩
  refine ⟨h, ?_, averaging_bounds (by norm_num) (by simp) h (by decide +kernel)⟩
  have := (averaging_conserves_energy (by norm_num) h).1
  norm_num at this ⊢

example : UniformAxis ([1 / 20, 1 / 4] : List ℚ) ((2 : ℕ) * (1 / 10)) :=
  averaging_axis_uniform (by norm_num) (uniformAxis_of_steps (t := [0, 1/10, 2/10, 3/10, 4/10]) (by norm_num) (by decide +kernel))
    ⟨rfl, by decide +kernel⟩

example : ∃ n fc sc, IsFactor n (1 / 5) ((1 : ℚ) / 10) ∧
    frequencyAveraging (K := ℚ) (vec [0, 1/10, 2/10, 3/10, 4/10]) (vec [1, 3, 5, 7, 100]) (1/5) = .ok (fc, sc) ∧
    BlockMeans n [0, 1/10, 2/10, 3/10, 4/10] fc 5 ∧ BlockMeans n [1, 3, 5, 7, 100] sc 5 := by
  obtain ⟨n, fc, sc, h⟩ := averaging_block_means (K := ℚ) (df := 1 / 5) (isArr_vec [0, 1/10, 2/10, 3/10, 4/10])
    (isArr_vec [1, 3, 5, 7, 100]) rfl (by decide) (by decide +kernel)
  exact ⟨n, fc, sc, by simpa using h.1, h.2⟩

example : frequencyAveraging (K := ℚ) (vec [0, 1/10, 2/10]) (vec [1, 3, 5]) 0 = .ok ([0, 1/10, 2/10], [1, 3, 5]) :=
  averaging_identity (isArr_vec _) (isArr_vec _) rfl (by simp)

/-- The factor of the resolution 1/5 on steps of 1/10 is 2, and no other number is. -/
example : nFactorOf (K := ℚ) [0, 1/10, 2/10] (1 / 5) = .ok 2 ∧ ∀ m, IsFactor m (1 / 5) ((1 : ℚ) / 10 - 0) → m = 2 := by
  obtain ⟨n, a, b⟩ := averaging_factor (K := ℚ) (f0 := 0) (f1 := 1 / 10) (l := [2/10]) (df := 1 / 5) (by norm_num)
  have e : nFactorOf (K := ℚ) [0, 1/10, 2/10] (1 / 5) = .ok 2 := by decide +kernel
  rw [a] at e
  cases e
  exact ⟨a, fun m hm => isFactor_unique hm b⟩

end Verif
