import Verif.Model.IntInput
import Verif.Props.AveragingLaws
import Verif.Lemmas.MomentWeights

/-! # C125, C126: integer-typed densities and frequency axes -/

set_option linter.unusedSectionVars false

namespace Verif
open Finset

section
variable {K : Type} [Field K] [LinearOrder K] [IsStrictOrderedRing K] [FloorRing K]

/-! ## C125 -/

/-- Specification: `z` is `v` truncated toward zero. -/
def IsTrunc (z : Int) (v : K) : Prop :=
  (0 ≤ v → 0 ≤ z ∧ (z : K) ≤ v ∧ v < z + 1) ∧ (v ≤ 0 → z ≤ 0 ∧ v ≤ z ∧ (z : K) - 1 < v)

theorem truncInt_spec (v : K) : IsTrunc (truncInt v) v := by
  unfold truncInt
  refine ⟨fun h => ?_, fun h => ?_⟩
  · rw [if_pos h]
    exact ⟨Int.floor_nonneg.2 h, Int.floor_le v, Int.lt_floor_add_one v⟩
  · split_ifs with h0
    · obtain rfl : v = 0 := le_antisymm h h0
      simp
    · refine ⟨?_, Int.le_ceil v, ?_⟩
      · exact Int.ceil_le.2 (by simpa using h)
      · linarith [Int.ceil_lt_add_one v]

theorem isTrunc_unique {z w : Int} {v : K} (hz : IsTrunc z v) (hw : IsTrunc w v) : z = w := by
  rcases le_total 0 v with h | h
  · obtain ⟨_, h1, h2⟩ := hz.1 h
    obtain ⟨_, h3, h4⟩ := hw.1 h
    have a : z < w + 1 := by exact_mod_cast lt_of_le_of_lt h1 h4
    have b : w < z + 1 := by exact_mod_cast lt_of_le_of_lt h3 h2
    omega
  · obtain ⟨_, h1, h2⟩ := hz.2 h
    obtain ⟨_, h3, h4⟩ := hw.2 h
    have a : z - 1 < w := by exact_mod_cast lt_of_lt_of_le h2 h3
    have b : w - 1 < z := by exact_mod_cast lt_of_lt_of_le h4 h1
    omega

/-- The sum of the `n` densities of coarse bin `i`. -/
def blockSum (S : List Int) (n i : Nat) : Int := ∑ j ∈ range n, S.getD (i * n + j) 0

theorem mean_block_int {l : List Int} {n : Nat} (hn : 0 < n) {i N : Nat} (hN : N ≤ l.length) (hi : i < N / n) :
    meanE ((pySlice l (i * n) ((i + 1) * n)).map fun z : Int => (z : K)) = .ok ((blockSum l n i : K) / (n : K)) := by
  have e : (pySlice l (i * n) ((i + 1) * n)).map (fun z : Int => (z : K))
      = pySlice (l.map fun z : Int => (z : K)) (i * n) ((i + 1) * n) := by
    simp [pySlice]
  rw [e, mean_block hn (by simpa using hN) hi]
  congr 2
  unfold blockSum
  rw [Int.cast_sum]
  refine Finset.sum_congr rfl fun j hj => ?_
  have hb := slice_bound hi
  have hj := Finset.mem_range.1 hj
  have hlt : i * n + j < l.length := by
    have : (i + 1) * n = i * n + n := by ring
    omega
  rw [List.getD_eq_getElem _ _ (by simpa using hlt), List.getElem_map, List.getD_eq_getElem _ _ hlt]

/-- **C125.** `frequency_averaging` with integer densities never fails on a spectrum with `f[0] < f[1]`; the frequencies are
those of the float call, and every density is the mean of its block *truncated toward zero*. -/
theorem int_averaging {f : PyIn K} {S : PyIn Int} {fs : List K} {Ss : List Int} {df : K} (hf : f.IsArr fs) (hS : S.IsArr Ss)
    (hl : fs.length = Ss.length) (h2 : 2 ≤ fs.length) (hd : fs.getD 0 0 < fs.getD 1 0) :
    ∃ n fc sc, IsFactor n df (fs.getD 1 0 - fs.getD 0 0) ∧ frequencyAveragingInt f S df = .ok (fc, sc) ∧
      BlockMeans n fs fc fs.length ∧ sc.length = fs.length / n ∧
      ∀ i, i < fs.length / n → IsTrunc (sc.getD i 0) ((blockSum Ss n i : K) / (n : K)) := by
  obtain ⟨f0, f1, l, rfl⟩ : ∃ f0 f1 l, fs = f0 :: f1 :: l := by
    rcases fs with _ | ⟨a, _ | ⟨b, l⟩⟩
    · simp at h2
    · simp at h2
    · exact ⟨_, _, _, rfl⟩
  simp only [List.getD_cons_succ, List.getD_cons_zero] at hd ⊢
  obtain ⟨n, hn, hspec⟩ := averaging_factor (l := l) (df := df) (sub_pos.2 hd)
  have hne : Ss ≠ [] := by rintro rfl; simp at hl
  have hpos := nFactorOf_pos hn
  have e1 : frequencyAveragingInt f S df = frequencyAveragingIntL (f0 :: f1 :: l) Ss df := by
    unfold frequencyAveragingInt
    rw [vecIn_of_isArr hf, vecIn_of_isArr hS]
    rfl
  set fs := f0 :: f1 :: l with hfs
  have h1 := mapM_ok_of (l := List.range (fs.length / n)) (f := fun i => meanE (pySlice fs (i * n) ((i + 1) * n)))
    (g := fun i => (∑ j ∈ range n, fs.getD (i * n + j) 0) / (n : K))
    (fun i hi => mean_block hpos le_rfl (List.mem_range.1 hi))
  have h3 := mapM_ok_of (l := List.range (fs.length / n))
    (f := fun i => match meanE ((pySlice Ss (i * n) ((i + 1) * n)).map fun z : Int => (z : K)) with
      | .ok v => .ok (truncInt v)
      | .error _ => .error (.valueError "cannot convert float NaN to integer"))
    (g := fun i => truncInt ((blockSum Ss n i : K) / (n : K)))
    (fun i hi => by simp only [mean_block_int (K := K) hpos hl.le (List.mem_range.1 hi)])
  have key : frequencyAveragingIntL fs Ss df = .ok
      ((List.range (fs.length / n)).map fun i => (∑ j ∈ range n, fs.getD (i * n + j) 0) / (n : K),
       (List.range (fs.length / n)).map fun i => truncInt ((blockSum Ss n i : K) / (n : K))) := by
    unfold frequencyAveragingIntL
    rw [hn]
    simp only [bind, Except.bind]
    rw [if_neg hne]
    erw [h1, h3]
    rfl
  refine ⟨n, _, _, hspec, e1.trans key, ⟨by simp, fun i hi => by rw [getD_map_range _ _ _ _ hi]⟩, by simp, fun i hi => ?_⟩
  rw [getD_map_range _ _ _ _ hi]
  exact truncInt_spec _

/-- **C125 (lost energy).** For non-negative integer densities each returned density is at most the block mean, by less than
one unit, and equals it exactly if and only if the number of fine bins divides the block sum.  A block whose sum is smaller
than the number of its bins is returned as zero. -/
theorem int_averaging_loss {f : PyIn K} {S : PyIn Int} {fs : List K} {Ss : List Int} {df : K} (hf : f.IsArr fs)
    (hS : S.IsArr Ss) (hl : fs.length = Ss.length) (h2 : 2 ≤ fs.length) (hd : fs.getD 0 0 < fs.getD 1 0)
    (hpos : ∀ z ∈ Ss, 0 ≤ z) {fc : List K} {sc : List Int} (h : frequencyAveragingInt f S df = .ok (fc, sc)) {n : Nat}
    (hn : IsFactor n df (fs.getD 1 0 - fs.getD 0 0)) {i : Nat} (hi : i < fs.length / n) :
    0 ≤ sc.getD i 0 ∧ ((sc.getD i 0 : K) ≤ (blockSum Ss n i : K) / (n : K)) ∧
      ((blockSum Ss n i : K) / (n : K) < sc.getD i 0 + 1) ∧
      ((sc.getD i 0 : K) = (blockSum Ss n i : K) / (n : K) ↔ (n : Int) ∣ blockSum Ss n i) ∧
      (blockSum Ss n i < n → sc.getD i 0 = 0) := by
  obtain ⟨n', fc', sc', hn', h', _, _, ht⟩ := int_averaging (df := df) hf hS hl h2 hd
  obtain rfl := isFactor_unique hn hn'
  rw [h] at h'
  obtain ⟨rfl, rfl⟩ : fc = fc' ∧ sc = sc' := by simpa using h'
  have hn1 : (0 : K) < (n : K) := by exact_mod_cast hn.1
  have hb : 0 ≤ blockSum Ss n i := by
    refine Finset.sum_nonneg fun j _ => ?_
    by_cases hj : i * n + j < Ss.length
    · rw [List.getD_eq_getElem _ _ hj]; exact hpos _ (List.getElem_mem hj)
    · rw [List.getD_eq_default _ _ (by omega)]
  have hv : (0 : K) ≤ (blockSum Ss n i : K) / (n : K) := div_nonneg (by exact_mod_cast hb) hn1.le
  obtain ⟨a, b, c⟩ := (ht i hi).1 hv
  refine ⟨a, b, c, ⟨fun e => ?_, fun ⟨q, hq⟩ => ?_⟩, fun hlt => ?_⟩
  · rw [eq_div_iff hn1.ne'] at e
    refine ⟨sc.getD i 0, ?_⟩
    have : (sc.getD i 0) * (n : Int) = blockSum Ss n i := by exact_mod_cast e
    rw [← this]; ring
  · have e : (blockSum Ss n i : K) / (n : K) = (q : K) := by
      rw [hq]; push_cast; field_simp
    rw [e] at b c ⊢
    have b' : sc.getD i 0 ≤ q := by exact_mod_cast b
    have c' : q < sc.getD i 0 + 1 := by exact_mod_cast c
    have : sc.getD i 0 = q := by omega
    rw [this]
  · have : (blockSum Ss n i : K) / (n : K) < 1 := by
      rw [div_lt_one hn1]; exact_mod_cast hlt
    have : (sc.getD i 0 : K) < 1 := lt_of_le_of_lt b this
    have : sc.getD i 0 < 1 := by exact_mod_cast this
    omega

/-- **C125 (without averaging).** With `dfDesired = 0` the integer densities are returned unchanged. -/
theorem int_averaging_identity {f : PyIn K} {S : PyIn Int} {fs : List K} {Ss : List Int} (hf : f.IsArr fs)
    (hS : S.IsArr Ss) (hl : fs.length = Ss.length) (h2 : 2 ≤ fs.length) (hd : fs.getD 0 0 < fs.getD 1 0) :
    frequencyAveragingInt f S 0 = .ok (fs, Ss) := by
  obtain ⟨n, fc, sc, hn, h, hb, hlen, ht⟩ := int_averaging (df := 0) hf hS hl h2 hd
  obtain rfl : n = 1 := hn.2.1 rfl
  rw [h]
  have e1 : fc = fs := by
    apply List.ext_getElem
    · rw [hb.1]; simp
    · intro i h3 h4
      have := hb.2 i (by simpa using h4)
      rw [List.getD_eq_getElem _ _ h3] at this
      rw [this]
      simp [h4]
  have e2 : sc = Ss := by
    apply List.ext_getElem
    · rw [hlen, hl]; simp
    · intro i h3 h4
      have hi : i < fs.length / 1 := by rw [Nat.div_one, hl]; exact h4
      have h5 := ht i hi
      have e : ((blockSum Ss 1 i : Int) : K) / ((1 : Nat) : K) = ((Ss[i] : Int) : K) := by
        simp [blockSum, h4]
      rw [e, List.getD_eq_getElem _ _ h3] at h5
      refine isTrunc_unique h5 ⟨fun h => ?_, fun h => ?_⟩
      · exact ⟨by exact_mod_cast h, le_rfl, by linarith⟩
      · exact ⟨by exact_mod_cast h, le_rfl, by linarith⟩
  rw [e1, e2]

end

/-- A concrete case: averaging the integer densities 1, 0, 1, 0, 3, 0 in pairs gives 0, 0, 1, while the same values as floats
give 1/2, 1/2, 3/2: the first two bins have lost all their energy. -/
example : frequencyAveragingInt (vec [(0 : ℚ), 1, 2, 3, 4, 5]) (vec [(1 : Int), 0, 1, 0, 3, 0]) 2 = .ok ([1 / 2, 5 / 2, 9 / 2], [0, 0, 1]) ∧
    frequencyAveraging (vec [(0 : ℚ), 1, 2, 3, 4, 5]) (vec [(1 : ℚ), 0, 1, 0, 3, 0]) 2 = .ok ([1 / 2, 5 / 2, 9 / 2], [1 / 2, 1 / 2, 3 / 2]) ∧
    (∀ z ∈ [(1 : Int), 0, 1, 0, 3, 0], 0 ≤ z) := by
  refine ⟨?_, ?_, ?_⟩ <;> decide +kernel

/-! ## C126 -/

section
variable {K : Type} [Field K] [LinearOrder K] [IsStrictOrderedRing K]

theorem axis_left_nonempty {fs : List Int} (h : 2 ≤ fs.length) (c : Bool) :
    ((if c = true then fs.drop 1 else fs).map fun z : Int => (z : K)) ≠ [] := by
  intro e
  have := congrArg List.length e
  rw [List.length_map, List.length_nil] at this
  cases c
  · rw [if_neg (by simp)] at this; omega
  · rw [if_pos rfl, List.length_drop] at this; omega

/-- **C126 (same result).** For orders `m ≥ 0` and an upper limit within the axis (or default limits), `compute_moment` with
an integer frequency axis gives exactly what it gives with the same frequencies as floats, errors included. -/
theorem int_moment_same {f : PyIn Int} {g S : PyIn K} {fs : List Int} (hf : f.IsArr fs) (hg : g.IsArr (fs.map fun z : Int => (z : K)))
    {m : Int} (hm : 0 ≤ m) {fmin : K} {fmax : FMax K}
    (hb : fmin = -1 ∨ fmax = .fin (-1) ∨ ∃ F : K, fmax = .fin F ∧ F ≤ ((fs.getD (fs.length - 1) 0 : Int) : K)) :
    computeMomentInt f S m fmin fmax = computeMoment g S m fmin fmax := by
  unfold computeMomentInt computeMoment
  rw [vecIn_of_isArr hf, vecIn_of_isArr hg]
  simp only [bind, Except.bind]
  cases vecIn "compute_moment" S with
  | error e => rfl
  | ok Ss =>
    simp only []
    cases hmono : monotonicIncreasingConstantStep (fs.map fun z : Int => (z : K)) with
    | error e => rfl
    | ok b =>
      simp only [List.length_map]
      split_ifs with h1 h2
      · rfl
      · rfl
      · have hneg : ¬ m < 0 := by omega
        have hlen : 2 ≤ fs.length := by
          have : b = true := by simpa using h1
          rw [this] at hmono
          simpa using mono_two_le hmono
        have e0 : getE (fs.map fun z : Int => (z : K)) 0 = .ok ((fs.getD 0 0 : Int) : K) := by
          rw [getE_ok, List.getElem?_map, List.getD_eq_getElem _ _ (by omega), List.getElem?_eq_getElem (by omega)]
          rfl
        have e1 : getE fs 0 = .ok (fs.getD 0 0) := by
          rw [getE_ok, List.getD_eq_getElem _ _ (by omega)]; exact List.getElem?_eq_getElem (by omega)
        have e2 : lastE (fs.map fun z : Int => (z : K)) = .ok ((fs.getD (fs.length - 1) 0 : Int) : K) := by
          have := lastE_drop (f := fs.map fun z : Int => (z : K)) (d := 0) (by simp; omega)
          simp only [List.drop_zero, List.length_map] at this
          rw [this, List.getD_eq_getElem _ _ (by simp; omega), List.getElem_map, List.getD_eq_getElem _ _ (by omega)]
        unfold computeMomentIntL computeMomentL
        rw [e0, e1]
        simp only [bind, Except.bind, hneg, false_and, decide_false, Bool.false_eq_true, if_false]
        rw [e2]
        simp only []
        by_cases h3 : fmin = -1 ∨ fmax = .fin (-1)
        · rw [if_pos h3, if_pos h3]
        · rw [if_neg h3, if_neg h3]
          obtain ⟨F, rfl, hF⟩ : ∃ F : K, fmax = .fin F ∧ F ≤ ((fs.getD (fs.length - 1) 0 : Int) : K) := by
            rcases hb with h | h | h
            · exact absurd (Or.inl h) h3
            · exact absurd (Or.inr h) h3
            · exact h
          simp only []
          rw [if_pos hF, if_pos hF]

/-- **C126 (refused).** With a negative order, or an upper limit beyond the last frequency, an integer frequency axis raises
an exception: no value is returned. -/
theorem int_moment_refused {f : PyIn Int} {S : PyIn K} {fs : List Int} (hf : f.IsArr fs)
    {m : Int} {fmin : K} {fmax : FMax K}
    (hb : m < 0 ∨ (fmin ≠ -1 ∧ fmax ≠ .fin (-1) ∧ ∀ F : K, fmax = .fin F → ((fs.getD (fs.length - 1) 0 : Int) : K) < F)) (v : K) :
    computeMomentInt f S m fmin fmax ≠ .ok v := by
  unfold computeMomentInt
  rw [vecIn_of_isArr hf]
  simp only [bind, Except.bind]
  cases vecIn "compute_moment" S with
  | error e => simp
  | ok Ss =>
    simp only []
    cases hmono : monotonicIncreasingConstantStep (fs.map fun z : Int => (z : K)) with
    | error e => simp
    | ok b =>
      simp only []
      split_ifs with h1 h2
      · simp
      · simp
      · have hlen : 2 ≤ fs.length := by
          have : b = true := by simpa using h1
          rw [this] at hmono
          simpa using mono_two_le hmono
        have e1 : getE fs 0 = .ok (fs.getD 0 0) := by
          rw [getE_ok, List.getD_eq_getElem _ _ (by omega)]; exact List.getElem?_eq_getElem (by omega)
        unfold computeMomentIntL
        rw [e1]
        simp only [bind, Except.bind]
        by_cases hneg : m < 0
        · rw [if_pos ⟨hneg, axis_left_nonempty hlen _⟩]
          simp
        · obtain ⟨h3, h4, h5⟩ := hb.resolve_left hneg
          simp only [hneg, false_and, decide_false, Bool.false_eq_true, if_false]
          have e2 : lastE (fs.map fun z : Int => (z : K)) = .ok ((fs.getD (fs.length - 1) 0 : Int) : K) := by
            have := lastE_drop (f := fs.map fun z : Int => (z : K)) (d := 0) (by simp; omega)
            simp only [List.drop_zero, List.length_map] at this
            rw [this, List.getD_eq_getElem _ _ (by simp; omega), List.getElem_map, List.getD_eq_getElem _ _ (by omega)]
          rw [if_neg (by tauto), e2]
          simp only []
          cases fmax with
          | inf => simp only []; cases momentBetween m (fs.map fun z : Int => (z : K)) Ss fmin ((fs.getD (fs.length - 1) 0 : Int) : K) <;> simp
          | fin F =>
            simp only []
            rw [if_neg (not_le.2 (h5 F rfl))]
            cases momentBetween m (fs.map fun z : Int => (z : K)) Ss fmin ((fs.getD (fs.length - 1) 0 : Int) : K) <;> simp

/-- **C126 (never a wrong value).** Whatever the integer axis, the densities, the order and the limits: a moment that is
returned is the moment of the same data as floats. -/
theorem int_moment_never_wrong {f : PyIn Int} {g S : PyIn K} {fs : List Int} (hf : f.IsArr fs)
    (hg : g.IsArr (fs.map fun z : Int => (z : K))) {m : Int} {fmin : K} {fmax : FMax K} {v : K}
    (h : computeMomentInt f S m fmin fmax = .ok v) : computeMoment g S m fmin fmax = .ok v := by
  by_cases hm : 0 ≤ m
  · by_cases hb : fmin = -1 ∨ fmax = .fin (-1) ∨ ∃ F : K, fmax = .fin F ∧ F ≤ ((fs.getD (fs.length - 1) 0 : Int) : K)
    · rw [← int_moment_same hf hg hm hb]; exact h
    · refine absurd h (int_moment_refused hf (Or.inr ⟨fun e => hb (Or.inl e), fun e => hb (Or.inr (Or.inl e)), ?_⟩) v)
      intro F hF
      by_contra hle
      exact hb (Or.inr (Or.inr ⟨F, hF, not_lt.1 hle⟩))
  · exact absurd h (int_moment_refused hf (Or.inl (by omega)) v)

/-- The message: on an accepted axis a negative order raises numpy's `ValueError`. -/
theorem int_moment_negative {f : PyIn Int} {S : PyIn K} {fs : List Int} {Ss : List K} (hf : f.IsArr fs) (hS : S.IsArr Ss)
    (hl : fs.length = Ss.length) (ha : monotonicIncreasingConstantStep (fs.map fun z : Int => (z : K)) = .ok true)
    {m : Int} (hm : m < 0) (fmin : K) (fmax : FMax K) :
    computeMomentInt f S m fmin fmax = .error (.valueError "Integers to negative integer powers are not allowed.") := by
  have hlen : 2 ≤ fs.length := by simpa using mono_two_le ha
  have e1 : getE fs 0 = .ok (fs.getD 0 0) := by
    rw [getE_ok, List.getD_eq_getElem _ _ (by omega)]; exact List.getElem?_eq_getElem (by omega)
  unfold computeMomentInt
  rw [vecIn_of_isArr hf, vecIn_of_isArr hS]
  simp only [bind, Except.bind, ha]
  rw [if_neg (by simp), if_neg (by simpa using hl)]
  unfold computeMomentIntL
  rw [e1]
  simp only [bind, Except.bind]
  rw [if_pos ⟨hm, axis_left_nonempty hlen _⟩]
  rfl

end

/-- A concrete axis: 0, 1, 2, 3, 4 Hz as integers.  The zeroth moment is returned, the order -1 is refused. -/
example : computeMomentInt (vec [(0 : Int), 1, 2, 3, 4]) (vec [(0 : ℚ), 1, 3, 1, 0]) 0 (-1) (.fin (-1)) = .ok (14 / 3) ∧
    computeMomentInt (vec [(0 : Int), 1, 2, 3, 4]) (vec [(0 : ℚ), 1, 3, 1, 0]) (-1) (-1) (.fin (-1)) = .error negPowError ∧
    monotonicIncreasingConstantStep ([(0 : Int), 1, 2, 3, 4].map fun z : Int => (z : ℚ)) = .ok true := by
  refine ⟨?_, ?_, ?_⟩ <;> decide +kernel

theorem computeMoment_zero_density {K : Type} [Field K] [LinearOrder K] [IsStrictOrderedRing K] {pf pS : PyIn K} {f S : List K}
    {m : Int} {fmin : K} {fmax : FMax K} {v : K} (hf : pf.IsArr f) (hS : pS.IsArr S)
    (h : computeMoment pf pS m fmin fmax = .ok v) (hz : ∀ s ∈ S, s = 0) : v = 0 := by
  obtain ⟨hm, hl⟩ := computeMoment_ok_pre hf hS h
  obtain ⟨i, j, tail, hr, _, _, _⟩ := computeMoment_structure hm m fmin fmax
  have h0 : ∀ k, S.getD k 0 = 0 := by
    intro k
    by_cases hk : k < S.length
    · rw [List.getD_eq_getElem _ _ hk]; exact hz _ (List.getElem_mem hk)
    · rw [List.getD_eq_default _ _ (by omega)]
  rcases computeMoment_form hm m fmin fmax hr with ⟨e, he⟩ | ⟨_, _, _, w, c, _, _, _, hv⟩
  · rw [he hf hS hl] at h; cases h
  · rw [hv hf hS hl] at h
    simp only [h0, mul_zero, Finset.sum_const_zero, add_zero, Except.ok.injEq] at h
    exact h.symm

/-- **C126 (JONSWAP).** `create_spectrum_jonswap` never returns a spectrum for an integer frequency axis: it raises, or (no
positive frequency) scales by an infinite factor. -/
theorem int_jonswap_refused (f : PyIn Int) {fs : List Int} (hf : f.IsArr fs) (fp hm0 gammaPeak lFmax : ℝ) (S : List ℝ) :
    createSpectrumJonswapInt f fp hm0 gammaPeak lFmax ≠ .ok S := by
  unfold createSpectrumJonswapInt
  rw [vecIn_of_isArr hf]
  simp only []
  split_ifs with h1 h2 h3
  · simp
  · simp
  all_goals
    intro h
    cases hS : fs.mapM jonswapShapeInt with
    | error e => rw [hS] at h; simp at h
    | ok S0 =>
      rw [hS] at h
      simp only [] at h
      have hz : ∀ v ∈ S0, v = 0 := by
        clear h h1 hf
        induction fs generalizing S0 with
        | nil => intro v hv; simp [pure, Except.pure] at hS; subst hS; simp at hv
        | cons a l ih =>
          rw [List.mapM_cons] at hS
          simp only [bind, Except.bind] at hS
          unfold jonswapShapeInt at hS
          split_ifs at hS with hp
          simp only [] at hS
          cases hl : l.mapM jonswapShapeInt with
          | error e => unfold jonswapShapeInt at hl; rw [hl] at hS; simp at hS
          | ok S1 =>
            have ih' := ih S1 hl
            unfold jonswapShapeInt at hl
            rw [hl] at hS
            simp [pure, Except.pure] at hS
            subst hS
            intro v hv
            rcases List.mem_cons.1 hv with rfl | hv
            · rfl
            · exact ih' v hv
      split at h
      · simp at h
      · rename_i m0 hm
        split_ifs at h with h5
        have h6 := int_moment_never_wrong hf (isArr_vec _) hm
        have h7 := computeMoment_zero_density (isArr_vec _) (isArr_vec _) h6 hz
        exact h5 h7.le

/-! ## Concrete cases: the hypotheses of the theorems above are met -/

example : ∃ n fc sc, IsFactor n (2 : ℚ) (1 - 0) ∧
    frequencyAveragingInt (vec [(0 : ℚ), 1, 2, 3, 4, 5]) (vec [(1 : Int), 0, 1, 0, 3, 0]) 2 = .ok (fc, sc) ∧ sc.length = 6 / n := by
  obtain ⟨n, fc, sc, a, b, -, c, -⟩ := int_averaging (K := ℚ) (df := 2) (isArr_vec [0, 1, 2, 3, 4, 5]) (isArr_vec [(1 : Int), 0, 1, 0, 3, 0]) rfl (by simp) (by norm_num)
  exact ⟨n, fc, sc, a, b, c⟩

example : blockSum [(1 : Int), 0, 1, 0, 3, 0] 2 0 < 2 → (0 : ℚ) = (([0, 0, 1] : List Int).getD 0 0 : ℚ) := by
  intro h
  obtain ⟨n, fc, sc, a, b, -⟩ := int_averaging (K := ℚ) (df := 2) (isArr_vec [0, 1, 2, 3, 4, 5]) (isArr_vec [(1 : Int), 0, 1, 0, 3, 0]) rfl (by simp) (by norm_num)
  have hb : frequencyAveragingInt (vec [(0 : ℚ), 1, 2, 3, 4, 5]) (vec [(1 : Int), 0, 1, 0, 3, 0]) 2 = .ok ([1 / 2, 5 / 2, 9 / 2], [0, 0, 1]) := by decide +kernel
  have hn : IsFactor 2 (2 : ℚ) (([0, 1, 2, 3, 4, 5] : List ℚ).getD 1 0 - ([0, 1, 2, 3, 4, 5] : List ℚ).getD 0 0) := by
    have hf : n = 2 := by
      rw [hb] at b
      have hs : sc = [0, 0, 1] := by simp only [Except.ok.injEq, Prod.mk.injEq] at b; exact b.2.symm
      obtain ⟨n', fc', sc', a', b', -, c', -⟩ := int_averaging (K := ℚ) (df := 2) (isArr_vec [0, 1, 2, 3, 4, 5]) (isArr_vec [(1 : Int), 0, 1, 0, 3, 0]) rfl (by simp) (by norm_num)
      have : n' = n := isFactor_unique a' a
      subst this
      rw [hb] at b'
      have hs' : sc' = [0, 0, 1] := by simp only [Except.ok.injEq, Prod.mk.injEq] at b'; exact b'.2.symm
      rw [hs'] at c'
      have c'' : 3 = 6 / n' := c'
      by_contra hne
      rcases Nat.lt_or_ge n' 2 with h1 | h1
      · interval_cases n' <;> simp at c''
      · have : 6 / n' ≤ 6 / 3 := Nat.div_le_div_left (by omega) (by omega)
        omega
    rw [← hf]; exact a
  have := int_averaging_loss (K := ℚ) (isArr_vec [0, 1, 2, 3, 4, 5]) (isArr_vec [(1 : Int), 0, 1, 0, 3, 0]) rfl (by simp) (by norm_num)
    (by decide) hb hn (i := 0) (by simp)
  have h2 := this.2.2.2.2 h
  rw [h2]; simp

example : frequencyAveragingInt (vec [(0 : ℚ), 1, 2]) (vec [(1 : Int), 0, 1]) 0 = .ok ([0, 1, 2], [1, 0, 1]) :=
  int_averaging_identity (isArr_vec _) (isArr_vec _) rfl (by simp) (by norm_num)

example : computeMomentInt (vec [(0 : Int), 1, 2, 3, 4]) (vec [(0 : ℚ), 1, 3, 1, 0]) 2 1 (.fin 3) =
    computeMoment (vec [(0 : ℚ), 1, 2, 3, 4]) (vec [0, 1, 3, 1, 0]) 2 1 (.fin 3) :=
  int_moment_same (fs := [0, 1, 2, 3, 4]) (isArr_vec _) (by have := isArr_vec [(0 : ℚ), 1, 2, 3, 4]; simpa using this) (by norm_num)
    (.inr (.inr ⟨3, rfl, by norm_num⟩))

example (v : ℚ) : computeMomentInt (vec [(0 : Int), 1, 2, 3, 4]) (vec [(0 : ℚ), 1, 3, 1, 0]) 0 1 (.fin 9) ≠ .ok v :=
  int_moment_refused (fs := [0, 1, 2, 3, 4]) (isArr_vec _) (.inr ⟨by norm_num, by simp; norm_num, fun F hF => by
    obtain rfl : 9 = F := by simpa using hF
    norm_num⟩) v

example : computeMoment (vec [(0 : ℚ), 1, 2, 3, 4]) (vec [0, 1, 3, 1, 0]) 0 (-1) (.fin (-1)) = .ok (14 / 3) :=
  int_moment_never_wrong (f := vec [(0 : Int), 1, 2, 3, 4]) (fs := [0, 1, 2, 3, 4]) (isArr_vec _)
    (by have := isArr_vec [(0 : ℚ), 1, 2, 3, 4]; simpa using this) (by decide +kernel)

example (fmin : ℚ) (fmax : FMax ℚ) : computeMomentInt (vec [(0 : Int), 1, 2, 3, 4]) (vec [(0 : ℚ), 1, 3, 1, 0]) (-1) fmin fmax =
    .error (.valueError "Integers to negative integer powers are not allowed.") :=
  int_moment_negative (K := ℚ) (fs := [0, 1, 2, 3, 4]) (isArr_vec _) (isArr_vec [(0 : ℚ), 1, 3, 1, 0]) rfl (by decide +kernel) (by norm_num) fmin fmax

example (S : List ℝ) : createSpectrumJonswapInt (vec [(0 : Int), 1, 2]) 1 2 (33 / 10) 0 ≠ .ok S :=
  int_jonswap_refused _ (isArr_vec [(0 : Int), 1, 2]) 1 2 (33 / 10) 0 S

end Verif
