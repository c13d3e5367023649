import Verif.Props.WelchSea

/-! # C159: the Welch spectrum of a sea of regular waves through the other windows of scipy -/

set_option linter.unusedSectionVars false

namespace Verif
open Finset

/-! ## The windows -/

/-- The Hann window is a sum of cosines. -/
theorem hann_general (N : Nat) : hann N = generalCosine [1 / 2, 1 / 2] N := by
  unfold hann generalCosine
  split_ifs
  · rfl
  · refine List.map_congr_left fun j _ => ?_
    have : Real.cos (1 * (-Real.pi + 2 * Real.pi * j / N)) = -Real.cos (2 * Real.pi * j / N) := by
      rw [one_mul, neg_add_eq_sub, Real.cos_sub_pi]
    simp only [List.length_cons, List.length_nil, List.range_succ_eq_map, List.range_zero, List.map_cons, List.map_nil, List.sum_cons, List.sum_nil,
      List.getD_cons_zero, List.getD_cons_succ, Nat.cast_zero, zero_mul, Real.cos_zero, Nat.cast_succ, zero_add, this]
    ring

theorem generalCosine_getD {a : List ℝ} {N j : Nat} (hN : 2 ≤ N) (hj : j < N) :
    (generalCosine a N).getD j 0 = ∑ m ∈ range a.length, (-1) ^ m * a.getD m 0 * Real.cos (m * (2 * Real.pi * j / N)) := by
  unfold generalCosine
  rw [if_neg (by omega), getD_map_range (fun (j : Nat) =>
    ((List.range a.length).map fun (k : Nat) => a.getD k 0 * Real.cos (k * (-Real.pi + 2 * Real.pi * j / N))).sum) _ j 0 hj, list_sum_map_range]
  refine sum_congr rfl fun m _ => ?_
  rw [show (m : ℝ) * (-Real.pi + 2 * Real.pi * j / N) = m * (2 * Real.pi * j / N) - m * Real.pi by ring, Real.cos_sub_nat_mul_pi]
  ring

/-- Sum of a cosine over a whole number of periods. -/
theorem cos_sum {N r : Nat} (hr : 0 < r) (hN : 2 * r < N) : ∑ j ∈ range N, Real.cos (r * (2 * Real.pi * j / N)) = 0 := by
  have hm := mixture_mean (N := N) 0 (cs := [⟨r, 1, 0⟩]) (by
    intro q hq
    simp only [List.mem_cons, List.not_mem_nil, or_false] at hq
    subst hq
    exact ⟨hr, hN⟩) (by omega)
  unfold mean at hm
  rw [mixture_length, div_eq_zero_iff] at hm
  have hN' : (N : ℝ) ≠ 0 := by exact_mod_cast (by omega : N ≠ 0)
  have hm := hm.resolve_right hN'
  unfold mixture at hm
  rw [list_sum_map_range] at hm
  rw [← hm]
  refine sum_congr rfl fun j _ => ?_
  simp only [List.map_cons, List.map_nil, List.sum_cons, List.sum_nil, add_zero, zero_add, one_mul]
  congr 1
  ring

theorem cos_orth {N m l : Nat} (hN : 2 * (m + l) < N) :
    ∑ j ∈ range N, Real.cos (m * (2 * Real.pi * j / N)) * Real.cos (l * (2 * Real.pi * j / N)) =
      if m = l then (if m = 0 then (N : ℝ) else N / 2) else 0 := by
  have e : ∀ j ∈ range N, Real.cos (m * (2 * Real.pi * j / N)) * Real.cos (l * (2 * Real.pi * j / N)) =
      1 / 2 * Real.cos ((m + l : ℕ) * (2 * Real.pi * j / N)) + 1 / 2 * Real.cos (((if l ≤ m then m - l else l - m) : ℕ) * (2 * Real.pi * j / N)) := by
    intro j _
    set η := 2 * Real.pi * (j : ℝ) / N
    have c1 : Real.cos ((m + l : ℕ) * η) = Real.cos (m * η) * Real.cos (l * η) - Real.sin (m * η) * Real.sin (l * η) := by
      rw [← Real.cos_add]; congr 1; push_cast; ring
    have c2 : Real.cos (((if l ≤ m then m - l else l - m) : ℕ) * η) = Real.cos (m * η) * Real.cos (l * η) + Real.sin (m * η) * Real.sin (l * η) := by
      rw [← Real.cos_sub]
      split_ifs with h
      · rw [Nat.cast_sub h]; congr 1; ring
      · rw [Nat.cast_sub (by omega), ← Real.cos_neg]; congr 1; ring
    rw [c1, c2]; ring
  rw [sum_congr rfl e, sum_add_distrib, ← mul_sum, ← mul_sum]
  have one : ∀ r : Nat, 2 * r < N → ∑ j ∈ range N, Real.cos (r * (2 * Real.pi * j / N)) = if r = 0 then (N : ℝ) else 0 := by
    intro r hr
    split_ifs with h0
    · subst h0; simp
    · exact cos_sum (by omega) hr
  rw [one _ hN, one _ (by split_ifs <;> omega)]
  by_cases hml : m = l
  · subst hml
    rw [if_pos rfl, if_pos le_rfl, Nat.sub_self, if_pos rfl]
    by_cases h0 : m = 0
    · rw [if_pos h0, if_pos (by omega)]; ring
    · rw [if_neg h0, if_neg (by omega)]; ring
  · rw [if_neg hml, if_neg (by omega), if_neg (by split_ifs <;> omega)]; ring

/-- The share of the energy of a wave that a window with coefficients `a` puts `d` bins away from the bin of the wave (times `windowPower`). -/
noncomputable def lineShare (a : List ℝ) (d : Nat) : ℝ := if d = 0 then a.getD 0 0 ^ 2 else a.getD d 0 ^ 2 / 4

/-- The mean square of the window. -/
noncomputable def windowPower (a : List ℝ) : ℝ := lineShare a 0 + ∑ m ∈ range (a.length - 1), 2 * lineShare a (m + 1)

theorem window_energy {a : List ℝ} {N : Nat} (hN : 4 * a.length < N + 4) (ha : 1 ≤ a.length) (hN2 : 2 ≤ N) :
    ∑ j ∈ range N, (generalCosine a N).getD j 0 ^ 2 = N * windowPower a := by
  have e : ∀ j ∈ range N, (generalCosine a N).getD j 0 ^ 2 = ∑ m ∈ range a.length, ∑ l ∈ range a.length,
      ((-1) ^ m * a.getD m 0) * ((-1) ^ l * a.getD l 0) * (Real.cos (m * (2 * Real.pi * j / N)) * Real.cos (l * (2 * Real.pi * j / N))) := by
    intro j hj
    rw [generalCosine_getD hN2 (mem_range.1 hj), sq, sum_mul_sum]
    exact sum_congr rfl fun m _ => sum_congr rfl fun l _ => by ring
  rw [sum_congr rfl e, sum_comm]
  have e2 : ∀ m ∈ range a.length, ∑ j ∈ range N, ∑ l ∈ range a.length,
      ((-1) ^ m * a.getD m 0) * ((-1) ^ l * a.getD l 0) * (Real.cos (m * (2 * Real.pi * j / N)) * Real.cos (l * (2 * Real.pi * j / N))) =
        if m = 0 then N * lineShare a 0 else N * (2 * lineShare a m) := by
    intro m hm
    rw [sum_comm]
    have e3 : ∀ l ∈ range a.length, ∑ j ∈ range N,
      ((-1) ^ m * a.getD m 0) * ((-1) ^ l * a.getD l 0) * (Real.cos (m * (2 * Real.pi * j / N)) * Real.cos (l * (2 * Real.pi * j / N))) =
        if m = l then a.getD m 0 ^ 2 * (if m = 0 then (N : ℝ) else N / 2) else 0 := by
      intro l hl
      have h1 := mem_range.1 hm
      have h2 := mem_range.1 hl
      rw [← mul_sum, cos_orth (by omega)]
      split_ifs with h h0
      · subst h h0; ring
      · subst h
        rw [show (-1) ^ m * a.getD m 0 * ((-1) ^ m * a.getD m 0) = ((-1) ^ m * (-1) ^ m) * a.getD m 0 ^ 2 by ring, ← mul_pow]
        norm_num
      · ring
    rw [sum_congr rfl e3, sum_ite_eq, if_pos hm]
    unfold lineShare
    by_cases h : m = 0
    · subst h; rw [if_pos rfl, if_pos rfl, if_pos rfl]; ring
    · rw [if_neg h, if_neg h, if_neg h]; ring
  rw [sum_congr rfl e2]
  obtain ⟨n, hn⟩ : ∃ n, a.length = n + 1 := ⟨a.length - 1, by omega⟩
  unfold windowPower
  rw [hn, sum_range_succ', if_pos rfl, Nat.add_sub_cancel, mul_add, mul_sum, add_comm]
  congr 1

/-! ## A wave through a window -/

/-- The waves into which the window splits a wave. -/
noncomputable def sideLines (a : List ℝ) (q : Comp) : List Comp :=
  (List.range a.length).flatMap fun m => [⟨q.p - m, q.a * ((-1) ^ m * a.getD m 0) / 2, q.φ⟩, ⟨q.p + m, q.a * ((-1) ^ m * a.getD m 0) / 2, q.φ⟩]

theorem sum_flatMap_gen {α β M : Type} [AddCommMonoid M] (l : List α) (f : α → List β) (g : β → M) :
    ((l.flatMap f).map g).sum = (l.map fun q => ((f q).map g).sum).sum := by
  induction l with
  | nil => rfl
  | cons q l ih => rw [List.flatMap_cons, List.map_append, List.sum_append, ih, List.map_cons, List.sum_cons]

theorem sum_map_rangeC (n : Nat) (g : Nat → ℂ) : ((List.range n).map g).sum = ∑ m ∈ range n, g m := by
  induction n with
  | zero => rfl
  | succ n ih => rw [List.range_succ, List.map_append, List.sum_append, ih, sum_range_succ]; simp

/-- The wave fits in a segment, with room for the lines the window puts beside it. -/
def FitsWindow (n N : Nat) (q : Comp) : Prop := n ≤ q.p ∧ 2 * (q.p + n) < N + 2

theorem tapered_window {a : List ℝ} {N : Nat} (c : ℝ) {cs : List Comp} (hcs : ∀ q ∈ cs, FitsWindow a.length N q) (ha : 1 ≤ a.length) (hN : 2 ≤ N) {j : Nat} (hj : j < N) :
    tapered (generalCosine a N) (mixture N c cs) j = (mixture N 0 (cs.flatMap (sideLines a))).getD j 0 := by
  unfold tapered
  rw [mixture_length, if_pos hj, mixture_mean c (fun q hq => by have := hcs q hq; unfold FitsWindow at this; omega) (by omega),
    generalCosine_getD hN hj, mixture_getD _ _ hj, mixture_getD _ _ hj, sum_flatMap_gen, zero_add, add_sub_cancel_left]
  have e : ∀ q ∈ cs, ((sideLines a q).map fun q => q.a * Real.cos (2 * Real.pi * (q.p * j) / N + q.φ)).sum =
      (∑ m ∈ range a.length, (-1) ^ m * a.getD m 0 * Real.cos (m * (2 * Real.pi * j / N))) * (q.a * Real.cos (2 * Real.pi * (q.p * j) / N + q.φ)) := by
    intro q hq
    have hq := hcs q hq
    unfold FitsWindow at hq
    unfold sideLines
    rw [sum_flatMap_gen, list_sum_map_range, sum_mul]
    refine sum_congr rfl fun m hm => ?_
    have hm := mem_range.1 hm
    simp only [List.map_cons, List.map_nil, List.sum_cons, List.sum_nil, add_zero]
    set θ := 2 * Real.pi * (q.p * (j : ℝ)) / N + q.φ with hθ
    set η := (m : ℝ) * (2 * Real.pi * (j : ℝ) / N) with hη
    have e1 : 2 * Real.pi * (((q.p - m : ℕ) : ℝ) * j) / N + q.φ = θ - η := by
      rw [hθ, hη, Nat.cast_sub (by omega)]; ring
    have e2 : 2 * Real.pi * (((q.p + m : ℕ) : ℝ) * j) / N + q.φ = θ + η := by
      rw [hθ, hη]; push_cast; ring
    rw [e1, e2, Real.cos_sub θ η, Real.cos_add θ η]
    ring
  rw [List.map_congr_left e, List.sum_map_mul_left]

/-- The number of bins between `k` and `p`. -/
def binDist (k p : Nat) : Nat := if k ≤ p then p - k else k - p

/-- The coefficient of one wave seen through the window. -/
noncomputable def sideCoef (a : List ℝ) (N : Nat) (q : Comp) (k : Nat) : ℂ :=
  ((sideLines a q).map fun q => if k = q.p then (N : ℂ) * (q.a / 2) * Complex.exp (q.φ * Complex.I) else 0).sum

theorem sideCoef_normSq {a : List ℝ} (N : Nat) {q : Comp} (hq : a.length ≤ q.p) (k : Nat) :
    Complex.normSq (sideCoef a N q k) = ((N : ℝ) * q.a) ^ 2 / 4 * lineShare a (binDist k q.p) := by
  unfold sideCoef sideLines
  rw [sum_flatMap_gen, sum_map_rangeC]
  have e : ∀ m ∈ range a.length, (([(⟨q.p - m, q.a * ((-1) ^ m * a.getD m 0) / 2, q.φ⟩ : Comp), ⟨q.p + m, q.a * ((-1) ^ m * a.getD m 0) / 2, q.φ⟩]).map fun q =>
      if k = q.p then (N : ℂ) * (q.a / 2) * Complex.exp (q.φ * Complex.I) else 0).sum =
        if m = binDist k q.p then (N : ℂ) * (((if m = 0 then 2 else 1) * (q.a * ((-1) ^ m * a.getD m 0) / 2) : ℝ) / 2) * Complex.exp (q.φ * Complex.I) else 0 := by
    intro m hm
    have hm := mem_range.1 hm
    simp only [List.map_cons, List.map_nil, List.sum_cons, List.sum_nil, add_zero]
    unfold binDist
    rcases (by omega : (k = q.p ∧ m = 0) ∨ (k + m = q.p ∧ 0 < m) ∨ (k = q.p + m ∧ 0 < m) ∨ (k + m ≠ q.p ∧ k ≠ q.p + m)) with ⟨h1, h2⟩ | ⟨h1, h2⟩ | ⟨h1, h2⟩ | ⟨h1, h2⟩
    · rw [if_pos (by omega), if_pos (by omega), if_pos (by split_ifs <;> omega), if_pos h2]
      push_cast; ring
    · rw [if_pos (by omega), if_neg (by omega), if_pos (by split_ifs <;> omega), if_neg (by omega), add_zero, one_mul]
    · rw [if_neg (by omega), if_pos h1, if_pos (by split_ifs <;> omega), if_neg (by omega), zero_add, one_mul]
    · rw [if_neg (by omega), if_neg h2, if_neg (by split_ifs <;> omega), add_zero]
  rw [sum_congr rfl e, sum_ite_eq']
  unfold lineShare
  split_ifs with h1 h2
  · rw [normSq_line, h2]; simp only [pow_zero]; ring
  · rw [normSq_line, one_mul]
    set d := binDist k q.p
    rw [show (N : ℝ) * (q.a * ((-1) ^ d * a.getD d 0) / 2) = (-1) ^ d * (N * q.a * a.getD d 0 / 2) by ring, mul_pow, ← pow_mul, mul_comm d 2, pow_mul]
    norm_num
    ring
  · have h2 : binDist k q.p = 0 := by assumption
    have : a = [] := by
      rw [h2, mem_range, not_lt] at h1
      exact List.length_eq_zero_iff.1 (Nat.le_zero.1 h1)
    subst this; simp
  · rw [List.getD_eq_default _ _ (by rw [mem_range, not_lt] at h1; exact h1)]; simp

/-- Waves whose bins are so far apart that the lines of the window do not overlap. -/
def ApartBy (n : Nat) (cs : List Comp) : Prop := cs.Pairwise fun q r => q.p + 2 * n ≤ r.p + 1 ∨ r.p + 2 * n ≤ q.p + 1

theorem lineShare_far {a : List ℝ} {d : Nat} (ha : 1 ≤ a.length) (h : a.length ≤ d) : lineShare a d = 0 := by
  unfold lineShare
  rw [if_neg (by omega), List.getD_eq_default _ _ h]; simp

theorem lineShare_nonneg (a : List ℝ) (d : Nat) : 0 ≤ lineShare a d := by
  unfold lineShare; split_ifs <;> positivity

theorem window_normSq {a : List ℝ} {N k : Nat} (c : ℝ) {cs : List Comp} (hcs : ∀ q ∈ cs, FitsWindow a.length N q) (ha : 1 ≤ a.length)
    (hap : ApartBy a.length cs) (hN : 2 ≤ N) (hk : k ≤ N / 2) :
    Complex.normSq (fwd N (fun j => ((tapered (generalCosine a N) (mixture N c cs) j : ℝ) : ℂ)) k) =
      (cs.map fun q => ((N : ℝ) * q.a) ^ 2 / 4 * lineShare a (binDist k q.p)).sum := by
  have e : fwd N (fun j => ((tapered (generalCosine a N) (mixture N c cs) j : ℝ) : ℂ)) k = coef (mixture N 0 (cs.flatMap (sideLines a))) k := by
    unfold coef
    rw [mixture_length]
    exact fwd_congr (x := fun j => ((tapered (generalCosine a N) (mixture N c cs) j : ℝ) : ℂ))
      (y := fun j => (((mixture N 0 (cs.flatMap (sideLines a))).getD j 0 : ℝ) : ℂ)) (fun j hj => by rw [tapered_window c hcs ha hN hj]) k
  rw [e, coef_mixture 0 (by
    intro r hr
    obtain ⟨q, hq, hr⟩ := List.mem_flatMap.1 hr
    have := hcs q hq
    unfold FitsWindow at this
    unfold sideLines at hr
    obtain ⟨m, hm, hr⟩ := List.mem_flatMap.1 hr
    have hm := List.mem_range.1 hm
    simp only [List.mem_cons, List.not_mem_nil, or_false] at hr
    rcases hr with rfl | rfl <;> simp only <;> omega) (by omega) hk, sum_flatMap_gen]
  simp only [Complex.ofReal_zero, mul_zero, ite_self, zero_add]
  show Complex.normSq (cs.map fun q => sideCoef a N q k).sum = _
  rw [normSq_sum]
  · congr 1
    exact List.map_congr_left fun q hq => sideCoef_normSq N (hcs q hq).1 k
  · refine hap.imp_of_mem fun {q r} hq hr h => ?_
    have z : ∀ q ∈ cs, a.length ≤ binDist k q.p → sideCoef a N q k = 0 := by
      intro q hq h1
      have := sideCoef_normSq N (hcs q hq).1 k
      rw [lineShare_far ha h1, mul_zero] at this
      exact Complex.normSq_eq_zero.1 this
    by_cases hc : a.length ≤ binDist k q.p
    · exact Or.inl (z q hq hc)
    · refine Or.inr (z r hr ?_)
      unfold binDist at hc ⊢
      split_ifs at hc ⊢ <;> omega

/-! ## The spectrum -/

/-- The Welch spectrum of the sea: the energy `q.a ^ 2 / 2` of each wave, distributed over the bins beside it by the window. -/
def WindowLines (a : List ℝ) (N : Nat) (dt : ℝ) (cs : List Comp) (f S : List ℝ) : Prop :=
  f = (List.range (N / 2 + 1)).map (fun (k : Nat) => (k : ℝ) / (N * dt)) ∧ S.length = N / 2 + 1 ∧
  ∀ k < N / 2 + 1, S.getD k 0 = (cs.map fun q => q.a ^ 2 / 2 * (N * dt) * (lineShare a (binDist k q.p) / windowPower a)).sum

theorem windowPower_pos {a : List ℝ} (h0 : a.getD 0 0 ≠ 0) : 0 < windowPower a := by
  unfold windowPower
  have : 0 ≤ ∑ m ∈ range (a.length - 1), 2 * lineShare a (m + 1) := sum_nonneg fun m _ => by have := lineShare_nonneg a (m + 1); linarith
  have h : 0 < lineShare a 0 := by unfold lineShare; rw [if_pos rfl]; positivity
  linarith

/-- **C159 (densities).** -/
theorem welch_window {a : List ℝ} {L N : Nat} {v : Int} {c dt : ℝ} {cs : List Comp} {f S : List ℝ} (hcs : ∀ q ∈ cs, FitsWindow a.length N q) (hap : ApartBy a.length cs)
    (h0 : a.getD 0 0 ≠ 0) (hN : 4 * a.length < N + 4) (hN2 : 2 ≤ N) (hL : N ≤ L) (h : IsWelch (longSea L N c cs) dt (generalCosine a N) N v N f S) : WindowLines a N dt cs f S := by
  have ha : 1 ≤ a.length := by
    rcases a with - | ⟨b, l⟩
    · exact absurd rfl h0
    · simp
  refine ⟨h.freq, h.len, fun k hk => ?_⟩
  have hNr : (0 : ℝ) < N := by exact_mod_cast (by omega : 0 < N)
  have hW := windowPower_pos h0
  rw [h.dens k hk]
  refine mean_const (by unfold nSegments; exact Nat.succ_pos _) fun i hi => ?_
  rw [longSea_length] at hi
  rw [segment_longSea c cs hL hi, window_normSq c (by
    intro r hr
    obtain ⟨q, hq, rfl⟩ := List.mem_map.1 hr
    exact hcs q hq) ha (by unfold ApartBy; rw [List.pairwise_map]; exact hap) hN2 (by omega), window_energy hN ha hN2, List.map_map]
  rw [show ∀ A B C : ℝ, A * B * dt / C = B * (A * dt / C) from fun A B C => by ring, ← List.sum_map_mul_right]
  congr 1
  refine List.map_congr_left fun q hq => ?_
  have hq' := hcs q hq
  unfold FitsWindow at hq'
  simp only [Function.comp]
  by_cases hd : a.length ≤ binDist k q.p
  · rw [lineShare_far ha hd]; simp
  · have : ¬ k = 0 ∧ ¬ (N % 2 = 0 ∧ k = N / 2) := by
      unfold binDist at hd
      split_ifs at hd <;> omega
    rw [if_neg this.1, if_neg this.2]
    field_simp
    ring


/-- The lines of a window add up to its mean square. -/
theorem share_sum {a : List ℝ} {N : Nat} {q : Comp} (hq : FitsWindow a.length N q) (ha : 1 ≤ a.length) :
    ∑ k ∈ range (N / 2 + 1), lineShare a (binDist k q.p) = windowPower a := by
  obtain ⟨h1, h2⟩ := hq
  obtain ⟨n, hn⟩ : ∃ n, a.length = n + 1 := ⟨a.length - 1, by omega⟩
  rw [hn] at h1 h2
  have e : ∑ k ∈ range (N / 2 + 1), lineShare a (binDist k q.p) = ∑ k ∈ Ico (q.p - n) (q.p + n + 1), lineShare a (binDist k q.p) := by
    symm
    refine sum_subset (fun k hk => ?_) (fun k _ hk => lineShare_far ha ?_)
    · rw [mem_Ico] at hk; exact mem_range.2 (by omega)
    · rw [mem_Ico] at hk
      unfold binDist
      split_ifs <;> omega
  rw [e, ← sum_Ico_consecutive _ (by omega : q.p - n ≤ q.p) (by omega : q.p ≤ q.p + n + 1)]
  have e1 : ∑ k ∈ Ico (q.p - n) q.p, lineShare a (binDist k q.p) = ∑ m ∈ range n, lineShare a (m + 1) := by
    rw [sum_Ico_eq_sum_range, show q.p - (q.p - n) = n by omega, ← sum_range_reflect]
    refine sum_congr rfl fun m hm => ?_
    have := mem_range.1 hm
    congr 1
    unfold binDist
    split_ifs <;> omega
  have e2 : ∑ k ∈ Ico q.p (q.p + n + 1), lineShare a (binDist k q.p) = ∑ m ∈ range n, lineShare a (m + 1) + lineShare a 0 := by
    rw [sum_Ico_eq_sum_range, show q.p + n + 1 - q.p = n + 1 by omega, sum_range_succ']
    congr 1
    · refine sum_congr rfl fun m _ => ?_
      congr 1
      unfold binDist
      split_ifs <;> omega
    · congr 1
      unfold binDist
      split_ifs <;> omega
  rw [e1, e2]
  unfold windowPower
  rw [hn, Nat.add_sub_cancel, ← mul_sum]
  ring

/-- Specification: the window puts most of the energy in the bin of the wave. -/
def Peaked (a : List ℝ) : Prop := a.getD 0 0 ≠ 0 ∧ ∀ m, 1 ≤ m → |a.getD m 0| < 2 * |a.getD 0 0|

theorem peaked_lt {a : List ℝ} (h : Peaked a) {d : Nat} (hd : 1 ≤ d) : lineShare a d < lineShare a 0 := by
  unfold lineShare
  rw [if_neg (by omega), if_pos rfl]
  have h1 := h.2 d hd
  have : a.getD d 0 ^ 2 < (2 * a.getD 0 0) ^ 2 := by
    rw [sq_lt_sq, abs_mul, abs_two]; exact h1
  linarith

theorem apartBy_ne {n : Nat} {cs : List Comp} (hap : ApartBy n cs) {q r : Comp} (hq : q ∈ cs) (hr : r ∈ cs) (hne : q ≠ r) :
    q.p + 2 * n ≤ r.p + 1 ∨ r.p + 2 * n ≤ q.p + 1 := by
  induction cs with
  | nil => cases hq
  | cons a l ih =>
    obtain ⟨h1, h2⟩ := List.pairwise_cons.1 hap
    rcases List.mem_cons.1 hq with rfl | hq' <;> rcases List.mem_cons.1 hr with rfl | hr'
    · exact absurd rfl hne
    · exact h1 r hr'
    · exact (h1 q hq').symm
    · exact ih h2 hq' hr'

/-- At most one wave reaches a bin. -/
theorem window_local {a : List ℝ} {N : Nat} {dt : ℝ} {cs : List Comp} (ha : 1 ≤ a.length) (hap : ApartBy a.length cs) (k : Nat) :
    (∀ q ∈ cs, a.length ≤ binDist k q.p) ∨
    ∃ q ∈ cs, binDist k q.p < a.length ∧ (cs.map fun q => q.a ^ 2 / 2 * (N * dt) * (lineShare a (binDist k q.p) / windowPower a)).sum =
      q.a ^ 2 / 2 * (N * dt) * (lineShare a (binDist k q.p) / windowPower a) := by
  induction cs with
  | nil => exact Or.inl (by simp)
  | cons r l ih =>
    obtain ⟨h1, h2⟩ := List.pairwise_cons.1 hap
    by_cases hr : a.length ≤ binDist k r.p
    · rcases ih h2 with h | ⟨q, hq, hd, e⟩
      · exact Or.inl fun q hq => by
          rcases List.mem_cons.1 hq with rfl | hq
          · exact hr
          · exact h q hq
      · refine Or.inr ⟨q, List.mem_cons_of_mem _ hq, hd, ?_⟩
        rw [List.map_cons, List.sum_cons, e, lineShare_far ha hr]; ring
    · refine Or.inr ⟨r, List.mem_cons_self, by omega, ?_⟩
      rw [List.map_cons, List.sum_cons, List.sum_eq_zero, add_zero]
      intro v hv
      obtain ⟨q, hq, rfl⟩ := List.mem_map.1 hv
      rw [lineShare_far ha]
      · ring
      · have := h1 q hq
        unfold binDist at hr ⊢
        split_ifs at hr ⊢ <;> omega

/-- What the densities and the peak period of the Welch spectrum of the sea are: no leakage beyond `n - 1` bins, all energy, and the period of the strongest wave. -/
structure WindowSea (n : Nat) (sp : SpecObj) (N : Nat) (dt : ℝ) (cs : List Comp) : Prop where
  /-- the densities are non-negative, vanish `n` and more bins away from every wave, and add up to the energy of the waves, for each wave around its bin -/
  energy : ∃ S, sp.sVarDens = arr1 S ∧ S.length = sp.f.length ∧ sp.f = (List.range (N / 2 + 1)).map (fun (k : Nat) => (k : ℝ) / (N * dt)) ∧
    (∀ d ∈ S, 0 ≤ d) ∧ (∀ k, (∀ q ∈ cs, n ≤ binDist k q.p) → S.getD k 0 = 0) ∧
    S.sum * (1 / (N * dt)) = (cs.map fun q => q.a ^ 2 / 2).sum ∧
    ∀ q ∈ cs, (∑ k ∈ Ico (q.p - (n - 1)) (q.p + n), S.getD k 0) * (1 / (N * dt)) = q.a ^ 2 / 2
  /-- if one wave is higher than all others, the peak period is the period of that wave -/
  peak : ∀ q ∈ cs, (∀ r ∈ cs, r ≠ q → |r.a| < |q.a|) → q.a ≠ 0 → (sp.getTp (-1) (.fin (-1))).1 = .ok (N * dt / q.p)

theorem window_sea_of_lines {a : List ℝ} {n N : Nat} {dt : ℝ} {cs : List Comp} {S : List ℝ} {sp : SpecObj} (hn : a.length ≤ n) (hcsn : ∀ q ∈ cs, FitsWindow n N q)
    (hapn : ApartBy n cs) (hpk : Peaked a) (hdt : 0 < dt) (hN2 : 2 ≤ N) (hS : sp.sVarDens = arr1 S) (h : WindowLines a N dt cs sp.f S)
    (hi : ∃ f S : List ℝ, SpecObj.init (vec f) (vec S) = .ok sp) : WindowSea n sp N dt cs := by
  have hcs : ∀ q ∈ cs, FitsWindow a.length N q := fun q hq => by have := hcsn q hq; unfold FitsWindow at this ⊢; omega
  have hap : ApartBy a.length cs := List.Pairwise.imp (fun {q r} h => by omega) hapn
  have ha : 1 ≤ a.length := by
    rcases a with - | ⟨b, l⟩
    · exact absurd rfl hpk.1
    · simp
  obtain ⟨f, S', hi⟩ := hi
  have hi' := (spectrum_init_iff_partial (isArr_vec f) (isArr_vec S')).1 hi
  have e1 : sp.f = f := by rw [hi'.2.2]
  have e2 : S' = S := by
    have : sp.sVarDens = arr1 S' := by rw [hi'.2.2]; rfl
    rw [this] at hS
    exact congrArg Arr.data hS
  subst e2
  obtain ⟨hF, hl, hd⟩ := h
  rw [e1] at hF
  have hNr : (0 : ℝ) < N := by exact_mod_cast (by omega : 0 < N)
  have hW := windowPower_pos hpk.1
  have hND : 0 < N * dt := by positivity
  have hFl : f.length = N / 2 + 1 := by simp [hF]
  have hFg : ∀ k, k < N / 2 + 1 → f.getD k 0 = (k : ℝ) / (N * dt) := fun k hk => by
    rw [hF, getD_map_range (fun (k : Nat) => (k : ℝ) / (N * dt)) _ k 0 hk]
  have nn : ∀ k, 0 ≤ S'.getD k 0 := by
    intro k
    by_cases hk : k < N / 2 + 1
    · rw [hd k hk]
      refine List.sum_nonneg fun v hv => ?_
      obtain ⟨q, -, rfl⟩ := List.mem_map.1 hv
      have := lineShare_nonneg a (binDist k q.p)
      positivity
    · rw [List.getD_eq_default _ _ (by omega)]
  have far : ∀ k, (∀ q ∈ cs, a.length ≤ binDist k q.p) → S'.getD k 0 = 0 := by
    intro k hq
    by_cases hk : k < N / 2 + 1
    · rw [hd k hk]
      refine List.sum_eq_zero fun v hv => ?_
      obtain ⟨q, hqc, rfl⟩ := List.mem_map.1 hv
      rw [lineShare_far ha (hq q hqc)]; ring
    · rw [List.getD_eq_default _ _ (by omega)]
  have near : ∀ q ∈ cs, ∀ k, binDist k q.p < n → S'.getD k 0 = q.a ^ 2 / 2 * (N * dt) * (lineShare a (binDist k q.p) / windowPower a) := by
    intro q hq k hb
    have hfit := hcsn q hq
    unfold FitsWindow at hfit
    rw [hd k (by unfold binDist at hb; split_ifs at hb <;> omega)]
    rcases window_local (N := N) (dt := dt) ha hap k with h | ⟨r, hr, hb', e⟩
    · rw [lineShare_far ha (h q hq), zero_div, mul_zero]
      refine List.sum_eq_zero fun v hv => ?_
      obtain ⟨r, hr, rfl⟩ := List.mem_map.1 hv
      rw [lineShare_far ha (h r hr), zero_div, mul_zero]
    · rw [e]
      by_cases hqr : r = q
      · rw [hqr]
      · exfalso
        have := apartBy_ne hapn hr hq hqr
        unfold binDist at hb hb'
        split_ifs at hb hb' <;> omega
  refine ⟨⟨S', by rw [hi'.2.2]; rfl, by rw [e1, hl, hFl], by rw [e1, hF], ?_, fun k h => far k fun q hq => hn.trans (h q hq), ?_, ?_⟩, ?_⟩
  · intro d hdS
    obtain ⟨k, hk, rfl⟩ := List.getElem_of_mem hdS
    have := nn k
    rwa [List.getD_eq_getElem _ _ hk] at this
  · rw [list_sum_getD, hl, sum_congr rfl fun k hk => hd k (mem_range.1 hk), sum_comm_list, ← List.sum_map_mul_right]
    congr 1
    refine List.map_congr_left fun q hq => ?_
    rw [← mul_sum, ← sum_div, share_sum (hcs q hq) ha]
    field_simp
  · intro q hq
    have hfit := hcsn q hq
    unfold FitsWindow at hfit
    have e : ∀ k ∈ Ico (q.p - (n - 1)) (q.p + n), S'.getD k 0 = q.a ^ 2 / 2 * (N * dt) * (lineShare a (binDist k q.p) / windowPower a) := by
      intro k hk
      rw [mem_Ico] at hk
      exact near q hq k (by unfold binDist; split_ifs <;> omega)
    rw [sum_congr rfl e, ← mul_sum, ← sum_div]
    have es : ∑ k ∈ Ico (q.p - (n - 1)) (q.p + n), lineShare a (binDist k q.p) = windowPower a := by
      rw [← share_sum (hcs q hq) ha]
      refine sum_subset (fun k hk => ?_) (fun k _ hk => lineShare_far ha ?_)
      · rw [mem_Ico] at hk; exact mem_range.2 (by omega)
      · rw [mem_Ico] at hk
        unfold binDist
        split_ifs <;> omega
    rw [es]
    field_simp
  · intro q hq hmax hqa
    have hfit := hcs q hq
    unfold FitsWindow at hfit
    have hp' : (0 : ℝ) < q.p := by exact_mod_cast (by omega : 0 < q.p)
    have hfp : f.getD q.p 0 = q.p / (N * dt) := hFg q.p (by omega)
    have hp : S'.getD q.p 0 = q.a ^ 2 / 2 * (N * dt) * (lineShare a 0 / windowPower a) := by
      have h0 : binDist q.p q.p = 0 := by unfold binDist; rw [if_pos le_rfl, Nat.sub_self]
      have := near q hq q.p (by omega)
      rwa [h0] at this
    have hs0 : 0 < lineShare a 0 := by unfold lineShare; rw [if_pos rfl]; have := hpk.1; positivity
    have lt : ∀ l, l < N / 2 + 1 → l ≠ q.p → S'.getD l 0 < S'.getD q.p 0 := by
      intro l hlN hlp
      rw [hp, hd l hlN]
      rcases window_local (N := N) (dt := dt) ha hap l with h | ⟨r, hr, hb, e⟩
      · rw [← hd l hlN, far l h]; positivity
      · rw [e]
        by_cases hqr : r = q
        · subst hqr
          refine mul_lt_mul_of_pos_left (div_lt_div_of_pos_right (peaked_lt hpk ?_) hW) (by positivity)
          unfold binDist; split_ifs <;> omega
        · have hlt := hmax r hr hqr
          have h2 : r.a ^ 2 < q.a ^ 2 := sq_lt_sq.2 hlt
          have h3 : lineShare a (binDist l r.p) ≤ lineShare a 0 := by
            by_cases h0 : binDist l r.p = 0
            · rw [h0]
            · exact (peaked_lt hpk (by omega)).le
          calc r.a ^ 2 / 2 * (N * dt) * (lineShare a (binDist l r.p) / windowPower a) ≤ r.a ^ 2 / 2 * (N * dt) * (lineShare a 0 / windowPower a) :=
                mul_le_mul_of_nonneg_left (div_le_div_of_nonneg_right h3 hW.le) (by positivity)
            _ < _ := by
                apply mul_lt_mul_of_pos_right _ (by positivity)
                apply mul_lt_mul_of_pos_right _ hND
                linarith
    refine get_Tp_complete (isArr_vec f) (isArr_vec S') hi ?_
    refine ⟨q.p, ⟨by omega, Or.inl rfl, Or.inl rfl⟩, by rw [hfp]; positivity, by rw [hfp, one_div_div], fun l hlr => ?_⟩
    have hll : l < N / 2 + 1 := by have := hlr.1; omega
    refine ⟨?_, fun hlt => lt l hll (by omega)⟩
    by_cases h : l = q.p
    · rw [h]
    · exact (lt l hll h).le


/-! ## The objects -/

/-- The windows of scipy that are sums of cosines, with their abbreviations. -/
def cosineNames : List String :=
  ["hann", "han", "hamming", "hamm", "ham", "blackman", "black", "blk", "nuttall", "nutl", "nut", "blackmanharris", "blackharr", "bkh", "flattop", "flat", "flt"]

theorem peaked_of {a : List ℝ} {b : ℝ} (h0 : a.getD 0 0 = b) (hb : 0 < b) (h : ∀ v ∈ a.tail, 0 ≤ v ∧ v < 2 * b) : Peaked a := by
  refine ⟨by rw [h0]; exact hb.ne', fun m hm => ?_⟩
  rw [h0, abs_of_pos hb]
  by_cases hl : m < a.length
  · have hmem : a.getD m 0 ∈ a.tail := by
      rcases a with - | ⟨c, l⟩
      · simp at hl
      · obtain ⟨k, rfl⟩ : ∃ k, m = k + 1 := ⟨m - 1, by omega⟩
        simp only [List.length_cons] at hl
        rw [List.getD_cons_succ, List.getD_eq_getElem _ _ (by omega), List.tail_cons]
        exact List.getElem_mem _
    rw [abs_of_nonneg (h _ hmem).1]
    exact (h _ hmem).2
  · rw [List.getD_eq_default _ _ (by omega), abs_zero]; linarith

/-- Each of them has at most five cosines, and the mean dominates. -/
theorem cosine_window {window : String} (h : window ∈ cosineNames) :
    ∃ a : List ℝ, a.length ≤ 5 ∧ Peaked a ∧ ∀ n, getWindow window n = .ok (generalCosine a n) := by
  unfold cosineNames at h
  simp only [List.mem_cons, List.not_mem_nil, or_false] at h
  have hann' : Peaked [1 / 2, 1 / 2] := peaked_of (b := 1 / 2) rfl (by norm_num) (by
    intro v hv; simp only [List.tail_cons, List.mem_cons, List.not_mem_nil, or_false] at hv; subst hv; norm_num)
  have case : ∀ (a : List ℝ), a.length ≤ 5 → Peaked a → window ≠ "hann" → window ≠ "boxcar" → window ≠ "han" → window ∉ ["box", "ones", "rect", "rectangular"] →
      cosineCoefs window = some a → ∃ a : List ℝ, a.length ≤ 5 ∧ Peaked a ∧ ∀ n, getWindow window n = .ok (generalCosine a n) := by
    intro a h1 h2 n1 n2 n3 n4 h3
    refine ⟨a, h1, h2, fun n => ?_⟩
    unfold getWindow otherWindow
    rw [if_neg n1, if_neg n2, if_neg n3, if_neg n4, h3]
  rcases h with h | h | h | h | h | h | h | h | h | h | h | h | h | h | h | h | h
  · subst h; exact ⟨_, by simp, hann', fun n => by rw [← hann_general]; rfl⟩
  · subst h; exact ⟨_, by simp, hann', fun n => by rw [← hann_general]; simp [getWindow, otherWindow]⟩
  all_goals
    refine case _ ?_ (peaked_of rfl ?_ ?_) ?_ ?_ ?_ ?_ (by subst h; simp only [cosineCoefs]; simp; rfl)
    · simp
    · norm_num
    · intro v hv
      simp only [List.tail_cons, List.mem_cons, List.not_mem_nil, or_false] at hv
      rcases hv with rfl | rfl | rfl | rfl <;> norm_num
    all_goals (subst h; simp)

/-- **C159 (explicit segment length).**  `get_spectrum` with any of these windows, segments of `N` samples and any overlap, of a record of any length `L ≥ N` of any number
of regular waves, each fitting a whole number of times (at least 5, below the Nyquist bin minus 4) in a segment, at least nine bins apart. -/
theorem welch_window_explicit {pt px : PyIn ℝ} {t : List ℝ} {L N : Nat} {nov : Int} {c dt : ℝ} {cs : List Comp} {window : String} (hw : window ∈ cosineNames)
    (hcs : ∀ q ∈ cs, FitsWindow 5 N q) (hap : ApartBy 5 cs) (hN : 17 ≤ N) (hL : N ≤ L) (ht : pt.IsVec t) (hx : px.IsVec (longSea L N c cs)) (hlen : t.length = L)
    (hu : UniformAxis t dt) (hnov : nov < N) (df : ℝ) :
    ∃ s sp, SeriesObj.init pt px = .ok s ∧ s.getSpectrum N nov 0 window df false = .ok sp ∧ WindowSea 5 sp N dt cs := by
  obtain ⟨a, h5, hpk, hget⟩ := cosine_window hw
  have hxl := longSea_length L N c cs
  obtain ⟨s, sp, S, h1, h2, h3, h4⟩ := get_spectrum_explicit ht hx (by omega) (by omega) hu (nps := N) (nov := nov) (nfft := 0) (N := N) (M := N)
    (v := if nov = 0 then ((N / 2 : Nat) : Int) else nov) (window := window) (by rw [if_neg (by omega), hxl, Nat.min_eq_left hL]) (by rw [if_pos rfl]) rfl
    (by omega) (by omega) le_rfl (by split_ifs <;> omega) (hget N) df
  refine ⟨s, sp, h1, h2, window_sea_of_lines h5 hcs hap hpk hu.1 (by omega) h3 (welch_window (fun q hq => ?_) ?_ hpk.1 (by omega) (by omega) hL h4) (getSpectrum_init h2)⟩
  · have := hcs q hq; unfold FitsWindow at this ⊢; omega
  · exact List.Pairwise.imp (fun {q r} h => by omega) hap

/-- **C159 (desired resolution).**  The same for a desired resolution that makes the segments `N` samples long. -/
theorem welch_window_resolution {pt px : PyIn ℝ} {t : List ℝ} {L N : Nat} {c dt df : ℝ} {cs : List Comp} {window : String} (hw : window ∈ cosineNames)
    (hcs : ∀ q ∈ cs, FitsWindow 5 N q) (hap : ApartBy 5 cs) (hN17 : 17 ≤ N) (hL : N ≤ L) (ht : pt.IsVec t) (hx : px.IsVec (longSea L N c cs)) (hlen : t.length = L)
    (hu : UniformAxis t dt) (hdf : 0 < df) (hN : roundHalfEven (1 / dt / df) = N) (nps nov : Int) :
    ∃ s sp, SeriesObj.init pt px = .ok s ∧ s.getSpectrum nps nov 0 window df true = .ok sp ∧ WindowSea 5 sp N dt cs := by
  obtain ⟨a, h5, hpk, hget⟩ := cosine_window hw
  have hxl := longSea_length L N c cs
  obtain ⟨s, sp, S, v, h1, h2, h3, h4, -⟩ := get_spectrum_resolution_window ht hx (by omega) (by omega) hu hdf hN (by omega) (by omega) (hget N) nps nov
  refine ⟨s, sp, h1, h2, window_sea_of_lines h5 hcs hap hpk hu.1 (by omega) h3 (welch_window (fun q hq => ?_) ?_ hpk.1 (by omega) (by omega) hL h4) (getSpectrum_init h2)⟩
  · have := hcs q hq; unfold FitsWindow at this ⊢; omega
  · exact List.Pairwise.imp (fun {q r} h => by omega) hap

/-- A swell of period 16 and amplitude 3 with a wind sea of period 5 and amplitude 1, in segments of 80 samples of a record of 200, through the flat top window. -/
example : ∃ s sp, SeriesObj.init (vec ((List.range 200).map fun (i : Nat) => (i : ℝ))) (vec (longSea 200 80 2 [⟨5, 3, 1⟩, ⟨16, 1, 0⟩])) = .ok s ∧
    s.getSpectrum (80 : ℕ) (0 : ℕ) 0 "flattop" 0 false = .ok sp ∧ (sp.getTp (-1) (.fin (-1))).1 = .ok 16 ∧
    ∃ S, sp.sVarDens = arr1 S ∧ S.sum * (1 / 80) = 5 ∧ S.getD 30 0 = 0 := by
  obtain ⟨s, sp, h1, h2, h3⟩ := welch_window_explicit (c := 2) (N := 80) (L := 200) (nov := 0) (cs := [⟨5, 3, 1⟩, ⟨16, 1, 0⟩]) (window := "flattop")
    (by simp [cosineNames])
    (by intro q hq; simp only [List.mem_cons, List.not_mem_nil, or_false] at hq; unfold FitsWindow; rcases hq with rfl | rfl <;> simp)
    (by unfold ApartBy; simp) (by norm_num) (by norm_num) (isVec_vec _) (isVec_vec _) (by simp) (axis_range 200) (by norm_num) 0
  obtain ⟨S, a, -, -, -, b, d, -⟩ := h3.energy
  refine ⟨s, sp, h1, h2, (h3.peak ⟨5, 3, 1⟩ (by simp) ?_ (by simp)).trans (by norm_num), S, a, ?_, b 30 ?_⟩
  · intro q hq hne
    simp only [List.mem_cons, List.not_mem_nil, or_false] at hq
    rcases hq with rfl | rfl
    · exact absurd rfl hne
    · norm_num
  · have : S.sum * (1 / ((80 : ℕ) * 1)) = (([⟨5, 3, 1⟩, ⟨16, 1, 0⟩] : List Comp).map fun q => q.a ^ 2 / 2).sum := d
    norm_num at this ⊢
    linarith
  · intro q hq
    simp only [List.mem_cons, List.not_mem_nil, or_false] at hq
    rcases hq with rfl | rfl <;> simp [binDist]

/-- Windows that need a parameter cannot be requested by name. -/
theorem window_with_parameter {window : String} (h : window ∈ ["chebwin", "dpss", "gaussian", "kaiser", "general_gaussian", "general_cosine", "general_hamming"])
    {x : List ℝ} (hx : x ≠ []) {dt : ℝ} (hdt : dt ≠ 0) {nps : Int} (hn : 0 ≤ nps) (nov nfft : Int) :
    ∃ m, welchWrapper x dt nps nov nfft window = .error (.valueError m) := by
  have hget : ∀ n, ∃ m, getWindow window n = .error (.valueError m) := by
    intro n
    simp only [List.mem_cons, List.not_mem_nil, or_false] at h
    rcases h with h | h | h | h | h | h | h <;>
    · subst h
      simp [getWindow, otherWindow, cosineCoefs]
  unfold welchWrapper
  rw [if_neg hdt]
  dsimp only
  unfold welch
  rw [if_neg hx, if_neg (by split_ifs <;> simp <;> omega)]
  dsimp only
  obtain ⟨m, hm⟩ := hget (min (((if nps = 0 then none else some nps) : Option Int).getD 256).toNat x.length)
  rw [hm]
  exact ⟨m, rfl⟩

example : ∃ m, welchWrapper [1, 2, 3] 1 0 0 0 "kaiser" = .error (.valueError m) := window_with_parameter (by simp) (by simp) (by norm_num) le_rfl 0 0

end Verif
