import Verif.Props.WelchBoxcar

/-! # C154: the Welch spectrum of a sea of several regular waves -/

set_option linter.unusedSectionVars false

namespace Verif
open Finset

/-- `L` samples of a constant level plus regular waves, wave `q` fitting `q.p` times in `N` samples. -/
noncomputable def longSea (L N : Nat) (c : ℝ) (cs : List Comp) : List ℝ :=
  (List.range L).map fun (j : Nat) => c + (cs.map fun q => q.a * Real.cos (2 * Real.pi * (q.p * j) / N + q.φ)).sum

theorem longSea_length (L N : Nat) (c : ℝ) (cs : List Comp) : (longSea L N c cs).length = L := by simp [longSea]

/-- Segment `i` of the sea: the same waves, with other phases. -/
theorem segment_longSea {L N i : Nat} {v : Int} (c : ℝ) (cs : List Comp) (hN : N ≤ L) (hi : i < nSegments L N v) :
    segment (longSea L N c cs) N v i = mixture N c (cs.map fun q => ⟨q.p, q.a, q.φ + 2 * Real.pi * (q.p * (i * ((N : Int) - v).toNat : ℕ)) / N⟩) := by
  have hl := longSea_length L N c cs
  obtain ⟨h1, h2⟩ := segment_length (x := longSea L N c cs) (nps := N) (nov := v) (i := i) (by omega) (by rw [hl]; exact hi)
  rw [hl] at h2
  refine List.ext_getElem (by rw [h1, mixture_length]) fun j hj hj' => ?_
  rw [h1] at hj
  have e1 : (segment (longSea L N c cs) N v i).getD j 0 = (longSea L N c cs).getD (i * ((N : Int) - v).toNat + j) 0 := by
    unfold segment
    rw [pySlice_eq _ 0 (by rw [hl]; exact h2), getD_map_range (fun j => (longSea L N c cs).getD (i * ((N : Int) - v).toNat + j) 0) _ j 0 (by omega)]
  have e2 := mixture_getD c (cs.map fun q => (⟨q.p, q.a, q.φ + 2 * Real.pi * (q.p * (i * ((N : Int) - v).toNat : ℕ)) / N⟩ : Comp)) hj
  rw [List.getD, List.getElem?_eq_getElem (by rw [h1]; exact hj), Option.getD_some] at e1
  rw [List.getD, List.getElem?_eq_getElem hj', Option.getD_some] at e2
  rw [e1, e2]
  unfold longSea
  rw [getD_map_range (fun (j : Nat) => c + (cs.map fun q => q.a * Real.cos (2 * Real.pi * (q.p * j) / N + q.φ)).sum) _ _ 0 (by omega), List.map_map]
  congr 2
  refine List.map_congr_left fun q _ => ?_
  simp only [Function.comp]
  congr 2
  push_cast
  ring

/-- The three waves into which the Hann window splits a wave. -/
noncomputable def three (q : Comp) : List Comp := [⟨q.p - 1, -q.a / 4, q.φ⟩, ⟨q.p, q.a / 2, q.φ⟩, ⟨q.p + 1, -q.a / 4, q.φ⟩]

theorem sum_flatMap {cs : List Comp} {g : Comp → ℝ} : ((cs.flatMap three).map g).sum = (cs.map fun q => ((three q).map g).sum).sum := by
  induction cs with
  | nil => rfl
  | cons q l ih => rw [List.flatMap_cons, List.map_append, List.sum_append, ih, List.map_cons, List.sum_cons]

theorem sum_flatMapC {cs : List Comp} {g : Comp → ℂ} : ((cs.flatMap three).map g).sum = (cs.map fun q => ((three q).map g).sum).sum := by
  induction cs with
  | nil => rfl
  | cons q l ih => rw [List.flatMap_cons, List.map_append, List.sum_append, ih, List.map_cons, List.sum_cons]

/-- The waves of the sea: bins from 2 to below the Nyquist bin minus one. -/
def FitsSegment (N : Nat) (q : Comp) : Prop := 2 ≤ q.p ∧ 2 * (q.p + 1) < N

theorem tapered_sea {N : Nat} (c : ℝ) {cs : List Comp} (hcs : ∀ q ∈ cs, FitsSegment N q) (hN : 2 ≤ N) {j : Nat} (hj : j < N) :
    tapered (hann N) (mixture N c cs) j = (mixture N 0 (cs.flatMap three)).getD j 0 := by
  unfold tapered
  rw [mixture_length, if_pos hj, mixture_mean c (fun q hq => by have := hcs q hq; unfold FitsSegment at this; omega) (by omega),
    hann_getD hN hj, mixture_getD _ _ hj, mixture_getD _ _ hj, sum_flatMap, zero_add, add_sub_cancel_left]
  have e : ∀ q ∈ cs, ((three q).map fun q => q.a * Real.cos (2 * Real.pi * (q.p * j) / N + q.φ)).sum =
      (1 / 2 - 1 / 2 * Real.cos (2 * Real.pi * j / N)) * (q.a * Real.cos (2 * Real.pi * (q.p * j) / N + q.φ)) := by
    intro q hq
    have hq := (hcs q hq).1
    unfold three
    simp only [List.map_cons, List.map_nil, List.sum_cons, List.sum_nil, add_zero]
    set θ := 2 * Real.pi * (q.p * (j : ℝ)) / N + q.φ with hθ
    set η := 2 * Real.pi * (j : ℝ) / N with hη
    have e1 : 2 * Real.pi * (((q.p - 1 : ℕ) : ℝ) * j) / N + q.φ = θ - η := by
      rw [hθ, hη, Nat.cast_sub (by omega)]; push_cast; ring
    have e2 : 2 * Real.pi * (((q.p + 1 : ℕ) : ℝ) * j) / N + q.φ = θ + η := by
      rw [hθ, hη]; push_cast; ring
    rw [e1, e2, Real.cos_sub θ η, Real.cos_add θ η]
    clear_value θ η
    ring
  rw [List.map_congr_left e, List.sum_map_mul_left]

/-- The coefficient of one tapered wave. -/
noncomputable def lineCoef (N : Nat) (q : Comp) (k : Nat) : ℂ :=
  ((three q).map fun q => if k = q.p then (N : ℂ) * (q.a / 2) * Complex.exp (q.φ * Complex.I) else 0).sum

theorem lineCoef_normSq (N : Nat) {q : Comp} (hq : 2 ≤ q.p) (k : Nat) :
    Complex.normSq (lineCoef N q k) = if k = q.p then (N * q.a) ^ 2 / 16 else if k + 1 = q.p ∨ k = q.p + 1 then (N * q.a) ^ 2 / 64 else 0 := by
  unfold lineCoef three
  simp only [List.map_cons, List.map_nil, List.sum_cons, List.sum_nil, add_zero]
  rcases (by omega : k = q.p ∨ k + 1 = q.p ∨ k = q.p + 1 ∨ (k ≠ q.p ∧ k + 1 ≠ q.p ∧ k ≠ q.p + 1)) with h | h | h | ⟨h1, h2, h3⟩
  · rw [if_pos h, if_pos h, if_neg (by omega), if_neg (by omega), zero_add, add_zero, normSq_line]
    ring
  · rw [if_neg (by omega : ¬ k = q.p), if_neg (by omega : ¬ k = q.p), if_pos (by omega), if_neg (by omega), if_pos (Or.inl h), add_zero, add_zero, normSq_line]
    ring
  · rw [if_neg (by omega : ¬ k = q.p), if_neg (by omega : ¬ k = q.p), if_neg (by omega), if_pos (by omega), if_pos (Or.inr h), zero_add, zero_add, normSq_line]
    ring
  · rw [if_neg h1, if_neg h1, if_neg (by omega), if_neg h3, if_neg (by tauto)]
    simp

theorem normSq_sum {l : List Comp} {g : Comp → ℂ} (h : l.Pairwise fun a b => g a = 0 ∨ g b = 0) :
    Complex.normSq (l.map g).sum = (l.map fun q => Complex.normSq (g q)).sum := by
  induction l with
  | nil => simp
  | cons a l ih =>
    obtain ⟨h1, h2⟩ := List.pairwise_cons.1 h
    rw [List.map_cons, List.sum_cons, List.map_cons, List.sum_cons]
    by_cases ha : g a = 0
    · rw [ha, zero_add, ih h2]; simp
    · have h0 : ∀ b ∈ l, g b = 0 := fun b hb => (h1 b hb).resolve_left ha
      have e1 : (l.map g).sum = 0 := List.sum_eq_zero fun v hv => by
        obtain ⟨b, hb, rfl⟩ := List.mem_map.1 hv; exact h0 b hb
      have e2 : (l.map fun q => Complex.normSq (g q)).sum = 0 := List.sum_eq_zero fun v hv => by
        obtain ⟨b, hb, rfl⟩ := List.mem_map.1 hv; simp [h0 b hb]
      rw [e1, e2, add_zero, add_zero]

/-- Waves whose bins are at least three apart. -/
def Apart (cs : List Comp) : Prop := cs.Pairwise fun q r => q.p + 3 ≤ r.p ∨ r.p + 3 ≤ q.p

theorem sea_normSq {N k : Nat} (c : ℝ) {cs : List Comp} (hcs : ∀ q ∈ cs, FitsSegment N q) (hap : Apart cs) (hN : 2 ≤ N) (hk : k ≤ N / 2) :
    Complex.normSq (fwd N (fun j => ((tapered (hann N) (mixture N c cs) j : ℝ) : ℂ)) k) =
      (cs.map fun q => if k = q.p then ((N : ℝ) * q.a) ^ 2 / 16 else if k + 1 = q.p ∨ k = q.p + 1 then ((N : ℝ) * q.a) ^ 2 / 64 else 0).sum := by
  have e : fwd N (fun j => ((tapered (hann N) (mixture N c cs) j : ℝ) : ℂ)) k = coef (mixture N 0 (cs.flatMap three)) k := by
    unfold coef
    rw [mixture_length]
    exact fwd_congr (x := fun j => ((tapered (hann N) (mixture N c cs) j : ℝ) : ℂ))
      (y := fun j => (((mixture N 0 (cs.flatMap three)).getD j 0 : ℝ) : ℂ)) (fun j hj => by rw [tapered_sea c hcs hN hj]) k
  rw [e, coef_mixture 0 (by
    intro r hr
    obtain ⟨q, hq, hr⟩ := List.mem_flatMap.1 hr
    have := hcs q hq
    unfold FitsSegment at this
    unfold three at hr
    simp only [List.mem_cons, List.not_mem_nil, or_false] at hr
    rcases hr with rfl | rfl | rfl <;> simp only <;> omega) (by omega) hk, sum_flatMapC]
  simp only [Complex.ofReal_zero, mul_zero, ite_self, zero_add]
  show Complex.normSq (cs.map fun q => lineCoef N q k).sum = _
  rw [normSq_sum]
  · congr 1
    exact List.map_congr_left fun q hq => lineCoef_normSq N (hcs q hq).1 k
  · refine hap.imp_of_mem fun {q r} hq hr h => ?_
    have z : ∀ q ∈ cs, k ≠ q.p → ¬ (k + 1 = q.p ∨ k = q.p + 1) → lineCoef N q k = 0 := by
      intro q hq h1 h2
      have := lineCoef_normSq N (hcs q hq).1 k
      rw [if_neg h1, if_neg h2] at this
      exact Complex.normSq_eq_zero.1 this
    by_cases hc : k = q.p ∨ k + 1 = q.p ∨ k = q.p + 1
    · exact Or.inr (z r hr (by omega) (by omega))
    · exact Or.inl (z q hq (by omega) (by omega))

/-- The density of a wave of amplitude `a` in bin `p`, at bin `k`. -/
noncomputable def lineDens (N : Nat) (dt : ℝ) (q : Comp) (k : Nat) : ℝ :=
  if k = q.p then q.a ^ 2 / 3 * (N * dt) else if k + 1 = q.p ∨ k = q.p + 1 then q.a ^ 2 / 12 * (N * dt) else 0

/-- The Welch spectrum of several waves: the sum of those of the waves. -/
def SeaLines (N : Nat) (dt : ℝ) (cs : List Comp) (f S : List ℝ) : Prop :=
  f = (List.range (N / 2 + 1)).map (fun (k : Nat) => (k : ℝ) / (N * dt)) ∧ S.length = N / 2 + 1 ∧
  ∀ k < N / 2 + 1, S.getD k 0 = (cs.map fun q => lineDens N dt q k).sum

theorem welch_sea {L N : Nat} {v : Int} {c dt : ℝ} {cs : List Comp} {f S : List ℝ} (hcs : ∀ q ∈ cs, FitsSegment N q) (hap : Apart cs) (hN : 5 ≤ N) (hL : N ≤ L)
    (h : IsWelch (longSea L N c cs) dt (hann N) N v N f S) : SeaLines N dt cs f S := by
  refine ⟨h.freq, h.len, fun k hk => ?_⟩
  have hNr : (0 : ℝ) < N := by exact_mod_cast (by omega : 0 < N)
  rw [h.dens k hk]
  refine mean_const (by unfold nSegments; exact Nat.succ_pos _) fun i hi => ?_
  rw [longSea_length] at hi
  rw [segment_longSea c cs hL hi, sea_normSq c (by
    intro r hr
    obtain ⟨q, hq, rfl⟩ := List.mem_map.1 hr
    exact hcs q hq) (by unfold Apart; rw [List.pairwise_map]; exact hap) (by omega) (by omega), hann_energy hN, List.map_map]
  rw [show ∀ A B : ℝ, A * B * dt / (3 / 8 * N) = B * (A * dt / (3 / 8 * N)) from fun A B => by ring, ← List.sum_map_mul_right]
  congr 1
  refine List.map_congr_left fun q hq => ?_
  have hq' := hcs q hq
  unfold FitsSegment at hq'
  simp only [Function.comp]
  unfold lineDens
  rcases (by omega : k = q.p ∨ (k ≠ q.p ∧ (k + 1 = q.p ∨ k = q.p + 1)) ∨ (k ≠ q.p ∧ ¬ (k + 1 = q.p ∨ k = q.p + 1))) with h1 | ⟨h1, h2⟩ | ⟨h1, h2⟩
  · rw [if_neg (by omega : ¬ k = 0), if_neg (by omega : ¬ (N % 2 = 0 ∧ k = N / 2)), if_pos h1, if_pos h1]
    field_simp
    ring
  · rw [if_neg (by omega : ¬ k = 0), if_neg (by omega : ¬ (N % 2 = 0 ∧ k = N / 2)), if_neg h1, if_neg h1, if_pos h2, if_pos h2]
    field_simp
    ring
  · rw [if_neg h1, if_neg h1, if_neg h2, if_neg h2]
    simp

theorem sum_comm_list (n : Nat) (cs : List Comp) (F : Comp → Nat → ℝ) :
    ∑ k ∈ range n, (cs.map fun q => F q k).sum = (cs.map fun q => ∑ k ∈ range n, F q k).sum := by
  induction cs with
  | nil => simp
  | cons q l ih =>
    simp only [List.map_cons, List.sum_cons, sum_add_distrib, ih]

theorem lineDens_sum {N : Nat} {dt : ℝ} {q : Comp} (hq : FitsSegment N q) (g : Nat → ℝ) : ∑ k ∈ range (N / 2 + 1), g k * lineDens N dt q k =
    g (q.p - 1) * (q.a ^ 2 / 12 * (N * dt)) + g q.p * (q.a ^ 2 / 3 * (N * dt)) + g (q.p + 1) * (q.a ^ 2 / 12 * (N * dt)) := by
  obtain ⟨hp, hpN⟩ := hq
  have e : ∀ k ∈ range (N / 2 + 1), g k * lineDens N dt q k = (if k = q.p - 1 then g k * (q.a ^ 2 / 12 * (N * dt)) else 0) +
      (if k = q.p then g k * (q.a ^ 2 / 3 * (N * dt)) else 0) + (if k = q.p + 1 then g k * (q.a ^ 2 / 12 * (N * dt)) else 0) := by
    intro k hk
    unfold lineDens
    rcases (by omega : k = q.p ∨ k + 1 = q.p ∨ k = q.p + 1 ∨ (k ≠ q.p ∧ k + 1 ≠ q.p ∧ k ≠ q.p + 1)) with h1 | h1 | h1 | ⟨h1, h2, h3⟩
    · rw [if_pos h1, if_neg (by omega : ¬ k = q.p - 1), if_pos h1, if_neg (by omega : ¬ k = q.p + 1)]; ring
    · rw [if_neg (by omega : ¬ k = q.p), if_pos (Or.inl h1), if_pos (by omega : k = q.p - 1), if_neg (by omega : ¬ k = q.p),
        if_neg (by omega : ¬ k = q.p + 1)]; ring
    · rw [if_neg (by omega : ¬ k = q.p), if_pos (Or.inr h1), if_neg (by omega : ¬ k = q.p - 1), if_neg (by omega : ¬ k = q.p), if_pos h1]; ring
    · rw [if_neg h1, if_neg (by tauto), if_neg (by omega : ¬ k = q.p - 1), if_neg h1, if_neg h3]; ring
  rw [sum_congr rfl e, sum_add_distrib, sum_add_distrib, sum_ite_eq', sum_ite_eq', sum_ite_eq',
    if_pos (mem_range.2 (by omega)), if_pos (mem_range.2 (by omega)), if_pos (mem_range.2 (by omega))]

theorem apart_ne {cs : List Comp} (hap : Apart cs) {q r : Comp} (hq : q ∈ cs) (hr : r ∈ cs) (hne : q ≠ r) : q.p + 3 ≤ r.p ∨ r.p + 3 ≤ q.p := by
  induction cs with
  | nil => cases hq
  | cons a l ih =>
    obtain ⟨h1, h2⟩ := List.pairwise_cons.1 hap
    rcases List.mem_cons.1 hq with rfl | hq' <;> rcases List.mem_cons.1 hr with rfl | hr'
    · exact absurd rfl hne
    · exact h1 r hr'
    · exact (h1 q hq').symm
    · exact ih h2 hq' hr'

/-- Away from the waves there is nothing; next to a wave there is only that wave. -/
theorem sea_local {N : Nat} {dt : ℝ} {cs : List Comp} (hap : Apart cs) (k : Nat) :
    (∀ q ∈ cs, lineDens N dt q k = 0) ∨ ∃ q ∈ cs, (k = q.p ∨ k + 1 = q.p ∨ k = q.p + 1) ∧ (cs.map fun q => lineDens N dt q k).sum = lineDens N dt q k := by
  have far : ∀ q : Comp, ¬ (k = q.p ∨ k + 1 = q.p ∨ k = q.p + 1) → lineDens N dt q k = 0 := fun q h => by
    unfold lineDens; rw [if_neg (by tauto), if_neg (by tauto)]
  induction cs with
  | nil => exact Or.inl (by simp)
  | cons q l ih =>
    obtain ⟨h1, h2⟩ := List.pairwise_cons.1 hap
    by_cases hq : k = q.p ∨ k + 1 = q.p ∨ k = q.p + 1
    · refine Or.inr ⟨q, List.mem_cons_self, hq, ?_⟩
      rw [List.map_cons, List.sum_cons, List.sum_eq_zero, add_zero]
      intro v hv
      obtain ⟨r, hr, rfl⟩ := List.mem_map.1 hv
      exact far r (by have := h1 r hr; omega)
    · rcases ih h2 with h | ⟨r, hr, h3, h4⟩
      · refine Or.inl fun r hr => ?_
        rcases List.mem_cons.1 hr with rfl | hr
        · exact far _ hq
        · exact h r hr
      · refine Or.inr ⟨r, List.mem_cons_of_mem _ hr, h3, ?_⟩
        rw [List.map_cons, List.sum_cons, far q hq, zero_add, h4]

/-- Wave parameters of the spectrum of several waves: its energy is the sum of the energies of the waves, its moments are sums over the waves
with the weights of Simpson's rule, and its peak period is that of the wave with the largest amplitude. -/
theorem sea_parameters {N : Nat} {dt : ℝ} {cs : List Comp} {f S : List ℝ} (hcs : ∀ q ∈ cs, FitsSegment N q) (hap : Apart cs) (hdt : 0 < dt) (hN : 5 ≤ N)
    (h : SeaLines N dt cs f S) {sp : SpecObj} (hsp : SpecObj.init (vec f) (vec S) = .ok sp) :
    S.sum * (1 / (N * dt)) = (cs.map fun q => q.a ^ 2 / 2).sum ∧
    (∀ q ∈ cs, (∀ r ∈ cs, r.p ≠ q.p → |r.a| < |q.a|) → q.a ≠ 0 → (sp.getTp (-1) (.fin (-1))).1 = .ok (N * dt / q.p)) ∧
    (∀ m : Nat, computeMoment (vec f) (vec S) m (f.getD 0 0) (.fin (f.getD (f.length - 1) 0)) = .ok (cs.map fun q =>
        simpsonWeight ℝ (N / 2 + 1) (q.p - 1) * (((q.p - 1) / (N * dt)) ^ m * (q.a ^ 2 / 12)) +
          simpsonWeight ℝ (N / 2 + 1) q.p * ((q.p / (N * dt)) ^ m * (q.a ^ 2 / 3)) +
          simpsonWeight ℝ (N / 2 + 1) (q.p + 1) * (((q.p + 1) / (N * dt)) ^ m * (q.a ^ 2 / 12))).sum) := by
  obtain ⟨hF, hl, hS⟩ := h
  have hNr : (0 : ℝ) < N := by exact_mod_cast (by omega : 0 < N)
  have hFl : f.length = N / 2 + 1 := by simp [hF]
  have hFg : ∀ k, k < N / 2 + 1 → f.getD k 0 = (k : ℝ) / (N * dt) := fun k hk => by
    rw [hF, getD_map_range (fun (k : Nat) => (k : ℝ) / (N * dt)) _ k 0 hk]
  have hF0 : f.getD 0 0 = 0 := by rw [hFg 0 (by omega)]; simp
  have hu : UniformAxis f (1 / (N * dt)) := by rw [hF]; exact freq_uniform (by omega) hdt
  have hsum : ∀ g : Nat → ℝ, ∑ k ∈ range (N / 2 + 1), g k * S.getD k 0 = (cs.map fun q =>
      g (q.p - 1) * (q.a ^ 2 / 12 * (N * dt)) + g q.p * (q.a ^ 2 / 3 * (N * dt)) + g (q.p + 1) * (q.a ^ 2 / 12 * (N * dt))).sum := by
    intro g
    rw [sum_congr rfl (g := fun k => (cs.map fun q => g k * lineDens N dt q k).sum) fun k hk => by
      rw [hS k (mem_range.1 hk), List.sum_map_mul_left], sum_comm_list]
    congr 1
    exact List.map_congr_left fun q hq => lineDens_sum (hcs q hq) g
  refine ⟨?_, ?_, fun m => ?_⟩
  · have := hsum fun _ => 1
    simp only [one_mul] at this
    rw [list_sum_getD, hl, this, ← List.sum_map_mul_right]
    congr 1
    refine List.map_congr_left fun q _ => ?_
    field_simp
    ring
  · intro q hq hmax ha
    obtain ⟨hp, hpN⟩ := hcs q hq
    have hp' : (0 : ℝ) < q.p := by exact_mod_cast (by omega : 0 < q.p)
    have hfp : f.getD q.p 0 = q.p / (N * dt) := hFg q.p (by omega)
    have hND : 0 < N * dt := by positivity
    have ha2 : 0 < q.a ^ 2 := by positivity
    have hSp : S.getD q.p 0 = q.a ^ 2 / 3 * (N * dt) := by
      rw [hS q.p (by omega)]
      have hself : lineDens N dt q q.p = q.a ^ 2 / 3 * (N * dt) := by unfold lineDens; rw [if_pos rfl]
      rcases sea_local (N := N) (dt := dt) hap q.p with h | ⟨r, hr, h1, h2⟩
      · have := h q hq
        rw [hself] at this
        exact absurd this (by positivity)
      · have : r = q := by
          by_contra hne
          have := apart_ne hap hr hq hne
          omega
        rw [h2, this, hself]
    refine get_Tp_complete (isArr_vec f) (isArr_vec S) hsp ?_
    have hin : InRange f (-1) (.fin (-1)) q.p := ⟨by omega, Or.inl rfl, Or.inl rfl⟩
    have hlt : ∀ l, l < N / 2 + 1 → l ≠ q.p → S.getD l 0 < S.getD q.p 0 := by
      intro l hll hne
      have h0 : 0 < q.a ^ 2 / 3 * (N * dt) := by positivity
      rw [hSp, hS l hll]
      rcases sea_local (N := N) (dt := dt) hap l with h | ⟨r, hr, h1, h2⟩
      · rw [List.sum_eq_zero]
        · exact h0
        · intro v hv
          obtain ⟨r, hr, rfl⟩ := List.mem_map.1 hv
          exact h r hr
      · rw [h2]
        have hle : r.p = q.p → r.a ^ 2 = q.a ^ 2 := by
          intro e
          have : r = q := by
            by_contra hne
            have := apart_ne hap hr hq hne
            omega
          rw [this]
        by_cases e : r.p = q.p
        · unfold lineDens
          rw [if_neg (by omega), if_pos (by omega), hle e]
          apply mul_lt_mul_of_pos_right _ hND; linarith
        · have h3 : r.a ^ 2 < q.a ^ 2 := sq_lt_sq.2 (hmax r hr e)
          have h4 : 0 ≤ r.a ^ 2 := sq_nonneg _
          unfold lineDens
          split_ifs
          · apply mul_lt_mul_of_pos_right _ hND; linarith
          · apply mul_lt_mul_of_pos_right _ hND; linarith
          · exact h0
    refine ⟨q.p, hin, by rw [hfp]; positivity, by rw [hfp, one_div_div], fun l hlr => ?_⟩
    have hll : l < N / 2 + 1 := by have := hlr.1; omega
    by_cases e : l = q.p
    · rw [e]; exact ⟨le_rfl, fun h => absurd h (lt_irrefl _)⟩
    · exact ⟨(hlt l hll e).le, fun _ => hlt l hll e⟩
  · have e := full_range_moment hu (by omega) (by omega : f.length = S.length) hF0.ge (m : Int)
    have hd : firstUsable f (m : Int) = 0 := by unfold firstUsable; rw [if_neg (by omega)]
    rw [hd] at e
    simp only [Nat.sub_zero, zero_add, zpow_natCast] at e
    have e' := hsum fun k => simpsonWeight ℝ (N / 2 + 1) k * f.getD k 0 ^ m
    rw [show (vec S : PyIn ℝ) = .nd ⟨[S.length], S⟩ from rfl, e, hFl]
    have e3 : ∑ k ∈ range (N / 2 + 1), simpsonWeight ℝ (N / 2 + 1) k * (f.getD k 0 ^ m * S.getD k 0) =
        ∑ k ∈ range (N / 2 + 1), simpsonWeight ℝ (N / 2 + 1) k * f.getD k 0 ^ m * S.getD k 0 := sum_congr rfl fun k _ => by ring
    rw [e3, e', ← List.sum_map_mul_left]
    congr 2
    refine List.map_congr_left fun q hq => ?_
    obtain ⟨hp, hpN⟩ := hcs q hq
    rw [hFg (q.p - 1) (by omega), hFg q.p (by omega), hFg (q.p + 1) (by omega), Nat.cast_sub (by omega)]
    push_cast
    field_simp

/-! ## The objects -/

/-- The densities, energy, `Tp` and `Hm0` of the Welch spectrum of several regular waves. -/
structure WelchSea (sp : SpecObj) (N : Nat) (dt : ℝ) (cs : List Comp) : Prop where
  /-- the densities are the sums of those of the waves; the sum times the step is the sum of the energies -/
  lines : ∃ S, sp.sVarDens = arr1 S ∧ SeaLines N dt cs sp.f S ∧ S.sum * (1 / (N * dt)) = (cs.map fun q => q.a ^ 2 / 2).sum
  /-- the peak period is the period of the highest wave -/
  peak : ∀ q ∈ cs, (∀ r ∈ cs, r.p ≠ q.p → |r.a| < |q.a|) → q.a ≠ 0 → (sp.getTp (-1) (.fin (-1))).1 = .ok (N * dt / q.p)
  /-- `Hm0` of waves away from the ends of the axis: 10/9 of the energy of waves in odd bins and 8/9 of that of waves in even bins -/
  height : (∀ q ∈ cs, 2 * q.p + 10 < N) → ∃ H, (sp.getHm0 (-1) (.fin (-1))).1 = .ok H ∧
    H ^ 2 = 16 * (cs.map fun q => (if q.p % 2 = 1 then 10 / 9 else 8 / 9) * (q.a ^ 2 / 2)).sum

theorem welchSea_of_lines {N : Nat} {dt : ℝ} {cs : List Comp} {S : List ℝ} {sp : SpecObj} (hcs : ∀ q ∈ cs, FitsSegment N q) (hap : Apart cs)
    (hdt : 0 < dt) (hN : 5 ≤ N) (hS : sp.sVarDens = arr1 S) (h : SeaLines N dt cs sp.f S) (hi : ∃ f S : List ℝ, SpecObj.init (vec f) (vec S) = .ok sp) :
    WelchSea sp N dt cs := by
  obtain ⟨f, S', hi⟩ := hi
  have hi' := (spectrum_init_iff_partial (isArr_vec f) (isArr_vec S')).1 hi
  have e1 : sp.f = f := by rw [hi'.2.2]
  have e2 : S' = S := by
    have : sp.sVarDens = arr1 S' := by rw [hi'.2.2]; rfl
    rw [this] at hS
    exact congrArg Arr.data hS
  rw [e1] at h
  subst e2
  obtain ⟨k1, k2, k3⟩ := sea_parameters hcs hap hdt hN h hi
  refine ⟨⟨S', by rw [hi'.2.2]; rfl, by rw [e1]; exact h, k1⟩, k2, fun hin => ?_⟩
  have m0 : computeMoment (vec f) (vec S') 0 (f.getD 0 0) (.fin (f.getD (f.length - 1) 0)) = _ := k3 0
  have e3 : (cs.map fun q => simpsonWeight ℝ (N / 2 + 1) (q.p - 1) * (((q.p - 1) / (N * dt)) ^ 0 * (q.a ^ 2 / 12)) +
          simpsonWeight ℝ (N / 2 + 1) q.p * ((q.p / (N * dt)) ^ 0 * (q.a ^ 2 / 3)) +
          simpsonWeight ℝ (N / 2 + 1) (q.p + 1) * (((q.p + 1) / (N * dt)) ^ 0 * (q.a ^ 2 / 12))) =
      cs.map fun q => (if q.p % 2 = 1 then 10 / 9 else 8 / 9) * (q.a ^ 2 / 2) := by
    refine List.map_congr_left fun q hq => ?_
    have hp := (hcs q hq).1
    have hq := hin q hq
    rw [simpsonWeight_interior (by omega) (by omega), simpsonWeight_interior (by omega) (by omega), simpsonWeight_interior (by omega) (by omega)]
    by_cases ho : q.p % 2 = 1
    · rw [if_pos ho, if_pos ho, if_neg (by omega), if_neg (by omega)]; ring
    · rw [if_neg ho, if_neg ho, if_pos (by omega), if_pos (by omega)]; ring
  rw [e3] at m0
  have hv : 0 ≤ (cs.map fun q : Comp => (if q.p % 2 = 1 then (10 / 9 : ℝ) else 8 / 9) * (q.a ^ 2 / 2)).sum := by
    apply List.sum_nonneg
    intro v hv
    obtain ⟨q, -, rfl⟩ := List.mem_map.1 hv
    split_ifs <;> positivity
  refine ⟨4 * √((cs.map fun q : Comp => (if q.p % 2 = 1 then (10 / 9 : ℝ) else 8 / 9) * (q.a ^ 2 / 2)).sum), ?_, ?_⟩
  · rw [hi'.2.2]
    show calcHm0 f ⟨[S'.length], S'⟩ (-1) (.fin (-1)) = _
    unfold calcHm0
    rw [getD_default_limits]
    dsimp only
    rw [show (PyIn.nd ⟨[S'.length], S'⟩ : PyIn ℝ) = vec S' from rfl, m0]
    exact height_def hv
  · rw [mul_pow, Real.sq_sqrt hv]; norm_num

/-- **C154 (explicit segment length).**  `get_spectrum` with the Hann window, segments of `N` samples and any overlap, of a record of any length
`L ≥ N` of any number of regular waves, each fitting a whole number of times in a segment, at least three bins apart. -/
theorem welch_sea_explicit {pt px : PyIn ℝ} {t : List ℝ} {L N : Nat} {nov : Int} {c dt : ℝ} {cs : List Comp} (hcs : ∀ q ∈ cs, FitsSegment N q) (hap : Apart cs)
    (hN : 5 ≤ N) (hL : N ≤ L) (ht : pt.IsVec t) (hx : px.IsVec (longSea L N c cs)) (hlen : t.length = L) (hu : UniformAxis t dt) (hnov : nov < N) (df : ℝ) :
    ∃ s sp, SeriesObj.init pt px = .ok s ∧ s.getSpectrum N nov 0 "hann" df false = .ok sp ∧ WelchSea sp N dt cs := by
  have hxl := longSea_length L N c cs
  obtain ⟨s, sp, S, h1, h2, h3, h4⟩ := get_spectrum_explicit ht hx (by omega) (by omega) hu (nps := N) (nov := nov) (nfft := 0) (N := N) (M := N)
    (v := if nov = 0 then ((N / 2 : Nat) : Int) else nov) (w := hann N) (window := "hann") (by rw [if_neg (by omega), hxl, Nat.min_eq_left hL]) (by rw [if_pos rfl]) rfl
    (by omega) (by omega) le_rfl (by split_ifs <;> omega) (by unfold getWindow; rw [if_pos rfl]) df
  exact ⟨s, sp, h1, h2, welchSea_of_lines hcs hap hu.1 hN h3 (welch_sea hcs hap hN hL h4) (getSpectrum_init h2)⟩

/-- **C154 (desired resolution).**  The same for a desired resolution that makes the segments `N` samples long. -/
theorem welch_sea_resolution {pt px : PyIn ℝ} {t : List ℝ} {L N : Nat} {c dt df : ℝ} {cs : List Comp} (hcs : ∀ q ∈ cs, FitsSegment N q) (hap : Apart cs)
    (hN5 : 5 ≤ N) (hL : N ≤ L) (ht : pt.IsVec t) (hx : px.IsVec (longSea L N c cs)) (hlen : t.length = L) (hu : UniformAxis t dt) (hdf : 0 < df)
    (hN : roundHalfEven (1 / dt / df) = N) (nps nov : Int) :
    ∃ s sp, SeriesObj.init pt px = .ok s ∧ s.getSpectrum nps nov 0 "hann" df true = .ok sp ∧ WelchSea sp N dt cs := by
  have hxl := longSea_length L N c cs
  obtain ⟨s, sp, S, v, h1, h2, h3, h4, -⟩ := get_spectrum_resolution_partial ht hx (by omega) (by omega) hu hdf hN (by omega) (by omega) nps nov
  exact ⟨s, sp, h1, h2, welchSea_of_lines hcs hap hu.1 hN5 h3 (welch_sea hcs hap hN5 hL h4) (getSpectrum_init h2)⟩

theorem axis_range (L : Nat) : UniformAxis ((List.range L).map fun (i : Nat) => (i : ℝ)) (1 : ℝ) := by
  refine ⟨one_pos, fun i hi => ?_⟩
  simp only [List.length_map, List.length_range] at hi
  rw [getD_map_range (fun (i : Nat) => (i : ℝ)) _ _ 0 (by omega), getD_map_range (fun (i : Nat) => (i : ℝ)) _ _ 0 (by omega)]
  push_cast; ring

/-- A swell of period 8 and amplitude 3 with a wind sea of period 4 and amplitude 1, in segments of 40 samples of a record of 100. -/
example : ∃ s sp, SeriesObj.init (vec ((List.range 100).map fun (i : Nat) => (i : ℝ))) (vec (longSea 100 40 2 [⟨5, 3, 1⟩, ⟨10, 1, 0⟩])) = .ok s ∧
    s.getSpectrum (40 : ℕ) (0 : ℕ) 0 "hann" 0 false = .ok sp ∧ (sp.getTp (-1) (.fin (-1))).1 = .ok 8 ∧
    ∃ H, (sp.getHm0 (-1) (.fin (-1))).1 = .ok H ∧ H ^ 2 = 16 * (5 + 4 / 9) := by
  obtain ⟨s, sp, h1, h2, h3⟩ := welch_sea_explicit (c := 2) (N := 40) (L := 100) (nov := 0) (cs := [⟨5, 3, 1⟩, ⟨10, 1, 0⟩])
    (by intro q hq; simp only [List.mem_cons, List.not_mem_nil, or_false] at hq; unfold FitsSegment; rcases hq with rfl | rfl <;> simp)
    (by unfold Apart; simp) (by norm_num) (by norm_num) (isVec_vec _) (isVec_vec _) (by simp) (axis_range 100) (by norm_num) 0
  obtain ⟨H, k1, k2⟩ := h3.height (by intro q hq; simp only [List.mem_cons, List.not_mem_nil, or_false] at hq; rcases hq with rfl | rfl <;> simp)
  refine ⟨s, sp, h1, h2, (h3.peak ⟨5, 3, 1⟩ (by simp) ?_ (by simp)).trans (by norm_num), H, k1, k2.trans (by norm_num)⟩
  intro q hq hne
  simp only [List.mem_cons, List.not_mem_nil, or_false] at hq
  rcases hq with rfl | rfl
  · exact absurd rfl hne
  · norm_num

end Verif
