import Verif.Props.RoundTrip
import Verif.Props.Engine
import Verif.Props.Cross
import Mathlib.Algebra.Order.BigOperators.Group.Finset
import Mathlib.Algebra.BigOperators.Field

/-! # C83 get_crossing, C84 create_series, C85 the exact acceptance test of `Series` -/

set_option linter.unusedSectionVars false

namespace Verif
variable {K : Type} [Field K] [LinearOrder K] [IsStrictOrderedRing K]
open Finset

/-! ## C83 -/

/-- **C83.** `get_crossing` of a series with a uniform time axis: "down" (in any case) lists the interpolated zeros of exactly the
down-going sign changes of the signal, "up" those of the up-going ones, in increasing order, with the number of waves between them;
any other string raises `ValueError`. -/
theorem get_crossing_exact {s : SeriesObj K} {t x : List K} {dt : K} (hst : s.time = arr1 t) (hsx : s.xTime = arr1 x)
    (h2 : 2 ≤ t.length) (hlen : t.length = x.length) (hu : UniformAxis t dt) (ty : String) :
    (ty.toLower = "down" → ∃ n tc idx, s.getCrossing ty = .ok (n, tc) ∧ ListsExactly idx (DownCrossing x) ∧
      List.Forall₂ (IsInterpolatedZero t x) idx tc ∧ tc.Pairwise (· < ·) ∧ n = max 0 ((tc.length : Int) - 1)) ∧
    (ty.toLower = "up" → ∃ n tc idx, s.getCrossing ty = .ok (n, tc) ∧ ListsExactly idx (UpCrossing x) ∧
      List.Forall₂ (IsInterpolatedZero t x) idx tc ∧ tc.Pairwise (· < ·) ∧ n = max 0 ((tc.length : Int) - 1)) ∧
    (ty.toLower ≠ "down" → ty.toLower ≠ "up" → ∃ msg, s.getCrossing ty = .error (.valueError msg)) := by
  have hg : ∀ ty, s.getCrossing ty = determineZeroCrossing (vec t) (vec x) ty := fun ty => by
    unfold SeriesObj.getCrossing; rw [hst, hsx]; rfl
  have hd : ("down" : String).toLower = "down" := by decide +kernel
  have hup : ("up" : String).toLower = "up" := by decide +kernel
  refine ⟨fun h => ?_, fun h => ?_, fun h h' => ?_⟩
  · obtain ⟨n, tc, idx, a1, a2, a3, a4⟩ := down_crossing_times (isVec_vec t) (isVec_vec x) h2 hlen hu
    obtain ⟨n', tc', idx', b1, b2, b3, b4⟩ := down_crossings_exact (isVec_vec t) (isVec_vec x) h2 hlen
    rw [a1] at b1
    simp only [Except.ok.injEq, Prod.mk.injEq] at b1
    obtain ⟨rfl, rfl⟩ := b1
    refine ⟨n, tc, idx, ?_, a2, a3, a4, ?_⟩
    · rw [hg, typeCross_case_insensitive _ _ (h.trans hd.symm), a1]
    · rw [b4, b3]; split_ifs <;> omega
  · obtain ⟨n, tc, idx, a1, a2, a3, a4⟩ := up_crossing_times (isVec_vec t) (isVec_vec x) h2 hlen hu
    obtain ⟨n', tc', idx', b1, b2, b3, b4⟩ := up_crossings_exact (isVec_vec t) (isVec_vec x) h2 hlen
    rw [a1] at b1
    simp only [Except.ok.injEq, Prod.mk.injEq] at b1
    obtain ⟨rfl, rfl⟩ := b1
    refine ⟨n, tc, idx, ?_, a2, a3, a4, ?_⟩
    · rw [hg, typeCross_case_insensitive _ _ (h.trans hup.symm), a1]
    · rw [b4, b3]; split_ifs <;> omega
  · have := typeCross_validated (isVec_vec t) (isVec_vec x) h2 hlen ty
    rw [if_neg (by tauto)] at this
    rw [hg]; exact this

/-- **C83.** Right after construction the stored crossings and the number of waves are those of `get_crossing("down")`. -/
theorem get_crossing_stored {pt px : PyIn K} {t x : List K} {dt : K} (ht : pt.IsVec t) (hx : px.IsVec x) (h2 : 2 ≤ t.length)
    (hlen : t.length = x.length) (hu : UniformAxis t dt) :
    ∃ s, SeriesObj.init pt px = .ok s ∧ s.getCrossing "down" = .ok ((s.wh.nwave : Int), s.tCross) := by
  obtain ⟨s, n, tc, w, a1, a2, a3, a4, a5, a6, a7, a8, a9, a10, a11⟩ := series_never_fails ht hx h2 hlen hu
  refine ⟨s, a1, ?_⟩
  unfold SeriesObj.getCrossing
  rw [a2, a3, a8, a10]; exact a6

example : (do
    let s ← SeriesObj.init (K := ℚ) (vec [0, 1, 2, 3, 4, 5]) (vec [1, -1, 3, -1, 1, -1])
    let a ← s.getCrossing "DOWN"
    let b ← s.getCrossing "up"
    return (a, b)) = .ok ((2, [1/2, 11/4, 9/2]), (1, [5/4, 7/2])) := by decide +kernel

/-! ## C84 -/

/-- **C84.** `create_series` of a valid spectrum with non-negative densities does not reseed the generator: its phases are `2 pi`
times the next numbers of the global generator in its current state `g`, one per two samples, and the generator is left after them; the
signal is the random-phase sum of the interpolated density with these phases. -/
theorem create_series_draws (R : Rng) {pf pS : PyIn ℝ} {f S : List ℝ} (hf : pf.IsArr f) (hS : pS.IsArr S) {sp : SpecObj}
    (hsp : SpecObj.init pf pS = .ok sp) (hpos : ∀ v ∈ S, 0 ≤ v) {tstart tend dt : ℝ} (hdt : 0 < dt) (ht : tstart < tend) (g : R.State) :
    ∃ o t x S', sp.createSeries R tstart tend dt g = (.ok o, (R.rand g ((t.length + 1) / 2)).2) ∧
      o.time = arr1 t ∧ o.xTime = arr1 x ∧ t.length = x.length ∧ (∀ j < t.length, t.getD j 0 = tstart + j * dt) ∧
      tend ≤ t.getD (t.length - 1) 0 ∧ t.getD (t.length - 1) 0 < tend + dt ∧ IsInterpolant f S S' ∧
      ∀ j < t.length, x.getD j 0 = randomPhaseSum ((t.length + 1) / 2) dt S'
        (fun i => 2 * Real.pi * ((R.rand g ((t.length + 1) / 2)).1.getD i 0)) j := by
  obtain ⟨hm, hl, rfl⟩ := (spectrum_init_iff_partial hf hS).1 hsp
  have hinc := uniform_check_increasing hm
  have hne : f ≠ [] := by have := mono_two_le hm; rintro rfl; simp at this
  obtain ⟨t, x, o, g', h1, h2, h3, h4, h5, h6⟩ := synth_object R (isArr_vec f) (.nd S) hl hne hinc hpos hdt ht (seed := -1)
    (by norm_num) g
  obtain ⟨t', x', S', φ, a1, a2, a3, a4, a5, a6, a7, a8, a9⟩ :=
    synth_formula R (isArr_vec f) (.nd S) hl hne hinc hpos hdt ht.le (seed := -1) (by norm_num) g
  have hst := a1.symm.trans h1
  simp only [Prod.mk.injEq, Except.ok.injEq] at hst
  obtain ⟨⟨rfl, rfl⟩, rfl⟩ := hst
  have hss : seededState R (-1) g = g := by unfold seededState; rw [if_neg (by norm_num)]
  rw [hss] at h2 a8
  refine ⟨o, t', x', S', h2, h3, h4, a2, a4, a5, a6, a7, fun j hj => ?_⟩
  rw [a9 j hj]
  congr 1
  funext i
  exact a8 i

/-! ## C85 -/

/-- The mean step of an axis: the whole duration divided by the number of steps. -/
def meanStep (t : List K) : K := (t.getD (t.length - 1) 0 - t.getD 0 0) / ((t.length - 1 : Nat) : K)

/-- The mean squared deviation of the steps from the mean step. -/
def stepVariance (t : List K) : K :=
  (∑ i ∈ range (t.length - 1), (t.getD (i + 1) 0 - t.getD i 0 - meanStep t) ^ 2) / ((t.length - 1 : Nat) : K)

theorem sum_diff_fun (t : List K) (g : K → K) :
    ((diff t).map g).sum = ∑ i ∈ range (t.length - 1), g (t.getD (i + 1) 0 - t.getD i 0) := by
  fun_induction diff t with
  | case1 a b l ih =>
    rw [List.map_cons, List.sum_cons, ih]
    simp only [List.length_cons, Nat.add_sub_cancel]
    rw [sum_range_succ' _ (l.length), add_comm]
    rfl
  | case2 l h =>
    rcases l with _ | ⟨a, _ | ⟨b, l⟩⟩
    · simp
    · simp
    · exact absurd rfl (h a b l)

theorem mean_diff (t : List K) : mean (diff t) = meanStep t := by
  unfold mean meanStep
  rw [diff_length]
  congr 1
  have := sum_diff_fun t id
  rw [List.map_id] at this
  rw [this]
  simp only [id]
  exact sum_range_sub (fun i => t.getD i 0) _

theorem variance_diff (t : List K) : variance (diff t) = stepVariance t := by
  unfold variance stepVariance
  rw [mean_diff]
  unfold mean
  rw [List.length_map, diff_length, sum_diff_fun t (fun v => (v - meanStep t) ^ 2)]

theorem mean_diff_div (t : List K) : mean ((diff t).map (· / 100)) = meanStep t / 100 := by
  rw [← mean_diff]
  unfold mean
  rw [List.length_map, sum_map_div']
  ring

/-- The call does not raise `AssertionError`. -/
def NoAssert {α : Type} (r : Except PyErr α) : Prop := ∀ m, r ≠ .error (.assertionError m)

theorem NoAssert.bind {α β : Type} {r : Except PyErr α} {g : α → Except PyErr β} (h : NoAssert r) (hg : ∀ a, NoAssert (g a)) :
    NoAssert (r >>= g) := by
  rcases r with e | a
  · intro m hm
    exact h m (by simpa [Bind.bind, Except.bind] using hm)
  · exact hg a

theorem NoAssert.ok {α : Type} (a : α) : NoAssert (.ok a) := fun m h => by simp at h
theorem NoAssert.value {α : Type} (s : String) : NoAssert (.error (.valueError s) : Except PyErr α) := fun m h => by simp at h
theorem NoAssert.index {α : Type} : NoAssert (.error .indexError : Except PyErr α) := fun m h => by simp at h

theorem NoAssert.getE {α : Type} (l : List α) (i : Nat) : NoAssert (getE l i) := by
  unfold Verif.getE; split <;> first | exact .ok _ | exact .index

theorem NoAssert.lastE {α : Type} (l : List α) : NoAssert (lastE l) := by
  unfold Verif.lastE; split <;> first | exact .ok _ | exact .index

theorem NoAssert.pyMax (l : List K) : NoAssert (pyMax l) := by
  unfold Verif.pyMax; split <;> first | exact .ok _ | exact .value _

theorem NoAssert.pyMin (l : List K) : NoAssert (pyMin l) := by
  unfold Verif.pyMin; split <;> first | exact .ok _ | exact .value _

theorem NoAssert.mapM {α β : Type} {g : α → Except PyErr β} (l : List α) (hg : ∀ a, NoAssert (g a)) : NoAssert (l.mapM g) := by
  induction l with
  | nil => exact .ok _
  | cons a l ih =>
    rw [List.mapM_cons]
    exact (hg a).bind fun b => ih.bind fun bs => .ok _

theorem NoAssert.oneWave (tc t x : List K) (i : Nat) : NoAssert (oneWave tc t x i) := by
  unfold Verif.oneWave
  exact (NoAssert.getE _ _).bind fun _ => (NoAssert.getE _ _).bind fun _ => (NoAssert.getE _ _).bind fun _ =>
    (NoAssert.lastE _).bind fun _ => (NoAssert.pyMax _).bind fun _ => (NoAssert.getE _ _).bind fun _ => (NoAssert.pyMin _).bind fun _ =>
    (NoAssert.getE _ _).bind fun _ => (NoAssert.getE _ _).bind fun _ => (NoAssert.getE _ _).bind fun _ => (NoAssert.getE _ _).bind fun _ =>
    (NoAssert.getE _ _).bind fun _ => .ok _

theorem NoAssert.analysis (s : SeriesObj K) (ty : String) (xlow : List K) (m : K) : NoAssert (determineIndividualWaves s ty xlow m) := by
  unfold determineIndividualWaves
  refine NoAssert.bind ?_ fun a => NoAssert.bind ?_ fun w => NoAssert.bind ?_ fun wh => .ok _
  · unfold determineZeroCrossing
    dsimp only
    split_ifs <;> first | exact .ok _ | exact .value _ | exact .index
  · unfold determineParamsIndividualWaves
    dsimp only
    split_ifs <;> first | exact .ok _ | exact .value _ | exact .index | exact (NoAssert.mapM _ fun _ => .oneWave _ _ _ _).bind fun _ => .ok _
  · rw [WH_init_vec]; exact .ok _

/-- **C85.** `Series(t, x)` on two 1D arrays raises `AssertionError` exactly when the lengths differ, when there are fewer than two
samples, or when the variance of the time steps is not smaller than a hundredth of the mean step. -/
theorem series_assertion_iff {pt px : PyIn K} {t x : List K} (ht : pt.IsVec t) (hx : px.IsVec x) :
    (∃ msg, SeriesObj.init pt px = .error (.assertionError msg)) ↔
      (t.length ≠ x.length ∨ t.length < 2 ∨ meanStep t / 100 ≤ stepVariance t) := by
  by_cases hl : t.length = x.length
  swap
  · exact ⟨fun _ => .inl hl, fun _ => ⟨_, series_length_mismatch ht hx hl⟩⟩
  have hde : diff t ≠ [] ↔ 2 ≤ t.length := by
    rw [← List.length_pos_iff_ne_nil, diff_length]; omega
  have key : SeriesObj.init pt px = if 2 ≤ t.length ∧ stepVariance t < meanStep t / 100 then
      (do
        let s0 : SeriesObj K := { time := arr1 t, xTime := arr1 x, nt := t.length, dt := meanStep t, tCross := [], wh := ⟨arr1 [], 0, arr1 []⟩ }
        let (w, _, s1) ← determineIndividualWaves s0 "down" (zerosLike (arr1 x)) 0
        let wh ← WH.init (vec w.hWave) (vec w.tWave)
        return { s1 with wh := wh })
      else .error (.assertionError "Input error: time step is not equidistant") := by
    unfold SeriesObj.init
    rw [toVector_of_isVec ht, toVector_of_isVec hx]
    dsimp only
    have ht : timeSteps (⟨[t.length], t⟩ : Arr K) = .ok (diff t) := rfl
    rw [if_neg (by simpa using hl), ht]
    simp only [bind, Except.bind]
    rw [variance_diff, mean_diff_div, mean_diff]
    by_cases h2 : 2 ≤ t.length ∧ stepVariance t < meanStep t / 100
    · rw [if_pos h2, if_pos ⟨hde.2 h2.1, h2.2⟩]; rfl
    · rw [if_neg h2, if_neg (fun h => h2 ⟨hde.1 h.1, h.2⟩)]
  rw [key]
  by_cases h2 : 2 ≤ t.length ∧ stepVariance t < meanStep t / 100
  · rw [if_pos h2]
    constructor
    · rintro ⟨msg, h⟩
      exact absurd h (NoAssert.bind (NoAssert.analysis _ _ _ _) (fun a => NoAssert.bind (by rw [WH_init_vec]; exact .ok _) fun _ => .ok _) msg)
    · rintro (h | h | h)
      · exact absurd hl h
      · omega
      · exact absurd h2.2 (not_lt.2 h)
  · rw [if_neg h2]
    refine ⟨fun _ => ?_, fun _ => ⟨_, rfl⟩⟩
    by_contra hc
    push Not at hc
    exact h2 ⟨hc.2.1, hc.2.2⟩

theorem getD_scale (c : K) (t : List K) (i : Nat) : (t.map (c * ·)).getD i 0 = c * t.getD i 0 := by
  rw [List.getD_eq_getElem?_getD, List.getD_eq_getElem?_getD, List.getElem?_map]
  cases t[i]? <;> simp

theorem meanStep_scale (c : K) (t : List K) : meanStep (t.map (c * ·)) = c * meanStep t := by
  unfold meanStep
  rw [getD_scale, getD_scale, List.length_map]; ring

theorem stepVariance_scale (c : K) (t : List K) : stepVariance (t.map (c * ·)) = c ^ 2 * stepVariance t := by
  unfold stepVariance
  rw [List.length_map, meanStep_scale, ← mul_div_assoc, mul_sum]
  congr 1
  refine sum_congr rfl fun i _ => ?_
  rw [getD_scale, getD_scale]; ring

/-- **C85 (the test depends on the time unit).** Whether a time axis passes the test of the constructor depends on the unit of time: with
all times multiplied by `c > 0`, `AssertionError` is raised exactly if `c` times the variance of the steps is at least a hundredth of the mean
step.  So *every* axis that ends later than it starts passes in a large enough unit, and every one with unequal steps is rejected in a small
enough unit. -/
theorem series_unit_dependent {t x : List K} (h2 : 2 ≤ t.length) (hlen : t.length = x.length) (hm : 0 < meanStep t) :
    (∀ c, 0 < c → ((∃ msg, SeriesObj.init (vec (t.map (c * ·))) (vec x) = .error (.assertionError msg)) ↔
      meanStep t / 100 ≤ c * stepVariance t)) ∧
    (∃ c0, 0 < c0 ∧ ∀ c, 0 < c → c ≤ c0 → ¬ ∃ msg, SeriesObj.init (vec (t.map (c * ·))) (vec x) = .error (.assertionError msg)) ∧
    ((∃ i, i + 1 < t.length ∧ t.getD (i + 1) 0 - t.getD i 0 ≠ meanStep t) →
      ∃ c1, 0 < c1 ∧ ∀ c, c1 ≤ c → ∃ msg, SeriesObj.init (vec (t.map (c * ·))) (vec x) = .error (.assertionError msg)) := by
  have key : ∀ c, 0 < c → ((∃ msg, SeriesObj.init (vec (t.map (c * ·))) (vec x) = .error (.assertionError msg)) ↔
      meanStep t / 100 ≤ c * stepVariance t) := by
    intro c hc
    rw [series_assertion_iff (isVec_vec _) (isVec_vec _), meanStep_scale, stepVariance_scale, List.length_map]
    constructor
    · rintro (h | h | h)
      · exact absurd hlen h
      · omega
      · have : c * (meanStep t / 100) ≤ c * (c * stepVariance t) := by linarith [h, show c ^ 2 * stepVariance t = c * (c * stepVariance t) by ring]
        exact le_of_mul_le_mul_left this hc
    · intro h
      have := mul_le_mul_of_nonneg_left h hc.le
      right; right
      linarith [show c ^ 2 * stepVariance t = c * (c * stepVariance t) by ring]
  have hn : (0 : K) < ((t.length - 1 : Nat) : K) := by exact_mod_cast (by omega : 0 < t.length - 1)
  have hv : 0 ≤ stepVariance t := div_nonneg (sum_nonneg fun i _ => sq_nonneg _) hn.le
  refine ⟨key, ⟨meanStep t / 100 / (stepVariance t + 1) / 2, by positivity, ?_⟩, ?_⟩
  · intro c hc hle h
    have h1 := (key c hc).1 h
    have hp : 0 < stepVariance t + 1 := by linarith
    have h3 : c * stepVariance t ≤ meanStep t / 100 / (stepVariance t + 1) / 2 * (stepVariance t + 1) :=
      mul_le_mul hle (by linarith) hv (by positivity)
    have h4 : meanStep t / 100 / (stepVariance t + 1) / 2 * (stepVariance t + 1) = meanStep t / 100 / 2 := by field_simp
    linarith
  · rintro ⟨i, hi, hne⟩
    have hv' : 0 < stepVariance t := by
      refine div_pos ?_ hn
      refine sum_pos' (fun j _ => sq_nonneg _) ⟨i, mem_range.2 (by omega), ?_⟩
      have : t.getD (i + 1) 0 - t.getD i 0 - meanStep t ≠ 0 := sub_ne_zero.2 hne
      positivity
    refine ⟨meanStep t / 100 / stepVariance t, by positivity, fun c hc => ?_⟩
    refine (key c (lt_of_lt_of_le (by positivity) hc)).2 ?_
    rwa [div_le_iff₀ hv'] at hc

/-- Concrete: the axis 0, 1, 11 (steps 1 and 10) is rejected in seconds and accepted when the unit is kilo-seconds. -/
example : (∃ m, SeriesObj.init (K := ℚ) (vec [0, 1, 11]) (vec [1, -1, 1]) = .error (.assertionError m)) ∧
    (SeriesObj.init (K := ℚ) (vec [0, 1/1000, 11/1000]) (vec [1, -1, 1])).isOk = true :=
  ⟨⟨"Input error: time step is not equidistant", by decide +kernel⟩, by decide +kernel⟩

/-- **C85 (the check used by the spectral routines), exact.**  For at least two elements the answer is True exactly when every step is positive
and exceeds the first step by less than `10^6` machine epsilons (`10^6 / 2^52`, an absolute tolerance); so a True answer bounds the whole axis:
`x_i <= x_0 + i (x_1 - x_0) + i 10^6 / 2^52`. -/
theorem uniform_check_exact {x : List K} (h2 : 2 ≤ x.length) :
    ∃ b, monotonicIncreasingConstantStep x = .ok b ∧
      (b = true ↔ ∀ i, i + 1 < x.length → 0 < x.getD (i + 1) 0 - x.getD i 0 ∧
        (x.getD (i + 1) 0 - x.getD i 0) - (x.getD 1 0 - x.getD 0 0) < 1000000 / 2 ^ 52) ∧
      (b = true → ∀ i < x.length, x.getD i 0 ≤ x.getD 0 0 + i * (x.getD 1 0 - x.getD 0 0) + i * (1000000 / 2 ^ 52)) := by
  obtain ⟨b, h1, h3⟩ := uniform_check_iff_partial h2
  refine ⟨b, h1, h3, fun hb i hi => ?_⟩
  have h4 := h3.1 hb
  unfold stepAt at h4
  induction i with
  | zero => simp
  | succ i ih =>
    have h5 := ih (by omega)
    have h6 := (h4 i hi).2
    simp only [Nat.zero_add] at h6
    push_cast
    linarith

/-- The tolerance is absolute: 10^6 machine epsilons (about 2.2e-10) are too much, half of it is accepted. -/
example : monotonicIncreasingConstantStep (K := ℚ) [0, 1, 2 + 1000000 / 2 ^ 52] = .ok false ∧
    monotonicIncreasingConstantStep (K := ℚ) [0, 1, 2 + 500000 / 2 ^ 52] = .ok true := by
  constructor <;> decide +kernel

/-! ## Concrete cases: the hypotheses of the theorems above are met -/

example : ∃ s, SeriesObj.init (K := ℚ) (vec [0, 1, 2, 3, 4, 5]) (vec [1, -1, 3, -1, 1, -1]) = .ok s ∧ ∃ n tc, s.getCrossing "UP" = .ok (n, tc) := by
  have hu : UniformAxis ([0, 1, 2, 3, 4, 5] : List ℚ) 1 := uniformAxis_of_steps (by norm_num) (by decide +kernel)
  obtain ⟨s, -, -, -, hs, ht, hx, -⟩ := series_never_fails (isVec_vec ([0, 1, 2, 3, 4, 5] : List ℚ)) (isVec_vec ([1, -1, 3, -1, 1, -1] : List ℚ)) (by simp) rfl hu
  obtain ⟨n, tc, idx, e, -⟩ := (get_crossing_exact (s := s) ht hx (by simp) rfl hu "UP").2.1 (by decide +kernel)
  exact ⟨s, hs, n, tc, e⟩
example := get_crossing_stored (isVec_vec ([0, 1, 2, 3, 4, 5] : List ℚ)) (isVec_vec ([1, -1, 3, -1, 1, -1] : List ℚ)) (by simp) rfl
  (uniformAxis_of_steps (dt := 1) (by norm_num) (by decide +kernel))
example : ∃ sp, SpecObj.init (vec [1 / 8, 2 / 8, 3 / 8]) (vec [1, 3, 2]) = .ok sp ∧ ∃ o g, sp.createSeries quarterRng 0 3 1 (5 : Nat) = (.ok o, g) := by
  have hu : UniformAxis ([1 / 8, 2 / 8, 3 / 8] : List ℝ) (1 / 8) :=
    uniformAxis_of_steps (by norm_num) fun i hi => by have : i < 2 := hi; interval_cases i <;> norm_num
  have hsp := (spectrum_init_iff_partial (isArr_vec ([1 / 8, 2 / 8, 3 / 8] : List ℝ)) (isArr_vec [1, 3, 2])
    (s := _)).2 ⟨uniform_check_accepts_uniform (by simp) hu, rfl, rfl⟩
  obtain ⟨o, t, x, S', h, -⟩ := create_series_draws quarterRng (isArr_vec ([1 / 8, 2 / 8, 3 / 8] : List ℝ)) (isArr_vec [1, 3, 2]) hsp (by norm_num)
    (tstart := 0) (tend := 3) (dt := 1) (by norm_num) (by norm_num) (5 : Nat)
  exact ⟨_, hsp, o, _, h⟩
example : ∃ msg, SeriesObj.init (K := ℚ) (vec [0, 1, 11]) (vec [1, -1, 1]) = .error (.assertionError msg) :=
  (series_assertion_iff (isVec_vec _) (isVec_vec _)).2 (.inr (.inr (by decide +kernel)))
example := series_unit_dependent (t := ([0, 1, 11] : List ℚ)) (x := [1, -1, 1]) (by simp) rfl (by decide +kernel)
example := uniform_check_exact (x := ([0, 1, 2 + 500000 / 2 ^ 52] : List ℚ)) (by simp)

end Verif
