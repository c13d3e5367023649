import Verif.Model.FixedWidth
import Verif.Props.SeriesInit
import Mathlib.Tactic

/-! # C130-C133: records, heights and axes of a fixed-width integer type -/

namespace Verif

set_option linter.unusedSectionVars false

/-! ## Specification -/

/-- `z` is a value of the signed `w`-bit type. -/
def Fits (w : Nat) (z : Int) : Prop := -2 ^ (w - 1) ≤ z ∧ z < 2 ^ (w - 1)

/-- `v` is what the signed `w`-bit type stores for the exact result `z`. -/
def StoredAs (w : Nat) (z v : Int) : Prop := Fits w v ∧ (2 ^ w : Int) ∣ z - v

theorem pow_pred {w : Nat} (hw : 1 ≤ w) : (2 : Int) ^ w = 2 * 2 ^ (w - 1) := by
  obtain ⟨n, rfl⟩ : ∃ n, w = n + 1 := ⟨w - 1, by omega⟩
  simp [pow_succ, mul_comm]

/-- The wrap of the model is two's complement. -/
theorem wrapS_spec {w : Nat} (hw : 1 ≤ w) (z : Int) : StoredAs w z (wrapS w z) := by
  have hp := pow_pred hw
  have hP : (0 : Int) < 2 ^ (w - 1) := by positivity
  have hc : (((2 ^ w : Nat)) : Int) = 2 ^ w := by push_cast; rfl
  have hpos : 0 < 2 ^ w := by positivity
  refine ⟨⟨?_, ?_⟩, ?_⟩
  · have := Int.le_bmod (x := z) hpos
    rw [hc, hp] at this
    simp only [wrapS]
    omega
  · have := Int.bmod_lt (x := z) hpos
    rw [hc, hp] at this
    simp only [wrapS]
    omega
  · have h : (z - wrapS w z) % ((2 ^ w : Nat) : Int) = 0 := by
      rw [wrapS, Int.sub_emod, Int.bmod_emod, sub_self, Int.zero_emod]
    rw [hc] at h
    exact Int.dvd_of_emod_eq_zero h

theorem storedAs_unique {w : Nat} (hw : 1 ≤ w) {z u v : Int} (hu : StoredAs w z u) (hv : StoredAs w z v) : u = v := by
  have hp := pow_pred hw
  obtain ⟨⟨a1, a2⟩, k, hk⟩ := hu
  obtain ⟨⟨b1, b2⟩, l, hl⟩ := hv
  have hP : (0 : Int) < 2 ^ (w - 1) := by positivity
  have hd : v - u = 2 * 2 ^ (w - 1) * (k - l) := by
    rw [hp] at hk hl; linarith
  have : k - l = 0 := by
    by_contra hne
    rcases lt_or_gt_of_ne hne with h | h
    · have : k - l ≤ -1 := by omega
      nlinarith
    · have : 1 ≤ k - l := by omega
      nlinarith
  rw [this] at hd
  omega

theorem wrapS_eq {w : Nat} (hw : 1 ≤ w) {z v : Int} (h : StoredAs w z v) : wrapS w z = v :=
  storedAs_unique hw (wrapS_spec hw z) h

theorem wrapS_fits {w : Nat} (hw : 1 ≤ w) {z : Int} (h : Fits w z) : wrapS w z = z :=
  wrapS_eq hw ⟨h, by simp⟩

theorem wrapS_over {w : Nat} (hw : 1 ≤ w) {z : Int} (h1 : 2 ^ (w - 1) ≤ z) (h2 : z < 2 ^ w) : wrapS w z = z - 2 ^ w := by
  have hp := pow_pred hw
  refine wrapS_eq hw ⟨⟨?_, ?_⟩, ⟨1, by ring⟩⟩
  · rw [hp]; omega
  · omega

theorem wrapS_under {w : Nat} (hw : 1 ≤ w) {z : Int} (h1 : z < -2 ^ (w - 1)) (h2 : -2 ^ w < z) : wrapS w z = z + 2 ^ w := by
  have hp := pow_pred hw
  refine wrapS_eq hw ⟨⟨?_, ?_⟩, ⟨-1, by ring⟩⟩
  · omega
  · omega

/-! ## C130: the root-mean-square of integer wave heights -/

/-- **C130 (safe heights).** If the square of every height is a value of the type, `get_Hrms` is the one of the same heights
given as floats. -/
theorem int_hrms_safe {w : Nat} (hw : 1 ≤ w) {hIn : PyIn Int} {h : List Int} (hh : hIn.IsVec h) (hne : h ≠ [])
    (hsq : ∀ z ∈ h, z ^ 2 < 2 ^ (w - 1)) {pt : PyIn ℝ} {s : WH ℝ}
    (hs : WH.init (vec (h.map fun z : Int => (z : ℝ))) pt = .ok s) :
    hrmsInt w hIn = s.getHrms ∧ hrmsInt w hIn = .ok (Real.sqrt (mean (h.map fun z : Int => (z : ℝ) ^ 2))) := by
  have hm : (h.map fun z : Int => ((wrapS w (z ^ 2) : Int) : ℝ)) = h.map fun z : Int => (z : ℝ) ^ 2 := by
    refine List.map_congr_left fun z hz => ?_
    rw [wrapS_fits hw ⟨?_, hsq z hz⟩]
    · push_cast; ring
    · have : (0 : Int) < 2 ^ (w - 1) := by positivity
      nlinarith [sq_nonneg z]
  have hnn : 0 ≤ mean (h.map fun z : Int => (z : ℝ) ^ 2) := by
    refine div_nonneg (List.sum_nonneg ?_) (Nat.cast_nonneg _)
    intro v hv
    obtain ⟨z, -, rfl⟩ := List.mem_map.1 hv
    positivity
  have h1 : hrmsInt w hIn = .ok (Real.sqrt (mean (h.map fun z : Int => (z : ℝ) ^ 2))) := by
    have : (toVector hIn).1 = ⟨[h.length], h⟩ := by rw [toVector_of_isVec hh]
    simp only [hrmsInt, this, hm]
    rw [if_neg (by simp), if_neg hne, if_neg (not_lt.2 hnn)]
  refine ⟨?_, h1⟩
  rw [h1]
  have hs' : s.hwave.data = h.map fun z : Int => (z : ℝ) := by
    rw [WH.init, toVector_of_isVec (isVec_vec _)] at hs
    simp at hs
    rw [← hs]
  rw [WH.getHrms, hs', if_neg (by simpa using hne), List.map_map]
  rfl

/-- **C130 (finding).** For every type there is a representable height for which the result is zero: any number of waves of
height `2^ceil(w/2)` (256 for `int16`, 65536 for `int32`) have an Hrms of zero. -/
theorem int_hrms_zero {w : Nat} (hw : 4 ≤ w) {n : Nat} (hn : 0 < n) :
    Fits w (2 ^ ((w + 1) / 2)) ∧
      hrmsInt w (vec (List.replicate n (2 ^ ((w + 1) / 2)))) = .ok 0 := by
  constructor
  · constructor
    · have : (0 : Int) < 2 ^ (w - 1) := by positivity
      have : (0 : Int) < 2 ^ ((w + 1) / 2) := by positivity
      omega
    · exact pow_lt_pow_right₀ (by norm_num) (by omega)
  · have hz : wrapS w ((2 ^ ((w + 1) / 2)) ^ 2) = 0 := by
      refine wrapS_eq (by omega) ⟨⟨?_, ?_⟩, ?_⟩
      · have : (0 : Int) < 2 ^ (w - 1) := by positivity
        omega
      · positivity
      · rw [sub_zero, ← pow_mul]
        exact pow_dvd_pow _ (by omega)
    have hne : List.replicate n ((2 : Int) ^ ((w + 1) / 2)) ≠ [] := by simp; omega
    simp only [hrmsInt, toVector_of_isVec (isVec_vec _), List.map_replicate, hz]
    rw [if_neg (by simp), if_neg hne, if_neg (by simp [mean])]
    simp [mean]

/-- **C130 (finding).** Heights between `sqrt(2^(w-1))` and `sqrt(2^w)` (182 to 255 for `int16`) give NaN. -/
theorem int_hrms_nan {w : Nat} (hw : 1 ≤ w) {hIn : PyIn Int} {h : List Int} (hh : hIn.IsVec h) (hne : h ≠ [])
    (hsq : ∀ z ∈ h, 2 ^ (w - 1) ≤ z ^ 2 ∧ z ^ 2 < 2 ^ w) : hrmsInt w hIn = .error .nonFinite := by
  have : (toVector hIn).1 = ⟨[h.length], h⟩ := by rw [toVector_of_isVec hh]
  have hm : mean (h.map fun z : Int => ((wrapS w (z ^ 2) : Int) : ℝ)) < 0 := by
    refine div_neg_of_neg_of_pos ?_ ?_
    · have hneg : ∀ v ∈ h.map fun z : Int => ((wrapS w (z ^ 2) : Int) : ℝ), v < 0 := by
        intro v hv
        obtain ⟨z, hz, rfl⟩ := List.mem_map.1 hv
        rw [wrapS_over hw (hsq z hz).1 (hsq z hz).2]
        have : z ^ 2 - 2 ^ w < 0 := by have := (hsq z hz).2; omega
        exact_mod_cast this
      have hne' : (h.map fun z : Int => ((wrapS w (z ^ 2) : Int) : ℝ)) ≠ [] := by simpa using hne
      revert hneg hne'
      generalize (h.map fun z : Int => ((wrapS w (z ^ 2) : Int) : ℝ)) = l
      intro hneg hne'
      induction l with
      | nil => exact absurd rfl hne'
      | cons a l ih =>
        rw [List.sum_cons]
        have ha := hneg a (by simp)
        by_cases hl : l = []
        · subst hl; simpa using ha
        · have := ih (fun v hv => hneg v (by simp [hv])) hl
          linarith
    · simpa using List.length_pos_iff.2 hne
  simp only [hrmsInt, this]
  rw [if_neg (by simp), if_neg hne, if_pos hm]

/-- `int16`: 181 is the largest safe height; 182 gives NaN and 256 zero. -/
example : ((181 : Int) ^ 2 < 2 ^ (16 - 1)) ∧ ((2 : Int) ^ (16 - 1) ≤ 182 ^ 2 ∧ (182 : Int) ^ 2 < 2 ^ 16) ∧
    (2 : Int) ^ ((16 + 1) / 2) = 256 := by norm_num

/-! ## C131, C132: zero-crossings and waves of an integer record -/

section
variable {K : Type} [Field K] [LinearOrder K] [IsStrictOrderedRing K]

/-- The floats equal to the values of an integer input. -/
def PyIn.floats : PyIn Int → PyIn K
  | .num z => .num z
  | .list l => .list (l.map fun z : Int => (z : K))
  | .nd a => .nd (floatArr a)

/-- No difference of two successive readings leaves the type. -/
def DifferencesFit (w : Nat) (x : List Int) : Prop :=
  ∀ i, i + 1 < x.length → Fits w (x.getD i 0 - x.getD (i + 1) 0)

theorem getD_mem {x : List Int} {i : Nat} (h : i < x.length) : x.getD i 0 ∈ x := by
  rw [List.getD, List.getElem?_eq_getElem h]
  exact List.getElem_mem _

/-- Readings of less than a quarter of the range of the type have differences in the type. -/
theorem differencesFit_of_small {w : Nat} (hw : 2 ≤ w) {x : List Int} (h : ∀ z ∈ x, |z| < 2 ^ (w - 2)) : DifferencesFit w x := by
  have hp : (2 : Int) ^ (w - 1) = 2 * 2 ^ (w - 2) := by
    obtain ⟨n, rfl⟩ : ∃ n, w = n + 2 := ⟨w - 2, by omega⟩
    simp [pow_succ, mul_comm]
  intro i hi
  have h1 := abs_lt.1 (h (x.getD i 0) (getD_mem (by omega)))
  have h2 := abs_lt.1 (h (x.getD (i + 1) 0) (getD_mem (by omega)))
  constructor <;> omega

theorem getD_cast (x : List Int) (i : Nat) : (x.map fun z : Int => (z : K)).getD i 0 = ((x.getD i 0 : Int) : K) := by
  rw [List.getD, List.getD, List.getElem?_map]
  cases x[i]? <;> simp

theorem upCond_cast (a b : Int) : upCond (a : K) (b : K) = upCondInt a b := by
  simp [upCond, upCondInt]

theorem downCond_cast (a b : Int) : downCond (a : K) (b : K) = downCondInt a b := by
  simp [downCond, downCondInt]

/-- The time computed for a crossing after sample `i` of an integer signal. -/
def crossTimeInt (w : Nat) (dt : K) (t : List K) (x : List Int) (i : Nat) : K :=
  t.getD i 0 + dt * (x.getD i 0 : Int) / ((wrapS w (x.getD i 0 - x.getD (i + 1) 0) : Int) : K)

theorem cross_foldl_int (w : Nat) (cond : Int → Int → Bool) (dt : K) (t : List K) (x : List Int) (l : List Nat) (n : Int)
    (acc : List K) :
    l.foldl (crossStepInt w cond dt t x) (n, acc) =
      (n + ((l.filter fun i => cond (x.getD i 0) (x.getD (i + 1) 0)).length : Int),
       acc ++ (l.filter fun i => cond (x.getD i 0) (x.getD (i + 1) 0)).map (crossTimeInt w dt t x)) := by
  induction l generalizing n acc with
  | nil => simp
  | cons i l ih =>
    simp only [List.foldl_cons, crossStepInt, List.filter_cons]
    split_ifs with h
    · rw [ih]
      simp [crossTimeInt]
      ring
    · rw [ih]

/-- The crossings of an integer signal are those of the same signal in floats; only the times are computed differently. -/
theorem crossLoopInt_eq (w : Nat) {cond : Int → Int → Bool} {condK : K → K → Bool}
    (hc : ∀ a b : Int, condK (a : K) (b : K) = cond a b) {t : List K} {x : List Int} (hlen : t.length = x.length) :
    crossLoopInt w cond t x =
      (let idx := crossIdx condK (x.map fun z : Int => (z : K))
       (if idx = [] then 0 else (idx.length : Int) - 1, idx.map (crossTimeInt w (t.getD 1 0 - t.getD 0 0) t x))) := by
  have hidx : ((List.range (t.length - 1)).filter fun i => cond (x.getD i 0) (x.getD (i + 1) 0)) =
      crossIdx condK (x.map fun z : Int => (z : K)) := by
    simp only [crossIdx, List.length_map, hlen, getD_cast, hc]
  simp only [crossLoopInt, cross_foldl_int, hidx, List.nil_append]
  congr 1
  generalize crossIdx condK (x.map fun z : Int => (z : K)) = l
  cases l with
  | nil => simp
  | cons a l =>
    simp only [List.length_cons, Nat.cast_add, Nat.cast_one, reduceCtorEq, if_false]
    split_ifs <;> omega

theorem crossTimeInt_fits {w : Nat} (hw : 1 ≤ w) {dt : K} {t : List K} {x : List Int} {i : Nat}
    (h : Fits w (x.getD i 0 - x.getD (i + 1) 0)) :
    crossTimeInt w dt t x i = crossTime dt t (x.map fun z : Int => (z : K)) i := by
  simp only [crossTimeInt, crossTime, wrapS_fits hw h, getD_cast]
  push_cast
  rfl

theorem crossLoopInt_fits {w : Nat} (hw : 1 ≤ w) {cond : Int → Int → Bool} {condK : K → K → Bool}
    (hc : ∀ a b : Int, condK (a : K) (b : K) = cond a b) {t : List K} {x : List Int} (hlen : t.length = x.length)
    (h : DifferencesFit w x) : crossLoopInt w cond t x = crossLoop condK t (x.map fun z : Int => (z : K)) := by
  rw [crossLoopInt_eq w hc hlen, crossLoop_eq _ _ _ (by simpa using hlen)]
  simp only [Prod.mk.injEq, true_and]
  refine List.map_congr_left fun i hi => crossTimeInt_fits hw (h i ?_)
  have := (mem_crossIdx.1 hi).1
  simpa using this

theorem toArr_floats (p : PyIn Int) : toArr (p.floats : PyIn K) = floatArr (toArr p) := by
  cases p <;> simp [PyIn.floats, toArr, floatArr]

theorem size2_floats (a : Arr Int) : size2 (floatArr a : Arr K) = size2 a := rfl

theorem isOneD_floats (a : Arr Int) : isOneD (floatArr a : Arr K) = isOneD a := rfl

theorem toVector_floats (p : PyIn Int) :
    toVector (p.floats : PyIn K) = (floatArr (toVector p).1, (toVector p).2) := by
  simp only [toVector, toArr_floats, size2_floats]
  split_ifs
  · simp [floatArr]
  · rfl

theorem toArr_wf {α : Type} {p : PyIn α} (h : p.WF) : (toArr p).WF := by
  cases p <;> simp_all [PyIn.WF, toArr, Arr.WF]

theorem len_of_oneD {α : Type} {a : Arr α} (hw : a.WF) (h : isOneD a = true) : a.data.length = a.len := by
  obtain ⟨n, hn, -⟩ := isOneD_shape h
  rw [Arr.WF, hn] at hw
  simpa [Arr.len, hn] using hw

/-- **C131 (crossings).** If no difference of successive readings leaves the type, `determine_zero_crossing` of an integer
record is that of the same record in floats, whatever the arguments (errors included). -/
theorem int_crossings_safe {w : Nat} (hw : 1 ≤ w) {pt : PyIn K} {px : PyIn Int} (ht : pt.WF) (hx : px.WF)
    (h : DifferencesFit w (toArr px).data) (ty : String) :
    determineZeroCrossingInt w pt px ty = determineZeroCrossing pt px.floats ty := by
  simp only [determineZeroCrossingInt, determineZeroCrossing, toArr_floats, isOneD_floats]
  have hl : (floatArr (toArr px) : Arr K).len = (toArr px).len := rfl
  rw [hl]
  split_ifs with a b c d e f
  all_goals first | rfl | skip
  all_goals
    have hlen : (toArr pt).data.length = (toArr px).data.length := by
      rw [len_of_oneD (toArr_wf ht) (by simpa using a), len_of_oneD (toArr_wf hx) (by simpa using b)]
      exact not_not.1 c
    congr 1
  · exact crossLoopInt_fits hw upCond_cast hlen h
  · exact crossLoopInt_fits hw downCond_cast hlen h

theorem toVector_wf {α : Type} {p : PyIn α} (h : p.WF) : (PyIn.nd (toVector p).1).WF := by
  have := toArr_wf h
  simp only [toVector]
  split_ifs
  · simp [PyIn.WF, Arr.WF]
  · exact this

theorem toVector_data {α : Type} (p : PyIn α) : (toVector p).1.data = (toArr p).data := by
  simp only [toVector]
  split_ifs <;> rfl

theorem zerosLike_sub (x : Arr K) : (⟨x.shape, List.zipWith (· - ·) x.data (zerosLike x)⟩ : Arr K) = x := by
  have : List.zipWith (· - ·) x.data (zerosLike x) = x.data := by
    rw [zerosLike, List.zipWith_map_right]
    generalize x.data = l
    induction l with
    | nil => rfl
    | cons a l ih => simp [ih]
  rw [this]

/-- **C131 (series).** Constructing a `Series` from an integer record gives the object of the same record in floats (crossings,
heights and periods included, and the same exceptions), if no difference of successive readings leaves the type. -/
theorem int_series_safe {w : Nat} (hw : 1 ≤ w) {pt : PyIn K} {px : PyIn Int} (ht : pt.WF) (hx : px.WF)
    (h : DifferencesFit w (toArr px).data) : SeriesObj.initInt w pt px = SeriesObj.init pt px.floats := by
  simp only [SeriesObj.initInt, SeriesObj.init, toVector_floats]
  split_ifs
  · rfl
  · refine bind_congr fun d => ?_
    split_ifs
    · have hdet : determineZeroCrossingInt w (.nd (toVector pt).1) (.nd (toVector px).1) "down" =
          determineZeroCrossing (.nd (toVector pt).1) (.nd (floatArr (toVector px).1 : Arr K)) "down" := by
        refine int_crossings_safe hw (toVector_wf ht) (toVector_wf hx) ?_ "down"
        simpa [toArr, toVector_data] using h
      simp only [determineIndividualWavesInt, determineIndividualWaves, hdet, zerosLike_sub]
    · rfl

/-- **C131 (readings of less than a quarter of the range).** For `int16` this means readings between -16383 and 16383. -/
theorem int_series_small {w : Nat} (hw : 2 ≤ w) {pt : PyIn K} {px : PyIn Int} (ht : pt.WF) (hx : px.WF)
    (h : ∀ z ∈ (toArr px).data, |z| < 2 ^ (w - 2)) : SeriesObj.initInt w pt px = SeriesObj.init pt px.floats :=
  int_series_safe (by omega) ht hx (differencesFit_of_small hw h)

/-- What the code reports for a crossing after sample `i` of a record of a signed `w`-bit type: the interpolated zero if the
difference of the two readings is in the type; otherwise a time at or before sample `i` (before it unless the reading is
zero), `dt |x_i| / (2^w - |x_i - x_(i+1)|)` earlier than the sample. -/
structure ReportedCrossing (w : Nat) (t : List K) (x : List Int) (i : Nat) (τ : K) : Prop where
  right : Fits w (x.getD i 0 - x.getD (i + 1) 0) → IsInterpolatedZero t (x.map fun z : Int => (z : K)) i τ
  wrong : ¬ Fits w (x.getD i 0 - x.getD (i + 1) 0) →
    τ = t.getD i 0 - (t.getD (i + 1) 0 - t.getD i 0) * ((|x.getD i 0| : Int) : K) /
      ((2 ^ w - |x.getD i 0 - x.getD (i + 1) 0| : Int) : K) ∧
    τ ≤ t.getD i 0 ∧ (x.getD i 0 ≠ 0 → τ < t.getD i 0)

theorem reported_crossing {w : Nat} (hw : 1 ≤ w) {t : List K} {x : List Int} {dt : K} (hu : UniformAxis t dt)
    (hlen : t.length = x.length) (hr : ∀ z ∈ x, Fits w z) {i : Nat} (hi : i + 1 < x.length)
    (hc : (0 ≤ x.getD i 0 ∧ x.getD (i + 1) 0 < 0) ∨ (x.getD i 0 ≤ 0 ∧ 0 < x.getD (i + 1) 0)) :
    ReportedCrossing w t x i (crossTimeInt w dt t x i) := by
  have hp := pow_pred hw
  have hst : t.getD (i + 1) 0 - t.getD i 0 = dt := by rw [hu.2 i (by omega)]; ring
  obtain ⟨a1, a2⟩ := hr _ (getD_mem (show i < x.length by omega))
  obtain ⟨b1, b2⟩ := hr _ (getD_mem hi)
  have main : ∀ d : Int, 0 < d → wrapS w (x.getD i 0 - x.getD (i + 1) 0) * (if 0 ≤ x.getD i 0 ∧ x.getD (i + 1) 0 < 0 then -1 else 1) = d →
      crossTimeInt w dt t x i = t.getD i 0 - dt * ((|x.getD i 0| : Int) : K) / ((d : Int) : K) ∧
      crossTimeInt w dt t x i ≤ t.getD i 0 ∧ (x.getD i 0 ≠ 0 → crossTimeInt w dt t x i < t.getD i 0) := by
    intro d hd hwr
    have hdK : (0 : K) < (d : K) := by exact_mod_cast hd
    have e : crossTimeInt w dt t x i = t.getD i 0 - dt * ((|x.getD i 0| : Int) : K) / ((d : Int) : K) := by
      rw [crossTimeInt]
      split_ifs at hwr with hcc
      · have : wrapS w (x.getD i 0 - x.getD (i + 1) 0) = -d := by omega
        rw [this, abs_of_nonneg hcc.1]
        push_cast
        rw [div_neg]; ring
      · have : wrapS w (x.getD i 0 - x.getD (i + 1) 0) = d := by omega
        have hneg : x.getD i 0 ≤ 0 := by
          rcases hc with h | h
          · exact absurd h hcc
          · exact h.1
        rw [this, abs_of_nonpos hneg]
        push_cast
        ring
    have habs : (0 : K) ≤ ((|x.getD i 0| : Int) : K) := by exact_mod_cast abs_nonneg _
    refine ⟨e, ?_, ?_⟩
    · rw [e]
      have : 0 ≤ dt * ((|x.getD i 0| : Int) : K) / ((d : Int) : K) := div_nonneg (mul_nonneg hu.1.le habs) hdK.le
      linarith
    · intro hne
      have h0 : (0 : K) < ((|x.getD i 0| : Int) : K) := by exact_mod_cast abs_pos.2 hne
      rw [e]
      have : 0 < dt * ((|x.getD i 0| : Int) : K) / ((d : Int) : K) := div_pos (mul_pos hu.1 h0) hdK
      linarith
  constructor
  · intro hf
    rw [crossTimeInt_fits hw hf]
    refine crossTime_interp hu (by simpa using hlen) (by simpa using hi) ?_
    simp only [getD_cast]
    rcases hc with ⟨h1, h2⟩ | ⟨h1, h2⟩
    · exact Or.inl ⟨by exact_mod_cast h1, by exact_mod_cast h2⟩
    · exact Or.inr ⟨by exact_mod_cast h1, by exact_mod_cast h2⟩
  · intro hf
    rw [hst]
    rcases hc with ⟨h1, h2⟩ | ⟨h1, h2⟩
    · have hbig : 2 ^ (w - 1) ≤ x.getD i 0 - x.getD (i + 1) 0 := by
        by_contra hh
        exact hf ⟨by omega, by omega⟩
      refine main _ ?_ ?_
      · rw [abs_of_nonneg (by omega)]; omega
      · rw [if_pos ⟨h1, h2⟩, wrapS_over hw hbig (by omega), abs_of_nonneg (by omega)]; ring
    · have hbig : x.getD i 0 - x.getD (i + 1) 0 < -2 ^ (w - 1) := by
        by_contra hh
        exact hf ⟨by omega, by omega⟩
      refine main _ ?_ ?_
      · rw [abs_of_nonpos (by omega)]; omega
      · rw [if_neg (by omega), wrapS_under hw hbig (by omega), abs_of_nonpos (by omega)]; ring

/-- Reduction of `determine_zero_crossing` on valid integer input. -/
theorem determineInt_eq {w : Nat} {pt : PyIn K} {px : PyIn Int} {t : List K} {x : List Int} (ht : pt.IsVec t) (hx : px.IsVec x)
    (h2 : 2 ≤ t.length) (hlen : t.length = x.length) (ty : String) :
    determineZeroCrossingInt w pt px ty =
      if ty.toLower = "up" then .ok (crossLoopInt w upCondInt t x)
      else if ty.toLower = "down" then .ok (crossLoopInt w downCondInt t x)
      else .error (.valueError "determine_zero_crossing: wrong typeCross") := by
  have ht0 : t ≠ [] := by rintro rfl; simp at h2
  have hx0 : x ≠ [] := by rintro rfl; simp at hlen; exact ht0 hlen
  have h3 : ¬ x.length < 2 := by omega
  simp only [determineZeroCrossingInt, toArr_of_isVec ht, toArr_of_isVec hx, isOneD_vec, Arr.len]
  simp [ht0, hx0, hlen, h3]

/-- **C132 (down).** For an integer record every down-crossing is found, but its time is right only if the difference of the two
readings is in the type. -/
theorem int_down_crossings {w : Nat} (hw : 1 ≤ w) {pt : PyIn K} {px : PyIn Int} {t : List K} {x : List Int} {dt : K}
    (ht : pt.IsVec t) (hx : px.IsVec x) (h2 : 2 ≤ t.length) (hlen : t.length = x.length) (hu : UniformAxis t dt)
    (hr : ∀ z ∈ x, Fits w z) :
    ∃ nWave tCross idx, determineZeroCrossingInt w pt px "down" = .ok (nWave, tCross) ∧
      ListsExactly idx (DownCrossing (x.map fun z : Int => (z : K))) ∧
      (nWave = if idx.length = 0 then 0 else (idx.length : Int) - 1) ∧
      List.Forall₂ (ReportedCrossing w t x) idx tCross := by
  have e := crossLoopInt_eq (K := K) w downCond_cast hlen
  refine ⟨(crossLoopInt w downCondInt t x).1, (crossLoopInt w downCondInt t x).2, crossIdx downCond (x.map fun z : Int => (z : K)),
    ?_, crossIdx_down_listsExactly _, ?_, ?_⟩
  · rw [determineInt_eq ht hx h2 hlen, if_neg (by decide +kernel), if_pos (by decide +kernel)]
  · rw [e]; simp
  · rw [e, List.forall₂_map_right_iff, List.forall₂_same, uniform_first_step h2 hu]
    intro i hi
    obtain ⟨a, b, c⟩ := ((crossIdx_down_listsExactly _).2 i).1 hi
    rw [getD_cast] at b c
    exact reported_crossing hw hu hlen hr (by simpa using a) (Or.inl ⟨by exact_mod_cast b, by exact_mod_cast c⟩)

/-- **C132 (up).** -/
theorem int_up_crossings {w : Nat} (hw : 1 ≤ w) {pt : PyIn K} {px : PyIn Int} {t : List K} {x : List Int} {dt : K}
    (ht : pt.IsVec t) (hx : px.IsVec x) (h2 : 2 ≤ t.length) (hlen : t.length = x.length) (hu : UniformAxis t dt)
    (hr : ∀ z ∈ x, Fits w z) :
    ∃ nWave tCross idx, determineZeroCrossingInt w pt px "up" = .ok (nWave, tCross) ∧
      ListsExactly idx (UpCrossing (x.map fun z : Int => (z : K))) ∧
      (nWave = if idx.length = 0 then 0 else (idx.length : Int) - 1) ∧
      List.Forall₂ (ReportedCrossing w t x) idx tCross := by
  have e := crossLoopInt_eq (K := K) w upCond_cast hlen
  refine ⟨(crossLoopInt w upCondInt t x).1, (crossLoopInt w upCondInt t x).2, crossIdx upCond (x.map fun z : Int => (z : K)),
    ?_, crossIdx_up_listsExactly _, ?_, ?_⟩
  · rw [determineInt_eq ht hx h2 hlen, if_pos (by decide +kernel)]
  · rw [e]; simp
  · rw [e, List.forall₂_map_right_iff, List.forall₂_same, uniform_first_step h2 hu]
    intro i hi
    obtain ⟨a, b, c⟩ := ((crossIdx_up_listsExactly _).2 i).1 hi
    rw [getD_cast] at b c
    exact reported_crossing hw hu hlen hr (by simpa using a) (Or.inr ⟨by exact_mod_cast b, by exact_mod_cast c⟩)

end

/-- **C132 (finding: a lost wave).** An `int16` record of one wave of height 20001 and period 2, whose second crossing is steep:
the object reports a wave of height 0 and a period of 0.72. -/
theorem int_wave_lost :
    (∃ s, SeriesObj.initInt (K := ℚ) 16 (vec [0, 1, 2, 3]) (vec [1, -1, 20000, -20000]) = .ok s ∧
      s.wh.hwave.data = [0] ∧ s.wh.twave.data = [286 / 399]) ∧
    ∃ s, SeriesObj.init (K := ℚ) (vec [0, 1, 2, 3]) (vec [1, -1, 20000, -20000]) = .ok s ∧
      s.wh.hwave.data = [20001] ∧ s.wh.twave.data = [2] := by
  refine ⟨?_, ?_⟩
  · have : (SeriesObj.initInt (K := ℚ) 16 (vec [0, 1, 2, 3]) (vec [1, -1, 20000, -20000])).toOption.map
        (fun s => (s.wh.hwave.data, s.wh.twave.data)) = some ([0], [286 / 399]) := by decide +kernel
    cases h : SeriesObj.initInt (K := ℚ) 16 (vec [0, 1, 2, 3]) (vec [1, -1, 20000, -20000]) with
    | error e => rw [h] at this; simp [Except.toOption] at this
    | ok s => rw [h] at this; simp [Except.toOption] at this; exact ⟨s, rfl, this.1, by simpa using this.2⟩
  · have : (SeriesObj.init (K := ℚ) (vec [0, 1, 2, 3]) (vec [1, -1, 20000, -20000])).toOption.map
        (fun s => (s.wh.hwave.data, s.wh.twave.data)) = some ([20001], [2]) := by decide +kernel
    cases h : SeriesObj.init (K := ℚ) (vec [0, 1, 2, 3]) (vec [1, -1, 20000, -20000]) with
    | error e => rw [h] at this; simp [Except.toOption] at this
    | ok s => rw [h] at this; simp [Except.toOption] at this; exact ⟨s, rfl, this.1, this.2⟩

/-- **C132 (finding: exceptions).** A record that swings over the full range of the type makes the constructor raise; the same
record in floats is accepted. -/
theorem int_series_raises :
    SeriesObj.initInt (K := ℚ) 16 (vec [0, 1, 2, 3]) (vec [1, -1, 32767, -32768]) = .error .indexError ∧
    (SeriesObj.init (K := ℚ) (vec [0, 1, 2, 3]) (vec [1, -1, 32767, -32768])).toOption.isSome = true := by
  constructor <;> decide +kernel

/-! ## C133: unsigned axes -/

/-- What `monotonic_increasing_constant_step` accepts on an unsigned axis of `w` bits: at least two values, successive ones
never equal, and all steps congruent to the first modulo `2^w`. -/
def UAccepted (w : Nat) (x : List Int) : Prop :=
  2 ≤ x.length ∧ ∀ i, i + 1 < x.length → ¬ (2 ^ w : Int) ∣ x.getD (i + 1) 0 - x.getD i 0 ∧
    (2 ^ w : Int) ∣ (x.getD (i + 1) 0 - x.getD i 0) - (x.getD 1 0 - x.getD 0 0)

theorem diffU_length (w : Nat) (x : List Int) : (diffU w x).length = x.length - 1 := by
  induction x with
  | nil => rfl
  | cons a l ih =>
    cases l with
    | nil => rfl
    | cons b l => simp [diffU, ih]

theorem diffU_getD (w : Nat) (x : List Int) {i : Nat} (h : i + 1 < x.length) :
    (diffU w x).getD i 0 = wrapU w (x.getD (i + 1) 0 - x.getD i 0) := by
  induction x generalizing i with
  | nil => simp at h
  | cons a l ih =>
    cases l with
    | nil => simp at h
    | cons b l =>
      cases i with
      | zero => simp [diffU]
      | succ i =>
        have := @ih i (by simpa using h)
        simpa [diffU] using this

theorem wrapU_pos {w : Nat} (z : Int) : 0 < wrapU w z ↔ ¬ (2 ^ w : Int) ∣ z := by
  rw [Int.dvd_iff_emod_eq_zero, wrapU]
  have := Int.emod_nonneg z (show (2 ^ w : Int) ≠ 0 by positivity)
  omega

theorem wrapU_tol {w : Nat} (z : Int) : ((wrapU w z : Int) : ℚ) < stepTol ↔ (2 ^ w : Int) ∣ z := by
  rw [Int.dvd_iff_emod_eq_zero, wrapU]
  have h0 := Int.emod_nonneg z (show (2 ^ w : Int) ≠ 0 by positivity)
  constructor
  · intro h
    by_contra hne
    have : (1 : ℚ) ≤ ((z % 2 ^ w : Int) : ℚ) := by exact_mod_cast (show (1 : Int) ≤ z % 2 ^ w by omega)
    have : (stepTol : ℚ) < 1 := by norm_num [stepTol]
    linarith
  · intro h
    rw [h]
    norm_num [stepTol]

theorem dvd_wrapU_sub {w : Nat} (a b : Int) : (2 ^ w : Int) ∣ wrapU w a - wrapU w b ↔ (2 ^ w : Int) ∣ a - b := by
  simp only [wrapU, Int.dvd_iff_emod_eq_zero]
  rw [← Int.sub_emod]

/-- **C133 (exact meaning on unsigned axes).** -/
theorem uint_check_iff {w : Nat} {x : List Int} (h2 : 2 ≤ x.length) :
    ∃ b, monotonicUInt w x = .ok b ∧ (b = true ↔ UAccepted w x) := by
  have hl := diffU_length w x
  obtain ⟨d0, ds, hd⟩ : ∃ d0 ds, diffU w x = d0 :: ds := by
    cases h : diffU w x with
    | nil => rw [h] at hl; simp at hl; omega
    | cons a l => exact ⟨a, l, rfl⟩
  have hd0 : d0 = wrapU w (x.getD 1 0 - x.getD 0 0) := by
    have := diffU_getD w x (i := 0) (by omega)
    rw [hd] at this
    simpa using this
  refine ⟨_, by rw [monotonicUInt, hd], ?_⟩
  rw [← hd]
  simp only [Bool.and_eq_true, List.all_eq_true, decide_eq_true_eq]
  have hmem : ∀ P : Int → Prop, (∀ d ∈ diffU w x, P d) ↔ ∀ i, i + 1 < x.length → P (wrapU w (x.getD (i + 1) 0 - x.getD i 0)) := by
    intro P
    constructor
    · intro h i hi
      rw [← diffU_getD w x hi]
      exact h _ (getD_mem (by omega))
    · intro h d hd'
      obtain ⟨i, hi, rfl⟩ := List.getElem_of_mem hd'
      have := h i (by omega)
      rw [← diffU_getD w x (by omega), List.getD, List.getElem?_eq_getElem hi] at this
      exact this
  rw [hmem, hmem]
  simp only [wrapU_pos, wrapU_tol, hd0, dvd_wrapU_sub]
  constructor
  · rintro ⟨h1, h3⟩
    refine ⟨h2, fun i hi => ⟨?_, h3 i hi⟩⟩
    have := h1 i hi
    exact this
  · rintro ⟨-, h⟩
    exact ⟨fun i hi => (h i hi).1, fun i hi => (h i hi).2⟩

/-- **C133 (finding).** Every uniformly decreasing axis of an unsigned type counts as increasing with constant step. -/
theorem uint_decreasing_accepted {w : Nat} {x : List Int} {s : Int} (h2 : 2 ≤ x.length) (hs : 0 < s) (hsw : s < 2 ^ w)
    (hdec : ∀ i, i + 1 < x.length → x.getD (i + 1) 0 = x.getD i 0 - s) : monotonicUInt w x = .ok true := by
  obtain ⟨b, hb, hiff⟩ := uint_check_iff (w := w) h2
  rw [hb, hiff.2 ⟨h2, fun i hi => ⟨?_, ?_⟩⟩]
  · rw [hdec i hi]
    intro hd
    have : (2 ^ w : Int) ∣ s := by simpa using hd
    exact absurd (Int.le_of_dvd hs this) (by omega)
  · rw [hdec i hi, hdec 0 (by omega)]
    simp

/-- **C133 (increasing axes).** An increasing unsigned axis is accepted exactly if its steps are equal: unlike for floats, a step
that is smaller than the first one is noticed. -/
theorem uint_increasing_iff {w : Nat} {x : List Int} (h2 : 2 ≤ x.length)
    (hinc : ∀ i, i + 1 < x.length → x.getD i 0 < x.getD (i + 1) 0) (hr : ∀ z ∈ x, 0 ≤ z ∧ z < 2 ^ w) :
    monotonicUInt w x = .ok true ↔ ∀ i, i + 1 < x.length → x.getD (i + 1) 0 - x.getD i 0 = x.getD 1 0 - x.getD 0 0 := by
  obtain ⟨b, hb, hiff⟩ := uint_check_iff (w := w) h2
  have hstep : ∀ i, i + 1 < x.length → 0 < x.getD (i + 1) 0 - x.getD i 0 ∧ x.getD (i + 1) 0 - x.getD i 0 < 2 ^ w := by
    intro i hi
    have := hinc i hi
    have h1 := hr _ (getD_mem hi)
    have h0 := hr _ (getD_mem (show i < x.length by omega))
    omega
  have h01 := hstep 0 (by omega)
  simp only [zero_add] at h01
  rw [hb]
  simp only [Except.ok.injEq, hiff]
  constructor
  · rintro ⟨-, h⟩ i hi
    obtain ⟨k, hk⟩ := (h i hi).2
    have hsi := hstep i hi
    have : k = 0 := by
      have hP : (0 : Int) < 2 ^ w := by positivity
      by_contra hne
      rcases lt_or_gt_of_ne hne with hk' | hk'
      · have : k ≤ -1 := by omega
        nlinarith
      · have : 1 ≤ k := by omega
        nlinarith
    rw [this] at hk
    omega
  · intro h
    refine ⟨h2, fun i hi => ⟨fun hd => ?_, by rw [h i hi]; simp⟩⟩
    have := Int.le_of_dvd (hstep i hi).1 hd
    have := (hstep i hi).2
    omega

theorem diffU_const {w : Nat} {t : List Int} {c : Int}
    (h : ∀ i, i + 1 < t.length → wrapU w (t.getD (i + 1) 0 - t.getD i 0) = c) :
    diffU w t = List.replicate (t.length - 1) c := by
  refine List.eq_replicate_iff.2 ⟨diffU_length w t, fun d hd => ?_⟩
  obtain ⟨i, hi, rfl⟩ := List.getElem_of_mem hd
  have hl := diffU_length w t
  have := diffU_getD w t (i := i) (by omega)
  rw [List.getD, List.getElem?_eq_getElem hi, h i (by omega)] at this
  exact this

/-- **C133 (finding for `Series`).** A uniformly decreasing time axis of an unsigned type passes the test of the constructor, with
a time step of `2^w - s` instead of `-s`. -/
theorem uint_time_accepted {w : Nat} {t : List Int} {s : Int} (h2 : 2 ≤ t.length) (hs : 0 < s) (hsw : s < 2 ^ w)
    (hdec : ∀ i, i + 1 < t.length → t.getD (i + 1) 0 = t.getD i 0 - s) :
    timeCheckUInt w t = .ok (((2 ^ w - s : Int)) : ℚ) := by
  have hd : diffU w t = List.replicate (t.length - 1) (2 ^ w - s) := by
    refine diffU_const fun i hi => ?_
    rw [hdec i hi, wrapU]
    have : t.getD i 0 - s - t.getD i 0 = (2 ^ w - s) + 2 ^ w * (-1) := by ring
    rw [this, Int.add_mul_emod_self_left]
    exact Int.emod_eq_of_lt (by omega) (by omega)
  obtain ⟨n, hn⟩ : ∃ n, t.length - 1 = n + 1 := ⟨t.length - 2, by omega⟩
  have hmean : ∀ c : ℚ, mean (List.replicate (n + 1) c) = c := by
    intro c
    rw [mean, List.sum_replicate, List.length_replicate, nsmul_eq_mul, mul_div_cancel_left₀]
    exact_mod_cast Nat.succ_ne_zero n
  have hpos : (0 : ℚ) < ((2 ^ w - s : Int) : ℚ) := by exact_mod_cast (show (0 : Int) < 2 ^ w - s by omega)
  have hvar : variance (List.replicate (n + 1) ((2 ^ w - s : Int) : ℚ)) = 0 := by
    rw [variance, hmean, List.map_replicate, hmean]
    simp
  have hc : (List.replicate (n + 1) ((2 ^ w - s : Int) : ℚ)) ≠ [] ∧ variance (List.replicate (n + 1) ((2 ^ w - s : Int) : ℚ)) <
      mean ((List.replicate (n + 1) ((2 ^ w - s : Int) : ℚ)).map (· / 100)) := by
    refine ⟨by simp [List.replicate_succ], ?_⟩
    rw [hvar, List.map_replicate, hmean]
    positivity
  simp only [timeCheckUInt, hd, hn]
  rw [List.map_replicate, if_pos hc, hmean]

/-- Concrete unsigned axes: 3, 2, 1 is accepted (`uint8`), and so is 0, 200, 144, which is neither increasing nor uniform. -/
example : monotonicUInt 8 [3, 2, 1] = .ok true ∧ monotonicUInt 8 [0, 200, 144] = .ok true ∧ monotonicUInt 8 [0, 2, 3] = .ok false := by
  decide +kernel

example : Fits 16 20000 ∧ ¬ Fits 16 40000 ∧ DifferencesFit 16 [20000, 15000, -10000] := by
  refine ⟨by norm_num [Fits], by norm_num [Fits], fun i hi => ?_⟩
  have : i < 2 := by simp at hi; omega
  interval_cases i <;> norm_num [Fits]

/-! ## Concrete cases: the hypotheses of the theorems above are met -/

/-! 16-bit integers. -/

theorem axisQ4 : UniformAxis ([0, 1, 2, 3] : List ℚ) 1 := uniformAxis_of_steps (by norm_num) (by decide +kernel)

/-- Heights below 182 (centimetres, say) have the right root mean square. -/
example : ∃ s : WH ℝ, WH.init (vec [100, 180, 50]) (vec [6, 7, 5]) = .ok s ∧ hrmsInt 16 (vec [100, 180, 50]) = s.getHrms := by
  refine ⟨_, rfl, (int_hrms_safe (w := 16) (by norm_num) (isVec_vec [100, 180, 50]) (by simp) (by decide) (pt := vec [6, 7, 5]) ?_).1⟩
  norm_num
  rfl

example : hrmsInt 16 (vec (List.replicate 7 256)) = .ok 0 := (int_hrms_zero (w := 16) (by norm_num) (n := 7) (by norm_num)).2
example : hrmsInt 16 (vec [182, 200, 255]) = .error .nonFinite := int_hrms_nan (by norm_num) (isVec_vec [182, 200, 255]) (by simp) (by decide)

example : wrapS 16 40000 = -25536 ∧ ∀ u, StoredAs 16 40000 u → u = -25536 := by
  have e : wrapS 16 40000 = -25536 := by decide +kernel
  exact ⟨e, fun u hu => e ▸ storedAs_unique (by norm_num) hu (wrapS_spec (by norm_num) 40000)⟩

/-- Samples below 16384 in size: the same object as for floating-point samples. -/
example : SeriesObj.initInt (K := ℚ) 16 (vec [0, 1, 2, 3]) (vec [100, -12000, 16000, -5]) =
    SeriesObj.init (vec [0, 1, 2, 3]) (vec [100, -12000, 16000, -5]) :=
  int_series_small (by norm_num) (px := vec [100, -12000, 16000, -5]) rfl rfl (by decide)

example : SeriesObj.initInt (K := ℚ) 16 (vec [0, 1, 2]) (vec [20000, 15000, -10000]) =
    SeriesObj.init (vec [0, 1, 2]) (vec [20000, 15000, -10000]) ∧
    determineZeroCrossingInt (K := ℚ) 16 (vec [0, 1, 2]) (vec [20000, 15000, -10000]) "down" =
    determineZeroCrossing (vec [0, 1, 2]) (vec [20000, 15000, -10000]) "down" := by
  have h : DifferencesFit 16 [20000, 15000, -10000] := fun i hi => by
    have : i < 2 := by simp at hi; omega
    interval_cases i <;> norm_num [Fits]
  exact ⟨int_series_safe (by norm_num) (px := vec [20000, 15000, -10000]) rfl rfl h,
    int_crossings_safe (by norm_num) (pt := vec [0, 1, 2]) (px := vec [20000, 15000, -10000]) rfl rfl h _⟩

example : DifferencesFit 16 [100, -12000, 16000, -5] := differencesFit_of_small (by norm_num) (by decide)

/-- A range of 40000: the crossing between the last two samples is reported before the third. -/
example : ∃ n tc idx, determineZeroCrossingInt (K := ℚ) 16 (vec [0, 1, 2, 3]) (vec [1, -1, 20000, -20000]) "down" = .ok (n, tc) ∧
    ListsExactly idx (DownCrossing ([1, -1, 20000, -20000] : List ℚ)) ∧
    List.Forall₂ (ReportedCrossing 16 [0, 1, 2, 3] [1, -1, 20000, -20000]) idx tc := by
  obtain ⟨n, tc, idx, a, b, -, c⟩ := int_down_crossings (K := ℚ) (w := 16) (by norm_num) (isVec_vec [0, 1, 2, 3]) (isVec_vec [1, -1, 20000, -20000])
    (by decide) rfl axisQ4 (by unfold Fits; decide)
  exact ⟨n, tc, idx, a, by simpa using b, c⟩

example := int_up_crossings (K := ℚ) (w := 16) (by norm_num) (isVec_vec [0, 1, 2, 3]) (isVec_vec [1, -1, 20000, -20000])
    (by decide) rfl axisQ4 (by unfold Fits; decide)

example : ∃ τ : ℚ, ReportedCrossing 16 [0, 1, 2, 3] [1, -1, 20000, -20000] 2 τ ∧ τ < 2 := by
  have h := reported_crossing (K := ℚ) (w := 16) (by norm_num) (x := [1, -1, 20000, -20000]) axisQ4 rfl (by unfold Fits; decide) (i := 2) (by decide)
    (.inl (by decide))
  exact ⟨_, h, (h.wrong (by norm_num [Fits])).2.2 (by decide)⟩

/-! Unsigned 8-bit times. -/

example := uint_check_iff (w := 8) (x := [0, 2, 4, 6]) (by decide)
example : monotonicUInt 8 [0, 2, 4, 6] = .ok true :=
  (uint_increasing_iff (by decide) (fun i hi => by
    have : i + 1 < 4 := hi
    have : i < 3 := by omega
    interval_cases i <;> decide) (by decide)).2 (fun i hi => by
    have : i + 1 < 4 := hi
    have : i < 3 := by omega
    interval_cases i <;> decide)
example : monotonicUInt 8 [9, 6, 3, 0] = .ok true ∧ timeCheckUInt 8 [9, 6, 3, 0] = .ok 253 := by
  have h : ∀ i, i + 1 < ([9, 6, 3, 0] : List Int).length → ([9, 6, 3, 0] : List Int).getD (i + 1) 0 = ([9, 6, 3, 0] : List Int).getD i 0 - 3 := fun i hi => by
    have : i + 1 < 4 := hi
    have : i < 3 := by omega
    interval_cases i <;> decide
  refine ⟨uint_decreasing_accepted (by decide) (by norm_num) (by norm_num) h, ?_⟩
  rw [uint_time_accepted (s := 3) (by decide) (by norm_num) (by norm_num) h]
  norm_num

end Verif
