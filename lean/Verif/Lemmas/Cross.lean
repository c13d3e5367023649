import Verif.Lemmas.Engine
import Verif.Model.Time

/-! # Helper lemmas on zero crossings -/

namespace Verif
variable {K : Type} [Field K] [LinearOrder K]

/-- The indices at which the crossing condition holds. -/
def crossIdx (cond : K → K → Bool) (x : List K) : List Nat :=
  (List.range (x.length - 1)).filter fun i => cond (x.getD i 0) (x.getD (i + 1) 0)

/-- The time computed by the loop for a crossing after sample `i`. -/
def crossTime (dt : K) (t x : List K) (i : Nat) : K :=
  t.getD i 0 + dt * x.getD i 0 / (x.getD i 0 - x.getD (i + 1) 0)

theorem cross_foldl (cond : K → K → Bool) (dt : K) (t x : List K) (l : List Nat) (n : Int) (acc : List K) :
    l.foldl (crossStep cond dt t x) (n, acc) =
      (n + ((l.filter fun i => cond (x.getD i 0) (x.getD (i + 1) 0)).length : Int),
       acc ++ (l.filter fun i => cond (x.getD i 0) (x.getD (i + 1) 0)).map (crossTime dt t x)) := by
  induction l generalizing n acc with
  | nil => simp
  | cons i l ih =>
    simp only [List.foldl_cons, crossStep, List.filter_cons]
    split_ifs with h
    · rw [ih]
      simp [crossTime]
      ring
    · rw [ih]

theorem crossLoop_eq (cond : K → K → Bool) (t x : List K) (hlen : t.length = x.length) :
    crossLoop cond t x = (if crossIdx cond x = [] then 0 else ((crossIdx cond x).length : Int) - 1,
      (crossIdx cond x).map (crossTime (t.getD 1 0 - t.getD 0 0) t x)) := by
  have h : (List.range (t.length - 1)).foldl (crossStep cond (t.getD 1 0 - t.getD 0 0) t x) (-1, []) =
      (-1 + ((crossIdx cond x).length : Int), (crossIdx cond x).map (crossTime (t.getD 1 0 - t.getD 0 0) t x)) := by
    rw [cross_foldl, hlen]; rfl
  simp only [crossLoop, h]
  congr 1
  generalize crossIdx cond x = l
  cases l with
  | nil => simp
  | cons a l =>
    simp only [List.length_cons, Nat.cast_add, Nat.cast_one, reduceCtorEq, if_false]
    split_ifs <;> omega

theorem crossIdx_pairwise (cond : K → K → Bool) (x : List K) : (crossIdx cond x).Pairwise (· < ·) :=
  List.Pairwise.filter _ List.pairwise_lt_range

theorem mem_crossIdx {cond : K → K → Bool} {x : List K} {i : Nat} :
    i ∈ crossIdx cond x ↔ i + 1 < x.length ∧ cond (x.getD i 0) (x.getD (i + 1) 0) = true := by
  simp only [crossIdx, List.mem_filter, List.mem_range]
  constructor <;> rintro ⟨a, b⟩ <;> exact ⟨by omega, b⟩

/-- Reduction of `determine_zero_crossing` on valid input. -/
theorem determineZeroCrossing_eq {pt px : PyIn K} {t x : List K} (ht : pt.IsVec t) (hx : px.IsVec x)
    (h2 : 2 ≤ t.length) (hlen : t.length = x.length) (ty : String) :
    determineZeroCrossing pt px ty =
      if ty.toLower = "up" then .ok (crossLoop upCond t x)
      else if ty.toLower = "down" then .ok (crossLoop downCond t x)
      else .error (.valueError "determine_zero_crossing: wrong typeCross") := by
  have ht0 : t ≠ [] := by rintro rfl; simp at h2
  have hx0 : x ≠ [] := by rintro rfl; simp at hlen; exact ht0 hlen
  have h3 : ¬ x.length < 2 := by omega
  simp only [determineZeroCrossing, toArr_of_isVec ht, toArr_of_isVec hx, isOneD_vec, Arr.len]
  simp [ht0, hx0, hlen, h3]

theorem determine_down_eq {pt px : PyIn K} {t x : List K} (ht : pt.IsVec t) (hx : px.IsVec x)
    (h2 : 2 ≤ t.length) (hlen : t.length = x.length) :
    determineZeroCrossing pt px "down" =
      .ok (if crossIdx downCond x = [] then 0 else ((crossIdx downCond x).length : Int) - 1,
        (crossIdx downCond x).map (crossTime (t.getD 1 0 - t.getD 0 0) t x)) := by
  rw [determineZeroCrossing_eq ht hx h2 hlen, if_neg (by decide +kernel), if_pos (by decide +kernel),
    crossLoop_eq _ _ _ hlen]

theorem determine_up_eq {pt px : PyIn K} {t x : List K} (ht : pt.IsVec t) (hx : px.IsVec x)
    (h2 : 2 ≤ t.length) (hlen : t.length = x.length) :
    determineZeroCrossing pt px "up" =
      .ok (if crossIdx upCond x = [] then 0 else ((crossIdx upCond x).length : Int) - 1,
        (crossIdx upCond x).map (crossTime (t.getD 1 0 - t.getD 0 0) t x)) := by
  rw [determineZeroCrossing_eq ht hx h2 hlen, if_pos (by decide +kernel), crossLoop_eq _ _ _ hlen]

end Verif
