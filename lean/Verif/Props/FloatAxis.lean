import Verif.Props.Float64
import Verif.Props.Engine

/-! # C114: the check for a constant step in double precision

Files hold the samples of an axis as doubles, so the steps of an evenly spaced axis are not all equal.  The check allows for that with an absolute
tolerance of `10 ^ 6 eps`. -/

namespace Verif

theorem diff_map_range (x : List ℚ) : diff x = (List.range (x.length - 1)).map fun i => x.getD (i + 1) 0 - x.getD i 0 := by
  apply List.ext_getElem?
  intro i
  rw [diff_getElem?, List.getElem?_map]
  by_cases h : i + 1 < x.length
  · rw [if_pos h, List.getElem?_range (by omega)]; rfl
  · rw [if_neg h, List.getElem?_eq_none (by simp; omega)]; rfl

/-- what the check in double precision computes -/
theorem monotonicF64_true {x : List ℚ} (h2 : 2 ≤ x.length)
    (hp : ∀ i, i + 1 < x.length → 0 < f64 (x.getD (i + 1) 0 - x.getD i 0))
    (hu : ∀ i, i + 1 < x.length → f64 (f64 (x.getD (i + 1) 0 - x.getD i 0) - f64 (x.getD 1 0 - x.getD 0 0)) < stepTol) :
    monotonicF64 x = .ok true := by
  obtain ⟨n, hn⟩ : ∃ n, x.length - 1 = n + 1 := ⟨x.length - 2, by omega⟩
  have e : (diff x).map f64 = (List.range (n + 1)).map fun i => f64 (x.getD (i + 1) 0 - x.getD i 0) := by
    rw [diff_map_range, hn, List.map_map]; rfl
  have e' : (diff x).map f64 = f64 (x.getD 1 0 - x.getD 0 0) ::
      (List.range n).map fun i => f64 (x.getD (i + 1 + 1) 0 - x.getD (i + 1) 0) := by
    rw [e, List.range_succ_eq_map, List.map_cons, List.map_map]; rfl
  have mem : ∀ d ∈ (diff x).map f64, ∃ i, i + 1 < x.length ∧ d = f64 (x.getD (i + 1) 0 - x.getD i 0) := by
    intro d hd
    rw [e, List.mem_map] at hd
    obtain ⟨i, hi, rfl⟩ := hd
    exact ⟨i, by have := List.mem_range.1 hi; omega, rfl⟩
  unfold monotonicF64
  rw [e'] at mem ⊢
  simp only
  congr 1
  rw [Bool.and_eq_true, List.all_eq_true, List.all_eq_true]
  constructor
  · intro d hd
    obtain ⟨i, hi, rfl⟩ := mem d hd
    exact decide_eq_true (hp i hi)
  · intro d hd
    obtain ⟨i, hi, rfl⟩ := mem d hd
    exact decide_eq_true (hu i hi)

/-- **C114.**  Samples within `2 ^ -35` of an evenly spaced axis with a step between `2 ^ -30` and `2 ^ 10` pass the check in double precision. -/
theorem axis_noise_accepted {x : List ℚ} (h2 : 2 ≤ x.length) {t0 h : ℚ} (hlo : 1 / 2 ^ 30 ≤ h) (hhi : h ≤ 2 ^ 10)
    (hx : ∀ i < x.length, |x.getD i 0 - (t0 + i * h)| ≤ 1 / 2 ^ 35) : monotonicF64 x = .ok true := by
  have step : ∀ i, i + 1 < x.length → |x.getD (i + 1) 0 - x.getD i 0 - h| ≤ 1 / 2 ^ 34 := by
    intro i hi
    have a := abs_le.1 (hx i (by omega))
    have b := abs_le.1 (hx (i + 1) hi)
    push_cast at b
    rw [abs_le]
    constructor <;> linarith
  have err : ∀ i, i + 1 < x.length → |f64 (x.getD (i + 1) 0 - x.getD i 0) - (x.getD (i + 1) 0 - x.getD i 0)| ≤ 1 / 2 ^ 42 := by
    intro i hi
    have a := abs_le.1 (step i hi)
    set y := x.getD (i + 1) 0 - x.getD i 0
    have hy : 1 / 2 ^ 31 ≤ y := by linarith
    have hy0 : 0 < y := by linarith
    have hyu : y ≤ 2 ^ 10 + 1 := by linarith
    have := f64_error (x := y) (by rw [abs_of_pos hy0]; exact le_trans (by norm_num) hy)
    rw [abs_of_pos hy0] at this
    linarith
  refine monotonicF64_true h2 (fun i hi => ?_) (fun i hi => ?_)
  · have a := abs_le.1 (step i hi)
    have b := abs_le.1 (err i hi)
    linarith
  · have a := abs_le.1 (step i hi)
    have b := abs_le.1 (err i hi)
    have a0 := abs_le.1 (step 0 (by omega))
    have b0 := abs_le.1 (err 0 (by omega))
    simp only [Nat.zero_add] at a0 b0
    have := (f64_mono_double (x := f64 (x.getD (i + 1) 0 - x.getD i 0) - f64 (x.getD 1 0 - x.getD 0 0)) (y := 15 / 2 ^ 36)
      ⟨15, -36, by norm_num, by norm_num, by norm_num⟩).2 (by linarith)
    refine lt_of_le_of_lt this ?_
    unfold stepTol
    norm_num

/-- **C114 (multiples of the step).**  `dt * np.arange(n)` in double precision passes the check if the record is shorter than `2 ^ 18` (three
days, in seconds) and the step at least `2 ^ -30`. -/
theorem arange_axis_accepted {n : ℕ} (h2 : 2 ≤ n) {dt : ℚ} (hlo : 1 / 2 ^ 30 ≤ dt) (hhi : dt ≤ 2 ^ 10) (hT : (n : ℚ) * dt ≤ 2 ^ 18) :
    monotonicF64 ((List.range n).map fun (i : ℕ) => f64 (i * dt)) = .ok true := by
  refine axis_noise_accepted (by simpa using h2) (t0 := 0) hlo hhi fun i hi => ?_
  have hi' : i < n := by simpa using hi
  rw [List.getD_eq_getElem _ _ hi, List.getElem_map, List.getElem_range, zero_add]
  have hdt : 0 < dt := by linarith
  rcases Nat.eq_zero_or_pos i with rfl | hip
  · simp [f64_zero]
  have h1 : (1 : ℚ) ≤ i := by exact_mod_cast hip
  have hle : (i : ℚ) ≤ n := by exact_mod_cast hi'.le
  have hx0 : 0 < (i : ℚ) * dt := by positivity
  have hxlo : dt ≤ i * dt := le_mul_of_one_le_left hdt.le h1
  have hxhi : (i : ℚ) * dt ≤ n * dt := mul_le_mul_of_nonneg_right hle hdt.le
  have := f64_error (x := (i : ℚ) * dt) (by
    rw [abs_of_pos hx0]
    refine le_trans ?_ (hlo.trans hxlo)
    norm_num)
  rw [abs_of_pos hx0] at this
  linarith

/-- Ten minutes at ten samples per second. -/
example : monotonicF64 ((List.range 6000).map fun (i : ℕ) => f64 (i * f64 (1 / 10))) = .ok true := by
  have h : f64 (1 / 10) = 3602879701896397 / 36028797018963968 := by decide +kernel
  rw [h]
  exact arange_axis_accepted (by norm_num) (by norm_num) (by norm_num) (by norm_num)

/-- **Finding.**  The tolerance is absolute: seconds since 1970 at ten samples per second do not pass, although they are evenly spaced up to
rounding. -/
theorem epoch_axis_rejected : monotonicF64 ((List.range 6).map fun (i : ℕ) => f64 (1600000000 + i / 10)) = .ok false := by decide +kernel

end Verif
