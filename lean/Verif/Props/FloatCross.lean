import Verif.Props.FloatAxis
import Verif.Props.Cross

/-! # C115: zero crossings in double precision -/

namespace Verif

theorem f64_rel {x : ℚ} (h : 1 / 2 ^ 200 ≤ |x|) : ∃ δ : ℚ, |δ| ≤ 1 / 2 ^ 53 ∧ f64 x = x * (1 + δ) := by
  have h0 : x ≠ 0 := by
    rintro rfl
    rw [abs_zero] at h
    exact absurd h (not_le.2 (by positivity))
  refine ⟨(f64 x - x) / x, ?_, by field_simp; ring⟩
  rw [abs_div, div_le_iff₀ (abs_pos.2 h0)]
  have := f64_error h
  linarith

theorem f64_abs (x : ℚ) : |f64 x - x| ≤ |x| / 2 ^ 53 + 1 / 2 ^ 200 := by
  by_cases h : 1 / 2 ^ 200 ≤ |x|
  · exact (f64_error h).trans (le_add_of_nonneg_right (by positivity))
  · have := f64_nearest x (y := 0) ⟨0, 0, by norm_num, by norm_num, by norm_num⟩
    rw [zero_sub, abs_neg] at this
    have h2 : 0 ≤ |x| / 2 ^ 53 := by positivity
    linarith

/-- The crossing time in double precision. -/
def crossTimeF64 (dt : ℚ) (t x : List ℚ) (i : Nat) : ℚ :=
  f64 (t.getD i 0 + f64 (f64 (dt * x.getD i 0) / f64 (x.getD i 0 - x.getD (i + 1) 0)))

theorem cross_foldlF64 (cond : ℚ → ℚ → Bool) (dt : ℚ) (t x : List ℚ) (l : List Nat) (n : Int) (acc : List ℚ) :
    l.foldl (crossStepF64 cond dt t x) (n, acc) =
      (n + ((l.filter fun i => cond (x.getD i 0) (x.getD (i + 1) 0)).length : Int),
       acc ++ (l.filter fun i => cond (x.getD i 0) (x.getD (i + 1) 0)).map (crossTimeF64 dt t x)) := by
  induction l generalizing n acc with
  | nil => simp
  | cons i l ih =>
    simp only [List.foldl_cons, crossStepF64, List.filter_cons]
    split_ifs with h
    · rw [ih]
      simp [crossTimeF64]
      ring
    · rw [ih]

theorem crossLoopF64_eq (cond : ℚ → ℚ → Bool) (t x : List ℚ) (hlen : t.length = x.length) :
    crossLoopF64 cond t x = (if crossIdx cond x = [] then 0 else ((crossIdx cond x).length : Int) - 1,
      (crossIdx cond x).map (crossTimeF64 (f64 (t.getD 1 0 - t.getD 0 0)) t x)) := by
  have h : (List.range (t.length - 1)).foldl (crossStepF64 cond (f64 (t.getD 1 0 - t.getD 0 0)) t x) (-1, []) =
      (-1 + ((crossIdx cond x).length : Int), (crossIdx cond x).map (crossTimeF64 (f64 (t.getD 1 0 - t.getD 0 0)) t x)) := by
    rw [cross_foldlF64, hlen]; rfl
  simp only [crossLoopF64, h]
  congr 1
  generalize crossIdx cond x = l
  cases l with
  | nil => simp
  | cons a l =>
    simp only [List.length_cons, Nat.cast_add, Nat.cast_one, reduceCtorEq, if_false]
    split_ifs <;> omega

theorem determineF64_eq {t x : List ℚ} (h2 : 2 ≤ t.length) (hlen : t.length = x.length) :
    determineZeroCrossingF64 (vec t) (vec x) "down" = .ok (crossLoopF64 downCond t x) ∧
    determineZeroCrossingF64 (vec t) (vec x) "up" = .ok (crossLoopF64 upCond t x) := by
  have ht0 : t ≠ [] := by rintro rfl; simp at h2
  have hx0 : x ≠ [] := by rintro rfl; simp at hlen; exact ht0 hlen
  have h3 : ¬ x.length < 2 := by omega
  have e1 : ¬ ("down".toLower = "up") := by decide +kernel
  have e2 : ("down".toLower = "down") := by decide +kernel
  have e3 : ("up".toLower = "up") := by decide +kernel
  constructor
  · simp only [determineZeroCrossingF64, toArr_of_isVec (isVec_vec t), toArr_of_isVec (isVec_vec x), isOneD_vec, Arr.len]
    simp [ht0, hx0, hlen, h3, e1, e2]
  · simp only [determineZeroCrossingF64, toArr_of_isVec (isVec_vec t), toArr_of_isVec (isVec_vec x), isOneD_vec, Arr.len]
    simp [ht0, hx0, hlen, h3, e3]

/-- Four roundings change the quotient by less than `2 ^ -50`, relatively. -/
theorem four_roundings {a b c d : ℚ} (ha : |a| ≤ 1 / 2 ^ 53) (hb : |b| ≤ 1 / 2 ^ 53) (hc : |c| ≤ 1 / 2 ^ 53) (hd : |d| ≤ 1 / 2 ^ 53) :
    |(1 + a) * (1 + b) / (1 + c) * (1 + d) - 1| ≤ 1 / 2 ^ 50 := by
  have hc' := abs_le.1 hc
  have hcp : 0 < 1 + c := by linarith
  have e : (1 + a) * (1 + b) / (1 + c) * (1 + d) - 1 = ((1 + a) * (1 + b) * (1 + d) - (1 + c)) / (1 + c) := by field_simp
  rw [e, abs_div, abs_of_pos hcp, div_le_iff₀ hcp]
  have hab : |a * b| ≤ 1 / 2 ^ 53 := by
    rw [abs_mul]
    calc |a| * |b| ≤ 1 * (1 / 2 ^ 53) := mul_le_mul (ha.trans (by norm_num)) hb (abs_nonneg _) (by norm_num)
      _ = _ := one_mul _
  have hs : |a + b + a * b| ≤ 3 / 2 ^ 53 := by
    rw [abs_le]; rw [abs_le] at ha hb hab
    constructor <;> linarith
  have hsd : |(a + b + a * b) * d| ≤ 1 / 2 ^ 53 := by
    rw [abs_mul]
    calc |a + b + a * b| * |d| ≤ 1 * (1 / 2 ^ 53) := mul_le_mul (hs.trans (by norm_num)) hd (abs_nonneg _) (by norm_num)
      _ = _ := one_mul _
  rw [show (1 + a) * (1 + b) * (1 + d) - (1 + c) = (a + b + a * b) + d + (a + b + a * b) * d - c by ring]
  rw [abs_le] at hs hsd hd ⊢
  constructor <;> linarith

/-- One crossing: the rounded time is near the interpolated time. -/
theorem crossTime_double {dt t x x' : ℚ} (hlo : 1 / 2 ^ 31 ≤ dt) (hhi : dt ≤ 2 ^ 11) (ht : |t| ≤ 2 ^ 18) (htd : IsDouble t)
    (hx : x = 0 ∨ (1 / 2 ^ 60 ≤ |x| ∧ |x| ≤ 2 ^ 60)) (hx' : |x'| ≤ 2 ^ 60) (hc : (0 ≤ x ∧ x' < 0) ∨ (x ≤ 0 ∧ 0 < x')) :
    |f64 (t + f64 (f64 (f64 dt * x) / f64 (x - x'))) - (t + dt * x / (x - x'))| ≤ 1 / 2 ^ 33 := by
  rcases hx with rfl | ⟨hx1, hx2⟩
  · rw [mul_zero, f64_zero, zero_div, f64_zero, add_zero, f64_of_double htd, mul_zero, zero_div, add_zero, sub_self, abs_zero]
    positivity
  have hdt : 0 < dt := by linarith
  have hDlo : |x| ≤ |x - x'| := by
    rcases hc with ⟨a, b⟩ | ⟨a, b⟩
    · rw [abs_of_nonneg a, abs_of_pos (by linarith)]; linarith
    · rw [abs_of_nonpos a, abs_of_neg (by linarith)]; linarith
  have hDhi : |x - x'| ≤ 2 ^ 61 := by
    have := abs_sub x x'
    linarith
  obtain ⟨a, ha, ea⟩ := f64_rel (x := dt) (by rw [abs_of_pos hdt]; exact le_trans (by norm_num) hlo)
  have ha' := abs_le.1 ha
  have half : ∀ {δ : ℚ}, |δ| ≤ 1 / 2 ^ 53 → (1 / 2 : ℚ) ≤ |1 + δ| ∧ |1 + δ| ≤ 2 := by
    intro δ h
    have := abs_le.1 h
    rw [abs_of_pos (by linarith)]
    constructor <;> linarith
  have hx0 : 0 < |x| := lt_of_lt_of_le (by positivity) hx1
  have hPlo : 1 / 2 ^ 92 ≤ |f64 dt * x| := by
    rw [ea, abs_mul, abs_mul, abs_of_pos hdt]
    calc (1 : ℚ) / 2 ^ 92 = 1 / 2 ^ 31 * (1 / 2) * (1 / 2 ^ 60) := by norm_num
      _ ≤ _ := mul_le_mul (mul_le_mul hlo (half ha).1 (by norm_num) hdt.le) hx1 (by positivity) (by positivity)
  obtain ⟨b, hb, eb⟩ := f64_rel (x := f64 dt * x) (le_trans (by norm_num) hPlo)
  obtain ⟨c, hc', ec⟩ := f64_rel (x := x - x') (le_trans (by norm_num) (hx1.trans hDlo))
  have hD0 : x - x' ≠ 0 := by
    have := lt_of_lt_of_le hx0 hDlo
    exact abs_pos.1 this
  have hc1 : 1 + c ≠ 0 := by
    have := abs_le.1 hc'
    linarith
  have hQlo : 1 / 2 ^ 160 ≤ |f64 (f64 dt * x) / f64 (x - x')| := by
    rw [abs_div, eb, ec, abs_mul (f64 dt * x), abs_mul (x - x'), le_div_iff₀ (by positivity)]
    calc (1 : ℚ) / 2 ^ 160 * (|x - x'| * |1 + c|) ≤ 1 / 2 ^ 160 * (2 ^ 61 * 2) :=
          mul_le_mul_of_nonneg_left (mul_le_mul hDhi (half hc').2 (abs_nonneg _) (by positivity)) (by positivity)
      _ ≤ 1 / 2 ^ 92 * (1 / 2) := by norm_num
      _ ≤ _ := mul_le_mul hPlo (half hb).1 (by norm_num) (abs_nonneg _)
  obtain ⟨d, hd, ed⟩ := f64_rel (x := f64 (f64 dt * x) / f64 (x - x')) (le_trans (by norm_num) hQlo)
  set F := dt * x / (x - x') with hF
  have eQ : f64 (f64 (f64 dt * x) / f64 (x - x')) = F * ((1 + a) * (1 + b) / (1 + c) * (1 + d)) := by
    rw [ed, eb, ec, ea, hF]
    field_simp
  have hFabs : |F| ≤ dt := by
    rw [hF, abs_div, abs_mul, abs_of_pos hdt, div_le_iff₀ (by positivity)]
    exact mul_le_mul_of_nonneg_left hDlo hdt.le
  have h4 := four_roundings ha hb hc' hd
  set r := (1 + a) * (1 + b) / (1 + c) * (1 + d) with hr
  have hQerr : |F * r - F| ≤ 1 / 2 ^ 39 := by
    rw [show F * r - F = F * (r - 1) by ring, abs_mul]
    calc |F| * |r - 1| ≤ 2 ^ 11 * (1 / 2 ^ 50) := mul_le_mul (hFabs.trans hhi) h4 (abs_nonneg _) (by positivity)
      _ = _ := by norm_num
  rw [eQ]
  have e5 := f64_abs (t + F * r)
  have hsum : |t + F * r| ≤ 2 ^ 18 + 2 ^ 12 := by
    have h1 := abs_le.1 hQerr
    have h2 := abs_le.1 hFabs
    have h3 := abs_le.1 ht
    rw [abs_le]; constructor <;> linarith
  have h1 := abs_le.1 e5
  have h2 := abs_le.1 hQerr
  have h6 : |t + F * r| / 2 ^ 53 + 1 / 2 ^ 200 ≤ 1 / 2 ^ 34 := by
    have : |t + F * r| / 2 ^ 53 ≤ (2 ^ 18 + 2 ^ 12) / 2 ^ 53 := div_le_div_of_nonneg_right hsum (by positivity)
    refine le_trans (add_le_add this le_rfl) ?_
    norm_num
  rw [abs_le]
  constructor <;> linarith

/-- Specification: a record in double precision with samples every `h` seconds: the times are doubles within `2 ^ -35` of an evenly spaced axis
and not above `2 ^ 18` in size; the samples are zero or between `2 ^ -60` and `2 ^ 60` in size. -/
structure DoubleRecord (t x : List ℚ) (h : ℚ) : Prop where
  two : 2 ≤ t.length
  len : t.length = x.length
  lo : 1 / 2 ^ 30 ≤ h
  hi : h ≤ 2 ^ 10
  axis : ∃ t0 : ℚ, ∀ i < t.length, |t.getD i 0 - (t0 + i * h)| ≤ 1 / 2 ^ 35
  double : ∀ i < t.length, IsDouble (t.getD i 0)
  bound : ∀ i < t.length, |t.getD i 0| ≤ 2 ^ 18
  values : ∀ i < t.length, x.getD i 0 = 0 ∨ (1 / 2 ^ 60 ≤ |x.getD i 0| ∧ |x.getD i 0| ≤ 2 ^ 60)

/-- The crossings found in double precision agree with those of exact arithmetic. -/
def CrossAgree (h : ℚ) (r e : Int × List ℚ) : Prop :=
  r.1 = e.1 ∧ r.2.length = e.2.length ∧ (∀ k < e.2.length, |r.2.getD k 0 - e.2.getD k 0| ≤ 1 / 2 ^ 33) ∧
    ∀ k, k + 1 < e.2.length → h / 2 ≤ r.2.getD (k + 1) 0 - r.2.getD k 0 ∧ 0 < f64 (r.2.getD (k + 1) 0 - r.2.getD k 0) ∧
      |f64 (r.2.getD (k + 1) 0 - r.2.getD k 0) - (e.2.getD (k + 1) 0 - e.2.getD k 0)| ≤ 1 / 2 ^ 31

theorem loop_agree {t x : List ℚ} {h : ℚ} (H : DoubleRecord t x h) {cond : ℚ → ℚ → Bool}
    (hc : ∀ a b, cond a b = true → (0 ≤ a ∧ b < 0) ∨ (a ≤ 0 ∧ 0 < b)) (hcc : ∀ a b c, cond a b = true → cond b c = true → False) :
    CrossAgree h (crossLoopF64 cond t x) (crossLoop cond t x) := by
  obtain ⟨t0, hax⟩ := H.axis
  have hlo := H.lo
  have hhi := H.hi
  have hlen := H.len
  have h2 := H.two
  rw [crossLoop_eq _ _ _ hlen, crossLoopF64_eq _ _ _ hlen]
  set dt := t.getD 1 0 - t.getD 0 0 with hdt
  have hdtb : |dt - h| ≤ 1 / 2 ^ 34 := by
    have a := abs_le.1 (hax 0 (by omega))
    have b := abs_le.1 (hax 1 (by omega))
    push_cast at a b
    rw [abs_le]
    constructor <;> linarith
  obtain ⟨d1, d2⟩ := abs_le.1 hdtb
  have one : ∀ i ∈ crossIdx cond x, |crossTimeF64 (f64 dt) t x i - crossTime dt t x i| ≤ 1 / 2 ^ 33 ∧
      t.getD i 0 ≤ crossTime dt t x i ∧ crossTime dt t x i ≤ t.getD i 0 + dt := by
    intro i hi
    obtain ⟨hil, hcond⟩ := mem_crossIdx.1 hi
    have hs := hc _ _ hcond
    have hv := H.values i (by omega)
    have hv' := H.values (i + 1) (by omega)
    refine ⟨crossTime_double (by linarith) (by linarith) (H.bound i (by omega)) (H.double i (by omega)) hv ?_ hs, ?_, ?_⟩
    · rcases hv' with h0 | h0
      · rw [h0, abs_zero]; positivity
      · exact h0.2
    all_goals
      unfold crossTime
      have hf : 0 ≤ x.getD i 0 / (x.getD i 0 - x.getD (i + 1) 0) ∧ x.getD i 0 / (x.getD i 0 - x.getD (i + 1) 0) ≤ 1 := by
        rcases hs with ⟨a, b⟩ | ⟨a, b⟩
        · exact ⟨div_nonneg a (by linarith), by rw [div_le_one (by linarith)]; linarith⟩
        · exact ⟨div_nonneg_of_nonpos a (by linarith), by rw [div_le_one_of_neg (by linarith)]; linarith⟩
      rw [mul_div_assoc]
      have hdt0 : 0 ≤ dt := by linarith
    · exact le_add_of_nonneg_right (mul_nonneg hdt0 hf.1)
    · have := mul_le_mul_of_nonneg_left hf.2 hdt0
      linarith
  have hget : ∀ (g : ℕ → ℚ) k, k < (crossIdx cond x).length → ((crossIdx cond x).map g).getD k 0 = g ((crossIdx cond x).getD k 0) := by
    intro g k hk
    rw [List.getD_eq_getElem _ _ (by simpa using hk), List.getElem_map, List.getD_eq_getElem _ _ hk]
  have hmem : ∀ k, k < (crossIdx cond x).length → (crossIdx cond x).getD k 0 ∈ crossIdx cond x := by
    intro k hk
    rw [List.getD_eq_getElem _ _ hk]; exact List.getElem_mem hk
  refine ⟨rfl, by simp, fun k hk => ?_, fun k hk => ?_⟩
  · simp only [List.length_map] at hk
    simp only
    rw [hget _ k hk, hget _ k hk]
    exact (one _ (hmem k hk)).1
  · simp only [List.length_map] at hk
    simp only
    rw [hget _ k (by omega), hget _ k (by omega), hget _ (k + 1) hk, hget _ (k + 1) hk]
    set i := (crossIdx cond x).getD k 0 with hi
    set j := (crossIdx cond x).getD (k + 1) 0 with hj
    have hij : i < j := by
      rw [hi, hj, List.getD_eq_getElem _ _ (by omega), List.getD_eq_getElem _ _ hk]
      exact List.pairwise_iff_getElem.1 (crossIdx_pairwise cond x) k (k + 1) (by omega) hk (by omega)
    obtain ⟨hil, ci⟩ := mem_crossIdx.1 (hmem k (by omega))
    obtain ⟨hjl, cj⟩ := mem_crossIdx.1 (hmem (k + 1) hk)
    rw [← hi] at ci hil
    rw [← hj] at cj hjl
    have hj2 : i + 2 ≤ j := by
      rcases Nat.lt_or_ge j (i + 2) with hlt | hge
      · have e : j = i + 1 := by omega
        rw [e] at cj
        exact (hcc _ _ _ ci cj).elim
      · exact hge
    obtain ⟨a1, a2, a3⟩ := one i (hmem k (by omega))
    obtain ⟨b1, b2, b3⟩ := one j (hmem (k + 1) hk)
    have p1 := abs_le.1 (hax i (by omega))
    have p2 := abs_le.1 (hax j (by omega))
    have hjq : (i : ℚ) + 2 ≤ j := by exact_mod_cast hj2
    have hgap : 2 * h ≤ (j : ℚ) * h - i * h := by nlinarith
    obtain ⟨a4, a5⟩ := abs_le.1 a1
    obtain ⟨b4, b5⟩ := abs_le.1 b1
    have g1 : h / 2 ≤ crossTimeF64 (f64 dt) t x j - crossTimeF64 (f64 dt) t x i := by linarith
    set y := crossTimeF64 (f64 dt) t x j - crossTimeF64 (f64 dt) t x i with hy
    have hy0 : 0 < y := by linarith
    have hyu : y ≤ 2 ^ 20 := by
      have q1 := abs_le.1 (H.bound i (by omega))
      have q2 := abs_le.1 (H.bound j (by omega))
      linarith
    have err := f64_error (x := y) (by rw [abs_of_pos hy0]; refine le_trans ?_ g1; refine le_trans ?_ (div_le_div_of_nonneg_right hlo (by norm_num)); norm_num)
    rw [abs_of_pos hy0] at err
    obtain ⟨e1, e2⟩ := abs_le.1 err
    refine ⟨g1, by linarith, ?_⟩
    rw [abs_le]
    constructor <;> linarith

/-- **C115.**  In double precision `determine_zero_crossing` finds the same crossings as in exact arithmetic, at times at most `2 ^ -33` s away; the
times increase by at least half a step, so every computed wave period is positive, and it is within `2 ^ -31` s of the exact one. -/
theorem crossings_double {t x : List ℚ} {h : ℚ} (H : DoubleRecord t x h) {ty : String} (hty : ty = "down" ∨ ty = "up") :
    ∃ r e, determineZeroCrossingF64 (vec t) (vec x) ty = .ok r ∧ determineZeroCrossing (vec t) (vec x) ty = .ok e ∧ CrossAgree h r e := by
  obtain ⟨f1, f2⟩ := determineF64_eq H.two H.len
  have e1 : ¬ ("down".toLower = "up") := by decide +kernel
  have e2 : ("down".toLower = "down") := by decide +kernel
  have e3 : ("up".toLower = "up") := by decide +kernel
  rcases hty with rfl | rfl
  · refine ⟨_, _, f1, (determineZeroCrossing_eq (isVec_vec t) (isVec_vec x) H.two H.len "down").trans ?_, loop_agree H ?_ ?_⟩
    · rw [if_neg e1, if_pos e2]
    · intro a b hab
      simp only [downCond, Bool.and_eq_true, decide_eq_true_eq] at hab
      exact .inl hab
    · intro a b c hab hbc
      simp only [downCond, Bool.and_eq_true, decide_eq_true_eq] at hab hbc
      linarith [hab.2, hbc.1]
  · refine ⟨_, _, f2, (determineZeroCrossing_eq (isVec_vec t) (isVec_vec x) H.two H.len "up").trans ?_, loop_agree H ?_ ?_⟩
    · rw [if_pos e3]
    · intro a b hab
      simp only [upCond, Bool.and_eq_true, decide_eq_true_eq] at hab
      exact .inr hab
    · intro a b c hab hbc
      simp only [upCond, Bool.and_eq_true, decide_eq_true_eq] at hab hbc
      linarith [hab.2, hbc.1]

/-- A record of seven samples with three down-crossings. -/
example : DoubleRecord [0, 1, 2, 3, 4, 5, 6] [1, -1, 1, -2, 0, -1, 1] 1 := by
  have key : ∀ i < 7, (([0, 1, 2, 3, 4, 5, 6] : List ℚ).getD i 0 = i) ∧ |([0, 1, 2, 3, 4, 5, 6] : List ℚ).getD i 0| ≤ 2 ^ 18 ∧
      (([1, -1, 1, -2, 0, -1, 1] : List ℚ).getD i 0 = 0 ∨
        (1 / 2 ^ 60 ≤ |([1, -1, 1, -2, 0, -1, 1] : List ℚ).getD i 0| ∧ |([1, -1, 1, -2, 0, -1, 1] : List ℚ).getD i 0| ≤ 2 ^ 60)) := by
    decide +kernel
  refine ⟨by decide, rfl, by norm_num, by norm_num, ⟨0, fun i hi => ?_⟩, fun i hi => ?_, fun i hi => (key i hi).2.1, fun i hi => (key i hi).2.2⟩
  · rw [(key i hi).1]; simp
  · rw [(key i hi).1]
    exact isDouble_nat (by have : i < 7 := hi; omega)

example : determineZeroCrossingF64 (vec [0, 1, 2, 3, 4, 5, 6]) (vec [1, -1, 1, -2, 0, -1, 1]) "down" =
    .ok (2, [1 / 2, 5254199565265579 / 2251799813685248, 4]) := by decide +kernel

/-! ## Concrete cases: the hypotheses of the theorems above are met -/

example : ∃ r e, determineZeroCrossingF64 (vec [0, 1, 2, 3, 4, 5, 6]) (vec [1, -1, 1, -2, 0, -1, 1]) "up" = .ok r ∧
    determineZeroCrossing (vec [0, 1, 2, 3, 4, 5, 6]) (vec [1, -1, 1, -2, 0, -1, 1]) "up" = .ok e ∧ CrossAgree 1 r e := by
  have key : ∀ i < 7, (([0, 1, 2, 3, 4, 5, 6] : List ℚ).getD i 0 = i) ∧ |([0, 1, 2, 3, 4, 5, 6] : List ℚ).getD i 0| ≤ 2 ^ 18 ∧
      (([1, -1, 1, -2, 0, -1, 1] : List ℚ).getD i 0 = 0 ∨
        (1 / 2 ^ 60 ≤ |([1, -1, 1, -2, 0, -1, 1] : List ℚ).getD i 0| ∧ |([1, -1, 1, -2, 0, -1, 1] : List ℚ).getD i 0| ≤ 2 ^ 60)) := by
    decide +kernel
  refine crossings_double (t := [0, 1, 2, 3, 4, 5, 6]) (x := [1, -1, 1, -2, 0, -1, 1]) (h := 1) ⟨by decide, rfl, by norm_num, by norm_num, ⟨0, fun i hi => ?_⟩, fun i hi => ?_, fun i hi => (key i hi).2.1, fun i hi => (key i hi).2.2⟩ (.inr rfl)
  · rw [(key i hi).1]; simp
  · rw [(key i hi).1]
    exact isDouble_nat (by have : i < 7 := hi; omega)

end Verif
