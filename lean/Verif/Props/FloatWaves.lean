import Verif.Model.FloatStat
import Verif.Props.FloatCross
import Verif.Props.Prefix
import Verif.Props.FloatStat
import Verif.Props.RegularWave

/-! # C121: wave heights in double precision -/

namespace Verif

theorem f64_nonpos {x : ℚ} (h : x ≤ 0) : f64 x ≤ 0 := by
  have := (f64_mono_double (x := x) (isDouble_nat (n := 0) (by norm_num))).2 (by simpa using h)
  simpa using this

/-- Specification: the wave between the crossings in the intervals `i` and `j` consists of the samples `i + 1, ..., j`; sample `p` is its first
highest one in the order `le`. -/
def FirstSample (le : ℚ → ℚ → Prop) (x : List ℚ) (i j p : ℕ) : Prop :=
  i < p ∧ p ≤ j ∧ (∀ q, i < q → q ≤ j → le (x.getD q 0) (x.getD p 0)) ∧ ∀ q, i < q → q < p → x.getD q 0 ≠ x.getD p 0

/-- The computed crossing time relative to the samples around it. -/
theorem crossTime_position {t x : List ℚ} {h B : ℚ} (H : DoubleRecord t x h) (hB : ∀ i < t.length, |x.getD i 0| ≤ B) {i : ℕ}
    (hi : i + 1 < t.length) (hs : (0 ≤ x.getD i 0 ∧ x.getD (i + 1) 0 < 0) ∨ (x.getD i 0 ≤ 0 ∧ 0 < x.getD (i + 1) 0)) :
    let c := crossTimeF64 (f64 (t.getD 1 0 - t.getD 0 0)) t x i
    t.getD i 0 ≤ c ∧ (c ≤ t.getD i 0 → |x.getD i 0| ≤ B / (2 ^ 30 * h)) ∧
      (t.getD (i + 1) 0 ≤ c → |x.getD (i + 1) 0| ≤ B / (2 ^ 30 * h)) ∧ ∀ j, i + 2 ≤ j → j < t.length → c < t.getD j 0 := by
  intro c
  obtain ⟨t0, hax⟩ := H.axis
  have hlo := H.lo
  have hhi := H.hi
  have h2 := H.two
  set dt := t.getD 1 0 - t.getD 0 0 with hdt
  have hdtb : |dt - h| ≤ 1 / 2 ^ 34 := by
    have a := abs_le.1 (hax 0 (by omega))
    have b := abs_le.1 (hax 1 (by omega))
    push_cast at a b
    rw [abs_le]
    constructor <;> linarith
  obtain ⟨d1, d2⟩ := abs_le.1 hdtb
  have hdt0 : 0 < dt := by linarith
  have hdth : h / 2 ≤ dt := by linarith
  set a := x.getD i 0 with ha
  set b := x.getD (i + 1) 0 with hb
  have haB : |a| ≤ B := hB i (by omega)
  have hbB : |b| ≤ B := hB (i + 1) hi
  have hv := H.values i (by omega)
  have hv' := H.values (i + 1) hi
  have err : |c - (t.getD i 0 + dt * a / (a - b))| ≤ 1 / 2 ^ 33 := by
    refine crossTime_double (by linarith) (by linarith) (H.bound i (by omega)) (H.double i (by omega)) hv ?_ hs
    change |b| ≤ 2 ^ 60
    rcases hv' with h0 | h0
    · rw [← hb] at h0; rw [h0, abs_zero]; positivity
    · exact h0.2
  obtain ⟨e1, e2⟩ := abs_le.1 err
  have hab : |a| + |b| = |a - b| := by
    rcases hs with ⟨u, v⟩ | ⟨u, v⟩
    · rw [abs_of_nonneg u, abs_of_neg v, abs_of_pos (by linarith)]; ring
    · rw [abs_of_nonpos u, abs_of_pos v, abs_of_neg (by linarith)]; ring
  have habp : 0 < |a - b| := by
    rcases hs with ⟨u, v⟩ | ⟨u, v⟩
    · rw [abs_pos]; linarith
    · rw [abs_pos]; intro h; linarith
  have hfrac : a / (a - b) = |a| / |a - b| := by
    rcases hs with ⟨u, v⟩ | ⟨u, v⟩
    · rw [abs_of_nonneg u, abs_of_pos (by linarith)]
    · rw [abs_of_nonpos u, abs_of_neg (by linarith), neg_div_neg_eq]
  rw [mul_div_assoc, hfrac] at e1 e2
  set f := |a| / |a - b| with hf
  have fa : f * |a - b| = |a| := by rw [hf]; field_simp
  have fb : (1 - f) * |a - b| = |b| := by rw [sub_mul, fa, one_mul]; linarith
  have f0 : 0 ≤ f := by positivity
  have f1 : f ≤ 1 := by
    rw [hf, div_le_one habp]
    linarith [abs_nonneg b]
  have hp : 0 < 2 ^ 30 * h := by linarith
  refine ⟨?_, fun hc => ?_, fun hc => ?_, fun j hj hjl => ?_⟩
  · refine (f64_mono_double (H.double i (by omega))).1 (le_add_of_nonneg_right (f64_nonneg ?_))
    rcases hs with ⟨u, v⟩ | ⟨u, v⟩
    · exact div_nonneg (f64_nonneg (mul_nonneg (f64_nonneg hdt0.le) u)) (f64_nonneg (by linarith))
    · exact div_nonneg_of_nonpos (f64_nonpos (mul_nonpos_of_nonneg_of_nonpos (f64_nonneg hdt0.le) u)) (f64_nonpos (by linarith))
  · have g : dt * f ≤ 1 / 2 ^ 33 := by linarith
    rw [le_div_iff₀ hp]
    have g2 : |a| * dt ≤ 1 / 2 ^ 33 * (2 * B) := by
      calc |a| * dt = dt * f * |a - b| := by rw [mul_assoc, fa]; ring
        _ ≤ 1 / 2 ^ 33 * |a - b| := mul_le_mul_of_nonneg_right g habp.le
        _ ≤ _ := by linarith
    have g3 : |a| * (h / 2) ≤ |a| * dt := mul_le_mul_of_nonneg_left hdth (abs_nonneg a)
    have := abs_nonneg a
    linarith
  · have a1 := abs_le.1 (hax i (by omega))
    have a2 := abs_le.1 (hax (i + 1) hi)
    push_cast at a2
    have g : dt * (1 - f) ≤ 1 / 2 ^ 32 := by
      have : t.getD i 0 + dt - 1 / 2 ^ 33 ≤ t.getD (i + 1) 0 := by linarith
      linarith
    rw [le_div_iff₀ hp]
    have g2 : |b| * dt ≤ 1 / 2 ^ 32 * (2 * B) := by
      calc |b| * dt = dt * (1 - f) * |a - b| := by rw [mul_assoc, fb]; ring
        _ ≤ 1 / 2 ^ 32 * |a - b| := mul_le_mul_of_nonneg_right g habp.le
        _ ≤ _ := by linarith
    have g3 : |b| * (h / 2) ≤ |b| * dt := mul_le_mul_of_nonneg_left hdth (abs_nonneg b)
    have := abs_nonneg b
    linarith
  · have a1 := abs_le.1 (hax i (by omega))
    have a2 := abs_le.1 (hax j hjl)
    have hjq : (i : ℚ) + 2 ≤ j := by exact_mod_cast hj
    have : ((i : ℚ) + 2) * h ≤ j * h := mul_le_mul_of_nonneg_right hjq (by linarith)
    have : dt * f ≤ dt := by nlinarith
    linarith

/-- Times in a double precision record increase. -/
theorem DoubleRecord.increasing {t x : List ℚ} {h : ℚ} (H : DoubleRecord t x h) : t.Pairwise (· < ·) := by
  obtain ⟨t0, hax⟩ := H.axis
  have hlo := H.lo
  rw [List.pairwise_iff_getElem]
  intro i j hi hj hij
  have a1 := abs_le.1 (hax i hi)
  have a2 := abs_le.1 (hax j hj)
  rw [List.getD_eq_getElem _ _ hi] at a1
  rw [List.getD_eq_getElem _ _ hj] at a2
  have hjq : (i : ℚ) + 1 ≤ j := by exact_mod_cast hij
  have : ((i : ℚ) + 1) * h ≤ j * h := mul_le_mul_of_nonneg_right hjq (by linarith)
  linarith

/-- The samples between the computed crossing times are those between the crossings, up to samples close to zero. -/
theorem window_double {t x : List ℚ} {h B : ℚ} (H : DoubleRecord t x h) (hB : ∀ i < t.length, |x.getD i 0| ≤ B) {i j : ℕ} (hij : i + 2 ≤ j)
    (hj : j + 1 < t.length) (hsi : (0 ≤ x.getD i 0 ∧ x.getD (i + 1) 0 < 0) ∨ (x.getD i 0 ≤ 0 ∧ 0 < x.getD (i + 1) 0))
    (hsj : (0 ≤ x.getD j 0 ∧ x.getD (j + 1) 0 < 0) ∨ (x.getD j 0 ≤ 0 ∧ 0 < x.getD (j + 1) 0)) :
    let a := crossTimeF64 (f64 (t.getD 1 0 - t.getD 0 0)) t x i
    let b := crossTimeF64 (f64 (t.getD 1 0 - t.getD 0 0)) t x j
    (∀ p, i < p → p ≤ j → InWave t a b p ∨ |x.getD p 0| ≤ B / (2 ^ 30 * h)) ∧
    (∀ p, InWave t a b p → (i < p ∧ p ≤ j) ∨ |x.getD p 0| ≤ B / (2 ^ 30 * h)) ∧
    (∀ p, InWave t a b p → i ≤ p) ∧ InWave t a b j := by
  intro a b
  obtain ⟨a1, a2, a3, a4⟩ := crossTime_position H hB (i := i) (by omega) hsi
  obtain ⟨b1, b2, b3, b4⟩ := crossTime_position H hB (i := j) hj hsj
  have inc := H.increasing
  have mono : ∀ p q, p < t.length → q < t.length → (t.getD p 0 ≤ t.getD q 0 ↔ p ≤ q) := fun p q hp hq => incr_le_iff inc hp hq
  have low : ∀ p, InWave t a b p → i ≤ p := by
    rintro p ⟨pl, p1, p2⟩
    by_contra hc
    have : t.getD i 0 ≤ t.getD p 0 := a1.trans p1
    rw [mono _ _ (by omega) pl] at this
    omega
  refine ⟨fun p h1 h2 => ?_, ?_, low, ?_⟩
  · by_cases hp : p = i + 1
    · subst hp
      by_cases hc : a ≤ t.getD (i + 1) 0
      · exact .inl ⟨by omega, hc, le_trans ((mono _ _ (by omega) (by omega)).2 h2) b1⟩
      · exact .inr (a3 (le_of_lt (not_le.1 hc)))
    · exact .inl ⟨by omega, (a4 p (by omega) (by omega)).le, le_trans ((mono _ _ (by omega) (by omega)).2 h2) b1⟩
  · intro p hp
    obtain ⟨pl, p1, p2⟩ := hp
    have hip := low p ⟨pl, p1, p2⟩
    by_cases c1 : p = i
    · subst c1; exact .inr (a2 p1)
    · by_cases c2 : p ≤ j
      · exact .inl ⟨by omega, c2⟩
      · right
        by_cases c3 : p = j + 1
        · subst c3; exact b3 p2
        · exact absurd p2 (not_le.2 (b4 p (by omega) pl))
  · exact ⟨by omega, (a4 j hij (by omega)).le, b1⟩

/-- The first extreme sample of the wave is found, if its size exceeds the bound. -/
theorem extreme_double {t x : List ℚ} {h B : ℚ} (H : DoubleRecord t x h) (hB : ∀ i < t.length, |x.getD i 0| ≤ B) {i j : ℕ} (hij : i + 2 ≤ j)
    (hj : j + 1 < t.length) (hsi : (0 ≤ x.getD i 0 ∧ x.getD (i + 1) 0 < 0) ∨ (x.getD i 0 ≤ 0 ∧ 0 < x.getD (i + 1) 0))
    (hsj : (0 ≤ x.getD j 0 ∧ x.getD (j + 1) 0 < 0) ∨ (x.getD j 0 ≤ 0 ∧ 0 < x.getD (j + 1) 0)) :
    let a := crossTimeF64 (f64 (t.getD 1 0 - t.getD 0 0)) t x i
    let b := crossTimeF64 (f64 (t.getD 1 0 - t.getD 0 0)) t x j
    (∀ p, FirstSample (· ≤ ·) x i j p → B / (2 ^ 30 * h) < x.getD p 0 → FirstExtreme (· ≤ ·) t x a b (t.getD p 0) (x.getD p 0)) ∧
    (∀ p, FirstSample (· ≥ ·) x i j p → x.getD p 0 < -(B / (2 ^ 30 * h)) → FirstExtreme (· ≥ ·) t x a b (t.getD p 0) (x.getD p 0)) := by
  intro a b
  obtain ⟨w1, w2, w3, -⟩ := window_double H hB hij hj hsi hsj
  constructor
  all_goals
    rintro p ⟨p1, p2, p3, p4⟩ hbig
    have hin : InWave t a b p := by
      refine (w1 p p1 p2).resolve_right fun hc => ?_
      have := abs_le.1 hc
      linarith
    refine ⟨p, hin, rfl, rfl, fun q hq => ?_, fun q hq hqp => ?_⟩
    · rcases w2 q hq with ⟨q1, q2⟩ | hq
      · exact p3 q q1 q2
      · have := abs_le.1 hq
        first
          | exact le_of_lt (by linarith)
          | (show x.getD p 0 ≤ x.getD q 0; linarith)
    · rcases w2 q hq with ⟨q1, q2⟩ | hq
      · exact p4 q q1 hqp
      · have := abs_le.1 hq
        intro he
        linarith

/-- Specification: there is a crossing between the samples `i` and `i + 1`. -/
def CrossingAt (ty : String) (x : List ℚ) (i : ℕ) : Prop :=
  i + 1 < x.length ∧ ((ty = "down" ∧ 0 ≤ x.getD i 0 ∧ x.getD (i + 1) 0 < 0) ∨ (ty = "up" ∧ x.getD i 0 ≤ 0 ∧ 0 < x.getD (i + 1) 0))

/-- Specification: the exact crossing time. -/
def exactCross (t x : List ℚ) (i : ℕ) : ℚ := t.getD i 0 + (t.getD 1 0 - t.getD 0 0) * x.getD i 0 / (x.getD i 0 - x.getD (i + 1) 0)

/-- **C121.**  Wave by wave analysis in double precision.  One wave is found between each two successive crossings; its period is within
`2 ^ -31` s of the exact one; its height is the correctly rounded difference of crest and trough; and every crest (trough) that is higher
(lower) than `B / (2 ^ 30 h)` is exactly the first highest (lowest) of the samples between the crossings, at exactly its time. -/
theorem waves_double {t x : List ℚ} {h B : ℚ} (H : DoubleRecord t x h) (hB : ∀ i < t.length, |x.getD i 0| ≤ B) {ty : String}
    (hty : ty = "down" ∨ ty = "up") :
    ∃ c : List ℕ, c.Pairwise (· < ·) ∧ (∀ i, i ∈ c ↔ CrossingAt ty x i) ∧
    ∃ tc w, wavesF64 (vec t) (vec x) ty = .ok (tc, w) ∧ tc.length = c.length ∧
      (w.hWave.length = c.length - 1 ∧ w.tWave.length = c.length - 1 ∧ w.aCrest.length = c.length - 1 ∧
        w.aTrough.length = c.length - 1 ∧ w.tCrest.length = c.length - 1 ∧ w.tTrough.length = c.length - 1) ∧
      ∀ k, k + 1 < c.length →
        w.tWave.getD k 0 = f64 (tc.getD (k + 1) 0 - tc.getD k 0) ∧
        |w.tWave.getD k 0 - (exactCross t x (c.getD (k + 1) 0) - exactCross t x (c.getD k 0))| ≤ 1 / 2 ^ 31 ∧
        w.hWave.getD k 0 = f64 (w.aCrest.getD k 0 - w.aTrough.getD k 0) ∧
        (∀ p, FirstSample (· ≤ ·) x (c.getD k 0) (c.getD (k + 1) 0) p → B / (2 ^ 30 * h) < x.getD p 0 →
          w.aCrest.getD k 0 = x.getD p 0 ∧ w.tCrest.getD k 0 = t.getD p 0) ∧
        (∀ p, FirstSample (· ≥ ·) x (c.getD k 0) (c.getD (k + 1) 0) p → x.getD p 0 < -(B / (2 ^ 30 * h)) →
          w.aTrough.getD k 0 = x.getD p 0 ∧ w.tTrough.getD k 0 = t.getD p 0) := by
  obtain ⟨cond, hdet, hcr, hc, hcc⟩ : ∃ cond : ℚ → ℚ → Bool, determineZeroCrossingF64 (vec t) (vec x) ty = .ok (crossLoopF64 cond t x) ∧
      (∀ i, i ∈ crossIdx cond x ↔ CrossingAt ty x i) ∧ (∀ a b, cond a b = true → (0 ≤ a ∧ b < 0) ∨ (a ≤ 0 ∧ 0 < b)) ∧
      ∀ a b c, cond a b = true → cond b c = true → False := by
    obtain ⟨f1, f2⟩ := determineF64_eq H.two H.len
    rcases hty with rfl | rfl
    · refine ⟨downCond, f1, fun i => ?_, fun a b hab => ?_, fun a b c hab hbc => ?_⟩
      · rw [mem_crossIdx]
        unfold CrossingAt
        simp [downCond]
      · simp only [downCond, Bool.and_eq_true, decide_eq_true_eq] at hab
        exact .inl hab
      · simp only [downCond, Bool.and_eq_true, decide_eq_true_eq] at hab hbc
        linarith [hab.2, hbc.1]
    · refine ⟨upCond, f2, fun i => ?_, fun a b hab => ?_, fun a b c hab hbc => ?_⟩
      · rw [mem_crossIdx]
        unfold CrossingAt
        simp [upCond]
      · simp only [upCond, Bool.and_eq_true, decide_eq_true_eq] at hab
        exact .inr hab
      · simp only [upCond, Bool.and_eq_true, decide_eq_true_eq] at hab hbc
        linarith [hab.2, hbc.1]
  have hlen := H.len
  have h2 := H.two
  set c := crossIdx cond x with hcd
  refine ⟨c, crossIdx_pairwise cond x, hcr, ?_⟩
  obtain ⟨-, -, -, agree⟩ := loop_agree H hc hcc
  rw [crossLoopF64_eq _ _ _ hlen] at hdet
  rw [crossLoop_eq _ _ _ hlen, crossLoopF64_eq _ _ _ hlen] at agree
  simp only [List.length_map] at agree
  set dt := t.getD 1 0 - t.getD 0 0 with hdt
  set tc := c.map (crossTimeF64 (f64 dt) t x) with htc
  have tcl : tc.length = c.length := by simp [htc]
  have inc := H.increasing
  have ht0 : t ≠ [] := by rintro rfl; simp at h2
  have hget : ∀ (g : ℕ → ℚ) k, k < c.length → (c.map g).getD k 0 = g (c.getD k 0) := by
    intro g k hk
    rw [List.getD_eq_getElem _ _ (by simpa using hk), List.getElem_map, List.getD_eq_getElem _ _ hk]
  have hmem : ∀ k, k < c.length → c.getD k 0 ∈ c := by
    intro k hk
    rw [List.getD_eq_getElem _ _ hk]; exact List.getElem_mem hk
  -- two successive crossings
  have pair : ∀ k, k + 1 < c.length → c.getD k 0 + 2 ≤ c.getD (k + 1) 0 ∧ c.getD (k + 1) 0 + 1 < t.length ∧
      ((0 ≤ x.getD (c.getD k 0) 0 ∧ x.getD (c.getD k 0 + 1) 0 < 0) ∨ (x.getD (c.getD k 0) 0 ≤ 0 ∧ 0 < x.getD (c.getD k 0 + 1) 0)) ∧
      ((0 ≤ x.getD (c.getD (k + 1) 0) 0 ∧ x.getD (c.getD (k + 1) 0 + 1) 0 < 0) ∨
        (x.getD (c.getD (k + 1) 0) 0 ≤ 0 ∧ 0 < x.getD (c.getD (k + 1) 0 + 1) 0)) := by
    intro k hk
    have hij : c.getD k 0 < c.getD (k + 1) 0 := by
      rw [List.getD_eq_getElem _ _ (by omega), List.getD_eq_getElem _ _ hk]
      exact List.pairwise_iff_getElem.1 (crossIdx_pairwise cond x) k (k + 1) (by rw [← hcd]; omega) hk (by omega)
    obtain ⟨hil, ci⟩ := mem_crossIdx.1 (hmem k (by omega))
    obtain ⟨hjl, cj⟩ := mem_crossIdx.1 (hmem (k + 1) hk)
    refine ⟨?_, by omega, hc _ _ ci, hc _ _ cj⟩
    rcases Nat.lt_or_ge (c.getD (k + 1) 0) (c.getD k 0 + 2) with hlt | hge
    · have e : c.getD (k + 1) 0 = c.getD k 0 + 1 := by omega
      rw [e] at cj
      exact (hcc _ _ _ ci cj).elim
    · exact hge
  have tcs : ∀ k, k < c.length → tc[k]? = some (crossTimeF64 (f64 dt) t x (c.getD k 0)) := by
    intro k hk
    rw [htc, some_getD (by simpa using hk), hget _ k hk]
  -- the analysis does not fail
  obtain ⟨w0, hw0⟩ : ∃ w0, determineParamsIndividualWaves (vec tc) (vec t) (vec x) = .ok w0 := by
    rw [individualWaves_eq (isVec_vec tc) (isVec_vec t) (isVec_vec x) hlen ht0]
    have : ∃ recs, (List.range (tc.length - 1)).mapM (oneWave tc t x) = .ok recs := by
      have gen : ∀ l : List ℕ, (∀ k ∈ l, k + 1 < c.length) → ∃ recs, l.mapM (oneWave tc t x) = .ok recs := by
        intro l
        induction l with
        | nil => intro _; exact ⟨[], rfl⟩
        | cons k l ih =>
          intro hl
          obtain ⟨recs, hr⟩ := ih fun k hk => hl k (List.mem_cons_of_mem _ hk)
          have hk := hl k (List.mem_cons_self ..)
          obtain ⟨p1, p2, p3, p4⟩ := pair k hk
          obtain ⟨-, -, -, hin⟩ := window_double H hB p1 p2 p3 p4
          obtain ⟨r, hr1⟩ := oneWave_ok inc hlen (tcs k (by omega)) (tcs (k + 1) hk) ⟨_, hin⟩
          refine ⟨r :: recs, ?_⟩
          rw [List.mapM_cons, hr1, hr]; rfl
      refine gen _ fun k hk => ?_
      rw [List.mem_range, tcl] at hk
      omega
    obtain ⟨recs, hr⟩ := this
    rw [hr]; exact ⟨_, rfl⟩
  obtain ⟨recs, ⟨q1, q2, q3, q4, q5, q6⟩, hrl, hrec⟩ := individual_waves_spec (isVec_vec tc) (isVec_vec t) (isVec_vec x) hlen ht0 inc hw0
  rw [tcl] at hrl
  refine ⟨tc, { w0 with hWave := w0.hWave.map f64, tWave := w0.tWave.map f64 }, ?_, tcl, ?_, fun k hk => ?_⟩
  · unfold wavesF64 determineParamsIndividualWavesF64
    rw [hdet]
    simp only [bind, Except.bind]
    rw [hw0]
    rfl
  · simp [q1, q2, q3, q4, q5, q6, hrl]
  · have hkr : k < recs.length := by omega
    have col : ∀ g : WaveRec ℚ → ℚ, (recs.map g).getD k 0 = g recs[k] := by
      intro g
      rw [List.getD_eq_getElem _ _ (by simpa using hkr), List.getElem_map]
    have col2 : ∀ g : WaveRec ℚ → ℚ, ((recs.map g).map f64).getD k 0 = f64 (g recs[k]) := by
      intro g
      rw [List.getD_eq_getElem _ _ (by simpa using hkr), List.getElem_map, List.getElem_map]
    simp only [q1, q2, q3, q4, q5, q6]
    rw [col2, col2, col, col, col, col]
    obtain ⟨a, b, ha, hb, hwv⟩ := hrec k recs[k] (List.getElem?_eq_getElem hkr)
    have ea : a = crossTimeF64 (f64 dt) t x (c.getD k 0) := Option.some.inj (ha.symm.trans (tcs k (by omega)))
    have eb : b = crossTimeF64 (f64 dt) t x (c.getD (k + 1) 0) := Option.some.inj (hb.symm.trans (tcs (k + 1) hk))
    obtain ⟨p1, p2, p3, p4⟩ := pair k hk
    obtain ⟨x1, x2⟩ := extreme_double H hB p1 p2 p3 p4
    have hk0 : k < c.length := by omega
    have per : f64 recs[k].tWave = f64 (tc.getD (k + 1) 0 - tc.getD k 0) := by
      rw [hwv.period, ea, eb, htc, hget (crossTimeF64 (f64 dt) t x) k hk0, hget (crossTimeF64 (f64 dt) t x) (k + 1) hk]
    refine ⟨per, ?_, by rw [hwv.height], fun p hp hbig => ?_, fun p hp hbig => ?_⟩
    · rw [per]
      have := (agree k hk).2.2
      rw [hget (crossTime dt t x) k hk0, hget (crossTime dt t x) (k + 1) hk] at this
      exact this
    · have := x1 p hp hbig
      rw [← ea, ← eb] at this
      obtain ⟨u, v⟩ := FirstExtreme.unique (fun _ _ u v => le_antisymm u v) hwv.crest this
      exact ⟨v, u⟩
    · have := x2 p hp hbig
      rw [← ea, ← eb] at this
      obtain ⟨u, v⟩ := FirstExtreme.unique (fun _ _ u v => le_antisymm v u) hwv.trough this
      exact ⟨v, u⟩

/-! ## Non-vacuity and a finding -/

/-- A decidable form of the hypotheses. -/
def doubleRecordCheck (t x : List ℚ) (t0 h : ℚ) : Bool :=
  decide (2 ≤ t.length ∧ t.length = x.length ∧ 1 / 2 ^ 30 ≤ h ∧ h ≤ 2 ^ 10) &&
  (List.range t.length).all fun i => decide (|t.getD i 0 - (t0 + i * h)| ≤ 1 / 2 ^ 35 ∧ f64 (t.getD i 0) = t.getD i 0 ∧ |t.getD i 0| ≤ 2 ^ 18 ∧
    (x.getD i 0 = 0 ∨ (1 / 2 ^ 60 ≤ |x.getD i 0| ∧ |x.getD i 0| ≤ 2 ^ 60)))

theorem doubleRecord_of_check {t x : List ℚ} {t0 h : ℚ} (hc : doubleRecordCheck t x t0 h = true) : DoubleRecord t x h := by
  unfold doubleRecordCheck at hc
  rw [Bool.and_eq_true, decide_eq_true_eq, List.all_eq_true] at hc
  obtain ⟨⟨a, b, c, d⟩, e⟩ := hc
  have e' : ∀ i < t.length, _ := fun i hi => of_decide_eq_true (e i (List.mem_range.2 hi))
  exact ⟨a, b, c, d, ⟨t0, fun i hi => (e' i hi).1⟩, fun i hi => by rw [← (e' i hi).2.1]; exact f64_double _, fun i hi => (e' i hi).2.2.1,
    fun i hi => (e' i hi).2.2.2⟩

/-- The time axis `0.1 * np.arange(16)` in double precision. -/
def tenthAxis : List ℚ := (List.range 16).map fun (i : ℕ) => f64 (i * f64 (1 / 10))

/-- A signal with one wave between the crossings after samples 12 and 14; sample 13 lies just below zero. -/
def grazing : List ℚ := [1, 1, 1, 1, 1, 1, 1, 1, 1, 1, 1, 1, 1, -1 / 2 ^ 60, 1, -1]

theorem grazing_record : DoubleRecord tenthAxis grazing (1 / 10) := doubleRecord_of_check (t0 := 0) (by decide +kernel)

/-- **Finding.**  `t = 0.1 * arange(16)`: the crossing after sample 12 is computed as `1.3000000000000003`, after the time `1.3` of sample 13, so
the only sample of the trough is lost: the wave of height 1 is reported with height 0 and with a trough at level `+1`. -/
theorem height_lost : ∃ tc w, wavesF64 (vec tenthAxis) (vec grazing) "down" = .ok (tc, w) ∧ w.hWave = [0] ∧ w.aTrough = [1] ∧ w.aCrest = [1] ∧
    grazing.getD 13 0 < 0 ∧ FirstSample (· ≥ ·) grazing 12 14 13 := by
  have h : wavesF64 (vec tenthAxis) (vec grazing) "down" = .ok ([f64 (tenthAxis.getD 12 0 + f64 (1 / 10)), f64 (tenthAxis.getD 14 0 + f64 (f64 (1 / 10) / 2))],
      ⟨[0], [f64 (f64 (tenthAxis.getD 14 0 + f64 (f64 (1 / 10) / 2)) - f64 (tenthAxis.getD 12 0 + f64 (1 / 10)))], [1], [1],
        [tenthAxis.getD 14 0], [tenthAxis.getD 14 0]⟩) := by decide +kernel
  refine ⟨_, _, h, rfl, rfl, rfl, by decide +kernel, by omega, by omega, ?_, ?_⟩
  · intro q h1 h2
    have : q = 13 ∨ q = 14 := by omega
    rcases this with rfl | rfl <;> decide +kernel
  · intro q h1 h2
    omega

/-! ## The significant wave height of a record, end to end -/

theorem f64_mono {x y : ℚ} (h : x ≤ y) : f64 x ≤ f64 y := by
  by_contra hc
  push Not at hc
  have n1 := f64_nearest x (f64_double y)
  have n2 := f64_nearest y (f64_double x)
  by_cases c1 : x ≤ f64 y
  · exact absurd ((f64_mono_double (f64_double y)).2 c1) (not_le.2 hc)
  push Not at c1
  rw [abs_of_neg (by linarith : f64 y - x < 0)] at n1
  rw [abs_of_neg (by linarith : f64 y - y < 0)] at n2
  by_cases c2 : f64 x ≤ y
  · rw [abs_of_nonpos (by linarith : f64 x - y ≤ 0)] at n2
    linarith
  · push Not at c2
    rw [abs_of_pos (by linarith : 0 < f64 x - y)] at n2
    have := (abs_le.1 n1).2
    have e : x = y := by linarith
    rw [e] at hc
    exact lt_irrefl _ hc

/-- Specification: `H` is the difference between the highest and the lowest of the samples `i + 1, ..., j`, both further than `δ` from zero. -/
def IsSampleHeight (x : List ℚ) (δ : ℚ) (i j : ℕ) (H : ℚ) : Prop :=
  ∃ p q, FirstSample (· ≤ ·) x i j p ∧ FirstSample (· ≥ ·) x i j q ∧ δ < x.getD p 0 ∧ x.getD q 0 < -δ ∧ H = x.getD p 0 - x.getD q 0

theorem sum_round {l : List ℚ} (h : ∀ v ∈ l, 1 / 2 ^ 200 ≤ v) : |(l.map f64).sum - l.sum| ≤ l.sum / 2 ^ 53 := by
  induction l with
  | nil => simp
  | cons a l ih =>
    have i1 := ih fun x hx => h x (List.mem_cons_of_mem _ hx)
    have ha := h a (List.mem_cons_self ..)
    have ap : 0 < a := lt_of_lt_of_le (by positivity) ha
    have i2 := f64_error (x := a) (by rw [abs_of_pos ap]; exact ha)
    rw [abs_of_pos ap] at i2
    simp only [List.map_cons, List.sum_cons]
    rw [show f64 a + (l.map f64).sum - (a + l.sum) = (f64 a - a) + ((l.map f64).sum - l.sum) by ring]
    refine (abs_add_le _ _).trans ?_
    linarith

/-- **C121 (end to end).**  From the record to the significant wave height, all in double precision: crossings, waves, heights, sorting, averaging in
any order.  If the waves found between the crossings `c` have crests and troughs outside the strip of half-width `B / (2 ^ 30 h)`, the result
differs from the exact average of the highest third of the exact heights `E` by a relative error of at most `n / 3 + 1` units of `2 ^ -52`. -/
theorem hs_record_double (R : NpSum) (A : Argsort ℚ) (ops : List (WHOp ℚ)) {t x : List ℚ} {h B : ℚ} (H : DoubleRecord t x h)
    (hB : ∀ i < t.length, |x.getD i 0| ≤ B) {ty : String} (hty : ty = "down" ∨ ty = "up") {c : List ℕ} (hcp : c.Pairwise (· < ·))
    (hcm : ∀ i, i ∈ c ↔ CrossingAt ty x i) (hc2 : 2 ≤ c.length) (hn : c.length ≤ 2 ^ 50) {E : List ℚ} (hE : E.length = c.length - 1)
    (hEk : ∀ k, k + 1 < c.length → IsSampleHeight x (B / (2 ^ 30 * h)) (c.getD k 0) (c.getD (k + 1) 0) (E.getD k 0))
    {Es : List ℚ} (hp : Es.Perm E) (hd : Es.Pairwise (· ≥ ·)) :
    ∃ tc w s H' T', wavesF64 (vec t) (vec x) ty = .ok (tc, w) ∧ WH.init (vec w.hWave) (vec w.tWave) = .ok s ∧
      ((s.run A ops).getHsD R A).1 = .ok (H', T') ∧
      |H' - mean (Es.take (E.length / 3))| ≤ ((E.length / 3 + 1 : ℕ) : ℚ) / 2 ^ 52 * mean (Es.take (E.length / 3)) := by
  obtain ⟨c', c1, c2, tc, w, hw, htc, ⟨l1, l2, -, -, -, -⟩, hk⟩ := waves_double H hB hty
  have : c' = c := incr_list_ext c1 hcp fun i => (c2 i).trans (hcm i).symm
  subst this
  have hlo := H.lo
  have B0 : 0 ≤ B := (abs_nonneg _).trans (hB 0 (by have := H.two; omega))
  have δ0 : 0 ≤ B / (2 ^ 30 * h) := by
    apply div_nonneg B0
    have : (0 : ℚ) < 1 / 2 ^ 30 := by positivity
    linarith
  -- the computed heights are the rounded exact heights
  have hh : w.hWave = E.map f64 := by
    apply List.ext_getElem
    · simp [l1, hE]
    · intro k k1 k2
      have hkc : k + 1 < c'.length := by omega
      obtain ⟨-, -, e3, e4, e5⟩ := hk k hkc
      obtain ⟨p, q, fp, fq, bp, bq, e⟩ := hEk k hkc
      rw [(e4 p fp bp).1, (e5 q fq bq).1, ← e] at e3
      rw [← List.getD_eq_getElem _ 0 k1, e3, List.getElem_map, List.getD_eq_getElem _ _ (by rw [hE]; omega)]
  -- sizes
  have val : ∀ i, x.getD i 0 ≠ 0 → 1 / 2 ^ 60 ≤ |x.getD i 0| := by
    intro i hi
    by_cases hl : i < t.length
    · exact ((H.values i hl).resolve_left hi).1
    · exfalso; apply hi
      rw [List.getD_eq_getElem?_getD, List.getElem?_eq_none (by rw [← H.len]; omega)]; rfl
  have Ebig : ∀ v ∈ E, 1 / 2 ^ 60 ≤ v := by
    intro v hv
    obtain ⟨k, k1, rfl⟩ := List.mem_iff_getElem.1 hv
    obtain ⟨p, q, fp, fq, bp, bq, e⟩ := hEk k (by omega)
    rw [← List.getD_eq_getElem _ 0 k1, e]
    have := val p (by linarith)
    rw [abs_of_pos (by linarith)] at this
    linarith
  have sz : ∀ y : ℚ, 1 / 2 ^ 60 ≤ y → IsSize (f64 y) := by
    intro y hy
    refine ⟨f64_double _, .inr ?_⟩
    have yp : 0 < y := lt_of_lt_of_le (by positivity) hy
    have h2 : (1 : ℚ) / 2 ^ 200 ≤ 1 / 2 ^ 60 := one_div_le_one_div_of_le (by positivity) (pow_le_pow_right₀ (by norm_num) (by norm_num))
    have := f64_error (x := y) (by rw [abs_of_pos yp]; linarith)
    rw [abs_of_pos yp] at this
    have h3 : (1 : ℚ) / 2 ^ 400 ≤ 1 / 2 ^ 61 := one_div_le_one_div_of_le (by positivity) (pow_le_pow_right₀ (by norm_num) (by norm_num))
    have h4 := (abs_le.1 this).1
    refine h3.trans ?_
    linarith
  have hsz : ∀ v ∈ w.hWave, IsSize v := by
    intro v hv
    rw [hh] at hv
    obtain ⟨y, hy, rfl⟩ := List.mem_map.1 hv
    exact sz y (Ebig y hy)
  have tsz : ∀ v ∈ w.tWave, IsSize v := by
    intro v hv
    obtain ⟨k, k1, rfl⟩ := List.mem_iff_getElem.1 hv
    have hkc : k + 1 < c'.length := by omega
    obtain ⟨e1, -⟩ := hk k hkc
    rw [← List.getD_eq_getElem _ 0 k1, e1]
    apply sz
    obtain ⟨r, e, hr, he, ag⟩ := crossings_double H hty
    have htr : tc = r.2 := by
      unfold wavesF64 at hw
      rw [hr] at hw
      simp only [bind, Except.bind] at hw
      split at hw
      · cases hw
      · exact (Prod.mk.inj (Except.ok.inj hw)).1.symm
    have := (ag.2.2.2 k (by rw [← ag.2.1, ← htr, htc]; exact hkc)).1
    rw [htr]
    linarith
  have hln : w.hWave.length = w.tWave.length := by omega
  have ws : ∀ l : List ℚ, (vec l).WF := fun l => by simp [vec, PyIn.WF, Arr.WF]
  have hne : w.hWave ≠ [] := by rw [← List.length_pos_iff_ne_nil, l1]; omega
  have hinit := WH_init_vec (h := w.hWave) (t := w.tWave)
  have elen : w.hWave.length = E.length := by omega
  have hpf : (Es.map f64).Perm w.hWave := by rw [hh]; exact hp.map _
  have hdf : (Es.map f64).Pairwise (· ≥ ·) := by
    rw [List.pairwise_map]
    exact hd.imp fun h => f64_mono h
  obtain ⟨s, T, o1, -, o3, -⟩ := object_stats (q := 0) (p := 1 / 3) A ops hne hln hpf hdf (by norm_num) (by norm_num) (by norm_num) (by norm_num)
  have es : s = ⟨arr1 w.hWave, w.hWave.length, arr1 w.tWave⟩ := (Except.ok.inj (hinit.symm.trans o1)).symm
  subst es
  have o3 : ((WH.run A ops ⟨arr1 w.hWave, w.hWave.length, arr1 w.tWave⟩).getHs A).1 = _ := o3
  have hlen : (⟨arr1 w.hWave, w.hWave.length, arr1 w.tWave⟩ : WH ℚ).hwave.len = E.length := elen
  rcases hs_accuracy R A (ws _) (ws _) o1 ops (by rw [hlen]; omega) hsz tsz with ⟨e, h4, -⟩ | ⟨H0, T1, H', T', h4, h5, h6, -⟩
  · rw [o3] at h4; cases h4
  refine ⟨tc, w, _, H', T', hw, hinit, h5, ?_⟩
  rw [o3] at h4
  have hH := (Prod.mk.inj (Except.ok.inj h4)).1
  rw [hlen] at h6
  have fl : ⌊((w.hWave.length : ℕ) : ℚ) * (1 / 3)⌋ = ((E.length / 3 : ℕ) : ℤ) := by
    rw [elen, ← floor_nat_div]; congr 1; push_cast; ring
  rw [fl] at hH
  set k := E.length / 3 with hkdef
  have hH0 : H0 = mean ((Es.take k).map f64) := by
    rw [← hH]
    by_cases hz : ((k : ℕ) : ℤ) = 0
    · rw [if_pos hz]
      have : k = 0 := by exact_mod_cast hz
      rw [this]; simp [mean]
    · rw [if_neg hz, Int.toNat_natCast, List.map_take]
  set m := mean (Es.take k) with hm
  have Etb : ∀ v ∈ Es.take k, 1 / 2 ^ 200 ≤ v := fun v hv => by
    have := Ebig v (hp.mem_iff.1 (List.mem_of_mem_take hv))
    exact le_trans (one_div_le_one_div_of_le (by positivity) (pow_le_pow_right₀ (by norm_num) (by norm_num))) this
  have mp : 0 ≤ m := mean_nonneg' fun v hv => le_trans (by positivity) (Etb v hv)
  have hr : |H0 - m| ≤ m / 2 ^ 53 := by
    rw [hH0, hm]
    unfold mean
    rw [List.length_map, ← sub_div, abs_div]
    have hl : (0 : ℚ) ≤ ((Es.take k).length : ℚ) := Nat.cast_nonneg _
    rw [abs_of_nonneg hl, div_right_comm]
    exact div_le_div_of_nonneg_right (sum_round Etb) hl
  have hr' := abs_le.1 hr
  have kq : (k : ℚ) / 2 ^ 52 ≤ 1 := by
    rw [div_le_one (by positivity)]
    exact_mod_cast (by omega : k ≤ 2 ^ 52)
  have k0 : (0 : ℚ) ≤ (k : ℚ) / 2 ^ 52 := by positivity
  have t1 := abs_add_le (H' - H0) (H0 - m)
  rw [sub_add_sub_cancel] at t1
  have t2 : (k : ℚ) / 2 ^ 52 * H0 ≤ (k : ℚ) / 2 ^ 52 * m + 1 * (m / 2 ^ 53) := by
    have : H0 ≤ m + m / 2 ^ 53 := by linarith [hr'.2]
    calc (k : ℚ) / 2 ^ 52 * H0 ≤ (k : ℚ) / 2 ^ 52 * (m + m / 2 ^ 53) := mul_le_mul_of_nonneg_left this k0
      _ = (k : ℚ) / 2 ^ 52 * m + (k : ℚ) / 2 ^ 52 * (m / 2 ^ 53) := by ring
      _ ≤ _ := by
        have := mul_le_mul_of_nonneg_right kq (show 0 ≤ m / 2 ^ 53 by positivity)
        linarith
  have e : ((k + 1 : ℕ) : ℚ) / 2 ^ 52 * m = (k : ℚ) / 2 ^ 52 * m + m / 2 ^ 53 + m / 2 ^ 53 := by push_cast; ring
  rw [e]
  linarith

/-! ## Non-vacuity of the end to end result -/

/-- Eight samples, one per second, with three waves of heights 2, 5 and 2. -/
def threeWaves : List ℚ := [1, -1, 1, -2, 3, -1, 1, -1]

theorem threeWaves_record : DoubleRecord ((List.range 8).map fun (i : ℕ) => (i : ℚ)) threeWaves 1 :=
  doubleRecord_of_check (t0 := 0) (by decide +kernel)

theorem threeWaves_crossings (i : ℕ) : i ∈ ([0, 2, 4, 6] : List ℕ) ↔ CrossingAt "down" threeWaves i := by
  constructor
  · intro h
    simp only [List.mem_cons, List.not_mem_nil, or_false] at h
    rcases h with rfl | rfl | rfl | rfl <;> exact ⟨by decide, .inl ⟨rfl, by decide +kernel, by decide +kernel⟩⟩
  · rintro ⟨h1, h2⟩
    have h1 : i + 1 < 8 := h1
    rcases h2 with ⟨-, h2, h3⟩ | ⟨h, -⟩
    · have : i = 0 ∨ i = 1 ∨ i = 2 ∨ i = 3 ∨ i = 4 ∨ i = 5 ∨ i = 6 := by omega
      rcases this with rfl | rfl | rfl | rfl | rfl | rfl | rfl
      · simp
      · exact absurd h2 (by decide +kernel)
      · simp
      · exact absurd h2 (by decide +kernel)
      · simp
      · exact absurd h2 (by decide +kernel)
      · simp
    · exact absurd h (by decide)

theorem threeWaves_heights (k : ℕ) (hk : k + 1 < ([0, 2, 4, 6] : List ℕ).length) :
    IsSampleHeight threeWaves (3 / (2 ^ 30 * 1)) (([0, 2, 4, 6] : List ℕ).getD k 0) (([0, 2, 4, 6] : List ℕ).getD (k + 1) 0)
      (([2, 5, 2] : List ℚ).getD k 0) := by
  have one : ∀ (i : ℕ) (a b : ℚ), threeWaves.getD (i + 1) 0 = a → threeWaves.getD (i + 2) 0 = b → a < -(3 / (2 ^ 30 * 1)) → 3 / (2 ^ 30 * 1) < b →
      IsSampleHeight threeWaves (3 / (2 ^ 30 * 1)) i (i + 2) (b - a) := by
    intro i a b ha hb h1 h2
    have h0 : (0 : ℚ) < 3 / (2 ^ 30 * 1) := by norm_num
    refine ⟨i + 2, i + 1, ⟨by omega, le_refl _, fun q q1 q2 => ?_, fun q q1 q2 => ?_⟩, ⟨by omega, by omega, fun q q1 q2 => ?_, fun q q1 q2 => by omega⟩,
      by rw [hb]; exact h2, by rw [ha]; exact h1, by rw [ha, hb]⟩
    · have : q = i + 1 ∨ q = i + 2 := by omega
      rcases this with rfl | rfl
      · rw [ha, hb]; exact le_of_lt (by linarith)
      · exact le_refl _
    · have : q = i + 1 := by omega
      subst this
      rw [ha, hb]; intro h; linarith
    · have : q = i + 1 ∨ q = i + 2 := by omega
      rcases this with rfl | rfl
      · exact le_refl _
      · rw [ha, hb]; exact le_of_lt (by linarith)
  have hk : k = 0 ∨ k = 1 ∨ k = 2 := by simp at hk; omega
  rcases hk with rfl | rfl | rfl
  · have := one 0 (-1) 1 rfl rfl (by norm_num) (by norm_num)
    norm_num at this ⊢; exact this
  · have := one 2 (-2) 3 rfl rfl (by norm_num) (by norm_num)
    norm_num at this ⊢; exact this
  · have := one 4 (-1) 1 rfl rfl (by norm_num) (by norm_num)
    norm_num at this ⊢; exact this

/-- The hypotheses of `hs_record_double` hold for this record: the computed significant wave height is 5 up to `2 ^ -51 * 5`. -/
example (R : NpSum) (A : Argsort ℚ) (ops : List (WHOp ℚ)) :
    ∃ tc w s H' T', wavesF64 (vec ((List.range 8).map fun (i : ℕ) => (i : ℚ))) (vec threeWaves) "down" = .ok (tc, w) ∧
      WH.init (vec w.hWave) (vec w.tWave) = .ok s ∧ ((s.run A ops).getHsD R A).1 = .ok (H', T') ∧
      |H' - mean (([5, 2, 2] : List ℚ).take (3 / 3))| ≤ ((3 / 3 + 1 : ℕ) : ℚ) / 2 ^ 52 * mean (([5, 2, 2] : List ℚ).take (3 / 3)) :=
  hs_record_double R A ops threeWaves_record (B := 3) (by
    intro i hi
    simp only [List.length_map, List.length_range] at hi
    have : i = 0 ∨ i = 1 ∨ i = 2 ∨ i = 3 ∨ i = 4 ∨ i = 5 ∨ i = 6 ∨ i = 7 := by omega
    rcases this with rfl | rfl | rfl | rfl | rfl | rfl | rfl | rfl <;> decide +kernel) (.inl rfl) (c := [0, 2, 4, 6]) (by decide)
    threeWaves_crossings (by decide) (by norm_num) (E := [2, 5, 2]) rfl threeWaves_heights (Es := [5, 2, 2]) (by decide +kernel) (by decide +kernel)

/-! ## Concrete cases: the hypotheses of the theorems above are met -/

example : ∃ c : List ℕ, (∀ i, i ∈ c ↔ CrossingAt "up" threeWaves i) ∧
    ∃ tc w, wavesF64 (vec ((List.range 8).map fun (i : ℕ) => (i : ℚ))) (vec threeWaves) "up" = .ok (tc, w) ∧ tc.length = c.length := by
  obtain ⟨c, -, h, tc, w, a, b, -⟩ := waves_double threeWaves_record (B := 3) (by
    intro i hi
    simp only [List.length_map, List.length_range] at hi
    have : i = 0 ∨ i = 1 ∨ i = 2 ∨ i = 3 ∨ i = 4 ∨ i = 5 ∨ i = 6 ∨ i = 7 := by omega
    rcases this with rfl | rfl | rfl | rfl | rfl | rfl | rfl | rfl <;> decide +kernel) (ty := "up") (.inr rfl)
  exact ⟨c, h, tc, w, a, b⟩

end Verif
