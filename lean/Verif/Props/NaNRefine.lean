import Verif.Props.NaNCutoff

/-! # C141: without missing densities the NaN model of `Spectrum` and the ordinary one agree -/

set_option linter.unusedSectionVars false

namespace Verif

variable {K : Type} [Field K] [LinearOrder K] [IsStrictOrderedRing K]

/-! ## Moments -/

theorem momentOnN_lift {m : Int} {f v : List K} (hl : f.length = v.length) (h1 : 0 < f.length) (i j : Nat) (tail : Bool) (fmax : FMax K) :
    momentOnN m f (v.map some) i j tail fmax.lim = (momentOn m f v i j tail fmax).map some := by
  unfold momentOnN momentOn
  rw [pySlice_map, momentSumN_lift, getD_map_some (by omega), tailMomentN_lift]
  cases momentSum m (pySlice f i (j + 1)) (pySlice v i (j + 1)) with
  | error e => rfl
  | ok a =>
    cases tail with
    | false => rfl
    | true =>
      simp only [Except.map, bind, Except.bind, if_true]
      cases tailMoment m (f.getD (f.length - 1) 0) (v.getD (f.length - 1) 0) fmax with
      | error e => rfl
      | ok b => rfl

theorem computeMomentN_lift {pf : PyIn K} {pS : PyIn (Option K)} {pv : PyIn K} {f v : List K} (hf : pf.IsArr f)
    (hS : pS.IsArr (v.map some)) (hv : pv.IsArr v) (hm : monotonicIncreasingConstantStep f = .ok true) (hl : f.length = v.length)
    (m : Int) (fmin : K) (fmax : FMax K) :
    computeMomentN pf pS m (some fmin) fmax.lim = (computeMoment pf pv m fmin fmax).map some := by
  have h2 := mono_two_le hm
  obtain ⟨i, j, t, hr, -, -, hst⟩ := computeMoment_structure hm m fmin fmax
  rw [hst hf hv hl, computeMomentN_structure hm hr hf hS (by simpa using hl), momentOnN_lift hl (by omega)]

/-! ## Peaks -/

theorem lowFill_some (a : K) (v : List K) : LowFill a (v.map some) v := by
  unfold LowFill
  induction v with
  | nil => exact List.Forall₂.nil
  | cons b v ih => exact List.Forall₂.cons (Or.inl rfl) ih

theorem peakPeriodN_lift (f v : List K) : peakPeriodN f (v.map some) = peakPeriod f v := by
  cases v with
  | nil => rfl
  | cons a w => exact peakPeriodN_low (lowFill_some a (a :: w))

theorem computeTpsN_lift {f v : List K} (hl : f.length = v.length) :
    computeTpsN (vec f) (vec (v.map some)) = (computeTps (vec f) (vec v)).map some := by
  rw [computeTps_eq (isArr_vec f) (isArr_vec v) hl]
  unfold computeTpsN
  simp only [vecIn_of_isArr (isArr_vec f), vecIn_of_isArr (isArr_vec (v.map some)), bind, Except.bind]
  rw [if_neg (by simpa using hl)]
  cases v with
  | nil => rfl
  | cons a w =>
    refine computeTpsLN_low (lowFill_some a (a :: w)) hl fun i _ k hk _ _ => ?_
    have := getD_map_some (v := a :: w) (k := k) (by omega)
    rw [List.map_cons] at this
    rw [this]; simp

theorem bandSliceN_lift (f v : List K) (lo : K) (hi : FMax K) :
    bandSliceN f (v.map some) (some lo) hi.lim = (bandSlice f v lo hi).map fun r => (r.1, r.2.map some) := by
  unfold bandSliceN bandSlice
  rw [show (fun v => nLe (some lo) (some v)) = (fun v => decide (lo ≤ v)) from rfl]
  have : (fun v => hi.lim.ge v) = (fun v => hi.ge v) := by cases hi <;> rfl
  rw [this]
  cases getE (whereIdx (fun v => decide (lo ≤ v)) f) 0 with
  | error e => rfl
  | ok i =>
    cases lastE (whereIdx (fun v => hi.ge v) f) with
    | error e => rfl
    | ok j =>
      show Except.ok _ = Except.ok _
      rw [pySlice_map]

/-! ## Results and states -/

/-- Agreement of a result of the ordinary model with one of the NaN model.  The ordinary model does not distinguish NaN from an
infinity, and `.unmodelled` promises nothing. -/
def SameResult (r : Except PyErr ℝ) (rN : Except PyErr (Option ℝ)) : Prop :=
  match r with
  | .ok x => rN = .ok (some x)
  | .error .nonFinite => rN = .ok none ∨ rN = .error .nonFinite
  | .error .unmodelled => True
  | .error e => rN = .error e

/-- Agreement of cached values. -/
def SameCache (c : Cache) (cN : CacheN) : Prop :=
  match c with
  | none => cN = none
  | some (some x) => cN = some (.num x)
  | some none => cN = some .nan ∨ cN = some .other

/-- Agreement of objects. -/
structure SameState (s : SpecObj) (t : SpecObjN) : Prop where
  axis : monotonicIncreasingConstantStep s.f = .ok true
  len : s.f.length = s.sVarDens.data.length
  shape : s.sVarDens.shape = [s.sVarDens.data.length]
  f : t.f = s.f
  dens : t.sVarDens = s.sVarDens.data.map some
  Hm0 : SameCache s.Hm0 t.Hm0
  Hm0HF : SameCache s.Hm0HF t.Hm0HF
  Hm0LF : SameCache s.Hm0LF t.Hm0LF
  Tps : SameCache s.Tps t.Tps
  Tp : SameCache s.Tp t.Tp
  Tmm10 : SameCache s.Tmm10 t.Tmm10
  Tmm10HF : SameCache s.Tmm10HF t.Tmm10HF
  Tmm10LF : SameCache s.Tmm10LF t.Tmm10LF
  Tm01 : SameCache s.Tm01 t.Tm01
  Tm02 : SameCache s.Tm02 t.Tm02
  s0p : SameCache s.s0p t.s0p
  smm10 : SameCache s.smm10 t.smm10
  smm10HF : SameCache s.smm10HF t.smm10HF

theorem SameResult.store {c : Cache} {cN : CacheN} {r : Except PyErr ℝ} {rN : Except PyErr (Option ℝ)} (hc : SameCache c cN)
    (h : SameResult r rN) (hu : r ≠ .error .unmodelled) : SameCache (store c r) (storeN cN rN) := by
  rcases r with e | x
  · cases e with
    | unmodelled => exact absurd rfl hu
    | nonFinite =>
      rcases h with h | h
      · rw [h]; exact Or.inl rfl
      · rw [h]; exact Or.inr rfl
    | _ => rw [show rN = _ from h]; exact hc
  · rw [show rN = _ from h]; rfl

theorem SameResult.of_map {r : Except PyErr ℝ} {rN : Except PyErr (Option ℝ)} (h : rN = r.map some) : SameResult r rN := by
  subst h
  rcases r with e | x
  · cases e <;> first | rfl | exact Or.inr rfl | trivial
  · rfl

theorem nDiv_same (a b : ℝ) : SameResult (divE a b) (nDiv (some a) (some b)) := by
  unfold divE nDiv
  by_cases hb : b = 0
  · rw [if_pos hb]
    by_cases ha : a = 0
    · simp only [if_pos hb, if_pos ha]; exact Or.inl rfl
    · simp only [if_pos hb, if_neg ha]; exact Or.inr rfl
  · rw [if_neg hb]; simp only [if_neg hb]; rfl

section values
variable {s : SpecObj} {t : SpecObjN}

theorem SameState.moment (h : SameState s t) (m : Int) (a : ℝ) (b : FMax ℝ) :
    computeMomentN (vec t.f) (vec t.sVarDens) m (some a) b.lim = (computeMoment (vec s.f) (.nd s.sVarDens) m a b).map some := by
  rw [h.f, h.dens]
  have e : s.sVarDens = ⟨[s.sVarDens.data.length], s.sVarDens.data⟩ := by
    conv_lhs => rw [show s.sVarDens = ⟨s.sVarDens.shape, s.sVarDens.data⟩ from rfl, h.shape]
  rw [e]
  exact computeMomentN_lift (isArr_vec _) (isArr_vec _) (isArr_vec _) h.axis h.len m a b

theorem SameState.calcHm0 (h : SameState s t) (a : ℝ) (b : FMax ℝ) :
    SameResult (calcHm0 s.f s.sVarDens a b) (calcHm0N t.f t.sVarDens (some a) b.lim) := by
  unfold Verif.calcHm0 calcHm0N
  simp only [setFlimN_some, bind, Except.bind]
  rw [show setFlim t.f a b = setFlim s.f a b from by rw [h.f], h.moment]
  cases computeMoment (vec s.f) (.nd s.sVarDens) 0 (setFlim s.f a b).1 (setFlim s.f a b).2 with
  | error e => exact SameResult.of_map rfl
  | ok m0 =>
    simp only [Except.map, heightOf, heightOfN]
    by_cases hq : m0 < 0
    · rw [if_pos hq, if_pos hq]; exact Or.inl rfl
    · rw [if_neg hq, if_neg hq]; rfl

theorem SameState.calcTmm10 (h : SameState s t) (a : ℝ) (b : FMax ℝ) :
    SameResult (calcTmm10 s.f s.sVarDens a b) (calcTmm10N t.f t.sVarDens (some a) b.lim) := by
  unfold Verif.calcTmm10 calcTmm10N
  simp only [setFlimN_some, bind, Except.bind]
  rw [show setFlim t.f a b = setFlim s.f a b from by rw [h.f], h.moment, h.moment]
  cases computeMoment (vec s.f) (.nd s.sVarDens) (-1) (setFlim s.f a b).1 (setFlim s.f a b).2 with
  | error e => exact SameResult.of_map rfl
  | ok m1 =>
    cases computeMoment (vec s.f) (.nd s.sVarDens) 0 (setFlim s.f a b).1 (setFlim s.f a b).2 with
    | error e => exact SameResult.of_map rfl
    | ok m0 => exact nDiv_same m1 m0

theorem SameState.calcTm01 (h : SameState s t) (a : ℝ) (b : FMax ℝ) :
    SameResult (calcTm01 s.f s.sVarDens a b) (calcTm01N t.f t.sVarDens (some a) b.lim) := by
  unfold Verif.calcTm01 calcTm01N
  simp only [setFlimN_some, bind, Except.bind]
  rw [show setFlim t.f a b = setFlim s.f a b from by rw [h.f], h.moment, h.moment]
  cases computeMoment (vec s.f) (.nd s.sVarDens) 0 (setFlim s.f a b).1 (setFlim s.f a b).2 with
  | error e => exact SameResult.of_map rfl
  | ok m1 =>
    cases computeMoment (vec s.f) (.nd s.sVarDens) 1 (setFlim s.f a b).1 (setFlim s.f a b).2 with
    | error e => exact SameResult.of_map rfl
    | ok m0 => exact nDiv_same m1 m0

theorem SameState.calcTm02 (h : SameState s t) (a : ℝ) (b : FMax ℝ) :
    SameResult (calcTm02 s.f s.sVarDens a b) (calcTm02N t.f t.sVarDens (some a) b.lim) := by
  unfold Verif.calcTm02 calcTm02N
  simp only [setFlimN_some, bind, Except.bind]
  rw [show setFlim t.f a b = setFlim s.f a b from by rw [h.f], h.moment, h.moment]
  cases computeMoment (vec s.f) (.nd s.sVarDens) 0 (setFlim s.f a b).1 (setFlim s.f a b).2 with
  | error e => exact SameResult.of_map rfl
  | ok m0 =>
    cases computeMoment (vec s.f) (.nd s.sVarDens) 2 (setFlim s.f a b).1 (setFlim s.f a b).2 with
    | error e => exact SameResult.of_map rfl
    | ok m2 =>
      simp only [Except.map, divE, nDiv]
      by_cases hz : m2 = 0
      · rw [if_pos hz]
        by_cases h0 : m0 = 0
        · simp only [if_pos hz, if_pos h0]; exact Or.inl rfl
        · simp only [if_pos hz, if_neg h0]; exact Or.inr rfl
      · rw [if_neg hz]
        simp only [if_neg hz, sqrtE, nSqrt]
        by_cases hn : m0 / m2 < 0
        · rw [if_pos hn, if_pos hn]; exact Or.inl rfl
        · rw [if_neg hn, if_neg hn]; rfl

theorem SameState.slice (h : SameState s t) (a : ℝ) (b : FMax ℝ) :
    bandSliceN t.f t.sVarDens (setFlimN t.f (some a) b.lim).1 (setFlimN t.f (some a) b.lim).2 =
      (bandSlice s.f s.sVarDens.data (setFlim s.f a b).1 (setFlim s.f a b).2).map fun r => (r.1, r.2.map some) := by
  rw [setFlimN_some, h.f, h.dens]
  exact bandSliceN_lift _ _ _ _

theorem SameState.calcTp (h : SameState s t) (a : ℝ) (b : FMax ℝ) :
    SameResult (calcTp s.f s.sVarDens a b) (calcTpN t.f t.sVarDens (some a) b.lim) := by
  unfold Verif.calcTp calcTpN
  simp only [h.slice a b, h.shape, List.length_cons, List.length_nil, zero_add, ne_eq, not_true_eq_false, if_false, bind, Except.bind]
  cases bandSlice s.f s.sVarDens.data (setFlim s.f a b).1 (setFlim s.f a b).2 with
  | error e => exact SameResult.of_map rfl
  | ok r =>
    simp only [Except.map]
    apply SameResult.of_map
    rw [peakPeriodN_lift]; rfl

theorem SameState.calcTps (h : SameState s t) (a : ℝ) (b : FMax ℝ) :
    SameResult (calcTps s.f s.sVarDens a b) (calcTpsN t.f t.sVarDens (some a) b.lim) := by
  unfold Verif.calcTps calcTpsN
  simp only [h.slice a b, h.shape, List.length_cons, List.length_nil, zero_add, ne_eq, not_true_eq_false, if_false, bind, Except.bind]
  cases hb : bandSlice s.f s.sVarDens.data (setFlim s.f a b).1 (setFlim s.f a b).2 with
  | error e => exact SameResult.of_map rfl
  | ok r =>
    simp only [Except.map]
    apply SameResult.of_map
    apply computeTpsN_lift
    unfold bandSlice at hb
    rw [bind_ok] at hb
    obtain ⟨i, -, hb⟩ := hb
    rw [bind_ok] at hb
    obtain ⟨j, -, hb⟩ := hb
    cases hb
    unfold pySlice
    simp only [List.length_drop, List.length_take, h.len]

end values

/-! ## Calls -/

/-- Agreement of two calls: results, and states unless the result is outside the ordinary model. -/
def SameCall (r : Except PyErr ℝ × SpecObj) (rN : Except PyErr (Option ℝ) × SpecObjN) : Prop :=
  SameResult r.1 rN.1 ∧ (r.1 ≠ .error .unmodelled → SameState r.2 rN.2)

section calls
variable {s : SpecObj} {t : SpecObjN}

theorem SameState.getHm0 (h : SameState s t) (a : ℝ) (b : FMax ℝ) : SameCall (s.getHm0 a b) (t.getHm0 (some a) b.lim) :=
  ⟨h.calcHm0 a b, fun hu => { h with Hm0 := SameResult.store h.Hm0 (h.calcHm0 a b) hu }⟩

theorem SameState.getTmm10 (h : SameState s t) (a : ℝ) (b : FMax ℝ) : SameCall (s.getTmm10 a b) (t.getTmm10 (some a) b.lim) :=
  ⟨h.calcTmm10 a b, fun hu => { h with Tmm10 := SameResult.store h.Tmm10 (h.calcTmm10 a b) hu }⟩

theorem SameState.getTm01 (h : SameState s t) (a : ℝ) (b : FMax ℝ) : SameCall (s.getTm01 a b) (t.getTm01 (some a) b.lim) :=
  ⟨h.calcTm01 a b, fun hu => { h with Tm01 := SameResult.store h.Tm01 (h.calcTm01 a b) hu }⟩

theorem SameState.getTm02 (h : SameState s t) (a : ℝ) (b : FMax ℝ) : SameCall (s.getTm02 a b) (t.getTm02 (some a) b.lim) :=
  ⟨h.calcTm02 a b, fun hu => { h with Tm02 := SameResult.store h.Tm02 (h.calcTm02 a b) hu }⟩

theorem SameState.getTps (h : SameState s t) (a : ℝ) (b : FMax ℝ) : SameCall (s.getTps a b) (t.getTps (some a) b.lim) :=
  ⟨h.calcTps a b, fun hu => { h with Tps := SameResult.store h.Tps (h.calcTps a b) hu }⟩

theorem SameState.getTp (h : SameState s t) (a : ℝ) (b : FMax ℝ) : SameCall (s.getTp a b) (t.getTp (some a) b.lim) :=
  ⟨h.calcTp a b, fun hu => { h with Tp := SameResult.store h.Tp (h.calcTp a b) hu }⟩

/-- The cut-off: either outside the ordinary model, or the same error, or the same number. -/
theorem SameState.cutoff (h : SameState s t) :
    s.cutoff.1 = .error .unmodelled ∨
      (∃ e, e ≠ .unmodelled ∧ e ≠ .nonFinite ∧ s.cutoff.1 = .error e ∧ t.cutoff.1 = .error e ∧ SameState s.cutoff.2 t.cutoff.2) ∨
      (∃ c, s.cutoff.1 = .ok c ∧ t.cutoff.1 = .ok (some c) ∧ SameState s.cutoff.2 t.cutoff.2) := by
  have hT := h.Tmm10
  unfold SpecObj.cutoff SpecObjN.cutoff
  cases hs : s.Tmm10 with
  | some c =>
    rw [hs] at hT
    cases c with
    | none => left; simp only [hs]
    | some T =>
      have ht : t.Tmm10 = some (.num T) := hT
      simp only [hs, ht]
      by_cases h0 : T = 0
      · left; rw [if_pos h0]
      · right; right; exact ⟨45 / 100 / T, by rw [if_neg h0], by rw [if_neg h0], by rw [if_neg h0, if_neg h0]; exact h⟩
  | none =>
    rw [hs] at hT
    have ht : t.Tmm10 = none := hT
    rw [ht]
    obtain ⟨h1, h2⟩ := h.getTmm10 (-1) (.fin (-1))
    have hst : (s.getTmm10 (-1) (.fin (-1))).2.Tmm10 = store s.Tmm10 (s.getTmm10 (-1) (.fin (-1))).1 := rfl
    have hstN : (t.getTmm10 (some (-1)) (.fin (-1))).2.Tmm10 = storeN t.Tmm10 (t.getTmm10 (some (-1)) (.fin (-1))).1 := rfl
    rcases hg : s.getTmm10 (-1) (.fin (-1)) with ⟨r, s'⟩
    rcases hgN : t.getTmm10 (some (-1)) (.fin (-1)) with ⟨rN, t'⟩
    rw [hg] at h1 h2 hst
    rw [show (FMax.fin (-1) : FMax ℝ).lim = .fin (-1) from rfl, hgN] at h1 h2
    rw [hgN] at hstN
    simp only at h1 h2 hst hstN ⊢
    rcases r with e | x
    · cases e with
      | unmodelled => left; rfl
      | nonFinite => left; rfl
      | _ =>
        right; left
        rw [show rN = _ from h1]
        exact ⟨_, by simp, by simp, rfl, rfl, h2 (by simp)⟩
    · have h1' : rN = .ok (some x) := h1
      subst h1'
      rw [show s'.Tmm10 = some (some x) from hst, show t'.Tmm10 = some (.num x) from hstN]
      simp only
      by_cases h0 : x = 0
      · left; rw [if_pos h0]
      · right; right
        exact ⟨45 / 100 / x, by rw [if_neg h0], by rw [if_neg h0], by rw [if_neg h0, if_neg h0]; exact h2 (by simp)⟩

theorem SameResult.same_error {e : PyErr} (h1 : e ≠ .unmodelled) (h2 : e ≠ .nonFinite) :
    SameResult (.error e) (.error e) := by
  cases e <;> first | rfl | exact absurd rfl h1 | exact absurd rfl h2

theorem some_eq_iff (a : ℝ) : (some a = some (-1 : ℝ)) ↔ a = -1 := by simp

theorem SameState.getHm0HF (h : SameState s t) (a : ℝ) (b : FMax ℝ) : SameCall (s.getHm0HF a b) (t.getHm0HF (some a) b.lim) := by
  unfold SpecObj.getHm0HF SpecObjN.getHm0HF
  by_cases ha : a = -1
  · rw [if_pos ha, if_pos (by rw [ha])]
    rcases h.cutoff with hc | ⟨e, e1, e2, hc, hcN, hS⟩ | ⟨c, hc, hcN, hS⟩
    · rcases hh : s.cutoff with ⟨r, s'⟩
      rw [hh] at hc
      simp only at hc
      subst hc
      exact ⟨trivial, fun hu => absurd rfl hu⟩
    · rcases hh : s.cutoff with ⟨r, s'⟩
      rcases hhN : t.cutoff with ⟨rN, t'⟩
      rw [hh] at hc hS
      rw [hhN] at hcN hS
      simp only at hc hcN hS
      subst hc; subst hcN
      exact ⟨SameResult.same_error e1 e2, fun _ => hS⟩
    · rcases hh : s.cutoff with ⟨r, s'⟩
      rcases hhN : t.cutoff with ⟨rN, t'⟩
      rw [hh] at hc hS
      rw [hhN] at hcN hS
      simp only at hc hcN hS
      subst hc; subst hcN
      exact ⟨hS.calcHm0 c b, fun hu => { hS with Hm0HF := SameResult.store hS.Hm0HF (hS.calcHm0 c b) hu }⟩
  · rw [if_neg ha, if_neg (fun e => ha (Option.some.inj e))]
    exact ⟨h.calcHm0 a b, fun hu => { h with Hm0HF := SameResult.store h.Hm0HF (h.calcHm0 a b) hu }⟩

theorem SameState.getTmm10HF (h : SameState s t) (a : ℝ) (b : FMax ℝ) : SameCall (s.getTmm10HF a b) (t.getTmm10HF (some a) b.lim) := by
  unfold SpecObj.getTmm10HF SpecObjN.getTmm10HF
  by_cases ha : a = -1
  · rw [if_pos ha, if_pos (by rw [ha])]
    rcases h.cutoff with hc | ⟨e, e1, e2, hc, hcN, hS⟩ | ⟨c, hc, hcN, hS⟩
    · rcases hh : s.cutoff with ⟨r, s'⟩
      rw [hh] at hc
      simp only at hc
      subst hc
      exact ⟨trivial, fun hu => absurd rfl hu⟩
    · rcases hh : s.cutoff with ⟨r, s'⟩
      rcases hhN : t.cutoff with ⟨rN, t'⟩
      rw [hh] at hc hS
      rw [hhN] at hcN hS
      simp only at hc hcN hS
      subst hc; subst hcN
      exact ⟨SameResult.same_error e1 e2, fun _ => hS⟩
    · rcases hh : s.cutoff with ⟨r, s'⟩
      rcases hhN : t.cutoff with ⟨rN, t'⟩
      rw [hh] at hc hS
      rw [hhN] at hcN hS
      simp only at hc hcN hS
      subst hc; subst hcN
      exact ⟨hS.calcTmm10 c b, fun hu => { hS with Tmm10HF := SameResult.store hS.Tmm10HF (hS.calcTmm10 c b) hu }⟩
  · rw [if_neg ha, if_neg (fun e => ha (Option.some.inj e))]
    exact ⟨h.calcTmm10 a b, fun hu => { h with Tmm10HF := SameResult.store h.Tmm10HF (h.calcTmm10 a b) hu }⟩

theorem SameState.getHm0LF (h : SameState s t) (a : ℝ) (b : FMax ℝ) : SameCall (s.getHm0LF a b) (t.getHm0LF (some a) b.lim) := by
  unfold SpecObj.getHm0LF SpecObjN.getHm0LF
  by_cases ha : b = .fin (-1)
  · rw [if_pos ha, if_pos (by rw [ha]; rfl)]
    rcases h.cutoff with hc | ⟨e, e1, e2, hc, hcN, hS⟩ | ⟨c, hc, hcN, hS⟩
    · rcases hh : s.cutoff with ⟨r, s'⟩
      rw [hh] at hc
      simp only at hc
      subst hc
      exact ⟨trivial, fun hu => absurd rfl hu⟩
    · rcases hh : s.cutoff with ⟨r, s'⟩
      rcases hhN : t.cutoff with ⟨rN, t'⟩
      rw [hh] at hc hS
      rw [hhN] at hcN hS
      simp only at hc hcN hS
      subst hc; subst hcN
      exact ⟨SameResult.same_error e1 e2, fun _ => hS⟩
    · rcases hh : s.cutoff with ⟨r, s'⟩
      rcases hhN : t.cutoff with ⟨rN, t'⟩
      rw [hh] at hc hS
      rw [hhN] at hcN hS
      simp only at hc hcN hS
      subst hc; subst hcN
      exact ⟨hS.calcHm0 a (.fin c), fun hu => { hS with Hm0LF := SameResult.store hS.Hm0LF (hS.calcHm0 a (.fin c)) hu }⟩
  · rw [if_neg ha, if_neg (fun e => ha (lim_eq_neg_one.1 e))]
    exact ⟨h.calcHm0 a b, fun hu => { h with Hm0LF := SameResult.store h.Hm0LF (h.calcHm0 a b) hu }⟩

theorem SameState.getTmm10LF (h : SameState s t) (a : ℝ) (b : FMax ℝ) : SameCall (s.getTmm10LF a b) (t.getTmm10LF (some a) b.lim) := by
  unfold SpecObj.getTmm10LF SpecObjN.getTmm10LF
  by_cases ha : b = .fin (-1)
  · rw [if_pos ha, if_pos (by rw [ha]; rfl)]
    rcases h.cutoff with hc | ⟨e, e1, e2, hc, hcN, hS⟩ | ⟨c, hc, hcN, hS⟩
    · rcases hh : s.cutoff with ⟨r, s'⟩
      rw [hh] at hc
      simp only at hc
      subst hc
      exact ⟨trivial, fun hu => absurd rfl hu⟩
    · rcases hh : s.cutoff with ⟨r, s'⟩
      rcases hhN : t.cutoff with ⟨rN, t'⟩
      rw [hh] at hc hS
      rw [hhN] at hcN hS
      simp only at hc hcN hS
      subst hc; subst hcN
      exact ⟨SameResult.same_error e1 e2, fun _ => hS⟩
    · rcases hh : s.cutoff with ⟨r, s'⟩
      rcases hhN : t.cutoff with ⟨rN, t'⟩
      rw [hh] at hc hS
      rw [hhN] at hcN hS
      simp only at hc hcN hS
      subst hc; subst hcN
      exact ⟨hS.calcTmm10 a (.fin c), fun hu => { hS with Tmm10LF := SameResult.store hS.Tmm10LF (hS.calcTmm10 a (.fin c)) hu }⟩
  · rw [if_neg ha, if_neg (fun e => ha (lim_eq_neg_one.1 e))]
    exact ⟨h.calcTmm10 a b, fun hu => { h with Tmm10LF := SameResult.store h.Tmm10LF (h.calcTmm10 a b) hu }⟩

theorem SameCache.isSome {c : Cache} {cN : CacheN} (h : SameCache c cN) : c = none ↔ cN = none := by
  cases c with
  | none => simp [show cN = none from h]
  | some v =>
    cases v with
    | none => rcases h with h | h <;> simp [h]
    | some x => simp [show cN = some (.num x) from h]

/-- The `hasattr` guard. -/
theorem same_ensure {c : Cache} {cN : CacheN} {run : Except PyErr ℝ × SpecObj} {runN : Except PyErr (Option ℝ) × SpecObjN}
    (h : SameState s t) (hc : SameCache c cN) (hr : SameCall run runN) :
    (ensure c run s).1 = .error .unmodelled ∨
      (∃ e, e ≠ .unmodelled ∧ e ≠ .nonFinite ∧ (ensure c run s).1 = .error e ∧ (ensureN cN runN t).1 = .error e ∧
        SameState (ensure c run s).2 (ensureN cN runN t).2) ∨
      ((ensure c run s).1 = .ok () ∧ (ensureN cN runN t).1 = .ok () ∧ SameState (ensure c run s).2 (ensureN cN runN t).2) := by
  unfold ensure ensureN
  cases c with
  | some v =>
    cases cN with
    | none => exact absurd ((SameCache.isSome hc).2 rfl) (by simp)
    | some w => right; right; exact ⟨rfl, rfl, h⟩
  | none =>
    rw [(SameCache.isSome hc).1 rfl]
    rcases run with ⟨r, s'⟩
    rcases runN with ⟨rN, t'⟩
    obtain ⟨h1, h2⟩ := hr
    simp only at h1 h2
    rcases r with e | x
    · cases e with
      | unmodelled => left; rfl
      | nonFinite =>
        right; right
        rcases h1 with h1 | h1 <;> subst h1 <;> exact ⟨rfl, rfl, h2 (by simp)⟩
      | _ =>
        right; left
        rw [show rN = _ from h1]
        exact ⟨_, by simp, by simp, rfl, rfl, h2 (by simp)⟩
    · rw [show rN = _ from h1]
      right; right; exact ⟨rfl, rfl, h2 (by simp)⟩

theorem steepness_same {H T : Cache} {HN TN : CacheN} (hH : SameCache H HN) (hT : SameCache T TN) (g : ℝ) :
    SameResult (steepness H T g) (steepnessN HN TN g) := by
  rcases H with _ | (_ | H)
  · trivial
  · trivial
  · rcases T with _ | (_ | T)
    · trivial
    · trivial
    · rw [show HN = _ from hH, show TN = _ from hT]
      exact nDiv_same _ _

theorem SameState.getS0p (h : SameState s t) (a : ℝ) (b : FMax ℝ) (g : ℝ) :
    SameCall (s.getS0p a b g) (t.getS0p (some a) b.lim g) := by
  unfold SpecObj.getS0p SpecObjN.getS0p
  rcases same_ensure h h.Hm0 (h.getHm0 a b) with hc | ⟨e, e1, e2, hc, hcN, hS⟩ | ⟨hc, hcN, hS⟩
  · rcases hh : ensure s.Hm0 (s.getHm0 a b) s with ⟨r, s'⟩
    rw [hh] at hc
    simp only at hc
    subst hc
    exact ⟨trivial, fun hu => absurd rfl hu⟩
  · rcases hh : ensure s.Hm0 (s.getHm0 a b) s with ⟨r, s'⟩
    rcases hhN : ensureN t.Hm0 (t.getHm0 (some a) b.lim) t with ⟨rN, t'⟩
    rw [hh] at hc hS
    rw [hhN] at hcN hS
    simp only at hc hcN hS
    subst hc; subst hcN
    exact ⟨SameResult.same_error e1 e2, fun _ => hS⟩
  rcases hh : ensure s.Hm0 (s.getHm0 a b) s with ⟨r, s1⟩
  rcases hhN : ensureN t.Hm0 (t.getHm0 (some a) b.lim) t with ⟨rN, t1⟩
  rw [hh] at hc hS
  rw [hhN] at hcN hS
  simp only at hc hcN hS
  subst hc; subst hcN
  simp only
  rcases same_ensure hS hS.Tps (hS.getTps a b) with hc | ⟨e, e1, e2, hc, hcN, hS'⟩ | ⟨hc, hcN, hS'⟩
  · rcases hh : ensure s1.Tps (s1.getTps a b) s1 with ⟨r, s'⟩
    rw [hh] at hc
    simp only at hc
    subst hc
    exact ⟨trivial, fun hu => absurd rfl hu⟩
  · rcases hh : ensure s1.Tps (s1.getTps a b) s1 with ⟨r, s'⟩
    rcases hhN : ensureN t1.Tps (t1.getTps (some a) b.lim) t1 with ⟨rN, t'⟩
    rw [hh] at hc hS'
    rw [hhN] at hcN hS'
    simp only at hc hcN hS'
    subst hc; subst hcN
    exact ⟨SameResult.same_error e1 e2, fun _ => hS'⟩
  rcases hh : ensure s1.Tps (s1.getTps a b) s1 with ⟨r, s2⟩
  rcases hhN : ensureN t1.Tps (t1.getTps (some a) b.lim) t1 with ⟨rN, t2⟩
  rw [hh] at hc hS'
  rw [hhN] at hcN hS'
  simp only at hc hcN hS'
  subst hc; subst hcN
  exact ⟨steepness_same hS'.Hm0 hS'.Tps g,
    fun hu => { hS' with s0p := SameResult.store hS'.s0p (steepness_same hS'.Hm0 hS'.Tps g) hu }⟩

theorem SameState.getSmm10 (h : SameState s t) (a : ℝ) (b : FMax ℝ) (g : ℝ) :
    SameCall (s.getSmm10 a b g) (t.getSmm10 (some a) b.lim g) := by
  unfold SpecObj.getSmm10 SpecObjN.getSmm10
  rcases same_ensure h h.Hm0 (h.getHm0 a b) with hc | ⟨e, e1, e2, hc, hcN, hS⟩ | ⟨hc, hcN, hS⟩
  · rcases hh : ensure s.Hm0 (s.getHm0 a b) s with ⟨r, s'⟩
    rw [hh] at hc
    simp only at hc
    subst hc
    exact ⟨trivial, fun hu => absurd rfl hu⟩
  · rcases hh : ensure s.Hm0 (s.getHm0 a b) s with ⟨r, s'⟩
    rcases hhN : ensureN t.Hm0 (t.getHm0 (some a) b.lim) t with ⟨rN, t'⟩
    rw [hh] at hc hS
    rw [hhN] at hcN hS
    simp only at hc hcN hS
    subst hc; subst hcN
    exact ⟨SameResult.same_error e1 e2, fun _ => hS⟩
  rcases hh : ensure s.Hm0 (s.getHm0 a b) s with ⟨r, s1⟩
  rcases hhN : ensureN t.Hm0 (t.getHm0 (some a) b.lim) t with ⟨rN, t1⟩
  rw [hh] at hc hS
  rw [hhN] at hcN hS
  simp only at hc hcN hS
  subst hc; subst hcN
  simp only
  rcases same_ensure hS hS.Tmm10 (hS.getTmm10 a b) with hc | ⟨e, e1, e2, hc, hcN, hS'⟩ | ⟨hc, hcN, hS'⟩
  · rcases hh : ensure s1.Tmm10 (s1.getTmm10 a b) s1 with ⟨r, s'⟩
    rw [hh] at hc
    simp only at hc
    subst hc
    exact ⟨trivial, fun hu => absurd rfl hu⟩
  · rcases hh : ensure s1.Tmm10 (s1.getTmm10 a b) s1 with ⟨r, s'⟩
    rcases hhN : ensureN t1.Tmm10 (t1.getTmm10 (some a) b.lim) t1 with ⟨rN, t'⟩
    rw [hh] at hc hS'
    rw [hhN] at hcN hS'
    simp only at hc hcN hS'
    subst hc; subst hcN
    exact ⟨SameResult.same_error e1 e2, fun _ => hS'⟩
  rcases hh : ensure s1.Tmm10 (s1.getTmm10 a b) s1 with ⟨r, s2⟩
  rcases hhN : ensureN t1.Tmm10 (t1.getTmm10 (some a) b.lim) t1 with ⟨rN, t2⟩
  rw [hh] at hc hS'
  rw [hhN] at hcN hS'
  simp only at hc hcN hS'
  subst hc; subst hcN
  exact ⟨steepness_same hS'.Hm0 hS'.Tmm10 g,
    fun hu => { hS' with smm10 := SameResult.store hS'.smm10 (steepness_same hS'.Hm0 hS'.Tmm10 g) hu }⟩

theorem SameState.getSmm10HF (h : SameState s t) (a : ℝ) (b : FMax ℝ) (g : ℝ) :
    SameCall (s.getSmm10HF a b g) (t.getSmm10HF (some a) b.lim g) := by
  unfold SpecObj.getSmm10HF SpecObjN.getSmm10HF
  rcases same_ensure h h.Hm0HF (h.getHm0HF a b) with hc | ⟨e, e1, e2, hc, hcN, hS⟩ | ⟨hc, hcN, hS⟩
  · rcases hh : ensure s.Hm0HF (s.getHm0HF a b) s with ⟨r, s'⟩
    rw [hh] at hc
    simp only at hc
    subst hc
    exact ⟨trivial, fun hu => absurd rfl hu⟩
  · rcases hh : ensure s.Hm0HF (s.getHm0HF a b) s with ⟨r, s'⟩
    rcases hhN : ensureN t.Hm0HF (t.getHm0HF (some a) b.lim) t with ⟨rN, t'⟩
    rw [hh] at hc hS
    rw [hhN] at hcN hS
    simp only at hc hcN hS
    subst hc; subst hcN
    exact ⟨SameResult.same_error e1 e2, fun _ => hS⟩
  rcases hh : ensure s.Hm0HF (s.getHm0HF a b) s with ⟨r, s1⟩
  rcases hhN : ensureN t.Hm0HF (t.getHm0HF (some a) b.lim) t with ⟨rN, t1⟩
  rw [hh] at hc hS
  rw [hhN] at hcN hS
  simp only at hc hcN hS
  subst hc; subst hcN
  simp only
  rcases same_ensure hS hS.Tmm10HF (hS.getTmm10HF a b) with hc | ⟨e, e1, e2, hc, hcN, hS'⟩ | ⟨hc, hcN, hS'⟩
  · rcases hh : ensure s1.Tmm10HF (s1.getTmm10HF a b) s1 with ⟨r, s'⟩
    rw [hh] at hc
    simp only at hc
    subst hc
    exact ⟨trivial, fun hu => absurd rfl hu⟩
  · rcases hh : ensure s1.Tmm10HF (s1.getTmm10HF a b) s1 with ⟨r, s'⟩
    rcases hhN : ensureN t1.Tmm10HF (t1.getTmm10HF (some a) b.lim) t1 with ⟨rN, t'⟩
    rw [hh] at hc hS'
    rw [hhN] at hcN hS'
    simp only at hc hcN hS'
    subst hc; subst hcN
    exact ⟨SameResult.same_error e1 e2, fun _ => hS'⟩
  rcases hh : ensure s1.Tmm10HF (s1.getTmm10HF a b) s1 with ⟨r, s2⟩
  rcases hhN : ensureN t1.Tmm10HF (t1.getTmm10HF (some a) b.lim) t1 with ⟨rN, t2⟩
  rw [hh] at hc hS'
  rw [hhN] at hcN hS'
  simp only at hc hcN hS'
  subst hc; subst hcN
  exact ⟨steepness_same hS'.Hm0HF hS'.Tmm10HF g,
    fun hu => { hS' with smm10HF := SameResult.store hS'.smm10HF (steepness_same hS'.Hm0HF hS'.Tmm10HF g) hu }⟩

theorem lim_call (b : FMax ℝ) : SpecObjN.call.lim b = b.lim := by cases b <;> rfl

theorem SameState.call (h : SameState s t) (op : SpecOp) : SameCall (s.call op) (t.call op) := by
  cases op <;> simp only [SpecObj.call, SpecObjN.call, lim_call]
  case getHm0 a b => exact h.getHm0 a b
  case getHm0HF a b => exact h.getHm0HF a b
  case getHm0LF a b => exact h.getHm0LF a b
  case getTps a b => exact h.getTps a b
  case getTp a b => exact h.getTp a b
  case getTmm10 a b => exact h.getTmm10 a b
  case getTmm10HF a b => exact h.getTmm10HF a b
  case getTmm10LF a b => exact h.getTmm10LF a b
  case getTm01 a b => exact h.getTm01 a b
  case getTm02 a b => exact h.getTm02 a b
  case getS0p a b g => exact h.getS0p a b g
  case getSmm10 a b g => exact h.getSmm10 a b g
  case getSmm10HF a b g => exact h.getSmm10HF a b g

end calls

/-- **C141.**  For a spectrum without NaN the NaN model and the ordinary model give the same answers: after any history of calls that
stays inside the ordinary model, every call returns the same number or raises the same exception. -/
theorem nan_model_refines {f v : List ℝ} {s : SpecObj} {t : SpecObjN} (hs : SpecObj.init (vec f) (vec v) = .ok s)
    (ht : SpecObjN.init (vec f) (vec (v.map some)) = .ok t) (hist : List SpecOp)
    (hin : ∀ pre op suf, hist = pre ++ op :: suf → ((s.after pre).call op).1 ≠ .error .unmodelled) (op : SpecOp) :
    SameResult ((s.after hist).call op).1 ((t.after hist).call op).1 := by
  obtain ⟨hm, hl, rfl⟩ := (spectrum_init_iff_partial (isArr_vec f) (isArr_vec v)).1 hs
  obtain ⟨-, -, -, -, rfl⟩ := SpecObjN.init_vec ht
  have h0 : SameState { f := f, sVarDens := ⟨[v.length], v⟩, nf := f.length }
      { f := f, sVarDens := v.map some, nf := f.length } :=
    ⟨hm, hl, rfl, rfl, rfl, rfl, rfl, rfl, rfl, rfl, rfl, rfl, rfl, rfl, rfl, rfl, rfl, rfl⟩
  suffices key : ∀ hist, (∀ pre op suf, hist = pre ++ op :: suf →
      ((SpecObj.after { f := f, sVarDens := ⟨[v.length], v⟩, nf := f.length } pre).call op).1 ≠ .error .unmodelled) →
      SameState (SpecObj.after { f := f, sVarDens := ⟨[v.length], v⟩, nf := f.length } hist)
        (SpecObjN.after { f := f, sVarDens := v.map some, nf := f.length } hist) from ((key hist hin).call op).1
  intro hist
  induction hist using List.reverseRecOn with
  | nil => intro _; exact h0
  | append_singleton l a ih =>
    intro hin
    have h := ih fun pre op suf e => hin pre op (suf ++ [a]) (by rw [e]; simp)
    have := (h.call a).2 (hin l a [] rfl)
    simpa [SpecObj.after, SpecObjN.after, List.foldl_append] using this

/-- Non-vacuity: the flat spectrum at 0, 1, 2, 3 Hz, `get_Hm0()` then `get_Tm01()`. -/
example : ∃ s t, SpecObj.init (vec [0, 1, 2, 3]) (vec [1, 1, 1, 1]) = .ok s ∧
    SpecObjN.init (vec [0, 1, 2, 3]) (vec [some 1, some 1, some 1, some 1]) = .ok t ∧
    SameResult ((s.after [.getHm0 (-1) (.fin (-1))]).call (.getTm01 (-1) (.fin (-1)))).1
      ((t.after [.getHm0 (-1) (.fin (-1))]).call (.getTm01 (-1) (.fin (-1)))).1 := by
  have hs := (spectrum_init_iff_partial (isArr_vec ([0, 1, 2, 3] : List ℝ)) (isArr_vec [1, 1, 1, 1])).2 ⟨axis4_check, by simp, rfl⟩
  have ht := SpecObjN.init_ok (S := ([1, 1, 1, 1] : List ℝ).map some) axis4_check (by simp)
  refine ⟨_, _, hs, ht, nan_model_refines hs ht _ ?_ _⟩
  intro pre op suf e
  have hp : pre = [] := by
    cases pre with
    | nil => rfl
    | cons a p => simp at e
  subst hp
  simp only [List.nil_append, List.cons.injEq] at e
  obtain ⟨rfl, -⟩ := e
  show calcHm0 _ _ _ _ ≠ _
  obtain ⟨r, hr⟩ := full_moment_ok (isArr_vec ([0, 1, 2, 3] : List ℝ)) (isArr_vec [1, 1, 1, 1]) axis4_check (by simp) (by simp) 0
  unfold calcHm0
  have e1 : setFlim ([0, 1, 2, 3] : List ℝ) (-1) (.fin (-1)) = (([0, 1, 2, 3] : List ℝ).getD 0 0, .fin (([0, 1, 2, 3] : List ℝ).getD (([0, 1, 2, 3] : List ℝ).length - 1) 0)) := by
    unfold setFlim
    rw [if_pos rfl, if_pos rfl]
  simp only [SpecObj.after, List.foldl_nil, e1, bind, Except.bind]
  rw [show (PyIn.nd ⟨[([1, 1, 1, 1] : List ℝ).length], [1, 1, 1, 1]⟩) = vec ([1, 1, 1, 1] : List ℝ) from rfl, hr]
  simp only [heightOf]
  split_ifs <;> simp

end Verif
