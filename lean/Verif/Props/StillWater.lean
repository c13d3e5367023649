import Verif.Props.NaNRefine
import Verif.Props.NaNCutoff
import Verif.Props.NaNPeak
import Verif.Props.Welch
import Verif.Props.Directional
import Verif.Props.SpectrumValues
import Verif.Props.TpsWave
import Verif.Props.NoiseSpectra
import Verif.Props.RawInvariance
import Verif.Props.RecordHeight

/-! # C172: still water

What the spectral methods report for a spectrum without any energy (every density zero), as it results from a record of a constant level. -/

set_option linter.unusedSectionVars false

namespace Verif

/-- The densities of still water on `n` frequencies. -/
def calm (n : Nat) : List ℝ := List.replicate n 0

theorem calm_length (n : Nat) : (calm n).length = n := List.length_replicate

/-- A call raised an exception (it did not return a NaN or infinite number). -/
def Raised {α : Type} (r : Except PyErr α) : Prop := ∃ e, r = .error e ∧ e ≠ .nonFinite ∧ e ≠ .unmodelled

theorem calm_moment {f : List ℝ} (hm : monotonicIncreasingConstantStep f = .ok true) (h0 : 0 ≤ f.getD 0 0) {m : Int} (hm3 : m ≤ 3)
    (a : ℝ) (b : FMax ℝ) :
    computeMoment (vec f) (vec (calm f.length)) m a b = .ok 0 ∨ Raised (computeMoment (vec f) (vec (calm f.length)) m a b) := by
  have hp := uniform_check_increasing hm
  have h2 := mono_two_le hm
  have hl : f.length = (calm f.length).length := (calm_length _).symm
  obtain ⟨i, j, t, hr, hi, hj, hst⟩ := computeMoment_structure hm m a b
  have he := hst (isArr_vec f) (isArr_vec (calm f.length)) hl
  have hlast : 0 < f.getD (f.length - 1) 0 := lt_of_le_of_lt h0 (inc_lt hp (by omega) (by omega))
  by_cases hij : i ≤ j
  · left
    have hs : ∃ r, computeMoment (vec f) (vec (calm f.length)) m a b = .ok r := by
      rw [he]
      have hlen := pySlice_len1 (l := f) (i := i) hj
      have hlen' := pySlice_len1 (l := calm f.length) (i := i) (j := j) (by omega)
      have h1 : ∃ r, momentSum m (pySlice f i (j + 1)) (pySlice (calm f.length) i (j + 1)) = .ok r := by
        unfold momentSum
        rw [if_neg]
        · apply simpson_some
          · rw [List.length_zipWith]; omega
          · intro h
            rw [h] at hlen
            simp at hlen; omega
        · rintro ⟨hneg, hmem⟩
          obtain ⟨k, hk, ek⟩ := List.getElem_of_mem hmem
          have e := pySlice_getD_any (l := f) (0 : ℝ) (i := i) (j := j) (k := k) (by omega)
          rw [List.getD, List.getElem?_eq_getElem hk] at e
          have e' : (pySlice f i (j + 1))[k] = f.getD (i + k) 0 := e
          rw [ek] at e'
          by_cases hz : f.getD 0 0 = 0
          · have hu : firstUsable f m = 1 := by unfold firstUsable; rw [if_pos ⟨hneg, hz⟩]
            have := inc_lt hp (i := 0) (j := i + k) (by omega) (by omega)
            rw [hz, ← e'] at this
            exact lt_irrefl _ this
          · have := inc_le hp (i := 0) (j := i + k) (by omega) (by omega)
            rw [← e'] at this
            exact hz (le_antisymm this h0)
      obtain ⟨r, hr1⟩ := h1
      cases t with
      | false => exact ⟨r, by rw [momentOn_false, hr1]⟩
      | true =>
        have htail : ∃ c, tailMoment m (f.getD (f.length - 1) 0) ((calm f.length).getD (f.length - 1) 0) b = .ok c := by
          unfold tailMoment
          rw [if_neg (by rintro (h | h); · omega
                         · exact hlast.ne' h)]
          cases b with
          | inf => simp only; rw [if_pos (by omega)]; exact ⟨_, rfl⟩
          | fin F =>
            simp only
            rw [if_neg]
            · exact ⟨_, rfl⟩
            · rintro ⟨rfl, -⟩
              by_cases hw : a = -1 ∨ (FMax.fin (0 : ℝ)) = .fin (-1)
              · have := (hr.whole hw).2.2; cases this
              · rcases le_or_gt (0 : ℝ) (f.getD (f.length - 1) 0) with hle | hgt
                · have := (hr.upper 0 hw rfl hle).2; cases this
                · linarith
        obtain ⟨c, hc⟩ := htail
        refine ⟨r + c, ?_⟩
        unfold momentOn
        rw [hr1]
        simp only [bind, Except.bind, if_true, hc]
        rfl
    obtain ⟨r, hr1⟩ := hs
    have hlin := moment_linear (0 : ℝ) 0 (isArr_vec f) (isArr_vec (calm f.length)) (isArr_vec (calm f.length)) (p := vec (calm f.length))
      (by
        have : specComb (0 : ℝ) 0 (calm f.length) (calm f.length) = calm f.length := by
          unfold specComb calm; simp
        rw [this]; exact isArr_vec _) hr1 hr1
    rw [hlin]; simp
  · right
    refine ⟨.valueError "cannot select an axis to squeeze out which has size not equal to one", ?_, by simp, by simp⟩
    rw [he]
    have e1 : pySlice f i (j + 1) = [] := by
      unfold pySlice; rw [List.drop_eq_nil_iff, List.length_take]; omega
    have e2 : pySlice (calm f.length) i (j + 1) = [] := by
      unfold pySlice; rw [List.drop_eq_nil_iff, List.length_take]; omega
    unfold momentOn
    rw [e1, e2]
    unfold momentSum simpson
    simp [bind, Except.bind]

theorem calm_map_some (n : Nat) : (calm n).map some = List.replicate n (some 0) := by unfold calm; simp

theorem calm_momentN {f : List ℝ} (hm : monotonicIncreasingConstantStep f = .ok true) (h0 : 0 ≤ f.getD 0 0) {m : Int} (hm3 : m ≤ 3)
    (a : ℝ) (b : FMax ℝ) :
    computeMomentN (vec f) (vec (List.replicate f.length (some 0))) m (some a) b.lim = .ok (some 0) ∨
      Raised (computeMomentN (vec f) (vec (List.replicate f.length (some 0))) m (some a) b.lim) := by
  rw [← calm_map_some, computeMomentN_lift (isArr_vec f) (isArr_vec _) (isArr_vec (calm f.length)) hm (calm_length _).symm]
  rcases calm_moment hm h0 hm3 a b with h | ⟨e, h, h'⟩
  · left; rw [h]; rfl
  · right; exact ⟨e, by rw [h]; rfl, h'⟩

theorem calm_full_momentN {f : List ℝ} (hm : monotonicIncreasingConstantStep f = .ok true) (h0 : 0 ≤ f.getD 0 0) {m : Int} (hm3 : m ≤ 3) :
    computeMomentN (vec f) (vec (List.replicate f.length (some 0))) m (some (f.getD 0 0)) (.fin (f.getD (f.length - 1) 0)) =
      .ok (some 0) := by
  have h := calm_momentN hm h0 hm3 (f.getD 0 0) (.fin (f.getD (f.length - 1) 0))
  obtain ⟨r, hr⟩ := full_moment_ok (isArr_vec f) (isArr_vec (calm f.length)) hm (calm_length _).symm h0 m
  rcases h with h | ⟨e, h, -⟩
  · exact h
  · exfalso
    rw [← calm_map_some, computeMomentN_lift (isArr_vec f) (isArr_vec _) (isArr_vec (calm f.length)) hm (calm_length _).symm, hr] at h
    cases h

/-- The object holds a spectrum of still water on the axis `f`, and what its caches can hold. -/
structure CalmState (f : List ℝ) (s : SpecObjN) : Prop where
  axis : monotonicIncreasingConstantStep f = .ok true
  start : 0 ≤ f.getD 0 0
  freq : s.f = f
  dens : s.sVarDens = List.replicate f.length (some 0)
  Hm0 : s.Hm0 = none ∨ s.Hm0 = some (.num 0)
  Hm0HF : s.Hm0HF = none ∨ s.Hm0HF = some (.num 0)
  Tps : s.Tps = none ∨ s.Tps = some (.num (-999))
  Tmm10 : s.Tmm10 = none ∨ s.Tmm10 = some .nan
  Tmm10HF : s.Tmm10HF = none ∨ s.Tmm10HF = some .nan

theorem storeN_raised {c : CacheN} {r : Except PyErr (Option ℝ)} (h : Raised r) : storeN c r = c := by
  obtain ⟨e, rfl, h1, -⟩ := h
  cases e <;> first | rfl | exact absurd rfl h1

theorem storeN_calm {c : CacheN} {r : Except PyErr (Option ℝ)} {v : Option ℝ} {n : NVal}
    (hv : storeN none (.ok v) = some n) (hc : c = none ∨ c = some n) (h : r = .ok v ∨ Raised r) :
    storeN c r = none ∨ storeN c r = some n := by
  rcases h with rfl | h
  · right; rw [← hv]; cases v <;> rfl
  · rw [storeN_raised h]; exact hc

theorem raised_bind {α β : Type} {r : Except PyErr α} (h : Raised r) (k : α → Except PyErr β) : Raised (r >>= k) := by
  obtain ⟨e, rfl, h'⟩ := h
  exact ⟨e, rfl, h'⟩

section
variable {f : List ℝ} {s : SpecObjN} (h : CalmState f s)
include h

theorem CalmState.moment {m : Int} (hm3 : m ≤ 3) (a : ℝ) (b : FMax ℝ) :
    computeMomentN (vec s.f) (vec s.sVarDens) m (setFlimN s.f (some a) b.lim).1 (setFlimN s.f (some a) b.lim).2 = .ok (some 0) ∨
      Raised (computeMomentN (vec s.f) (vec s.sVarDens) m (setFlimN s.f (some a) b.lim).1 (setFlimN s.f (some a) b.lim).2) := by
  rw [setFlimN_some, h.freq, h.dens]
  exact calm_momentN h.axis h.start hm3 _ _

theorem CalmState.full {m : Int} (hm3 : m ≤ 3) :
    computeMomentN (vec s.f) (vec s.sVarDens) m (setFlimN s.f (some (-1)) (.fin (-1))).1 (setFlimN s.f (some (-1)) (.fin (-1))).2 =
      .ok (some 0) := by
  rw [setFlimN_default, h.freq, h.dens]
  exact calm_full_momentN h.axis h.start hm3

theorem CalmState.calcHm0 (a : ℝ) (b : FMax ℝ) :
    calcHm0N s.f s.sVarDens (some a) b.lim = .ok (some 0) ∨ Raised (calcHm0N s.f s.sVarDens (some a) b.lim) := by
  unfold calcHm0N
  rcases h.moment (m := 0) (by omega) a b with e | e
  · left; simp only [e, bind, Except.bind, heightOfN]; simp [pure, Except.pure]
  · right; exact raised_bind e _

theorem CalmState.calcTmm10 (a : ℝ) (b : FMax ℝ) :
    calcTmm10N s.f s.sVarDens (some a) b.lim = .ok none ∨ Raised (calcTmm10N s.f s.sVarDens (some a) b.lim) := by
  unfold calcTmm10N
  rcases h.moment (m := -1) (by omega) a b with e | e
  · rcases h.moment (m := 0) (by omega) a b with e' | e'
    · left; simp only [e, e', bind, Except.bind, nDiv, if_true]
    · right; simp only [e, bind, Except.bind]; exact raised_bind e' _
  · right; exact raised_bind e _

theorem CalmState.calcTm01 (a : ℝ) (b : FMax ℝ) :
    calcTm01N s.f s.sVarDens (some a) b.lim = .ok none ∨ Raised (calcTm01N s.f s.sVarDens (some a) b.lim) := by
  unfold calcTm01N
  rcases h.moment (m := 0) (by omega) a b with e | e
  · rcases h.moment (m := 1) (by omega) a b with e' | e'
    · left; simp only [e, e', bind, Except.bind, nDiv, if_true]
    · right; simp only [e, bind, Except.bind]; exact raised_bind e' _
  · right; exact raised_bind e _

theorem CalmState.calcTps (a : ℝ) (b : FMax ℝ) :
    calcTpsN s.f s.sVarDens (some a) b.lim = .ok (some (-999)) ∨ Raised (calcTpsN s.f s.sVarDens (some a) b.lim) := by
  unfold calcTpsN
  rw [setFlimN_some, h.freq, h.dens, ← calm_map_some]
  dsimp only
  rw [bandSliceN_lift]
  cases hb : bandSlice f (calm f.length) (setFlim f a b).1 (setFlim f a b).2 with
  | error e =>
    right
    refine ⟨e, rfl, ?_⟩
    unfold bandSlice at hb
    rcases getE_raises (whereIdx (fun v => decide ((setFlim f a b).1 ≤ v)) f) 0 with ⟨i, hi⟩ | hi
    · rw [hi] at hb
      rcases lastE_raises (whereIdx (fun v => (setFlim f a b).2.ge v) f) with ⟨j, hj⟩ | hj
      · simp only [hj, bind, Except.bind] at hb; cases hb
      · simp only [hj, bind, Except.bind] at hb; cases hb; exact ⟨by simp, by simp⟩
    · rw [hi] at hb; cases hb; exact ⟨by simp, by simp⟩
  | ok r =>
    obtain ⟨i, j, hj, rfl, -⟩ := bandSlice_spec (uniform_check_increasing h.axis) hb
    have hlen : (pySlice f i (j + 1)).length = (pySlice (calm f.length) i (j + 1)).length := by
      rw [pySlice_len1 hj, pySlice_len1 (by rw [calm_length]; exact hj)]
    have e : (Except.map (fun r : List ℝ × List ℝ => (r.1, r.2.map some)) (Except.ok (pySlice f i (j + 1), pySlice (calm f.length) i (j + 1))) :
        Except PyErr _) = .ok (pySlice f i (j + 1), (pySlice (calm f.length) i (j + 1)).map some) := rfl
    rw [e]
    show computeTpsN (vec (pySlice f i (j + 1))) (vec ((pySlice (calm f.length) i (j + 1)).map some)) = _ ∨ Raised (computeTpsN _ _)
    rw [computeTpsN_lift hlen, computeTps_eq (isArr_vec _) (isArr_vec _) hlen]
    have hz : ∀ v ∈ pySlice (calm f.length) i (j + 1), v = 0 := by
      intro v hv
      have : v ∈ calm f.length := List.mem_of_mem_take (List.mem_of_mem_drop hv)
      exact List.eq_of_mem_replicate this
    unfold computeTpsL
    cases hS : pySlice (calm f.length) i (j + 1) with
    | nil => right; exact ⟨_, rfl, by simp, by simp⟩
    | cons x l =>
      left
      obtain ⟨M, hM⟩ := pyMax_exists (l := x :: l) (by simp)
      have := hz M (by rw [hS]; exact (pyMax_spec hM).1)
      subst this
      rw [hM]
      simp only [bind, Except.bind]
      rw [if_pos (by positivity)]
      rfl

theorem CalmState.period (ht : s.Tmm10 = some .nan) : NaNPeriod s :=
  ⟨by rw [h.freq]; exact h.axis, by rw [h.freq, h.dens, List.length_replicate], by rw [h.freq]; exact h.start, ht⟩

/-- The default cut-off is NaN, whatever was called before. -/
theorem CalmState.cutoff : ∃ s', s.cutoff = (.ok none, s') ∧ CalmState f s' ∧ s'.Tmm10 = some .nan := by
  rcases h.Tmm10 with ht | ht
  · refine ⟨{ s with Tmm10 := some .nan }, ?_, { h with Tmm10 := Or.inr rfl }, rfl⟩
    have e : s.getTmm10 (some (-1)) (.fin (-1)) = (.ok none, { s with Tmm10 := some .nan }) := by
      have : calcTmm10N s.f s.sVarDens (some (-1)) (.fin (-1)) = .ok none := by
        unfold calcTmm10N
        simp only [h.full (m := -1) (by omega), h.full (m := 0) (by omega), bind, Except.bind, nDiv, if_true]
      unfold SpecObjN.getTmm10
      rw [this]
      rfl
    unfold SpecObjN.cutoff
    rw [ht]
    simp only [e]
  · exact ⟨s, nan_cutoff ht, h, ht⟩

theorem CalmState.after_getHm0 (a : ℝ) (b : FMax ℝ) : CalmState f (s.getHm0 (some a) b.lim).2 :=
  { h with Hm0 := storeN_calm (v := some 0) rfl h.Hm0 (h.calcHm0 a b) }

theorem CalmState.after_getTps (a : ℝ) (b : FMax ℝ) : CalmState f (s.getTps (some a) b.lim).2 :=
  { h with Tps := storeN_calm (v := some (-999)) rfl h.Tps (h.calcTps a b) }

theorem CalmState.after_getTmm10 (a : ℝ) (b : FMax ℝ) : CalmState f (s.getTmm10 (some a) b.lim).2 :=
  { h with Tmm10 := storeN_calm (v := none) rfl h.Tmm10 (h.calcTmm10 a b) }

theorem CalmState.hf (ht : s.Tmm10 = some .nan) (b : FMax ℝ) :
    calcHm0N s.f s.sVarDens none b.lim = calcHm0N s.f s.sVarDens (some (-1)) b.lim ∧
      calcTmm10N s.f s.sVarDens none b.lim = calcTmm10N s.f s.sVarDens (some (-1)) b.lim := by
  have hp := h.period ht
  constructor
  · unfold calcHm0N
    simp only [nan_hf_moment hp]
  · unfold calcTmm10N
    simp only [nan_hf_moment hp]

theorem CalmState.after_getHm0HF (a : ℝ) (b : FMax ℝ) : CalmState f (s.getHm0HF (some a) b.lim).2 := by
  unfold SpecObjN.getHm0HF
  by_cases ha : (some a : Option ℝ) = some (-1)
  · rw [if_pos ha]
    obtain ⟨s', e, h', ht⟩ := h.cutoff
    rw [e]
    refine { h' with Hm0HF := ?_ }
    dsimp only
    rw [(h'.hf ht b).1]
    exact storeN_calm (v := some 0) rfl h'.Hm0HF (h'.calcHm0 _ b)
  · rw [if_neg ha]
    exact { h with Hm0HF := storeN_calm (v := some 0) rfl h.Hm0HF (h.calcHm0 a b) }

theorem CalmState.after_getTmm10HF (a : ℝ) (b : FMax ℝ) : CalmState f (s.getTmm10HF (some a) b.lim).2 := by
  unfold SpecObjN.getTmm10HF
  by_cases ha : (some a : Option ℝ) = some (-1)
  · rw [if_pos ha]
    obtain ⟨s', e, h', ht⟩ := h.cutoff
    rw [e]
    refine { h' with Tmm10HF := ?_ }
    dsimp only
    rw [(h'.hf ht b).2]
    exact storeN_calm (v := none) rfl h'.Tmm10HF (h'.calcTmm10 _ b)
  · rw [if_neg ha]
    exact { h with Tmm10HF := storeN_calm (v := none) rfl h.Tmm10HF (h.calcTmm10 a b) }

theorem CalmState.after_getHm0LF (a : ℝ) (b : FMax ℝ) : CalmState f (s.getHm0LF (some a) b.lim).2 := by
  unfold SpecObjN.getHm0LF
  split_ifs with hb
  · obtain ⟨s', e, h', ht⟩ := h.cutoff
    rw [e]
    exact { h' with }
  · exact { h with }

theorem CalmState.after_getTmm10LF (a : ℝ) (b : FMax ℝ) : CalmState f (s.getTmm10LF (some a) b.lim).2 := by
  unfold SpecObjN.getTmm10LF
  split_ifs with hb
  · obtain ⟨s', e, h', ht⟩ := h.cutoff
    rw [e]
    exact { h' with }
  · exact { h with }

theorem CalmState.ensure {c : CacheN} {run : Except PyErr (Option ℝ) × SpecObjN} (hr : CalmState f run.2) :
    CalmState f (ensureN c run s).2 := by
  unfold ensureN
  cases c with
  | some v => exact h
  | none =>
    obtain ⟨r, s'⟩ := run
    cases r with
    | ok v => exact hr
    | error e => cases e <;> exact hr

theorem CalmState.after_getS0p (a : ℝ) (b : FMax ℝ) (g : ℝ) : CalmState f (s.getS0p (some a) b.lim g).2 := by
  unfold SpecObjN.getS0p
  have h1 := h.ensure (c := s.Hm0) (h.after_getHm0 a b)
  generalize ensureN s.Hm0 (s.getHm0 (some a) b.lim) s = q at h1
  obtain ⟨r, s1⟩ := q
  cases r with
  | error e => exact h1
  | ok u =>
    have h2 := CalmState.ensure h1 (c := s1.Tps) (CalmState.after_getTps h1 a b)
    dsimp only
    generalize ensureN s1.Tps (s1.getTps (some a) b.lim) s1 = q at h2
    obtain ⟨r, s2⟩ := q
    cases r with
    | error e => exact h2
    | ok u => exact { h2 with }

theorem CalmState.after_getSmm10 (a : ℝ) (b : FMax ℝ) (g : ℝ) : CalmState f (s.getSmm10 (some a) b.lim g).2 := by
  unfold SpecObjN.getSmm10
  have h1 := h.ensure (c := s.Hm0) (h.after_getHm0 a b)
  generalize ensureN s.Hm0 (s.getHm0 (some a) b.lim) s = q at h1
  obtain ⟨r, s1⟩ := q
  cases r with
  | error e => exact h1
  | ok u =>
    have h2 := CalmState.ensure h1 (c := s1.Tmm10) (CalmState.after_getTmm10 h1 a b)
    dsimp only
    generalize ensureN s1.Tmm10 (s1.getTmm10 (some a) b.lim) s1 = q at h2
    obtain ⟨r, s2⟩ := q
    cases r with
    | error e => exact h2
    | ok u => exact { h2 with }

theorem CalmState.after_getSmm10HF (a : ℝ) (b : FMax ℝ) (g : ℝ) : CalmState f (s.getSmm10HF (some a) b.lim g).2 := by
  unfold SpecObjN.getSmm10HF
  have h1 := h.ensure (c := s.Hm0HF) (h.after_getHm0HF a b)
  generalize ensureN s.Hm0HF (s.getHm0HF (some a) b.lim) s = q at h1
  obtain ⟨r, s1⟩ := q
  cases r with
  | error e => exact h1
  | ok u =>
    have h2 := CalmState.ensure h1 (c := s1.Tmm10HF) (CalmState.after_getTmm10HF h1 a b)
    dsimp only
    generalize ensureN s1.Tmm10HF (s1.getTmm10HF (some a) b.lim) s1 = q at h2
    obtain ⟨r, s2⟩ := q
    cases r with
    | error e => exact h2
    | ok u => exact { h2 with }

theorem CalmState.call (op : SpecOp) : CalmState f (s.call op).2 := by
  cases op <;> simp only [SpecObjN.call, lim_call]
  · exact h.after_getHm0 _ _
  · exact h.after_getHm0HF _ _
  · exact h.after_getHm0LF _ _
  · exact h.after_getTps _ _
  · exact { h with }
  · exact h.after_getTmm10 _ _
  · exact h.after_getTmm10HF _ _
  · exact h.after_getTmm10LF _ _
  · exact { h with }
  · exact { h with }
  · exact h.after_getS0p _ _ _
  · exact h.after_getSmm10 _ _ _
  · exact h.after_getSmm10HF _ _ _

end

theorem CalmState.after {f : List ℝ} (hist : List SpecOp) : ∀ {s : SpecObjN}, CalmState f s → CalmState f (s.after hist) := by
  induction hist with
  | nil => intro s h; exact h
  | cons op l ih => intro s h; exact ih (CalmState.call h op)

theorem calm_init {f : List ℝ} {s : SpecObjN} (hs : SpecObjN.init (vec f) (vec (List.replicate f.length (some 0))) = .ok s)
    (h0 : 0 ≤ f.getD 0 0) : CalmState f s := by
  obtain ⟨-, -, hm, -, rfl⟩ := SpecObjN.init_vec hs
  exact ⟨hm, h0, rfl, rfl, Or.inl rfl, Or.inl rfl, Or.inl rfl, Or.inl rfl, Or.inl rfl⟩

/-- What the methods of a `Spectrum` object on the frequencies `f` report, with their default limits, for still water. -/
structure CalmReports (f : List ℝ) (s : SpecObjN) : Prop where
  /-- no waves -/
  height : (s.getHm0 (some (-1)) (.fin (-1))).1 = .ok (some 0)
  /-- the mean periods are NaN -/
  Tmm10 : (s.getTmm10 (some (-1)) (.fin (-1))).1 = .ok none
  Tm01 : (s.getTm01 (some (-1)) (.fin (-1))).1 = .ok none
  Tm02 : (s.getTm02 (some (-1)) (.fin (-1))).1 = .ok none
  /-- the smoothed peak period is the marker -999 -/
  Tps : (s.getTps (some (-1)) (.fin (-1))).1 = .ok (some (-999))
  /-- the peak period is that of the highest frequency -/
  Tp : (s.getTp (some (-1)) (.fin (-1))).1 = .ok (some (1 / f.getD (f.length - 1) 0))
  /-- high-frequency and low-frequency parts -/
  heightHF : (s.getHm0HF (some (-1)) (.fin (-1))).1 = .ok (some 0)
  Tmm10HF : (s.getTmm10HF (some (-1)) (.fin (-1))).1 = .ok none
  heightLF : (s.getHm0LF (some (-1)) (.fin (-1))).1 = .ok none
  /-- the steepness with the peak period is zero, the others are NaN -/
  s0p : ∀ g : ℝ, g ≠ 0 → (s.getS0p (some (-1)) (.fin (-1)) g).1 = .ok (some 0)
  smm10 : ∀ g : ℝ, (s.getSmm10 (some (-1)) (.fin (-1)) g).1 = .ok none
  smm10HF : ∀ g : ℝ, (s.getSmm10HF (some (-1)) (.fin (-1)) g).1 = .ok none

section
variable {f : List ℝ} {s : SpecObjN} (h : CalmState f s)
include h

theorem CalmState.fullHm0 : calcHm0N s.f s.sVarDens (some (-1)) (.fin (-1)) = .ok (some 0) := by
  unfold calcHm0N
  simp only [h.full (m := 0) (by omega), bind, Except.bind, heightOfN]; simp [pure, Except.pure]

theorem CalmState.fullTmm10 : calcTmm10N s.f s.sVarDens (some (-1)) (.fin (-1)) = .ok none := by
  unfold calcTmm10N
  simp only [h.full (m := -1) (by omega), h.full (m := 0) (by omega), bind, Except.bind, nDiv, if_true]

theorem CalmState.slice : bandSliceN s.f s.sVarDens (some (f.getD 0 0)) (.fin (f.getD (f.length - 1) 0)) = .ok (f, (calm f.length).map some) := by
  have h2 := mono_two_le h.axis
  rw [h.freq, h.dens, ← calm_map_some]
  have e := bandSliceN_lift f (calm f.length) (f.getD 0 0) (.fin (f.getD (f.length - 1) 0))
  rw [bandSlice_all (uniform_check_increasing h.axis) (by intro e; rw [e] at h2; simp at h2) (calm_length _).symm] at e
  exact e

theorem CalmState.fullTps : calcTpsN s.f s.sVarDens (some (-1)) (.fin (-1)) = .ok (some (-999)) := by
  have h2 := mono_two_le h.axis
  rcases h.calcTps (-1) (.fin (-1)) with e | ⟨e, he, -, -⟩
  · exact e
  · exfalso
    have he' : calcTpsN s.f s.sVarDens (some (-1)) (.fin (-1)) = .error e := he
    unfold calcTpsN at he'
    have hfl := setFlimN_default s.f
    rw [hfl] at he'
    dsimp only at he'
    have hsl := h.slice
    rw [← h.freq] at hsl
    rw [hsl] at he'
    simp only [bind, Except.bind] at he'
    rw [computeTpsN_lift (calm_length _).symm, computeTps_eq (isArr_vec _) (isArr_vec _) (calm_length _).symm] at he'
    unfold computeTpsL at he'
    obtain ⟨M, hM⟩ := pyMax_exists (l := calm s.f.length) (by
      intro e; have := calm_length s.f.length; rw [e, h.freq] at this; simp at this; omega)
    have : M = 0 := List.eq_of_mem_replicate (pyMax_spec hM).1
    subst this
    rw [hM] at he'
    simp only [bind, Except.bind] at he'
    rw [if_pos (by positivity)] at he'
    cases he'

theorem CalmState.fullTp : calcTpN s.f s.sVarDens (some (-1)) (.fin (-1)) = .ok (some (1 / f.getD (f.length - 1) 0)) := by
  have h2 := mono_two_le h.axis
  have hp := uniform_check_increasing h.axis
  have hlast : 0 < f.getD (f.length - 1) 0 := lt_of_le_of_lt h.start (inc_lt hp (by omega) (by omega))
  unfold calcTpN
  rw [setFlimN_default]
  dsimp only
  have hsl := h.slice
  rw [h.freq] at hsl ⊢
  rw [hsl]
  simp only [bind, Except.bind]
  rw [peakPeriodN_lift]
  unfold peakPeriod
  obtain ⟨M, hM⟩ := pyMax_exists (l := calm f.length) (by
    intro e; have := calm_length f.length; rw [e] at this; simp at this; omega)
  have : M = 0 := List.eq_of_mem_replicate (pyMax_spec hM).1
  subst this
  rw [hM]
  have hw : whereIdx (fun v : ℝ => decide (v = 0)) (calm f.length) = List.range f.length := by
    unfold whereIdx
    rw [calm_length, List.filter_eq_self.2]
    intro i hi
    have hi' := List.mem_range.1 hi
    unfold calm
    rw [List.getElem?_replicate, if_pos hi']
    simp
  have hl : lastE (List.range f.length) = .ok (f.length - 1) := by
    rw [lastE_ok, List.getLast?_range, if_neg (by omega)]
  have hg : getE f (f.length - 1) = .ok (f.getD (f.length - 1) 0) := by
    rw [getE_ok, List.getD_eq_getElem _ _ (by omega), List.getElem?_eq_getElem]
  simp only [bind, Except.bind, hw, hl, hg]
  unfold invE
  rw [if_neg hlast.ne']
  rfl

/-- **C172.** -/
theorem CalmState.reports : CalmReports f s := by
  have e1 := h.fullHm0
  have e2 := h.fullTmm10
  refine ⟨e1, e2, ?_, ?_, h.fullTps, h.fullTp, ?_, ?_, ?_, ?_, ?_, ?_⟩
  · show calcTm01N s.f s.sVarDens (some (-1)) (.fin (-1)) = _
    unfold calcTm01N
    simp only [h.full (m := 1) (by omega), h.full (m := 0) (by omega), bind, Except.bind, nDiv, if_true]
  · show calcTm02N s.f s.sVarDens (some (-1)) (.fin (-1)) = _
    unfold calcTm02N
    simp only [h.full (m := 2) (by omega), h.full (m := 0) (by omega), bind, Except.bind, nDiv, if_true]
    rfl
  · unfold SpecObjN.getHm0HF
    obtain ⟨s', e, h', ht⟩ := h.cutoff
    rw [if_pos rfl, e]
    have := (h'.hf ht (.fin (-1))).1
    exact this.trans h'.fullHm0
  · unfold SpecObjN.getTmm10HF
    obtain ⟨s', e, h', ht⟩ := h.cutoff
    rw [if_pos rfl, e]
    exact (h'.hf ht (.fin (-1))).2.trans h'.fullTmm10
  · have := h.cutoff
    obtain ⟨s', e, h', ht⟩ := this
    have k := (nan_default_cutoff (h'.period ht)).2 (-1)
    unfold SpecObjN.getHm0LF at k ⊢
    rw [if_pos rfl, nan_cutoff ht] at k
    rw [if_pos rfl, e]
    exact k
  · intro g hg
    unfold SpecObjN.getS0p
    have k1 : ∃ s1, ensureN s.Hm0 (s.getHm0 (some (-1)) (.fin (-1))) s = (.ok (), s1) ∧ CalmState f s1 ∧ s1.Hm0 = some (.num 0) := by
      rcases h.Hm0 with hc | hc
      · refine ⟨(s.getHm0 (some (-1)) (.fin (-1))).2, ?_, h.after_getHm0 (-1) (.fin (-1)), ?_⟩
        · unfold ensureN SpecObjN.getHm0
          rw [hc, e1]
        · show storeN s.Hm0 (calcHm0N s.f s.sVarDens (some (-1)) (.fin (-1))) = _
          rw [e1]; rfl
      · exact ⟨s, by unfold ensureN; rw [hc], h, hc⟩
    obtain ⟨s1, q1, h1, c1⟩ := k1
    rw [q1]
    dsimp only
    have k2 : ∃ s2, ensureN s1.Tps (s1.getTps (some (-1)) (.fin (-1))) s1 = (.ok (), s2) ∧ s2.Hm0 = some (.num 0) ∧
        s2.Tps = some (.num (-999)) := by
      rcases h1.Tps with hc | hc
      · refine ⟨(s1.getTps (some (-1)) (.fin (-1))).2, ?_, c1, ?_⟩
        · unfold ensureN SpecObjN.getTps
          rw [hc, h1.fullTps]
        · show storeN s1.Tps (calcTpsN s1.f s1.sVarDens (some (-1)) (.fin (-1))) = _
          rw [h1.fullTps]; rfl
      · exact ⟨s1, by unfold ensureN; rw [hc], c1, hc⟩
    obtain ⟨s2, q2, c2, c3⟩ := k2
    rw [q2]
    dsimp only
    rw [c2, c3]
    unfold steepnessN nDiv
    dsimp only
    rw [if_neg (by positivity)]
    simp
  · intro g
    unfold SpecObjN.getSmm10
    have k1 : ∃ s1, ensureN s.Hm0 (s.getHm0 (some (-1)) (.fin (-1))) s = (.ok (), s1) ∧ CalmState f s1 ∧ s1.Hm0 = some (.num 0) := by
      rcases h.Hm0 with hc | hc
      · refine ⟨(s.getHm0 (some (-1)) (.fin (-1))).2, ?_, h.after_getHm0 (-1) (.fin (-1)), ?_⟩
        · unfold ensureN SpecObjN.getHm0
          rw [hc, e1]
        · show storeN s.Hm0 (calcHm0N s.f s.sVarDens (some (-1)) (.fin (-1))) = _
          rw [e1]; rfl
      · exact ⟨s, by unfold ensureN; rw [hc], h, hc⟩
    obtain ⟨s1, q1, h1, c1⟩ := k1
    rw [q1]
    dsimp only
    have k2 : ∃ s2, ensureN s1.Tmm10 (s1.getTmm10 (some (-1)) (.fin (-1))) s1 = (.ok (), s2) ∧ s2.Hm0 = some (.num 0) ∧
        s2.Tmm10 = some .nan := by
      rcases h1.Tmm10 with hc | hc
      · refine ⟨(s1.getTmm10 (some (-1)) (.fin (-1))).2, ?_, c1, ?_⟩
        · unfold ensureN SpecObjN.getTmm10
          rw [hc, h1.fullTmm10]
        · show storeN s1.Tmm10 (calcTmm10N s1.f s1.sVarDens (some (-1)) (.fin (-1))) = _
          rw [h1.fullTmm10]; rfl
      · exact ⟨s1, by unfold ensureN; rw [hc], c1, hc⟩
    obtain ⟨s2, q2, c2, c3⟩ := k2
    rw [q2]
    dsimp only
    rw [c2, c3]
    rfl
  · intro g
    unfold SpecObjN.getSmm10HF
    have k1 : ∃ s1, ensureN s.Hm0HF (s.getHm0HF (some (-1)) (.fin (-1))) s = (.ok (), s1) ∧ CalmState f s1 ∧ s1.Hm0HF = some (.num 0) := by
      rcases h.Hm0HF with hc | hc
      · obtain ⟨s', e, h', ht⟩ := h.cutoff
        have ek : s.getHm0HF (some (-1)) (.fin (-1)) = (.ok (some 0), { s' with Hm0HF := some (.num 0) }) := by
          unfold SpecObjN.getHm0HF
          rw [if_pos rfl, e]
          have := ((h'.hf ht (.fin (-1))).1).trans h'.fullHm0
          have this' : calcHm0N s'.f s'.sVarDens none (.fin (-1)) = .ok (some 0) := this
          simp only [this']
          rfl
        exact ⟨{ s' with Hm0HF := some (.num 0) }, by unfold ensureN; rw [hc, ek], { h' with Hm0HF := Or.inr rfl }, rfl⟩
      · exact ⟨s, by unfold ensureN; rw [hc], h, hc⟩
    obtain ⟨s1, q1, h1, c1⟩ := k1
    rw [q1]
    dsimp only
    have k2 : ∃ s2, ensureN s1.Tmm10HF (s1.getTmm10HF (some (-1)) (.fin (-1))) s1 = (.ok (), s2) ∧ s2.Hm0HF = some (.num 0) ∧
        s2.Tmm10HF = some .nan := by
      rcases h1.Tmm10HF with hc | hc
      · obtain ⟨s', e, h', ht⟩ := CalmState.cutoff h1
        have hkeep : s'.Hm0HF = s1.Hm0HF := by
          have : s1.cutoff.2.Hm0HF = s1.Hm0HF := by
            unfold SpecObjN.cutoff SpecObjN.getTmm10
            cases s1.Tmm10 with
            | none => dsimp only; split <;> first | rfl | (split <;> rfl)
            | some v => dsimp only; split <;> first | rfl | (split <;> rfl)
          rw [e] at this
          exact this
        have ek : s1.getTmm10HF (some (-1)) (.fin (-1)) = (.ok none, { s' with Tmm10HF := some .nan }) := by
          unfold SpecObjN.getTmm10HF
          rw [if_pos rfl, e]
          have this' : calcTmm10N s'.f s'.sVarDens none (.fin (-1)) = .ok none := ((h'.hf ht (.fin (-1))).2).trans h'.fullTmm10
          simp only [this']
          rfl
        exact ⟨{ s' with Tmm10HF := some .nan }, by unfold ensureN; rw [hc, ek], hkeep.trans c1, rfl⟩
      · exact ⟨s1, by unfold ensureN; rw [hc], c1, hc⟩
    obtain ⟨s2, q2, c2, c3⟩ := k2
    rw [q2]
    dsimp only
    rw [c2, c3]
    rfl

end

/-- **C172 (spectrum).**  For a spectrum without energy on a non-negative uniform axis the default calls report, after any history of calls
with any limits: `Hm0 = 0`, mean periods NaN, `Tps = -999`, `Tp` the period of the *highest* frequency, `Hm0_HF = 0`, `Hm0_LF` NaN, the
steepness with the peak period 0 and the other steepnesses NaN; nothing is raised. -/
theorem still_spectrum {f : List ℝ} {s : SpecObjN} (hs : SpecObjN.init (vec f) (vec (List.replicate f.length (some 0))) = .ok s)
    (h0 : 0 ≤ f.getD 0 0) (hist : List SpecOp) : CalmReports f (s.after hist) :=
  (CalmState.after hist (calm_init hs h0)).reports

/-- **C172 (ranges).**  With limits in the right order (after the `-1` defaults are filled in), `Hm0` is 0 and the mean period NaN on every
range, after any history. -/
theorem still_ranges {f : List ℝ} {s : SpecObjN} (hs : SpecObjN.init (vec f) (vec (List.replicate f.length (some 0))) = .ok s)
    (h0 : 0 ≤ f.getD 0 0) (hist : List SpecOp) {a : ℝ} {b : FMax ℝ} (hab : (setFlim f a b).2.above (setFlim f a b).1)
    {h : ℝ} (hu : UniformAxis f h) :
    (((s.after hist).call (.getHm0 a b)).1 = .ok (some 0)) ∧ (((s.after hist).call (.getTmm10 a b)).1 = .ok none) := by
  have hc := CalmState.after hist (calm_init hs h0)
  have h2 := mono_two_le hc.axis
  have key : ∀ m : Int, m ≤ 3 → computeMomentN (vec (s.after hist).f) (vec (s.after hist).sVarDens) m
      (setFlimN (s.after hist).f (some a) b.lim).1 (setFlimN (s.after hist).f (some a) b.lim).2 = .ok (some 0) := by
    intro m hm3
    rcases hc.moment hm3 a b with e | ⟨e, he, -⟩
    · exact e
    · exfalso
      obtain ⟨v, hv, -⟩ := moment_defined (m := m) (isArr_vec f) (isArr_vec (calm f.length)) hu h2 (calm_length _).symm h0
        (fun v hv => (List.eq_of_mem_replicate hv).ge) (Or.inl hab) (Or.inl hm3)
      rw [setFlimN_some, hc.freq, hc.dens, ← calm_map_some,
        computeMomentN_lift (isArr_vec f) (isArr_vec _) (isArr_vec (calm f.length)) hc.axis (calm_length _).symm, hv] at he
      cases he
  constructor
  · simp only [SpecObjN.call, lim_call]
    show calcHm0N _ _ _ _ = _
    unfold calcHm0N
    simp only [key 0 (by omega), bind, Except.bind, heightOfN]; simp [pure, Except.pure]
  · simp only [SpecObjN.call, lim_call]
    show calcTmm10N _ _ _ _ = _
    unfold calcTmm10N
    simp only [key (-1) (by omega), key 0 (by omega), bind, Except.bind, nDiv, if_true]

/-- **C172 (parameters).**  `compute_spectrum_params` gives six NaN values on every range with limits in the right order. -/
theorem still_params {f : List ℝ} {h : ℝ} (hu : UniformAxis f h) (h2 : 2 ≤ f.length) (h0 : 0 ≤ f.getD 0 0) {a : ℝ} {b : FMax ℝ}
    (hab : (setFlim f a b).2.above (setFlim f a b).1) :
    computeSpectrumParamsN (vec f) (vec (List.replicate f.length (some 0))) a b = .ok ⟨none, none, none, none, none, none⟩ := by
  have hm := uniform_check_accepts_uniform h2 hu
  have hl := (calm_length f.length).symm
  have key : ∀ m : Int, m ≤ 3 → computeMomentN (vec f) (vec (List.replicate f.length (some 0))) m
      (some (setFlim f a b).1) (setFlim f a b).2.lim = .ok (some 0) := by
    intro m hm3
    rw [← calm_map_some, computeMomentN_lift (isArr_vec f) (isArr_vec _) (isArr_vec (calm f.length)) hm hl]
    obtain ⟨v, hv, -⟩ := moment_defined (m := m) (isArr_vec f) (isArr_vec (calm f.length)) hu h2 hl h0
      (fun v hv => (List.eq_of_mem_replicate hv).ge) (Or.inl hab) (Or.inl hm3)
    rcases calm_moment hm h0 hm3 (setFlim f a b).1 (setFlim f a b).2 with e | ⟨e, he, -⟩
    · rw [e]; rfl
    · rw [hv] at he; cases he
  have elo : (some (if a = -1 then f.getD 0 0 else a) : Option ℝ) = some (setFlim f a b).1 := rfl
  have ehi : (if b = .fin (-1) then (.fin (f.getD (f.length - 1) 0) : FLim ℝ) else SpecObjN.call.lim b) = (setFlim f a b).2.lim := by
    unfold setFlim; rw [lim_call]; split_ifs <;> rfl
  unfold computeSpectrumParamsN
  rw [vecIn_of_isArr (isArr_vec _), vecIn_of_isArr (isArr_vec _)]
  simp only [bind, Except.bind, hm]
  rw [if_neg (by simp), if_neg (by simp)]
  simp only [elo, ehi, key (-1) (by omega), key 0 (by omega), key 1 (by omega), key 2 (by omega), heightOfN]
  norm_num
  rfl

/-- A spectrum object without energy, whose default calls report still water after any history. -/
def IsCalm (g : SpecObj) : Prop :=
  g.sVarDens = arr1 (List.replicate g.f.length 0) ∧ 0 ≤ g.f.getD 0 0 ∧
    ∃ q, SpecObjN.init (vec g.f) (vec (g.sVarDens.data.map some)) = .ok q ∧ ∀ hist, CalmReports g.f (q.after hist)

theorem isCalm_of {f S : List ℝ} {g : SpecObj} (hg : SpecObj.init (vec f) (vec S) = .ok g) (hS : ∀ v ∈ S, v = 0) (h0 : 0 ≤ f.getD 0 0) :
    IsCalm g := by
  obtain ⟨hm, hl, rfl⟩ := (spectrum_init_iff_partial (isArr_vec f) (isArr_vec S)).1 hg
  have hSe : S = calm f.length := by
    unfold calm; rw [hl]; exact List.eq_replicate_iff.2 ⟨rfl, hS⟩
  subst hSe
  have hi := SpecObjN.init_ok (f := f) (S := List.replicate f.length (some 0)) hm (by simp)
  refine ⟨?_, h0, _, ?_, fun hist => still_spectrum hi h0 hist⟩
  · rfl
  · show SpecObjN.init (vec f) (vec ((calm f.length).map some)) = _
    rw [calm_map_some]; exact hi

/-- **C172 (records).**  Every spectrum that `Series.get_spectrum` returns for a record of a constant level, with any settings, is that of still
water; so is every raw spectrum of a record of zeros. -/
theorem still_record {t : List ℝ} {c dt : ℝ} (hu : UniformAxis t dt) (h2 : 2 ≤ t.length) {s : SeriesObj ℝ}
    (hs : SeriesObj.init (vec t) (vec (List.replicate t.length c)) = .ok s) :
    (∀ nps nov nfft window df b g, s.getSpectrum nps nov nfft window df b = .ok g → IsCalm g) ∧
    (c = 0 → ∀ df g, s.getSpectrumRaw df = .ok g → IsCalm g) := by
  obtain ⟨hv, -, hdt⟩ := validSeries_of_init (isVec_vec t) (isVec_vec (List.replicate t.length c)) h2 (by simp) hu hs
  constructor
  · intro nps nov nfft window df b g hg
    obtain ⟨w, N, v, M, -, -, -, hM, -, -, -, hall⟩ := getSpectrum_settings hv.xTime (by rw [hdt]; exact hu.1) hg
    obtain ⟨g', S', hg', hin, hW⟩ := hall s _ hv.xTime rfl rfl
    rw [hg] at hg'
    cases hg'
    have hax := welch_axis (by rw [hdt]; exact hu.1) hM hW
    refine isCalm_of hin ?_ hax.2.1.ge
    have hz : ∀ d ∈ g.sVarDens.data, d = 0 := by
      have core : ∀ (a c' : Int) (g : SpecObj), (do let (f, S) ← welchWrapper (List.replicate t.length c) s.dt a c' nfft window; SpecObj.init (vec f) (vec S)) = .ok g →
          ∀ d ∈ g.sVarDens.data, d = 0 := by
        intro a c' g hg
        obtain ⟨⟨f, S⟩, hw, hg⟩ := bind_ok.1 hg
        obtain ⟨-, -, rfl⟩ := (spectrum_init_iff_partial (isArr_vec f) (isArr_vec S)).1 hg
        exact welch_constant hw
      unfold SeriesObj.getSpectrum at hg
      obtain ⟨x, hx, hg⟩ := bind_ok.1 hg
      have hxe : x = List.replicate t.length c := by
        unfold SeriesObj.sig at hx
        rw [hv.xTime] at hx
        cases hx; rfl
      subst hxe
      split_ifs at hg
      · exact core _ _ g hg
      · exact core _ _ g hg
    obtain ⟨-, -, he⟩ := (spectrum_init_iff_partial (isArr_vec g.f) (isArr_vec S')).1 hin
    rw [he] at hz
    exact hz
  · rintro rfl df g hg
    have hv0 : ValidSeries s t ((List.replicate t.length (0 : ℝ)).map fun v => 0 * v) dt := by
      rw [List.map_replicate, zero_mul]; exact hv
    obtain ⟨D, hD, hg'⟩ := raw_spectrum_scales hv hv0 hg
    rw [hg] at hg'
    have hz : ∀ d ∈ g.sVarDens.data, d = 0 := by
      have := congrArg (fun r : Except PyErr SpecObj => match r with | .ok g => g.sVarDens.data | .error _ => []) hg'
      dsimp only at this
      rw [this]
      intro d hd
      obtain ⟨v, -, rfl⟩ := List.mem_map.1 hd
      simp
    rw [getSpectrumRaw_eq hv] at hg
    obtain ⟨⟨fc, sc⟩, hav, hin⟩ := bind_ok.1 hg
    obtain ⟨-, -, he⟩ := (spectrum_init_iff_partial (isArr_vec fc) (isArr_vec sc)).1 hin
    have hsc : ∀ d ∈ sc, d = 0 := by rw [he] at hz; exact hz
    refine isCalm_of hin hsc ?_
    have hn2 : 2 ≤ (List.replicate t.length (0 : ℝ)).length := by simpa using h2
    have hnp : (0 : ℝ) < (List.replicate t.length (0 : ℝ)).length := by exact_mod_cast (by omega : 0 < (List.replicate t.length (0 : ℝ)).length)
    have hdt0 : 0 < dt := hu.1
    obtain ⟨m, fc', sc', hfac, hfa, hB, -⟩ := averaging_block_means (df := df)
      (isArr_vec ((List.range ((List.replicate t.length (0 : ℝ)).length / 2 + 1)).map fun (k : Nat) => (k : ℝ) / ((List.replicate t.length (0 : ℝ)).length * dt)))
      (isArr_vec ((List.range ((List.replicate t.length (0 : ℝ)).length / 2 + 1)).map (rawBin (List.replicate t.length (0 : ℝ)) dt)))
      (by simp) (by simp only [List.length_map, List.length_range]; omega)
      (by
        rw [getD_map_range _ _ _ _ (by omega), getD_map_range _ _ _ _ (by omega)]
        have : 0 < 1 / (((List.replicate t.length (0 : ℝ)).length : ℝ) * dt) := by positivity
        simpa using this)
    have hfa' : frequencyAveraging (vec ((List.range ((List.replicate t.length (0 : ℝ)).length / 2 + 1)).map fun (k : Nat) => (k : ℝ) / ((List.replicate t.length (0 : ℝ)).length * dt)))
      (vec ((List.range ((List.replicate t.length (0 : ℝ)).length / 2 + 1)).map (rawBin (List.replicate t.length (0 : ℝ)) dt))) df = .ok (fc, sc) := by
      unfold frequencyAveraging
      rw [vecIn_of_isArr (isArr_vec _), vecIn_of_isArr (isArr_vec _)]
      exact hav
    rw [hfa'] at hfa
    cases hfa
    rcases Nat.eq_zero_or_pos fc.length with hz0 | hpos
    · rw [List.getD_eq_default _ _ hz0.le]
    · rw [hB.2 0 (by rw [← hB.1]; exact hpos)]
      refine div_nonneg (Finset.sum_nonneg fun j _ => ?_) (Nat.cast_nonneg _)
      rw [List.getD_eq_getElem?_getD, List.getElem?_map]
      rcases (List.range ((List.replicate t.length (0 : ℝ)).length / 2 + 1))[0 * m + j]? with _ | k
      · exact le_rfl
      · show 0 ≤ (k : ℝ) / _
        positivity

/-! ### The hypotheses are met -/

/-- Four frequencies without energy, asked for `Hm0`, `Tp` and `Tps` on parts of the axis first. -/
example : ∃ s, SpecObjN.init (vec [0, 1, 2, 3]) (vec (List.replicate 4 (some 0))) = .ok s ∧
    CalmReports [0, 1, 2, 3] (s.after [.getHm0 1 (.fin 2), .getTp 2 .inf, .getTps 0 (.fin 3)]) :=
  ⟨_, SpecObjN.init_ok (S := List.replicate 4 (some 0)) axis4_check (by simp),
    still_spectrum (SpecObjN.init_ok (S := List.replicate 4 (some 0)) axis4_check (by simp)) (by simp) _⟩

/-- The peak period of that spectrum is `1/3` s. -/
example : ∃ s, SpecObjN.init (vec [0, 1, 2, 3]) (vec (List.replicate 4 (some 0))) = .ok s ∧
    (s.getTp (some (-1)) (.fin (-1))).1 = .ok (some (1 / 3)) := by
  have hi := SpecObjN.init_ok (f := [0, 1, 2, 3]) (S := List.replicate 4 (some 0)) axis4_check (by simp)
  refine ⟨_, hi, ?_⟩
  have := (still_spectrum hi (by simp) []).Tp
  norm_num at this ⊢
  exact this

/-- ... and `Hm0` between 1 and 2 Hz is 0 after that. -/
example : ∃ s, SpecObjN.init (vec [0, 1, 2, 3]) (vec (List.replicate 4 (some 0))) = .ok s ∧
    ((s.after [.getTp 2 .inf]).call (.getHm0 1 (.fin 2))).1 = .ok (some 0) := by
  have hi := SpecObjN.init_ok (f := [0, 1, 2, 3]) (S := List.replicate 4 (some 0)) axis4_check (by simp)
  exact ⟨_, hi, (still_ranges hi (by simp) _ (by norm_num [setFlim, FMax.above]) axis4_uniform).1⟩

example : computeSpectrumParamsN (vec [0, 1, 2, 3]) (vec (List.replicate 4 (some 0))) 1 (.fin 2) = .ok ⟨none, none, none, none, none, none⟩ :=
  still_params (f := [0, 1, 2, 3]) axis4_uniform (by simp) (by simp) (by norm_num [setFlim, FMax.above])

/-- Five seconds at level 7 (a gauge above its reference level): `get_spectrum` with resolution 1/4 Hz returns a spectrum of still water. -/
example : ∃ s sp, SeriesObj.init (vec [0, 1, 2, 3, 4]) (vec (List.replicate 5 (7 : ℝ))) = .ok s ∧
    s.getSpectrum 256 0 0 "hann" (1 / 4) true = .ok sp ∧ IsCalm sp := by
  obtain ⟨s, sp, S, v, h1, h2, -⟩ := get_spectrum_resolution_partial (isVec_vec ([0, 1, 2, 3, 4] : List ℝ)) (isVec_vec (List.replicate 5 (7 : ℝ)))
    (by simp) (by simp) axis5 (df := 1 / 4) (by norm_num) (N := 4) (by unfold roundHalfEven; norm_num) (by norm_num) (by simp) 256 0
  exact ⟨s, sp, h1, h2, (still_record axis5 (by simp) (c := 7) h1).1 _ _ _ _ _ _ _ h2⟩

/-- Five samples of level zero: the raw spectrum exists and is that of still water. -/
example : ∃ s sp, SeriesObj.init (vec [0, 1, 2, 3, 4]) (vec (List.replicate 5 (0 : ℝ))) = .ok s ∧
    s.getSpectrumRaw 0 = .ok sp ∧ IsCalm sp := by
  obtain ⟨s, -, -, -, h1, -⟩ := series_never_fails (isVec_vec ([0, 1, 2, 3, 4] : List ℝ)) (isVec_vec (List.replicate 5 (0 : ℝ))) (by simp) rfl axis5
  obtain ⟨g, hg⟩ : ∃ g, s.getSpectrumRaw 0 = .ok g := by
    obtain ⟨hv, -, -⟩ := validSeries_of_init (isVec_vec _) (isVec_vec (List.replicate 5 (0 : ℝ))) (by simp) (by simp) axis5 h1
    obtain ⟨g, -, hg, -⟩ := raw_hm0_exact hv
    exact ⟨g, hg⟩
  exact ⟨s, g, h1, hg, (still_record axis5 (by simp) (c := 0) h1).2 rfl _ _ hg⟩

end Verif
