import Verif.Model.Plots
import Verif.Props.SpectrumValues
import Verif.Props.SpectrumCache
import Verif.Props.SeriesFilter
import Verif.Props.SeriesInit

/-! # C78: what `Series.plot` and `Spectrum.plot` show -/

namespace Verif

set_option linter.unusedSectionVars false

/-! ## The cached periods of a spectrum -/

theorem ensure_state (c : Cache) (run : Except PyErr ℝ × SpecObj) (s : SpecObj) :
    (ensure c run s).2 = s ∨ (c = none ∧ (ensure c run s).2 = run.2) := by
  unfold ensure
  cases c with
  | some _ => exact Or.inl rfl
  | none =>
    right
    refine ⟨rfl, ?_⟩
    obtain ⟨r, s'⟩ := run
    cases r with
    | ok v => rfl
    | error e => cases e <;> rfl

theorem cutoff_state (s : SpecObj) : s.cutoff.2 = s ∨ (s.Tmm10 = none ∧ s.cutoff.2 = (s.getTmm10 (-1) (.fin (-1))).2) := by
  have key : ∀ (r : Except PyErr ℝ) (s' : SpecObj), (match r, s'.Tmm10 with
      | .error .nonFinite, _ => ((.error .unmodelled : Except PyErr ℝ), s')
      | .error e, _ => (.error e, s')
      | .ok _, some (some T) => if T = 0 then (.error .unmodelled, s') else (.ok (45 / 100 / T), s')
      | .ok _, _ => (.error .unmodelled, s')).2 = s' := by
    intro r s'
    split
    · rfl
    · rfl
    · split_ifs <;> rfl
    · rfl
  unfold SpecObj.cutoff
  cases h : s.Tmm10 with
  | some v => left; exact key _ _
  | none => right; exact ⟨rfl, key _ _⟩

/-- `s'` differs from `s` only in caches other than the three plotted periods. -/
structure SamePeriods (s s' : SpecObj) : Prop where
  f : s'.f = s.f
  S : s'.sVarDens = s.sVarDens
  Tps : s'.Tps = s.Tps
  Tmm10 : s'.Tmm10 = s.Tmm10
  Tm02 : s'.Tm02 = s.Tm02

/-- What a call may do to the plotted periods: nothing, or compute one of them and store it. -/
inductive PeriodStep (op : SpecOp) (s s' : SpecObj) : Prop where
  | same (h : SamePeriods s s')
  | tps (a : ℝ) (b : FMax ℝ) (hop : op = .getTps a b ∨ (s.Tps = none ∧ ∃ g, op = .getS0p a b g)) (hf : s'.f = s.f)
      (hS : s'.sVarDens = s.sVarDens) (h : s'.Tps = store s.Tps (calcTps s.f s.sVarDens a b)) (h1 : s'.Tmm10 = s.Tmm10) (h2 : s'.Tm02 = s.Tm02)
  | tmm10 (a : ℝ) (b : FMax ℝ)
      (hop : op = .getTmm10 a b ∨ (s.Tmm10 = none ∧ ((∃ g, op = .getSmm10 a b g) ∨ (a = -1 ∧ b = .fin (-1) ∧ ∃ c d, op = .getHm0HF c d ∨ op = .getHm0LF c d ∨
        op = .getTmm10HF c d ∨ op = .getTmm10LF c d ∨ ∃ g, op = .getSmm10HF c d g)))) (hf : s'.f = s.f)
      (hS : s'.sVarDens = s.sVarDens) (h : s'.Tmm10 = store s.Tmm10 (calcTmm10 s.f s.sVarDens a b)) (h1 : s'.Tps = s.Tps) (h2 : s'.Tm02 = s.Tm02)
  | tm02 (a : ℝ) (b : FMax ℝ) (hop : op = .getTm02 a b) (hf : s'.f = s.f)
      (hS : s'.sVarDens = s.sVarDens) (h : s'.Tm02 = store s.Tm02 (calcTm02 s.f s.sVarDens a b)) (h1 : s'.Tps = s.Tps) (h2 : s'.Tmm10 = s.Tmm10)

theorem SamePeriods.refl (s : SpecObj) : SamePeriods s s := ⟨rfl, rfl, rfl, rfl, rfl⟩

theorem SamePeriods.trans {a b c : SpecObj} (h : SamePeriods a b) (g : SamePeriods b c) : SamePeriods a c :=
  ⟨g.f.trans h.f, g.S.trans h.S, g.Tps.trans h.Tps, g.Tmm10.trans h.Tmm10, g.Tm02.trans h.Tm02⟩

/-- The state after the cut-off was determined: unchanged, or with the default energy period computed. -/
def CutStep (s s' : SpecObj) : Prop :=
  SamePeriods s s' ∨ (s.Tmm10 = none ∧ s'.f = s.f ∧ s'.sVarDens = s.sVarDens ∧
    s'.Tmm10 = store s.Tmm10 (calcTmm10 s.f s.sVarDens (-1) (.fin (-1))) ∧ s'.Tps = s.Tps ∧ s'.Tm02 = s.Tm02)

theorem CutStep.then_same {s s' s'' : SpecObj} (h : CutStep s s') (g : SamePeriods s' s'') : CutStep s s'' := by
  rcases h with h | ⟨h0, h1, h2, h3, h4, h5⟩
  · exact Or.inl (h.trans g)
  · exact Or.inr ⟨h0, g.f.trans h1, g.S.trans h2, g.Tmm10.trans h3, g.Tps.trans h4, g.Tm02.trans h5⟩

theorem CutStep.same_then {s s' s'' : SpecObj} (g : SamePeriods s s') (h : CutStep s' s'') : CutStep s s'' := by
  rcases h with h | ⟨h0, h1, h2, h3, h4, h5⟩
  · exact Or.inl (g.trans h)
  · refine Or.inr ⟨g.Tmm10.symm.trans h0, h1.trans g.f, h2.trans g.S, ?_, h4.trans g.Tps, h5.trans g.Tm02⟩
    rw [h3, g.Tmm10, g.f, g.S]

theorem CutStep.trans {s s' s'' : SpecObj} (g : CutStep s s') (h : CutStep s' s'') : CutStep s s'' := by
  rcases g with g | ⟨h0, h1, h2, h3, h4, h5⟩
  · exact CutStep.same_then g h
  · rcases h with h | ⟨k0, k1, k2, k3, k4, k5⟩
    · exact CutStep.then_same (Or.inr ⟨h0, h1, h2, h3, h4, h5⟩) h
    · refine Or.inr ⟨h0, k1.trans h1, k2.trans h2, ?_, k4.trans h4, k5.trans h5⟩
      rw [k3, h1, h2, k0, ← h0]

theorem cutStep_cutoff (s : SpecObj) : CutStep s s.cutoff.2 := by
  rcases cutoff_state s with h | ⟨h0, h⟩
  · rw [h]; exact Or.inl (.refl s)
  · rw [h]; exact Or.inr ⟨h0, rfl, rfl, rfl, rfl, rfl⟩

theorem cutStep_getHm0HF (s : SpecObj) (a : ℝ) (b : FMax ℝ) : CutStep s (s.getHm0HF a b).2 := by
  unfold SpecObj.getHm0HF
  split_ifs
  · have hc := cutStep_cutoff s
    rcases e : s.cutoff with ⟨_ | _, s'⟩ <;> rw [e] at hc
    · exact hc
    · exact hc.then_same ⟨rfl, rfl, rfl, rfl, rfl⟩
  · exact Or.inl ⟨rfl, rfl, rfl, rfl, rfl⟩

theorem cutStep_getHm0LF (s : SpecObj) (a : ℝ) (b : FMax ℝ) : CutStep s (s.getHm0LF a b).2 := by
  unfold SpecObj.getHm0LF
  split_ifs
  · have hc := cutStep_cutoff s
    rcases e : s.cutoff with ⟨_ | _, s'⟩ <;> rw [e] at hc
    · exact hc
    · exact hc.then_same ⟨rfl, rfl, rfl, rfl, rfl⟩
  · exact Or.inl ⟨rfl, rfl, rfl, rfl, rfl⟩

theorem cutStep_getTmm10HF (s : SpecObj) (a : ℝ) (b : FMax ℝ) : CutStep s (s.getTmm10HF a b).2 := by
  unfold SpecObj.getTmm10HF
  split_ifs
  · have hc := cutStep_cutoff s
    rcases e : s.cutoff with ⟨_ | _, s'⟩ <;> rw [e] at hc
    · exact hc
    · exact hc.then_same ⟨rfl, rfl, rfl, rfl, rfl⟩
  · exact Or.inl ⟨rfl, rfl, rfl, rfl, rfl⟩

theorem cutStep_getTmm10LF (s : SpecObj) (a : ℝ) (b : FMax ℝ) : CutStep s (s.getTmm10LF a b).2 := by
  unfold SpecObj.getTmm10LF
  split_ifs
  · have hc := cutStep_cutoff s
    rcases e : s.cutoff with ⟨_ | _, s'⟩ <;> rw [e] at hc
    · exact hc
    · exact hc.then_same ⟨rfl, rfl, rfl, rfl, rfl⟩
  · exact Or.inl ⟨rfl, rfl, rfl, rfl, rfl⟩

theorem cutStep_ensure {c : Cache} {run : Except PyErr ℝ × SpecObj} {s : SpecObj} (h : CutStep s run.2) : CutStep s (ensure c run s).2 := by
  rcases ensure_state c run s with e | ⟨-, e⟩ <;> rw [e]
  · exact Or.inl (.refl s)
  · exact h

theorem cutStep_getSmm10HF (s : SpecObj) (a : ℝ) (b : FMax ℝ) (g : ℝ) : CutStep s (s.getSmm10HF a b g).2 := by
  unfold SpecObj.getSmm10HF
  have h1 := cutStep_ensure (c := s.Hm0HF) (cutStep_getHm0HF s a b)
  rcases e1 : ensure s.Hm0HF (s.getHm0HF a b) s with ⟨_ | _, s1⟩ <;> rw [e1] at h1
  · exact h1
  · dsimp only at h1 ⊢
    have h2 := cutStep_ensure (c := s1.Tmm10HF) (cutStep_getTmm10HF s1 a b)
    rcases e2 : ensure s1.Tmm10HF (s1.getTmm10HF a b) s1 with ⟨_ | _, s2⟩ <;> rw [e2] at h2
    · exact h1.trans h2
    · exact (h1.trans h2).then_same ⟨rfl, rfl, rfl, rfl, rfl⟩

theorem periodStep_of_cut {op : SpecOp} {s s' : SpecObj} (h : CutStep s s') (hop : ∃ c d, op = .getHm0HF c d ∨ op = .getHm0LF c d ∨
    op = .getTmm10HF c d ∨ op = .getTmm10LF c d ∨ ∃ g, op = .getSmm10HF c d g) : PeriodStep op s s' := by
  rcases h with h | ⟨h0, h1, h2, h3, h4, h5⟩
  · exact .same h
  · exact .tmm10 (-1) (.fin (-1)) (Or.inr ⟨h0, Or.inr ⟨rfl, rfl, hop⟩⟩) h1 h2 h3 h4 h5

theorem period_step (s : SpecObj) (op : SpecOp) : PeriodStep op s (s.call op).2 := by
  cases op with
  | getHm0 a b => exact .same ⟨rfl, rfl, rfl, rfl, rfl⟩
  | getTp a b => exact .same ⟨rfl, rfl, rfl, rfl, rfl⟩
  | getTm01 a b => exact .same ⟨rfl, rfl, rfl, rfl, rfl⟩
  | getTps a b => exact .tps a b (Or.inl rfl) rfl rfl rfl rfl rfl
  | getTmm10 a b => exact .tmm10 a b (Or.inl rfl) rfl rfl rfl rfl rfl
  | getTm02 a b => exact .tm02 a b rfl rfl rfl rfl rfl rfl
  | getHm0HF a b => exact periodStep_of_cut (cutStep_getHm0HF s a b) ⟨a, b, Or.inl rfl⟩
  | getHm0LF a b => exact periodStep_of_cut (cutStep_getHm0LF s a b) ⟨a, b, Or.inr (Or.inl rfl)⟩
  | getTmm10HF a b => exact periodStep_of_cut (cutStep_getTmm10HF s a b) ⟨a, b, Or.inr (Or.inr (Or.inl rfl))⟩
  | getTmm10LF a b => exact periodStep_of_cut (cutStep_getTmm10LF s a b) ⟨a, b, Or.inr (Or.inr (Or.inr (Or.inl rfl)))⟩
  | getSmm10HF a b g => exact periodStep_of_cut (cutStep_getSmm10HF s a b g) ⟨a, b, Or.inr (Or.inr (Or.inr (Or.inr ⟨g, rfl⟩)))⟩
  | getS0p a b g =>
    show PeriodStep _ s (s.getS0p a b g).2
    unfold SpecObj.getS0p
    have h1 : SamePeriods s (ensure s.Hm0 (s.getHm0 a b) s).2 := by
      rcases ensure_state s.Hm0 (s.getHm0 a b) s with e | ⟨-, e⟩ <;> rw [e]
      · exact .refl s
      · exact ⟨rfl, rfl, rfl, rfl, rfl⟩
    rcases e1 : ensure s.Hm0 (s.getHm0 a b) s with ⟨_ | _, s1⟩ <;> rw [e1] at h1
    · exact .same h1
    · dsimp only at h1 ⊢
      have h2 := ensure_state s1.Tps (s1.getTps a b) s1
      rcases e2 : ensure s1.Tps (s1.getTps a b) s1 with ⟨_ | _, s2⟩ <;> rw [e2] at h2
      all_goals
        dsimp only at h2 ⊢
        rcases h2 with e | ⟨h0, e⟩
        · subst e
          exact .same ⟨h1.f, h1.S, h1.Tps, h1.Tmm10, h1.Tm02⟩
        · subst e
          refine .tps a b (Or.inr ⟨h1.Tps.symm.trans h0, g, rfl⟩) h1.f h1.S ?_ h1.Tmm10 h1.Tm02
          show store s1.Tps (calcTps s1.f s1.sVarDens a b) = _
          rw [h1.Tps, h1.f, h1.S]
  | getSmm10 a b g =>
    show PeriodStep _ s (s.getSmm10 a b g).2
    unfold SpecObj.getSmm10
    have h1 : SamePeriods s (ensure s.Hm0 (s.getHm0 a b) s).2 := by
      rcases ensure_state s.Hm0 (s.getHm0 a b) s with e | ⟨-, e⟩ <;> rw [e]
      · exact .refl s
      · exact ⟨rfl, rfl, rfl, rfl, rfl⟩
    rcases e1 : ensure s.Hm0 (s.getHm0 a b) s with ⟨_ | _, s1⟩ <;> rw [e1] at h1
    · exact .same h1
    · dsimp only at h1 ⊢
      have h2 := ensure_state s1.Tmm10 (s1.getTmm10 a b) s1
      rcases e2 : ensure s1.Tmm10 (s1.getTmm10 a b) s1 with ⟨_ | _, s2⟩ <;> rw [e2] at h2
      all_goals
        dsimp only at h2 ⊢
        rcases h2 with e | ⟨h0, e⟩
        · subst e
          exact .same ⟨h1.f, h1.S, h1.Tps, h1.Tmm10, h1.Tm02⟩
        · subst e
          refine .tmm10 a b (Or.inr ⟨h1.Tmm10.symm.trans h0, Or.inl ⟨g, rfl⟩⟩) h1.f h1.S ?_ h1.Tps h1.Tm02
          show store s1.Tmm10 (calcTmm10 s1.f s1.sVarDens a b) = _
          rw [h1.Tmm10, h1.f, h1.S]

/-! ## Specification -/

/-- The ranges for which a history asks for the plotted periods, directly or through a steepness or a high/low-frequency getter (which
use the default cut-off `0.45 / Tmm10` of the default range). -/
def AsksFor (label : String) (a : ℝ) (b : FMax ℝ) (op : SpecOp) : Prop :=
  match op with
  | .getTps a' b' => label = "Tps" ∧ a' = a ∧ b' = b
  | .getS0p a' b' _ => label = "Tps" ∧ a' = a ∧ b' = b
  | .getTmm10 a' b' => label = "Tmm10" ∧ a' = a ∧ b' = b
  | .getSmm10 a' b' _ => label = "Tmm10" ∧ a' = a ∧ b' = b
  | .getTm02 a' b' => label = "Tm02" ∧ a' = a ∧ b' = b
  | .getHm0HF _ _ | .getHm0LF _ _ | .getTmm10HF _ _ | .getTmm10LF _ _ | .getSmm10HF _ _ _ => label = "Tmm10" ∧ a = -1 ∧ b = .fin (-1)
  | _ => False

/-- The answer of the fresh spectrum for the period with the given label. -/
noncomputable def periodOf (s : SpecObj) (label : String) (a : ℝ) (b : FMax ℝ) : Except PyErr ℝ :=
  if label = "Tps" then (s.getTps a b).1 else if label = "Tmm10" then (s.getTmm10 a b).1 else (s.getTm02 a b).1

/-- The line of a period: at frequency `1/T`, nowhere if the period is not finite or zero. -/
def IsLineOf (r : Except PyErr ℝ) (pos : Option ℝ) : Prop :=
  (∃ T, r = .ok T ∧ T ≠ 0 ∧ pos = some (1 / T)) ∨ (pos = none ∧ (r = .ok 0 ∨ r = .error .nonFinite))

/-- A cache content is the answer of the fresh spectrum for a range asked for in the history. -/
def FromHist (s : SpecObj) (label : String) (hist : List SpecOp) (c : Cache) : Prop :=
  c = none ∨ ∃ a b op v, op ∈ hist ∧ AsksFor label a b op ∧ valE (periodOf s label a b) = .ok v ∧ c = some v

theorem fromHist_store {s : SpecObj} {label : String} {hist : List SpecOp} {c : Cache} {a : ℝ} {b : FMax ℝ} {op : SpecOp} (hop : op ∈ hist)
    (ha : AsksFor label a b op) (h : FromHist s label hist c) : FromHist s label hist (store c (periodOf s label a b)) := by
  rcases store_cases (periodOf s label a b) with ⟨e, he, hr⟩ | ⟨v, hv, hst⟩
  · rw [hr, store_raise he]; exact h
  · rw [hst]; exact Or.inr ⟨a, b, op, v, hop, ha, hv, rfl⟩

theorem fromHist_mono {s : SpecObj} {label : String} {hist hist' : List SpecOp} {c : Cache} (hs : ∀ op ∈ hist, op ∈ hist')
    (h : FromHist s label hist c) : FromHist s label hist' c := by
  rcases h with h | ⟨a, b, op, v, h1, h2, h3, h4⟩
  · exact Or.inl h
  · exact Or.inr ⟨a, b, op, v, hs op h1, h2, h3, h4⟩

theorem periods_from_history {s0 : SpecObj} : ∀ (hist done : List SpecOp) (s : SpecObj), s.f = s0.f → s.sVarDens = s0.sVarDens →
    FromHist s0 "Tps" done s.Tps → FromHist s0 "Tmm10" done s.Tmm10 → FromHist s0 "Tm02" done s.Tm02 →
    FromHist s0 "Tps" (done ++ hist) (s.after hist).Tps ∧ FromHist s0 "Tmm10" (done ++ hist) (s.after hist).Tmm10 ∧
      FromHist s0 "Tm02" (done ++ hist) (s.after hist).Tm02 := by
  intro hist
  induction hist with
  | nil => intro done s _ _ h1 h2 h3; simpa using ⟨h1, h2, h3⟩
  | cons op l ih =>
    intro done s hf hS h1 h2 h3
    have sub : ∀ o ∈ done, o ∈ done ++ [op] := fun o ho => List.mem_append_left _ ho
    have mem : op ∈ done ++ [op] := by simp
    have g1 := fromHist_mono sub h1
    have g2 := fromHist_mono sub h2
    have g3 := fromHist_mono sub h3
    have step : (s.call op).2.f = s0.f ∧ (s.call op).2.sVarDens = s0.sVarDens ∧ FromHist s0 "Tps" (done ++ [op]) (s.call op).2.Tps ∧
        FromHist s0 "Tmm10" (done ++ [op]) (s.call op).2.Tmm10 ∧ FromHist s0 "Tm02" (done ++ [op]) (s.call op).2.Tm02 := by
      rcases period_step s op with h | ⟨a, b, hop, k1, k2, k3, k4, k5⟩ | ⟨a, b, hop, k1, k2, k3, k4, k5⟩ | ⟨a, b, hop, k1, k2, k3, k4, k5⟩
      · rw [h.f, h.S, h.Tps, h.Tmm10, h.Tm02]; exact ⟨hf, hS, g1, g2, g3⟩
      · rw [k1, k2, k3, k4, k5]
        refine ⟨hf, hS, ?_, g2, g3⟩
        rw [hf, hS]
        refine fromHist_store mem ?_ g1
        rcases hop with rfl | ⟨-, g, rfl⟩ <;> exact ⟨rfl, rfl, rfl⟩
      · rw [k1, k2, k3, k4, k5]
        refine ⟨hf, hS, g1, ?_, g3⟩
        rw [hf, hS]
        refine fromHist_store mem ?_ g2
        rcases hop with rfl | ⟨-, ⟨g, rfl⟩ | ⟨rfl, rfl, c, d, rfl | rfl | rfl | rfl | ⟨g, rfl⟩⟩⟩ <;> exact ⟨rfl, rfl, rfl⟩
      · rw [k1, k2, k3, k4, k5]
        refine ⟨hf, hS, g1, g2, ?_⟩
        rw [hf, hS]
        refine fromHist_store mem ?_ g3
        subst hop; exact ⟨rfl, rfl, rfl⟩
    obtain ⟨s1, s2, s3, s4, s5⟩ := step
    have := ih (done ++ [op]) (s.call op).2 s1 s2 s3 s4 s5
    rw [List.append_assoc] at this
    exact this

theorem mem_periodLine {label : String} {c : Cache} {q : String × Option ℝ} (h : q ∈ periodLine label c) :
    ∃ v, c = some v ∧ q = (label, v.bind fun T => if T = 0 then none else some (1 / T)) := by
  unfold periodLine at h
  rcases c with _ | _ | T
  · cases h
  · exact ⟨none, rfl, by simpa using h⟩
  · exact ⟨some T, rfl, by simpa using h⟩

theorem isLineOf_of {r : Except PyErr ℝ} {v : Option ℝ} (h : valE r = .ok v) :
    IsLineOf r (v.bind fun T => if T = 0 then none else some (1 / T)) := by
  cases r with
  | ok w =>
    cases h
    by_cases h0 : w = 0
    · right; subst h0; exact ⟨by simp, Or.inl rfl⟩
    · left; exact ⟨w, rfl, h0, by simp [h0]⟩
  | error e =>
    cases e with
    | nonFinite => cases h; right; exact ⟨rfl, Or.inr rfl⟩
    | _ => cases h

/-- **C78 (Spectrum.plot).**  After any sequence of calls the plot shows the spectrum itself and, unless switched off, lines up to the
largest density labelled Tps, Tmm10 or Tm02, each at most once; a line marks the frequency `1/T` of a period that the fresh spectrum
would return for a range asked for before.  A spectrum nothing was asked of has no lines. -/
theorem spectrum_plot {pf pS : PyIn ℝ} {f S : List ℝ} (hf : pf.IsArr f) (hS : pS.IsArr S) {s : SpecObj} (h : SpecObj.init pf pS = .ok s)
    (hist : List SpecOp) (periods : Bool) :
    ∃ p, (s.after hist).plot periods = .ok p ∧ p.curve = f.zip S ∧ p.top ∈ S ∧ (∀ v ∈ S, v ≤ p.top) ∧
      (p.lines.map Prod.fst).Sublist ["Tps", "Tmm10", "Tm02"] ∧ (periods = false → p.lines = []) ∧
      ∀ q ∈ p.lines, ∃ op ∈ hist, ∃ a b, AsksFor q.1 a b op ∧ IsLineOf (periodOf s q.1 a b) q.2 := by
  obtain ⟨hm, hl, rfl⟩ := (spectrum_init_iff_partial hf hS).1 h
  set s : SpecObj := { f := f, sVarDens := ⟨[S.length], S⟩, nf := f.length } with hs
  obtain ⟨d1, d2⟩ := spectrum_after_data s hist
  have h2 : 2 ≤ S.length := by have := mono_two_le hm; omega
  obtain ⟨a, l, hal⟩ : ∃ a l, S = a :: l := by
    cases hS' : S with
    | nil => rw [hS'] at h2; simp at h2
    | cons a l => exact ⟨a, l, rfl⟩
  have hmax := pyMax_spec (l := a :: l) rfl
  obtain ⟨i1, i2, i3⟩ := periods_from_history (s0 := s) hist [] s rfl rfl (Or.inl rfl) (Or.inl rfl) (Or.inl rfl)
  rw [List.nil_append] at i1 i2 i3
  refine ⟨⟨f.zip S, if periods then periodLine "Tps" (s.after hist).Tps ++ periodLine "Tmm10" (s.after hist).Tmm10 ++ periodLine "Tm02" (s.after hist).Tm02 else [],
    l.foldl max a, []⟩, ?_, rfl, by rw [hal]; exact hmax.1, by rw [hal]; exact hmax.2, ?_, ?_, ?_⟩
  · unfold SpecObj.plot
    rw [d1, d2]
    simp only [hs, hal]
    rfl
  · have key : ∀ label c, ((periodLine label c).map Prod.fst).Sublist [label] := by
      intro label c
      unfold periodLine
      rcases c with _ | _ | T <;> simp
    cases periods with
    | false => simp
    | true =>
      simp only [if_true, List.map_append]
      exact ((key _ _).append (key _ _)).append (key _ _)
  · intro hp; simp [hp]
  · intro q hq
    cases hper : periods with
    | false => rw [hper] at hq; simp at hq
    | true =>
      rw [hper] at hq
      simp only [if_true, List.mem_append] at hq
      have fin : ∀ label c, FromHist s label hist c → q ∈ periodLine label c →
          ∃ op ∈ hist, ∃ a b, AsksFor q.1 a b op ∧ IsLineOf (periodOf s q.1 a b) q.2 := by
        intro label c hc hqc
        obtain ⟨v, rfl, rfl⟩ := mem_periodLine hqc
        rcases hc with hc | ⟨a, b, op, w, k1, k2, k3, k4⟩
        · cases hc
        · cases k4
          exact ⟨op, k1, a, b, k2, isLineOf_of k3⟩
      rcases hq with (hq | hq) | hq
      · exact fin _ _ i1 hq
      · exact fin _ _ i2 hq
      · exact fin _ _ i3 hq

/-- Calls that recompute the period with the given label. -/
def Recomputes (label : String) : SpecOp → Prop
  | .getTps _ _ => label = "Tps"
  | .getTmm10 _ _ => label = "Tmm10"
  | .getTm02 _ _ => label = "Tm02"
  | _ => False

theorem kept_Tps : ∀ (hist : List SpecOp) (s : SpecObj) (v : Option ℝ), s.Tps = some v → (∀ op ∈ hist, ¬ Recomputes "Tps" op) →
    (s.after hist).Tps = some v := by
  intro hist
  induction hist with
  | nil => intro s v h _; exact h
  | cons op l ih =>
    intro s v h hn
    refine ih _ v ?_ fun o ho => hn o (List.mem_cons_of_mem _ ho)
    rcases period_step s op with k | ⟨a, b, hop, -, -, k, -, -⟩ | ⟨a, b, hop, -, -, -, k, -⟩ | ⟨a, b, hop, -, -, -, k, -⟩
    · rw [k.Tps, h]
    · rcases hop with rfl | ⟨h0, -⟩
      · exact absurd rfl (hn _ (List.mem_cons_self ..))
      · rw [h0] at h; cases h
    · rw [k, h]
    · rw [k, h]

theorem kept_Tmm10 : ∀ (hist : List SpecOp) (s : SpecObj) (v : Option ℝ), s.Tmm10 = some v → (∀ op ∈ hist, ¬ Recomputes "Tmm10" op) →
    (s.after hist).Tmm10 = some v := by
  intro hist
  induction hist with
  | nil => intro s v h _; exact h
  | cons op l ih =>
    intro s v h hn
    refine ih _ v ?_ fun o ho => hn o (List.mem_cons_of_mem _ ho)
    rcases period_step s op with k | ⟨a, b, hop, -, -, -, k, -⟩ | ⟨a, b, hop, -, -, k, -, -⟩ | ⟨a, b, hop, -, -, -, -, k⟩
    · rw [k.Tmm10, h]
    · rw [k, h]
    · rcases hop with rfl | ⟨h0, -⟩
      · exact absurd rfl (hn _ (List.mem_cons_self ..))
      · rw [h0] at h; cases h
    · rw [k, h]

theorem kept_Tm02 : ∀ (hist : List SpecOp) (s : SpecObj) (v : Option ℝ), s.Tm02 = some v → (∀ op ∈ hist, ¬ Recomputes "Tm02" op) →
    (s.after hist).Tm02 = some v := by
  intro hist
  induction hist with
  | nil => intro s v h _; exact h
  | cons op l ih =>
    intro s v h hn
    refine ih _ v ?_ fun o ho => hn o (List.mem_cons_of_mem _ ho)
    rcases period_step s op with k | ⟨a, b, hop, -, -, -, -, k⟩ | ⟨a, b, hop, -, -, -, -, k⟩ | ⟨a, b, hop, -, -, k, -, -⟩
    · rw [k.Tm02, h]
    · rw [k, h]
    · rw [k, h]
    · subst hop
      exact absurd rfl (hn _ (List.mem_cons_self ..))

/-- **C78 (the last value is shown).**  If `get_Tps`, `get_Tmm10` or `get_Tm02` returned a finite period `T` other than 0, the plot shows
its line at `1/T` until the same getter is called again, whatever else is called (steepnesses do not recompute it). -/
theorem spectrum_plot_shows {pf pS : PyIn ℝ} {f S : List ℝ} (hf : pf.IsArr f) (hS : pS.IsArr S) {s : SpecObj} (h : SpecObj.init pf pS = .ok s)
    (hist hist' : List SpecOp) {op : SpecOp} {label : String} {T : ℝ} (hop : Recomputes label op) (hT : ((s.after hist).call op).1 = .ok T) (h0 : T ≠ 0)
    (hn : ∀ o ∈ hist', ¬ Recomputes label o) :
    ∃ p, (s.after (hist ++ op :: hist')).plot = .ok p ∧ (label, some (1 / T)) ∈ p.lines := by
  obtain ⟨hm, hl, rfl⟩ := (spectrum_init_iff_partial hf hS).1 h
  set s : SpecObj := { f := f, sVarDens := ⟨[S.length], S⟩, nf := f.length } with hs
  have hsplit : s.after (hist ++ op :: hist') = (((s.after hist).call op).2).after hist' := by
    unfold SpecObj.after
    rw [List.foldl_append, List.foldl_cons]
  obtain ⟨d1, d2⟩ := spectrum_after_data s (hist ++ op :: hist')
  have h2 : 2 ≤ S.length := by have := mono_two_le hm; omega
  obtain ⟨a, l, hal⟩ : ∃ a l, S = a :: l := by
    cases hS' : S with
    | nil => rw [hS'] at h2; simp at h2
    | cons a l => exact ⟨a, l, rfl⟩
  set s' := s.after (hist ++ op :: hist') with hs'
  refine ⟨⟨f.zip S, periodLine "Tps" s'.Tps ++ periodLine "Tmm10" s'.Tmm10 ++ periodLine "Tm02" s'.Tm02, l.foldl max a, []⟩, ?_, ?_⟩
  · unfold SpecObj.plot
    rw [d1, d2]
    simp only [hs, hal]
    rfl
  · have line : ∀ lb, periodLine lb (some (some T)) = [(lb, some (1 / T))] := by
      intro lb; unfold periodLine; simp [h0]
    have st : ∀ c : Cache, store c (.ok T) = some (some T) := fun _ => rfl
    simp only [List.mem_append]
    cases op with
    | getTps a' b' =>
      have hlab : label = "Tps" := hop
      subst hlab
      have k : (((s.after hist).call (.getTps a' b')).2).Tps = some (some T) := by
        show store _ ((s.after hist).call (.getTps a' b')).1 = _
        rw [hT]; rfl
      have e : s'.Tps = some (some T) := by rw [hsplit]; exact kept_Tps hist' _ _ k hn
      rw [e, line]; simp
    | getTmm10 a' b' =>
      have hlab : label = "Tmm10" := hop
      subst hlab
      have k : (((s.after hist).call (.getTmm10 a' b')).2).Tmm10 = some (some T) := by
        show store _ ((s.after hist).call (.getTmm10 a' b')).1 = _
        rw [hT]; rfl
      have e : s'.Tmm10 = some (some T) := by rw [hsplit]; exact kept_Tmm10 hist' _ _ k hn
      rw [e, line]; simp
    | getTm02 a' b' =>
      have hlab : label = "Tm02" := hop
      subst hlab
      have k : (((s.after hist).call (.getTm02 a' b')).2).Tm02 = some (some T) := by
        show store _ ((s.after hist).call (.getTm02 a' b')).1 = _
        rw [hT]; rfl
      have e : s'.Tm02 = some (some T) := by rw [hsplit]; exact kept_Tm02 hist' _ _ k hn
      rw [e, line]; simp
    | _ => exact absurd hop (by simp [Recomputes])

/-- **C78 (Series.plot).**  The plot of a new series shows the samples against time and, if asked for, one dot on the axis per zero
down-crossing of the signal, at the interpolated crossing times, in increasing order. -/
theorem series_plot {K : Type} [Field K] [LinearOrder K] [IsStrictOrderedRing K] {pt px : PyIn K} {t x : List K} {dt : K} (ht : pt.IsVec t)
    (hx : px.IsVec x) (h2 : 2 ≤ t.length) (hlen : t.length = x.length) (hu : UniformAxis t dt) :
    ∃ s dots idx, SeriesObj.init pt px = .ok s ∧ s.plot false = (t.zip x, none) ∧ s.plot true = (t.zip x, some dots) ∧
      ListsExactly idx (DownCrossing x) ∧ List.Forall₂ (IsInterpolatedZero t x) idx (dots.map Prod.fst) ∧
      (dots.map Prod.fst).Pairwise (· < ·) ∧ ∀ d ∈ dots, d.2 = 0 := by
  obtain ⟨s, n, tc, w, h1, a, b, -, -, e, -, etc, -⟩ := series_never_fails ht hx h2 hlen hu
  obtain ⟨n', tc', idx, e', k1, k2, k3⟩ := down_crossing_times (isVec_vec t) (isVec_vec x) h2 hlen hu
  rw [e] at e'
  obtain ⟨-, rfl⟩ : n = n' ∧ tc = tc' := by simpa using e'
  have hm : (tc.map fun t => (t, t * 0)).map Prod.fst = tc := by rw [List.map_map]; exact List.map_id' tc
  refine ⟨s, tc.map fun t => (t, t * 0), idx, h1, ?_, ?_, k1, by rw [hm]; exact k2, by rw [hm]; exact k3, ?_⟩
  · unfold SeriesObj.plot; rw [a, b]; rfl
  · unfold SeriesObj.plot; rw [a, b, etc]; rfl
  · intro d hd
    obtain ⟨τ, -, rfl⟩ := List.mem_map.1 hd
    simp

/-- Non-vacuity: the plot of a small series with its crossings. -/
example : (do let s ← SeriesObj.init (K := ℚ) (vec [0, 1, 2, 3]) (vec [1, -1, 1, -3]); return s.plot true) =
    .ok ([(0, 1), (1, -1), (2, 1), (3, -3)], some [(1 / 2, 0), (9 / 4, 0)]) := by decide +kernel

/-- Non-vacuity: a triangular spectrum whose energy period 8/15 s was asked for shows a line at 15/8 Hz. -/
example : ∃ s p, SpecObj.init (vec [1, 2, 3]) (vec [1, 2, 1]) = .ok s ∧
    (s.after ([.getHm0 (-1) (.fin (-1))] ++ .getTmm10 (-1) (.fin (-1)) :: [.getHm0HF (-1) (.fin (-1)), .getTps 1 (.fin 3)])).plot = .ok p ∧
    ("Tmm10", some (1 / (8 / 15))) ∈ p.lines := by
  obtain ⟨s, hs⟩ := tri_init
  have h := getters_agree_with_params (isArr_vec [1, 2, 3]) (isArr_vec [1, 2, 1]) hs tri_params (by simp)
  have val : ∀ {r : Except PyErr ℝ} {v : ℝ}, valE r = .ok (some v) → r = .ok v := by
    intro r v h
    rcases r with e | w
    · cases e <;> cases h
    · cases h; rfl
  have hT : ((s.after [.getHm0 (-1) (.fin (-1))]).call (.getTmm10 (-1) (.fin (-1)))).1 = .ok (8 / 15) := val h.2.2.2.1
  obtain ⟨p, h1, h2⟩ := spectrum_plot_shows (isArr_vec [1, 2, 3]) (isArr_vec [1, 2, 1]) hs [.getHm0 (-1) (.fin (-1))]
    [.getHm0HF (-1) (.fin (-1)), .getTps 1 (.fin 3)] (op := .getTmm10 (-1) (.fin (-1))) (label := "Tmm10") rfl hT (by norm_num) (by simp [Recomputes])
  exact ⟨s, p, hs, h1, h2⟩

/-! ## Concrete cases: the hypotheses of the theorems above are met -/

example := series_plot (isVec_vec ([0, 1, 2, 3] : List ℚ)) (isVec_vec [1, -1, 1, -3]) (dt := 1) (by simp) rfl (uniformAxis_of_steps (by norm_num) (by decide +kernel))
example : ∃ s p, SpecObj.init (vec [1, 2, 3]) (vec [1, 2, 1]) = .ok s ∧ (s.after [.getTps 1 (.fin 3)]).plot false = .ok p ∧ p.curve = [(1, 1), (2, 2), (3, 1)] ∧ p.lines = [] := by
  obtain ⟨s, hs⟩ := tri_init
  obtain ⟨p, e, h, -, -, -, h', -⟩ := spectrum_plot (isArr_vec [1, 2, 3]) (isArr_vec [1, 2, 1]) hs [.getTps 1 (.fin 3)] false
  exact ⟨s, p, hs, e, h, h' rfl⟩

end Verif
