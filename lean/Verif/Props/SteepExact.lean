import Verif.Props.PlotsSpec

/-! # C87: what the steepness and HF/LF getters use — exactly, after any history -/

set_option linter.unusedSectionVars false

namespace Verif

/-! ## Attributes are overwritten only by their own getter -/

theorem keep_ensure {p : SpecObj → Cache} {s : SpecObj} {v : Cache} (h : p s = v) {c : Cache} {r : Except PyErr ℝ × SpecObj} (hr : p r.2 = v) :
    p (ensure c r s).2 = v := by
  rcases ensure_state c r s with e | ⟨-, e⟩ <;> rw [e] <;> assumption

theorem cutoff_keeps (s : SpecObj) : s.cutoff.2.Hm0 = s.Hm0 ∧ s.cutoff.2.Hm0HF = s.Hm0HF ∧ s.cutoff.2.Tmm10HF = s.Tmm10HF := by
  unfold SpecObj.cutoff
  cases hc : s.Tmm10 with
  | some c => dsimp only; split <;> (try split_ifs) <;> exact ⟨rfl, rfl, rfl⟩
  | none =>
    dsimp only
    have h' : (s.getTmm10 (-1) (.fin (-1))).2.Hm0 = s.Hm0 ∧ (s.getTmm10 (-1) (.fin (-1))).2.Hm0HF = s.Hm0HF ∧
      (s.getTmm10 (-1) (.fin (-1))).2.Tmm10HF = s.Tmm10HF := ⟨rfl, rfl, rfl⟩
    rcases hg : s.getTmm10 (-1) (.fin (-1)) with ⟨r, s'⟩
    rw [hg] at h'
    dsimp only at h' ⊢
    split <;> (try split_ifs) <;> exact h'

theorem hm0HF_keeps (s : SpecObj) (a : ℝ) (b : FMax ℝ) : (s.getHm0HF a b).2.Hm0 = s.Hm0 ∧ (s.getHm0HF a b).2.Tmm10HF = s.Tmm10HF := by
  have hc := cutoff_keeps s
  unfold SpecObj.getHm0HF
  split_ifs
  · rcases hh : s.cutoff with ⟨_ | _, s'⟩ <;> rw [hh] at hc <;> exact ⟨hc.1, hc.2.2⟩
  · exact ⟨rfl, rfl⟩

theorem hm0LF_keeps (s : SpecObj) (a : ℝ) (b : FMax ℝ) : (s.getHm0LF a b).2.Hm0 = s.Hm0 ∧ (s.getHm0LF a b).2.Hm0HF = s.Hm0HF ∧ (s.getHm0LF a b).2.Tmm10HF = s.Tmm10HF := by
  have hc := cutoff_keeps s
  unfold SpecObj.getHm0LF
  split_ifs
  · rcases hh : s.cutoff with ⟨_ | _, s'⟩ <;> rw [hh] at hc <;> exact hc
  · exact ⟨rfl, rfl, rfl⟩

theorem tmm10HF_keeps (s : SpecObj) (a : ℝ) (b : FMax ℝ) : (s.getTmm10HF a b).2.Hm0 = s.Hm0 ∧ (s.getTmm10HF a b).2.Hm0HF = s.Hm0HF := by
  have hc := cutoff_keeps s
  unfold SpecObj.getTmm10HF
  split_ifs
  · rcases hh : s.cutoff with ⟨_ | _, s'⟩ <;> rw [hh] at hc <;> exact ⟨hc.1, hc.2.1⟩
  · exact ⟨rfl, rfl⟩

theorem tmm10LF_keeps (s : SpecObj) (a : ℝ) (b : FMax ℝ) : (s.getTmm10LF a b).2.Hm0 = s.Hm0 ∧ (s.getTmm10LF a b).2.Hm0HF = s.Hm0HF ∧ (s.getTmm10LF a b).2.Tmm10HF = s.Tmm10HF := by
  have hc := cutoff_keeps s
  unfold SpecObj.getTmm10LF
  split_ifs
  · rcases hh : s.cutoff with ⟨_ | _, s'⟩ <;> rw [hh] at hc <;> exact hc
  · exact ⟨rfl, rfl, rfl⟩

/-- The attribute `p` with value `v` survives a steepness call. -/
theorem keep_two {p : SpecObj → Cache} {v : Option ℝ} {s : SpecObj} (h : p s = some v) {c1 : Cache} {r1 : Except PyErr ℝ × SpecObj}
    {c2 : SpecObj → Cache} {r2 : SpecObj → Except PyErr ℝ × SpecObj} (k1 : p (ensure c1 r1 s).2 = some v)
    (k2 : ∀ t, p t = some v → p (ensure (c2 t) (r2 t) t).2 = some v) {fin : SpecObj → Except PyErr ℝ × SpecObj} (kf : ∀ t, p t = some v → p (fin t).2 = some v) :
    p (match ensure c1 r1 s with
      | (.error e, s1) => ((.error e, s1) : Except PyErr ℝ × SpecObj)
      | (.ok (), s1) =>
        match ensure (c2 s1) (r2 s1) s1 with
        | (.error e, s2) => (.error e, s2)
        | (.ok (), s2) => fin s2).2 = some v := by
  rcases e1 : ensure c1 r1 s with ⟨_ | _, s1⟩ <;> rw [e1] at k1
  · exact k1
  · dsimp only at k1 ⊢
    have k := k2 s1 k1
    rcases e2 : ensure (c2 s1) (r2 s1) s1 with ⟨_ | _, s2⟩ <;> rw [e2] at k
    · exact k
    · exact kf s2 k

theorem ensure_present {p : SpecObj → Cache} {v : Option ℝ} {t : SpecObj} (h : p t = some v) (r : Except PyErr ℝ × SpecObj) :
    p (ensure (p t) r t).2 = some v := by
  rw [h]; exact h

theorem keep_Hm0 {s : SpecObj} {v : Option ℝ} (h : s.Hm0 = some v) {op : SpecOp} (hop : ∀ a b, op ≠ .getHm0 a b) : (s.call op).2.Hm0 = some v := by
  cases op with
  | getHm0 a b => exact absurd rfl (hop a b)
  | getHm0HF a b => exact (hm0HF_keeps s a b).1.trans h
  | getHm0LF a b => exact (hm0LF_keeps s a b).1.trans h
  | getTps a b => exact h
  | getTp a b => exact h
  | getTmm10 a b => exact h
  | getTmm10HF a b => exact (tmm10HF_keeps s a b).1.trans h
  | getTmm10LF a b => exact (tmm10LF_keeps s a b).1.trans h
  | getTm01 a b => exact h
  | getTm02 a b => exact h
  | getS0p a b g =>
    exact keep_two (p := SpecObj.Hm0) h (c2 := SpecObj.Tps) (r2 := fun t => t.getTps a b) (ensure_present (p := SpecObj.Hm0) h _)
      (fun t ht => keep_ensure ht ht) (fun t ht => ht)
  | getSmm10 a b g =>
    exact keep_two (p := SpecObj.Hm0) h (c2 := SpecObj.Tmm10) (r2 := fun t => t.getTmm10 a b) (ensure_present (p := SpecObj.Hm0) h _)
      (fun t ht => keep_ensure ht ht) (fun t ht => ht)
  | getSmm10HF a b g =>
    exact keep_two (p := SpecObj.Hm0) h (c2 := SpecObj.Tmm10HF) (r2 := fun t => t.getTmm10HF a b) (keep_ensure h ((hm0HF_keeps s a b).1.trans h))
      (fun t ht => keep_ensure ht ((tmm10HF_keeps t a b).1.trans ht)) (fun t ht => ht)

theorem keep_Hm0HF {s : SpecObj} {v : Option ℝ} (h : s.Hm0HF = some v) {op : SpecOp} (hop : ∀ a b, op ≠ .getHm0HF a b) : (s.call op).2.Hm0HF = some v := by
  cases op with
  | getHm0 a b => exact h
  | getHm0HF a b => exact absurd rfl (hop a b)
  | getHm0LF a b => exact (hm0LF_keeps s a b).2.1.trans h
  | getTps a b => exact h
  | getTp a b => exact h
  | getTmm10 a b => exact h
  | getTmm10HF a b => exact (tmm10HF_keeps s a b).2.trans h
  | getTmm10LF a b => exact (tmm10LF_keeps s a b).2.1.trans h
  | getTm01 a b => exact h
  | getTm02 a b => exact h
  | getS0p a b g =>
    exact keep_two (p := SpecObj.Hm0HF) h (c2 := SpecObj.Tps) (r2 := fun t => t.getTps a b) (keep_ensure h h) (fun t ht => keep_ensure ht ht) (fun t ht => ht)
  | getSmm10 a b g =>
    exact keep_two (p := SpecObj.Hm0HF) h (c2 := SpecObj.Tmm10) (r2 := fun t => t.getTmm10 a b) (keep_ensure h h) (fun t ht => keep_ensure ht ht) (fun t ht => ht)
  | getSmm10HF a b g =>
    exact keep_two (p := SpecObj.Hm0HF) h (c2 := SpecObj.Tmm10HF) (r2 := fun t => t.getTmm10HF a b) (ensure_present (p := SpecObj.Hm0HF) h _)
      (fun t ht => keep_ensure ht ((tmm10HF_keeps t a b).2.trans ht)) (fun t ht => ht)

theorem keep_Tmm10HF {s : SpecObj} {v : Option ℝ} (h : s.Tmm10HF = some v) {op : SpecOp} (hop : ∀ a b, op ≠ .getTmm10HF a b) :
    (s.call op).2.Tmm10HF = some v := by
  cases op with
  | getHm0 a b => exact h
  | getHm0HF a b => exact (hm0HF_keeps s a b).2.trans h
  | getHm0LF a b => exact (hm0LF_keeps s a b).2.2.trans h
  | getTps a b => exact h
  | getTp a b => exact h
  | getTmm10 a b => exact h
  | getTmm10HF a b => exact absurd rfl (hop a b)
  | getTmm10LF a b => exact (tmm10LF_keeps s a b).2.2.trans h
  | getTm01 a b => exact h
  | getTm02 a b => exact h
  | getS0p a b g =>
    exact keep_two (p := SpecObj.Tmm10HF) h (c2 := SpecObj.Tps) (r2 := fun t => t.getTps a b) (keep_ensure h h) (fun t ht => keep_ensure ht ht) (fun t ht => ht)
  | getSmm10 a b g =>
    exact keep_two (p := SpecObj.Tmm10HF) h (c2 := SpecObj.Tmm10) (r2 := fun t => t.getTmm10 a b) (keep_ensure h h) (fun t ht => keep_ensure ht ht) (fun t ht => ht)
  | getSmm10HF a b g =>
    exact keep_two (p := SpecObj.Tmm10HF) h (c2 := SpecObj.Tmm10HF) (r2 := fun t => t.getTmm10HF a b) (keep_ensure h ((hm0HF_keeps s a b).2.trans h))
      (fun t ht => ensure_present (p := SpecObj.Tmm10HF) ht _) (fun t ht => ht)

theorem keep_after {p : SpecObj → Cache} {own : SpecOp → Prop} (step : ∀ {s : SpecObj} {v : Option ℝ}, p s = some v → ∀ {op}, ¬ own op → p (s.call op).2 = some v) :
    ∀ (hist : List SpecOp) (s : SpecObj) (v : Option ℝ), p s = some v → (∀ op ∈ hist, ¬ own op) → p (s.after hist) = some v := by
  intro hist
  induction hist with
  | nil => intro s v h _; exact h
  | cons op l ih =>
    intro s v h hn
    exact ih _ v (step h (hn op (List.mem_cons_self ..))) fun o ho => hn o (List.mem_cons_of_mem _ ho)

theorem after_append (s : SpecObj) (h1 h2 : List SpecOp) : s.after (h1 ++ h2) = (s.after h1).after h2 := by
  unfold SpecObj.after; rw [List.foldl_append]

/-! ## Specification -/

/-- In the history `hist` of calls on `s`, the last call of the getter `G` is `op`, and it returned `v`. -/
def LastResult (s : SpecObj) (hist : List SpecOp) (G : SpecOp → Prop) (v : ℝ) : Prop :=
  ∃ h1 op h2, hist = h1 ++ op :: h2 ∧ G op ∧ (∀ o ∈ h2, ¬ G o) ∧ ((s.after h1).call op).1 = .ok v

/-- The calls of the individual getters. -/
def IsHm0 : SpecOp → Prop | .getHm0 .. => True | _ => False
def IsTps : SpecOp → Prop | .getTps .. => True | _ => False
def IsTmm10 : SpecOp → Prop | .getTmm10 .. => True | _ => False
def IsHm0HF : SpecOp → Prop | .getHm0HF .. => True | _ => False
def IsTmm10HF : SpecOp → Prop | .getTmm10HF .. => True | _ => False

theorem last_stored {p : SpecObj → Cache} {G : SpecOp → Prop} (step : ∀ {s : SpecObj} {v : Option ℝ}, p s = some v → ∀ {op}, ¬ G op → p (s.call op).2 = some v)
    (own : ∀ (t : SpecObj) (op : SpecOp) (v : ℝ), G op → (t.call op).1 = .ok v → p (t.call op).2 = some (some v))
    {s : SpecObj} {hist : List SpecOp} {v : ℝ} (h : LastResult s hist G v) : p (s.after hist) = some (some v) := by
  obtain ⟨h1, op, h2, rfl, hg, hn, hr⟩ := h
  rw [after_append]
  exact keep_after step h2 _ _ (own _ op v hg hr) hn

theorem last_Hm0 {s : SpecObj} {hist : List SpecOp} {v : ℝ} (h : LastResult s hist IsHm0 v) : (s.after hist).Hm0 = some (some v) := by
  refine last_stored (p := SpecObj.Hm0) (fun h op hop => keep_Hm0 h (by rintro a b rfl; exact hop trivial)) ?_ h
  intro t op v hg hr
  cases op <;> first | exact hg.elim | skip
  · show store t.Hm0 _ = _
    rw [show calcHm0 t.f t.sVarDens _ _ = .ok v from hr]; rfl

theorem last_Tps {s : SpecObj} {hist : List SpecOp} {v : ℝ} (h : LastResult s hist IsTps v) : (s.after hist).Tps = some (some v) := by
  refine last_stored (p := SpecObj.Tps) (fun h op hop => kept_Tps [op] _ _ h (by
    intro o ho
    rw [List.mem_singleton] at ho
    subst ho
    cases o <;> first | exact fun e => hop trivial | (intro e; simp [Recomputes] at e))) ?_ h
  intro t op v hg hr
  cases op <;> first | exact hg.elim | skip
  · show store t.Tps _ = _
    rw [show calcTps t.f t.sVarDens _ _ = .ok v from hr]; rfl

theorem last_Tmm10 {s : SpecObj} {hist : List SpecOp} {v : ℝ} (h : LastResult s hist IsTmm10 v) : (s.after hist).Tmm10 = some (some v) := by
  refine last_stored (p := SpecObj.Tmm10) (fun h op hop => kept_Tmm10 [op] _ _ h (by
    intro o ho
    rw [List.mem_singleton] at ho
    subst ho
    cases o <;> first | exact fun e => hop trivial | (intro e; simp [Recomputes] at e))) ?_ h
  intro t op v hg hr
  cases op <;> first | exact hg.elim | skip
  · show store t.Tmm10 _ = _
    rw [show calcTmm10 t.f t.sVarDens _ _ = .ok v from hr]; rfl

theorem last_Hm0HF {s : SpecObj} {hist : List SpecOp} {v : ℝ} (h : LastResult s hist IsHm0HF v) : (s.after hist).Hm0HF = some (some v) := by
  refine last_stored (p := SpecObj.Hm0HF) (fun h op hop => keep_Hm0HF h (by rintro a b rfl; exact hop trivial)) ?_ h
  intro t op v hg hr
  cases op <;> first | exact hg.elim | skip
  · next a b =>
    have hr' : (t.getHm0HF a b).1 = .ok v := hr
    show (t.getHm0HF a b).2.Hm0HF = _
    unfold SpecObj.getHm0HF at hr' ⊢
    split_ifs at hr' ⊢
    · rcases hh : t.cutoff with ⟨_ | _, s'⟩ <;> rw [hh] at hr'
      · cases hr'
      · dsimp only at hr' ⊢; rw [hr']; rfl
    · dsimp only at hr' ⊢; rw [hr']; rfl

theorem last_Tmm10HF {s : SpecObj} {hist : List SpecOp} {v : ℝ} (h : LastResult s hist IsTmm10HF v) : (s.after hist).Tmm10HF = some (some v) := by
  refine last_stored (p := SpecObj.Tmm10HF) (fun h op hop => keep_Tmm10HF h (by rintro a b rfl; exact hop trivial)) ?_ h
  intro t op v hg hr
  cases op <;> first | exact hg.elim | skip
  · next a b =>
    have hr' : (t.getTmm10HF a b).1 = .ok v := hr
    show (t.getTmm10HF a b).2.Tmm10HF = _
    unfold SpecObj.getTmm10HF at hr' ⊢
    split_ifs at hr' ⊢
    · rcases hh : t.cutoff with ⟨_ | _, s'⟩ <;> rw [hh] at hr'
      · cases hr'
      · dsimp only at hr' ⊢; rw [hr']; rfl
    · dsimp only at hr' ⊢; rw [hr']; rfl

/-- **C87.**  After any history the steepness getters ignore their own range arguments as soon as the height and the period have been asked
for: they return `2 pi H / (g T²)` with the results of the *last* `get_Hm0` and `get_Tps` (`get_s0p`), `get_Hm0` and `get_Tmm10` (`get_smm10`),
`get_Hm0_HF` and `get_Tmm10_HF` (`get_smm10_HF`), whatever ranges these had. -/
theorem steepness_uses_last (s : SpecObj) (hist : List SpecOp) (fmin : ℝ) (fmax : FMax ℝ) (g : ℝ) {H T : ℝ} (hgT : g * T ^ 2 ≠ 0) :
    (LastResult s hist IsHm0 H → LastResult s hist IsTps T → ((s.after hist).getS0p fmin fmax g).1 = .ok (2 * Real.pi * H / (g * T ^ 2))) ∧
    (LastResult s hist IsHm0 H → LastResult s hist IsTmm10 T → ((s.after hist).getSmm10 fmin fmax g).1 = .ok (2 * Real.pi * H / (g * T ^ 2))) ∧
    (LastResult s hist IsHm0HF H → LastResult s hist IsTmm10HF T → ((s.after hist).getSmm10HF fmin fmax g).1 = .ok (2 * Real.pi * H / (g * T ^ 2))) := by
  have hd : ∀ H, divE (2 * Real.pi * H) (g * T ^ 2) = .ok (2 * Real.pi * H / (g * T ^ 2)) := fun H => by unfold divE; rw [if_neg hgT]
  refine ⟨fun h1 h2 => ?_, fun h1 h2 => ?_, fun h1 h2 => ?_⟩
  · unfold SpecObj.getS0p
    rw [last_Hm0 h1]
    simp only [ensure]
    rw [last_Tps h2]
    simp only [last_Hm0 h1, last_Tps h2, steepness]
    exact hd H
  · unfold SpecObj.getSmm10
    rw [last_Hm0 h1]
    simp only [ensure]
    rw [last_Tmm10 h2]
    simp only [last_Hm0 h1, last_Tmm10 h2, steepness]
    exact hd H
  · unfold SpecObj.getSmm10HF
    rw [last_Hm0HF h1]
    simp only [ensure]
    rw [last_Tmm10HF h2]
    simp only [last_Hm0HF h1, last_Tmm10HF h2, steepness]
    exact hd H

/-- **C87 (default cut-off).**  With the default limit the HF/LF getters split at `0.45 / T` with `T` the result of the *last* `get_Tmm10` call,
whatever range it had: they return what the explicit limit `0.45 / T` gives. -/
theorem cutoff_uses_last (s : SpecObj) (hist : List SpecOp) (a : ℝ) (b : FMax ℝ) {T : ℝ} (hT : LastResult s hist IsTmm10 T) (hT0 : 0 < T) :
    ((s.after hist).getHm0HF (-1) b).1 = ((s.after hist).getHm0HF (45 / 100 / T) b).1 ∧
    ((s.after hist).getTmm10HF (-1) b).1 = ((s.after hist).getTmm10HF (45 / 100 / T) b).1 ∧
    ((s.after hist).getHm0LF a (.fin (-1))).1 = ((s.after hist).getHm0LF a (.fin (45 / 100 / T))).1 ∧
    ((s.after hist).getTmm10LF a (.fin (-1))).1 = ((s.after hist).getTmm10LF a (.fin (45 / 100 / T))).1 := by
  have hp : 0 < 45 / 100 / T := by positivity
  have hne : 45 / 100 / T ≠ -1 := by linarith
  have hne' : FMax.fin (45 / 100 / T) ≠ .fin (-1) := fun e => hne (FMax.fin.inj e)
  have hc : (s.after hist).cutoff = (.ok (45 / 100 / T), s.after hist) := by
    unfold SpecObj.cutoff
    rw [last_Tmm10 hT]
    simp only [last_Tmm10 hT]
    rw [if_neg hT0.ne']
  refine ⟨?_, ?_, ?_, ?_⟩
  · unfold SpecObj.getHm0HF; rw [if_pos rfl, if_neg hne, hc]
  · unfold SpecObj.getTmm10HF; rw [if_pos rfl, if_neg hne, hc]
  · unfold SpecObj.getHm0LF; rw [if_pos rfl, if_neg hne', hc]
  · unfold SpecObj.getTmm10LF; rw [if_pos rfl, if_neg hne', hc]

/-- **C87 (first use).**  On a new object a steepness getter uses its own range for both ingredients: `get_smm10_HF(fmin, fmax, g)` is
`2 pi H / (g T²)` with the `H` and `T` that `get_Hm0_HF(fmin, fmax)` and `get_Tmm10_HF(fmin, fmax)` return on the new object (defaults included). -/
theorem smm10HF_new {pf pS : PyIn ℝ} {f S : List ℝ} (hf : pf.IsArr f) (hS : pS.IsArr S) {s : SpecObj} (hs : SpecObj.init pf pS = .ok s)
    {fmin : ℝ} {fmax : FMax ℝ} {g H T : ℝ} (hH : (s.getHm0HF fmin fmax).1 = .ok H) (hT : (s.getTmm10HF fmin fmax).1 = .ok T) (hgT : g * T ^ 2 ≠ 0) :
    (s.getSmm10HF fmin fmax g).1 = .ok (2 * Real.pi * H / (g * T ^ 2)) := by
  obtain ⟨hm, hl, rfl⟩ := (spectrum_init_iff_partial hf hS).1 hs
  set s : SpecObj := { f := f, sVarDens := ⟨[S.length], S⟩, nf := f.length } with hsd
  have e1 : s.Hm0HF = none := rfl
  have hL : LastResult s [.getHm0HF fmin fmax] IsHm0HF H := ⟨[], _, [], rfl, trivial, by simp, hH⟩
  have st1 : (s.getHm0HF fmin fmax).2.Hm0HF = some (some H) := last_Hm0HF hL
  have e2 : (s.getHm0HF fmin fmax).2.Tmm10HF = none := (hm0HF_keeps s fmin fmax).2
  have hT1 : ((s.getHm0HF fmin fmax).2.getTmm10HF fmin fmax).1 = .ok T := by
    obtain ⟨d1, d2⟩ := spectrum_after_data s [.getHm0HF fmin fmax]
    have d1 : (s.getHm0HF fmin fmax).2.f = s.f := d1
    have d2 : (s.getHm0HF fmin fmax).2.sVarDens = s.sVarDens := d2
    by_cases h1 : fmin = -1
    · subst h1
      unfold SpecObj.getTmm10HF at hT ⊢
      rw [if_pos rfl] at hT ⊢
      have inv : CutInv f ⟨[S.length], S⟩ s := ⟨rfl, rfl, Or.inl rfl⟩
      have inv' := cutInv_getHm0HF inv (-1) fmax
      have c1 := cutoff_of_inv inv
      have c2 := cutoff_of_inv inv'
      have i1 := cutInv_cutoff inv
      have i2 := cutInv_cutoff inv'
      rcases k1 : s.cutoff with ⟨r1, t1⟩
      rcases k2 : (s.getHm0HF (-1) fmax).2.cutoff with ⟨r2, t2⟩
      rw [k1] at c1 hT i1
      rw [k2] at c2 i2
      dsimp only at c1 c2
      rw [← c1] at c2
      subst c2
      cases r2 with
      | error e => cases hT
      | ok c =>
        dsimp only at hT i1 i2 ⊢
        rw [i1.hf, i1.hS] at hT
        rw [i2.hf, i2.hS]
        exact hT
    · unfold SpecObj.getTmm10HF at hT ⊢
      rw [if_neg h1] at hT ⊢
      dsimp only at hT ⊢
      rw [d1, d2]; exact hT
  have hL2 : LastResult (s.getHm0HF fmin fmax).2 [.getTmm10HF fmin fmax] IsTmm10HF T := ⟨[], _, [], rfl, trivial, by simp, hT1⟩
  have st2 : ((s.getHm0HF fmin fmax).2.getTmm10HF fmin fmax).2.Tmm10HF = some (some T) := last_Tmm10HF hL2
  have st3 : ((s.getHm0HF fmin fmax).2.getTmm10HF fmin fmax).2.Hm0HF = some (some H) := ((tmm10HF_keeps _ fmin fmax).2).trans st1
  have en : ∀ (r : Except PyErr ℝ × SpecObj) (t : SpecObj) (v : ℝ), r.1 = .ok v → ensure none r t = (.ok (), r.2) := by
    rintro ⟨r, t'⟩ t v h
    dsimp only at h
    subst h; rfl
  unfold SpecObj.getSmm10HF
  rw [e1, en _ _ _ hH]
  dsimp only
  rw [e2, en _ _ _ hT1]
  dsimp only
  rw [st2, st3]
  simp only [steepness]
  unfold divE
  rw [if_neg hgT]

/-- The hypotheses are met by the triangular spectrum: after `get_Hm0(2, 3)`, `get_Tmm10()`, the default steepness mixes the two ranges; and the
first call of `get_smm10_HF` on a new object. -/
example : ∃ s H, SpecObj.init (vec [1, 2, 3]) (vec [1, 2, 1]) = .ok s ∧
    LastResult s [.getHm0 2 (.fin 3), .getTmm10 (-1) (.fin (-1)), .getTps 1 .inf] IsHm0 H ∧
    ((s.after [.getHm0 2 (.fin 3), .getTmm10 (-1) (.fin (-1)), .getTps 1 .inf]).getSmm10 (-1) (.fin (-1)) 10).1 =
      .ok (2 * Real.pi * H / (10 * (8 / 15) ^ 2)) ∧ H = 4 * Real.sqrt (3 / 2) := by
  obtain ⟨s, hs⟩ := tri_init
  have h := getters_agree_with_params (isArr_vec [1, 2, 3]) (isArr_vec [1, 2, 1]) hs tri_params (by simp)
  have val : ∀ {r : Except PyErr ℝ} {v : ℝ}, valE r = .ok (some v) → r = .ok v := by
    intro r v h
    rcases r with e | w
    · cases e <;> cases h
    · cases h; rfl
  have hT := val h.2.2.2.1
  obtain ⟨hm, hl, rfl⟩ := (spectrum_init_iff_partial (isArr_vec [1, 2, 3]) (isArr_vec [1, 2, 1])).1 hs
  have hp := uniform_check_increasing hm
  have l : setFlim [1, 2, 3] 2 (.fin 3) = (2, .fin 3) := by
    unfold setFlim
    rw [if_neg (by norm_num), if_neg (by intro e; have := FMax.fin.inj e; norm_num at this)]
  have hH : calcHm0 [1, 2, 3] ⟨[3], [1, 2, 1]⟩ 2 (.fin 3) = .ok (4 * Real.sqrt (3 / 2)) := by
    have n1 : IsNearest ([1, 2, 3] : List ℝ) 0 2 1 := isNearest_self hp (d := 0) (i := 1) (Nat.zero_le _) (by simp)
    have n2 : IsNearest ([1, 2, 3] : List ℝ) 0 3 2 := isNearest_self hp (d := 0) (i := 2) (Nat.zero_le _) (by simp)
    have fu : firstUsable ([1, 2, 3] : List ℝ) 0 = 0 := by simp [firstUsable]
    have hr : MomentRange ([1, 2, 3] : List ℝ) 0 2 (.fin 3) 1 2 false := by
      refine ⟨fun e => ?_, fun _ => by rw [fu]; exact n1, fun F _ e _ => ?_, fun F _ e h => ?_, fun _ e => by cases e⟩
      · rcases e with e | e
        · norm_num at e
        · have := FMax.fin.inj e; norm_num at this
      · rw [← FMax.fin.inj e, fu]; exact ⟨n2, rfl⟩
      · rw [← FMax.fin.inj e] at h; norm_num at h
    obtain ⟨i, j, t, hr', -, -, e⟩ := computeMoment_structure hm 0 2 (.fin 3)
    obtain ⟨rfl, rfl, rfl⟩ := momentRange_unique hr hr'
    simp only [calcHm0, l]
    have aS : (PyIn.nd (⟨[3], [1, 2, 1]⟩ : Arr ℝ)).IsArr [1, 2, 1] := .nd [1, 2, 1]
    rw [e (isArr_vec _) aS rfl, momentOn_false]
    norm_num [pySlice, momentSum, simpson, simpOdd, heightOf, bind, Except.bind]
    rw [if_neg (by simp)]
    dsimp only
    rw [if_neg (by norm_num), Real.sqrt_div (by norm_num)]
  have hL : LastResult ({ f := [1, 2, 3], sVarDens := ⟨[[1, 2, 1].length], [1, 2, 1]⟩, nf := [1, 2, 3].length } : SpecObj)
      [.getHm0 2 (.fin 3), .getTmm10 (-1) (.fin (-1)), .getTps 1 .inf] IsHm0 (4 * Real.sqrt (3 / 2)) :=
    ⟨[], _, [.getTmm10 (-1) (.fin (-1)), .getTps 1 .inf], rfl, trivial, by simp [IsHm0], hH⟩
  refine ⟨_, _, hs, hL, ?_, rfl⟩
  exact (steepness_uses_last _ _ _ _ _ (by norm_num)).2.1 hL ⟨[.getHm0 2 (.fin 3)], _, [.getTps 1 .inf], rfl, trivial, by simp [IsTmm10], hT⟩

/-! ## Concrete cases: the hypotheses of the theorems above are met -/

example : ∃ s, SpecObj.init (vec [1, 2, 3]) (vec [1, 2, 1]) = .ok s ∧
    ((s.after [.getTmm10 (-1) (.fin (-1)), .getTps 1 .inf]).getHm0HF (-1) .inf).1 =
      ((s.after [.getTmm10 (-1) (.fin (-1)), .getTps 1 .inf]).getHm0HF (45 / 100 / (8 / 15)) .inf).1 ∧
    (s.getSmm10HF 1 (.fin 3) 10).1 = .ok (2 * Real.pi * (4 * Real.sqrt (10 / 3)) / (10 * (8 / 15) ^ 2)) := by
  obtain ⟨s, hs, hH, hp, hT, h10, h01⟩ := tri_values
  refine ⟨s, hs, (cutoff_uses_last s _ 1 .inf (T := 8 / 15) ⟨[], .getTmm10 (-1) (.fin (-1)), [.getTps 1 .inf], rfl, trivial, by simp [IsTmm10], h10⟩
    (by norm_num)).1, smm10HF_new (isArr_vec [1, 2, 3]) (isArr_vec [1, 2, 1]) hs ?_ ?_ (by norm_num)⟩
  · obtain ⟨hm, hl, rfl⟩ := (spectrum_init_iff_partial (isArr_vec [1, 2, 3]) (isArr_vec [1, 2, 1])).1 hs
    rw [← hH]
    have l : setFlim ([1, 2, 3] : List ℝ) 1 (.fin 3) = setFlim [1, 2, 3] (-1) (.fin (-1)) := by
      unfold setFlim
      rw [if_neg (by norm_num), if_neg (by intro e; have := FMax.fin.inj e; norm_num at this), if_pos rfl, if_pos rfl]; rfl
    simp only [SpecObj.getHm0HF, SpecObj.getHm0, calcHm0, l]
    norm_num
  · obtain ⟨hm, hl, rfl⟩ := (spectrum_init_iff_partial (isArr_vec [1, 2, 3]) (isArr_vec [1, 2, 1])).1 hs
    rw [← h10]
    have l : setFlim ([1, 2, 3] : List ℝ) 1 (.fin 3) = setFlim [1, 2, 3] (-1) (.fin (-1)) := by
      unfold setFlim
      rw [if_neg (by norm_num), if_neg (by intro e; have := FMax.fin.inj e; norm_num at this), if_pos rfl, if_pos rfl]; rfl
    simp only [SpecObj.getTmm10HF, SpecObj.getTmm10, calcTmm10, l]
    norm_num

end Verif
