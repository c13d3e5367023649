import Verif.Props.MemorySeries
import Verif.Props.SpectrumCache

/-! # C129: a `Spectrum` on arrays of the caller -/

set_option linter.unusedSectionVars false

namespace Verif

/-- The caller's assignments in a history, applied to the caller's memory. -/
noncomputable def SpecEvent.caller (evs : List SpecEvent) (m : Mem ℝ) : Mem ℝ :=
  evs.foldl (fun m e => match e with | .call _ => m | .poke a i v => m.poke a i v) m

/-- The method calls in a history. -/
def SpecEvent.calls (evs : List SpecEvent) : List SpecOp :=
  evs.filterMap fun e => match e with | .call op => some op | .poke _ _ _ => none

/-- The history only assigns to arrays with an address below `n` (the arrays the caller had before the object was made). -/
def SpecEvent.Below (n : Nat) (evs : List SpecEvent) : Prop := ∀ a i v, SpecEvent.poke a i v ∈ evs → a < n

theorem SpecRef.call_view (s : SpecRef) (m : Mem ℝ) (op : SpecOp) : (s.call m op).2.view m = ((s.view m).call op).2 := by
  obtain ⟨h1, h2⟩ := spectrum_call_keeps_data (s.view m) op
  unfold SpecRef.call
  generalize (s.view m).call op = r at h1 h2 ⊢
  obtain ⟨r, o⟩ := r
  obtain ⟨f, S, nf, c1, c2, c3, c4, c5, c6, c7, c8, c9, c10, c11, c12, c13⟩ := o
  dsimp only [SpecRef.view] at h1 h2 ⊢
  rw [h1, h2]

theorem specRun_facts (evs : List SpecEvent) (s : SpecRef) (m : Mem ℝ) :
    (SpecRef.run evs (s, m)).2 = SpecEvent.caller evs m ∧ (SpecRef.run evs (s, m)).1.f = s.f ∧
      (SpecRef.run evs (s, m)).1.sVarDens = s.sVarDens := by
  induction evs generalizing s m with
  | nil => exact ⟨rfl, rfl, rfl⟩
  | cons e evs ih =>
    cases e with
    | call op => exact ih (s.call m op).2 m
    | poke a i v => exact ih s (m.poke a i v)

/-- **C129 (arrays).** Over any history, the caller's arrays hold what the caller put there, and a spectrum built on
one-dimensional arrays has their current contents as its frequencies and densities. -/
theorem spectrum_from_arrays {a b : Nat} {m m1 : Mem ℝ} (sa : (size2 (m.read a)).2 ≠ 1) (sb : (size2 (m.read b)).2 ≠ 1)
    {s : SpecRef} (hi : SpecRef.init (.ref a) (.ref b) m = (.ok s, m1)) (evs : List SpecEvent) :
    (∀ c, (SpecRef.run evs (s, m1)).2.read c = (SpecEvent.caller evs m).read c) ∧
      ((SpecRef.run evs (s, m1)).1.view (SpecRef.run evs (s, m1)).2).f = ((SpecEvent.caller evs m).read a).data ∧
      ((SpecRef.run evs (s, m1)).1.view (SpecRef.run evs (s, m1)).2).sVarDens = (SpecEvent.caller evs m).read b := by
  have hs : s.f = a ∧ s.sVarDens = b ∧ m1 = m := by
    unfold SpecRef.init at hi
    rw [toVectorRef_shared (x := .ref a) (a := a) ⟨rfl, sa⟩] at hi
    dsimp only at hi
    rw [toVectorRef_shared (x := .ref b) (a := b) ⟨rfl, sb⟩] at hi
    dsimp only at hi
    cases ho : SpecObj.init ((Src.ref a).value m) ((Src.ref b).value m) with
    | error e => rw [ho] at hi; cases hi
    | ok o => rw [ho] at hi; cases hi; exact ⟨rfl, rfl, rfl⟩
  obtain ⟨h1, h2, rfl⟩ := hs
  obtain ⟨r1, r2, r3⟩ := specRun_facts evs s m1
  refine ⟨fun c => by rw [r1], ?_, ?_⟩
  · simp only [SpecRef.view]; rw [r1, r2, h1]
  · simp only [SpecRef.view]; rw [r1, r3, h2]

/-- **C129 (recomputed).** After any history the getters of Hm0, Tps, Tp, Tm-1,0, Tm01 and Tm02 return what a freshly built
spectrum of the *current* contents would return. -/
theorem spectrum_getters_current {a b : Nat} {m m1 : Mem ℝ} (sa : (size2 (m.read a)).2 ≠ 1) (sb : (size2 (m.read b)).2 ≠ 1)
    {s : SpecRef} (hi : SpecRef.init (.ref a) (.ref b) m = (.ok s, m1)) (evs : List SpecEvent) {op : SpecOp}
    (hop : match op with
      | .getHm0 _ _ | .getTps _ _ | .getTp _ _ | .getTmm10 _ _ | .getTm01 _ _ | .getTm02 _ _ => True
      | _ => False) {fresh : SpecObj} (h1 : fresh.f = ((SpecEvent.caller evs m).read a).data)
    (h2 : fresh.sVarDens = (SpecEvent.caller evs m).read b) :
    ((SpecRef.run evs (s, m1)).1.call (SpecRef.run evs (s, m1)).2 op).1 = (fresh.call op).1 := by
  obtain ⟨_, e1, e2⟩ := spectrum_from_arrays sa sb hi evs
  unfold SpecRef.call
  generalize (SpecRef.run evs (s, m1)).1.view (SpecRef.run evs (s, m1)).2 = v at e1 e2 ⊢
  rw [← h1] at e1
  rw [← h2] at e2
  cases op <;> first
    | exact False.elim hop
    | simp only [SpecObj.call, SpecObj.getHm0, SpecObj.getTps, SpecObj.getTp, SpecObj.getTmm10, SpecObj.getTm01, SpecObj.getTm02, e1, e2]

/-- **C129 (kept).** The steepness `get_s0p` and the default cut-off of the high-frequency wave height keep using results that were
computed before the caller changed the densities: whatever is assigned to the caller's arrays after `get_Hm0` and `get_Tps`
returned `H` and `T`, `get_s0p` still returns `2 pi H / (g T^2)`; and after `get_Tmm10` returned `T`, `get_Hm0_HF` still cuts off
at `0.45 / T`. -/
theorem spectrum_stale_results (s : SpecRef) (m : Mem ℝ) (pokes : List SpecEvent) (hp : ∀ e ∈ pokes, ∃ a i v, e = .poke a i v) :
    (∀ {H T : ℝ}, (s.call m (.getHm0 (-1) (.fin (-1)))).1 = .ok H →
      (((s.call m (.getHm0 (-1) (.fin (-1)))).2).call m (.getTps (-1) (.fin (-1)))).1 = .ok T → ∀ g lo hi,
      let st := SpecRef.run (.call (.getHm0 (-1) (.fin (-1))) :: .call (.getTps (-1) (.fin (-1))) :: pokes) (s, m)
      (st.1.call st.2 (.getS0p lo hi g)).1 = divE (2 * Real.pi * H) (g * T ^ 2)) ∧
    (∀ {T : ℝ}, (s.call m (.getTmm10 (-1) (.fin (-1)))).1 = .ok T → T ≠ 0 → ∀ hi,
      let st := SpecRef.run (.call (.getTmm10 (-1) (.fin (-1))) :: pokes) (s, m)
      (st.1.call st.2 (.getHm0HF (-1) hi)).1 =
        calcHm0 ((SpecEvent.caller pokes m).read s.f).data ((SpecEvent.caller pokes m).read s.sVarDens) (45 / 100 / T) hi) := by
  have hk : ∀ (pokes : List SpecEvent), (∀ e ∈ pokes, ∃ a i v, e = SpecEvent.poke a i v) → ∀ (s : SpecRef) (m : Mem ℝ),
      SpecRef.run pokes (s, m) = (s, SpecEvent.caller pokes m) := by
    intro pokes
    induction pokes with
    | nil => intro _ s m; rfl
    | cons e l ih =>
      intro h s m
      obtain ⟨a, i, v, rfl⟩ := h e (by simp)
      exact ih (fun e he => h e (List.mem_cons_of_mem _ he)) s (m.poke a i v)
  refine ⟨fun {H T} h1 h2 g lo hi => ?_, fun {T} h1 h0 hi => ?_⟩
  · have e : SpecRef.run (.call (.getHm0 (-1) (.fin (-1))) :: .call (.getTps (-1) (.fin (-1))) :: pokes) (s, m) =
        ((((s.call m (.getHm0 (-1) (.fin (-1)))).2).call m (.getTps (-1) (.fin (-1)))).2, SpecEvent.caller pokes m) :=
      hk pokes hp _ m
    intro st
    have est : st = ((((s.call m (.getHm0 (-1) (.fin (-1)))).2).call m (.getTps (-1) (.fin (-1)))).2, SpecEvent.caller pokes m) := e
    rw [est]
    have hv := SpecRef.call_view s m (.getHm0 (-1) (.fin (-1)))
    simp only [SpecRef.call] at h1 h2 ⊢
    simp only [SpecRef.view, SpecObj.call, SpecObj.getHm0, SpecObj.getTps, SpecObj.getS0p] at h1 h2 ⊢
    simp only [h1, h2, store, ensure, steepness]
  · intro st
    have est : st = ((s.call m (.getTmm10 (-1) (.fin (-1)))).2, SpecEvent.caller pokes m) := hk pokes hp _ m
    rw [est]
    simp only [SpecRef.call] at h1 ⊢
    simp only [SpecRef.view, SpecObj.call, SpecObj.getTmm10, SpecObj.getHm0HF, SpecObj.cutoff] at h1 ⊢
    simp only [h1, store, if_true, if_neg h0]

/-- **C129 (built from values).** A spectrum built from lists or column arrays never sees the caller's later assignments. -/
theorem spectrum_from_values {f S : Src ℝ} {m m1 : Mem ℝ} (hf : f.Valid m) (hS : S.Valid m)
    (nf : ∀ a, ¬ Shares f m a) (nS : ∀ a, ¬ Shares S m a) {s : SpecRef} (hi : SpecRef.init f S m = (.ok s, m1))
    (evs : List SpecEvent) (hb : SpecEvent.Below m.cells.length evs) :
    ∃ o, SpecObj.init (f.value m) (S.value m) = .ok o ∧
      (SpecRef.run evs (s, m1)).1.view (SpecRef.run evs (s, m1)).2 = o.after (SpecEvent.calls evs) := by
  obtain ⟨e0, e1, e2, l1, l2⟩ := two_conversions hf hS
  have n1 := toVectorRef_new nf
  have x1 := toVectorRef_extends f m
  have n2 := toVectorRef_new (m := (toVectorRef f m).2) (x := S) (fun a ha => nS a ((shares_extends hS x1 a).1 ha))
  unfold SpecRef.init at hi
  dsimp only at hi
  cases ho : SpecObj.init (f.value m) (S.value m) with
  | error e => rw [ho] at hi; cases hi
  | ok o =>
    refine ⟨o, rfl, ?_⟩
    rw [ho] at hi
    cases hi
    have hview : (⟨(toVectorRef f m).1, (toVectorRef S (toVectorRef f m).2).1, o⟩ : SpecRef).view
        (toVectorRef S (toVectorRef f m).2).2 = o := by
      have hd : o.f = (toVector (f.value m)).1.data ∧ o.sVarDens = (toVector (S.value m)).1 := by
        unfold SpecObj.init at ho
        dsimp only at ho
        split at ho
        · split at ho
          · cases ho
          · split_ifs at ho
            simp only [Except.ok.injEq] at ho
            rw [← ho]
            exact ⟨rfl, rfl⟩
        · cases ho
      obtain ⟨f', S', nf', c1, c2, c3, c4, c5, c6, c7, c8, c9, c10, c11, c12, c13⟩ := o
      dsimp only [SpecRef.view] at hd ⊢
      rw [e1, e2, hd.1, hd.2]
    suffices h : ∀ (s : SpecRef) (m' : Mem ℝ), m.cells.length ≤ s.f → m.cells.length ≤ s.sVarDens →
        (SpecRef.run evs (s, m')).1.view (SpecRef.run evs (s, m')).2 = (s.view m').after (SpecEvent.calls evs) by
      rw [h _ _ n1.1 (x1.1.trans n2.1), hview]
    clear hview
    induction evs with
    | nil => intro s m' _ _; rfl
    | cons e evs ih =>
      have hb' : SpecEvent.Below m.cells.length evs := fun a i v h => hb a i v (List.mem_cons_of_mem _ h)
      intro s m' a1 a2
      cases e with
      | call op =>
        have := ih hb' (s.call m' op).2 m' a1 a2
        rw [SpecRef.call_view] at this
        exact this
      | poke b i v =>
        have hbn := hb b i v (by simp)
        have := ih hb' s (m'.poke b i v) a1 a2
        have e : s.view (m'.poke b i v) = s.view m' := by
          unfold SpecRef.view
          rw [Mem.read_poke_ne _ _ _ (by omega), Mem.read_poke_ne _ _ _ (by omega)]
        rw [e] at this
        exact this

/-- A concrete case: the flat spectrum 1, 1, 1 on 1, 2, 3 Hz in two arrays of the caller. -/
example : SpecRef.init (.ref 0) (.ref 1) (⟨[arr1 [1, 2, 3], arr1 [1, 1, 1]]⟩ : Mem ℝ) =
      (.ok ⟨0, 1, flatSpec⟩, ⟨[arr1 [1, 2, 3], arr1 [1, 1, 1]]⟩) ∧
    ((⟨0, 1, flatSpec⟩ : SpecRef).call ⟨[arr1 [1, 2, 3], arr1 [1, 1, 1]]⟩ (.getHm0 (-1) (.fin (-1)))).1 = .ok (4 * Real.sqrt 2) := by
  constructor
  · unfold SpecRef.init
    have e : SpecObj.init ((Src.ref 0).value (⟨[arr1 [1, 2, 3], arr1 [1, 1, 1]]⟩ : Mem ℝ))
        ((Src.ref 1).value (⟨[arr1 [1, 2, 3], arr1 [1, 1, 1]]⟩ : Mem ℝ)) = .ok flatSpec := flatSpec_init
    rw [e, toVectorRef_shared (x := .ref 0) (a := 0) ⟨rfl, by simp [Mem.read, size2, arr1, Arr.size]⟩]
    dsimp only
    rw [toVectorRef_shared (x := .ref 1) (a := 1) ⟨rfl, by simp [Mem.read, size2, arr1, Arr.size]⟩]
  · exact flat_Hm0

/-! ## Concrete cases: the hypotheses of the theorems above are met -/

theorem shared_spectrum : SpecRef.init (.ref 0) (.ref 1) (⟨[arr1 [1, 2, 3], arr1 [1, 1, 1]]⟩ : Mem ℝ) =
      (.ok ⟨0, 1, flatSpec⟩, ⟨[arr1 [1, 2, 3], arr1 [1, 1, 1]]⟩) := by
  unfold SpecRef.init
  have e : SpecObj.init ((Src.ref 0).value (⟨[arr1 [1, 2, 3], arr1 [1, 1, 1]]⟩ : Mem ℝ))
      ((Src.ref 1).value (⟨[arr1 [1, 2, 3], arr1 [1, 1, 1]]⟩ : Mem ℝ)) = .ok flatSpec := flatSpec_init
  rw [e, toVectorRef_shared (x := .ref 0) (a := 0) ⟨rfl, by simp [Mem.read, size2, arr1, Arr.size]⟩]
  dsimp only
  rw [toVectorRef_shared (x := .ref 1) (a := 1) ⟨rfl, by simp [Mem.read, size2, arr1, Arr.size]⟩]

example : ((SpecRef.run [.poke 1 0 7] (⟨0, 1, flatSpec⟩, ⟨[arr1 [1, 2, 3], arr1 [1, 1, 1]]⟩)).1.view
      (SpecRef.run [.poke 1 0 7] (⟨0, 1, flatSpec⟩, ⟨[arr1 [1, 2, 3], arr1 [1, 1, 1]]⟩)).2).sVarDens = arr1 [7, 1, 1] :=
  (spectrum_from_arrays (a := 0) (b := 1) (by simp [Mem.read, size2, arr1, Arr.size]) (by simp [Mem.read, size2, arr1, Arr.size]) shared_spectrum [.poke 1 0 7]).2.2

example : ((SpecRef.run [.poke 1 0 7] (⟨0, 1, flatSpec⟩, ⟨[arr1 [1, 2, 3], arr1 [1, 1, 1]]⟩)).1.call
      (SpecRef.run [.poke 1 0 7] (⟨0, 1, flatSpec⟩, ⟨[arr1 [1, 2, 3], arr1 [1, 1, 1]]⟩)).2 (.getHm0 (-1) (.fin (-1)))).1 =
    (({ f := [1, 2, 3], sVarDens := ⟨[3], [7, 1, 1]⟩, nf := 3 } : SpecObj).call (.getHm0 (-1) (.fin (-1)))).1 :=
  spectrum_getters_current (a := 0) (b := 1) (by simp [Mem.read, size2, arr1, Arr.size]) (by simp [Mem.read, size2, arr1, Arr.size]) shared_spectrum [.poke 1 0 7]
    (op := .getHm0 (-1) (.fin (-1))) trivial rfl rfl

/-- After `get_Tmm10()` and an assignment to the array, `get_Hm0HF()` splits at the old period but integrates the new array. -/
example : let st := SpecRef.run [.call (.getTmm10 (-1) (.fin (-1))), .poke 1 0 7] (⟨0, 1, flatSpec⟩, ⟨[arr1 [1, 2, 3], arr1 [1, 1, 1]]⟩)
    (st.1.call st.2 (.getHm0HF (-1) (.fin 3))).1 = calcHm0 [1, 2, 3] (arr1 [7, 1, 1]) (45 / 100 / (5 / 9)) (.fin 3) :=
  (spectrum_stale_results ⟨0, 1, flatSpec⟩ ⟨[arr1 [1, 2, 3], arr1 [1, 1, 1]]⟩ [.poke 1 0 7] (fun e h => by simp at h; exact ⟨_, _, _, h⟩)).2
    (T := 5 / 9) flat_Tmm10 (by norm_num) (.fin 3)

example : ∃ s m1 o, SpecRef.init (.list [1, 2, 3]) (.list [1, 1, 1]) (⟨[arr1 [1, 2, 3]]⟩ : Mem ℝ) = (.ok s, m1) ∧
    SpecObj.init (.list [1, 2, 3]) (.list [1, 1, 1]) = .ok o ∧ (SpecRef.run [.poke 0 0 7] (s, m1)).1.view (SpecRef.run [.poke 0 0 7] (s, m1)).2 = o := by
  have h : ∃ s m1, SpecRef.init (.list [1, 2, 3]) (.list [1, 1, 1]) (⟨[arr1 [1, 2, 3]]⟩ : Mem ℝ) = (.ok s, m1) := by
    have e : SpecObj.init ((Src.list [1, 2, 3]).value (⟨[arr1 [1, 2, 3]]⟩ : Mem ℝ)) ((Src.list [1, 1, 1]).value (⟨[arr1 [1, 2, 3]]⟩ : Mem ℝ)) = .ok flatSpec := flatSpec_init
    unfold SpecRef.init
    rw [e]
    exact ⟨_, _, rfl⟩
  obtain ⟨s, m1, h⟩ := h
  obtain ⟨o, a, b⟩ := spectrum_from_values (fun a h => by simp at h) (fun a h => by simp at h) (fun a h => by simp [Shares] at h)
    (fun a h => by simp [Shares] at h) h [.poke 0 0 7] (fun a i v h => by simp at h; simp; omega)
  exact ⟨s, m1, o, h, a, b⟩

end Verif
