import Verif.Props.Memory

/-! # C127, C128 for `Series`: which attributes share memory with the caller -/

set_option linter.unusedSectionVars false

namespace Verif

/-- The caller's assignments in a history, applied to the caller's memory. -/
noncomputable def SeriesEvent.caller (evs : List SeriesEvent) (m : Mem ℝ) : Mem ℝ :=
  evs.foldl (fun m e => match e with | .call _ => m | .poke a i v => m.poke a i v) m

/-- The method calls in a history. -/
def SeriesEvent.calls (evs : List SeriesEvent) : List SeriesOp :=
  evs.filterMap fun e => match e with | .call op => some op | .poke _ _ _ => none

/-- The history only assigns to arrays with an address below `n` (the arrays the caller had before the object was made). -/
def SeriesEvent.Below (n : Nat) (evs : List SeriesEvent) : Prop := ∀ a i v, SeriesEvent.poke a i v ∈ evs → a < n

/-- The signal arrays exist. -/
def SeriesRef.Valid (s : SeriesRef ℝ) (m : Mem ℝ) : Prop := s.time < m.cells.length ∧ s.xTime < m.cells.length

theorem bindWaves_facts {K : Type} (s : SeriesRef K) (o : SeriesObj K) (m : Mem K) :
    Extends m (s.bindWaves o m).2 ∧ (s.bindWaves o m).1.time = s.time ∧ (s.bindWaves o m).1.xTime = s.xTime ∧
      (s.bindWaves o m).1.nt = s.nt ∧ (s.bindWaves o m).1.dt = s.dt ∧ (s.bindWaves o m).1.tCross = o.tCross ∧
      (s.bindWaves o m).1.wh.view (s.bindWaves o m).2 = o.wh ∧
      m.cells.length ≤ (s.bindWaves o m).1.wh.hwave ∧ m.cells.length ≤ (s.bindWaves o m).1.wh.twave := by
  refine ⟨(extends_alloc m _).trans (extends_alloc _ _), rfl, rfl, rfl, rfl, rfl, ?_, by simp [SeriesRef.bindWaves, Mem.alloc],
    by simp [SeriesRef.bindWaves, Mem.alloc]⟩
  simp only [SeriesRef.bindWaves, WHRef.view]
  rw [Mem.read_alloc_old _ _ (by rw [Mem.length_alloc]; simp [Mem.alloc]), Mem.read_alloc_new, Mem.read_alloc_new]

/-- One method call: no array of the caller changes, the attributes change as in `SeriesObj.step`, `time` and `xTime` stay
bound to their arrays, and the wave arrays stay or are new. -/
theorem SeriesRef.step_facts (A : Argsort ℝ) (s : SeriesRef ℝ) (m : Mem ℝ) (op : SeriesOp) (hv : s.Valid m) :
    Extends m (s.step A m op).2 ∧ (s.step A m op).1.view (s.step A m op).2 = (s.view m).step A op ∧
      (s.step A m op).1.time = s.time ∧ (s.step A m op).1.xTime = s.xTime ∧
      (∀ n, n ≤ m.cells.length → n ≤ s.wh.hwave → n ≤ s.wh.twave →
        n ≤ (s.step A m op).1.wh.hwave ∧ n ≤ (s.step A m op).1.wh.twave) := by
  have triv : Extends m (s, m).2 ∧ (s, m).1.view (s, m).2 = s.view m ∧ (s, m).1.time = s.time ∧ (s, m).1.xTime = s.xTime ∧
      (∀ n, n ≤ m.cells.length → n ≤ s.wh.hwave → n ≤ s.wh.twave → n ≤ (s, m).1.wh.hwave ∧ n ≤ (s, m).1.wh.twave) :=
    ⟨Extends.refl m, rfl, rfl, rfl, fun _ _ h1 h2 => ⟨h1, h2⟩⟩
  cases op with
  | waves op =>
    obtain ⟨h1, h2, h3⟩ := WHRef.step_facts A op s.wh m
    refine ⟨h1, ?_, rfl, rfl, h3⟩
    simp only [SeriesRef.step, SeriesRef.view, SeriesObj.step]
    rw [h1.2 _ hv.1, h1.2 _ hv.2, h2]
  | determineIndividualWaves ty fc mw =>
    simp only [SeriesRef.step, SeriesObj.step]
    rcases h : (s.view m).individualWaves ty fc mw with e | ⟨w, tc, o⟩
    · exact triv
    · obtain ⟨h1, h2, h3, h4, h5, h6, h7, h8, h9⟩ := bindWaves_facts s o m
      obtain ⟨k, _⟩ := individualWaves_keeps_signal h
      refine ⟨h1, ?_, h2, h3, fun n hn _ _ => ⟨hn.trans h8, hn.trans h9⟩⟩
      have k1 := k.time
      have k2 := k.xTime
      have k3 := k.nt
      have k4 := k.dt
      obtain ⟨t, x, nt, dt, tC, wh⟩ := o
      simp only [SeriesRef.view] at k1 k2 k3 k4 ⊢
      rw [h2, h3, h4, h5, h6, h7, h1.2 _ hv.1, h1.2 _ hv.2, k1, k2, k3, k4]
  | _ => exact triv

/-- **C127 (Series).** Over any history of method calls interleaved with the caller's own assignments, every array the caller
has holds exactly what the caller put there. -/
theorem series_caller_arrays (A : Argsort ℝ) {n : Nat} (evs : List SeriesEvent) (hb : SeriesEvent.Below n evs) (s : SeriesRef ℝ)
    (m : Mem ℝ) (hv : s.Valid m) (hn : n ≤ m.cells.length) {a : Nat} (ha : a < n) :
    (SeriesRef.run A evs (s, m)).2.read a = (SeriesEvent.caller evs m).read a := by
  suffices h : ∀ (s : SeriesRef ℝ) (m m' : Mem ℝ), s.Valid m → n ≤ m.cells.length → n ≤ m'.cells.length →
      (∀ a, a < n → m.read a = m'.read a) →
      ∀ a, a < n → (SeriesRef.run A evs (s, m)).2.read a = (SeriesEvent.caller evs m').read a from
    h s m m hv hn hn (fun _ _ => rfl) a ha
  induction evs with
  | nil => intro s m m' _ _ _ h a ha; exact h a ha
  | cons e evs ih =>
    have hb' : SeriesEvent.Below n evs := fun a i v h => hb a i v (List.mem_cons_of_mem _ h)
    intro s m m' hv h1 h2 h a ha
    cases e with
    | call op =>
      obtain ⟨hs, _, e1, e2, _⟩ := SeriesRef.step_facts A s m op hv
      refine ih hb' _ (s.step A m op).2 m' ?_ (h1.trans hs.1) h2 (fun a ha => ?_) a ha
      · exact ⟨lt_of_eq_of_lt e1 (lt_of_lt_of_le hv.1 hs.1), lt_of_eq_of_lt e2 (lt_of_lt_of_le hv.2 hs.1)⟩
      · rw [hs.2 a (lt_of_lt_of_le ha h1), h a ha]
    | poke b i v =>
      have hbn := hb b i v (by simp)
      refine ih hb' s (m.poke b i v) (m'.poke b i v) ⟨by rw [Mem.length_poke]; exact hv.1, by rw [Mem.length_poke]; exact hv.2⟩
        (by rw [Mem.length_poke]; exact h1) (by rw [Mem.length_poke]; exact h2) ?_ a ha
      exact read_poke_congr h1 h2 h hbn i v

/-- A constructed series holds the converted arguments. -/
theorem init_signal {t x : PyIn ℝ} {o : SeriesObj ℝ} (h : SeriesObj.init t x = .ok o) :
    o.time = (toVector t).1 ∧ o.xTime = (toVector x).1 := by
  unfold SeriesObj.init at h
  dsimp only at h
  split_ifs at h
  rw [bind_ok] at h
  obtain ⟨d, _, h⟩ := h
  split_ifs at h
  rw [bind_ok] at h
  obtain ⟨⟨w, tc, s1⟩, h1, h⟩ := h
  rw [bind_ok] at h
  obtain ⟨wh, _, h⟩ := h
  obtain ⟨_, _, _, _, _, k1, k2, _, _⟩ := small_waves_filtered h1
  have : o = { s1 with wh := wh } := by
    simp only [pure, Except.pure, Except.ok.injEq] at h
    exact h.symm
  rw [this]
  exact ⟨k1, k2⟩

/-- The constructor makes the object of the value model (`SeriesObj.init`), binds `time` and `xTime` to the converted arrays,
the waves to new arrays, and does not change an array of the caller. -/
theorem series_init_facts {t x : Src ℝ} {m m1 : Mem ℝ} (ht : t.Valid m) (hx : x.Valid m) {s : SeriesRef ℝ}
    (hi : SeriesRef.init t x m = (.ok s, m1)) :
    SeriesObj.init (t.value m) (x.value m) = .ok (s.view m1) ∧ Extends m m1 ∧ s.Valid m1 ∧
      s.time = (toVectorRef t m).1 ∧ s.xTime = (toVectorRef x (toVectorRef t m).2).1 ∧
      m.cells.length ≤ s.wh.hwave ∧ m.cells.length ≤ s.wh.twave := by
  obtain ⟨e0, e1, e2, l1, l2⟩ := two_conversions ht hx
  unfold SeriesRef.init at hi
  dsimp only at hi
  cases ho : SeriesObj.init (t.value m) (x.value m) with
  | error e => rw [ho] at hi; cases hi
  | ok o =>
    rw [ho] at hi
    obtain ⟨s1, s2⟩ := init_signal ho
    have hb := bindWaves_facts (K := ℝ) ⟨(toVectorRef t m).1, (toVectorRef x (toVectorRef t m).2).1, o.nt, o.dt, [], ⟨0, 0, 0⟩⟩ o
      (toVectorRef x (toVectorRef t m).2).2
    have hi' : SeriesRef.bindWaves (K := ℝ) ⟨(toVectorRef t m).1, (toVectorRef x (toVectorRef t m).2).1, o.nt, o.dt, [], ⟨0, 0, 0⟩⟩ o
      (toVectorRef x (toVectorRef t m).2).2 = (s, m1) := by
      simp only [Prod.mk.injEq, Except.ok.injEq] at hi
      exact Prod.ext hi.1 hi.2
    rw [hi'] at hb
    obtain ⟨h1, h2, h3, h4, h5, h6, h7, h8, h9⟩ := hb
    dsimp only at h1 h2 h3 h4 h5 h6 h7 h8 h9
    refine ⟨?_, e0.trans h1, ⟨?_, ?_⟩, h2, h3, e0.1.trans h8, e0.1.trans h9⟩
    · obtain ⟨t', x', nt, dt, tC, wh⟩ := o
      dsimp only at s1 s2 h4 h5 h6 h7
      simp only [SeriesRef.view, h2, h3, h4, h5, h6, h7]
      rw [h1.2 _ l1, h1.2 _ l2, e1, e2, s1, s2]
    · rw [h2]; exact lt_of_lt_of_le l1 h1.1
    · rw [h3]; exact lt_of_lt_of_le l2 h1.1

/-- **C128 (Series built from values).** A `Series` built from lists, numbers or column arrays is, under any history of method
calls and assignments by the caller to its own arrays, the series built from the original values, after the method calls. -/
theorem series_from_values (A : Argsort ℝ) {t x : Src ℝ} {m m1 : Mem ℝ} (ht : t.Valid m) (hx : x.Valid m)
    (nt : ∀ a, ¬ Shares t m a) (nx : ∀ a, ¬ Shares x m a) {s : SeriesRef ℝ} (hi : SeriesRef.init t x m = (.ok s, m1))
    (evs : List SeriesEvent) (hb : SeriesEvent.Below m.cells.length evs) :
    ∃ o, SeriesObj.init (t.value m) (x.value m) = .ok o ∧
      (SeriesRef.run A evs (s, m1)).1.view (SeriesRef.run A evs (s, m1)).2 = o.run A (SeriesEvent.calls evs) := by
  obtain ⟨h0, h1, hv, h2, h3, h4, h5⟩ := series_init_facts ht hx hi
  refine ⟨_, h0, ?_⟩
  have n1 := toVectorRef_new nt
  have x1 := toVectorRef_extends t m
  have n2 := toVectorRef_new (m := (toVectorRef t m).2) (x := x) (fun a ha => nx a ((shares_extends hx x1 a).1 ha))
  suffices h : ∀ (s : SeriesRef ℝ) (m' : Mem ℝ), s.Valid m' → m.cells.length ≤ m'.cells.length → m.cells.length ≤ s.time →
      m.cells.length ≤ s.xTime → m.cells.length ≤ s.wh.hwave → m.cells.length ≤ s.wh.twave →
      (SeriesRef.run A evs (s, m')).1.view (SeriesRef.run A evs (s, m')).2 = (s.view m').run A (SeriesEvent.calls evs) from
    h s m1 hv h1.1 (by rw [h2]; exact n1.1) (by rw [h3]; exact x1.1.trans n2.1) h4 h5
  clear h0 h1 hv h2 h3 h4 h5 hi
  induction evs with
  | nil => intro s m' _ _ _ _ _ _; rfl
  | cons e evs ih =>
    have hb' : SeriesEvent.Below m.cells.length evs := fun a i v h => hb a i v (List.mem_cons_of_mem _ h)
    intro s m' hv hl a1 a2 a3 a4
    cases e with
    | call op =>
      obtain ⟨hs, hvw, e1, e2, e3⟩ := SeriesRef.step_facts A s m' op hv
      obtain ⟨b3, b4⟩ := e3 _ hl a3 a4
      have := ih hb' (s.step A m' op).1 (s.step A m' op).2
        ⟨lt_of_eq_of_lt e1 (lt_of_lt_of_le hv.1 hs.1), lt_of_eq_of_lt e2 (lt_of_lt_of_le hv.2 hs.1)⟩
        (hl.trans hs.1) (by rw [e1]; exact a1) (by rw [e2]; exact a2) b3 b4
      rw [hvw] at this
      exact this
    | poke b i v =>
      have hbn := hb b i v (by simp)
      have := ih hb' s (m'.poke b i v) ⟨by rw [Mem.length_poke]; exact hv.1, by rw [Mem.length_poke]; exact hv.2⟩
        (by rw [Mem.length_poke]; exact hl) a1 a2 a3 a4
      have e : s.view (m'.poke b i v) = s.view m' := by
        unfold SeriesRef.view WHRef.view
        rw [Mem.read_poke_ne _ _ _ (by omega), Mem.read_poke_ne _ _ _ (by omega), Mem.read_poke_ne _ _ _ (by omega),
          Mem.read_poke_ne _ _ _ (by omega)]
      rw [e] at this
      exact this

/-- No call of the history analyses the signal again. -/
def SeriesEvent.NoAnalysis (evs : List SeriesEvent) : Prop :=
  ∀ op, SeriesEvent.call op ∈ evs → ∀ ty fc mw, op ≠ .determineIndividualWaves ty fc mw

/-- The calls of a history to the methods inherited from `WaveHeights`. -/
def SeriesEvent.waveCalls (evs : List SeriesEvent) : List (WHOp ℝ) :=
  evs.filterMap fun e => match e with | .call (.waves op) => some op | _ => none

/-- **C128 (Series built on arrays).** A `Series` built on one-dimensional arrays of the caller always has the *current* contents
of these arrays as its `time` and `xTime`, after any history; but its `nt`, its `dt`, and - until `_determine_individual_waves` is
called again - its crossings and waves remain those of the contents at construction. -/
theorem series_from_arrays (A : Argsort ℝ) {a b : Nat} {m m1 : Mem ℝ} (ha : a < m.cells.length) (hb : b < m.cells.length)
    (sa : (size2 (m.read a)).2 ≠ 1) (sb : (size2 (m.read b)).2 ≠ 1) {s : SeriesRef ℝ}
    (hi : SeriesRef.init (.ref a) (.ref b) m = (.ok s, m1)) (evs : List SeriesEvent) (hbel : SeriesEvent.Below m.cells.length evs) :
    ∃ o, SeriesObj.init (.nd (m.read a)) (.nd (m.read b)) = .ok o ∧
      ((SeriesRef.run A evs (s, m1)).1.view (SeriesRef.run A evs (s, m1)).2).time = (SeriesEvent.caller evs m).read a ∧
      ((SeriesRef.run A evs (s, m1)).1.view (SeriesRef.run A evs (s, m1)).2).xTime = (SeriesEvent.caller evs m).read b ∧
      ((SeriesRef.run A evs (s, m1)).1.view (SeriesRef.run A evs (s, m1)).2).nt = o.nt ∧
      ((SeriesRef.run A evs (s, m1)).1.view (SeriesRef.run A evs (s, m1)).2).dt = o.dt ∧
      (SeriesEvent.NoAnalysis evs →
        ((SeriesRef.run A evs (s, m1)).1.view (SeriesRef.run A evs (s, m1)).2).tCross = o.tCross ∧
        ((SeriesRef.run A evs (s, m1)).1.view (SeriesRef.run A evs (s, m1)).2).wh = o.wh.run A (SeriesEvent.waveCalls evs)) := by
  have va : (Src.ref a : Src ℝ).Valid m := fun c hc => by cases hc; exact ha
  have vb : (Src.ref b : Src ℝ).Valid m := fun c hc => by cases hc; exact hb
  obtain ⟨h0, h1, hv, h2, h3, h4, h5⟩ := series_init_facts va vb hi
  rw [toVectorRef_shared (x := .ref a) (a := a) ⟨rfl, sa⟩] at h2 h3
  dsimp only at h2 h3
  rw [toVectorRef_shared (x := .ref b) (a := b) ⟨rfl, sb⟩] at h3
  dsimp only at h3
  refine ⟨_, h0, ?_⟩
  -- the addresses and the numbers never change
  have fixed : ∀ (evs : List SeriesEvent) (s : SeriesRef ℝ) (m : Mem ℝ), s.Valid m →
      (SeriesRef.run A evs (s, m)).1.time = s.time ∧ (SeriesRef.run A evs (s, m)).1.xTime = s.xTime ∧
      (SeriesRef.run A evs (s, m)).1.nt = s.nt ∧ (SeriesRef.run A evs (s, m)).1.dt = s.dt := by
    intro evs
    induction evs with
    | nil => intro s m _; exact ⟨rfl, rfl, rfl, rfl⟩
    | cons e evs ih =>
      intro s m hv
      cases e with
      | poke c i v =>
        exact ih s (m.poke c i v) ⟨by rw [Mem.length_poke]; exact hv.1, by rw [Mem.length_poke]; exact hv.2⟩
      | call op =>
        obtain ⟨hs, hvw, e1, e2, _⟩ := SeriesRef.step_facts A s m op hv
        obtain ⟨i1, i2, i3, i4⟩ := ih (s.step A m op).1 (s.step A m op).2
          ⟨lt_of_eq_of_lt e1 (lt_of_lt_of_le hv.1 hs.1), lt_of_eq_of_lt e2 (lt_of_lt_of_le hv.2 hs.1)⟩
        have k := step_sameSignal A (s.view m) op
        rw [← hvw] at k
        exact ⟨i1.trans e1, i2.trans e2, i3.trans k.nt, i4.trans k.dt⟩
  obtain ⟨f1, f2, f3, f4⟩ := fixed evs s m1 hv
  have hm : m1.cells.length ≥ m.cells.length := h1.1
  have hcall : ∀ c, c < m.cells.length → (SeriesRef.run A evs (s, m1)).2.read c = (SeriesEvent.caller evs m).read c := by
    intro c hc
    rw [series_caller_arrays A evs hbel s m1 hv h1.1 hc]
    clear fixed f1 f2 f3 f4 hi hv h0 h2 h3 h4 h5
    suffices h : ∀ (m m' : Mem ℝ) (n : Nat), SeriesEvent.Below n evs → n ≤ m.cells.length → n ≤ m'.cells.length →
        (∀ a, a < n → m'.read a = m.read a) → ∀ c, c < n → (SeriesEvent.caller evs m').read c = (SeriesEvent.caller evs m).read c from
      h m m1 _ hbel le_rfl h1.1 h1.2 c hc
    clear hbel hc
    intro m m' n
    induction evs generalizing m m' with
    | nil => intro _ _ _ h; exact h
    | cons e evs ih =>
      intro hb' k1 k2 h
      have hb'' : SeriesEvent.Below n evs := fun a i v h => hb' a i v (List.mem_cons_of_mem _ h)
      cases e with
      | call op => exact ih m m' hb'' k1 k2 h
      | poke c i v =>
        have hcn := hb' c i v (by simp)
        exact ih (m.poke c i v) (m'.poke c i v) hb'' (by rw [Mem.length_poke]; exact k1) (by rw [Mem.length_poke]; exact k2)
          (read_poke_congr k2 k1 h hcn i v)
  refine ⟨?_, ?_, f3, f4, fun hna => ?_⟩
  · show (SeriesRef.run A evs (s, m1)).2.read (SeriesRef.run A evs (s, m1)).1.time = _
    rw [f1, h2, hcall a ha]
  · show (SeriesRef.run A evs (s, m1)).2.read (SeriesRef.run A evs (s, m1)).1.xTime = _
    rw [f2, h3, hcall b hb]
  · clear fixed f1 f2 f3 f4 hcall h0 h2 h3 hi h1 hb ha sa sb va vb
    suffices h : ∀ (s : SeriesRef ℝ) (m1 : Mem ℝ), s.Valid m1 → m.cells.length ≤ m1.cells.length →
        m.cells.length ≤ s.wh.hwave → m.cells.length ≤ s.wh.twave →
        (SeriesRef.run A evs (s, m1)).1.tCross = s.tCross ∧
        (SeriesRef.run A evs (s, m1)).1.wh.view (SeriesRef.run A evs (s, m1)).2 =
          (s.wh.view m1).run A (SeriesEvent.waveCalls evs) from h s m1 hv hm h4 h5
    clear hv hm h4 h5
    induction evs with
    | nil => intro s m1 _ _ _ _; exact ⟨rfl, rfl⟩
    | cons e evs ih =>
      have hb' : SeriesEvent.Below m.cells.length evs := fun a i v h => hbel a i v (List.mem_cons_of_mem _ h)
      have hn' : SeriesEvent.NoAnalysis evs := fun op h => hna op (List.mem_cons_of_mem _ h)
      intro s m1 hv hl a3 a4
      cases e with
      | poke c i v =>
        have hcn := hbel c i v (by simp)
        have := ih hb' hn' s (m1.poke c i v) ⟨by rw [Mem.length_poke]; exact hv.1, by rw [Mem.length_poke]; exact hv.2⟩
          (by rw [Mem.length_poke]; exact hl) a3 a4
        have e : s.wh.view (m1.poke c i v) = s.wh.view m1 := by
          unfold WHRef.view
          rw [Mem.read_poke_ne _ _ _ (by omega), Mem.read_poke_ne _ _ _ (by omega)]
        rw [e] at this
        exact this
      | call op =>
        obtain ⟨hs, hvw, e1, e2, e3⟩ := SeriesRef.step_facts A s m1 op hv
        obtain ⟨b3, b4⟩ := e3 _ hl a3 a4
        have hi := ih hb' hn' (s.step A m1 op).1 (s.step A m1 op).2
          ⟨lt_of_eq_of_lt e1 (lt_of_lt_of_le hv.1 hs.1), lt_of_eq_of_lt e2 (lt_of_lt_of_le hv.2 hs.1)⟩
          (hl.trans hs.1) b3 b4
        have hop := hna op (by simp)
        have hw := congrArg SeriesObj.wh hvw
        have ht := congrArg SeriesObj.tCross hvw
        have hw' : (s.step A m1 op).1.wh.view (s.step A m1 op).2 = ((s.view m1).step A op).wh := hw
        have ht' : (s.step A m1 op).1.tCross = ((s.view m1).step A op).tCross := ht
        rw [hw', ht'] at hi
        cases op with
        | waves w => exact hi
        | determineIndividualWaves ty fc mw => exact absurd rfl (hop ty fc mw)
        | _ => exact hi

/-- Concrete cases exist: every record on a uniform axis, in arrays of the caller, gives such a series. -/
example {t x : List ℝ} {dt : ℝ} (h2 : 2 ≤ t.length) (hl : t.length = x.length) (hu : UniformAxis t dt) :
    ∃ s m1, SeriesRef.init (.ref 0) (.ref 1) (⟨[arr1 t, arr1 x]⟩ : Mem ℝ) = (.ok s, m1) ∧
      (size2 ((⟨[arr1 t, arr1 x]⟩ : Mem ℝ).read 0)).2 ≠ 1 ∧ (size2 ((⟨[arr1 t, arr1 x]⟩ : Mem ℝ).read 1)).2 ≠ 1 := by
  obtain ⟨o, _, _, _, ho, _⟩ := series_never_fails (isVec_vec t) (isVec_vec x) h2 hl hu
  have hs : ∀ l : List ℝ, (size2 (arr1 l)).2 ≠ 1 := by
    intro l
    unfold size2 arr1
    split_ifs <;> simp
  have e : SeriesObj.init ((Src.ref 0).value (⟨[arr1 t, arr1 x]⟩ : Mem ℝ)) ((Src.ref 1).value (⟨[arr1 t, arr1 x]⟩ : Mem ℝ)) = .ok o := ho
  have h : ∃ s m1, SeriesRef.init (.ref 0) (.ref 1) (⟨[arr1 t, arr1 x]⟩ : Mem ℝ) = (.ok s, m1) := by
    unfold SeriesRef.init
    rw [e]
    exact ⟨_, _, rfl⟩
  obtain ⟨s, m1, h⟩ := h
  exact ⟨s, m1, h, hs t, hs x⟩

/-! ## Concrete cases: the hypotheses of the theorems above are met -/

theorem shared_series : ∃ s m1, SeriesRef.init (.ref 0) (.ref 1) (⟨[arr1 [0, 1, 2], arr1 [1, -1, 1]]⟩ : Mem ℝ) = (.ok s, m1) ∧
      (size2 ((⟨[arr1 [0, 1, 2], arr1 [1, -1, 1]]⟩ : Mem ℝ).read 0)).2 ≠ 1 ∧ (size2 ((⟨[arr1 [0, 1, 2], arr1 [1, -1, 1]]⟩ : Mem ℝ).read 1)).2 ≠ 1 := by
  have hu : UniformAxis ([0, 1, 2] : List ℝ) 1 := ⟨by norm_num, fun i hi => by
    obtain rfl | rfl : i = 0 ∨ i = 1 := by simp only [List.length_cons, List.length_nil] at hi; omega
    all_goals norm_num⟩
  obtain ⟨o, _, _, _, ho, _⟩ := series_never_fails (isVec_vec ([0, 1, 2] : List ℝ)) (isVec_vec ([1, -1, 1] : List ℝ)) (by simp) rfl hu
  have e : SeriesObj.init ((Src.ref 0).value (⟨[arr1 [0, 1, 2], arr1 [1, -1, 1]]⟩ : Mem ℝ)) ((Src.ref 1).value (⟨[arr1 [0, 1, 2], arr1 [1, -1, 1]]⟩ : Mem ℝ)) = .ok o := ho
  have h : ∃ s m1, SeriesRef.init (.ref 0) (.ref 1) (⟨[arr1 [0, 1, 2], arr1 [1, -1, 1]]⟩ : Mem ℝ) = (.ok s, m1) := by
    unfold SeriesRef.init
    rw [e]
    exact ⟨_, _, rfl⟩
  obtain ⟨s, m1, h⟩ := h
  have hs : ∀ l : List ℝ, (size2 (arr1 l)).2 ≠ 1 := by
    intro l
    unfold size2 arr1
    split_ifs <;> simp
  exact ⟨s, m1, h, hs _, hs _⟩

example (A : Argsort ℝ) : ∃ s m1, SeriesRef.init (.ref 0) (.ref 1) (⟨[arr1 [0, 1, 2], arr1 [1, -1, 1]]⟩ : Mem ℝ) = (.ok s, m1) ∧
    (SeriesRef.run A [.poke 1 0 7, .call (.waves .sort)] (s, m1)).2.read 1 = (m1.poke 1 0 7).read 1 := by
  obtain ⟨s, m1, h, -⟩ := shared_series
  obtain ⟨-, ⟨he, -⟩, hv, -⟩ := series_init_facts (t := .ref 0) (x := .ref 1) (fun a h => by simp at h; subst h; simp) (fun a h => by simp at h; subst h; simp) h
  exact ⟨s, m1, h, series_caller_arrays A (n := 2) [.poke 1 0 7, .call (.waves .sort)] (fun a i v h => by simp at h; omega) s m1 hv he (a := 1) (by norm_num)⟩

example (A : Argsort ℝ) : ∃ s m1 o, SeriesRef.init (.ref 0) (.ref 1) (⟨[arr1 [0, 1, 2], arr1 [1, -1, 1]]⟩ : Mem ℝ) = (.ok s, m1) ∧
    SeriesObj.init (vec [0, 1, 2]) (vec ([1, -1, 1] : List ℝ)) = .ok o ∧
    ((SeriesRef.run A [.poke 1 0 7] (s, m1)).1.view (SeriesRef.run A [.poke 1 0 7] (s, m1)).2).xTime = arr1 [7, -1, 1] ∧
    ((SeriesRef.run A [.poke 1 0 7] (s, m1)).1.view (SeriesRef.run A [.poke 1 0 7] (s, m1)).2).wh = o.wh := by
  obtain ⟨s, m1, h, h1, h2⟩ := shared_series
  obtain ⟨o, a, -, c, -, -, d⟩ := series_from_arrays A (a := 0) (b := 1) (by simp) (by simp) h1 h2 h [.poke 1 0 7] (fun a i v h => by simp at h; simp; omega)
  exact ⟨s, m1, o, h, a, c, (d (fun op h => by simp at h)).2⟩

example (A : Argsort ℝ) : ∃ s m1 o, SeriesRef.init (.list [0, 1, 2]) (.list [1, -1, 1]) (⟨[arr1 [0, 1, 2]]⟩ : Mem ℝ) = (.ok s, m1) ∧
    SeriesObj.init (.list [0, 1, 2]) (.list ([1, -1, 1] : List ℝ)) = .ok o ∧
    (SeriesRef.run A [.poke 0 0 7] (s, m1)).1.view (SeriesRef.run A [.poke 0 0 7] (s, m1)).2 = o := by
  have hu : UniformAxis ([0, 1, 2] : List ℝ) 1 := ⟨by norm_num, fun i hi => by
    obtain rfl | rfl : i = 0 ∨ i = 1 := by simp only [List.length_cons, List.length_nil] at hi; omega
    all_goals norm_num⟩
  have iv : ∀ l : List ℝ, (PyIn.list l).IsVec l := fun l => .list l
  obtain ⟨o, _, _, _, ho, _⟩ := series_never_fails (iv [0, 1, 2]) (iv [1, -1, 1]) (by simp) rfl hu
  have h : ∃ s m1, SeriesRef.init (.list [0, 1, 2]) (.list [1, -1, 1]) (⟨[arr1 [0, 1, 2]]⟩ : Mem ℝ) = (.ok s, m1) := by
    have e : SeriesObj.init ((Src.list [0, 1, 2]).value (⟨[arr1 [0, 1, 2]]⟩ : Mem ℝ)) ((Src.list [1, -1, 1]).value (⟨[arr1 [0, 1, 2]]⟩ : Mem ℝ)) = .ok o := ho
    unfold SeriesRef.init
    rw [e]
    exact ⟨_, _, rfl⟩
  obtain ⟨s, m1, h⟩ := h
  obtain ⟨o', a, b⟩ := series_from_values A (fun a h => by simp at h) (fun a h => by simp at h) (fun a h => by simp [Shares] at h)
    (fun a h => by simp [Shares] at h) h [.poke 0 0 7] (fun a i v h => by simp at h; simp; omega)
  exact ⟨s, m1, o', h, a, b⟩

end Verif
