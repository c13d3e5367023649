import Verif.Model.Memory
import Verif.Props.SeriesHist
import Mathlib.Data.List.GetD

/-! # C127, C128: shared memory

C127: no method ever writes to an array of the caller.  C128: which objects see the caller's later assignments. -/

set_option linter.unusedSectionVars false

namespace Verif

/-! ## Memory -/

section
variable {K : Type}

theorem Mem.length_alloc (m : Mem K) (x : Arr K) : (m.alloc x).2.cells.length = m.cells.length + 1 := by simp [Mem.alloc]

theorem Mem.length_poke (m : Mem K) (a i : Nat) (v : K) : (m.poke a i v).cells.length = m.cells.length := by simp [Mem.poke]

theorem Mem.read_alloc_old (m : Mem K) (x : Arr K) {a : Nat} (h : a < m.cells.length) : (m.alloc x).2.read a = m.read a := by
  simp only [Mem.read, Mem.alloc]
  rw [List.getD_eq_getElem _ _ (by simp; omega), List.getElem_append_left h, List.getD_eq_getElem _ _ h]

theorem Mem.read_alloc_new (m : Mem K) (x : Arr K) : (m.alloc x).2.read (m.alloc x).1 = x := by
  simp only [Mem.read, Mem.alloc]
  rw [List.getD_eq_getElem _ _ (by simp), List.getElem_append_right (by simp)]
  simp

theorem Mem.read_poke_ne (m : Mem K) {a b : Nat} (i : Nat) (v : K) (h : a ≠ b) : (m.poke a i v).read b = m.read b := by
  simp only [Mem.read, Mem.poke, List.getD_eq_getElem?_getD]
  rw [List.getElem?_set_ne h]

theorem Mem.read_poke_self (m : Mem K) {a : Nat} (i : Nat) (v : K) (h : a < m.cells.length) :
    (m.poke a i v).read a = { m.read a with data := (m.read a).data.set i v } := by
  simp only [Mem.read, Mem.poke, List.getD_eq_getElem?_getD]
  rw [List.getElem?_set_self h]
  rfl

/-- `m'` has all the arrays of `m`, unchanged. -/
def Extends (m m' : Mem K) : Prop :=
  m.cells.length ≤ m'.cells.length ∧ ∀ a, a < m.cells.length → m'.read a = m.read a

theorem Extends.refl (m : Mem K) : Extends m m := ⟨le_rfl, fun _ _ => rfl⟩

theorem Extends.trans {m m' m'' : Mem K} (h : Extends m m') (h' : Extends m' m'') : Extends m m'' :=
  ⟨h.1.trans h'.1, fun a ha => (h'.2 a (lt_of_lt_of_le ha h.1)).trans (h.2 a ha)⟩

theorem extends_alloc (m : Mem K) (x : Arr K) : Extends m (m.alloc x).2 :=
  ⟨by rw [Mem.length_alloc]; omega, fun _ ha => m.read_alloc_old x ha⟩

theorem toVectorRef_extends (x : Src K) (m : Mem K) : Extends m (toVectorRef x m).2 := by
  have h1 : Extends m (toArrRef x m).2 := by
    cases x with
    | num v => exact extends_alloc _ _
    | list xs => exact extends_alloc _ _
    | ref a => exact Extends.refl m
  unfold toVectorRef
  generalize toArrRef x m = r at h1
  obtain ⟨a, m1⟩ := r
  dsimp only
  split_ifs
  · exact h1.trans (extends_alloc _ _)
  · exact h1

/-- The array returned by the conversion has the value of `convert_to_vector`. -/
theorem toVectorRef_read (x : Src K) (m : Mem K) :
    (toVectorRef x m).2.read (toVectorRef x m).1 = (toVector (x.value m)).1 := by
  have h1 : (toArrRef x m).2.read (toArrRef x m).1 = toArr (x.value m) := by
    cases x with
    | num v => exact Mem.read_alloc_new _ _
    | list xs => exact Mem.read_alloc_new _ _
    | ref a => rfl
  unfold toVectorRef toVector
  generalize toArrRef x m = r at h1
  obtain ⟨a, m1⟩ := r
  dsimp only at h1 ⊢
  rw [h1]
  split_ifs
  · exact Mem.read_alloc_new _ _
  · exact h1

/-- The caller's own array is used if and only if the argument is an ndarray that is not a column; otherwise a new array is made. -/
def Shares (x : Src K) (m : Mem K) (a : Nat) : Prop := x = .ref a ∧ (size2 (m.read a)).2 ≠ 1

theorem toVectorRef_shared {x : Src K} {m : Mem K} {a : Nat} (h : Shares x m a) : toVectorRef x m = (a, m) := by
  obtain ⟨rfl, h⟩ := h
  unfold toVectorRef toArrRef
  dsimp only
  rw [if_neg h]

theorem toVectorRef_new {x : Src K} {m : Mem K} (h : ∀ a, ¬ Shares x m a) :
    m.cells.length ≤ (toVectorRef x m).1 ∧ (toVectorRef x m).1 < (toVectorRef x m).2.cells.length := by
  unfold toVectorRef
  cases x with
  | num v =>
    unfold toArrRef
    dsimp only [Mem.alloc]
    split_ifs <;> simp
  | list xs =>
    unfold toArrRef
    dsimp only [Mem.alloc]
    split_ifs <;> simp
  | ref a =>
    have : (size2 (m.read a)).2 = 1 := by
      by_contra hc
      exact h a ⟨rfl, hc⟩
    unfold toArrRef
    dsimp only
    rw [if_pos this]
    simp [Mem.alloc]

end

/-! ## WaveHeights -/

section
variable {K : Type} [Field K] [LinearOrder K]

theorem WHRef.sort_facts (A : Argsort K) (s : WHRef) (m : Mem K) :
    Extends m (s.sort A m).2.2 ∧
    (s.sort A m).2.1.view (s.sort A m).2.2 = ((s.view m).sort A).2 ∧ (s.sort A m).1 = ((s.view m).sort A).1 ∧
    ((s.sort A m).1 = .ok () → m.cells.length ≤ (s.sort A m).2.1.hwave ∧ m.cells.length ≤ (s.sort A m).2.1.twave ∧
      (s.sort A m).2.1.hwave < (s.sort A m).2.2.cells.length ∧ (s.sort A m).2.1.twave < (s.sort A m).2.2.cells.length) ∧
    ((s.sort A m).1 ≠ .ok () → (s.sort A m).2 = (s, m)) := by
  unfold WHRef.sort WH.sort
  have e : sortWaveParams A (.nd (s.view m).hwave) (.nd (s.view m).twave) =
      sortWaveParams A (.nd (m.read s.hwave)) (.nd (m.read s.twave)) := rfl
  rw [e]
  cases sortWaveParams A (.nd (m.read s.hwave)) (.nd (m.read s.twave)) with
  | error e => exact ⟨Extends.refl m, rfl, rfl, by simp, by simp⟩
  | ok r =>
    obtain ⟨h, t⟩ := r
    refine ⟨(extends_alloc m _).trans (extends_alloc _ _), ?_, rfl, fun _ => ?_, by simp⟩
    · simp only [WHRef.view]
      rw [Mem.read_alloc_old _ _ (by rw [Mem.length_alloc]; simp [Mem.alloc]), Mem.read_alloc_new, Mem.read_alloc_new]
    · refine ⟨by simp [Mem.alloc], by simp [Mem.alloc], by simp [Mem.alloc], by simp [Mem.alloc]⟩

variable [FloorRing K]

theorem WHRef.getHs_facts (A : Argsort K) (s : WHRef) (m : Mem K) :
    (s.getHs A m).2 = (s.sort A m).2 ∧ (s.getHs A m).1 = ((s.view m).getHs A).1 ∧
      (s.getHs A m).2.1.view (s.getHs A m).2.2 = ((s.view m).getHs A).2 := by
  obtain ⟨_, hv, hr, _, _⟩ := WHRef.sort_facts A s m
  unfold WHRef.getHs WH.getHs WH.highestWaves
  generalize s.sort A m = r at hv hr
  generalize (s.view m).sort A = q at hv hr
  obtain ⟨r1, s1, m1⟩ := r
  obtain ⟨q1, o⟩ := q
  dsimp only at hv hr
  subst hr hv
  cases r1 with
  | error e => exact ⟨rfl, rfl, rfl⟩
  | ok u => exact ⟨rfl, rfl, rfl⟩

/-- One method call: the caller's arrays stay as they are, the attributes change as in `WH.step`, and each attribute stays
bound to its array or is bound to a new one. -/
theorem WHRef.step_facts (A : Argsort K) (op : WHOp K) (s : WHRef) (m : Mem K) :
    Extends m (s.step A op m).2 ∧ (s.step A op m).1.view (s.step A op m).2 = (s.view m).step A op ∧
      (∀ n, n ≤ m.cells.length → n ≤ s.hwave → n ≤ s.twave → n ≤ (s.step A op m).1.hwave ∧ n ≤ (s.step A op m).1.twave) := by
  have key : ∀ (s : WHRef) (m : Mem K), ∀ n, n ≤ m.cells.length → n ≤ s.hwave → n ≤ s.twave →
      n ≤ (s.sort A m).2.1.hwave ∧ n ≤ (s.sort A m).2.1.twave := by
    intro s m n hn h1 h2
    obtain ⟨_, _, _, h3, h4⟩ := WHRef.sort_facts A s m
    by_cases h : (s.sort A m).1 = .ok ()
    · exact ⟨hn.trans (h3 h).1, hn.trans (h3 h).2.1⟩
    · rw [h4 h]; exact ⟨h1, h2⟩
  have hs := WHRef.sort_facts A s m
  have hg := WHRef.getHs_facts A s m
  have hsort : Extends m (s.sort A m).2.2 ∧ (s.sort A m).2.1.view (s.sort A m).2.2 = ((s.view m).sort A).2 ∧
      (∀ n, n ≤ m.cells.length → n ≤ s.hwave → n ≤ s.twave → n ≤ (s.sort A m).2.1.hwave ∧ n ≤ (s.sort A m).2.1.twave) :=
    ⟨hs.1, hs.2.1, key s m⟩
  have pure_exc : ∀ p, ((s.view m).getExceedance A p).2 = ((s.view m).sort A).2 := by
    intro p
    unfold WH.getExceedance
    generalize (s.view m).sort A = q
    obtain ⟨q1, o⟩ := q
    cases q1 <;> rfl
  have pure_high : ∀ p, ((s.view m).highestWaves A p).2 = ((s.view m).sort A).2 := by
    intro p
    unfold WH.highestWaves
    generalize (s.view m).sort A = q
    obtain ⟨q1, o⟩ := q
    cases q1 <;> rfl
  cases op with
  | sort => exact hsort
  | getHrms => exact ⟨Extends.refl m, rfl, fun _ _ h1 h2 => ⟨h1, h2⟩⟩
  | getHmax => exact ⟨Extends.refl m, rfl, fun _ _ h1 h2 => ⟨h1, h2⟩⟩
  | plotHist => exact ⟨Extends.refl m, rfl, fun _ _ h1 h2 => ⟨h1, h2⟩⟩
  | getHs => exact ⟨hsort.1, hsort.2.1.trans (pure_high _).symm, hsort.2.2⟩
  | getH2pRayleigh => exact ⟨hsort.1, hsort.2.1.trans (pure_high _).symm, hsort.2.2⟩
  | getExceedance p => exact ⟨hsort.1, hsort.2.1.trans (pure_exc p).symm, hsort.2.2⟩
  | highestWaves p => exact ⟨hsort.1, hsort.2.1.trans (pure_high p).symm, hsort.2.2⟩
  | plotExceedance => exact hsort
  | plotExceedanceRayleigh normalize =>
    -- the state before the second `get_Hs`
    have body : ∀ (s1 : WHRef) (m1 : Mem K),
        Extends m1 (match s1.getHs A m1 with | (.error _, s2, m2) => (s2, m2) | (.ok _, s2, m2) => (s2.sort A m2).2).2 ∧
        (match s1.getHs A m1 with | (.error _, s2, m2) => (s2, m2) | (.ok _, s2, m2) => (s2.sort A m2).2).1.view
          (match s1.getHs A m1 with | (.error _, s2, m2) => (s2, m2) | (.ok _, s2, m2) => (s2.sort A m2).2).2 =
          (match (s1.view m1).getHs A with | (.error _, o) => o | (.ok _, o) => (o.sort A).2) ∧
        (∀ n, n ≤ m1.cells.length → n ≤ s1.hwave → n ≤ s1.twave →
          n ≤ (match s1.getHs A m1 with | (.error _, s2, m2) => (s2, m2) | (.ok _, s2, m2) => (s2.sort A m2).2).1.hwave ∧
          n ≤ (match s1.getHs A m1 with | (.error _, s2, m2) => (s2, m2) | (.ok _, s2, m2) => (s2.sort A m2).2).1.twave) := by
      intro s1 m1
      obtain ⟨e1, e2, e3⟩ := WHRef.getHs_facts A s1 m1
      have hs1 := WHRef.sort_facts A s1 m1
      have hk := key s1 m1
      rw [← e1] at hs1 hk
      generalize s1.getHs A m1 = r at e1 e2 e3 hs1 hk
      generalize (s1.view m1).getHs A = q at e2 e3
      obtain ⟨r1, s2, m2⟩ := r
      obtain ⟨q1, o⟩ := q
      dsimp only at e1 e2 e3 hs1 hk
      subst e2 e3
      cases r1 with
      | error e => exact ⟨hs1.1, rfl, hk⟩
      | ok u =>
        have hs2 := WHRef.sort_facts A s2 m2
        refine ⟨hs1.1.trans hs2.1, hs2.2.1, fun n hn h1 h2 => ?_⟩
        obtain ⟨h3, h4⟩ := hk n hn h1 h2
        exact key s2 m2 n (hn.trans hs1.1.1) h3 h4
    cases normalize with
    | false => exact body s m
    | true =>
      obtain ⟨e1, e2, e3⟩ := hg
      have hk := key s m
      have hx := hs.1
      rw [← e1] at hk hx
      simp only [WHRef.step, WH.step, if_true]
      generalize s.getHs A m = r at e1 e2 e3 hk hx
      generalize (s.view m).getHs A = q at e2 e3
      obtain ⟨r1, s1, m1⟩ := r
      obtain ⟨q1, o⟩ := q
      dsimp only at e1 e2 e3 hk hx
      subst e2 e3
      cases r1 with
      | error e => exact ⟨hx, rfl, hk⟩
      | ok u =>
        obtain ⟨b1, b2, b3⟩ := body s1 m1
        refine ⟨hx.trans b1, b2, fun n hn h1 h2 => ?_⟩
        obtain ⟨h3, h4⟩ := hk n hn h1 h2
        exact b3 n (hn.trans hx.1) h3 h4

/-- The caller's assignments in a history, applied to the caller's memory. -/
def WHEvent.caller (evs : List (WHEvent K)) (m : Mem K) : Mem K :=
  evs.foldl (fun m e => match e with | .call _ => m | .poke a i v => m.poke a i v) m

/-- The method calls in a history. -/
def WHEvent.calls (evs : List (WHEvent K)) : List (WHOp K) :=
  evs.filterMap fun e => match e with | .call op => some op | .poke _ _ _ => none

/-- The history only assigns to arrays with an address below `n` (the arrays the caller had before the object was made). -/
def WHEvent.Below (n : Nat) (evs : List (WHEvent K)) : Prop := ∀ a i v, WHEvent.poke a i v ∈ evs → a < n

omit [FloorRing K] in
theorem read_poke_congr {m m' : Mem K} {n : Nat} (hl : n ≤ m.cells.length) (hl' : n ≤ m'.cells.length)
    (h : ∀ a, a < n → m.read a = m'.read a) {b : Nat} (hb : b < n) (i : Nat) (v : K) :
    ∀ a, a < n → (m.poke b i v).read a = (m'.poke b i v).read a := by
  intro a ha
  by_cases e : b = a
  · subst e
    rw [Mem.read_poke_self _ _ _ (lt_of_lt_of_le hb hl), Mem.read_poke_self _ _ _ (lt_of_lt_of_le hb hl'), h _ hb]
  · rw [Mem.read_poke_ne _ _ _ e, Mem.read_poke_ne _ _ _ e, h a ha]

/-- **C127 (WaveHeights).** Over any history of method calls interleaved with the caller's own assignments, every array the
caller has holds exactly what the caller put there: no method of the object ever writes to it. -/
theorem wh_caller_arrays (A : Argsort K) {n : Nat} (evs : List (WHEvent K)) (hb : WHEvent.Below n evs) (s : WHRef) (m : Mem K)
    (hn : n ≤ m.cells.length) {a : Nat} (ha : a < n) :
    (WHRef.run A evs (s, m)).2.read a = (WHEvent.caller evs m).read a := by
  suffices h : ∀ (s : WHRef) (m m' : Mem K), n ≤ m.cells.length → n ≤ m'.cells.length → (∀ a, a < n → m.read a = m'.read a) →
      ∀ a, a < n → (WHRef.run A evs (s, m)).2.read a = (WHEvent.caller evs m').read a from h s m m hn hn (fun _ _ => rfl) a ha
  induction evs with
  | nil => intro s m m' _ _ h a ha; exact h a ha
  | cons e evs ih =>
    have hb' : WHEvent.Below n evs := fun a i v h => hb a i v (List.mem_cons_of_mem _ h)
    intro s m m' h1 h2 h a ha
    cases e with
    | call op =>
      have hs := (WHRef.step_facts A op s m).1
      refine ih hb' _ (s.step A op m).2 m' (h1.trans hs.1) h2 (fun a ha => ?_) a ha
      rw [hs.2 a (lt_of_lt_of_le ha h1), h a ha]
    | poke b i v =>
      have hbn := hb b i v (by simp)
      refine ih hb' s (m.poke b i v) (m'.poke b i v) (by rw [Mem.length_poke]; exact h1) (by rw [Mem.length_poke]; exact h2) ?_ a ha
      exact read_poke_congr h1 h2 h hbn i v

/-- **C128 (separate).** An object whose attributes are bound to arrays the caller does not have behaves, under any history of
method calls and caller assignments, as if the assignments did not exist. -/
theorem wh_separate (A : Argsort K) {n : Nat} (evs : List (WHEvent K)) (hb : WHEvent.Below n evs) (s : WHRef) (m : Mem K)
    (hn : n ≤ m.cells.length) (hh : n ≤ s.hwave) (ht : n ≤ s.twave) :
    (WHRef.run A evs (s, m)).1.view (WHRef.run A evs (s, m)).2 = (s.view m).run A (WHEvent.calls evs) := by
  induction evs generalizing s m with
  | nil => rfl
  | cons e evs ih =>
    have hb' : WHEvent.Below n evs := fun a i v h => hb a i v (List.mem_cons_of_mem _ h)
    cases e with
    | call op =>
      obtain ⟨h1, h2, h3⟩ := WHRef.step_facts A op s m
      obtain ⟨h4, h5⟩ := h3 n hn hh ht
      have := ih hb' (s.step A op m).1 (s.step A op m).2 (hn.trans h1.1) h4 h5
      rw [h2] at this
      exact this
    | poke b i v =>
      have hbn := hb b i v (by simp)
      have := ih hb' s (m.poke b i v) (by rw [Mem.length_poke]; exact hn) hh ht
      have e : s.view (m.poke b i v) = s.view m := by
        unfold WHRef.view
        rw [Mem.read_poke_ne _ _ _ (by omega), Mem.read_poke_ne _ _ _ (by omega)]
      rw [e] at this
      exact this

/-- An argument refers to an existing array. -/
def Src.Valid (m : Mem K) (x : Src K) : Prop := ∀ a, x = .ref a → a < m.cells.length

omit [Field K] [LinearOrder K] [FloorRing K] in
theorem toVectorRef_lt {x : Src K} {m : Mem K} (hx : x.Valid m) : (toVectorRef x m).1 < (toVectorRef x m).2.cells.length := by
  by_cases h : ∃ a, Shares x m a
  · obtain ⟨a, h⟩ := h
    rw [toVectorRef_shared h]
    exact hx a h.1
  · exact (toVectorRef_new (fun a ha => h ⟨a, ha⟩)).2

omit [Field K] [LinearOrder K] [FloorRing K] in
theorem value_extends {x : Src K} {m m' : Mem K} (hx : x.Valid m) (h : Extends m m') : x.value m' = x.value m := by
  cases x with
  | num v => rfl
  | list xs => rfl
  | ref a => simp only [Src.value]; rw [h.2 a (hx a rfl)]

omit [Field K] [LinearOrder K] [FloorRing K] in
/-- The two conversions of a constructor: the memory is only extended, and the two arrays have the converted values. -/
theorem two_conversions {x y : Src K} {m : Mem K} (hx : x.Valid m) (hy : y.Valid m) :
    Extends m (toVectorRef y (toVectorRef x m).2).2 ∧
      (toVectorRef y (toVectorRef x m).2).2.read (toVectorRef x m).1 = (toVector (x.value m)).1 ∧
      (toVectorRef y (toVectorRef x m).2).2.read (toVectorRef y (toVectorRef x m).2).1 = (toVector (y.value m)).1 ∧
      (toVectorRef x m).1 < (toVectorRef y (toVectorRef x m).2).2.cells.length ∧
      (toVectorRef y (toVectorRef x m).2).1 < (toVectorRef y (toVectorRef x m).2).2.cells.length := by
  have x1 := toVectorRef_extends x m
  have x2 := toVectorRef_extends y (toVectorRef x m).2
  have l1 := toVectorRef_lt hx
  have hy' : y.Valid (toVectorRef x m).2 := fun a ha => lt_of_lt_of_le (hy a ha) x1.1
  refine ⟨x1.trans x2, ?_, ?_, lt_of_lt_of_le l1 x2.1, toVectorRef_lt hy'⟩
  · rw [x2.2 _ l1, toVectorRef_read]
  · rw [toVectorRef_read, value_extends hy x1]

omit [Field K] [LinearOrder K] [FloorRing K] in
theorem shares_extends {x : Src K} {m m' : Mem K} (hx : x.Valid m) (h : Extends m m') (a : Nat) : Shares x m' a ↔ Shares x m a := by
  unfold Shares
  constructor
  · rintro ⟨rfl, h1⟩
    rw [h.2 a (hx a rfl)] at h1
    exact ⟨rfl, h1⟩
  · rintro ⟨rfl, h1⟩
    rw [← h.2 a (hx a rfl)] at h1
    exact ⟨rfl, h1⟩

omit [FloorRing K] in
/-- The constructor makes the object of the value model (`WH.init`), and does not change an array of the caller. -/
theorem wh_init_view {h t : Src K} {m : Mem K} (hh : h.Valid m) (ht : t.Valid m) :
    (WHRef.init h t m).1.map (fun s => s.view (WHRef.init h t m).2) = WH.init (h.value m) (t.value m) ∧
      Extends m (WHRef.init h t m).2 := by
  obtain ⟨e0, e1, e2, _, _⟩ := two_conversions hh ht
  unfold WHRef.init WH.init
  dsimp only
  rw [e1]
  split_ifs
  · exact ⟨rfl, e0⟩
  · refine ⟨?_, e0⟩
    simp only [Except.map, WHRef.view, e1, e2]

/-- **C128 (built from values).** A `WaveHeights` object built from lists, numbers or column arrays never sees what the caller
does with its own arrays afterwards: under any history it is the object built from the original values, after the method
calls of that history. -/
theorem wh_from_values (A : Argsort K) {h t : Src K} {m : Mem K} (hh : h.Valid m) (ht : t.Valid m)
    (nh : ∀ a, ¬ Shares h m a) (nt : ∀ a, ¬ Shares t m a) {s : WHRef} {m1 : Mem K} (hi : WHRef.init h t m = (.ok s, m1))
    (evs : List (WHEvent K)) (hb : WHEvent.Below m.cells.length evs) :
    ∃ o, WH.init (h.value m) (t.value m) = .ok o ∧
      (WHRef.run A evs (s, m1)).1.view (WHRef.run A evs (s, m1)).2 = o.run A (WHEvent.calls evs) := by
  obtain ⟨e1, e2⟩ := wh_init_view hh ht
  rw [hi] at e1 e2
  refine ⟨s.view m1, e1.symm, ?_⟩
  have h1 := toVectorRef_new nh
  have x1 := toVectorRef_extends h m
  have h2 := toVectorRef_new (m := (toVectorRef h m).2) (x := t) (fun a ha => nt a ((shares_extends ht x1 a).1 ha))
  have hs : s.hwave = (toVectorRef h m).1 ∧ s.twave = (toVectorRef t (toVectorRef h m).2).1 := by
    unfold WHRef.init at hi
    dsimp only at hi
    split_ifs at hi
    · cases hi
    · cases hi
      exact ⟨rfl, rfl⟩
  exact wh_separate A evs hb s m1 e2.1 (by rw [hs.1]; exact h1.1) (by rw [hs.2]; exact x1.1.trans h2.1)

/-- Calls that do not sort. -/
def WHOp.NoSort : WHOp K → Prop
  | .getHrms | .getHmax | .plotHist => True
  | _ => False

/-- **C128 (built on arrays).** A `WaveHeights` object built on one-dimensional arrays of the caller *is* those arrays until
it is first sorted: after any assignments by the caller, and any `get_Hrms`, `get_Hmax`, `plot_hist_waveheight`, its heights
and periods are what the caller's arrays contain now (the number of waves is the original one).  From the first successful
sort on, it keeps the values of that moment, whatever the caller assigns. -/
theorem wh_from_arrays (A : Argsort K) {a b : Nat} {m : Mem K} (ha : a < m.cells.length) (hb : b < m.cells.length)
    (sa : (size2 (m.read a)).2 ≠ 1) (sb : (size2 (m.read b)).2 ≠ 1) {s : WHRef} {m1 : Mem K}
    (hi : WHRef.init (.ref a) (.ref b) m = (.ok s, m1)) (evs : List (WHEvent K)) (hbel : WHEvent.Below m.cells.length evs)
    (hns : ∀ op, WHEvent.call op ∈ evs → op.NoSort) (later : List (WHEvent K)) (hbel' : WHEvent.Below m.cells.length later) :
    let now : WH K := ⟨(WHEvent.caller evs m).read a, (m.read a).len, (WHEvent.caller evs m).read b⟩
    (WHRef.run A evs (s, m1)).1.view (WHRef.run A evs (s, m1)).2 = now ∧
    ((now.sort A).1 = .ok () →
      (WHRef.run A (evs ++ .call .sort :: later) (s, m1)).1.view (WHRef.run A (evs ++ .call .sort :: later) (s, m1)).2 =
        now.run A (.sort :: WHEvent.calls later)) := by
  intro now
  have hinit : s = ⟨a, (m.read a).len, b⟩ ∧ m1 = m := by
    unfold WHRef.init at hi
    rw [toVectorRef_shared (x := .ref a) (a := a) ⟨rfl, sa⟩] at hi
    dsimp only at hi
    rw [toVectorRef_shared (x := .ref b) (a := b) ⟨rfl, sb⟩] at hi
    dsimp only at hi
    split_ifs at hi
    · cases hi
    · cases hi
      exact ⟨rfl, rfl⟩
  obtain ⟨rfl, rfl⟩ := hinit
  have hsame : ∀ (evs : List (WHEvent K)) (s : WHRef) (m : Mem K), (∀ op, WHEvent.call op ∈ evs → op.NoSort) →
      WHRef.run A evs (s, m) = (s, WHEvent.caller evs m) := by
    intro evs
    induction evs with
    | nil => intro s m _; rfl
    | cons e evs ih =>
      intro s m h
      have h' : ∀ op, WHEvent.call op ∈ evs → op.NoSort := fun op ho => h op (List.mem_cons_of_mem _ ho)
      cases e with
      | poke c i v => exact ih s (m.poke c i v) h'
      | call op =>
        have hop := h op (by simp)
        have hst : s.step A op m = (s, m) := by
          cases op <;> first | rfl | exact absurd hop (by simp [WHOp.NoSort])
        have := ih s m h'
        show WHRef.run A evs (s.step A op m) = _
        rw [hst]
        exact this
  have hv : (WHRef.run A evs ((⟨a, (m1.read a).len, b⟩ : WHRef), m1)).1.view (WHRef.run A evs ((⟨a, (m1.read a).len, b⟩ : WHRef), m1)).2 = now := by
    rw [hsame evs _ _ hns]
    rfl
  refine ⟨hv, fun hok => ?_⟩
  have hrun : WHRef.run A (evs ++ .call .sort :: later) ((⟨a, (m1.read a).len, b⟩ : WHRef), m1) =
      WHRef.run A later (((⟨a, (m1.read a).len, b⟩ : WHRef).sort A (WHEvent.caller evs m1)).2) := by
    unfold WHRef.run
    rw [List.foldl_append]
    have := hsame evs (⟨a, (m1.read a).len, b⟩ : WHRef) m1 hns
    unfold WHRef.run at this
    rw [this]
    rfl
  rw [hrun]
  have hf := WHRef.sort_facts A (⟨a, (m1.read a).len, b⟩ : WHRef) (WHEvent.caller evs m1)
  have hvn : (⟨a, (m1.read a).len, b⟩ : WHRef).view (WHEvent.caller evs m1) = now := rfl
  rw [hvn] at hf
  obtain ⟨f1, f2, f3, f4, _⟩ := hf
  have f5 := f4 (f3.trans hok)
  have hlen : ∀ (evs : List (WHEvent K)) (m : Mem K), (WHEvent.caller evs m).cells.length = m.cells.length := by
    intro evs
    induction evs with
    | nil => intro m; rfl
    | cons e evs ih =>
      intro m
      cases e with
      | call op => exact ih m
      | poke c i v => exact (ih (m.poke c i v)).trans (Mem.length_poke _ _ _ _)
  have hl := hlen evs m1
  have := wh_separate A later (n := m1.cells.length) hbel'
    ((⟨a, (m1.read a).len, b⟩ : WHRef).sort A (WHEvent.caller evs m1)).2.1
    ((⟨a, (m1.read a).len, b⟩ : WHRef).sort A (WHEvent.caller evs m1)).2.2 (by rw [← hl]; exact f1.1)
    (by rw [← hl]; exact f5.1) (by rw [← hl]; exact f5.2.1)
  rw [f2] at this
  exact this

end

/-- A concrete case: heights 1, 3 in the caller's own array.  The assignment `h[0] = 7` changes the maximum wave height of the
object from 3 to 7. -/
example : ∃ (m : Mem ℚ) (s : WHRef), WHRef.init (.ref 0) (.ref 1) m = (.ok s, m) ∧ 0 < m.cells.length ∧ 1 < m.cells.length ∧
    (size2 (m.read 0)).2 ≠ 1 ∧ (size2 (m.read 1)).2 ≠ 1 ∧ (s.view m).getHmax.1 = .ok 3 ∧
    (s.view (m.poke 0 0 7)).getHmax.1 = .ok 7 ∧ (∀ A : Argsort ℚ, ((s.view m).sort A).1 = .ok ()) :=
  ⟨⟨[⟨[2], [1, 3]⟩, ⟨[2], [5, 6]⟩]⟩, ⟨0, 2, 1⟩, rfl, by decide, by decide, by decide, by decide, by decide +kernel, by decide +kernel,
    fun _ => rfl⟩

/-- The same values as lists: the object has its own arrays, so nothing is shared. -/
example (m : Mem ℚ) : (∀ a, ¬ Shares (.list [(1 : ℚ), 3]) m a) ∧ (Src.list [(1 : ℚ), 3]).Valid m ∧
    (WHRef.init (.list [(1 : ℚ), 3]) (.list [5, 6]) m).1 = .ok ⟨m.cells.length, 2, m.cells.length + 1⟩ := by
  refine ⟨fun a h => (by simp [Shares] at h), fun a h => (by simp at h), ?_⟩
  simp [WHRef.init, toVectorRef, toArrRef, Mem.alloc, Mem.read, size2, Arr.size, Arr.len, List.getD_eq_getElem?_getD]

/-! ## Concrete cases: the hypotheses of the theorems above are met -/

example : (WHRef.run (K := ℚ) stableArgsort [.poke 0 0 7, .call .sort] (⟨0, 2, 1⟩, ⟨[⟨[2], [1, 3]⟩, ⟨[2], [5, 6]⟩]⟩)).2.read 0 = ⟨[2], [7, 3]⟩ :=
  wh_caller_arrays (K := ℚ) stableArgsort (n := 2) [.poke 0 0 7, .call .sort] (fun a i v h => by simp at h; omega) ⟨0, 2, 1⟩ ⟨[⟨[2], [1, 3]⟩, ⟨[2], [5, 6]⟩]⟩
    (by simp) (a := 0) (by norm_num)

example : Extends (⟨[⟨[2], [1, 3]⟩, ⟨[2], [5, 6]⟩]⟩ : Mem ℚ) (WHRef.init (.ref 0) (.ref 1) (⟨[⟨[2], [1, 3]⟩, ⟨[2], [5, 6]⟩]⟩ : Mem ℚ)).2 :=
  (wh_init_view (fun a h => by simp at h; subst h; simp) (fun a h => by simp at h; subst h; simp)).2

example : (WHRef.run (K := ℚ) stableArgsort [.poke 0 0 7, .call .sort] (⟨2, 2, 3⟩, ⟨[⟨[2], [1, 3]⟩, ⟨[2], [5, 6]⟩, ⟨[2], [1, 3]⟩, ⟨[2], [5, 6]⟩]⟩)).1.view
    (WHRef.run (K := ℚ) stableArgsort [.poke 0 0 7, .call .sort] (⟨2, 2, 3⟩, ⟨[⟨[2], [1, 3]⟩, ⟨[2], [5, 6]⟩, ⟨[2], [1, 3]⟩, ⟨[2], [5, 6]⟩]⟩)).2 =
    (⟨⟨[2], [1, 3]⟩, 2, ⟨[2], [5, 6]⟩⟩ : WH ℚ).run stableArgsort [.sort] :=
  wh_separate (K := ℚ) stableArgsort (n := 2) [.poke 0 0 7, .call .sort] (fun a i v h => by simp at h; omega) ⟨2, 2, 3⟩
    ⟨[⟨[2], [1, 3]⟩, ⟨[2], [5, 6]⟩, ⟨[2], [1, 3]⟩, ⟨[2], [5, 6]⟩]⟩ (by simp) (by simp) (by simp)

example : ∃ (s : WHRef) (m1 : Mem ℚ) (o : WH ℚ), WHRef.init (.list [(1 : ℚ), 3]) (.list [5, 6]) ⟨[⟨[2], [8, 9]⟩]⟩ = (.ok s, m1) ∧
    WH.init (.list [(1 : ℚ), 3]) (.list [5, 6]) = .ok o ∧
    (WHRef.run stableArgsort [.poke 0 0 7, .call .sort] (s, m1)).1.view (WHRef.run stableArgsort [.poke 0 0 7, .call .sort] (s, m1)).2 = o.run stableArgsort [.sort] := by
  obtain ⟨o, a, b⟩ := wh_from_values (K := ℚ) stableArgsort (h := .list [1, 3]) (t := .list [5, 6]) (m := ⟨[⟨[2], [8, 9]⟩]⟩) (fun a h => by simp at h)
    (fun a h => by simp at h) (fun a h => by simp [Shares] at h) (fun a h => by simp [Shares] at h) rfl [.poke 0 0 7, .call .sort] (fun a i v h => by simp at h; simp; omega)
  exact ⟨_, _, o, rfl, a, b⟩

example : ((WHRef.run (K := ℚ) stableArgsort [.poke 0 0 7] (⟨0, 2, 1⟩, ⟨[⟨[2], [1, 3]⟩, ⟨[2], [5, 6]⟩]⟩)).1.view
    (WHRef.run (K := ℚ) stableArgsort [.poke 0 0 7] (⟨0, 2, 1⟩, ⟨[⟨[2], [1, 3]⟩, ⟨[2], [5, 6]⟩]⟩)).2) = ⟨⟨[2], [7, 3]⟩, 2, ⟨[2], [5, 6]⟩⟩ :=
  (wh_from_arrays (K := ℚ) stableArgsort (a := 0) (b := 1) (m := ⟨[⟨[2], [1, 3]⟩, ⟨[2], [5, 6]⟩]⟩) (by simp) (by simp) (by decide) (by decide) rfl [.poke 0 0 7]
    (fun a i v h => by simp at h; simp; omega) (fun op h => by simp at h) [] (fun a i v h => by simp at h)).1

end Verif
