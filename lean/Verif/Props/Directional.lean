import Verif.Props.SpectrumShapes
import Verif.Model.Plots
import Verif.Model.SeriesHist

/-! # C166: spectra with several columns of densities (directional spectra) -/

set_option linter.unusedSectionVars false

namespace Verif

/-- The call raised an exception (`ValueError` or `IndexError`). -/
def Raises {α : Type} (r : Except PyErr α) : Prop := (∃ msg, r = .error (.valueError msg)) ∨ r = .error .indexError

/-- The moments of densities of several columns. -/
theorem moment_several_columns {f : List ℝ} {m : Nat} (hm : 2 ≤ m) {data : List ℝ} (hwf : data.length = f.length * m) (hne : data ≠ []) (k : Int) (lo : ℝ)
    (hi : FMax ℝ) : computeMoment (vec f) (.nd ⟨[f.length, m], data⟩) k lo hi =
      .error (.valueError "compute_moment: Input error: input should be 1d arrays") := by
  have hprod : [f.length, m].prod = f.length * m := by simp
  unfold computeMoment
  rw [vecIn_of_isArr (isArr_vec f)]
  have : vecIn "compute_moment" (.nd (⟨[f.length, m], data⟩ : Arr ℝ)) = .error (.valueError "compute_moment: Input error: input should be 1d arrays") := by
    have hsz : size2 (⟨[f.length, m], data⟩ : Arr ℝ) = (f.length, m) := by
      unfold size2 Arr.size
      rw [if_pos (by rw [hprod, ← hwf]; exact fun h => hne (List.length_eq_zero_iff.1 h))]
    unfold vecIn toVector toArr
    dsimp only
    have hm1 : ¬ m = 1 := by omega
    have hm2 : 1 < m := by omega
    rw [hsz]
    simp only [if_neg hm1, if_pos hm2]
    rfl
  rw [this]
  rfl

/-- The state of such an object: the data, and no period or height that was ever computed. -/
structure Columns2 (fs : List ℝ) (m : Nat) (data : List ℝ) (s : SpecObj) : Prop where
  f : s.f = fs
  S : s.sVarDens = ⟨[fs.length, m], data⟩
  Hm0 : s.Hm0 = none
  Hm0HF : s.Hm0HF = none
  Tps : s.Tps = none
  Tmm10 : s.Tmm10 = none
  Tmm10HF : s.Tmm10HF = none
  Tm02 : s.Tm02 = none

theorem Raises.store {r : Except PyErr ℝ} (h : Raises r) (c : Cache) : store c r = c := by
  rcases h with ⟨msg, rfl⟩ | rfl <;> rfl

theorem getE_raises {α : Type} (l : List α) (i : Nat) : (∃ v, getE l i = .ok v) ∨ getE l i = .error .indexError := by
  unfold getE
  cases l[i]? with
  | none => exact Or.inr rfl
  | some v => exact Or.inl ⟨v, rfl⟩

theorem lastE_raises {α : Type} (l : List α) : (∃ v, lastE l = .ok v) ∨ lastE l = .error .indexError := by
  unfold lastE
  cases l.getLast? with
  | none => exact Or.inr rfl
  | some v => exact Or.inl ⟨v, rfl⟩

theorem bandSlice_raises (f S : List ℝ) (lo : ℝ) (hi : FMax ℝ) : (∃ r, bandSlice f S lo hi = .ok r) ∨ bandSlice f S lo hi = .error .indexError := by
  unfold bandSlice
  rcases getE_raises (whereIdx (fun v => decide (lo ≤ v)) f) 0 with ⟨i, e⟩ | e
  · rcases lastE_raises (whereIdx (fun v => hi.ge v) f) with ⟨j, e'⟩ | e'
    · exact Or.inl ⟨_, by rw [e, e']; rfl⟩
    · exact Or.inr (by rw [e, e']; rfl)
  · exact Or.inr (by rw [e]; rfl)

variable {f : List ℝ} {m : Nat} {data : List ℝ} {s : SpecObj}

theorem raises_calcTps (n : Nat) (a : ℝ) (b : FMax ℝ) : Raises (calcTps f ⟨[n, m], data⟩ a b) := by
  unfold calcTps
  dsimp only
  rw [if_pos (by simp)]
  unfold calcTps2
  dsimp only
  rcases bandSlice_raises f f (setFlim f a b).1 (setFlim f a b).2 with ⟨r, e⟩ | e
  · rw [e]
    simp only [bind, Except.bind]
    split_ifs
    · exact Or.inl ⟨_, rfl⟩
    · exact Or.inl ⟨_, rfl⟩
  · rw [e]; exact Or.inr rfl

theorem Columns2.moment (h : Columns2 f m data s) (hm : 2 ≤ m) (hwf : data.length = f.length * m) (hne : data ≠ []) (k : Int) (lo : ℝ)
    (hi : FMax ℝ) : computeMoment (vec s.f) (.nd s.sVarDens) k lo hi = .error (.valueError "compute_moment: Input error: input should be 1d arrays") := by
  rw [h.f, h.S]
  exact moment_several_columns hm hwf hne k lo hi

theorem Columns2.calcHm0 (h : Columns2 f m data s) (hm : 2 ≤ m) (hwf : data.length = f.length * m) (hne : data ≠ []) (a : ℝ) (b : FMax ℝ) :
    Raises (calcHm0 s.f s.sVarDens a b) := by
  unfold Verif.calcHm0
  dsimp only
  rw [h.moment hm hwf hne]
  exact Or.inl ⟨_, rfl⟩

theorem Columns2.calcTmm10 (h : Columns2 f m data s) (hm : 2 ≤ m) (hwf : data.length = f.length * m) (hne : data ≠ []) (a : ℝ) (b : FMax ℝ) :
    Raises (calcTmm10 s.f s.sVarDens a b) := by
  unfold Verif.calcTmm10
  dsimp only
  rw [h.moment hm hwf hne]
  exact Or.inl ⟨_, rfl⟩

theorem Columns2.calcTm01 (h : Columns2 f m data s) (hm : 2 ≤ m) (hwf : data.length = f.length * m) (hne : data ≠ []) (a : ℝ) (b : FMax ℝ) :
    Raises (calcTm01 s.f s.sVarDens a b) := by
  unfold Verif.calcTm01
  dsimp only
  rw [h.moment hm hwf hne]
  exact Or.inl ⟨_, rfl⟩

theorem Columns2.calcTm02 (h : Columns2 f m data s) (hm : 2 ≤ m) (hwf : data.length = f.length * m) (hne : data ≠ []) (a : ℝ) (b : FMax ℝ) :
    Raises (calcTm02 s.f s.sVarDens a b) := by
  unfold Verif.calcTm02
  dsimp only
  rw [h.moment hm hwf hne]
  exact Or.inl ⟨_, rfl⟩

theorem Columns2.getHm0 (h : Columns2 f m data s) (hm : 2 ≤ m) (hwf : data.length = f.length * m) (hne : data ≠ []) (a : ℝ) (b : FMax ℝ) :
    Raises (s.getHm0 a b).1 ∧ Columns2 f m data (s.getHm0 a b).2 := by
  have r := h.calcHm0 hm hwf hne a b
  exact ⟨r, { h with Hm0 := by show Verif.store s.Hm0 _ = none; rw [r.store, h.Hm0] }⟩

theorem Columns2.getTps (h : Columns2 f m data s) (a : ℝ) (b : FMax ℝ) :
    Raises (s.getTps a b).1 ∧ Columns2 f m data (s.getTps a b).2 := by
  have r : Raises (Verif.calcTps s.f s.sVarDens a b) := by rw [h.f, h.S]; exact raises_calcTps _ a b
  exact ⟨r, { h with Tps := by show Verif.store s.Tps _ = none; rw [r.store, h.Tps] }⟩

theorem Columns2.getTmm10 (h : Columns2 f m data s) (hm : 2 ≤ m) (hwf : data.length = f.length * m) (hne : data ≠ []) (a : ℝ) (b : FMax ℝ) :
    Raises (s.getTmm10 a b).1 ∧ Columns2 f m data (s.getTmm10 a b).2 := by
  have r := h.calcTmm10 hm hwf hne a b
  exact ⟨r, { h with Tmm10 := by show Verif.store s.Tmm10 _ = none; rw [r.store, h.Tmm10] }⟩

theorem Columns2.cutoff (h : Columns2 f m data s) (hm : 2 ≤ m) (hwf : data.length = f.length * m) (hne : data ≠ []) :
    ∃ e s', s.cutoff = (.error e, s') ∧ Raises (.error e : Except PyErr ℝ) ∧ Columns2 f m data s' := by
  obtain ⟨r, c⟩ := h.getTmm10 hm hwf hne (-1) (.fin (-1))
  unfold SpecObj.cutoff
  rw [h.Tmm10]
  dsimp only
  rcases e : s.getTmm10 (-1) (.fin (-1)) with ⟨q, s'⟩
  rw [e] at r c
  dsimp only at r c ⊢
  rcases r with ⟨msg, rfl⟩ | rfl
  · exact ⟨_, _, rfl, Or.inl ⟨msg, rfl⟩, c⟩
  · exact ⟨_, _, rfl, Or.inr rfl, c⟩

theorem Columns2.getHm0HF (h : Columns2 f m data s) (hm : 2 ≤ m) (hwf : data.length = f.length * m) (hne : data ≠ []) (a : ℝ) (b : FMax ℝ) :
    Raises (s.getHm0HF a b).1 ∧ Columns2 f m data (s.getHm0HF a b).2 := by
  unfold SpecObj.getHm0HF
  split_ifs
  · obtain ⟨e, s', he, r, c⟩ := h.cutoff hm hwf hne
    rw [he]; exact ⟨r, c⟩
  · have r := h.calcHm0 hm hwf hne a b
    exact ⟨r, { h with Hm0HF := by show Verif.store s.Hm0HF _ = none; rw [r.store, h.Hm0HF] }⟩

theorem Columns2.getHm0LF (h : Columns2 f m data s) (hm : 2 ≤ m) (hwf : data.length = f.length * m) (hne : data ≠ []) (a : ℝ) (b : FMax ℝ) :
    Raises (s.getHm0LF a b).1 ∧ Columns2 f m data (s.getHm0LF a b).2 := by
  unfold SpecObj.getHm0LF
  split_ifs
  · obtain ⟨e, s', he, r, c⟩ := h.cutoff hm hwf hne
    rw [he]; exact ⟨r, c⟩
  · exact ⟨h.calcHm0 hm hwf hne a b, { h with }⟩

theorem Columns2.getTmm10HF (h : Columns2 f m data s) (hm : 2 ≤ m) (hwf : data.length = f.length * m) (hne : data ≠ []) (a : ℝ) (b : FMax ℝ) :
    Raises (s.getTmm10HF a b).1 ∧ Columns2 f m data (s.getTmm10HF a b).2 := by
  unfold SpecObj.getTmm10HF
  split_ifs
  · obtain ⟨e, s', he, r, c⟩ := h.cutoff hm hwf hne
    rw [he]; exact ⟨r, c⟩
  · have r := h.calcTmm10 hm hwf hne a b
    exact ⟨r, { h with Tmm10HF := by show Verif.store s.Tmm10HF _ = none; rw [r.store, h.Tmm10HF] }⟩

theorem Columns2.getTmm10LF (h : Columns2 f m data s) (hm : 2 ≤ m) (hwf : data.length = f.length * m) (hne : data ≠ []) (a : ℝ) (b : FMax ℝ) :
    Raises (s.getTmm10LF a b).1 ∧ Columns2 f m data (s.getTmm10LF a b).2 := by
  unfold SpecObj.getTmm10LF
  split_ifs
  · obtain ⟨e, s', he, r, c⟩ := h.cutoff hm hwf hne
    rw [he]; exact ⟨r, c⟩
  · exact ⟨h.calcTmm10 hm hwf hne a b, { h with }⟩

theorem ensure_raises {run : Except PyErr ℝ × SpecObj} (r : Raises run.1) (s : SpecObj) :
    ∃ e, ensure none run s = (.error e, run.2) ∧ Raises (.error e : Except PyErr ℝ) := by
  obtain ⟨q, s'⟩ := run
  unfold ensure
  dsimp only at r ⊢
  rcases r with ⟨msg, rfl⟩ | rfl
  · exact ⟨_, rfl, Or.inl ⟨msg, rfl⟩⟩
  · exact ⟨_, rfl, Or.inr rfl⟩

theorem Columns2.getS0p (h : Columns2 f m data s) (hm : 2 ≤ m) (hwf : data.length = f.length * m) (hne : data ≠ []) (a : ℝ) (b : FMax ℝ) (g : ℝ) :
    Raises (s.getS0p a b g).1 ∧ Columns2 f m data (s.getS0p a b g).2 := by
  obtain ⟨r, c⟩ := h.getHm0 hm hwf hne a b
  unfold SpecObj.getS0p
  rw [h.Hm0]
  obtain ⟨e, he, r'⟩ := ensure_raises r s
  rw [he]; exact ⟨r', c⟩

theorem Columns2.getSmm10 (h : Columns2 f m data s) (hm : 2 ≤ m) (hwf : data.length = f.length * m) (hne : data ≠ []) (a : ℝ) (b : FMax ℝ) (g : ℝ) :
    Raises (s.getSmm10 a b g).1 ∧ Columns2 f m data (s.getSmm10 a b g).2 := by
  obtain ⟨r, c⟩ := h.getHm0 hm hwf hne a b
  unfold SpecObj.getSmm10
  rw [h.Hm0]
  obtain ⟨e, he, r'⟩ := ensure_raises r s
  rw [he]; exact ⟨r', c⟩

theorem Columns2.getSmm10HF (h : Columns2 f m data s) (hm : 2 ≤ m) (hwf : data.length = f.length * m) (hne : data ≠ []) (a : ℝ) (b : FMax ℝ) (g : ℝ) :
    Raises (s.getSmm10HF a b g).1 ∧ Columns2 f m data (s.getSmm10HF a b g).2 := by
  obtain ⟨r, c⟩ := h.getHm0HF hm hwf hne a b
  unfold SpecObj.getSmm10HF
  rw [h.Hm0HF]
  obtain ⟨e, he, r'⟩ := ensure_raises r s
  rw [he]; exact ⟨r', c⟩

theorem pySlice_self {α : Type} (l : List α) (i j : Nat) (hij : i ≤ j) (hj : j < l.length) : (pySlice l i (j + 1)).length = j + 1 - i := by
  unfold pySlice; simp; omega

/-- What `get_Tp` does: the frequency of a range with one grid point, an exception otherwise. -/
theorem Columns2.calcTp (hp : f.Pairwise (· < ·)) (n : Nat) (a : ℝ) (b : FMax ℝ) :
    (∀ k, (∀ i, InRange f a b i ↔ i = k) → calcTp f ⟨[n, m], data⟩ a b = if f.getD k 0 = 0 then .error .nonFinite else .ok (1 / f.getD k 0)) ∧
      ((¬ ∃ k, ∀ i, InRange f a b i ↔ i = k) → Raises (Verif.calcTp f ⟨[n, m], data⟩ a b)) := by
  have e0 : Verif.calcTp f ⟨[n, m], data⟩ a b = calcTp2 f [n, m] (setFlim f a b).1 (setFlim f a b).2 := by
    unfold Verif.calcTp
    dsimp only
    rw [if_pos (by simp)]
  rw [e0]
  have hr := fun k => inRange_iff hp a b k
  unfold calcTp2
  dsimp only
  constructor
  · intro k hk
    have hkr := (hr k).1 ((hk k).2 rfl)
    obtain ⟨r, e⟩ := bandSlice_defined (S := f) hkr
    obtain ⟨i, j, hj, rfl, hij⟩ := bandSlice_spec hp e
    have h1 : ∀ l, i ≤ l ∧ l ≤ j ↔ l = k := fun l => ((hij l).trans (hr l).symm).trans (hk l)
    have hik := (h1 k).2 rfl
    have hi : i = k := (h1 i).1 ⟨le_refl _, by omega⟩
    have hj' : j = k := (h1 j).1 ⟨by omega, le_refl _⟩
    subst hi hj'
    have hlen := pySlice_self f j j (le_refl _) hj
    have hs : pySlice f j (j + 1) = [f.getD j 0] := by
      refine List.ext_getElem (by rw [hlen]; simp) fun l h1 h2 => ?_
      have : l = 0 := by simp at h2; omega
      subst this
      simp only [pySlice, List.getElem_drop, List.getElem_take, Nat.add_zero, List.getElem_cons_zero, List.getD_eq_getElem _ _ hj]
    rw [e]
    simp only [bind, Except.bind, hs]
    rfl
  · intro hno
    rcases bandSlice_raises f f (setFlim f a b).1 (setFlim f a b).2 with ⟨r, e⟩ | e
    · obtain ⟨i, j, hj, rfl, hij⟩ := bandSlice_spec hp e
      rw [e]
      simp only [bind, Except.bind]
      by_cases hle : i ≤ j
      · have hlen := pySlice_self f i j hle hj
        have hne : i ≠ j := by
          intro hij'
          subst hij'
          exact hno ⟨i, fun l => by rw [hr l, ← hij l]; omega⟩
        rcases hs : pySlice f i (j + 1) with _ | ⟨x, _ | ⟨y, l⟩⟩
        · exact Or.inl ⟨_, rfl⟩
        · rw [hs] at hlen; simp at hlen; omega
        · exact Or.inl ⟨_, rfl⟩
      · have hs : pySlice f i (j + 1) = [] := by
          unfold pySlice
          exact List.eq_nil_of_length_eq_zero (by simp; omega)
        rw [hs]
        exact Or.inl ⟨_, rfl⟩
    · rw [e]; exact Or.inr rfl

theorem Columns2.call (h : Columns2 f m data s) (hm : 2 ≤ m) (hwf : data.length = f.length * m) (hne : data ≠ []) (op : SpecOp) :
    ((∀ a b, op ≠ .getTp a b) → Raises (s.call op).1) ∧ Columns2 f m data (s.call op).2 := by
  cases op with
  | getHm0 a b => exact ⟨fun _ => (h.getHm0 hm hwf hne a b).1, (h.getHm0 hm hwf hne a b).2⟩
  | getHm0HF a b => exact ⟨fun _ => (h.getHm0HF hm hwf hne a b).1, (h.getHm0HF hm hwf hne a b).2⟩
  | getHm0LF a b => exact ⟨fun _ => (h.getHm0LF hm hwf hne a b).1, (h.getHm0LF hm hwf hne a b).2⟩
  | getTps a b => exact ⟨fun _ => (h.getTps a b).1, (h.getTps a b).2⟩
  | getTp a b => exact ⟨fun hc => absurd rfl (hc a b), { h with }⟩
  | getTmm10 a b => exact ⟨fun _ => (h.getTmm10 hm hwf hne a b).1, (h.getTmm10 hm hwf hne a b).2⟩
  | getTmm10HF a b => exact ⟨fun _ => (h.getTmm10HF hm hwf hne a b).1, (h.getTmm10HF hm hwf hne a b).2⟩
  | getTmm10LF a b => exact ⟨fun _ => (h.getTmm10LF hm hwf hne a b).1, (h.getTmm10LF hm hwf hne a b).2⟩
  | getTm01 a b => exact ⟨fun _ => h.calcTm01 hm hwf hne a b, { h with }⟩
  | getTm02 a b =>
    have r := h.calcTm02 hm hwf hne a b
    exact ⟨fun _ => r, { h with Tm02 := by show Verif.store s.Tm02 _ = none; rw [r.store, h.Tm02] }⟩
  | getS0p a b g => exact ⟨fun _ => (h.getS0p hm hwf hne a b g).1, (h.getS0p hm hwf hne a b g).2⟩
  | getSmm10 a b g => exact ⟨fun _ => (h.getSmm10 hm hwf hne a b g).1, (h.getSmm10 hm hwf hne a b g).2⟩
  | getSmm10HF a b g => exact ⟨fun _ => (h.getSmm10HF hm hwf hne a b g).1, (h.getSmm10HF hm hwf hne a b g).2⟩

theorem Columns2.after (h : Columns2 f m data s) (hm : 2 ≤ m) (hwf : data.length = f.length * m) (hne : data ≠ []) (hist : List SpecOp) :
    Columns2 f m data (s.after hist) := by
  unfold SpecObj.after
  induction hist generalizing s with
  | nil => exact h
  | cons op l ih => exact ih (h.call hm hwf hne op).2

theorem columns2_of_init {pf : PyIn ℝ} (hf : pf.IsArr f) (hm : 2 ≤ m) (hwf : data.length = f.length * m) (hne : data ≠ [])
    (hs : SpecObj.init pf (.nd ⟨[f.length, m], data⟩) = .ok s) : Columns2 f m data s ∧ f.Pairwise (· < ·) ∧ 2 ≤ f.length := by
  obtain ⟨hmono, -, rfl⟩ := (spectrum_init_any_shape hf (by simpa using hwf) hne).1 hs
  have hst : storedShape [f.length, m] = [f.length, m] := by
    unfold storedShape
    split
    · rename_i heq; simp only [List.cons.injEq, and_true] at heq; omega
    · rfl
  exact ⟨⟨rfl, by rw [hst], rfl, rfl, rfl, rfl, rfl, rfl⟩, uniform_check_increasing hmono, mono_two_le hmono⟩

/-- **C166 (no parameters).**  An object made of densities of two or more columns (a directional spectrum) accepts no call: after any calls
every method that returns a wave height, a period or a steepness raises, for every range, with one exception: `get_Tp` of a range that
contains exactly one grid frequency returns the inverse of that frequency (infinite for 0), whatever the densities. -/
theorem directional_calls {pf : PyIn ℝ} (hf : pf.IsArr f) (hm : 2 ≤ m) (hwf : data.length = f.length * m) (hne : data ≠ [])
    (hs : SpecObj.init pf (.nd ⟨[f.length, m], data⟩) = .ok s) (hist : List SpecOp) :
    (∀ op : SpecOp, (∀ a b, op ≠ .getTp a b) → Raises ((s.after hist).call op).1) ∧
      ∀ fmin fmax, (∀ k, (∀ i, InRange f fmin fmax i ↔ i = k) →
          ((s.after hist).getTp fmin fmax).1 = if f.getD k 0 = 0 then .error .nonFinite else .ok (1 / f.getD k 0)) ∧
        ((¬ ∃ k, ∀ i, InRange f fmin fmax i ↔ i = k) → Raises ((s.after hist).getTp fmin fmax).1) := by
  obtain ⟨h, hp, -⟩ := columns2_of_init hf hm hwf hne hs
  have h' := h.after hm hwf hne hist
  refine ⟨fun op hop => (h'.call hm hwf hne op).1 hop, fun a b => ?_⟩
  have := Columns2.calcTp (m := m) (data := data) hp f.length a b
  rw [show ((s.after hist).getTp a b).1 = Verif.calcTp (s.after hist).f (s.after hist).sVarDens a b from rfl, h'.f, h'.S]
  exact this

/-- **C166 (no series).**  No time series can be made of such a spectrum: `create_series` raises `ValueError` for every time axis, and draws no
random numbers. -/
theorem directional_series (R : Rng) {pf : PyIn ℝ} (hf : pf.IsArr f) (hm : 2 ≤ m) (hwf : data.length = f.length * m) (hne : data ≠ [])
    (hs : SpecObj.init pf (.nd ⟨[f.length, m], data⟩) = .ok s) (hist : List SpecOp) (tstart tend dt : ℝ) (g : R.State) :
    ∃ msg, (s.after hist).createSeries R tstart tend dt g = (.error (.valueError msg), g) := by
  obtain ⟨h, -, -⟩ := columns2_of_init hf hm hwf hne hs
  have h' := h.after hm hwf hne hist
  have hv : vecIn "compute_spectrum_freq_series" (.nd (⟨[f.length, m], data⟩ : Arr ℝ)) =
      .error (.valueError "compute_spectrum_freq_series: Input error: input should be 1d arrays") := by
    have hsz : size2 (⟨[f.length, m], data⟩ : Arr ℝ) = (f.length, m) := by
      unfold size2 Arr.size
      rw [if_pos (by simp only [List.prod_cons, List.prod_nil, mul_one]; rw [← hwf]; exact fun h => hne (List.length_eq_zero_iff.1 h))]
    unfold vecIn toVector toArr
    dsimp only
    have hm1 : ¬ m = 1 := by omega
    have hm2 : 1 < m := by omega
    rw [hsz]
    simp only [if_neg hm1, if_pos hm2]
    rfl
  refine ⟨"compute_spectrum_freq_series: Input error: input should be 1d arrays", ?_⟩
  unfold SpecObj.createSeries spectrum2timeseriesObject spectrum2timeseries
  rw [h'.f, h'.S, vecIn_vec, hv]

/-- **C166 (plot).**  The plot of such a spectrum works, after any calls: it shows one curve per column, the densities of that column against
the frequencies, and never a line for a period (none was ever computed). -/
theorem directional_plot {pf : PyIn ℝ} (hf : pf.IsArr f) (hm : 2 ≤ m) (hwf : data.length = f.length * m) (hne : data ≠ [])
    (hs : SpecObj.init pf (.nd ⟨[f.length, m], data⟩) = .ok s) (hist : List SpecOp) (periods : Bool) :
    ∃ p, (s.after hist).plot periods = .ok p ∧ p.lines = [] ∧ (p.curve :: p.more).length = m ∧
      ∀ j < m, (p.curve :: p.more).getD j [] = f.zip ((List.range f.length).map fun i => data.getD (i * m + j) 0) := by
  obtain ⟨h, -, -⟩ := columns2_of_init hf hm hwf hne hs
  have h' := h.after hm hwf hne hist
  obtain ⟨a, l, rfl⟩ : ∃ a l, data = a :: l := by
    cases data with
    | nil => exact absurd rfl hne
    | cons a l => exact ⟨a, l, rfl⟩
  unfold SpecObj.plot
  rw [h'.S]
  dsimp only
  refine ⟨_, rfl, ?_, ?_, ?_⟩
  · unfold SpecObj.plotLines
    rw [h'.Tps, h'.Tmm10, h'.Tm02]
    cases periods <;> rfl
  · simp; omega
  · intro j hj
    rw [h'.f]
    cases j with
    | zero => rfl
    | succ j =>
      rw [List.getD_cons_succ, getD_map_range _ _ _ _ (by omega)]

/-! ## Concrete cases: the hypotheses of the theorems above are met -/

theorem twoColumns_init : ∃ s, SpecObj.init (vec [0, 1, 2]) (.nd ⟨[3, 2], [1, 2, 3, 4, 5, 6]⟩) = .ok s :=
  ⟨_, (spectrum_init_any_shape (isArr_vec [0, 1, 2]) (shape := [3, 2]) (data := [1, 2, 3, 4, 5, 6]) (by simp) (by simp)).2
    ⟨by norm_num [monotonicIncreasingConstantStep, diff, stepTol], Or.inr ⟨2, rfl⟩, rfl⟩⟩

/-- `get_Tp(0.5, 1.5)` is 1 s for every pair of columns on this axis, the default range raises. -/
example : ∃ s, SpecObj.init (vec [0, 1, 2]) (.nd ⟨[3, 2], [1, 2, 3, 4, 5, 6]⟩) = .ok s ∧
    ((s.after [.getHm0 (-1) .inf]).getTp (1 / 2) (.fin (3 / 2))).1 = .ok 1 ∧
    Raises ((s.after [.getTp (1 / 2) (.fin (3 / 2))]).call (.getTps 0 .inf)).1 := by
  obtain ⟨s, hs⟩ := twoColumns_init
  refine ⟨s, hs, ?_, ?_⟩
  · rw [((directional_calls (isArr_vec [0, 1, 2]) (le_refl 2) (by simp) (by simp) hs [.getHm0 (-1) .inf]).2 (1 / 2) (.fin (3 / 2))).1 1 ?_]
    · norm_num
    · intro i
      unfold InRange
      constructor
      · rintro ⟨hi, h1, h2⟩
        simp only [List.length_cons, List.length_nil] at hi
        rcases i with _ | _ | _ | i
        · norm_num at h1
        · rfl
        · norm_num at h2
        · omega
      · rintro rfl
        norm_num
  · exact (directional_calls (isArr_vec [0, 1, 2]) (le_refl 2) (by simp) (by simp) hs _).1 _ (by simp)

example : ∃ s p, SpecObj.init (vec [0, 1, 2]) (.nd ⟨[3, 2], [1, 2, 3, 4, 5, 6]⟩) = .ok s ∧ s.plot = .ok p ∧
    p.more.getD 0 [] = [(0, 2), (1, 4), (2, 6)] := by
  obtain ⟨s, hs⟩ := twoColumns_init
  obtain ⟨p, h1, -, -, h2⟩ := directional_plot (isArr_vec [0, 1, 2]) (le_refl 2) (by simp) (by simp) hs [] true
  exact ⟨s, p, hs, h1, by have := h2 1 (by norm_num); simpa [List.range_succ] using this⟩

example (R : Rng) (g : R.State) : ∃ s msg, SpecObj.init (vec [0, 1, 2]) (.nd ⟨[3, 2], [1, 2, 3, 4, 5, 6]⟩) = .ok s ∧
    (s.after [.getTm01 0 .inf]).createSeries R 0 10 (1 / 2) g = (.error (.valueError msg), g) := by
  obtain ⟨s, hs⟩ := twoColumns_init
  obtain ⟨msg, h⟩ := directional_series R (isArr_vec [0, 1, 2]) (le_refl 2) (by simp) (by simp) hs [.getTm01 0 .inf] 0 10 (1 / 2) g
  exact ⟨s, msg, hs, h⟩

end Verif
