import Verif.Props.SpectrumValues

/-! # C56: steepness and HF/LF parameters, and the cached attributes they use -/

set_option linter.unusedSectionVars false

namespace Verif

/-! ## Specification: the values without caches -/

/-- `2 π H / (g T²)` from a wave height and a period computed over the requested range. -/
noncomputable def steepnessOf (rH rT : Except PyErr ℝ) (g : ℝ) : Except PyErr ℝ := do
  let h ← valE rH
  let t ← valE rT
  steepness (some h) (some t) g

theorem store_raise {c : Cache} {e : PyErr} (h : e ≠ .nonFinite) : store c (.error e) = c := by
  cases e <;> first | rfl | exact absurd rfl h

theorem valE_raise {e : PyErr} (h : e ≠ .nonFinite) : valE (.error e) = .error e := by
  cases e <;> first | rfl | exact absurd rfl h

/-- A result either raises or is stored, whatever was cached before. -/
theorem store_cases (r : Except PyErr ℝ) : (∃ e, e ≠ PyErr.nonFinite ∧ r = .error e) ∨
    ∃ v, valE r = .ok v ∧ ∀ c, store c r = some v := by
  cases r with
  | ok v => exact Or.inr ⟨some v, rfl, fun _ => rfl⟩
  | error e =>
    by_cases h : e = .nonFinite
    · subst h; exact Or.inr ⟨none, rfl, fun _ => rfl⟩
    · exact Or.inl ⟨e, h, rfl⟩

/-- Behaviour of `if not hasattr(...)` when the cache is either absent or holds the value of the same computation. -/
theorem ensure_cases {c : Cache} {r : Except PyErr ℝ} {s s' : SpecObj} (hc : c = none ∨ c = store none r) :
    (∃ e, e ≠ PyErr.nonFinite ∧ r = .error e ∧ c = none ∧ ensure c (r, s') s = (.error e, s')) ∨
    (∃ v, valE r = .ok v ∧ ((c = none ∧ ensure c (r, s') s = (.ok (), s')) ∨ (c = some v ∧ ensure c (r, s') s = (.ok (), s)))) := by
  rcases store_cases r with ⟨e, he, rfl⟩ | ⟨v, hv, hst⟩
  · left
    have hcn : c = none := by rcases hc with h | h; exacts [h, by rw [h, store_raise he]]
    refine ⟨e, he, rfl, hcn, ?_⟩
    subst hcn
    cases e <;> first | rfl | exact absurd rfl he
  · right
    refine ⟨v, hv, ?_⟩
    rcases hc with rfl | rfl
    · left
      refine ⟨rfl, ?_⟩
      cases r with
      | ok w => rfl
      | error e => cases e <;> first | rfl | (simp [valE] at hv)
    · right
      rw [hst]; exact ⟨rfl, rfl⟩

/-! ## Histories that use one range -/

/-- Calls that, as far as the steepness is concerned, only ever use the range `(a, b)`. -/
def SameRange (a : ℝ) (b : FMax ℝ) : SpecOp → Prop
  | .getHm0 a' b' => a' = a ∧ b' = b
  | .getTps a' b' => a' = a ∧ b' = b
  | .getTmm10 a' b' => a' = a ∧ b' = b
  | .getS0p a' b' _ => a' = a ∧ b' = b
  | .getSmm10 a' b' _ => a' = a ∧ b' = b
  | .getHm0HF a' _ => a' ≠ -1
  | .getTmm10HF a' _ => a' ≠ -1
  | .getHm0LF _ b' => b' ≠ .fin (-1)
  | .getTmm10LF _ b' => b' ≠ .fin (-1)
  | .getSmm10HF a' _ _ => a' ≠ -1
  | _ => True

/-- The caches hold values of the range `(a, b)` or nothing. -/
structure RangeInv (f : List ℝ) (S : Arr ℝ) (a : ℝ) (b : FMax ℝ) (s : SpecObj) : Prop where
  hf : s.f = f
  hS : s.sVarDens = S
  h1 : s.Hm0 = none ∨ s.Hm0 = store none (calcHm0 f S a b)
  h2 : s.Tps = none ∨ s.Tps = store none (calcTps f S a b)
  h3 : s.Tmm10 = none ∨ s.Tmm10 = store none (calcTmm10 f S a b)

theorem store_inv {c : Cache} {r : Except PyErr ℝ} (hc : c = none ∨ c = store none r) : store c r = none ∨ store c r = store none r := by
  rcases store_cases r with ⟨e, he, rfl⟩ | ⟨v, -, hst⟩
  · rw [store_raise he, store_raise he]
    rw [store_raise he] at hc
    rcases hc with h | h <;> exact Or.inl h
  · right; rw [hst, hst]

section
variable {f : List ℝ} {S : Arr ℝ} {a : ℝ} {b : FMax ℝ} {s : SpecObj}

theorem inv_getHm0 (h : RangeInv f S a b s) : RangeInv f S a b (s.getHm0 a b).2 := by
  refine ⟨h.hf, h.hS, ?_, h.h2, h.h3⟩
  show store s.Hm0 (calcHm0 s.f s.sVarDens a b) = none ∨
    store s.Hm0 (calcHm0 s.f s.sVarDens a b) = store none (calcHm0 f S a b)
  rw [h.hf, h.hS]; exact store_inv h.h1

theorem inv_getTps (h : RangeInv f S a b s) : RangeInv f S a b (s.getTps a b).2 := by
  refine ⟨h.hf, h.hS, h.h1, ?_, h.h3⟩
  show store s.Tps (calcTps s.f s.sVarDens a b) = none ∨
    store s.Tps (calcTps s.f s.sVarDens a b) = store none (calcTps f S a b)
  rw [h.hf, h.hS]; exact store_inv h.h2

theorem inv_getTmm10 (h : RangeInv f S a b s) : RangeInv f S a b (s.getTmm10 a b).2 := by
  refine ⟨h.hf, h.hS, h.h1, h.h2, ?_⟩
  show store s.Tmm10 (calcTmm10 s.f s.sVarDens a b) = none ∨
    store s.Tmm10 (calcTmm10 s.f s.sVarDens a b) = store none (calcTmm10 f S a b)
  rw [h.hf, h.hS]; exact store_inv h.h3

theorem inv_ensure {c : Cache} {r : Except PyErr ℝ × SpecObj} (h : RangeInv f S a b s) (hr : RangeInv f S a b r.2) :
    RangeInv f S a b (ensure c r s).2 := by
  unfold ensure
  cases c with
  | some _ => exact h
  | none =>
    obtain ⟨x, y⟩ := r
    cases x with
    | ok v => exact hr
    | error e => cases e <;> exact hr

theorem inv_getS0p (h : RangeInv f S a b s) (g : ℝ) : RangeInv f S a b (s.getS0p a b g).2 := by
  have h1 := inv_ensure (c := s.Hm0) h (inv_getHm0 h)
  unfold SpecObj.getS0p
  rcases e1 : ensure s.Hm0 (s.getHm0 a b) s with ⟨_ | _, s1⟩ <;> rw [e1] at h1
  · exact h1
  · dsimp only at h1 ⊢
    have h2 := inv_ensure (c := s1.Tps) h1 (inv_getTps h1)
    rcases e2 : ensure s1.Tps (s1.getTps a b) s1 with ⟨_ | _, s2⟩ <;> rw [e2] at h2
    · exact h2
    · exact ⟨h2.hf, h2.hS, h2.h1, h2.h2, h2.h3⟩

theorem inv_getSmm10 (h : RangeInv f S a b s) (g : ℝ) : RangeInv f S a b (s.getSmm10 a b g).2 := by
  have h1 := inv_ensure (c := s.Hm0) h (inv_getHm0 h)
  unfold SpecObj.getSmm10
  rcases e1 : ensure s.Hm0 (s.getHm0 a b) s with ⟨_ | _, s1⟩ <;> rw [e1] at h1
  · exact h1
  · dsimp only at h1 ⊢
    have h2 := inv_ensure (c := s1.Tmm10) h1 (inv_getTmm10 h1)
    rcases e2 : ensure s1.Tmm10 (s1.getTmm10 a b) s1 with ⟨_ | _, s2⟩ <;> rw [e2] at h2
    · exact h2
    · exact ⟨h2.hf, h2.hS, h2.h1, h2.h2, h2.h3⟩

theorem inv_getHm0HF {a' : ℝ} {b' : FMax ℝ} (ha : a' ≠ -1) (h : RangeInv f S a b s) : RangeInv f S a b (s.getHm0HF a' b').2 := by
  unfold SpecObj.getHm0HF
  rw [if_neg ha]; exact ⟨h.hf, h.hS, h.h1, h.h2, h.h3⟩

theorem inv_getTmm10HF {a' : ℝ} {b' : FMax ℝ} (ha : a' ≠ -1) (h : RangeInv f S a b s) : RangeInv f S a b (s.getTmm10HF a' b').2 := by
  unfold SpecObj.getTmm10HF
  rw [if_neg ha]; exact ⟨h.hf, h.hS, h.h1, h.h2, h.h3⟩

theorem inv_getSmm10HF {a' : ℝ} {b' : FMax ℝ} (ha : a' ≠ -1) (h : RangeInv f S a b s) (g : ℝ) :
    RangeInv f S a b (s.getSmm10HF a' b' g).2 := by
  have h1 := inv_ensure (c := s.Hm0HF) h (inv_getHm0HF (b' := b') ha h)
  unfold SpecObj.getSmm10HF
  rcases e1 : ensure s.Hm0HF (s.getHm0HF a' b') s with ⟨_ | _, s1⟩ <;> rw [e1] at h1
  · exact h1
  · dsimp only at h1 ⊢
    have h2 := inv_ensure (c := s1.Tmm10HF) h1 (inv_getTmm10HF (b' := b') ha h1)
    rcases e2 : ensure s1.Tmm10HF (s1.getTmm10HF a' b') s1 with ⟨_ | _, s2⟩ <;> rw [e2] at h2
    · exact h2
    · exact ⟨h2.hf, h2.hS, h2.h1, h2.h2, h2.h3⟩

theorem inv_call {op : SpecOp} (ho : SameRange a b op) (h : RangeInv f S a b s) : RangeInv f S a b (s.call op).2 := by
  cases op with
  | getHm0 a' b' => obtain ⟨rfl, rfl⟩ := ho; exact inv_getHm0 h
  | getHm0HF a' b' => exact inv_getHm0HF ho h
  | getHm0LF a' b' =>
    unfold SpecObj.call SpecObj.getHm0LF
    dsimp only
    rw [if_neg ho]; exact ⟨h.hf, h.hS, h.h1, h.h2, h.h3⟩
  | getTps a' b' => obtain ⟨rfl, rfl⟩ := ho; exact inv_getTps h
  | getTp a' b' => exact ⟨h.hf, h.hS, h.h1, h.h2, h.h3⟩
  | getTmm10 a' b' => obtain ⟨rfl, rfl⟩ := ho; exact inv_getTmm10 h
  | getTmm10HF a' b' => exact inv_getTmm10HF ho h
  | getTmm10LF a' b' =>
    unfold SpecObj.call SpecObj.getTmm10LF
    dsimp only
    rw [if_neg ho]; exact ⟨h.hf, h.hS, h.h1, h.h2, h.h3⟩
  | getTm01 a' b' => exact ⟨h.hf, h.hS, h.h1, h.h2, h.h3⟩
  | getTm02 a' b' => exact ⟨h.hf, h.hS, h.h1, h.h2, h.h3⟩
  | getS0p a' b' g => obtain ⟨rfl, rfl⟩ := ho; exact inv_getS0p h g
  | getSmm10 a' b' g => obtain ⟨rfl, rfl⟩ := ho; exact inv_getSmm10 h g
  | getSmm10HF a' b' g => exact inv_getSmm10HF ho h g

theorem inv_after {hist : List SpecOp} (ho : ∀ op ∈ hist, SameRange a b op) (h : RangeInv f S a b s) :
    RangeInv f S a b (s.after hist) := by
  induction hist generalizing s with
  | nil => exact h
  | cons op l ih =>
    exact ih (fun o ho' => ho o (List.mem_cons_of_mem _ ho')) (inv_call (ho op (List.mem_cons_self ..)) h)

theorem s0p_of_inv (h : RangeInv f S a b s) (g : ℝ) :
    (s.getS0p a b g).1 = steepnessOf (calcHm0 f S a b) (calcTps f S a b) g := by
  unfold SpecObj.getS0p steepnessOf
  have k1 := ensure_cases (s := s) (s' := (s.getHm0 a b).2) h.h1
  rw [show ((calcHm0 f S a b, (s.getHm0 a b).2) : Except PyErr ℝ × SpecObj) = s.getHm0 a b by
    unfold SpecObj.getHm0; rw [h.hf, h.hS]] at k1
  have aft : ∀ v s1, valE (calcHm0 f S a b) = .ok v → s1.Hm0 = some v → RangeInv f S a b s1 →
      (match ensure s1.Tps (s1.getTps a b) s1 with
        | (.error e, s2) => ((.error e, s2) : Except PyErr ℝ × SpecObj)
        | (.ok (), s2) =>
          let r := steepness s2.Hm0 s2.Tps g
          (r, { s2 with s0p := store s2.s0p r })).1 =
      (do
        let h ← valE (calcHm0 f S a b)
        let t ← valE (calcTps f S a b)
        steepness (some h) (some t) g) := by
    intro v s1 hv hs1 hi
    have k2 := ensure_cases (s := s1) (s' := (s1.getTps a b).2) hi.h2
    rw [show ((calcTps f S a b, (s1.getTps a b).2) : Except PyErr ℝ × SpecObj) = s1.getTps a b by
      unfold SpecObj.getTps; rw [hi.hf, hi.hS]] at k2
    rw [hv]
    rcases k2 with ⟨e, he, hr, -, k⟩ | ⟨w, hw, ⟨hc, k⟩ | ⟨hc, k⟩⟩
    · rw [k, hr, valE_raise he]; rfl
    · rw [k, hw]
      have : (s1.getTps a b).2.Tps = some w := by
        show store s1.Tps (calcTps s1.f s1.sVarDens a b) = some w
        rw [hi.hf, hi.hS]
        rcases store_cases (calcTps f S a b) with ⟨e, he, hr⟩ | ⟨v', hv', hst⟩
        · rw [hr, valE_raise he] at hw; cases hw
        · rw [hst]; rw [hv'] at hw; rw [Except.ok.inj hw]
      dsimp only [bind, Except.bind]
      rw [this, show (s1.getTps a b).2.Hm0 = some v from hs1]
    · rw [k, hw]
      dsimp only [bind, Except.bind]
      rw [hs1, hc]
  rcases k1 with ⟨e, he, hr, -, k⟩ | ⟨v, hv, ⟨hc, k⟩ | ⟨hc, k⟩⟩
  · rw [k, hr, valE_raise he]; rfl
  · rw [k]
    apply aft v _ hv _ (inv_getHm0 h)
    show store s.Hm0 (calcHm0 s.f s.sVarDens a b) = some v
    rw [h.hf, h.hS]
    rcases store_cases (calcHm0 f S a b) with ⟨e, he, hr⟩ | ⟨v', hv', hst⟩
    · rw [hr, valE_raise he] at hv; cases hv
    · rw [hst]; rw [hv'] at hv; rw [Except.ok.inj hv]
  · rw [k]
    exact aft v _ hv hc h

theorem smm10_of_inv (h : RangeInv f S a b s) (g : ℝ) :
    (s.getSmm10 a b g).1 = steepnessOf (calcHm0 f S a b) (calcTmm10 f S a b) g := by
  unfold SpecObj.getSmm10 steepnessOf
  have k1 := ensure_cases (s := s) (s' := (s.getHm0 a b).2) h.h1
  rw [show ((calcHm0 f S a b, (s.getHm0 a b).2) : Except PyErr ℝ × SpecObj) = s.getHm0 a b by
    unfold SpecObj.getHm0; rw [h.hf, h.hS]] at k1
  have aft : ∀ v s1, valE (calcHm0 f S a b) = .ok v → s1.Hm0 = some v → RangeInv f S a b s1 →
      (match ensure s1.Tmm10 (s1.getTmm10 a b) s1 with
        | (.error e, s2) => ((.error e, s2) : Except PyErr ℝ × SpecObj)
        | (.ok (), s2) =>
          let r := steepness s2.Hm0 s2.Tmm10 g
          (r, { s2 with smm10 := store s2.smm10 r })).1 =
      (do
        let h ← valE (calcHm0 f S a b)
        let t ← valE (calcTmm10 f S a b)
        steepness (some h) (some t) g) := by
    intro v s1 hv hs1 hi
    have k2 := ensure_cases (s := s1) (s' := (s1.getTmm10 a b).2) hi.h3
    rw [show ((calcTmm10 f S a b, (s1.getTmm10 a b).2) : Except PyErr ℝ × SpecObj) = s1.getTmm10 a b by
      unfold SpecObj.getTmm10; rw [hi.hf, hi.hS]] at k2
    rw [hv]
    rcases k2 with ⟨e, he, hr, -, k⟩ | ⟨w, hw, ⟨hc, k⟩ | ⟨hc, k⟩⟩
    · rw [k, hr, valE_raise he]; rfl
    · rw [k, hw]
      have : (s1.getTmm10 a b).2.Tmm10 = some w := by
        show store s1.Tmm10 (calcTmm10 s1.f s1.sVarDens a b) = some w
        rw [hi.hf, hi.hS]
        rcases store_cases (calcTmm10 f S a b) with ⟨e, he, hr⟩ | ⟨v', hv', hst⟩
        · rw [hr, valE_raise he] at hw; cases hw
        · rw [hst]; rw [hv'] at hw; rw [Except.ok.inj hw]
      dsimp only [bind, Except.bind]
      rw [this, show (s1.getTmm10 a b).2.Hm0 = some v from hs1]
    · rw [k, hw]
      dsimp only [bind, Except.bind]
      rw [hs1, hc]
  rcases k1 with ⟨e, he, hr, -, k⟩ | ⟨v, hv, ⟨hc, k⟩ | ⟨hc, k⟩⟩
  · rw [k, hr, valE_raise he]; rfl
  · rw [k]
    apply aft v _ hv _ (inv_getHm0 h)
    show store s.Hm0 (calcHm0 s.f s.sVarDens a b) = some v
    rw [h.hf, h.hS]
    rcases store_cases (calcHm0 f S a b) with ⟨e, he, hr⟩ | ⟨v', hv', hst⟩
    · rw [hr, valE_raise he] at hv; cases hv
    · rw [hst]; rw [hv'] at hv; rw [Except.ok.inj hv]
  · rw [k]
    exact aft v _ hv hc h

end

/-- **C56 (partial).**  As long as every earlier call on the object used the same range `(fmin, fmax)` (HF/LF calls with an
explicit cut-off are harmless), `get_s0p` and `get_smm10` return the steepness of that range.  Missing: histories that
mix ranges, for which the claim is false (see `stale_*`). -/
theorem steepness_honours_range_partial {pf pS : PyIn ℝ} {f S : List ℝ} (hf : pf.IsArr f) (hS : pS.IsArr S) {s : SpecObj}
    (hs : SpecObj.init pf pS = .ok s) {fmin : ℝ} {fmax : FMax ℝ} {hist : List SpecOp} (hh : ∀ op ∈ hist, SameRange fmin fmax op)
    (g : ℝ) :
    (((s.after hist).getS0p fmin fmax g).1 = steepnessOf (s.getHm0 fmin fmax).1 (s.getTps fmin fmax).1 g) ∧
    ((s.after hist).getSmm10 fmin fmax g).1 = steepnessOf (s.getHm0 fmin fmax).1 (s.getTmm10 fmin fmax).1 g := by
  obtain ⟨hm, hl, rfl⟩ := (spectrum_init_iff_partial hf hS).1 hs
  have inv := inv_after hh (s := { f := f, sVarDens := ⟨[S.length], S⟩, nf := f.length }) (f := f) (S := ⟨[S.length], S⟩)
    ⟨rfl, rfl, Or.inl rfl, Or.inl rfl, Or.inl rfl⟩
  exact ⟨s0p_of_inv inv g, smm10_of_inv inv g⟩

/-! ## The default cut-off -/

/-- Calls that compute `Tm-1,0` over the whole axis only. -/
def DefaultTmm10 : SpecOp → Prop
  | .getTmm10 a b => a = -1 ∧ b = .fin (-1)
  | .getSmm10 a b _ => a = -1 ∧ b = .fin (-1)
  | _ => True

/-- The `Tmm10` cache is empty or holds the value of the whole axis. -/
structure CutInv (f : List ℝ) (S : Arr ℝ) (s : SpecObj) : Prop where
  hf : s.f = f
  hS : s.sVarDens = S
  h3 : s.Tmm10 = none ∨ s.Tmm10 = store none (calcTmm10 f S (-1) (.fin (-1)))

section
variable {f : List ℝ} {S : Arr ℝ} {s : SpecObj}

theorem cutInv_getTmm10 (h : CutInv f S s) : CutInv f S (s.getTmm10 (-1) (.fin (-1))).2 := by
  refine ⟨h.hf, h.hS, ?_⟩
  show store s.Tmm10 (calcTmm10 s.f s.sVarDens (-1) (.fin (-1))) = none ∨
    store s.Tmm10 (calcTmm10 s.f s.sVarDens (-1) (.fin (-1))) = store none (calcTmm10 f S (-1) (.fin (-1)))
  rw [h.hf, h.hS]; exact store_inv h.h3

theorem cutInv_cutoff (h : CutInv f S s) : CutInv f S s.cutoff.2 := by
  have h' := cutInv_getTmm10 h
  unfold SpecObj.cutoff
  cases hc : s.Tmm10 with
  | some c => dsimp only; split <;> (try split_ifs) <;> exact h
  | none =>
    dsimp only
    rcases hg : s.getTmm10 (-1) (.fin (-1)) with ⟨r, s'⟩
    rw [hg] at h'
    dsimp only at h' ⊢
    split <;> (try split_ifs) <;> exact h'

theorem cutInv_ensure {c : Cache} {r : Except PyErr ℝ × SpecObj} (h : CutInv f S s) (hr : CutInv f S r.2) :
    CutInv f S (ensure c r s).2 := by
  unfold ensure
  cases c with
  | some _ => exact h
  | none =>
    obtain ⟨x, y⟩ := r
    cases x with
    | ok v => exact hr
    | error e => cases e <;> exact hr

theorem cutInv_getHm0HF (h : CutInv f S s) (a : ℝ) (b : FMax ℝ) : CutInv f S (s.getHm0HF a b).2 := by
  have hc := cutInv_cutoff h
  unfold SpecObj.getHm0HF
  split_ifs
  · rcases hh : s.cutoff with ⟨_ | _, s'⟩ <;> rw [hh] at hc
    · exact hc
    · exact ⟨hc.hf, hc.hS, hc.h3⟩
  · exact ⟨h.hf, h.hS, h.h3⟩

theorem cutInv_getTmm10HF (h : CutInv f S s) (a : ℝ) (b : FMax ℝ) : CutInv f S (s.getTmm10HF a b).2 := by
  have hc := cutInv_cutoff h
  unfold SpecObj.getTmm10HF
  split_ifs
  · rcases hh : s.cutoff with ⟨_ | _, s'⟩ <;> rw [hh] at hc
    · exact hc
    · exact ⟨hc.hf, hc.hS, hc.h3⟩
  · exact ⟨h.hf, h.hS, h.h3⟩

theorem cutInv_call {op : SpecOp} (ho : DefaultTmm10 op) (h : CutInv f S s) : CutInv f S (s.call op).2 := by
  have hc := cutInv_cutoff h
  cases op with
  | getHm0 a b => exact ⟨h.hf, h.hS, h.h3⟩
  | getHm0HF a b => exact cutInv_getHm0HF h a b
  | getHm0LF a b =>
    unfold SpecObj.call SpecObj.getHm0LF
    dsimp only
    split_ifs
    · rcases hh : s.cutoff with ⟨_ | _, s'⟩ <;> rw [hh] at hc
      · exact hc
      · exact ⟨hc.hf, hc.hS, hc.h3⟩
    · exact ⟨h.hf, h.hS, h.h3⟩
  | getTps a b => exact ⟨h.hf, h.hS, h.h3⟩
  | getTp a b => exact ⟨h.hf, h.hS, h.h3⟩
  | getTmm10 a b => obtain ⟨rfl, rfl⟩ := ho; exact cutInv_getTmm10 h
  | getTmm10HF a b => exact cutInv_getTmm10HF h a b
  | getTmm10LF a b =>
    unfold SpecObj.call SpecObj.getTmm10LF
    dsimp only
    split_ifs
    · rcases hh : s.cutoff with ⟨_ | _, s'⟩ <;> rw [hh] at hc
      · exact hc
      · exact ⟨hc.hf, hc.hS, hc.h3⟩
    · exact ⟨h.hf, h.hS, h.h3⟩
  | getTm01 a b => exact ⟨h.hf, h.hS, h.h3⟩
  | getTm02 a b => exact ⟨h.hf, h.hS, h.h3⟩
  | getS0p a b g =>
    have h1 := cutInv_ensure (c := s.Hm0) (r := s.getHm0 a b) h ⟨h.hf, h.hS, h.h3⟩
    show CutInv f S (s.getS0p a b g).2
    unfold SpecObj.getS0p
    rcases e1 : ensure s.Hm0 (s.getHm0 a b) s with ⟨_ | _, s1⟩ <;> rw [e1] at h1
    · exact h1
    · dsimp only at h1 ⊢
      have h2 := cutInv_ensure (c := s1.Tps) (r := s1.getTps a b) h1 ⟨h1.hf, h1.hS, h1.h3⟩
      rcases e2 : ensure s1.Tps (s1.getTps a b) s1 with ⟨_ | _, s2⟩ <;> rw [e2] at h2
      · exact h2
      · exact ⟨h2.hf, h2.hS, h2.h3⟩
  | getSmm10 a b g =>
    obtain ⟨rfl, rfl⟩ := ho
    have h1 := cutInv_ensure (c := s.Hm0) (r := s.getHm0 (-1) (.fin (-1))) h ⟨h.hf, h.hS, h.h3⟩
    show CutInv f S (s.getSmm10 (-1) (.fin (-1)) g).2
    unfold SpecObj.getSmm10
    rcases e1 : ensure s.Hm0 (s.getHm0 (-1) (.fin (-1))) s with ⟨_ | _, s1⟩ <;> rw [e1] at h1
    · exact h1
    · dsimp only at h1 ⊢
      have h2 := cutInv_ensure (c := s1.Tmm10) h1 (cutInv_getTmm10 h1)
      rcases e2 : ensure s1.Tmm10 (s1.getTmm10 (-1) (.fin (-1))) s1 with ⟨_ | _, s2⟩ <;> rw [e2] at h2
      · exact h2
      · exact ⟨h2.hf, h2.hS, h2.h3⟩
  | getSmm10HF a b g =>
    have h1 := cutInv_ensure (c := s.Hm0HF) h (cutInv_getHm0HF h a b)
    show CutInv f S (s.getSmm10HF a b g).2
    unfold SpecObj.getSmm10HF
    rcases e1 : ensure s.Hm0HF (s.getHm0HF a b) s with ⟨_ | _, s1⟩ <;> rw [e1] at h1
    · exact h1
    · dsimp only at h1 ⊢
      have h2 := cutInv_ensure (c := s1.Tmm10HF) h1 (cutInv_getTmm10HF h1 a b)
      rcases e2 : ensure s1.Tmm10HF (s1.getTmm10HF a b) s1 with ⟨_ | _, s2⟩ <;> rw [e2] at h2
      · exact h2
      · exact ⟨h2.hf, h2.hS, h2.h3⟩

theorem cutInv_after {hist : List SpecOp} (ho : ∀ op ∈ hist, DefaultTmm10 op) (h : CutInv f S s) : CutInv f S (s.after hist) := by
  induction hist generalizing s with
  | nil => exact h
  | cons op l ih =>
    exact ih (fun o ho' => ho o (List.mem_cons_of_mem _ ho')) (cutInv_call (ho op (List.mem_cons_self ..)) h)

/-- The documented default cut-off `0.45 / Tm-1,0` with `Tm-1,0` of the whole spectrum; non-finite or zero periods are
outside the model. -/
noncomputable def defaultCutoff (f : List ℝ) (S : Arr ℝ) : Except PyErr ℝ :=
  match calcTmm10 f S (-1) (.fin (-1)) with
  | .ok T => if T = 0 then .error .unmodelled else .ok (45 / 100 / T)
  | .error .nonFinite => .error .unmodelled
  | .error e => .error e

theorem cutoff_of_inv (h : CutInv f S s) : s.cutoff.1 = defaultCutoff f S := by
  unfold SpecObj.cutoff defaultCutoff
  rcases h.h3 with hc | hc
  · rw [hc]
    dsimp only [SpecObj.getTmm10]
    rw [h.hf, h.hS]
    cases hr : calcTmm10 f S (-1) (.fin (-1)) with
    | ok T => dsimp only [store]; split_ifs <;> rfl
    | error e => cases e <;> rfl
  · cases hr : calcTmm10 f S (-1) (.fin (-1)) with
    | ok T =>
      rw [hr] at hc
      have hc' : s.Tmm10 = some (some T) := hc
      simp only [hc']
      split_ifs <;> rfl
    | error e =>
      by_cases he : e = .nonFinite
      · subst he; rw [hr] at hc
        have hc' : s.Tmm10 = some none := hc
        simp only [hc']
      · rw [hr, store_raise he] at hc
        rw [hc]
        dsimp only [SpecObj.getTmm10]
        rw [h.hf, h.hS, hr]
        cases e <;> first | rfl | exact absurd rfl he

end

/-- **C56 (partial).**  As long as every earlier `get_Tmm10` / `get_smm10` call used the default range, the default cut-off of the
four HF/LF getters is the documented `0.45 / Tm-1,0` of the whole spectrum, and the results are those of the explicit
cut-off.  Missing: histories with other `get_Tmm10` / `get_smm10` ranges, for which the claim is false. -/
theorem hf_lf_default_cutoff_partial {pf pS : PyIn ℝ} {f S : List ℝ} (hf : pf.IsArr f) (hS : pS.IsArr S) {s : SpecObj}
    (hs : SpecObj.init pf pS = .ok s) {hist : List SpecOp} (hh : ∀ op ∈ hist, DefaultTmm10 op) {c : ℝ}
    (hc : defaultCutoff f s.sVarDens = .ok c) (fmin : ℝ) (fmax : FMax ℝ) :
    ((s.after hist).getHm0HF (-1) fmax).1 = calcHm0 f s.sVarDens c fmax ∧
    ((s.after hist).getHm0LF fmin (.fin (-1))).1 = calcHm0 f s.sVarDens fmin (.fin c) ∧
    ((s.after hist).getTmm10HF (-1) fmax).1 = calcTmm10 f s.sVarDens c fmax ∧
    ((s.after hist).getTmm10LF fmin (.fin (-1))).1 = calcTmm10 f s.sVarDens fmin (.fin c) := by
  obtain ⟨hm, hl, rfl⟩ := (spectrum_init_iff_partial hf hS).1 hs
  have inv := cutInv_after hh (s := { f := f, sVarDens := ⟨[S.length], S⟩, nf := f.length }) (f := f) (S := ⟨[S.length], S⟩)
    ⟨rfl, rfl, Or.inl rfl⟩
  generalize SpecObj.after _ hist = t at inv
  have e := cutoff_of_inv inv
  have i2 := cutInv_cutoff inv
  rw [hc] at e
  rcases hcut : t.cutoff with ⟨r, t'⟩
  rw [hcut] at e i2
  dsimp only at e i2
  subst e
  unfold SpecObj.getHm0HF SpecObj.getHm0LF SpecObj.getTmm10HF SpecObj.getTmm10LF
  simp only [if_true, hcut, i2.hf, i2.hS, and_self]

/-! ## Findings: stale caches -/

/-- **C56 (finding).**  Once `Hm0` and `Tmm10` have been computed, over whatever ranges, `get_smm10` ignores its range
arguments and mixes those earlier values. -/
theorem stale_smm10 {s : SpecObj} {a a' c : ℝ} {b b' d : FMax ℝ} {H T : ℝ} (hH : (s.getHm0 a b).1 = .ok H)
    (hT : (s.getTmm10 a' b').1 = .ok T) (g : ℝ) :
    ((s.after [.getHm0 a b, .getTmm10 a' b']).getSmm10 c d g).1 = divE (2 * Real.pi * H) (g * T ^ 2) := by
  have hH' : calcHm0 s.f s.sVarDens a b = .ok H := hH
  have hT' : calcTmm10 s.f s.sVarDens a' b' = .ok T := hT
  simp only [SpecObj.after, List.foldl, SpecObj.call, SpecObj.getHm0, SpecObj.getTmm10, hH', hT', store]
  unfold SpecObj.getSmm10
  simp [ensure, steepness]

/-- **C56 (finding).**  The same for `get_s0p`. -/
theorem stale_s0p {s : SpecObj} {a a' c : ℝ} {b b' d : FMax ℝ} {H T : ℝ} (hH : (s.getHm0 a b).1 = .ok H)
    (hT : (s.getTps a' b').1 = .ok T) (g : ℝ) :
    ((s.after [.getHm0 a b, .getTps a' b']).getS0p c d g).1 = divE (2 * Real.pi * H) (g * T ^ 2) := by
  have hH' : calcHm0 s.f s.sVarDens a b = .ok H := hH
  have hT' : calcTps s.f s.sVarDens a' b' = .ok T := hT
  simp only [SpecObj.after, List.foldl, SpecObj.call, SpecObj.getHm0, SpecObj.getTps, hH', hT', store]
  unfold SpecObj.getS0p
  simp [ensure, steepness]

/-- **C56 (finding).**  The default cut-off of `get_Hm0_HF` follows the last `get_Tmm10` call, whatever its range was. -/
theorem stale_cutoff {s : SpecObj} {a : ℝ} {b fmax : FMax ℝ} {T : ℝ} (hT : (s.getTmm10 a b).1 = .ok T) (h0 : T ≠ 0) :
    ((s.after [.getTmm10 a b]).getHm0HF (-1) fmax).1 = calcHm0 s.f s.sVarDens (45 / 100 / T) fmax := by
  have hT' : calcTmm10 s.f s.sVarDens a b = .ok T := hT
  simp only [SpecObj.after, List.foldl, SpecObj.call, SpecObj.getTmm10, hT', store]
  unfold SpecObj.getHm0HF SpecObj.cutoff
  simp [h0]

section concrete

/-- A flat spectrum on the axis 1, 2, 3 Hz. -/
noncomputable def flatSpec : SpecObj := { f := [1, 2, 3], sVarDens := ⟨[3], [1, 1, 1]⟩, nf := 3 }

theorem flatSpec_init : SpecObj.init (vec [1, 2, 3]) (vec [1, 1, 1]) = .ok flatSpec := by
  refine (spectrum_init_iff_partial (isArr_vec [1, 2, 3]) (isArr_vec [1, 1, 1])).2 ⟨?_, rfl, rfl⟩
  norm_num [monotonicIncreasingConstantStep, diff, stepTol]

theorem flat_m0_12 : computeMoment (K := ℝ) (vec [1, 2, 3]) (vec [1, 1, 1]) 0 1 (.fin 2) = .ok 1 := by
  norm_num [computeMoment, vecIn, vec, toVector, toArr, size2, Arr.size, monotonicIncreasingConstantStep, diff, stepTol,
    computeMomentL, getE, lastE, momentBetween, approxArrayIndex, argminAux, momentSum, simpson, simpOdd, pySlice, bind, Except.bind]
  try simp

theorem flat_m0_13 : computeMoment (K := ℝ) (vec [1, 2, 3]) (vec [1, 1, 1]) 0 1 (.fin 3) = .ok 2 := by
  norm_num [computeMoment, vecIn, vec, toVector, toArr, size2, Arr.size, monotonicIncreasingConstantStep, diff, stepTol,
    computeMomentL, getE, lastE, momentBetween, approxArrayIndex, argminAux, momentSum, simpson, simpOdd, pySlice, bind, Except.bind]
  try simp

theorem flat_m1_13 : computeMoment (K := ℝ) (vec [1, 2, 3]) (vec [1, 1, 1]) (-1) 1 (.fin 3) = .ok (10 / 9) := by
  norm_num [computeMoment, vecIn, vec, toVector, toArr, size2, Arr.size, monotonicIncreasingConstantStep, diff, stepTol,
    computeMomentL, getE, lastE, momentBetween, approxArrayIndex, argminAux, momentSum, simpson, simpOdd, pySlice, bind, Except.bind]
  try simp

theorem flat_Hm0_12 : (flatSpec.getHm0 1 (.fin 2)).1 = .ok 4 := by
  show calcHm0 [1, 2, 3] ⟨[3], [1, 1, 1]⟩ 1 (.fin 2) = .ok 4
  unfold calcHm0 setFlim
  rw [if_neg (by norm_num), if_neg (by simp; norm_num)]
  have := flat_m0_12
  simp only [vec, List.length_cons, List.length_nil, Nat.zero_add, Nat.reduceAdd] at this
  simp only [vec, List.length_cons, List.length_nil, Nat.zero_add, Nat.reduceAdd, this, bind, Except.bind]
  norm_num [heightOf]

theorem flat_Hm0 : (flatSpec.getHm0 (-1) (.fin (-1))).1 = .ok (4 * Real.sqrt 2) := by
  show calcHm0 [1, 2, 3] ⟨[3], [1, 1, 1]⟩ (-1) (.fin (-1)) = .ok (4 * Real.sqrt 2)
  unfold calcHm0 setFlim
  rw [if_pos rfl, if_pos rfl]
  have := flat_m0_13
  simp only [vec, List.length_cons, List.length_nil, Nat.zero_add, Nat.reduceAdd] at this
  simp [vec, this, bind, Except.bind]
  norm_num [heightOf]

theorem flat_Tmm10 : (flatSpec.getTmm10 (-1) (.fin (-1))).1 = .ok (5 / 9) := by
  show calcTmm10 [1, 2, 3] ⟨[3], [1, 1, 1]⟩ (-1) (.fin (-1)) = .ok (5 / 9)
  unfold calcTmm10 setFlim
  rw [if_pos rfl, if_pos rfl]
  have h1 := flat_m0_13
  have h2 := flat_m1_13
  simp only [vec, List.length_cons, List.length_nil, Nat.zero_add, Nat.reduceAdd] at h1 h2
  simp [vec, h1, h2, bind, Except.bind, divE]
  norm_num

/-- **C56 (refuted).**  For the flat spectrum, calling `get_Hm0(1, 2)` and `get_Tmm10()` first changes what
`get_smm10()` returns. -/
theorem smm10_depends_on_history : ((flatSpec.after [.getHm0 1 (.fin 2), .getTmm10 (-1) (.fin (-1))]).getSmm10 (-1) (.fin (-1)) 1).1 ≠
    (flatSpec.getSmm10 (-1) (.fin (-1)) 1).1 := by
  rw [stale_smm10 flat_Hm0_12 flat_Tmm10]
  have h := (steepness_honours_range_partial (isArr_vec [1, 2, 3]) (isArr_vec [1, 1, 1]) flatSpec_init (fmin := -1)
    (fmax := .fin (-1)) (hist := []) (by simp) 1).2
  have h' : (flatSpec.getSmm10 (-1) (.fin (-1)) 1).1 = _ := h
  rw [h', flat_Hm0, flat_Tmm10]
  simp only [steepnessOf, valE, steepness, bind, Except.bind, divE]
  rw [if_neg (by norm_num), if_neg (by norm_num)]
  intro hc
  have hc := Except.ok.inj hc
  have hpi := Real.pi_pos
  have h2 : (1 : ℝ) < Real.sqrt 2 := by
    rw [show (1 : ℝ) = Real.sqrt 1 by simp]
    exact Real.sqrt_lt_sqrt (by norm_num) (by norm_num)
  rw [div_left_inj' (by norm_num)] at hc
  nlinarith

end concrete

/-! ## Concrete cases: the hypotheses of the theorems above are met -/

/-- The triangular spectrum, default range, after two other calls with the same range; and with stale values. -/
example : ∃ s, SpecObj.init (vec [1, 2, 3]) (vec [1, 2, 1]) = .ok s ∧
    ((s.after [.getHm0 (-1) (.fin (-1)), .getTps (-1) (.fin (-1))]).getS0p (-1) (.fin (-1)) 1).1 =
      steepnessOf (.ok (4 * Real.sqrt (10 / 3))) (.ok (1 / 2)) 1 ∧
    ((s.after [.getTmm10 (-1) (.fin (-1))]).getHm0HF (-1) .inf).1 = calcHm0 s.f s.sVarDens (45 / 100 / (8 / 15)) .inf ∧
    ((s.after [.getHm0 (-1) (.fin (-1)), .getTmm10 (-1) (.fin (-1))]).getSmm10 2 (.fin 3) 1).1 =
      divE (2 * Real.pi * (4 * Real.sqrt (10 / 3))) (1 * (8 / 15) ^ 2) ∧
    ((s.after [.getHm0 (-1) (.fin (-1)), .getTps (-1) (.fin (-1))]).getS0p 2 (.fin 3) 1).1 =
      divE (2 * Real.pi * (4 * Real.sqrt (10 / 3))) (1 * (1 / 2) ^ 2) ∧
    ((s.after [.getSmm10 (-1) (.fin (-1)) 1]).getHm0LF 1 (.fin (-1))).1 = calcHm0 [1, 2, 3] s.sVarDens 1 (.fin (45 / 100 / (8 / 15))) := by
  obtain ⟨s, hs, hH, hp, hT, h10, h01⟩ := tri_values
  have e := spectrum_init_sound (isArr_vec [1, 2, 3]) (isArr_vec [1, 2, 1]) hs
  have h := (steepness_honours_range_partial (isArr_vec [1, 2, 3]) (isArr_vec [1, 2, 1]) hs (fmin := -1) (fmax := .fin (-1))
    (hist := [.getHm0 (-1) (.fin (-1)), .getTps (-1) (.fin (-1))]) (by simp [SameRange]) 1).1
  rw [hH, hT] at h
  refine ⟨s, hs, h, stale_cutoff h10 (by norm_num), stale_smm10 hH h10 1, stale_s0p hH hT 1, ?_⟩
  refine (hf_lf_default_cutoff_partial (isArr_vec [1, 2, 3]) (isArr_vec [1, 2, 1]) hs (hist := [.getSmm10 (-1) (.fin (-1)) 1])
    (by simp [DefaultTmm10]) (c := 45 / 100 / (8 / 15)) ?_ 1 .inf).2.1
  have h10' : calcTmm10 [1, 2, 3] s.sVarDens (-1) (.fin (-1)) = .ok (8 / 15) := by
    rw [← h10, ← e.1]
    rfl
  unfold defaultCutoff
  rw [h10']
  norm_num

end Verif
