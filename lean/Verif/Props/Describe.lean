import Verif.Model.Describe
import Verif.Props.SeriesHist
import Verif.Props.NaNSpectrum
import Verif.Props.BG
import Verif.Props.SteepExact
import Verif.Props.RecordHeight

/-! # C151: printed descriptions and the direction array; C152: warnings -/

set_option linter.unusedSectionVars false

namespace Verif

/-! ## C151 -/

/-- A decimal number determines the number. -/
theorem decimal_injective {m n : Nat} (h : toString m = toString n) : m = n := by
  have h1 : Nat.toDigits 10 m = Nat.toDigits 10 n := by
    have := congrArg String.toList h
    simpa using this
  rw [← Nat.ofDigitChars_toDigits (b := 10) (n := m) (by norm_num) (by norm_num), h1, Nat.ofDigitChars_toDigits (by norm_num) (by norm_num)]

theorem text_injective {a b : String} {m n : Nat} (h : a ++ toString m ++ b = a ++ toString n ++ b) : m = n := by
  apply decimal_injective
  have h' := congrArg String.toList h
  simp only [String.toList_append] at h'
  have := List.append_cancel_left (List.append_cancel_right h')
  exact String.toList_inj.1 this

section
variable {K : Type} [Field K] [LinearOrder K] [IsStrictOrderedRing K] [FloorRing K]

/-- **C151 (`WaveHeights`).**  Whatever methods are called, the description names the number of waves it was made of. -/
theorem waves_description (A : Argsort K) {hs ts : List K} {ph pt : PyIn K} (hh : ph.IsVec hs) (ht : pt.IsVec ts) (ops : List (WHOp K)) {s : WH K}
    (hs' : WH.init ph pt = .ok s) :
    (s.run A ops).str = "Series with " ++ toString hs.length ++ " elements" ∧
      (s.run A ops).repr = "WaveHeights (series  nt = " ++ toString hs.length ++ ")" := by
  have e : s = ⟨arr1 hs, hs.length, arr1 ts⟩ := by
    have : WH.init ph pt = .ok ⟨arr1 hs, hs.length, arr1 ts⟩ := by
      simp [WH.init, toVector_of_isVec hh, toVector_of_isVec ht, arr1, Arr.len]
    rw [this] at hs'
    exact (Except.ok.inj hs').symm
  have hw : s.WF := by rw [e]; constructor <;> simp [arr1, Arr.WF]
  have e2 : (s.run A ops).nwave = hs.length := by
    rw [(waves_never_corrupted A ops hw).count, e]
  unfold WH.str WH.repr
  rw [e2]
  exact ⟨rfl, rfl⟩
end

/-- **C151 (`Series`).**  Whatever methods are called, the description names the number of samples (not the number of waves). -/
theorem series_description (A : Argsort ℝ) {t x : List ℝ} {pt px : PyIn ℝ} (ht : pt.IsVec t) (hx : px.IsVec x) (hist : List SeriesOp) {s : SeriesObj ℝ}
    (hs : SeriesObj.init pt px = .ok s) :
    (s.run A hist).str = "Series with " ++ toString t.length ++ " elements" ∧ (s.run A hist).repr = "Series (series  nt = " ++ toString t.length ++ ")" := by
  have e : s.nt = t.length := by
    simp only [SeriesObj.init, timeSteps, toVector_of_isVec ht, toVector_of_isVec hx] at hs
    split_ifs at hs
    obtain ⟨d, -, hs⟩ := bind_ok.1 hs
    split_ifs at hs
    obtain ⟨⟨w, tc, s1⟩, h1, hs⟩ := bind_ok.1 hs
    obtain ⟨wh, -, hs⟩ := bind_ok.1 hs
    obtain ⟨_, _, _, _, -, -, -, h3, -⟩ := small_waves_filtered h1
    have := Except.ok.inj hs
    subst this
    exact h3
  have e2 : (s.run A hist).nt = t.length := by
    rw [← e]; exact (run_sameSignal A hist s).nt
  unfold SeriesObj.str SeriesObj.repr
  rw [e2]
  exact ⟨rfl, rfl⟩

/-- **C151 (the description identifies the size).**  Two wave records or two series with the same description have the same number of
elements. -/
theorem description_identifies (s s' : SeriesObj ℝ) (w w' : WH ℝ) : (s.str = s'.str ↔ s.nt = s'.nt) ∧ (s.repr = s'.repr ↔ s.nt = s'.nt) ∧
    (w.str = w'.str ↔ w.nwave = w'.nwave) ∧ (w.repr = w'.repr ↔ w.nwave = w'.nwave) := by
  refine ⟨⟨text_injective, fun h => by unfold SeriesObj.str; rw [h]⟩, ⟨fun h => ?_, fun h => by unfold SeriesObj.repr; rw [h]⟩,
    ⟨text_injective, fun h => by unfold WH.str; rw [h]⟩, ⟨fun h => ?_, fun h => by unfold WH.repr; rw [h]⟩⟩
  · exact text_injective (a := "Series" ++ " (series  nt = ") (b := ")") h
  · exact text_injective (a := "WaveHeights" ++ " (series  nt = ") (b := ")") h

/-! ### Spectra -/

theorem cutoff_nf (s : SpecObj) : s.cutoff.2.nf = s.nf := by
  unfold SpecObj.cutoff SpecObj.getTmm10
  cases s.Tmm10 with
  | some c => dsimp only; split <;> (try split_ifs) <;> rfl
  | none => dsimp only; split <;> (try split_ifs) <;> rfl

theorem ensure_nf {c : Cache} {r : Except PyErr ℝ × SpecObj} {s : SpecObj} (h : r.2.nf = s.nf) : (ensure c r s).2.nf = s.nf := by
  unfold ensure
  cases c with
  | some _ => rfl
  | none =>
    obtain ⟨a, b⟩ := r
    cases a with
    | ok v => exact h
    | error e => cases e <;> exact h

theorem getHm0HF_nf (s : SpecObj) (a : ℝ) (b : FMax ℝ) : (s.getHm0HF a b).2.nf = s.nf := by
  have hc := cutoff_nf s
  unfold SpecObj.getHm0HF
  split_ifs
  · rcases hh : s.cutoff with ⟨_ | _, s'⟩ <;> rw [hh] at hc <;> exact hc
  · rfl

theorem getTmm10HF_nf (s : SpecObj) (a : ℝ) (b : FMax ℝ) : (s.getTmm10HF a b).2.nf = s.nf := by
  have hc := cutoff_nf s
  unfold SpecObj.getTmm10HF
  split_ifs
  · rcases hh : s.cutoff with ⟨_ | _, s'⟩ <;> rw [hh] at hc <;> exact hc
  · rfl

theorem call_nf (s : SpecObj) (op : SpecOp) : (s.call op).2.nf = s.nf := by
  have hc := cutoff_nf s
  cases op with
  | getHm0HF a b => exact getHm0HF_nf s a b
  | getTmm10HF a b => exact getTmm10HF_nf s a b
  | getHm0LF a b =>
    show (s.getHm0LF a b).2.nf = s.nf
    unfold SpecObj.getHm0LF
    split_ifs
    · rcases hh : s.cutoff with ⟨_ | _, s'⟩ <;> rw [hh] at hc <;> exact hc
    · rfl
  | getTmm10LF a b =>
    show (s.getTmm10LF a b).2.nf = s.nf
    unfold SpecObj.getTmm10LF
    split_ifs
    · rcases hh : s.cutoff with ⟨_ | _, s'⟩ <;> rw [hh] at hc <;> exact hc
    · rfl
  | getS0p a b g =>
    have h1 := ensure_nf (c := s.Hm0) (r := s.getHm0 a b) (s := s) rfl
    show (s.getS0p a b g).2.nf = s.nf
    unfold SpecObj.getS0p
    rcases e1 : ensure s.Hm0 (s.getHm0 a b) s with ⟨_ | _, s1⟩ <;> rw [e1] at h1
    · exact h1
    · have h2 := ensure_nf (c := s1.Tps) (r := s1.getTps a b) (s := s1) rfl
      dsimp only at h1 ⊢
      rcases e2 : ensure s1.Tps (s1.getTps a b) s1 with ⟨_ | _, s2⟩ <;> rw [e2] at h2 <;> exact h2.trans h1
  | getSmm10 a b g =>
    have h1 := ensure_nf (c := s.Hm0) (r := s.getHm0 a b) (s := s) rfl
    show (s.getSmm10 a b g).2.nf = s.nf
    unfold SpecObj.getSmm10
    rcases e1 : ensure s.Hm0 (s.getHm0 a b) s with ⟨_ | _, s1⟩ <;> rw [e1] at h1
    · exact h1
    · have h2 := ensure_nf (c := s1.Tmm10) (r := s1.getTmm10 a b) (s := s1) rfl
      dsimp only at h1 ⊢
      rcases e2 : ensure s1.Tmm10 (s1.getTmm10 a b) s1 with ⟨_ | _, s2⟩ <;> rw [e2] at h2 <;> exact h2.trans h1
  | getSmm10HF a b g =>
    have h1 := ensure_nf (c := s.Hm0HF) (r := s.getHm0HF a b) (s := s) (getHm0HF_nf s a b)
    show (s.getSmm10HF a b g).2.nf = s.nf
    unfold SpecObj.getSmm10HF
    rcases e1 : ensure s.Hm0HF (s.getHm0HF a b) s with ⟨_ | _, s1⟩ <;> rw [e1] at h1
    · exact h1
    · have h2 := ensure_nf (c := s1.Tmm10HF) (r := s1.getTmm10HF a b) (s := s1) (getTmm10HF_nf s1 a b)
      dsimp only at h1 ⊢
      rcases e2 : ensure s1.Tmm10HF (s1.getTmm10HF a b) s1 with ⟨_ | _, s2⟩ <;> rw [e2] at h2 <;> exact h2.trans h1
  | _ => rfl

theorem SpecD.after_eq (s : SpecD) (hist : List SpecOp) : s.after hist = ⟨s.base.after hist, s.D, s.spec⟩ := by
  induction hist generalizing s with
  | nil => rfl
  | cons op l ih => exact ih (s.call op).2

theorem after_nf (s : SpecObj) (hist : List SpecOp) : (s.after hist).nf = s.nf := by
  induction hist generalizing s with
  | nil => rfl
  | cons op l ih => exact (ih (s.call op).2).trans (call_nf s op)

/-- **C151 (`Spectrum`).**  A spectrum with a direction array (of any shape) is accepted exactly when it is without it; every call on it,
after any history, returns what it would without directions; and its description says "2D" exactly if the array has elements, with the number
of frequencies. -/
theorem spectrum_description {pf pS : PyIn ℝ} {f S : List ℝ} (hf : pf.IsArr f) (hS : pS.IsArr S) (D : Arr ℝ) (hist : List SpecOp) :
    ((∃ s, SpecD.init pf pS D = .ok s) ↔ ∃ b, SpecObj.init pf pS = .ok b) ∧
    (∀ s b, SpecD.init pf pS D = .ok s → SpecObj.init pf pS = .ok b →
      (∀ op, ((s.after hist).call op).1 = ((b.after hist).call op).1) ∧ (s.after hist).D = D ∧
      (s.after hist).str = (if D.size = 0 then "1D" else "2D") ++ " wave spectrum with " ++ toString f.length ++ " number of frequencies" ∧
      (s.after hist).repr = if D.size = 0 then "Spectrum (spec = 1D)" else "Spectrum (spec = 2D)") := by
  constructor
  · unfold SpecD.init
    cases h : SpecObj.init pf pS with
    | error e => constructor <;> rintro ⟨s, hs⟩ <;> cases hs
    | ok b => exact ⟨fun _ => ⟨b, rfl⟩, fun _ => ⟨_, rfl⟩⟩
  · intro s b hs hb
    unfold SpecD.init at hs
    rw [hb] at hs
    have hs := Except.ok.inj hs
    have hn : b.nf = f.length := by rw [((spectrum_init_iff_partial hf hS).1 hb).2.2]
    subst hs
    rw [SpecD.after_eq]
    refine ⟨fun op => rfl, rfl, ?_, ?_⟩
    · unfold SpecD.str
      rw [after_nf, hn]
    · unfold SpecD.repr
      dsimp only
      split_ifs <;> rfl

/-- **C151 (default).**  Without a direction array the description is that of a 1D spectrum. -/
theorem spectrum_description_default {pf pS : PyIn ℝ} {f S : List ℝ} (hf : pf.IsArr f) (hS : pS.IsArr S) (hist : List SpecOp) {s : SpecD}
    (hs : SpecD.init pf pS = .ok s) : (s.after hist).str = "1D wave spectrum with " ++ toString f.length ++ " number of frequencies" := by
  obtain ⟨h1, h2⟩ := spectrum_description hf hS ⟨[0, 0], []⟩ hist
  obtain ⟨b, hb⟩ := h1.1 ⟨s, hs⟩
  exact (h2 s b hs hb).2.2.1

/-! ## C152 -/

/-- **C152 (no warning without a default cut-off).**  A call whose cut-off frequency is given, and any call that does not use a cut-off, issues no
warning. -/
theorem explicit_silent (s : SpecObj) (fmin : ℝ) (fmax : FMax ℝ) (g : ℝ) :
    (fmin ≠ -1 → s.warnings (.getHm0HF fmin fmax) = 0 ∧ s.warnings (.getTmm10HF fmin fmax) = 0 ∧ s.warnings (.getSmm10HF fmin fmax g) = 0) ∧
    (fmax ≠ .fin (-1) → s.warnings (.getHm0LF fmin fmax) = 0 ∧ s.warnings (.getTmm10LF fmin fmax) = 0) ∧
    s.warnings (.getHm0 fmin fmax) = 0 ∧ s.warnings (.getTps fmin fmax) = 0 ∧ s.warnings (.getTp fmin fmax) = 0 ∧
    s.warnings (.getTmm10 fmin fmax) = 0 ∧ s.warnings (.getTm01 fmin fmax) = 0 ∧ s.warnings (.getTm02 fmin fmax) = 0 ∧
    s.warnings (.getS0p fmin fmax g) = 0 ∧ s.warnings (.getSmm10 fmin fmax g) = 0 := by
  refine ⟨fun h => ⟨if_neg h, if_neg h, ?_⟩, fun h => ⟨if_neg h, if_neg h⟩, rfl, rfl, rfl, rfl, rfl, rfl, rfl, rfl⟩
  show s.smm10HFWarnings fmin fmax = 0
  unfold SpecObj.smm10HFWarnings
  simp only [if_neg h]
  cases s.Hm0HF with
  | some _ => cases s.Tmm10HF <;> rfl
  | none =>
    dsimp only
    split_ifs
    · rfl
    · cases (s.getHm0HF fmin fmax).2.Tmm10HF <;> rfl

/-- For a spectrum on non-negative frequencies the default cut-off is always available, in any state. -/
theorem cutoffWarnings_one {pf pS : PyIn ℝ} {f S : List ℝ} (hf : pf.IsArr f) (hS : pS.IsArr S) (h0 : 0 ≤ f.getD 0 0) {s : SpecObj}
    (hs : SpecObj.init pf pS = .ok s) {t : SpecObj} (ht : t.f = s.f ∧ t.sVarDens = s.sVarDens) : t.cutoffWarnings = 1 := by
  obtain ⟨hm, hl, rfl⟩ := (spectrum_init_iff_partial hf hS).1 hs
  obtain ⟨tf, tS⟩ := ht
  dsimp only at tf tS
  unfold SpecObj.cutoffWarnings
  cases t.Tmm10 with
  | some _ => rfl
  | none =>
    dsimp only
    rw [if_neg]
    obtain ⟨r1, e1⟩ := full_moment_ok (isArr_vec f) (isArr_vec S) hm hl h0 (-1)
    obtain ⟨r0, e0⟩ := full_moment_ok (isArr_vec f) (isArr_vec S) hm hl h0 0
    have e : (t.getTmm10 (-1) (.fin (-1))).1 = divE r1 r0 := by
      show calcTmm10 t.f t.sVarDens (-1) (.fin (-1)) = _
      unfold calcTmm10
      rw [getD_default_limits, tf, tS]
      dsimp only
      rw [show (PyIn.nd ⟨[S.length], S⟩ : PyIn ℝ) = vec S from rfl, e1, e0]
      rfl
    rw [e]
    unfold divE raises
    split_ifs with h
    all_goals simp

/-- **C152 (exactly one warning).**  On a spectrum with non-negative frequencies, after any history, every high- or low-frequency getter called
without its cut-off issues exactly one warning. -/
theorem default_warns {pf pS : PyIn ℝ} {f S : List ℝ} (hf : pf.IsArr f) (hS : pS.IsArr S) (h0 : 0 ≤ f.getD 0 0) {s : SpecObj}
    (hs : SpecObj.init pf pS = .ok s) (hist : List SpecOp) (fmin : ℝ) (fmax : FMax ℝ) :
    (s.after hist).warnings (.getHm0HF (-1) fmax) = 1 ∧ (s.after hist).warnings (.getTmm10HF (-1) fmax) = 1 ∧
    (s.after hist).warnings (.getHm0LF fmin (.fin (-1))) = 1 ∧ (s.after hist).warnings (.getTmm10LF fmin (.fin (-1))) = 1 := by
  have h := cutoffWarnings_one hf hS h0 hs (spectrum_after_data s hist)
  exact ⟨(if_pos rfl).trans h, (if_pos rfl).trans h, (if_pos rfl).trans h, (if_pos rfl).trans h⟩

theorem smm10HF_ok {s : SpecObj} {fmin : ℝ} {fmax : FMax ℝ} {g v : ℝ} (h : (s.getSmm10HF fmin fmax g).1 = .ok v) :
    (s.Hm0HF = none → raises (s.getHm0HF fmin fmax).1 = false) ∧
      (s.getSmm10HF fmin fmax g).2.Hm0HF ≠ none ∧ (s.getSmm10HF fmin fmax g).2.Tmm10HF ≠ none := by
  unfold SpecObj.getSmm10HF at h ⊢
  rcases e1 : ensure s.Hm0HF (s.getHm0HF fmin fmax) s with ⟨e | u, s1⟩
  · rw [e1] at h; cases h
  · rw [e1] at h
    dsimp only at h ⊢
    rcases e2 : ensure s1.Tmm10HF (s1.getTmm10HF fmin fmax) s1 with ⟨e | u, s2⟩
    · rw [e2] at h; cases h
    · rw [e2] at h
      dsimp only at h ⊢
      refine ⟨fun hn => ?_, ?_, ?_⟩
      · rw [hn] at e1
        unfold ensure at e1
        dsimp only at e1
        rcases e3 : s.getHm0HF fmin fmax with ⟨e | w, s'⟩
        · rw [e3] at e1
          cases e <;> first | rfl | cases e1
        · rfl
      · intro hc
        unfold steepness at h
        rw [hc] at h
        cases h
      · intro hc
        unfold steepness at h
        rw [hc] at h
        revert h
        rcases s2.Hm0HF with _ | _ | _ <;> intro h <;> cases h

/-- **C152 (`get_smm10_HF`).**  Called without cut-off on a spectrum with non-negative frequencies, after any history, and returning a number, it
issues one warning for each of `Hm0_HF` and `Tmm10_HF` that was not computed before; called again, with any arguments, it issues none. -/
theorem steepness_warns {pf pS : PyIn ℝ} {f S : List ℝ} (hf : pf.IsArr f) (hS : pS.IsArr S) (h0 : 0 ≤ f.getD 0 0) {s : SpecObj}
    (hs : SpecObj.init pf pS = .ok s) (hist : List SpecOp) (fmax : FMax ℝ) {g v : ℝ}
    (hv : ((s.after hist).getSmm10HF (-1) fmax g).1 = .ok v) :
    (s.after hist).warnings (.getSmm10HF (-1) fmax g) =
      (if (s.after hist).Hm0HF = none then 1 else 0) + (if (s.after hist).Tmm10HF = none then 1 else 0) ∧
    ∀ fmin' fmax' g', ((s.after hist).getSmm10HF (-1) fmax g).2.warnings (.getSmm10HF fmin' fmax' g') = 0 := by
  set t := s.after hist with ht
  have hd : t.f = s.f ∧ t.sVarDens = s.sVarDens := spectrum_after_data s hist
  clear_value t
  have hc := cutoffWarnings_one hf hS h0 hs hd
  obtain ⟨k1, k2, k3⟩ := smm10HF_ok hv
  constructor
  · show t.smm10HFWarnings (-1) fmax = _
    have hd2 := getHm0HF_data t (-1) fmax
    have hc2 := cutoffWarnings_one hf hS h0 hs ⟨hd2.1.trans hd.1, hd2.2.trans hd.2⟩
    have hT : (t.getHm0HF (-1) fmax).2.Tmm10HF = t.Tmm10HF := by
      unfold SpecObj.getHm0HF
      rw [if_pos rfl]
      have : t.cutoff.2.Tmm10HF = t.Tmm10HF := by
        unfold SpecObj.cutoff SpecObj.getTmm10
        cases t.Tmm10 with
        | some c => dsimp only; split <;> (try split_ifs) <;> rfl
        | none => dsimp only; split <;> (try split_ifs) <;> rfl
      rcases hh : t.cutoff with ⟨_ | _, s'⟩ <;> rw [hh] at this <;> exact this
    unfold SpecObj.smm10HFWarnings
    simp only [if_true]
    cases h1 : t.Hm0HF with
    | some _ =>
      dsimp only
      cases h2 : t.Tmm10HF with
      | some _ => simp
      | none => simp [hc]
    | none =>
      dsimp only
      rw [k1 h1, hT, hc]
      cases h2 : t.Tmm10HF with
      | some _ => simp
      | none => simp [hc2]
  · intro fmin' fmax' g'
    show SpecObj.smm10HFWarnings _ fmin' fmax' = 0
    unfold SpecObj.smm10HFWarnings
    cases h1 : (t.getSmm10HF (-1) fmax g).2.Hm0HF with
    | none => exact absurd h1 k2
    | some _ =>
      cases h2 : (t.getSmm10HF (-1) fmax g).2.Tmm10HF with
      | none => exact absurd h2 k3
      | some _ => dsimp only; rw [h2]

/-- **C152 (Battjes-Groenendijk).**  The routine warns about the slope exactly if it is outside 1:250 to 1:20, and about Rayleigh-distributed
waves exactly if it returns no distribution. -/
theorem bg_warns {hm0 depth cota tol : ℝ} {nwave fuel : ℕ} {R : BGResult} (hR : battjesGroenendijk hm0 nwave depth cota tol fuel = some (.ok R)) :
    (BGWarning.slope ∈ bgWarnings hm0 depth cota ↔ ¬ (20 ≤ cota ∧ cota ≤ 250)) ∧
      (BGWarning.rayleigh ∈ bgWarnings hm0 depth cota ↔ R.heights = [] ∧ R.probs = []) := by
  constructor
  · unfold bgWarnings
    by_cases h : cota < 20 ∨ 250 < cota
    · rw [if_pos h]
      simp only [List.cons_append, List.nil_append, List.mem_cons, true_or, true_iff]
      rintro ⟨h1, h2⟩
      rcases h with h | h <;> linarith
    · rw [if_neg h]
      push Not at h
      constructor
      · intro hm
        rw [List.nil_append] at hm
        split_ifs at hm <;> simp at hm
      · intro hn
        exact absurd h hn
  · unfold bgWarnings
    have hc : cota ≠ 0 := by
      rintro rfl
      unfold battjesGroenendijk at hR
      rw [if_pos rfl] at hR
      cases hR
    have hm : ∀ l : List BGWarning, (BGWarning.rayleigh ∈ (if cota < 20 ∨ 250 < cota then [BGWarning.slope] else []) ++ l ↔ BGWarning.rayleigh ∈ l) := by
      intro l
      split_ifs <;> simp
    rw [hm, if_neg hc]
    unfold battjesGroenendijk at hR
    rw [if_neg hc] at hR
    dsimp only at hR
    by_cases h1 : bgRayleigh hm0 depth cota
    · rw [if_pos h1] at hR ⊢
      cases hR
      simp
    rw [if_neg h1] at hR ⊢
    refine ⟨fun h => by simp at h, fun hE => ?_⟩
    split_ifs at hR
    all_goals try (cases hR; done)
    · split at hR <;> cases hR
    · rcases hL : bgLoop tol (bgTransition depth cota / bgHrms hm0 depth) fuel 100 with _ | e | r
      · rw [hL] at hR; cases hR
      · rw [hL] at hR; cases hR
      · rw [hL] at hR; cases hR
        exact absurd hE.1 (by unfold bgFinish; simp)

/-- **C152 (default slope).**  With the default slope there is no warning about the slope. -/
theorem bg_default_silent (hm0 depth : ℝ) : BGWarning.slope ∉ bgWarnings hm0 depth := by
  unfold bgWarnings
  rw [if_neg (by norm_num)]
  split_ifs <;> simp

/-! ## Concrete cases: the hypotheses of the theorems above are met -/

/-- Three waves, after sorting them. -/
example (A : Argsort ℚ) (s : WH ℚ) (hs : WH.init (vec [3, 1, 2]) (vec [5, 4, 6]) = .ok s) (l : List (WHOp ℚ)) :
    (s.run A l).str = "Series with 3 elements" ∧ (s.run A l).repr = "WaveHeights (series  nt = 3)" :=
  waves_description A (isVec_vec _) (isVec_vec _) l hs

example : ∃ s : WH ℚ, WH.init (vec [3, 1, 2]) (vec [5, 4, 6]) = .ok s := ⟨_, WH_init_vec⟩

/-- A series of four samples and two waves prints 4, not 2. -/
example (A : Argsort ℝ) (l : List SeriesOp) : ∃ s t, SeriesObj.init (vec t) (vec [1, 0, 5, 2]) = .ok s ∧ (s.run A l).str = "Series with 4 elements" := by
  obtain ⟨s, t, e, hv⟩ := series_of_record [1, 0, 5, 2] (by simp)
  refine ⟨s, t, e, ?_⟩
  rw [(series_description A (isVec_vec t) (isVec_vec _) l e).1, hv.len]
  rfl

/-- A spectrum with three frequencies and two directions. -/
example (l : List SpecOp) : ∃ s b, SpecD.init (vec [1, 2, 3]) (vec [1, 2, 1]) ⟨[2], [0, 180]⟩ = .ok s ∧ SpecObj.init (vec [1, 2, 3]) (vec [1, 2, 1]) = .ok b ∧
    (s.after l).str = "2D wave spectrum with 3 number of frequencies" ∧ (s.after l).repr = "Spectrum (spec = 2D)" ∧
    ((s.after l).call (.getHm0 (-1) (.fin (-1)))).1 = ((b.after l).call (.getHm0 (-1) (.fin (-1)))).1 := by
  obtain ⟨b, hb⟩ := tri_init
  obtain ⟨h1, h2⟩ := spectrum_description (isArr_vec [1, 2, 3]) (isArr_vec [1, 2, 1]) ⟨[2], [0, 180]⟩ l
  obtain ⟨s, hs⟩ := h1.2 ⟨b, hb⟩
  obtain ⟨a1, a2, a3, a4⟩ := h2 s b hs hb
  exact ⟨s, b, hs, hb, a3.trans (by norm_num [Arr.size]; rfl), a4.trans (by norm_num [Arr.size]), a1 _⟩

theorem tri_hf_m_1 : computeMoment (K := ℝ) (vec [1, 2, 3]) (.nd ⟨[3], [1, 2, 1]⟩) (-1) (27 / 32) (.fin 3) = .ok (16 / 9) := by
  norm_num [computeMoment, vecIn, vec, toVector, toArr, size2, Arr.size, monotonicIncreasingConstantStep, diff, stepTol,
    computeMomentL, getE, lastE, momentBetween, approxArrayIndex, argminAux, momentSum, simpson, simpOdd, pySlice, bind, Except.bind]
  try simp

theorem tri_hf_m0 : computeMoment (K := ℝ) (vec [1, 2, 3]) (.nd ⟨[3], [1, 2, 1]⟩) 0 (27 / 32) (.fin 3) = .ok (10 / 3) := by
  norm_num [computeMoment, vecIn, vec, toVector, toArr, size2, Arr.size, monotonicIncreasingConstantStep, diff, stepTol,
    computeMomentL, getE, lastE, momentBetween, approxArrayIndex, argminAux, momentSum, simpson, simpOdd, pySlice, bind, Except.bind]
  try simp

/-- The triangular spectrum: the first call of `get_smm10_HF(fmax=3)` warns twice, a second call not at all. -/
example : ∃ s v, SpecObj.init (vec [1, 2, 3]) (vec [1, 2, 1]) = .ok s ∧ (s.getSmm10HF (-1) (.fin 3) 10).1 = .ok v ∧
    s.warnings (.getSmm10HF (-1) (.fin 3) 10) = 2 ∧ (s.getSmm10HF (-1) (.fin 3) 10).2.warnings (.getSmm10HF (-1) (.fin 3) 10) = 0 ∧
    s.warnings (.getHm0HF (-1) .inf) = 1 ∧ s.warnings (.getHm0HF 1 .inf) = 0 := by
  obtain ⟨s, hs, -, -, -, h10, -⟩ := tri_values
  have hc : s.cutoff.1 = .ok (27 / 32) ∧ s.cutoff.2.f = [1, 2, 3] ∧ s.cutoff.2.sVarDens = ⟨[3], [1, 2, 1]⟩ := by
    obtain ⟨hm, hl, rfl⟩ := (spectrum_init_iff_partial (isArr_vec [1, 2, 3]) (isArr_vec [1, 2, 1])).1 hs
    have h10' : calcTmm10 [1, 2, 3] ⟨[3], [1, 2, 1]⟩ (-1) (.fin (-1)) = .ok (8 / 15) := h10
    simp only [SpecObj.cutoff, SpecObj.getTmm10, store, List.length_cons, List.length_nil, Nat.zero_add, Nat.reduceAdd, h10']
    norm_num
  have l : setFlim ([1, 2, 3] : List ℝ) (27 / 32) (.fin 3) = (27 / 32, .fin 3) := by
    unfold setFlim
    rw [if_neg (by norm_num), if_neg (by intro e; have := FMax.fin.inj e; norm_num at this)]
  obtain ⟨c1, c2, c3⟩ := hc
  have hH : (s.getHm0HF (-1) (.fin 3)).1 = .ok (4 * √(10 / 3)) := by
    unfold SpecObj.getHm0HF
    rw [if_pos rfl]
    rcases hh : s.cutoff with ⟨r, s'⟩
    rw [hh] at c1 c2 c3
    dsimp only at c1 c2 c3
    subst c1
    dsimp only
    rw [c2, c3]
    unfold calcHm0
    rw [l]
    dsimp only
    rw [tri_hf_m0]
    show heightOf _ = _
    unfold heightOf
    rw [if_neg (by norm_num)]
  have hT : (s.getTmm10HF (-1) (.fin 3)).1 = .ok (8 / 15) := by
    unfold SpecObj.getTmm10HF
    rw [if_pos rfl]
    rcases hh : s.cutoff with ⟨r, s'⟩
    rw [hh] at c1 c2 c3
    dsimp only at c1 c2 c3
    subst c1
    dsimp only
    rw [c2, c3]
    unfold calcTmm10
    rw [l]
    dsimp only
    rw [tri_hf_m0, tri_hf_m_1]
    show divE _ _ = _
    unfold divE
    rw [if_neg (by norm_num)]
    norm_num
  have hv := smm10HF_new (isArr_vec [1, 2, 3]) (isArr_vec [1, 2, 1]) hs (g := 10) hH hT (by norm_num)
  obtain ⟨w1, w2⟩ := steepness_warns (isArr_vec [1, 2, 3]) (isArr_vec [1, 2, 1]) (by norm_num) hs [] (.fin 3) hv
  refine ⟨s, _, hs, hv, ?_, w2 _ _ _, (default_warns (isArr_vec [1, 2, 3]) (isArr_vec [1, 2, 1]) (by norm_num) hs [] 0 .inf).1,
    ((explicit_silent s 1 .inf 10).1 (by norm_num)).1⟩
  obtain ⟨hm, hl, rfl⟩ := (spectrum_init_iff_partial (isArr_vec [1, 2, 3]) (isArr_vec [1, 2, 1])).1 hs
  exact w1

/-- A sea of 2 m in 4.5 m of water on a slope of 1:300 warns about the slope only; one of 1 m in 100 m of water on 1:50 about the waves only. -/
example : bgWarnings 2 4.5 300 = [.slope] ∧ bgWarnings 1 100 50 = [.rayleigh] := by
  have h1 : bgHrms 2 4.5 = 1 / 2 * (269 / 100 + 324 / 100 * (1 / 2) / 4.5) := by
    have h1 : √(((2 : ℝ) / 4) ^ 2) = 1 / 2 := by rw [Real.sqrt_sq (by norm_num)]; norm_num
    unfold bgHrms; dsimp only; rw [h1]
  have h2 : bgHrms 1 100 = 1 / 4 * (269 / 100 + 324 / 100 * (1 / 4) / 100) := by
    have h2 : √(((1 : ℝ) / 4) ^ 2) = 1 / 4 := by rw [Real.sqrt_sq (by norm_num)]
    unfold bgHrms; dsimp only; rw [h2]
  constructor
  · unfold bgWarnings bgRayleigh bgTransition
    rw [h1]
    norm_num
  · unfold bgWarnings bgRayleigh bgTransition
    rw [h2]
    norm_num

example : ∃ fuel R, battjesGroenendijk 2 700 4.5 300 (1 / 10 ^ 5) fuel = some (.ok R) ∧ (BGWarning.rayleigh ∈ bgWarnings 2 4.5 300 ↔ R.heights = [] ∧ R.probs = []) := by
  obtain ⟨fuel, R, h, -⟩ := bg_returns (hm0 := 2) (depth := 4.5) (cota := 300) (tol := 1 / 10 ^ 5) (nwave := 700) (by norm_num) (by norm_num)
    (by norm_num) (by norm_num) (by norm_num) (by norm_num)
  exact ⟨fuel, R, h, (bg_warns h).2⟩

end Verif
