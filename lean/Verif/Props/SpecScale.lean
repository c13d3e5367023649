import Verif.Props.SpectrumCache
import Verif.Props.Tps
import Mathlib.Data.List.GetD

/-! # C80: multiplying the densities by a factor -/

set_option linter.unusedSectionVars false

namespace Verif

section
variable {K : Type} [Field K] [LinearOrder K] [IsStrictOrderedRing K]

/-- The array with every density multiplied by `c`. -/
def Arr.scale (c : K) (S : Arr K) : Arr K := ⟨S.shape, S.data.map (c * ·)⟩

theorem getD_mulc (c : K) (l : List K) (i : Nat) : (l.map (c * ·)).getD i 0 = c * l.getD i 0 := by
  rw [List.getD_eq_getElem?_getD, List.getD_eq_getElem?_getD, List.getElem?_map]
  cases l[i]? <;> simp

theorem simpOdd_scale (c : K) (x y : List K) : simpOdd x (y.map (c * ·)) = c * simpOdd x y := by
  fun_induction simpOdd x y with
  | case1 x0 x1 x2 xs y0 y1 y2 ys h0 h1 hsum hprod h0divh1 ih =>
    simp only [List.map_cons] at ih ⊢
    rw [simpOdd, ih]
    ring
  | case2 x y h =>
    unfold simpOdd
    split
    · rename_i a b d xs y0 y1 y2 ys heq
      rcases y with _ | ⟨u, _ | ⟨v, _ | ⟨w, y⟩⟩⟩ <;> simp at heq
      exact absurd rfl (h _ _ _ _ _ _ _ _ rfl)
    · simp

theorem simpson_scale (c : K) (x y : List K) : simpson x (y.map (c * ·)) = (simpson x y).map (c * ·) := by
  unfold simpson
  rw [List.length_map, ← List.map_dropLast, simpOdd_scale, simpOdd_scale]
  unfold simpLast
  simp only [getD_mulc]
  split_ifs <;> simp only [Except.map]
  · congr 1; ring
  · congr 1; ring

theorem zipWith_scale (c : K) (m : Int) (f S : List K) :
    List.zipWith (fun a s => a ^ m * s) f (S.map (c * ·)) = (List.zipWith (fun a s => a ^ m * s) f S).map (c * ·) := by
  rw [List.zipWith_map_right, List.map_zipWith]
  congr 1
  funext a s
  ring

theorem momentSum_scale (c : K) (m : Int) (f S : List K) : momentSum m f (S.map (c * ·)) = (momentSum m f S).map (c * ·) := by
  unfold momentSum
  rw [zipWith_scale, simpson_scale]
  split_ifs <;> rfl

theorem pySlice_map {α β : Type} (g : α → β) (l : List α) (i j : Nat) : pySlice (l.map g) i j = (pySlice l i j).map g := by
  unfold pySlice
  rw [← List.map_take, ← List.map_drop]

theorem momentBetween_scale (c : K) (m : Int) (f S : List K) (lo F : K) :
    momentBetween m f (S.map (c * ·)) lo F = (momentBetween m f S lo F).map (c * ·) := by
  unfold momentBetween
  cases approxArrayIndex f lo with
  | error e => rfl
  | ok i =>
    cases approxArrayIndex f F with
    | error e => rfl
    | ok j =>
      simp only [bind, Except.bind]
      rw [pySlice_map, momentSum_scale]

theorem tailMoment_mul (c : K) (m : Int) (fe se : K) (fmax : FMax K) :
    tailMoment m fe (c * se) fmax = (tailMoment m fe se fmax).map (c * ·) := by
  rw [tailMoment_scale m fe se, tailMoment_scale m fe (c * se)]
  cases tailMoment m fe 1 fmax with
  | error e => rfl
  | ok v => simp only [Except.map]; congr 1; ring

theorem lastE_map {α β : Type} (g : α → β) (l : List α) : lastE (l.map g) = (lastE l).map g := by
  unfold lastE
  rw [List.getLast?_map]
  cases l.getLast? <;> rfl

theorem momentWithTail_scale (c : K) (m : Int) (f S : List K) (lo fe : K) (fmax : FMax K) :
    momentWithTail m f (S.map (c * ·)) lo fe fmax = (momentWithTail m f S lo fe fmax).map (c * ·) := by
  unfold momentWithTail
  rw [momentBetween_scale, lastE_map]
  cases momentBetween m f S lo fe with
  | error e => rfl
  | ok a =>
    cases lastE S with
    | error e => rfl
    | ok se =>
      simp only [bind, Except.bind, Except.map]
      rw [tailMoment_mul]
      cases tailMoment m fe se fmax with
      | error e => rfl
      | ok b => simp only [Except.map, pure, Except.pure]; congr 1; ring

theorem computeMomentL_scale (c : K) (f S : List K) (m : Int) (lo : K) (hi : FMax K) :
    computeMomentL f (S.map (c * ·)) m lo hi = (computeMomentL f S m lo hi).map (c * ·) := by
  unfold computeMomentL
  cases getE f 0 with
  | error e => rfl
  | ok f0 =>
    simp only [bind, Except.bind]
    have hs : (if decide (m < 0 ∧ f0 = 0) = true then (S.map (c * ·)).drop 1 else S.map (c * ·)) =
        (if decide (m < 0 ∧ f0 = 0) = true then S.drop 1 else S).map (c * ·) := by
      split_ifs
      · rw [List.map_drop]
      · rfl
    rw [hs]
    generalize (if decide (m < 0 ∧ f0 = 0) = true then S.drop 1 else S) = S1
    generalize (if decide (m < 0 ∧ f0 = 0) = true then f.drop 1 else f) = f1
    split_ifs with h1 h2
    · exact momentSum_scale ..
    · cases lastE f1 with
      | error e => rfl
      | ok fe =>
        dsimp only
        cases hi with
        | fin F => dsimp only; split_ifs; exacts [momentBetween_scale .., momentWithTail_scale ..]
        | inf => exact momentWithTail_scale ..
    all_goals
      cases lastE f1 with
      | error e => rfl
      | ok fe =>
        dsimp only
        cases hi with
        | fin F => dsimp only; split_ifs; exacts [momentBetween_scale .., momentWithTail_scale ..]
        | inf => exact momentWithTail_scale ..

theorem toVector_scale (c : K) (S : Arr K) : toVector (.nd (S.scale c)) = ((toVector (.nd S)).1.scale c, (toVector (.nd S)).2) := by
  have h2 : size2 (S.scale c) = size2 S := rfl
  unfold toVector toArr
  dsimp only
  rw [h2]
  by_cases h : (size2 S).2 = 1
  · rw [if_pos h, if_pos h]; simp [Arr.scale]
  · rw [if_neg h, if_neg h]

theorem vecIn_scale (who : String) (c : K) (S : Arr K) : vecIn who (.nd (S.scale c)) = (vecIn who (.nd S)).map (List.map (c * ·)) := by
  unfold vecIn
  rw [toVector_scale]
  dsimp only
  generalize toVector (.nd S) = r
  by_cases h : 1 < r.2.2
  · rw [if_pos h, if_pos h]; rfl
  · rw [if_neg h, if_neg h]
    have : (r.1.scale c).shape = r.1.shape := rfl
    rw [this]
    split <;> rfl

theorem computeMoment_scale (c : K) (pf : PyIn K) (S : Arr K) (m : Int) (lo : K) (hi : FMax K) :
    computeMoment pf (.nd (S.scale c)) m lo hi = (computeMoment pf (.nd S) m lo hi).map (c * ·) := by
  unfold computeMoment
  cases vecIn "compute_moment" pf with
  | error e => rfl
  | ok f =>
    simp only [bind, Except.bind]
    rw [vecIn_scale]
    cases vecIn "compute_moment" (.nd S) with
    | error e => rfl
    | ok S =>
      simp only [Except.map]
      cases monotonicIncreasingConstantStep f with
      | error e => rfl
      | ok b =>
        dsimp only
        rw [List.length_map]
        split_ifs
        · rfl
        · rfl
        · exact computeMomentL_scale ..

end
end Verif

namespace Verif

/-! ## Specification -/

/-- How the result of a getter changes when all densities are multiplied by `c`: wave heights and steepnesses by `sqrt c`, periods not at
all. -/
noncomputable def SpecOp.energyFactor (c : ℝ) : SpecOp → ℝ
  | .getHm0 .. => Real.sqrt c
  | .getHm0HF .. => Real.sqrt c
  | .getHm0LF .. => Real.sqrt c
  | .getS0p .. => Real.sqrt c
  | .getSmm10 .. => Real.sqrt c
  | .getSmm10HF .. => Real.sqrt c
  | _ => 1

/-- The calls whose result uses the smoothed peak period (which has an absolute energy threshold). -/
def SpecOp.usesTps : SpecOp → Prop
  | .getTps .. => True
  | .getS0p .. => True
  | _ => False

/-! ## Simulation -/

/-- A cached value multiplied by `r`. -/
noncomputable def Cache.scale (r : ℝ) (c : Cache) : Cache := Option.map (Option.map (r * ·)) c

/-- The two objects hold the same spectrum up to the factor `c`, and correspondingly scaled caches. -/
structure Scaled (c : ℝ) (s s' : SpecObj) : Prop where
  f : s'.f = s.f
  S : s'.sVarDens = s.sVarDens.scale c
  Hm0 : s'.Hm0 = Cache.scale (Real.sqrt c) s.Hm0
  Hm0HF : s'.Hm0HF = Cache.scale (Real.sqrt c) s.Hm0HF
  Hm0LF : s'.Hm0LF = Cache.scale (Real.sqrt c) s.Hm0LF
  Tp : s'.Tp = s.Tp
  Tmm10 : s'.Tmm10 = s.Tmm10
  Tmm10HF : s'.Tmm10HF = s.Tmm10HF
  Tmm10LF : s'.Tmm10LF = s.Tmm10LF
  Tm01 : s'.Tm01 = s.Tm01
  Tm02 : s'.Tm02 = s.Tm02
  smm10 : s'.smm10 = Cache.scale (Real.sqrt c) s.smm10
  smm10HF : s'.smm10HF = Cache.scale (Real.sqrt c) s.smm10HF

variable {c : ℝ}

theorem store_scale (r : ℝ) (o : Cache) (v : Except PyErr ℝ) : store (o.scale r) (v.map (r * ·)) = (store o v).scale r := by
  cases v with
  | ok v => rfl
  | error e => cases e <;> rfl

theorem heightOf_scale (hc : 0 < c) (m : ℝ) : heightOf (c * m) = (heightOf m).map (Real.sqrt c * ·) := by
  unfold heightOf
  by_cases h : m < 0
  · rw [if_pos h, if_pos (mul_neg_of_pos_of_neg hc h)]; rfl
  · rw [if_neg h, if_neg (not_lt.2 (mul_nonneg hc.le (not_lt.1 h)))]
    simp only [Except.map]
    rw [Real.sqrt_mul hc.le]
    congr 1; ring

theorem calcHm0_scale (hc : 0 < c) (f : List ℝ) (S : Arr ℝ) (a : ℝ) (b : FMax ℝ) :
    calcHm0 f (S.scale c) a b = (calcHm0 f S a b).map (Real.sqrt c * ·) := by
  unfold calcHm0
  dsimp only
  rw [computeMoment_scale]
  cases computeMoment (vec f) (.nd S) 0 (setFlim f a b).1 (setFlim f a b).2 with
  | error e => rfl
  | ok m => exact heightOf_scale hc m

theorem divE_scale (hc : 0 < c) (a b : ℝ) : divE (c * a) (c * b) = divE a b := by
  unfold divE
  by_cases h : b = 0
  · rw [if_pos h, if_pos (by rw [h, mul_zero])]
  · rw [if_neg h, if_neg (mul_ne_zero hc.ne' h), mul_div_mul_left _ _ hc.ne']

theorem ratio_scale (hc : 0 < c) (f : List ℝ) (S : Arr ℝ) (p q : Int) (lo : ℝ) (hi : FMax ℝ) :
    (do let a ← computeMoment (vec f) (.nd (S.scale c)) p lo hi
        let b ← computeMoment (vec f) (.nd (S.scale c)) q lo hi
        divE a b) =
    (do let a ← computeMoment (vec f) (.nd S) p lo hi
        let b ← computeMoment (vec f) (.nd S) q lo hi
        divE a b) := by
  rw [computeMoment_scale, computeMoment_scale]
  cases computeMoment (vec f) (.nd S) p lo hi with
  | error e => rfl
  | ok a =>
    cases computeMoment (vec f) (.nd S) q lo hi with
    | error e => rfl
    | ok b => exact divE_scale hc a b

theorem calcTmm10_scale (hc : 0 < c) (f : List ℝ) (S : Arr ℝ) (a : ℝ) (b : FMax ℝ) : calcTmm10 f (S.scale c) a b = calcTmm10 f S a b :=
  ratio_scale hc f S (-1) 0 _ _

theorem calcTm01_scale (hc : 0 < c) (f : List ℝ) (S : Arr ℝ) (a : ℝ) (b : FMax ℝ) : calcTm01 f (S.scale c) a b = calcTm01 f S a b :=
  ratio_scale hc f S 0 1 _ _

theorem calcTm02_scale (hc : 0 < c) (f : List ℝ) (S : Arr ℝ) (a : ℝ) (b : FMax ℝ) : calcTm02 f (S.scale c) a b = calcTm02 f S a b := by
  have h := ratio_scale hc f S 0 2 (setFlim f a b).1 (setFlim f a b).2
  have e : ∀ S' : Arr ℝ, calcTm02 f S' a b = ((do
      let a' ← computeMoment (vec f) (.nd S') 0 (setFlim f a b).1 (setFlim f a b).2
      let b' ← computeMoment (vec f) (.nd S') 2 (setFlim f a b).1 (setFlim f a b).2
      divE a' b') >>= sqrtE) := by
    intro S'
    unfold calcTm02
    simp only [bind_assoc]
  rw [e, e, h]

theorem foldl_max_scale (hc : 0 < c) (l : List ℝ) (a : ℝ) : (l.map (c * ·)).foldl max (c * a) = c * l.foldl max a := by
  induction l generalizing a with
  | nil => rfl
  | cons b l ih =>
    rw [List.map_cons, List.foldl_cons, List.foldl_cons, ← ih, mul_max_of_nonneg _ _ hc.le]

theorem pyMax_scale (hc : 0 < c) (l : List ℝ) : pyMax (l.map (c * ·)) = (pyMax l).map (c * ·) := by
  cases l with
  | nil => rfl
  | cons a l => simp only [List.map_cons, pyMax, foldl_max_scale hc, Except.map]

theorem whereIdx_scale (hc : 0 < c) (l : List ℝ) (m : ℝ) :
    whereIdx (fun v => decide (v = c * m)) (l.map (c * ·)) = whereIdx (fun v => decide (v = m)) l := by
  unfold whereIdx
  rw [List.length_map]
  refine List.filter_congr fun i _ => ?_
  rw [List.getElem?_map]
  cases l[i]? with
  | none => rfl
  | some v => simp [mul_right_inj' hc.ne']

theorem peakPeriod_scale (hc : 0 < c) (f S : List ℝ) : peakPeriod f (S.map (c * ·)) = peakPeriod f S := by
  unfold peakPeriod
  rw [pyMax_scale hc]
  cases pyMax S with
  | error e => rfl
  | ok m =>
    simp only [bind, Except.bind, Except.map]
    rw [whereIdx_scale hc]

theorem bandSlice_scale (f S : List ℝ) (lo : ℝ) (hi : FMax ℝ) :
    bandSlice f (S.map (c * ·)) lo hi = (bandSlice f S lo hi).map (fun p => (p.1, p.2.map (c * ·))) := by
  unfold bandSlice
  cases getE (whereIdx (fun v => decide (lo ≤ v)) f) 0 with
  | error e => rfl
  | ok i =>
    cases lastE (whereIdx (fun v => hi.ge v) f) with
    | error e => rfl
    | ok j =>
      simp only [bind, Except.bind, pure, Except.pure, Except.map]
      rw [pySlice_map]

theorem calcTp_scale (hc : 0 < c) (f : List ℝ) (S : Arr ℝ) (a : ℝ) (b : FMax ℝ) : calcTp f (S.scale c) a b = calcTp f S a b := by
  unfold calcTp
  dsimp only
  by_cases h : S.shape.length ≠ 1
  · rw [if_pos h, if_pos (show (S.scale c).shape.length ≠ 1 from h)]
    rfl
  rw [if_neg h, if_neg (show ¬ (S.scale c).shape.length ≠ 1 from h), show (S.scale c).data = S.data.map (c * ·) from rfl, bandSlice_scale]
  cases bandSlice f S.data (setFlim f a b).1 (setFlim f a b).2 with
  | error e => rfl
  | ok p => exact peakPeriod_scale hc _ _

/-! ### The calls -/

variable {s s' : SpecObj}

theorem scaled_getHm0 (hc : 0 < c) (h : Scaled c s s') (a : ℝ) (b : FMax ℝ) :
    (s'.getHm0 a b).1 = (s.getHm0 a b).1.map (Real.sqrt c * ·) ∧ Scaled c (s.getHm0 a b).2 (s'.getHm0 a b).2 := by
  have e : calcHm0 s'.f s'.sVarDens a b = (calcHm0 s.f s.sVarDens a b).map (Real.sqrt c * ·) := by rw [h.f, h.S, calcHm0_scale hc]
  refine ⟨e, ?_⟩
  constructor <;> dsimp only [SpecObj.getHm0] <;> first | (rw [e, h.Hm0, store_scale]) | exact h.f | exact h.S | exact h.Hm0HF | exact h.Hm0LF | exact h.Tp | exact h.Tmm10 | exact h.Tmm10HF | exact h.Tmm10LF | exact h.Tm01 | exact h.Tm02 | exact h.smm10 | exact h.smm10HF

theorem scaled_getTmm10 (hc : 0 < c) (h : Scaled c s s') (a : ℝ) (b : FMax ℝ) :
    (s'.getTmm10 a b).1 = (s.getTmm10 a b).1 ∧ Scaled c (s.getTmm10 a b).2 (s'.getTmm10 a b).2 := by
  have e : calcTmm10 s'.f s'.sVarDens a b = calcTmm10 s.f s.sVarDens a b := by rw [h.f, h.S, calcTmm10_scale hc]
  refine ⟨e, ?_⟩
  constructor <;> dsimp only [SpecObj.getTmm10] <;> first | (rw [e, h.Tmm10]) | exact h.f | exact h.S | exact h.Hm0 | exact h.Hm0HF | exact h.Hm0LF | exact h.Tp | exact h.Tmm10HF | exact h.Tmm10LF | exact h.Tm01 | exact h.Tm02 | exact h.smm10 | exact h.smm10HF

theorem scaled_getTm01 (hc : 0 < c) (h : Scaled c s s') (a : ℝ) (b : FMax ℝ) :
    (s'.getTm01 a b).1 = (s.getTm01 a b).1 ∧ Scaled c (s.getTm01 a b).2 (s'.getTm01 a b).2 := by
  have e : calcTm01 s'.f s'.sVarDens a b = calcTm01 s.f s.sVarDens a b := by rw [h.f, h.S, calcTm01_scale hc]
  refine ⟨e, ?_⟩
  constructor <;> dsimp only [SpecObj.getTm01] <;> first | (rw [e, h.Tm01]) | exact h.f | exact h.S | exact h.Hm0 | exact h.Hm0HF | exact h.Hm0LF | exact h.Tp | exact h.Tmm10 | exact h.Tmm10HF | exact h.Tmm10LF | exact h.Tm02 | exact h.smm10 | exact h.smm10HF

theorem scaled_getTm02 (hc : 0 < c) (h : Scaled c s s') (a : ℝ) (b : FMax ℝ) :
    (s'.getTm02 a b).1 = (s.getTm02 a b).1 ∧ Scaled c (s.getTm02 a b).2 (s'.getTm02 a b).2 := by
  have e : calcTm02 s'.f s'.sVarDens a b = calcTm02 s.f s.sVarDens a b := by rw [h.f, h.S, calcTm02_scale hc]
  refine ⟨e, ?_⟩
  constructor <;> dsimp only [SpecObj.getTm02] <;> first | (rw [e, h.Tm02]) | exact h.f | exact h.S | exact h.Hm0 | exact h.Hm0HF | exact h.Hm0LF | exact h.Tp | exact h.Tmm10 | exact h.Tmm10HF | exact h.Tmm10LF | exact h.Tm01 | exact h.smm10 | exact h.smm10HF

theorem scaled_getTp (hc : 0 < c) (h : Scaled c s s') (a : ℝ) (b : FMax ℝ) :
    (s'.getTp a b).1 = (s.getTp a b).1 ∧ Scaled c (s.getTp a b).2 (s'.getTp a b).2 := by
  have e : calcTp s'.f s'.sVarDens a b = calcTp s.f s.sVarDens a b := by rw [h.f, h.S, calcTp_scale hc]
  refine ⟨e, ?_⟩
  constructor <;> dsimp only [SpecObj.getTp] <;> first | (rw [e, h.Tp]) | exact h.f | exact h.S | exact h.Hm0 | exact h.Hm0HF | exact h.Hm0LF | exact h.Tmm10 | exact h.Tmm10HF | exact h.Tmm10LF | exact h.Tm01 | exact h.Tm02 | exact h.smm10 | exact h.smm10HF

theorem scaled_getTps (h : Scaled c s s') (a : ℝ) (b : FMax ℝ) : Scaled c (s.getTps a b).2 (s'.getTps a b).2 := by
  constructor <;> dsimp only [SpecObj.getTps] <;> first | exact h.f | exact h.S | exact h.Hm0 | exact h.Hm0HF | exact h.Hm0LF | exact h.Tp | exact h.Tmm10 | exact h.Tmm10HF | exact h.Tmm10LF | exact h.Tm01 | exact h.Tm02 | exact h.smm10 | exact h.smm10HF

theorem scaled_cutoff (hc : 0 < c) (h : Scaled c s s') : s'.cutoff.1 = s.cutoff.1 ∧ Scaled c s.cutoff.2 s'.cutoff.2 := by
  unfold SpecObj.cutoff
  rw [h.Tmm10]
  cases hT : s.Tmm10 with
  | some v =>
    dsimp only
    rw [h.Tmm10, hT]
    rcases v with _ | T
    · exact ⟨rfl, h⟩
    · dsimp only
      split_ifs
      · exact ⟨rfl, h⟩
      · exact ⟨rfl, h⟩
  | none =>
    obtain ⟨e1, e2⟩ := scaled_getTmm10 hc h (-1) (.fin (-1))
    dsimp only
    rw [e1, e2.Tmm10]
    rcases (s.getTmm10 (-1) (.fin (-1))).1 with e | v
    · cases e <;> exact ⟨rfl, e2⟩
    · rcases (s.getTmm10 (-1) (.fin (-1))).2.Tmm10 with _ | _ | T
      · exact ⟨rfl, e2⟩
      · exact ⟨rfl, e2⟩
      · dsimp only
        split_ifs <;> exact ⟨rfl, e2⟩

theorem scaled_setHm0HF (h : Scaled c s s') {r r' : Except PyErr ℝ} (e : r' = r.map (Real.sqrt c * ·)) :
    Scaled c { s with Hm0HF := store s.Hm0HF r } { s' with Hm0HF := store s'.Hm0HF r' } := by
  constructor <;> dsimp only <;> first | (rw [e, h.Hm0HF, store_scale]) | exact h.f | exact h.S | exact h.Hm0 | exact h.Hm0LF | exact h.Tp | exact h.Tmm10 | exact h.Tmm10HF | exact h.Tmm10LF | exact h.Tm01 | exact h.Tm02 | exact h.smm10 | exact h.smm10HF

theorem scaled_setHm0LF (h : Scaled c s s') {r r' : Except PyErr ℝ} (e : r' = r.map (Real.sqrt c * ·)) :
    Scaled c { s with Hm0LF := store s.Hm0LF r } { s' with Hm0LF := store s'.Hm0LF r' } := by
  constructor <;> dsimp only <;> first | (rw [e, h.Hm0LF, store_scale]) | exact h.f | exact h.S | exact h.Hm0 | exact h.Hm0HF | exact h.Tp | exact h.Tmm10 | exact h.Tmm10HF | exact h.Tmm10LF | exact h.Tm01 | exact h.Tm02 | exact h.smm10 | exact h.smm10HF

theorem scaled_setTmm10HF (h : Scaled c s s') {r r' : Except PyErr ℝ} (e : r' = r) :
    Scaled c { s with Tmm10HF := store s.Tmm10HF r } { s' with Tmm10HF := store s'.Tmm10HF r' } := by
  constructor <;> dsimp only <;> first | (rw [e, h.Tmm10HF]) | exact h.f | exact h.S | exact h.Hm0 | exact h.Hm0HF | exact h.Hm0LF | exact h.Tp | exact h.Tmm10 | exact h.Tmm10LF | exact h.Tm01 | exact h.Tm02 | exact h.smm10 | exact h.smm10HF

theorem scaled_setTmm10LF (h : Scaled c s s') {r r' : Except PyErr ℝ} (e : r' = r) :
    Scaled c { s with Tmm10LF := store s.Tmm10LF r } { s' with Tmm10LF := store s'.Tmm10LF r' } := by
  constructor <;> dsimp only <;> first | (rw [e, h.Tmm10LF]) | exact h.f | exact h.S | exact h.Hm0 | exact h.Hm0HF | exact h.Hm0LF | exact h.Tp | exact h.Tmm10 | exact h.Tmm10HF | exact h.Tm01 | exact h.Tm02 | exact h.smm10 | exact h.smm10HF

theorem scaled_hm0 (hc : 0 < c) (h : Scaled c s s') (a : ℝ) (b : FMax ℝ) :
    calcHm0 s'.f s'.sVarDens a b = (calcHm0 s.f s.sVarDens a b).map (Real.sqrt c * ·) := by rw [h.f, h.S, calcHm0_scale hc]

theorem scaled_tmm10 (hc : 0 < c) (h : Scaled c s s') (a : ℝ) (b : FMax ℝ) :
    calcTmm10 s'.f s'.sVarDens a b = calcTmm10 s.f s.sVarDens a b := by rw [h.f, h.S, calcTmm10_scale hc]

theorem scaled_getHm0HF (hc : 0 < c) (h : Scaled c s s') (a : ℝ) (b : FMax ℝ) :
    (s'.getHm0HF a b).1 = (s.getHm0HF a b).1.map (Real.sqrt c * ·) ∧ Scaled c (s.getHm0HF a b).2 (s'.getHm0HF a b).2 := by
  unfold SpecObj.getHm0HF
  by_cases ha : a = -1
  · rw [if_pos ha, if_pos ha]
    obtain ⟨e1, e2⟩ := scaled_cutoff hc h
    rcases hx : s.cutoff with ⟨r, t⟩
    rcases hx' : s'.cutoff with ⟨r', t'⟩
    rw [hx, hx'] at e1 e2
    dsimp only at e1 e2
    subst e1
    cases r' with
    | error e => exact ⟨rfl, e2⟩
    | ok d => exact ⟨scaled_hm0 hc e2 d b, scaled_setHm0HF e2 (scaled_hm0 hc e2 d b)⟩
  · rw [if_neg ha, if_neg ha]
    exact ⟨scaled_hm0 hc h a b, scaled_setHm0HF h (scaled_hm0 hc h a b)⟩

theorem scaled_getHm0LF (hc : 0 < c) (h : Scaled c s s') (a : ℝ) (b : FMax ℝ) :
    (s'.getHm0LF a b).1 = (s.getHm0LF a b).1.map (Real.sqrt c * ·) ∧ Scaled c (s.getHm0LF a b).2 (s'.getHm0LF a b).2 := by
  unfold SpecObj.getHm0LF
  by_cases ha : b = .fin (-1)
  · rw [if_pos ha, if_pos ha]
    obtain ⟨e1, e2⟩ := scaled_cutoff hc h
    rcases hx : s.cutoff with ⟨r, t⟩
    rcases hx' : s'.cutoff with ⟨r', t'⟩
    rw [hx, hx'] at e1 e2
    dsimp only at e1 e2
    subst e1
    cases r' with
    | error e => exact ⟨rfl, e2⟩
    | ok d => exact ⟨scaled_hm0 hc e2 a (.fin d), scaled_setHm0LF e2 (scaled_hm0 hc e2 a (.fin d))⟩
  · rw [if_neg ha, if_neg ha]
    exact ⟨scaled_hm0 hc h a b, scaled_setHm0LF h (scaled_hm0 hc h a b)⟩

theorem scaled_getTmm10HF (hc : 0 < c) (h : Scaled c s s') (a : ℝ) (b : FMax ℝ) :
    (s'.getTmm10HF a b).1 = (s.getTmm10HF a b).1 ∧ Scaled c (s.getTmm10HF a b).2 (s'.getTmm10HF a b).2 := by
  unfold SpecObj.getTmm10HF
  by_cases ha : a = -1
  · rw [if_pos ha, if_pos ha]
    obtain ⟨e1, e2⟩ := scaled_cutoff hc h
    rcases hx : s.cutoff with ⟨r, t⟩
    rcases hx' : s'.cutoff with ⟨r', t'⟩
    rw [hx, hx'] at e1 e2
    dsimp only at e1 e2
    subst e1
    cases r' with
    | error e => exact ⟨rfl, e2⟩
    | ok d => exact ⟨scaled_tmm10 hc e2 d b, scaled_setTmm10HF e2 (scaled_tmm10 hc e2 d b)⟩
  · rw [if_neg ha, if_neg ha]
    exact ⟨scaled_tmm10 hc h a b, scaled_setTmm10HF h (scaled_tmm10 hc h a b)⟩

theorem scaled_getTmm10LF (hc : 0 < c) (h : Scaled c s s') (a : ℝ) (b : FMax ℝ) :
    (s'.getTmm10LF a b).1 = (s.getTmm10LF a b).1 ∧ Scaled c (s.getTmm10LF a b).2 (s'.getTmm10LF a b).2 := by
  unfold SpecObj.getTmm10LF
  by_cases ha : b = .fin (-1)
  · rw [if_pos ha, if_pos ha]
    obtain ⟨e1, e2⟩ := scaled_cutoff hc h
    rcases hx : s.cutoff with ⟨r, t⟩
    rcases hx' : s'.cutoff with ⟨r', t'⟩
    rw [hx, hx'] at e1 e2
    dsimp only at e1 e2
    subst e1
    cases r' with
    | error e => exact ⟨rfl, e2⟩
    | ok d => exact ⟨scaled_tmm10 hc e2 a (.fin d), scaled_setTmm10LF e2 (scaled_tmm10 hc e2 a (.fin d))⟩
  · rw [if_neg ha, if_neg ha]
    exact ⟨scaled_tmm10 hc h a b, scaled_setTmm10LF h (scaled_tmm10 hc h a b)⟩

/-- `if not hasattr(...)` on two corresponding objects. -/
theorem scaled_ensure {k k' : Cache} (hk : k'.isSome = k.isSome) {q q' : Except PyErr ℝ × SpecObj} {g : ℝ} (h : Scaled c s s')
    (hq : q'.1 = q.1.map (g * ·)) (hq2 : Scaled c q.2 q'.2) :
    (ensure k' q' s').1 = (ensure k q s).1 ∧ Scaled c (ensure k q s).2 (ensure k' q' s').2 := by
  rcases q with ⟨r, t⟩
  rcases q' with ⟨r', t'⟩
  dsimp only at hq hq2
  subst hq
  cases k with
  | some v =>
    cases k' with
    | none => simp at hk
    | some v' => exact ⟨rfl, h⟩
  | none =>
    cases k' with
    | some v' => simp at hk
    | none =>
      cases r with
      | ok v => exact ⟨rfl, hq2⟩
      | error e => cases e <;> exact ⟨rfl, hq2⟩

theorem isSome_scale (r : ℝ) (k : Cache) : (k.scale r).isSome = k.isSome := by cases k <;> rfl

theorem map_one_mul (r : Except PyErr ℝ) : r.map ((1 : ℝ) * ·) = r := by
  cases r with
  | ok v => simp [Except.map]
  | error e => rfl

theorem steepness_scale (r : ℝ) (H T : Cache) (g : ℝ) : steepness (H.scale r) T g = (steepness H T g).map (r * ·) := by
  unfold steepness
  rcases H with _ | _ | H
  · rfl
  · rfl
  · rcases T with _ | _ | T
    · rfl
    · rfl
    · simp only [Cache.scale, Option.map_some]
      unfold divE
      split_ifs
      · rfl
      · simp only [Except.map]; congr 1; ring

theorem scaled_getSmm10 (hc : 0 < c) (h : Scaled c s s') (a : ℝ) (b : FMax ℝ) (g : ℝ) :
    (s'.getSmm10 a b g).1 = (s.getSmm10 a b g).1.map (Real.sqrt c * ·) ∧ Scaled c (s.getSmm10 a b g).2 (s'.getSmm10 a b g).2 := by
  unfold SpecObj.getSmm10
  obtain ⟨p1, p2⟩ := scaled_getHm0 hc h a b
  obtain ⟨e1, e2⟩ := scaled_ensure (k := s.Hm0) (k' := s'.Hm0) (by rw [h.Hm0, isSome_scale]) h p1 p2
  rcases hx : ensure s.Hm0 (s.getHm0 a b) s with ⟨r, t⟩
  rcases hx' : ensure s'.Hm0 (s'.getHm0 a b) s' with ⟨r', t'⟩
  rw [hx, hx'] at e1 e2
  dsimp only at e1 e2
  subst e1
  cases r' with
  | error e => exact ⟨rfl, e2⟩
  | ok u =>
    dsimp only
    obtain ⟨q1, q2⟩ := scaled_getTmm10 hc e2 a b
    obtain ⟨d1, d2⟩ := scaled_ensure (k := t.Tmm10) (k' := t'.Tmm10) (g := 1) (by rw [e2.Tmm10]) e2 (by rw [q1, map_one_mul]) q2
    rcases hy : ensure t.Tmm10 (t.getTmm10 a b) t with ⟨r, v⟩
    rcases hy' : ensure t'.Tmm10 (t'.getTmm10 a b) t' with ⟨r', v'⟩
    rw [hy, hy'] at d1 d2
    dsimp only at d1 d2
    subst d1
    cases r' with
    | error e => exact ⟨rfl, d2⟩
    | ok u =>
      have e : steepness v'.Hm0 v'.Tmm10 g = (steepness v.Hm0 v.Tmm10 g).map (Real.sqrt c * ·) := by
        rw [d2.Hm0, d2.Tmm10, steepness_scale]
      refine ⟨e, ?_⟩
      dsimp only
      constructor <;> dsimp only <;> first | (rw [e, d2.smm10, store_scale]) | exact d2.f | exact d2.S | exact d2.Hm0 | exact d2.Hm0HF | exact d2.Hm0LF | exact d2.Tp | exact d2.Tmm10 | exact d2.Tmm10HF | exact d2.Tmm10LF | exact d2.Tm01 | exact d2.Tm02 | exact d2.smm10HF

theorem scaled_getSmm10HF (hc : 0 < c) (h : Scaled c s s') (a : ℝ) (b : FMax ℝ) (g : ℝ) :
    (s'.getSmm10HF a b g).1 = (s.getSmm10HF a b g).1.map (Real.sqrt c * ·) ∧ Scaled c (s.getSmm10HF a b g).2 (s'.getSmm10HF a b g).2 := by
  unfold SpecObj.getSmm10HF
  obtain ⟨p1, p2⟩ := scaled_getHm0HF hc h a b
  obtain ⟨e1, e2⟩ := scaled_ensure (k := s.Hm0HF) (k' := s'.Hm0HF) (by rw [h.Hm0HF, isSome_scale]) h p1 p2
  rcases hx : ensure s.Hm0HF (s.getHm0HF a b) s with ⟨r, t⟩
  rcases hx' : ensure s'.Hm0HF (s'.getHm0HF a b) s' with ⟨r', t'⟩
  rw [hx, hx'] at e1 e2
  dsimp only at e1 e2
  subst e1
  cases r' with
  | error e => exact ⟨rfl, e2⟩
  | ok u =>
    dsimp only
    obtain ⟨q1, q2⟩ := scaled_getTmm10HF hc e2 a b
    obtain ⟨d1, d2⟩ := scaled_ensure (k := t.Tmm10HF) (k' := t'.Tmm10HF) (g := 1) (by rw [e2.Tmm10HF]) e2 (by rw [q1, map_one_mul]) q2
    rcases hy : ensure t.Tmm10HF (t.getTmm10HF a b) t with ⟨r, v⟩
    rcases hy' : ensure t'.Tmm10HF (t'.getTmm10HF a b) t' with ⟨r', v'⟩
    rw [hy, hy'] at d1 d2
    dsimp only at d1 d2
    subst d1
    cases r' with
    | error e => exact ⟨rfl, d2⟩
    | ok u =>
      have e : steepness v'.Hm0HF v'.Tmm10HF g = (steepness v.Hm0HF v.Tmm10HF g).map (Real.sqrt c * ·) := by
        rw [d2.Hm0HF, d2.Tmm10HF, steepness_scale]
      refine ⟨e, ?_⟩
      dsimp only
      constructor <;> dsimp only <;> first | (rw [e, d2.smm10HF, store_scale]) | exact d2.f | exact d2.S | exact d2.Hm0 | exact d2.Hm0HF | exact d2.Hm0LF | exact d2.Tp | exact d2.Tmm10 | exact d2.Tmm10HF | exact d2.Tmm10LF | exact d2.Tm01 | exact d2.Tm02 | exact d2.smm10

/-- The second half of `get_s0p`. -/
noncomputable def s0pTail (a : ℝ) (b : FMax ℝ) (g : ℝ) (t : SpecObj) : Except PyErr ℝ × SpecObj :=
  match ensure t.Tps (t.getTps a b) t with
  | (.error e, s2) => (.error e, s2)
  | (.ok (), s2) =>
    let r := steepness s2.Hm0 s2.Tps g
    (r, { s2 with s0p := store s2.s0p r })

/-- `get_s0p` leaves corresponding objects (its result uses the smoothed peak period). -/
theorem scaled_getS0p (hc : 0 < c) (h : Scaled c s s') (a : ℝ) (b : FMax ℝ) (g : ℝ) :
    Scaled c (s.getS0p a b g).2 (s'.getS0p a b g).2 := by
  have st : ∀ {v v' : SpecObj} (x x' : Cache), Scaled c v v' → Scaled c { v with s0p := x } { v' with s0p := x' } := fun x x' d2 => by
    constructor <;> dsimp only <;> first | exact d2.f | exact d2.S | exact d2.Hm0 | exact d2.Hm0HF | exact d2.Hm0LF | exact d2.Tp | exact d2.Tmm10 | exact d2.Tmm10HF | exact d2.Tmm10LF | exact d2.Tm01 | exact d2.Tm02 | exact d2.smm10 | exact d2.smm10HF
  have tp : ∀ {v v' : SpecObj} (x x' : Cache), Scaled c v v' → Scaled c { v with Tps := x } { v' with Tps := x' } := fun x x' d2 => by
    constructor <;> dsimp only <;> first | exact d2.f | exact d2.S | exact d2.Hm0 | exact d2.Hm0HF | exact d2.Hm0LF | exact d2.Tp | exact d2.Tmm10 | exact d2.Tmm10HF | exact d2.Tmm10LF | exact d2.Tm01 | exact d2.Tm02 | exact d2.smm10 | exact d2.smm10HF
  have hens : ∀ (t : SpecObj), ∃ x, (ensure t.Tps (t.getTps a b) t).2 = { t with Tps := x } := by
    intro t
    unfold ensure SpecObj.getTps
    cases hT : t.Tps with
    | some v => exact ⟨some v, by dsimp only; rw [← hT]⟩
    | none =>
      dsimp only
      rcases calcTps t.f t.sVarDens a b with e | v
      · cases e <;> exact ⟨_, rfl⟩
      · exact ⟨_, rfl⟩
  have hfin : ∀ (t : SpecObj), ∃ x y, (s0pTail a b g t).2 = { { t with Tps := x } with s0p := y } := by
    intro t
    unfold s0pTail
    obtain ⟨x, hx⟩ := hens t
    rcases hy : ensure t.Tps (t.getTps a b) t with ⟨r, v⟩
    rw [hy] at hx
    dsimp only at hx
    subst hx
    cases r with
    | error e => exact ⟨x, t.s0p, rfl⟩
    | ok u => exact ⟨x, _, rfl⟩
  unfold SpecObj.getS0p
  obtain ⟨p1, p2⟩ := scaled_getHm0 hc h a b
  obtain ⟨e1, e2⟩ := scaled_ensure (k := s.Hm0) (k' := s'.Hm0) (by rw [h.Hm0, isSome_scale]) h p1 p2
  rcases hx : ensure s.Hm0 (s.getHm0 a b) s with ⟨r, t⟩
  rcases hx' : ensure s'.Hm0 (s'.getHm0 a b) s' with ⟨r', t'⟩
  rw [hx, hx'] at e1 e2
  dsimp only at e1 e2
  subst e1
  cases r' with
  | error e => exact e2
  | ok u =>
    dsimp only
    obtain ⟨x, y, hxy⟩ := hfin t
    obtain ⟨x', y', hxy'⟩ := hfin t'
    show Scaled c (s0pTail a b g t).2 (s0pTail a b g t').2
    rw [hxy, hxy']
    exact st _ _ (tp _ _ e2)

theorem scaled_call (hc : 0 < c) (h : Scaled c s s') (op : SpecOp) :
    (¬ op.usesTps → (s'.call op).1 = (s.call op).1.map (op.energyFactor c * ·)) ∧ Scaled c (s.call op).2 (s'.call op).2 := by
  cases op with
  | getHm0 a b => exact ⟨fun _ => (scaled_getHm0 hc h a b).1, (scaled_getHm0 hc h a b).2⟩
  | getHm0HF a b => exact ⟨fun _ => (scaled_getHm0HF hc h a b).1, (scaled_getHm0HF hc h a b).2⟩
  | getHm0LF a b => exact ⟨fun _ => (scaled_getHm0LF hc h a b).1, (scaled_getHm0LF hc h a b).2⟩
  | getTps a b => exact ⟨fun hn => absurd trivial hn, scaled_getTps h a b⟩
  | getTp a b => exact ⟨fun _ => ((scaled_getTp hc h a b).1).trans (map_one_mul _).symm, (scaled_getTp hc h a b).2⟩
  | getTmm10 a b => exact ⟨fun _ => ((scaled_getTmm10 hc h a b).1).trans (map_one_mul _).symm, (scaled_getTmm10 hc h a b).2⟩
  | getTmm10HF a b => exact ⟨fun _ => ((scaled_getTmm10HF hc h a b).1).trans (map_one_mul _).symm, (scaled_getTmm10HF hc h a b).2⟩
  | getTmm10LF a b => exact ⟨fun _ => ((scaled_getTmm10LF hc h a b).1).trans (map_one_mul _).symm, (scaled_getTmm10LF hc h a b).2⟩
  | getTm01 a b => exact ⟨fun _ => ((scaled_getTm01 hc h a b).1).trans (map_one_mul _).symm, (scaled_getTm01 hc h a b).2⟩
  | getTm02 a b => exact ⟨fun _ => ((scaled_getTm02 hc h a b).1).trans (map_one_mul _).symm, (scaled_getTm02 hc h a b).2⟩
  | getS0p a b g => exact ⟨fun hn => absurd trivial hn, scaled_getS0p hc h a b g⟩
  | getSmm10 a b g => exact ⟨fun _ => (scaled_getSmm10 hc h a b g).1, (scaled_getSmm10 hc h a b g).2⟩
  | getSmm10HF a b g => exact ⟨fun _ => (scaled_getSmm10HF hc h a b g).1, (scaled_getSmm10HF hc h a b g).2⟩

theorem scaled_after (hc : 0 < c) (h : Scaled c s s') (hist : List SpecOp) : Scaled c (s.after hist) (s'.after hist) := by
  unfold SpecObj.after
  induction hist generalizing s s' with
  | nil => exact h
  | cons op hist ih => exact ih (scaled_call hc h op).2

/-! ## C80 -/

/-- **C80.** If all densities of a valid spectrum are multiplied by `c > 0`, then after any sequence of calls every getter except those that
use the smoothed peak period returns the old result times `sqrt c` (wave heights, steepnesses) or the old result (periods); it raises or returns
NaN exactly when it did before. -/
theorem spectrum_energy_scaling {pf pS pS' : PyIn ℝ} {f S : List ℝ} (hf : pf.IsArr f) (hS : pS.IsArr S) (hS' : pS'.IsArr (S.map (c * ·)))
    (hc : 0 < c) {s : SpecObj} (hs : SpecObj.init pf pS = .ok s) :
    ∃ s', SpecObj.init pf pS' = .ok s' ∧ ∀ (hist : List SpecOp) (op : SpecOp), ¬ op.usesTps →
      ((s'.after hist).call op).1 = ((s.after hist).call op).1.map (op.energyFactor c * ·) := by
  obtain ⟨hm, hl, rfl⟩ := (spectrum_init_iff_partial hf hS).1 hs
  refine ⟨_, (spectrum_init_iff_partial hf hS').2 ⟨hm, by rw [List.length_map, hl], rfl⟩, fun hist op hop => ?_⟩
  refine (scaled_call hc (scaled_after hc ?_ hist) op).1 hop
  constructor <;> first | rfl | simp [Arr.scale]

/-- **C80 (smoothed peak period).** `get_Tps` does not change either, provided the largest density in the requested range is at least
`1e-10` before and after the multiplication; -/
theorem spectrum_tps_scaling {pf pS pS' : PyIn ℝ} {f S : List ℝ} (hf : pf.IsArr f) (hS : pS.IsArr S) (hS' : pS'.IsArr (S.map (c * ·)))
    (hc : 0 < c) {s : SpecObj} (hs : SpecObj.init pf pS = .ok s) {a : ℝ} {b : FMax ℝ}
    (hbig : ∃ k < f.length, InRange f a b k ∧ 1 / 10 ^ 10 ≤ S.getD k 0 ∧ 1 / 10 ^ 10 ≤ c * S.getD k 0) :
    ∃ s', SpecObj.init pf pS' = .ok s' ∧ (s'.getTps a b).1 = (s.getTps a b).1 := by
  obtain ⟨hm, hl, rfl⟩ := (spectrum_init_iff_partial hf hS).1 hs
  refine ⟨_, (spectrum_init_iff_partial hf hS').2 ⟨hm, by rw [List.length_map, hl], rfl⟩, ?_⟩
  obtain ⟨k, hk, hr, h1, h2⟩ := hbig
  have hp := uniform_check_increasing hm
  have hr' := (inRange_iff hp a b k).1 hr
  show calcTps f ⟨[(S.map (c * ·)).length], S.map (c * ·)⟩ a b = calcTps f ⟨[S.length], S⟩ a b
  obtain ⟨r, hb⟩ := bandSlice_defined (S := S) hr'
  obtain ⟨i, j, hj, hrr, hij⟩ := bandSlice_spec hp hb
  unfold calcTps
  dsimp only
  rw [if_neg (by simp), if_neg (by simp), bandSlice_scale, hb]
  simp only [Except.map, bind, Except.bind]
  obtain ⟨hik, hkj⟩ := (hij k).2 hr'
  have hmem : S.getD k 0 ∈ r.2 := by
    rw [hrr]
    dsimp only
    have hlen : (pySlice S i (j + 1)).length = j + 1 - i := pySlice_len1 (by omega)
    have hg : (pySlice S i (j + 1)).getD (k - i) 0 = S.getD (i + (k - i)) 0 := pySlice_getD (by omega)
    rw [show i + (k - i) = k by omega] at hg
    rw [← hg, List.getD_eq_getElem _ _ (by omega)]
    exact List.getElem_mem _
  exact tps_scale (isArr_vec _) (isArr_vec _) (isArr_vec _) hc ⟨_, hmem, h1⟩ ⟨_, hmem, h2⟩

/-- ... but below that threshold it is the sentinel `-999`: every valid spectrum, scaled down far enough, gets the smoothed peak period `-999`
for every range that contains a frequency. -/
theorem spectrum_tps_sentinel {pf pS : PyIn ℝ} {f S : List ℝ} (hf : pf.IsArr f) (hS : pS.IsArr S)
    {s : SpecObj} (hs : SpecObj.init pf pS = .ok s) :
    ∃ c0, 0 < c0 ∧ ∀ c, 0 < c → c ≤ c0 → ∀ pS' : PyIn ℝ, pS'.IsArr (S.map (c * ·)) → ∃ s', SpecObj.init pf pS' = .ok s' ∧
      ∀ a b, (∃ k, InRange f a b k) → (s'.getTps a b).1 = .ok (-999) := by
  obtain ⟨hm, hl, rfl⟩ := (spectrum_init_iff_partial hf hS).1 hs
  have hp := uniform_check_increasing hm
  set M := (S.map fun v => |v|).sum with hM
  have hM0 : 0 ≤ M := List.sum_nonneg (by simp)
  have hle : ∀ v ∈ S, v ≤ M := fun v hv =>
    (le_abs_self v).trans (List.single_le_sum (by simp) _ (List.mem_map_of_mem hv))
  refine ⟨1 / 10 ^ 11 / (M + 1), by positivity, fun c hc hcl pS' hS' => ?_⟩
  refine ⟨_, (spectrum_init_iff_partial hf hS').2 ⟨hm, by rw [List.length_map, hl], rfl⟩, ?_⟩
  rintro a b ⟨k, hr⟩
  have hr' := (inRange_iff hp a b k).1 hr
  show calcTps f ⟨[(S.map (c * ·)).length], S.map (c * ·)⟩ a b = _
  obtain ⟨r, hb⟩ := bandSlice_defined (S := S) hr'
  obtain ⟨i, j, hj, hrr, hij⟩ := bandSlice_spec hp hb
  unfold calcTps
  dsimp only
  rw [if_neg (by simp), bandSlice_scale, hb]
  simp only [Except.map, bind, Except.bind]
  obtain ⟨hik, hkj⟩ := (hij k).2 hr'
  have hlen : r.2.length = j + 1 - i := by rw [hrr]; exact pySlice_len1 (by omega)
  have hlen1 : r.1.length = j + 1 - i := by rw [hrr]; exact pySlice_len1 (by omega)
  refine tps_sentinel (isArr_vec _) (isArr_vec _) (by rw [List.length_map]; omega) ?_ ?_
  · intro h0
    have := congrArg List.length h0
    rw [List.length_map, List.length_nil] at this
    omega
  · intro v hv
    obtain ⟨w, hw, rfl⟩ := List.mem_map.1 hv
    have hwS : w ∈ S := by
      rw [hrr] at hw
      exact List.mem_of_mem_take (List.mem_of_mem_drop hw)
    have h1 : c * w ≤ c * M := mul_le_mul_of_nonneg_left (hle w hwS) hc.le
    have h2 : c * M ≤ 1 / 10 ^ 11 / (M + 1) * (M + 1) := mul_le_mul hcl (by linarith) hM0 (by positivity)
    have h3 : (1 : ℝ) / 10 ^ 11 / (M + 1) * (M + 1) = 1 / 10 ^ 11 := by field_simp
    have h4 : (1 : ℝ) / 10 ^ 11 < 1 / 10 ^ 10 := by norm_num
    linarith

/-- The hypotheses are met, e.g. by the spectrum 1, 2, 1 at 1, 2, 3 Hz; its `Hm0` is `4 sqrt (10/3)`, so nine times the energy gives
three times the height. -/
example : ∃ s s', SpecObj.init (vec [1, 2, 3]) (vec [1, 2, 1]) = .ok s ∧ SpecObj.init (vec [1, 2, 3]) (vec [9, 18, 9]) = .ok s' ∧
    ((s'.after [.getTps (-1) .inf, .getS0p 0 .inf 9]).call (.getHm0 (-1) (.fin (-1)))).1 =
      ((s.after [.getTps (-1) .inf, .getS0p 0 .inf 9]).call (.getHm0 (-1) (.fin (-1)))).1.map (3 * ·) ∧
    (s'.getTps (-1) .inf).1 = (s.getTps (-1) .inf).1 := by
  obtain ⟨s, hs⟩ := tri_init
  have hS' : (vec [9, 18, 9] : PyIn ℝ).IsArr ([1, 2, 1].map ((9 : ℝ) * ·)) := by
    have : ([1, 2, 1].map ((9 : ℝ) * ·)) = [9, 18, 9] := by norm_num
    rw [this]; exact isArr_vec _
  obtain ⟨s', h1, h2⟩ := spectrum_energy_scaling (c := 9) (isArr_vec _) (isArr_vec _) hS' (by norm_num) hs
  obtain ⟨s'', h3, h4⟩ := spectrum_tps_scaling (c := 9) (a := -1) (b := .inf) (isArr_vec _) (isArr_vec _) hS' (by norm_num) hs
    ⟨1, by simp, ⟨by simp, .inl rfl, trivial⟩, by norm_num, by norm_num⟩
  rw [h1] at h3
  cases h3
  have h9 : Real.sqrt 9 = 3 := by rw [show (9 : ℝ) = 3 ^ 2 by norm_num]; exact Real.sqrt_sq (by norm_num)
  refine ⟨s, s', hs, h1, ?_, h4⟩
  have := h2 [.getTps (-1) .inf, .getS0p 0 .inf 9] (.getHm0 (-1) (.fin (-1))) (fun h => h)
  rw [this]
  show Except.map (Real.sqrt 9 * ·) _ = _
  rw [h9]

/-! ## Concrete cases: the hypotheses of the theorems above are met -/

example : ∃ s, SpecObj.init (vec [1, 2, 3]) (vec [1, 2, 1]) = .ok s ∧ ∃ c0, 0 < c0 ∧ ∀ c, 0 < c → c ≤ c0 →
    ∃ s', SpecObj.init (vec [1, 2, 3]) (vec ([1, 2, 1].map (c * ·))) = .ok s' ∧ (s'.getTps 1 (.fin 2)).1 = .ok (-999) := by
  obtain ⟨s, hs⟩ := tri_init
  obtain ⟨c0, h0, h⟩ := spectrum_tps_sentinel (isArr_vec [1, 2, 3]) (isArr_vec [1, 2, 1]) hs
  refine ⟨s, hs, c0, h0, fun c hc hc' => ?_⟩
  obtain ⟨s', h1, h2⟩ := h c hc hc' _ (isArr_vec _)
  exact ⟨s', h1, h2 1 (.fin 2) ⟨0, by simp, .inr (by simp), .inr (by simp)⟩⟩

end Verif
