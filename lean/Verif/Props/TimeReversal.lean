import Verif.Props.CrossAlt
import Verif.Props.Averaging
import Verif.Props.Prefix
import Verif.Props.Scaling

/-! # C161: a record run backwards and upside down

The up-crossing waves of the reversed record are the down-crossing waves of the record, in the opposite order. -/

namespace Verif
variable {K : Type} [Field K] [LinearOrder K] [IsStrictOrderedRing K]

set_option linter.unusedSectionVars false

/-- The time `τ` on the axis `t` run backwards: the first instant becomes the last one. -/
def mirrorTime (t : List K) (τ : K) : K := t.getD 0 0 + t.getD (t.length - 1) 0 - τ

theorem mirrorTime_mirror (t : List K) (τ : K) : mirrorTime t (mirrorTime t τ) = τ := by unfold mirrorTime; ring

theorem mirrorTime_le {t : List K} {a b : K} : mirrorTime t a ≤ mirrorTime t b ↔ b ≤ a := by unfold mirrorTime; exact sub_le_sub_iff_left _

theorem reverse_getD {l : List K} {i : Nat} (hi : i < l.length) : l.reverse.getD i 0 = l.getD (l.length - 1 - i) 0 := by
  rw [List.getD_eq_getElem _ _ (by simpa using hi), List.getD_eq_getElem _ _ (by omega), List.getElem_reverse]

theorem uniform_point {t : List K} {dt : K} (hu : UniformAxis t dt) : ∀ i, i < t.length → t.getD i 0 = t.getD 0 0 + i * dt := by
  intro i
  induction i with
  | zero => intro _; simp
  | succ i ih => intro hi; rw [hu.2 i hi, ih (by omega)]; push_cast; ring

theorem mirrorTime_point {t : List K} {dt : K} (hu : UniformAxis t dt) {i : Nat} (hi : i < t.length) :
    mirrorTime t (t.getD i 0) = t.getD (t.length - 1 - i) 0 := by
  unfold mirrorTime
  rw [uniform_point hu i hi, uniform_point hu _ (by omega : t.length - 1 < t.length), uniform_point hu _ (by omega : t.length - 1 - i < t.length),
    Nat.cast_sub (by omega : i ≤ t.length - 1)]
  ring

theorem up_of_reverse {x : List K} (hz : ZeroFree x) {j : Nat} (hj : j + 1 < x.length) : UpCrossing x.reverse j ↔ DownCrossing x (x.length - 2 - j) := by
  unfold UpCrossing DownCrossing
  rw [reverse_getD (by omega), reverse_getD (by omega), List.length_reverse, show x.length - 1 - (j + 1) = x.length - 2 - j by omega,
    show x.length - 1 - j = x.length - 2 - j + 1 by omega]
  constructor
  · rintro ⟨-, a, b⟩
    exact ⟨by omega, b.le, lt_of_le_of_ne a (hz.getD (by omega))⟩
  · rintro ⟨-, a, b⟩
    exact ⟨hj, b.le, lt_of_le_of_ne a (hz.getD (by omega)).symm⟩

theorem reversed_indices {x : List K} (hz : ZeroFree x) {idx : List Nat} (h : ListsExactly idx (DownCrossing x)) :
    ListsExactly (idx.map fun i => x.length - 2 - i).reverse (UpCrossing x.reverse) := by
  refine ⟨?_, fun j => ?_⟩
  · rw [List.pairwise_reverse, List.pairwise_map]
    refine List.Pairwise.imp_of_mem ?_ h.1
    intro i j hi hj hij
    have := ((h.2 j).1 hj).1
    omega
  · rw [List.mem_reverse, List.mem_map]
    constructor
    · rintro ⟨i, hi, rfl⟩
      have d := (h.2 i).1 hi
      have := d.1
      rw [up_of_reverse hz (by omega), show x.length - 2 - (x.length - 2 - i) = i by omega]
      exact d
    · intro hj
      have hj1 : j + 1 < x.length := by simpa using hj.1
      exact ⟨x.length - 2 - j, (h.2 _).2 ((up_of_reverse hz hj1).1 hj), by omega⟩

theorem interpolatedZero_unique {t x : List K} {i : Nat} {τ τ' : K} (hs : x.getD (i + 1) 0 - x.getD i 0 ≠ 0) (ht : t.getD (i + 1) 0 - t.getD i 0 ≠ 0)
    (h : IsInterpolatedZero t x i τ) (h' : IsInterpolatedZero t x i τ') : τ = τ' := by
  have e : (x.getD (i + 1) 0 - x.getD i 0) / (t.getD (i + 1) 0 - t.getD i 0) * (τ - t.getD i 0) =
      (x.getD (i + 1) 0 - x.getD i 0) / (t.getD (i + 1) 0 - t.getD i 0) * (τ' - t.getD i 0) := by
    have a := h.zero
    have b := h'.zero
    linarith
  have := mul_left_cancel₀ (div_ne_zero hs ht) e
  linarith

theorem interpolatedZero_mirror {t x : List K} {dt : K} (hu : UniformAxis t dt) (hlen : t.length = x.length) (hz : ZeroFree x) {i : Nat} {τ : K}
    (hi : i + 1 < x.length) (h : IsInterpolatedZero t x i τ) : IsInterpolatedZero t x.reverse (x.length - 2 - i) (mirrorTime t τ) := by
  have e1 : mirrorTime t (t.getD i 0) = t.getD (x.length - 2 - i + 1) 0 := by
    rw [mirrorTime_point hu (by omega)]; congr 1; omega
  have e2 : mirrorTime t (t.getD (i + 1) 0) = t.getD (x.length - 2 - i) 0 := by
    rw [mirrorTime_point hu (by omega)]; congr 1; omega
  have y1 : x.reverse.getD (x.length - 2 - i) 0 = x.getD (i + 1) 0 := by
    rw [reverse_getD (by omega)]; congr 1; omega
  have y2 : x.reverse.getD (x.length - 2 - i + 1) 0 = x.getD i 0 := by
    rw [reverse_getD (by omega)]; congr 1; omega
  have hd : t.getD (i + 1) 0 - t.getD i 0 = dt := by rw [hu.2 i (by omega)]; ring
  have hne : τ ≠ t.getD i 0 := fun e => hz.getD (by omega) (h.exact_iff.1 e)
  have hlow := lt_of_le_of_ne h.lower hne.symm
  have hm : ∀ a b : K, mirrorTime t a - mirrorTime t b = b - a := fun a b => by unfold mirrorTime; ring
  have hdt := hu.1
  refine ⟨?_, ?_, ?_, ?_⟩
  · rw [← e2]; exact mirrorTime_le.2 h.upper.le
  · rw [← e1]
    refine lt_of_le_of_ne (mirrorTime_le.2 hlow.le) fun e => hne ?_
    rw [← mirrorTime_mirror t τ, e, mirrorTime_mirror]
  · rw [← e2, y1]
    constructor
    · intro e
      have : τ = t.getD (i + 1) 0 := by rw [← mirrorTime_mirror t τ, e, mirrorTime_mirror]
      exact absurd this h.upper.ne
    · intro e; exact absurd e (hz.getD hi)
  · rw [← e2, ← e1, y1, y2, hm, hm, hd]
    have z := h.zero
    rw [hd] at z
    have e : (x.getD i 0 - x.getD (i + 1) 0) / dt * (t.getD (i + 1) 0 - τ) =
        -((x.getD (i + 1) 0 - x.getD i 0) / dt * (t.getD i 0 - τ)) + (x.getD i 0 - x.getD (i + 1) 0) / dt * (t.getD (i + 1) 0 - t.getD i 0) := by ring
    rw [e, hd, div_mul_cancel₀ _ hdt.ne']
    linarith

/-- **C161 (crossings).** The up-crossings of the reversed record are the down-crossings of the record at the mirrored times, in the opposite order,
and as many: for every record without exact zeros on a uniform axis. -/
theorem crossings_reversed {pt px px' : PyIn K} {t x : List K} {dt : K} (ht : pt.IsVec t) (hx : px.IsVec x) (hx' : px'.IsVec x.reverse)
    (h2 : 2 ≤ t.length) (hlen : t.length = x.length) (hu : UniformAxis t dt) (hz : ZeroFree x) :
    ∃ n tc, determineZeroCrossing pt px "down" = .ok (n, tc) ∧
      determineZeroCrossing pt px' "up" = .ok (n, (tc.map (mirrorTime t)).reverse) := by
  have hlen' : t.length = x.reverse.length := by simpa using hlen
  obtain ⟨n, tc, idx, h1, hidx, hl, hn⟩ := down_crossings_exact ht hx h2 hlen
  obtain ⟨n₂, tc₂, idx₂, h1₂, hidx₂, hf, -⟩ := down_crossing_times ht hx h2 hlen hu
  obtain ⟨n', tc', idx', h1', hidx', hl', hn'⟩ := up_crossings_exact ht hx' h2 hlen'
  obtain ⟨n₃, tc₃, idx₃, h1₃, hidx₃, hf', -⟩ := up_crossing_times ht hx' h2 hlen' hu
  rw [h1] at h1₂
  rw [h1'] at h1₃
  simp only [Except.ok.injEq, Prod.mk.injEq] at h1₂ h1₃
  obtain ⟨-, rfl⟩ := h1₂
  obtain ⟨-, rfl⟩ := h1₃
  obtain rfl := hidx.unique hidx₂
  obtain rfl := hidx'.unique hidx₃
  have e := hidx'.unique (reversed_indices hz hidx)
  have ll : idx'.length = idx.length := by rw [e]; simp
  refine ⟨n, tc, h1, ?_⟩
  have hnn : n' = n := by rw [hn, hn', ll]
  have htc : tc' = (tc.map (mirrorTime t)).reverse := by
    have f1 := (List.forall₂_iff_get.1 hf).2
    have f2 := (List.forall₂_iff_get.1 hf').2
    refine List.ext_getElem (by simp; omega) fun k k1 k2 => ?_
    have k3 : k < idx'.length := by omega
    have k4 : tc.length - 1 - k < tc.length := by omega
    have g2 := f2 k k3 k1
    have g1 := f1 (tc.length - 1 - k) (by omega) k4
    simp only [List.get_eq_getElem] at g1 g2
    rw [List.getElem_reverse, List.getElem_map]
    have hi := ((hidx.2 _).1 (List.getElem_mem (by omega : tc.length - 1 - k < idx.length)))
    have g3 := interpolatedZero_mirror hu hlen hz hi.1 g1
    have hk : idx'[k] = x.length - 2 - idx[tc.length - 1 - k]'(by omega) := by
      simp only [e, List.getElem_reverse, List.getElem_map, List.length_map]
      congr 2
      omega
    rw [← hk] at g3
    have hup := (hidx'.2 _).1 (List.getElem_mem k3)
    have c1 : x.reverse.getD (idx'[k] + 1) 0 - x.reverse.getD idx'[k] 0 ≠ 0 := by
      have := hup.2; exact (sub_pos.2 (lt_of_le_of_lt this.1 this.2)).ne'
    have c2 : t.getD (idx'[k] + 1) 0 - t.getD idx'[k] 0 ≠ 0 := by
      rw [hu.2 _ (by rw [hlen']; exact hup.1)]
      have := hu.1
      simp; exact this.ne'
    rw [interpolatedZero_unique c1 c2 g2 g3]
    simp
  rw [h1', hnn, htc]

theorem inWave_mirror {t : List K} {dt a b : K} (hu : UniformAxis t dt) {j : Nat} (h : InWave t (mirrorTime t b) (mirrorTime t a) j) :
    InWave t a b (t.length - 1 - j) := by
  obtain ⟨h0, h1, h2⟩ := h
  have e := mirrorTime_point hu (i := t.length - 1 - j) (by omega)
  rw [show t.length - 1 - (t.length - 1 - j) = j by omega] at e
  rw [← e] at h1 h2
  exact ⟨by omega, mirrorTime_le.1 h2, mirrorTime_le.1 h1⟩

theorem inWave_mirror' {t : List K} {dt a b : K} (hu : UniformAxis t dt) {j : Nat} (h : InWave t a b j) :
    InWave t (mirrorTime t b) (mirrorTime t a) (t.length - 1 - j) := by
  obtain ⟨h0, h1, h2⟩ := h
  have e := mirrorTime_point hu h0
  exact ⟨by omega, by rw [← e]; exact mirrorTime_le.2 h2, by rw [← e]; exact mirrorTime_le.2 h1⟩

theorem extreme_reversed {le : K → K → Prop} (anti : ∀ a b, le a b → le b a → a = b) {t x : List K} {dt a b τ v τ' v' : K} (hu : UniformAxis t dt)
    (hlen : t.length = x.length) (h : FirstExtreme le t x a b τ v) (h' : FirstExtreme le t x.reverse (mirrorTime t b) (mirrorTime t a) τ' v') :
    v' = v ∧ (x.Nodup → τ' = mirrorTime t τ) := by
  obtain ⟨i, hi, rfl, rfl, hm, -⟩ := h
  obtain ⟨j, hj, rfl, rfl, hm', -⟩ := h'
  have a1 := hm _ (inWave_mirror hu hj)
  have a2 := hm' _ (inWave_mirror' hu hi)
  have hi0 := hi.1
  have hj0 := hj.1
  rw [reverse_getD (by omega), show x.length - 1 - (t.length - 1 - i) = i by omega] at a2
  rw [reverse_getD (by omega), show x.length - 1 - j = t.length - 1 - j by omega] at a2 ⊢
  have ev := anti _ _ a1 a2
  refine ⟨ev, fun hn => ?_⟩
  rw [mirrorTime_point hu hi0]
  have : t.length - 1 - j = i := by
    rw [List.getD_eq_getElem _ _ (by omega), List.getD_eq_getElem _ _ (by omega)] at ev
    exact (List.Nodup.getElem_inj_iff hn).1 ev
  congr 1
  omega

/-- The same wave seen in the reversed record. -/
theorem isWave_reversed {t x : List K} {dt a b : K} {r r' : WaveRec K} (hu : UniformAxis t dt) (hlen : t.length = x.length) (h : IsWave t x a b r)
    (h' : IsWave t x.reverse (mirrorTime t b) (mirrorTime t a) r') :
    r'.hWave = r.hWave ∧ r'.tWave = r.tWave ∧ r'.aCrest = r.aCrest ∧ r'.aTrough = r.aTrough ∧
      (x.Nodup → r'.tCrest = mirrorTime t r.tCrest ∧ r'.tTrough = mirrorTime t r.tTrough) := by
  obtain ⟨c1, c2⟩ := extreme_reversed (fun _ _ u v => le_antisymm u v) hu hlen h.crest h'.crest
  obtain ⟨d1, d2⟩ := extreme_reversed (fun _ _ u v => le_antisymm v u) hu hlen h.trough h'.trough
  refine ⟨by rw [h.height, h'.height, c1, d1], ?_, c1, d1, fun hn => ⟨c2 hn, d2 hn⟩⟩
  rw [h.period, h'.period]
  unfold mirrorTime
  ring

/-- The waves of a record and those of the reversed record, in the opposite order. -/
theorem waves_between_reversed {t x tc : List K} {recs recs' : List (WaveRec K)} {dt : K} (hu : UniformAxis t dt) (hlen : t.length = x.length)
    (h : WavesBetween t x tc recs) (h' : WavesBetween t x.reverse (tc.map (mirrorTime t)).reverse recs') :
    recs'.map (·.hWave) = (recs.map (·.hWave)).reverse ∧ recs'.map (·.tWave) = (recs.map (·.tWave)).reverse ∧
    recs'.map (·.aCrest) = (recs.map (·.aCrest)).reverse ∧ recs'.map (·.aTrough) = (recs.map (·.aTrough)).reverse ∧
    (x.Nodup → recs'.map (·.tCrest) = (recs.map fun r => mirrorTime t r.tCrest).reverse ∧
      recs'.map (·.tTrough) = (recs.map fun r => mirrorTime t r.tTrough).reverse) := by
  have l1 := h.1
  have l2 := h'.1
  rw [List.length_reverse, List.length_map] at l2
  have key : ∀ k (k1 : k < recs'.length) (k2 : recs.length - 1 - k < recs.length),
      recs'[k].hWave = recs[recs.length - 1 - k].hWave ∧ recs'[k].tWave = recs[recs.length - 1 - k].tWave ∧
      recs'[k].aCrest = recs[recs.length - 1 - k].aCrest ∧ recs'[k].aTrough = recs[recs.length - 1 - k].aTrough ∧
      (x.Nodup → recs'[k].tCrest = mirrorTime t recs[recs.length - 1 - k].tCrest ∧ recs'[k].tTrough = mirrorTime t recs[recs.length - 1 - k].tTrough) := by
    intro k k1 k2
    obtain ⟨a, b, ha, hb, hw⟩ := h.2 _ _ (List.getElem?_eq_getElem k2)
    obtain ⟨a', b', ha', hb', hw'⟩ := h'.2 _ _ (List.getElem?_eq_getElem k1)
    rw [List.getElem?_reverse (by simp; omega), List.getElem?_map, List.length_map] at ha' hb'
    rw [show tc.length - 1 - k = recs.length - 1 - k + 1 by omega, hb] at ha'
    rw [show tc.length - 1 - (k + 1) = recs.length - 1 - k by omega, ha] at hb'
    simp only [Option.map_some, Option.some.injEq] at ha' hb'
    subst ha' hb'
    exact isWave_reversed hu hlen hw hw'
  have ext : ∀ f g : WaveRec K → K, (∀ k (k1 : k < recs'.length) (k2 : recs.length - 1 - k < recs.length), f recs'[k] = g recs[recs.length - 1 - k]) →
      recs'.map f = (recs.map g).reverse := by
    intro f g hfg
    refine List.ext_getElem (by simp; omega) fun k k1 k2 => ?_
    simp only [List.length_map] at k1
    rw [List.getElem_map, List.getElem_reverse, List.getElem_map, hfg k k1 (by omega)]
    simp
  exact ⟨ext _ _ fun k a b => (key k a b).1, ext _ _ fun k a b => (key k a b).2.1, ext _ _ fun k a b => (key k a b).2.2.1,
    ext _ _ fun k a b => (key k a b).2.2.2.1, fun hn => ⟨ext _ _ fun k a b => ((key k a b).2.2.2.2 hn).1, ext _ _ fun k a b => ((key k a b).2.2.2.2 hn).2⟩⟩

/-- **C161 (waves).** The individual waves between the up-crossings of the reversed record are the waves between the down-crossings of the record, in
the opposite order: same heights, periods, crests and troughs.  If no two samples are equal, crest and trough times are mirrored as well (for equal
samples the first one is reported, which is the other one when the record runs backwards). -/
theorem waves_reversed {pt px px' : PyIn K} {t x : List K} {dt : K} (ht : pt.IsVec t) (hx : px.IsVec x) (hx' : px'.IsVec x.reverse)
    (h2 : 2 ≤ t.length) (hlen : t.length = x.length) (hu : UniformAxis t dt) (hz : ZeroFree x) :
    ∃ n tc w w', determineZeroCrossing pt px "down" = .ok (n, tc) ∧
      determineZeroCrossing pt px' "up" = .ok (n, (tc.map (mirrorTime t)).reverse) ∧
      determineParamsIndividualWaves (vec tc) pt px = .ok w ∧
      determineParamsIndividualWaves (vec (tc.map (mirrorTime t)).reverse) pt px' = .ok w' ∧
      w'.hWave = w.hWave.reverse ∧ w'.tWave = w.tWave.reverse ∧ w'.aCrest = w.aCrest.reverse ∧ w'.aTrough = w.aTrough.reverse ∧
      (x.Nodup → w'.tCrest = (w.tCrest.map (mirrorTime t)).reverse ∧ w'.tTrough = (w.tTrough.map (mirrorTime t)).reverse) := by
  have hlen' : t.length = x.reverse.length := by simpa using hlen
  have ht0 : t ≠ [] := by rintro rfl; simp at h2
  have hs := uniform_pairwise hu
  obtain ⟨n, tc, h1, h1'⟩ := crossings_reversed ht hx hx' h2 hlen hu hz
  obtain ⟨n₁, tc₁, w, g1, g2, -, -⟩ := down_waves_signs ht hx h2 hlen hu
  obtain ⟨n₂, tc₂, w', g1', g2', -, -⟩ := up_waves_signs ht hx' h2 hlen' hu
  rw [h1] at g1
  rw [h1'] at g1'
  simp only [Except.ok.injEq, Prod.mk.injEq] at g1 g1'
  obtain ⟨-, rfl⟩ := g1
  obtain ⟨-, rfl⟩ := g1'
  obtain ⟨recs, hc, hl, hk⟩ := individual_waves_spec (isVec_vec tc) ht hx hlen ht0 hs g2
  obtain ⟨recs', hc', hl', hk'⟩ := individual_waves_spec (isVec_vec _) ht hx' hlen' ht0 hs g2'
  obtain ⟨a, b, c, d, e⟩ := waves_between_reversed hu hlen ⟨hl, hk⟩ ⟨hl', hk'⟩
  obtain ⟨q1, q2, q3, q4, q5, q6⟩ := hc
  obtain ⟨p1, p2, p3, p4, p5, p6⟩ := hc'
  refine ⟨n, tc, w, w', h1, h1', g2, g2', by rw [p1, q1, a], by rw [p2, q2, b], by rw [p3, q3, c], by rw [p4, q4, d], fun hn => ?_⟩
  obtain ⟨e1, e2⟩ := e hn
  rw [p5, q5, p6, q6, e1, e2, List.map_map, List.map_map]
  exact ⟨rfl, rfl⟩

/-- The wave in the record turned upside down: crest and trough exchange their roles. -/
def WaveRec.flipped (r : WaveRec K) : WaveRec K :=
  { hWave := r.hWave, tWave := r.tWave, aCrest := -r.aTrough, aTrough := -r.aCrest, tCrest := r.tTrough, tTrough := r.tCrest }

theorem isWave_flipped {t x : List K} {a b : K} {r : WaveRec K} (h : IsWave t x a b r) : IsWave t (x.map Neg.neg) a b r.flipped := by
  refine ⟨h.period, ?_, ?_, ?_⟩
  · show r.hWave = -r.aTrough - -r.aCrest
    rw [h.height]; ring
  · obtain ⟨i, hi, e1, e2, hm, hf⟩ := h.trough
    refine ⟨i, hi, by rw [getD_map_neg, e1]; rfl, e2, fun j hj => ?_, fun j hj hji => ?_⟩
    · rw [getD_map_neg]; exact neg_le_neg (hm j hj)
    · rw [getD_map_neg]; exact fun e => hf j hj hji (neg_injective e)
  · obtain ⟨i, hi, e1, e2, hm, hf⟩ := h.crest
    refine ⟨i, hi, by rw [getD_map_neg, e1]; rfl, e2, fun j hj => ?_, fun j hj hji => ?_⟩
    · rw [getD_map_neg]; exact neg_le_neg (hm j hj)
    · rw [getD_map_neg]; exact fun e => hf j hj hji (neg_injective e)

/-- **C161 (upside down).** The waves of the record turned upside down, between any crossing times for which the record can be analysed, have the same
heights and periods; crests and troughs (and their times) are exchanged, with the opposite sign. -/
theorem waves_flipped {t x tc : List K} {w : IndWaves K} (hlen : t.length = x.length) (ht0 : t ≠ []) (hs : t.Pairwise (· < ·))
    (h : determineParamsIndividualWaves (vec tc) (vec t) (vec x) = .ok w) :
    determineParamsIndividualWaves (vec tc) (vec t) (vec (x.map Neg.neg)) =
      .ok ⟨w.hWave, w.tWave, w.aTrough.map Neg.neg, w.aCrest.map Neg.neg, w.tTrough, w.tCrest⟩ := by
  obtain ⟨recs, hc, hl, hk⟩ := individual_waves_spec (isVec_vec tc) (isVec_vec t) (isVec_vec x) hlen ht0 hs h
  have hlen' : t.length = (x.map Neg.neg).length := by simpa using hlen
  have hall : ∃ recs', (List.range (tc.length - 1)).mapM (oneWave tc t (x.map Neg.neg)) = .ok recs' := by
    refine ⟨_, mapM_ok_of (g := fun k => (recs.getD k ⟨0, 0, 0, 0, 0, 0⟩).flipped) fun k hk' => ?_⟩
    have hk1 : k < recs.length := by rw [hl]; exact List.mem_range.1 hk'
    obtain ⟨a, b, ha, hb, hw⟩ := hk k _ (List.getElem?_eq_getElem hk1)
    obtain ⟨i, hi, -⟩ := hw.crest
    obtain ⟨r, hr⟩ := oneWave_ok hs hlen' ha hb ⟨i, hi⟩
    obtain ⟨a', b', ha', hb', hw'⟩ := oneWave_spec hs hlen' hr
    rw [ha] at ha'
    rw [hb] at hb'
    simp only [Option.some.injEq] at ha' hb'
    subst ha' hb'
    rw [hr, List.getD, List.getElem?_eq_getElem hk1, hw'.unique (isWave_flipped hw)]
    rfl
  obtain ⟨recs', hr'⟩ := hall
  have hok : determineParamsIndividualWaves (vec tc) (vec t) (vec (x.map Neg.neg)) = .ok (IndWaves.ofRecs recs') := by
    rw [individualWaves_eq (isVec_vec tc) (isVec_vec t) (isVec_vec _) hlen' ht0, hr']; rfl
  rw [hok]
  obtain ⟨recs'', hc', hl', hk'⟩ := individual_waves_spec (isVec_vec tc) (isVec_vec t) (isVec_vec _) hlen' ht0 hs hok
  have e : recs'' = recs.map WaveRec.flipped := by
    refine List.ext_getElem (by simp; omega) fun k k1 k2 => ?_
    rw [List.length_map] at k2
    obtain ⟨a, b, ha, hb, hw⟩ := hk k _ (List.getElem?_eq_getElem k2)
    obtain ⟨a', b', ha', hb', hw'⟩ := hk' k _ (List.getElem?_eq_getElem k1)
    rw [ha] at ha'
    rw [hb] at hb'
    simp only [Option.some.injEq] at ha' hb'
    subst ha' hb'
    rw [List.getElem_map]
    exact hw'.unique (isWave_flipped hw)
  obtain ⟨q1, q2, q3, q4, q5, q6⟩ := hc
  obtain ⟨p1, p2, p3, p4, p5, p6⟩ := hc'
  subst e
  simp only [List.map_map] at p1 p2 p3 p4 p5 p6
  generalize IndWaves.ofRecs recs' = w' at *
  cases w'
  simp only at p1 p2 p3 p4 p5 p6
  simp only [Except.ok.injEq, IndWaves.mk.injEq]
  refine ⟨?_, ?_, ?_, ?_, ?_, ?_⟩
  · rw [p1, q1]; rfl
  · rw [p2, q2]; rfl
  · rw [p3, q4, List.map_map]; rfl
  · rw [p4, q3, List.map_map]; rfl
  · rw [p5, q6]; rfl
  · rw [p6, q5]; rfl

/-- **C161 (object).** `Series(t, x)` and the `Series` of the record run backwards and turned upside down hold the same waves in the opposite order (so
every statistic of the wave heights alone is the same), and the crossing times are mirrored. -/
theorem series_reversed {t x : List K} {dt : K} (h2 : 2 ≤ t.length) (hlen : t.length = x.length) (hu : UniformAxis t dt) (hz : ZeroFree x) :
    ∃ S S', SeriesObj.init (vec t) (vec x) = .ok S ∧ SeriesObj.init (vec t) (vec (x.reverse.map Neg.neg)) = .ok S' ∧
      S'.wh.nwave = S.wh.nwave ∧ S'.wh.hwave = arr1 S.wh.hwave.data.reverse ∧ S'.wh.twave = arr1 S.wh.twave.data.reverse ∧
      S'.tCross = (S.tCross.map (mirrorTime t)).reverse := by
  have ht0 : t ≠ [] := by rintro rfl; simp at h2
  have hlen' : t.length = x.reverse.length := by simpa using hlen
  obtain ⟨S, n, tc, w, h1, -, -, -, -, h3, h4, h5, h6, -, -⟩ := series_never_fails (isVec_vec t) (isVec_vec x) h2 hlen hu
  obtain ⟨S', n', tc', w', h1', -, -, -, -, h3', h4', h5', h6', -, -⟩ :=
    series_never_fails (isVec_vec t) (isVec_vec (x.reverse.map Neg.neg)) h2 (by simpa using hlen) hu
  obtain ⟨n₁, tc₁, w₁, w₂, e1, e2, e3, e4, f1, f2, -, -, -⟩ := waves_reversed (isVec_vec t) (isVec_vec x) (isVec_vec x.reverse) h2 hlen hu hz
  rw [h3] at e1
  simp only [Except.ok.injEq, Prod.mk.injEq] at e1
  obtain ⟨-, rfl⟩ := e1
  rw [h4] at e3
  simp only [Except.ok.injEq] at e3
  subst e3
  rw [← up_is_down_of_neg (isVec_vec t) (isVec_vec x.reverse) h2 hlen', e2] at h3'
  simp only [Except.ok.injEq, Prod.mk.injEq] at h3'
  obtain ⟨-, rfl⟩ := h3'
  rw [waves_flipped hlen' ht0 (uniform_pairwise hu) e4] at h4'
  simp only [Except.ok.injEq] at h4'
  subst h4'
  refine ⟨S, S', h1, h1', ?_, ?_, ?_, by rw [h5, h5']⟩
  · rw [h6, h6']; simp [f1]
  · rw [h6, h6']; simp [f1, arr1]
  · rw [h6, h6']; simp [f2, arr1]

/-- **C161, with exact zeros.** With exact zeros in the record it is different: here the record has one wave, from 2 to 9/2, which would be seen
from 1/2 to 3 in the reversed record; the analysis of that one reports a wave from 1/2 to 4. -/
theorem reversed_zeros_differ :
    determineZeroCrossing (K := ℚ) (vec [0, 1, 2, 3, 4, 5]) (vec [1, 0, 0, -1, 1, -1]) "down" = .ok (1, [2, 9 / 2]) ∧
    determineZeroCrossing (K := ℚ) (vec [0, 1, 2, 3, 4, 5]) (vec [1, 0, 0, -1, 1, -1].reverse) "up" = .ok (1, [1 / 2, 4]) ∧
    ([2, 9 / 2].map (mirrorTime (K := ℚ) [0, 1, 2, 3, 4, 5])).reverse = [1 / 2, 3] := by
  refine ⟨by decide +kernel, by decide +kernel, by decide +kernel⟩

/-! ## Concrete cases -/

/-- A record of seven samples with two down-crossings and no two equal samples. -/
def backT : List ℚ := [0, 1, 2, 3, 4, 5, 6]
def backX : List ℚ := [2, -1, 3, 1, -2, 4, -3]

theorem backT_uniform : UniformAxis backT 1 := uniformAxis_of_steps (by norm_num) (by decide +kernel)
theorem backX_zeroFree : ZeroFree backX := by unfold ZeroFree backX; decide +kernel

example : ∃ n tc, determineZeroCrossing (vec backT) (vec backX) "down" = .ok (n, tc) ∧
      determineZeroCrossing (vec backT) (vec backX.reverse) "up" = .ok (n, (tc.map (mirrorTime backT)).reverse) :=
  crossings_reversed (isVec_vec _) (isVec_vec _) (isVec_vec _) (by decide) rfl backT_uniform backX_zeroFree

-- Two waves, of heights 4 and 6; in the reversed record of heights 6 and 4.
example : determineParamsIndividualWaves (vec [2 / 3, 10 / 3, 39 / 7]) (vec backT) (vec backX) =
    .ok ⟨[4, 6], [8 / 3, 47 / 21], [3, 4], [-1, -2], [2, 5], [1, 4]⟩ := by decide +kernel
example : determineParamsIndividualWaves (vec [3 / 7, 8 / 3, 16 / 3]) (vec backT) (vec backX.reverse) =
    .ok ⟨[6, 4], [47 / 21, 8 / 3], [4, 3], [-2, -1], [1, 4], [2, 5]⟩ := by decide +kernel

example := waves_reversed (isVec_vec backT) (isVec_vec backX) (isVec_vec backX.reverse) (by decide) rfl backT_uniform backX_zeroFree

example : determineParamsIndividualWaves (vec [2 / 3, 10 / 3, 39 / 7]) (vec backT) (vec (backX.map Neg.neg)) =
    .ok ⟨[4, 6], [8 / 3, 47 / 21], [-1, -2].map Neg.neg, [3, 4].map Neg.neg, [1, 4], [2, 5]⟩ :=
  waves_flipped (w := ⟨[4, 6], [8 / 3, 47 / 21], [3, 4], [-1, -2], [2, 5], [1, 4]⟩) rfl (by decide) (uniform_pairwise backT_uniform) (by decide +kernel)

example := series_reversed (t := backT) (x := backX) (by decide) rfl backT_uniform backX_zeroFree

end Verif
