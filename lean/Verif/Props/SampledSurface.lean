import Mathlib.Topology.Order.IntermediateValue
import Mathlib.Topology.Algebra.Order.Floor
import Mathlib.Analysis.SpecialFunctions.Trigonometric.Deriv
import Mathlib.Analysis.Real.Pi.Bounds
import Verif.Props.WaveSigns
import Verif.Props.CrossAlt

/-! # C157: wave-by-wave analysis of a sampled continuous surface elevation -/

set_option linter.unusedSectionVars false

namespace Verif

/-- Specification: at `z` the surface passes zero downwards, being positive during the sampling step before and negative during the one after. -/
structure PassesDown (η : ℝ → ℝ) (dt z : ℝ) : Prop where
  zero : η z = 0
  before : ∀ u, z - dt ≤ u → u < z → 0 < η u
  after : ∀ u, z < u → u ≤ z + dt → η u < 0

/-- Specification: at `z` the surface passes zero upwards. -/
structure PassesUp (η : ℝ → ℝ) (dt z : ℝ) : Prop where
  zero : η z = 0
  before : ∀ u, z - dt ≤ u → u < z → η u < 0
  after : ∀ u, z < u → u ≤ z + dt → 0 < η u

/-- Specification: between times `A` and `B` the surface is zero only where it passes from one side to the other for at least a sampling step. -/
def ResolvedBy (η : ℝ → ℝ) (dt A B : ℝ) : Prop := ∀ u ∈ Set.Icc A B, η u = 0 → PassesDown η dt u ∨ PassesUp η dt u

/-- Specification: `Z` lists the times in `[A, B)` with property `P`, in order. -/
def TimesOf (P : ℝ → Prop) (A B : ℝ) (Z : List ℝ) : Prop := Z.Pairwise (· < ·) ∧ ∀ z, z ∈ Z ↔ A ≤ z ∧ z < B ∧ P z

theorem passesDown_neg {η : ℝ → ℝ} {dt z : ℝ} : PassesDown (fun u => -η u) dt z ↔ PassesUp η dt z :=
  ⟨fun h => ⟨by simpa using h.zero, fun u a b => by simpa using h.before u a b, fun u a b => by simpa using h.after u a b⟩,
   fun h => ⟨by simpa using h.zero, fun u a b => by simpa using h.before u a b, fun u a b => by simpa using h.after u a b⟩⟩

theorem passesUp_neg {η : ℝ → ℝ} {dt z : ℝ} : PassesUp (fun u => -η u) dt z ↔ PassesDown η dt z :=
  ⟨fun h => ⟨by simpa using h.zero, fun u a b => by simpa using h.before u a b, fun u a b => by simpa using h.after u a b⟩,
   fun h => ⟨by simpa using h.zero, fun u a b => by simpa using h.before u a b, fun u a b => by simpa using h.after u a b⟩⟩

/-- The sample at or before time `z`. -/
noncomputable def sampleBefore (t : List ℝ) (dt z : ℝ) : Nat := ⌊(z - t.getD 0 0) / dt⌋₊

theorem axis_point {t : List ℝ} {dt : ℝ} (hu : UniformAxis t dt) : ∀ i, i < t.length → t.getD i 0 = t.getD 0 0 + i * dt := by
  intro i
  induction i with
  | zero => intro _; simp
  | succ i ih => intro hi; rw [hu.2 i hi, ih (by omega)]; push_cast; ring

theorem sampleBefore_spec {t : List ℝ} {dt z : ℝ} (hu : UniformAxis t dt) (h0 : t.getD 0 0 ≤ z) (h1 : z < t.getD (t.length - 1) 0) :
    sampleBefore t dt z + 1 < t.length ∧ t.getD (sampleBefore t dt z) 0 ≤ z ∧ z < t.getD (sampleBefore t dt z + 1) 0 := by
  have hdt := hu.1
  have hpos : 0 < t.length := by
    by_contra h
    have : t = [] := List.length_eq_zero_iff.1 (by omega)
    subst this; simp at h0 h1; linarith
  have f1 := Nat.floor_le (div_nonneg (sub_nonneg.2 h0) hdt.le)
  have f2 := Nat.lt_floor_add_one ((z - t.getD 0 0) / dt)
  rw [le_div_iff₀ hdt] at f1
  rw [div_lt_iff₀ hdt] at f2
  change (sampleBefore t dt z : ℝ) * dt ≤ _ at f1
  change _ < ((sampleBefore t dt z : ℝ) + 1) * dt at f2
  have hlt : sampleBefore t dt z + 1 < t.length := by
    by_contra hc
    have e := axis_point hu (t.length - 1) (by omega)
    have : ((t.length - 1 : Nat) : ℝ) ≤ sampleBefore t dt z := by exact_mod_cast (by omega : t.length - 1 ≤ sampleBefore t dt z)
    have := mul_le_mul_of_nonneg_right this hdt.le
    linarith
  refine ⟨hlt, ?_, ?_⟩
  · rw [axis_point hu _ (by omega)]; linarith
  · rw [axis_point hu _ hlt]; push_cast; linarith

theorem sampleBefore_unique {t : List ℝ} {dt z : ℝ} {i : Nat} (hu : UniformAxis t dt) (hi : i + 1 < t.length) (h0 : t.getD i 0 ≤ z)
    (h1 : z < t.getD (i + 1) 0) : sampleBefore t dt z = i := by
  have hdt := hu.1
  rw [axis_point hu _ (by omega)] at h0
  rw [axis_point hu _ hi] at h1
  push_cast at h1
  unfold sampleBefore
  rw [Nat.floor_eq_iff (div_nonneg (by have : 0 ≤ (i : ℝ) * dt := by positivity
                                       linarith) hdt.le)]
  rw [le_div_iff₀ hdt, div_lt_iff₀ hdt]
  constructor <;> linarith

theorem sample_value {η : ℝ → ℝ} {x : List ℝ} {i : Nat} (hi : i < x.length) : (x.map η).getD i 0 = η (x.getD i 0) := by
  rw [List.getD, List.getElem?_map, List.getD, List.getElem?_eq_getElem hi]; rfl

/-- The down-crossings of the samples are the samples before the down-going zeros of a surface that is resolved by the sampling. -/
theorem resolved_indices {t : List ℝ} {η : ℝ → ℝ} {dt : ℝ} {Z : List ℝ} (hu : UniformAxis t dt)
    (hc : ContinuousOn η (Set.Icc (t.getD 0 0) (t.getD (t.length - 1) 0))) (hr : ResolvedBy η dt (t.getD 0 0) (t.getD (t.length - 1) 0))
    (hZ : TimesOf (PassesDown η dt) (t.getD 0 0) (t.getD (t.length - 1) 0) Z) : ListsExactly (Z.map (sampleBefore t dt)) (DownCrossing (t.map η)) := by
  have hdt := hu.1
  refine ⟨?_, fun i => ?_⟩
  · rw [List.pairwise_map]
    refine hZ.1.imp_of_mem fun {z z'} hz hz' hlt => ?_
    obtain ⟨a1, a2, a3⟩ := (hZ.2 z).1 hz
    obtain ⟨b1, b2, b3⟩ := (hZ.2 z').1 hz'
    obtain ⟨c1, c2, c3⟩ := sampleBefore_spec hu a1 a2
    obtain ⟨d1, d2, d3⟩ := sampleBefore_spec hu b1 b2
    by_contra hcon
    have h1 := axis_mono hu (show sampleBefore t dt z' + 1 ≤ sampleBefore t dt z + 1 by omega) c1
    have h2 := hu.2 _ c1
    have := a3.after z' hlt (by linarith)
    rw [b3.zero] at this
    exact lt_irrefl _ this
  · rw [List.mem_map]
    unfold DownCrossing
    rw [List.length_map]
    constructor
    · rintro ⟨z, hz, rfl⟩
      obtain ⟨a1, a2, a3⟩ := (hZ.2 z).1 hz
      obtain ⟨c1, c2, c3⟩ := sampleBefore_spec hu a1 a2
      have h2 := hu.2 _ c1
      refine ⟨c1, ?_, ?_⟩
      · rw [sample_value (by omega)]
        rcases c2.lt_or_eq with h | h
        · exact (a3.before _ (by linarith) h).le
        · rw [h, a3.zero]
      · rw [sample_value c1]
        exact a3.after _ c3 (by linarith)
    · rintro ⟨hi, h1, h2⟩
      rw [sample_value (by omega)] at h1
      rw [sample_value hi] at h2
      have hst := hu.2 i hi
      have m0 := axis_mono hu (Nat.zero_le i) (by omega)
      have m1 := axis_mono hu (show i + 1 ≤ t.length - 1 by omega) (by omega)
      obtain ⟨z, hz, hz0⟩ := intermediate_value_Icc' (by linarith : t.getD i 0 ≤ t.getD (i + 1) 0)
        (hc.mono (Set.Icc_subset_Icc m0 m1)) (show (0 : ℝ) ∈ Set.Icc _ _ from ⟨h2.le, h1⟩)
      have hz1 : z < t.getD (i + 1) 0 := lt_of_le_of_ne hz.2 (by rintro rfl; rw [hz0] at h2; exact lt_irrefl _ h2)
      refine ⟨z, ?_, sampleBefore_unique hu hi hz.1 hz1⟩
      rcases hr z ⟨m0.trans hz.1, hz.2.trans m1⟩ hz0 with h | h
      · exact (hZ.2 z).2 ⟨m0.trans hz.1, lt_of_lt_of_le hz1 m1, h⟩
      · exfalso
        rcases hz.1.lt_or_eq with hlt | heq
        · have := h.before _ (by linarith) hlt
          linarith
        · have := h.after (t.getD (i + 1) 0) hz1 (by linarith)
          linarith

/-- The same for up-crossings. -/
theorem resolved_indices_up {t : List ℝ} {η : ℝ → ℝ} {dt : ℝ} {Z : List ℝ} (hu : UniformAxis t dt)
    (hc : ContinuousOn η (Set.Icc (t.getD 0 0) (t.getD (t.length - 1) 0))) (hr : ResolvedBy η dt (t.getD 0 0) (t.getD (t.length - 1) 0))
    (hZ : TimesOf (PassesUp η dt) (t.getD 0 0) (t.getD (t.length - 1) 0) Z) : ListsExactly (Z.map (sampleBefore t dt)) (UpCrossing (t.map η)) := by
  have h := resolved_indices (η := fun u => -η u) (Z := Z) hu hc.neg
    (fun u hu h0 => by rw [passesDown_neg, passesUp_neg]; exact (hr u hu (by simpa using h0)).symm)
    ⟨hZ.1, fun z => by rw [hZ.2 z, passesDown_neg]⟩
  refine ⟨h.1, fun i => (h.2 i).trans ?_⟩
  unfold DownCrossing UpCrossing
  rw [List.length_map, List.length_map]
  constructor
  · rintro ⟨a, b, c⟩
    rw [sample_value (by omega)] at b ⊢
    rw [sample_value a] at c ⊢
    exact ⟨a, by simpa using b, by simpa using c⟩
  · rintro ⟨a, b, c⟩
    rw [sample_value (by omega)] at b ⊢
    rw [sample_value a] at c ⊢
    exact ⟨a, by simpa using b, by simpa using c⟩

/-- The crossing times against the zeros of the surface. -/
theorem forall2_zeros {t x : List ℝ} {dt : ℝ} {Z tc : List ℝ} (hu : UniformAxis t dt) (hZ : ∀ z ∈ Z, t.getD 0 0 ≤ z ∧ z < t.getD (t.length - 1) 0)
    (hf : List.Forall₂ (IsInterpolatedZero t x) (Z.map (sampleBefore t dt)) tc) : List.Forall₂ (fun τ z => |τ - z| < dt) tc Z := by
  induction Z generalizing tc with
  | nil => cases hf; exact List.Forall₂.nil
  | cons z Z ih =>
    rw [List.map_cons] at hf
    cases hf with
    | cons h1 h2 =>
      obtain ⟨c1, c2, c3⟩ := sampleBefore_spec hu (hZ z (by simp)).1 (hZ z (by simp)).2
      have hs := hu.2 _ c1
      refine List.Forall₂.cons ?_ (ih (fun z' hz' => hZ z' (List.mem_cons_of_mem _ hz')) h2)
      have := h1.lower
      have := h1.upper
      rw [abs_lt]
      constructor <;> linarith

/-- **C157 (crossings).**  A continuous surface elevation is sampled with a step that resolves its zeros.  Then the reported down-crossing times are, one
for one and in order, within one sampling step of the down-going zeros of the surface, and the number of waves is one less than the number of zeros. -/
theorem surface_crossings_down {pt px : PyIn ℝ} {t : List ℝ} {η : ℝ → ℝ} {dt : ℝ} {Z : List ℝ} (ht : pt.IsVec t) (hx : px.IsVec (t.map η))
    (h2 : 2 ≤ t.length) (hu : UniformAxis t dt) (hc : ContinuousOn η (Set.Icc (t.getD 0 0) (t.getD (t.length - 1) 0)))
    (hr : ResolvedBy η dt (t.getD 0 0) (t.getD (t.length - 1) 0)) (hZ : TimesOf (PassesDown η dt) (t.getD 0 0) (t.getD (t.length - 1) 0) Z) :
    ∃ n tc, determineZeroCrossing pt px "down" = .ok (n, tc) ∧ n = (Z.length - 1 : Nat) ∧ List.Forall₂ (fun τ z => |τ - z| < dt) tc Z := by
  have hlen : t.length = (t.map η).length := by simp
  obtain ⟨n, tc, idx, h1, hidx, hf, -⟩ := down_crossing_times ht hx h2 hlen hu
  have e := ListsExactly.unique hidx (resolved_indices hu hc hr hZ)
  subst e
  have hF := forall2_zeros hu (fun z hz => ⟨((hZ.2 z).1 hz).1, ((hZ.2 z).1 hz).2.1⟩) hf
  obtain ⟨n', tc', idx', k1, k2, -, k4⟩ := down_crossings_exact ht hx h2 hlen
  rw [h1] at k1
  cases k1
  refine ⟨_, _, h1, ?_, hF⟩
  rw [k4, ListsExactly.unique k2 hidx, List.length_map]
  split_ifs with h0
  · rw [h0]; rfl
  · omega

/-- **C157 (up-crossings).** -/
theorem surface_crossings_up {pt px : PyIn ℝ} {t : List ℝ} {η : ℝ → ℝ} {dt : ℝ} {Z : List ℝ} (ht : pt.IsVec t) (hx : px.IsVec (t.map η))
    (h2 : 2 ≤ t.length) (hu : UniformAxis t dt) (hc : ContinuousOn η (Set.Icc (t.getD 0 0) (t.getD (t.length - 1) 0)))
    (hr : ResolvedBy η dt (t.getD 0 0) (t.getD (t.length - 1) 0)) (hZ : TimesOf (PassesUp η dt) (t.getD 0 0) (t.getD (t.length - 1) 0) Z) :
    ∃ n tc, determineZeroCrossing pt px "up" = .ok (n, tc) ∧ n = (Z.length - 1 : Nat) ∧ List.Forall₂ (fun τ z => |τ - z| < dt) tc Z := by
  have hlen : t.length = (t.map η).length := by simp
  obtain ⟨n, tc, idx, h1, hidx, hf, -⟩ := up_crossing_times ht hx h2 hlen hu
  have e := ListsExactly.unique hidx (resolved_indices_up hu hc hr hZ)
  subst e
  have hF := forall2_zeros hu (fun z hz => ⟨((hZ.2 z).1 hz).1, ((hZ.2 z).1 hz).2.1⟩) hf
  obtain ⟨n', tc', idx', k1, k2, -, k4⟩ := up_crossings_exact ht hx h2 hlen
  rw [h1] at k1
  cases k1
  refine ⟨_, _, h1, ?_, hF⟩
  rw [k4, ListsExactly.unique k2 hidx, List.length_map]
  split_ifs with h0
  · rw [h0]; rfl
  · omega

/-- Specification: the record `r` describes the wave of the surface `η` between the zeros `z` and `z'` up to the resolution: the period up to two
sampling steps; crest and trough are values of the surface within the wave, and no point of the wave is above the crest or below the trough by more
than `δ`. -/
structure DescribesWave (η : ℝ → ℝ) (dt δ z z' : ℝ) (r : WaveRec ℝ) : Prop where
  period : |r.tWave - (z' - z)| < 2 * dt
  height : r.hWave = r.aCrest - r.aTrough
  crest_mem : ∃ u ∈ Set.Icc z z', η u = r.aCrest
  trough_mem : ∃ u ∈ Set.Icc z z', η u = r.aTrough
  bounds : ∀ u ∈ Set.Icc z z', r.aTrough - δ ≤ η u ∧ η u ≤ r.aCrest + δ

/-- A wave between two zeros of the surface. -/
theorem describes_wave {t : List ℝ} {η : ℝ → ℝ} {dt L z z' a b : ℝ} {r : WaveRec ℝ} (hu : UniformAxis t dt)
    (hL : ∀ u ∈ Set.Icc (t.getD 0 0) (t.getD (t.length - 1) 0), ∀ v ∈ Set.Icc (t.getD 0 0) (t.getD (t.length - 1) 0), |η u - η v| ≤ L * |u - v|)
    (hL0 : 0 ≤ L)
    (hz : t.getD 0 0 ≤ z ∧ z < t.getD (t.length - 1) 0) (hz' : t.getD 0 0 ≤ z' ∧ z' < t.getD (t.length - 1) 0)
    (hij : sampleBefore t dt z < sampleBefore t dt z')
    (hzero : η (t.getD (sampleBefore t dt z) 0) = 0 → z = t.getD (sampleBefore t dt z) 0)
    (ha : IsInterpolatedZero t (t.map η) (sampleBefore t dt z) a) (hb : IsInterpolatedZero t (t.map η) (sampleBefore t dt z') b)
    (hw : IsWave t (t.map η) a b r) : DescribesWave η dt (L * dt) z z' r := by
  have hdt := hu.1
  obtain ⟨c1, c2, c3⟩ := sampleBefore_spec hu hz.1 hz.2
  obtain ⟨d1, d2, d3⟩ := sampleBefore_spec hu hz'.1 hz'.2
  have s1 := hu.2 _ c1
  have s2 := hu.2 _ d1
  obtain ⟨w1, w2⟩ := window_contains hu hij d1 ha hb
  set i := sampleBefore t dt z
  set j := sampleBefore t dt z'
  have hp := uniform_pairwise hu
  have a1 := ha.lower; have a2 := ha.upper
  have b1 := hb.lower; have b2 := hb.upper
  -- samples of the wave lie between the zeros
  have inside : ∀ l, InWave t a b l → z ≤ t.getD l 0 ∧ t.getD l 0 ≤ z' := by
    rintro l ⟨l1, l2, l3⟩
    constructor
    · rcases Nat.lt_or_ge l (i + 1) with h | h
      · have hle : t.getD l 0 ≤ t.getD i 0 := axis_mono hu (by omega) (by omega)
        have hai : a = t.getD i 0 := by linarith
        have h0 := ha.exact_iff.1 hai
        rw [sample_value (by omega)] at h0
        rw [hzero h0]; linarith
      · exact c3.le.trans (axis_mono hu h l1)
    · have : l ≤ j := by
        by_contra hc
        have := axis_mono hu (show j + 1 ≤ l by omega) l1
        linarith
      exact (axis_mono hu this (by omega)).trans d2
  have ext : ∀ {v : ℝ} {l : Nat}, InWave t a b l → (t.map η).getD l 0 = v → ∃ u ∈ Set.Icc z z', η u = v := by
    intro v l hl hv
    rw [sample_value hl.1] at hv
    exact ⟨_, inside l hl, hv⟩
  -- every point of the wave is close to a sample of the wave
  have near : ∀ u ∈ Set.Icc z z', ∃ l, InWave t a b l ∧ |u - t.getD l 0| ≤ dt := by
    intro u hu'
    rcases lt_or_ge u (t.getD (i + 1) 0) with h | h
    · exact ⟨i + 1, w1, by rw [abs_le]; constructor <;> linarith [hu'.1]⟩
    · rcases lt_or_ge (t.getD j 0) u with h' | h'
      · exact ⟨j, w2, by rw [abs_le]; constructor <;> linarith [hu'.2]⟩
      · obtain ⟨e1, e2, e3⟩ := sampleBefore_spec hu (z := u) (hz.1.trans hu'.1) (lt_of_le_of_lt hu'.2 hz'.2)
        have e4 := hu.2 _ e1
        have hk1 : i + 1 ≤ sampleBefore t dt u := by
          by_contra hc
          have := axis_mono hu (show sampleBefore t dt u + 1 ≤ i + 1 by omega) c1
          linarith
        have hk2 : sampleBefore t dt u ≤ j := by
          by_contra hc
          have h1 := axis_mono hu (show j + 1 ≤ sampleBefore t dt u by omega) (by omega)
          linarith
        refine ⟨sampleBefore t dt u, ⟨by omega, ?_, ?_⟩, by rw [abs_le]; constructor <;> linarith⟩
        · exact a2.le.trans (axis_mono hu hk1 (by omega))
        · exact (axis_mono hu hk2 (by omega)).trans b1
  have range : ∀ u, z ≤ u → u ≤ z' → u ∈ Set.Icc (t.getD 0 0) (t.getD (t.length - 1) 0) := fun u h1 h2 => ⟨hz.1.trans h1, h2.trans hz'.2.le⟩
  refine ⟨?_, hw.height, ?_, ?_, fun u hu' => ?_⟩
  · rw [hw.period, abs_lt]; constructor <;> linarith
  · obtain ⟨l, hl, hv, -⟩ := hw.crest
    exact ext hl hv
  · obtain ⟨l, hl, hv, -⟩ := hw.trough
    exact ext hl hv
  · obtain ⟨l, hl, hd⟩ := near u hu'
    have hi := inside l hl
    have h1 := hL u (range u hu'.1 hu'.2) _ (range _ hi.1 hi.2)
    have h2 : L * |u - t.getD l 0| ≤ L * dt := mul_le_mul_of_nonneg_left hd hL0
    have h3 := hw.crest_ge hl
    have h4 := hw.trough_le hl
    rw [sample_value hl.1] at h3 h4
    rw [abs_le] at h1
    constructor <;> linarith [h1.1, h1.2]

/-- The waves between the sampled zeros, for crossings of either kind. -/
theorem waves_described {pt px : PyIn ℝ} {t : List ℝ} {η : ℝ → ℝ} {dt L : ℝ} {Z tc : List ℝ} (ht : pt.IsVec t) (hx : px.IsVec (t.map η))
    (h2 : 2 ≤ t.length) (hu : UniformAxis t dt)
    (hL : ∀ u ∈ Set.Icc (t.getD 0 0) (t.getD (t.length - 1) 0), ∀ v ∈ Set.Icc (t.getD 0 0) (t.getD (t.length - 1) 0), |η u - η v| ≤ L * |u - v|)
    (hL0 : 0 ≤ L) (hZ : ∀ z ∈ Z, t.getD 0 0 ≤ z ∧ z < t.getD (t.length - 1) 0)
    (hzero : ∀ z ∈ Z, η (t.getD (sampleBefore t dt z) 0) = 0 → z = t.getD (sampleBefore t dt z) 0)
    (hidx : (Z.map (sampleBefore t dt)).Pairwise (· < ·)) (hf : List.Forall₂ (IsInterpolatedZero t (t.map η)) (Z.map (sampleBefore t dt)) tc) :
    ∃ w recs, determineParamsIndividualWaves (vec tc) pt px = .ok w ∧ Columns w recs ∧ recs.length = Z.length - 1 ∧
      ∀ k r, recs[k]? = some r → ∃ z z', Z[k]? = some z ∧ Z[k + 1]? = some z' ∧ DescribesWave η dt (L * dt) z z' r := by
  have hlen : t.length = (t.map η).length := by simp
  have hin : ∀ i ∈ Z.map (sampleBefore t dt), i + 1 < (t.map η).length := by
    intro i hi
    obtain ⟨z, hz, rfl⟩ := List.mem_map.1 hi
    rw [List.length_map]
    exact (sampleBefore_spec hu (hZ z hz).1 (hZ z hz).2).1
  obtain ⟨w, recs, h1, hcol, hl, hk⟩ := waves_of_zeros ht hx h2 hlen hu hidx hin hf
  have hll := hf.length_eq
  rw [List.length_map] at hll
  refine ⟨w, recs, h1, hcol, by rw [hl, hll], fun k r hr => ?_⟩
  obtain ⟨i, j, a, b, e1, e2, hij, e3, e4, -, -, hw⟩ := hk k r hr
  rw [List.getElem?_map, Option.map_eq_some_iff] at e1 e2
  obtain ⟨z, ez, rfl⟩ := e1
  obtain ⟨z', ez', rfl⟩ := e2
  have hget := (List.forall₂_iff_get.1 hf).2
  have zero : ∀ {k : Nat} {z a : ℝ}, Z[k]? = some z → tc[k]? = some a → IsInterpolatedZero t (t.map η) (sampleBefore t dt z) a := by
    intro k z a hz ha
    obtain ⟨k1, rfl⟩ := List.getElem?_eq_some_iff.1 hz
    obtain ⟨k2, rfl⟩ := List.getElem?_eq_some_iff.1 ha
    have := hget k (by simpa using k1) k2
    simpa using this
  exact ⟨z, z', ez, ez', describes_wave hu hL hL0 (hZ z (List.mem_of_getElem? ez)) (hZ z' (List.mem_of_getElem? ez')) hij
    (hzero z (List.mem_of_getElem? ez)) (zero ez e3) (zero ez' e4) hw⟩

theorem lipschitz_continuousOn {η : ℝ → ℝ} {L A B : ℝ} (hL : ∀ u ∈ Set.Icc A B, ∀ v ∈ Set.Icc A B, |η u - η v| ≤ L * |u - v|) (hL0 : 0 ≤ L) :
    ContinuousOn η (Set.Icc A B) := by
  have : LipschitzOnWith ⟨L, hL0⟩ η (Set.Icc A B) := LipschitzOnWith.of_dist_le_mul fun u hu v hv => by
    rw [Real.dist_eq, Real.dist_eq]; exact hL u hu v hv
  exact this.continuousOn

/-- **C157 (waves).**  If moreover the surface has slope at most `L`, the waves reported between the down-crossings are, one for one and in order, those
of the surface between its down-going zeros: periods up to two sampling steps, crests and troughs values of the surface within the wave and at most
`L dt` from its extremes there. -/
theorem surface_waves_down {pt px : PyIn ℝ} {t : List ℝ} {η : ℝ → ℝ} {dt L : ℝ} {Z : List ℝ} (ht : pt.IsVec t) (hx : px.IsVec (t.map η))
    (h2 : 2 ≤ t.length) (hu : UniformAxis t dt)
    (hL : ∀ u ∈ Set.Icc (t.getD 0 0) (t.getD (t.length - 1) 0), ∀ v ∈ Set.Icc (t.getD 0 0) (t.getD (t.length - 1) 0), |η u - η v| ≤ L * |u - v|)
    (hL0 : 0 ≤ L) (hr : ResolvedBy η dt (t.getD 0 0) (t.getD (t.length - 1) 0))
    (hZ : TimesOf (PassesDown η dt) (t.getD 0 0) (t.getD (t.length - 1) 0) Z) :
    ∃ n tc w recs, determineZeroCrossing pt px "down" = .ok (n, tc) ∧ determineParamsIndividualWaves (vec tc) pt px = .ok w ∧ Columns w recs ∧
      recs.length = Z.length - 1 ∧
      ∀ k r, recs[k]? = some r → ∃ z z', Z[k]? = some z ∧ Z[k + 1]? = some z' ∧ DescribesWave η dt (L * dt) z z' r := by
  have hlen : t.length = (t.map η).length := by simp
  have hc := lipschitz_continuousOn hL hL0
  obtain ⟨n, tc, idx, h1, hidx, hf, -⟩ := down_crossing_times ht hx h2 hlen hu
  have e := ListsExactly.unique hidx (resolved_indices hu hc hr hZ)
  subst e
  obtain ⟨w, recs, k1, k2, k3, k4⟩ := waves_described ht hx h2 hu hL hL0 (fun z hz => ⟨((hZ.2 z).1 hz).1, ((hZ.2 z).1 hz).2.1⟩) (fun z hz h0 => by
    obtain ⟨a1, a2, a3⟩ := (hZ.2 z).1 hz
    obtain ⟨c1, c2, c3⟩ := sampleBefore_spec hu a1 a2
    have := hu.2 _ c1
    rcases c2.lt_or_eq with h | h
    · have := a3.before _ (by linarith) h
      rw [h0] at this; exact absurd this (lt_irrefl _)
    · exact h.symm) hidx.1 hf
  exact ⟨n, tc, w, recs, h1, k1, k2, k3, k4⟩

/-- **C157 (waves between up-crossings).** -/
theorem surface_waves_up {pt px : PyIn ℝ} {t : List ℝ} {η : ℝ → ℝ} {dt L : ℝ} {Z : List ℝ} (ht : pt.IsVec t) (hx : px.IsVec (t.map η))
    (h2 : 2 ≤ t.length) (hu : UniformAxis t dt)
    (hL : ∀ u ∈ Set.Icc (t.getD 0 0) (t.getD (t.length - 1) 0), ∀ v ∈ Set.Icc (t.getD 0 0) (t.getD (t.length - 1) 0), |η u - η v| ≤ L * |u - v|)
    (hL0 : 0 ≤ L) (hr : ResolvedBy η dt (t.getD 0 0) (t.getD (t.length - 1) 0))
    (hZ : TimesOf (PassesUp η dt) (t.getD 0 0) (t.getD (t.length - 1) 0) Z) :
    ∃ n tc w recs, determineZeroCrossing pt px "up" = .ok (n, tc) ∧ determineParamsIndividualWaves (vec tc) pt px = .ok w ∧ Columns w recs ∧
      recs.length = Z.length - 1 ∧
      ∀ k r, recs[k]? = some r → ∃ z z', Z[k]? = some z ∧ Z[k + 1]? = some z' ∧ DescribesWave η dt (L * dt) z z' r := by
  have hlen : t.length = (t.map η).length := by simp
  have hc := lipschitz_continuousOn hL hL0
  obtain ⟨n, tc, idx, h1, hidx, hf, -⟩ := up_crossing_times ht hx h2 hlen hu
  have e := ListsExactly.unique hidx (resolved_indices_up hu hc hr hZ)
  subst e
  obtain ⟨w, recs, k1, k2, k3, k4⟩ := waves_described ht hx h2 hu hL hL0 (fun z hz => ⟨((hZ.2 z).1 hz).1, ((hZ.2 z).1 hz).2.1⟩) (fun z hz h0 => by
    obtain ⟨a1, a2, a3⟩ := (hZ.2 z).1 hz
    obtain ⟨c1, c2, c3⟩ := sampleBefore_spec hu a1 a2
    have := hu.2 _ c1
    rcases c2.lt_or_eq with h | h
    · have := a3.before _ (by linarith) h
      rw [h0] at this; exact absurd this (lt_irrefl _)
    · exact h.symm) hidx.1 hf
  exact ⟨n, tc, w, recs, h1, k1, k2, k3, k4⟩

/-! ## Concrete case: the surface `cos t`, sampled every 0.4 s for 12 s -/

noncomputable def cosAxis : List ℝ := (List.range 31).map fun (i : Nat) => (i : ℝ) * (2 / 5)

theorem cosAxis_getD {i : Nat} (hi : i < 31) : cosAxis.getD i 0 = (i : ℝ) * (2 / 5) := by
  unfold cosAxis
  rw [List.getD_eq_getElem _ _ (by simpa using hi), List.getElem_map, List.getElem_range]

theorem cosAxis_length : cosAxis.length = 31 := by simp [cosAxis]

theorem cosAxis_uniform : UniformAxis cosAxis (2 / 5) :=
  ⟨by norm_num, fun i hi => by
    rw [cosAxis_length] at hi
    rw [cosAxis_getD hi, cosAxis_getD (by omega)]; push_cast; ring⟩

theorem cos_side {z s : ℝ} (hz : Real.cos z = 0) : Real.cos (z + s) = -(Real.sin z * Real.sin s) := by rw [Real.cos_add, hz]; ring

theorem cos_down {z : ℝ} (hs : Real.sin z = 1) : PassesDown Real.cos (2 / 5) z := by
  have hz : Real.cos z = 0 := by
    have := Real.sin_sq_add_cos_sq z
    rw [hs] at this
    nlinarith
  have hpi := Real.pi_gt_three
  refine ⟨hz, fun u h1 h2 => ?_, fun u h1 h2 => ?_⟩
  · have h := cos_side (s := u - z) hz
    rw [hs, show z + (u - z) = u by ring, one_mul, ← Real.sin_neg] at h
    rw [h]; exact Real.sin_pos_of_pos_of_lt_pi (by linarith) (by linarith)
  · have h := cos_side (s := u - z) hz
    rw [hs, show z + (u - z) = u by ring, one_mul] at h
    rw [h]; have := Real.sin_pos_of_pos_of_lt_pi (x := u - z) (by linarith) (by linarith); linarith

theorem cos_up {z : ℝ} (hs : Real.sin z = -1) : PassesUp Real.cos (2 / 5) z := by
  have hz : Real.cos z = 0 := by
    have := Real.sin_sq_add_cos_sq z
    rw [hs] at this
    nlinarith
  have hpi := Real.pi_gt_three
  refine ⟨hz, fun u h1 h2 => ?_, fun u h1 h2 => ?_⟩
  · have h := cos_side (s := u - z) hz
    rw [hs, show z + (u - z) = u by ring] at h
    rw [h]; have := Real.sin_neg_of_neg_of_neg_pi_lt (x := u - z) (by linarith) (by linarith); linarith
  · have h := cos_side (s := u - z) hz
    rw [hs, show z + (u - z) = u by ring] at h
    rw [h]; have := Real.sin_pos_of_pos_of_lt_pi (x := u - z) (by linarith) (by linarith); linarith

theorem cos_resolved (A B : ℝ) : ResolvedBy Real.cos (2 / 5) A B := by
  intro u _ h0
  have := Real.sin_sq_add_cos_sq u
  rw [h0] at this
  have h1 : (Real.sin u - 1) * (Real.sin u + 1) = 0 := by nlinarith
  rcases mul_eq_zero.1 h1 with h | h
  · exact Or.inl (cos_down (by linarith))
  · exact Or.inr (cos_up (by linarith))

theorem cos_times : TimesOf (PassesDown Real.cos (2 / 5)) 0 12 [Real.pi / 2, Real.pi / 2 + 2 * Real.pi] := by
  have hpi := Real.pi_gt_d2
  have hpi' := Real.pi_lt_d2
  refine ⟨by simp; linarith, fun z => ⟨fun hz => ?_, fun ⟨h1, h2, h3⟩ => ?_⟩⟩
  · simp only [List.mem_cons, List.not_mem_nil, or_false] at hz
    rcases hz with rfl | rfl
    · exact ⟨by linarith, by linarith, cos_down Real.sin_pi_div_two⟩
    · exact ⟨by linarith, by linarith, cos_down (by rw [Real.sin_add_two_pi, Real.sin_pi_div_two])⟩
  · have hs : Real.sin z = 1 := by
      have hq := Real.sin_sq_add_cos_sq z
      rw [h3.zero] at hq
      have h1 : (Real.sin z - 1) * (Real.sin z + 1) = 0 := by nlinarith
      rcases mul_eq_zero.1 h1 with h | h
      · linarith
      · have a := (cos_up (z := z) (by linarith)).after (z + 2 / 5) (by linarith) le_rfl
        have b := h3.after (z + 2 / 5) (by linarith) le_rfl
        linarith
    obtain ⟨k, hk⟩ := Real.sin_eq_one_iff.1 hs
    have k1 : (-1 : ℝ) < k := by
      by_contra hc
      nlinarith
    have k2 : (k : ℝ) < 2 := by
      by_contra hc
      nlinarith
    have k1' : (-1 : ℤ) < k := by exact_mod_cast k1
    have k2' : k < (2 : ℤ) := by exact_mod_cast k2
    have : k = 0 ∨ k = 1 := by omega
    rcases this with rfl | rfl
    · simp at hk; simp [hk]
    · simp at hk; simp [hk]

/-- One wave is found in 12 s of `cos t`: its period is within 0.8 s of `2π` and its crest within 0.4 of the highest point. -/
example : ∃ n tc w recs, determineZeroCrossing (vec cosAxis) (vec (cosAxis.map Real.cos)) "down" = .ok (n, tc) ∧
    determineParamsIndividualWaves (vec tc) (vec cosAxis) (vec (cosAxis.map Real.cos)) = .ok w ∧ Columns w recs ∧ recs.length = 1 ∧
    ∀ r, recs[0]? = some r → DescribesWave Real.cos (2 / 5) (1 * (2 / 5)) (Real.pi / 2) (Real.pi / 2 + 2 * Real.pi) r := by
  have e0 : cosAxis.getD 0 0 = 0 := by rw [cosAxis_getD (by norm_num)]; norm_num
  have e1 : cosAxis.getD (cosAxis.length - 1) 0 = 12 := by rw [cosAxis_length, cosAxis_getD (by norm_num)]; norm_num
  obtain ⟨n, tc, w, recs, h1, h2, h3, h4, h5⟩ := surface_waves_down (L := 1) (isVec_vec cosAxis) (isVec_vec (cosAxis.map Real.cos)) (by rw [cosAxis_length]; norm_num)
    cosAxis_uniform (fun u _ v _ => by
      have := Real.lipschitzWith_cos.dist_le_mul u v
      rw [Real.dist_eq, Real.dist_eq] at this
      simpa using this) zero_le_one (cos_resolved _ _) (by rw [e0, e1]; exact cos_times)
  refine ⟨n, tc, w, recs, h1, h2, h3, h4, fun r hr => ?_⟩
  obtain ⟨z, z', k1, k2, k3⟩ := h5 0 r hr
  simp only [List.getElem?_cons_zero, List.getElem?_cons_succ, Option.some.injEq, zero_add] at k1 k2
  subst k1 k2
  exact k3

/-- The two down-crossings of `cos t` in 12 s. -/
example : ∃ n tc, determineZeroCrossing (vec cosAxis) (vec (cosAxis.map Real.cos)) "down" = .ok (n, tc) ∧ n = ((2 - 1 : Nat) : Int) ∧
    List.Forall₂ (fun τ z => |τ - z| < 2 / 5) tc [Real.pi / 2, Real.pi / 2 + 2 * Real.pi] := by
  have e0 : cosAxis.getD 0 0 = 0 := by rw [cosAxis_getD (by norm_num)]; norm_num
  have e1 : cosAxis.getD (cosAxis.length - 1) 0 = 12 := by rw [cosAxis_length, cosAxis_getD (by norm_num)]; norm_num
  exact surface_crossings_down (isVec_vec _) (isVec_vec _) (by rw [cosAxis_length]; norm_num) cosAxis_uniform Real.continuous_cos.continuousOn
    (cos_resolved _ _) (by rw [e0, e1]; exact cos_times)

theorem negCos_resolved (A B : ℝ) : ResolvedBy (fun u => -Real.cos u) (2 / 5) A B := fun u hu h0 => by
  rw [passesDown_neg, passesUp_neg]; exact (cos_resolved A B u hu (by simpa using h0)).symm

theorem negCos_times : TimesOf (PassesUp (fun u => -Real.cos u) (2 / 5)) 0 12 [Real.pi / 2, Real.pi / 2 + 2 * Real.pi] :=
  ⟨cos_times.1, fun z => by rw [passesUp_neg]; exact cos_times.2 z⟩

/-- The up-crossings of `-cos t`, and the wave between them. -/
example : ∃ n tc, determineZeroCrossing (vec cosAxis) (vec (cosAxis.map fun u => -Real.cos u)) "up" = .ok (n, tc) ∧ n = ((2 - 1 : Nat) : Int) ∧
    List.Forall₂ (fun τ z => |τ - z| < 2 / 5) tc [Real.pi / 2, Real.pi / 2 + 2 * Real.pi] := by
  have e0 : cosAxis.getD 0 0 = 0 := by rw [cosAxis_getD (by norm_num)]; norm_num
  have e1 : cosAxis.getD (cosAxis.length - 1) 0 = 12 := by rw [cosAxis_length, cosAxis_getD (by norm_num)]; norm_num
  exact surface_crossings_up (isVec_vec _) (isVec_vec _) (by rw [cosAxis_length]; norm_num) cosAxis_uniform Real.continuous_cos.continuousOn.neg
    (negCos_resolved _ _) (by rw [e0, e1]; exact negCos_times)

example : ∃ n tc w recs, determineZeroCrossing (vec cosAxis) (vec (cosAxis.map fun u => -Real.cos u)) "up" = .ok (n, tc) ∧
    determineParamsIndividualWaves (vec tc) (vec cosAxis) (vec (cosAxis.map fun u => -Real.cos u)) = .ok w ∧ Columns w recs ∧ recs.length = 2 - 1 ∧
    ∀ k r, recs[k]? = some r → ∃ z z', [Real.pi / 2, Real.pi / 2 + 2 * Real.pi][k]? = some z ∧ [Real.pi / 2, Real.pi / 2 + 2 * Real.pi][k + 1]? = some z' ∧
      DescribesWave (fun u => -Real.cos u) (2 / 5) (1 * (2 / 5)) z z' r := by
  have e0 : cosAxis.getD 0 0 = 0 := by rw [cosAxis_getD (by norm_num)]; norm_num
  have e1 : cosAxis.getD (cosAxis.length - 1) 0 = 12 := by rw [cosAxis_length, cosAxis_getD (by norm_num)]; norm_num
  exact surface_waves_up (isVec_vec _) (isVec_vec _) (by rw [cosAxis_length]; norm_num) cosAxis_uniform (fun u _ v _ => by
      have := Real.abs_cos_sub_cos_le v u
      rw [show -Real.cos u - -Real.cos v = Real.cos v - Real.cos u by ring, one_mul, abs_sub_comm u v]
      exact this) zero_le_one (negCos_resolved _ _) (by rw [e0, e1]; exact negCos_times)

end Verif
