import Verif.Model.SeriesReal
import Verif.Model.SpectrumObj
import Verif.Model.BG

/-! # The data drawn by the plot methods (series.py, spectrum.py)

A plot is represented by the points handed to `plt.plot`; labels, axes and files are not modelled, except the tick positions of the
Rayleigh plot. -/

namespace Verif

/-- `np.linspace(0, n, n, n)` (series.py:164): `n` points from 0 to `n` (the fourth argument is `endpoint`, true for `n > 0`). -/
def linspace0 {K : Type} [Field K] (n : Nat) : List K :=
  if n = 1 then [0] else (List.range n).map fun (k : Nat) => (k : K) * ((n : K) / ((n : K) - 1))

/-- `plt.plot(x, y)`: different lengths raise `ValueError`. -/
def pltPlot {K : Type} (x y : List K) : Except PyErr (List (K × K)) :=
  if x.length ≠ y.length then .error (.valueError "x and y must have same first dimension") else .ok (x.zip y)

/-- series.py:147-174 `plot_exceedance_waveheight`: the drawn points and the object afterwards. -/
def WH.plotExceedance {K : Type} [Field K] [LinearOrder K] (A : Argsort K) (s : WH K) : Except PyErr (List (K × K)) × WH K :=
  match s.sort A with
  | (.ok (), s') => (pltPlot s'.hwave.data ((linspace0 s'.nwave).map (· / (s'.nwave : K))), s')
  | (.error e, s') => (.error e, s')

/-- What `plot_exceedance_waveheight_Rayleigh` draws: the theoretical curve, the Battjes-Groenendijk curve if asked for, the waves,
and the ticks of the horizontal axis (position, label in percent). -/
structure RayleighPlot where
  theory : List (ℝ × ℝ)
  bg : Option (List (ℝ × ℝ))
  waves : List (ℝ × ℝ)
  ticks : List (ℝ × ℝ)

/-- series.py:222: `Rayleigh_x`. -/
noncomputable def rayleighX (n : Nat) : List ℝ := (List.range n).map fun (k : Nat) => Real.sqrt (-Real.log (((k : ℝ) + 1) / n))

/-- series.py:224-226: `Rayleigh_theoretical_dist` (`np.arange(n, 0, -1)` is `n, n - 1, …, 1`). -/
noncomputable def rayleighTheory (n : Nat) (h2p : ℝ) : List ℝ :=
  (List.range n).map fun (k : Nat) => h2p * Real.sqrt (Real.log (1 - ((n : ℝ) - k) / (n + 1)) / Real.log (2 / 100))

/-- series.py:263: `xtick_positions`. -/
noncomputable def xtickPositions : List ℝ := [100, 50, 20, 10, 5, 2, 1, 1 / 10, 1 / 100, 1 / 1000]

/-- series.py:176-272 `plot_exceedance_waveheight_Rayleigh`; `none` if the Battjes-Groenendijk loop is still running after `fuel`
rounds.  Normalising with a zero significant wave height gives NaN (`nonFinite`). -/
noncomputable def WH.plotRayleigh (A : Argsort ℝ) (s : WH ℝ) (normalize : Bool := false) (plotBG : Bool := false) (depth : ℝ := -1)
    (cota : ℝ := 250) (hm0 : ℝ := -1) (fuel : Nat) : Option (Except PyErr RayleighPlot × WH ℝ) :=
  match (if normalize then s.getHs A else (.ok (1, 0), s)) with
  | (.error e, s1) => some (.error e, s1)
  | (.ok r, s1) =>
    match s1.getH2pRayleigh A with
    | (.error e, s2) => some (.error e, s2)
    | (.ok h2p, s2) =>
      match s2.sort A with
      | (.error e, s3) => some (.error e, s3)
      | (.ok (), s3) =>
        if r.1 = 0 then some (.error .nonFinite, s3)
        else
          match pltPlot (rayleighX s3.nwave) ((rayleighTheory s3.nwave h2p).map (· / r.1)), pltPlot (rayleighX s3.nwave) (s3.hwave.data.map (· / r.1)) with
          | .error e, _ => some (.error e, s3)
          | .ok theory, wv =>
            let ticks := xtickPositions.map fun p => (rayleighPpf (1 - p / 100) (1 / Real.sqrt 2), p)
            let bg : Option (Except PyErr (Option (List (ℝ × ℝ)))) :=
              if plotBG then
                if hm0 = -1 then some (.error (.valueError "Please provide Hm0 when using Battjes & Groenendijk distribution"))
                else
                  match battjesGroenendijk hm0 s3.nwave depth cota (fuel := fuel) with
                  | none => none
                  | some (.error e) => some (.error e)
                  | some (.ok R) => some ((pltPlot (R.probs.map fun p => Real.sqrt (-Real.log p)) (R.heights.map (· / r.1))).map some)
              else some (.ok none)
            match bg, wv with
            | none, _ => none
            | some (.error e), _ => some (.error e, s3)
            | some (.ok _), .error e => some (.error e, s3)
            | some (.ok b), .ok waves => some (.ok ⟨theory, b, waves, ticks⟩, s3)

/-- series.py:598-626 `Series.plot`: the signal and, with `plot_crossing`, the stored crossings on the axis. -/
def SeriesObj.plot {K : Type} [Field K] (s : SeriesObj K) (plotCrossing : Bool := false) : List (K × K) × Option (List (K × K)) :=
  (s.time.data.zip s.xTime.data, if plotCrossing then some (s.tCross.map fun t => (t, t * 0)) else none)

/-- One vertical line of `Spectrum.plot`: the label and its frequency (`none` if it is not finite). -/
noncomputable def periodLine (label : String) (T : Cache) : List (String × Option ℝ) :=
  match T with
  | none => []
  | some none => [(label, none)]
  | some (some T) => [(label, if T = 0 then none else some (1 / T))]

/-- What `Spectrum.plot` draws: the spectrum (for densities of several columns the first one), the vertical lines, their height, and the
curves of the other columns. -/
structure SpecPlot where
  curve : List (ℝ × ℝ)
  lines : List (String × Option ℝ)
  top : ℝ
  more : List (List (ℝ × ℝ)) := []

/-- The vertical lines of `Spectrum.plot` (spectrum.py:508-526). -/
noncomputable def SpecObj.plotLines (s : SpecObj) (plotPeriods : Bool) : List (String × Option ℝ) :=
  if plotPeriods then periodLine "Tps" s.Tps ++ periodLine "Tmm10" s.Tmm10 ++ periodLine "Tm02" s.Tm02 else []

/-- spectrum.py:480-535 `plot`: `plt.plot(f, S)` draws a curve per column; densities with three or more dimensions do not occur. -/
noncomputable def SpecObj.plot (s : SpecObj) (plotPeriods : Bool := true) : Except PyErr SpecPlot :=
  match s.sVarDens.data with
  | [] => .error (.valueError "zero-size array to reduction operation maximum which has no identity")
  | a :: l =>
    match s.sVarDens.shape with
    | [_] => .ok ⟨s.f.zip (a :: l), s.plotLines plotPeriods, l.foldl max a, []⟩
    | [n, m] =>
      let column (j : Nat) : List (ℝ × ℝ) := s.f.zip ((List.range n).map fun i => (a :: l).getD (i * m + j) 0)
      .ok ⟨column 0, s.plotLines plotPeriods, l.foldl max a, (List.range (m - 1)).map fun j => column (j + 1)⟩
    | _ => .error .unmodelled

end Verif
