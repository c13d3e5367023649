import Verif.Model.Spectral
import Verif.Model.Dispersion
import Verif.Model.SeriesSig

/-! # Model of deltares_wave_toolbox/cores/core_wave_decomposition.py -/

namespace Verif
open Complex

/-- `xTime[:, i]` of a 2D array with `m` columns and `n` rows. -/
def column (a : Arr ℝ) (n m i : Nat) : List ℝ := (List.range n).map fun j => a.data.getD (j * m + i) 0

/-- core_wave_decomposition.py:166-197: the 2 x 2 system of one frequency; `X` are the Fourier components of the gauges, `k` the wave
number, `d` the distances to the first gauge, `w` the weights.  Where the determinant is zero and nevertheless used, Python's result
is NaN. -/
noncomputable def zsSolve (w d : List ℝ) (X : List ℂ) (k detLim : ℝ) : Except PyErr (ℂ × ℂ) :=
  let a12 : ℂ := ((w.sum : ℝ) : ℂ)
  let a21 : ℂ := ((w.sum : ℝ) : ℂ)
  let a11 : ℂ := ∑ i ∈ Finset.range w.length, ((w.getD i 0 : ℝ) : ℂ) * exp (-I * 2 * (k : ℂ) * ((d.getD i 0 : ℝ) : ℂ))
  let a22 : ℂ := ∑ i ∈ Finset.range w.length, ((w.getD i 0 : ℝ) : ℂ) * exp (I * 2 * (k : ℂ) * ((d.getD i 0 : ℝ) : ℂ))
  let b1 : ℂ := ∑ i ∈ Finset.range w.length, ((w.getD i 0 : ℝ) : ℂ) * X.getD i 0 * exp (-I * (k : ℂ) * ((d.getD i 0 : ℝ) : ℂ))
  let b2 : ℂ := ∑ i ∈ Finset.range w.length, ((w.getD i 0 : ℝ) : ℂ) * X.getD i 0 * exp (I * (k : ℂ) * ((d.getD i 0 : ℝ) : ℂ))
  let detA := a11 * a22 - a12 * a21
  let sDetA := ‖(-(1 / 4) : ℂ) * detA‖
  if detLim < sDetA then
    if detA = 0 then .error .nonFinite
    else .ok ((a22 * b1 - a12 * b2) / detA, (-a21 * b1 + a11 * b2) / detA)
  else .ok (0, 0)

/-- core_wave_decomposition.py:126-212: the computational core, for the gauge signals `cols`.  (The frequency axis and `isOdd`, computed
anew for every gauge, depend on `t` only.) -/
noncomputable def zsCore (t : List ℝ) (cols : List (List ℝ)) (h : Depth) (xLoc wLoc : List ℝ) (detLim : ℝ) :
    Except PyErr (List ℝ × List ℝ) := do
  let d := xLoc.map fun x => x - xLoc.getD 0 0
  let specs ← cols.mapM fun c => time2freqNyquist (vec t) (vec c)
  let (f, _, isOdd) ← getE specs 0
  let k ← disper (vec (f.map fun v => 2 * Real.pi * v)) h (981 / 100)
  let comps ← (List.range f.length).mapM fun i => zsSolve wLoc d (specs.map fun s => s.2.1.getD i 0) (k.getD i 0) detLim
  let (_, inTot) ← unfoldSpectrum (.nd ⟨[f.length, 1], f⟩) (.nd ⟨[f.length, 1], comps.map Prod.fst⟩) isOdd
  let (_, reTot) ← unfoldSpectrum (.nd ⟨[f.length, 1], f⟩) (.nd ⟨[f.length, 1], comps.map Prod.snd⟩) isOdd
  let xIn ← freq2time (vec inTot)
  let xRe ← freq2time (vec reTot)
  return (xIn, xRe)

/-- core_wave_decomposition.py:13-212 `decompose_linear_ZS` for 1D arrays `t`, `x_loc`, `w_loc`.  `Ntime, Nloc = xTime.shape` raises
`ValueError` unless `xTime` has two dimensions. -/
noncomputable def decomposeZS (t : List ℝ) (xTime : Arr ℝ) (h : Depth) (xLoc wLoc : List ℝ) (detLim : ℝ := 1 / 8) :
    Except PyErr (List ℝ × List ℝ) :=
  match xTime.shape with
  | [n, m] =>
    if m ≠ xLoc.length then .error (.assertionError "ZS: input error: Dimensions of xTime and x_loc do not correspond.")
    else if xLoc.length ≠ wLoc.length then .error (.assertionError "ZS: input error: Dimensions of x_loc and w_loc do not correspond.")
    else if m ≤ 1 then .error (.assertionError "ZS: input error: Number of wave gauges must be at least 2.")
    else if n ≠ t.length then .error (.assertionError "ZS: input error: Dimensions of x_loc and t do not correspond.")
    else do
      let wMin ← pyMin wLoc
      let wMax ← pyMax wLoc
      if ¬ (0 < wMin ∨ wMax ≤ 1) then .error (.assertionError "ZS: input error: Values of w_loc must be between 0 and 1.")
      else if ¬ (1 < wLoc.sum) then .error (.assertionError "ZS: input error: Sum of elements in w_loc must be at least 2.")
      else
        let dMin ← pyMin (diff xLoc)
        if ¬ (0 < dMin) then .error (.assertionError "ZS: input error: Wave gauges positions x_loc are not sorted in increasing order.")
        else zsCore t ((List.range m).map fun i => column xTime n m i) h xLoc wLoc detLim
  | _ => .error (.valueError "unpack")

/-- core_wave_decomposition.py:274-280: the matrix filled column by column with the signals; it starts as zeros of shape
`(len(t), len(x_loc))`.  More signals than columns raise `IndexError`, a signal of another length `ValueError` (a signal of length 1 is
broadcast by numpy). -/
def fillColumns (n m : Nat) : List (List ℝ) → Nat → Arr ℝ → Except PyErr (Arr ℝ)
  | [], _, a => .ok a
  | x :: xs, i, a =>
    if m ≤ i then .error .indexError
    else if x.length ≠ n ∧ x.length ≠ 1 then .error (.valueError "could not broadcast input array")
    else
      let col : Nat → ℝ := fun r => if x.length = n then x.getD r 0 else x.getD 0 0
      fillColumns n m xs (i + 1) ⟨a.shape, (List.range (n * m)).map fun p => if p % m = i then col (p / m) else a.data.getD p 0⟩

/-- core_wave_decomposition.py:215-287 `decompose_linear_ZS_series`.  Without any series `t` is unbound. -/
noncomputable def decomposeZSSeries (ss : List (SeriesObj ℝ)) (h : Depth) (xLoc wLoc : List ℝ) (detLim : ℝ := 1 / 8) :
    Except PyErr (SeriesObj ℝ × SeriesObj ℝ) :=
  match ss with
  | [] => .error (.unboundLocalError "t")
  | s0 :: _ => do
    let t := s0.time.data
    let xs ← ss.mapM SeriesObj.sig
    let xTime ← fillColumns t.length xLoc.length xs 0 ⟨[t.length, xLoc.length], List.replicate (t.length * xLoc.length) 0⟩
    let (xIn, xRe) ← decomposeZS t xTime h xLoc wLoc detLim
    let sIn ← SeriesObj.init (vec t) (vec xIn)
    let sRe ← SeriesObj.init (vec t) (vec xRe)
    return (sIn, sRe)

end Verif
