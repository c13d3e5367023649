import Verif.Model.Series

/-! # The histogram drawn by `plot_hist_waveheight` (series.py:274-298)

`plt.hist(x)` for a 1D array draws the bars of `np.histogram(x, bins=10)`. -/

namespace Verif
variable {K : Type} [Field K] [LinearOrder K]

/-- The outer edges chosen by `np.histogram`: the smallest and largest value; (0, 1) for an empty array; widened by a half on both sides if
all values are equal. -/
def histRange : List K → K × K
  | [] => (0, 1)
  | a :: l =>
    let lo := l.foldl min a
    let hi := l.foldl max a
    if lo = hi then (lo - 1 / 2, hi + 1 / 2) else (lo, hi)

/-- The number of the bar a value is counted in, for `n` bars between `lo` and `hi`: `int((x - lo) / (hi - lo) * n)`, the last edge counted in
the last bar. (The corrections numpy makes afterwards for rounding have no effect in exact arithmetic.) -/
def histIndex [FloorRing K] (n : Nat) (lo hi x : K) : Nat :=
  let i := ⌊(x - lo) / (hi - lo) * n⌋.toNat
  if i = n then n - 1 else i

/-- `np.histogram(x, bins=n)`: the counts and the `n + 1` edges (`np.linspace`). -/
def npHistogram [FloorRing K] (n : Nat) (x : List K) : List Nat × List K :=
  let r := histRange x
  ((List.range n).map fun b => x.countP fun v => decide (histIndex n r.1 r.2 v = b),
   (List.range (n + 1)).map fun (b : Nat) => r.1 + (b : K) * ((r.2 - r.1) / n))

/-- series.py:274-298 `plot_hist_waveheight`: the bars (left edge, right edge, height) drawn; the object is unchanged.  Wave heights that are
not a 1D array are outside the model. -/
def WH.plotHist [FloorRing K] (s : WH K) : Except PyErr (List (K × K × Nat)) :=
  match s.hwave.shape with
  | [_] =>
    let h := npHistogram 10 s.hwave.data
    .ok ((List.range 10).map fun b => (h.2.getD b 0, h.2.getD (b + 1) 0, h.1.getD b 0))
  | _ => .error .unmodelled

end Verif
