import Verif.Model.SeriesSig

/-! # Model of the Welch spectrum (core_spectral.py:753-809, series.py:406-450) and of `scipy.signal.welch`

`scipy.signal.welch(x, fs, window, nperseg, noverlap, nfft, detrend="constant", return_onesided=True, scaling="density",
average="mean")` for a real 1D array, exact arithmetic.  `None` is `none`. -/

namespace Verif
open Complex

/-- `scipy.signal.get_window("hann", n)` (periodic window; a window of one point is 1). -/
noncomputable def hann (n : Nat) : List ℝ :=
  if n ≤ 1 then List.replicate n 1
  else (List.range n).map fun (j : Nat) => 1 / 2 - 1 / 2 * Real.cos (2 * Real.pi * j / n)

/-- `scipy.signal.windows.general_cosine(n, a, sym=False)` (what `get_window` asks for): `sum_k a_k cos(k t)` at the first `n` of `n + 1` points `t` from
`-pi` to `pi`; a window of one point is 1.  -/
noncomputable def generalCosine (a : List ℝ) (n : Nat) : List ℝ :=
  if n ≤ 1 then List.replicate n 1
  else (List.range n).map fun (j : Nat) =>
    ((List.range a.length).map fun (k : Nat) => a.getD k 0 * Real.cos (k * (-Real.pi + 2 * Real.pi * j / n))).sum

/-- The windows of scipy that are sums of cosines, with their abbreviations: the coefficients. -/
noncomputable def cosineCoefs (ty : String) : Option (List ℝ) :=
  if ty = "hamming" ∨ ty = "hamm" ∨ ty = "ham" then some [54 / 100, 46 / 100]
  else if ty = "blackman" ∨ ty = "black" ∨ ty = "blk" then some [42 / 100, 50 / 100, 8 / 100]
  else if ty = "nuttall" ∨ ty = "nutl" ∨ ty = "nut" then some [3635819 / 10000000, 4891775 / 10000000, 1365995 / 10000000, 106411 / 10000000]
  else if ty = "blackmanharris" ∨ ty = "blackharr" ∨ ty = "bkh" then some [35875 / 100000, 48829 / 100000, 14128 / 100000, 1168 / 100000]
  else if ty = "flattop" ∨ ty = "flat" ∨ ty = "flt" then
    some [21557895 / 100000000, 41663158 / 100000000, 277263158 / 1000000000, 83578947 / 1000000000, 6947368 / 1000000000]
  else none

/-- `scipy.signal.windows.cosine(n, sym=False)`. -/
noncomputable def cosineWindow (n : Nat) : List ℝ :=
  if n ≤ 1 then List.replicate n 1 else (List.range n).map fun (j : Nat) => Real.sin (Real.pi / (n + 1) * (j + 1 / 2))

/-- `scipy.signal.windows.bartlett(n, sym=False)`. -/
noncomputable def bartlettWindow (n : Nat) : List ℝ :=
  if n ≤ 1 then List.replicate n 1
  else (List.range n).map fun (j : Nat) => if (j : ℝ) ≤ n / 2 then 2 * (j : ℝ) / n else 2 - 2 * (j : ℝ) / n

/-- `scipy.signal.get_window(window, n)` for a name other than "hann" and "boxcar": the sums of cosines, the cosine and the Bartlett window with their abbreviations;
the windows that need a parameter raise `ValueError`; the other types (and names that are numbers, for which scipy uses a Kaiser window) are outside the model. -/
noncomputable def otherWindow (ty : String) (n : Nat) : Except PyErr (List ℝ) :=
  if ty = "han" then .ok (hann n)
  else if ty ∈ ["box", "ones", "rect", "rectangular"] then .ok (List.replicate n 1)
  else match cosineCoefs ty with
    | some a => .ok (generalCosine a n)
    | none =>
      if ty = "cosine" ∨ ty = "halfcosine" then .ok (cosineWindow n)
      else if ty = "bartlett" ∨ ty = "bart" ∨ ty = "brt" then .ok (bartlettWindow n)
      else if ty ∈ ["chebwin", "cheb", "dpss", "gaussian", "gauss", "gss", "general cosine", "general_cosine", "general gaussian", "general_gaussian",
          "general gauss", "general_gauss", "ggs", "general hamming", "general_hamming", "kaiser", "ksr", "kaiser bessel derived", "kbd"] then
        .error (.valueError "window needs one or more parameters -- pass a tuple.")
      else .error .unmodelled

/-- `scipy.signal.get_window(window, n)`. -/
noncomputable def getWindow (ty : String) (n : Nat) : Except PyErr (List ℝ) :=
  if ty = "hann" then .ok (hann n) else if ty = "boxcar" then .ok (List.replicate n 1) else otherWindow ty n

/-- One segment of `welch`: remove the mean, apply the window, zero-pad to `nfft`, one-sided periodogram.  The components are
doubled except the first and, for even `nfft`, the last (`result[..., 1:] *= 2` or `result[..., 1:-1] *= 2`). -/
noncomputable def segmentPsd (fs : ℝ) (w : List ℝ) (nfft : Nat) (seg : List ℝ) : List ℝ :=
  let d := List.zipWith (· * ·) w (seg.map fun v => v - mean seg)
  let X := npFft ((d ++ List.replicate (nfft - d.length) 0).map fun (v : ℝ) => (v : ℂ))
  let scale := 1 / (fs * (w.map fun v => v * v).sum)
  (List.range (nfft / 2 + 1)).map fun k =>
    let p := Complex.normSq (X.getD k 0) * scale
    if k = 0 then p else if nfft % 2 = 0 ∧ k = nfft / 2 then p else p * 2

/-- The segments of `nperseg` samples that start every `nstep` samples (an incomplete last one is not used). -/
def segments (x : List ℝ) (nperseg nstep : Nat) : List (List ℝ) :=
  (List.range ((x.length - nperseg) / nstep + 1)).map fun i => pySlice x (i * nstep) (i * nstep + nperseg)

/-- `scipy.signal.welch`.  An empty signal gives empty arrays, before any other check; a negative overlap leaves gaps between the segments. -/
noncomputable def welch (x : List ℝ) (fs : ℝ) (window : String) (nperseg noverlap nfft : Option Int) :
    Except PyErr (List ℝ × List ℝ) :=
  if x = [] then .ok ([], [])
  else if nperseg.getD 256 < 1 then .error (.valueError "nperseg must be a positive integer")
  else
    let nps := min (nperseg.getD 256).toNat x.length
    match getWindow window nps with
    | .error e => .error e
    | .ok w =>
      if nfft.getD nps < nps then .error (.valueError "nfft must be greater than or equal to nperseg.")
      else
        let nf := (nfft.getD nps).toNat
        let nov := noverlap.getD (nps / 2 : Nat)
        if (nps : Int) ≤ nov then .error (.valueError "noverlap must be less than nperseg.")
        else
          let psds := (segments x nps ((nps : Int) - nov).toNat).map (segmentPsd fs w nf)
          .ok ((List.range (nf / 2 + 1)).map fun (k : Nat) => (k : ℝ) / (nf * (1 / fs)),
               (List.range (nf / 2 + 1)).map fun k => mean (psds.map fun p => p.getD k 0))

/-- core_spectral.py:753-809 `compute_spectrum_welch_wrapper` on a 1D signal: a 0 means `None`.  `dt = 0` (infinite sampling
frequency) is outside the model. -/
noncomputable def welchWrapper (x : List ℝ) (dt : ℝ) (nperseg noverlap nfft : Int) (window : String) :
    Except PyErr (List ℝ × List ℝ) :=
  if dt = 0 then .error .unmodelled
  else
    let opt (n : Int) : Option Int := if n = 0 then none else some n
    welch x (1 / dt) window (opt nperseg) (opt noverlap) (opt nfft)

/-- series.py:406-450 `get_spectrum` (defaults: `nperseg = 256`, `noverlap = nfft = 0`, "hann", `dfDesired = 0.01`,
`use_dfDesired = True`).  `dfDesired = 0` always raises `ValueError`: the infinite quotient becomes the smallest integer (x86: `nperseg` not
positive) or the largest one (ARM: `noverlap` too large).  `dt = 0` (no `Series` has it) is outside the model. -/
noncomputable def SeriesObj.getSpectrum (s : SeriesObj ℝ) (nperseg noverlap nfft : Int) (window : String) (dfDesired : ℝ)
    (useDf : Bool) : Except PyErr SpecObj := do
  let x ← s.sig
  if useDf then
    if dfDesired = 0 ∨ s.dt = 0 then .error (if s.dt = 0 then .unmodelled else .valueError "nperseg must be a positive integer")
    else
      let nperseg := roundHalfEven (1 / s.dt / dfDesired)
      let noverlap := roundHalfEven ((nperseg : ℝ) / 2)
      let (f, S) ← welchWrapper x s.dt nperseg noverlap nfft window
      SpecObj.init (vec f) (vec S)
  else
    let (f, S) ← welchWrapper x s.dt nperseg noverlap nfft window
    SpecObj.init (vec f) (vec S)

end Verif
