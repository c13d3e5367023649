# Formal model of deltares_wave_toolbox in Lean 4 - design

Sections 1-3 were written before the proofs and are extended, property by property, before each new group of proofs;
sections 4-6 are kept up to date as proofs land.

## 1. Shape of the model

* `lean/Verif/Np.lean` - the few Python / numpy primitives the code uses, as total functions on `List`
  (`diff`, `where`, slices, `argmin`, `arange`, half-even rounding, ...), the exceptions (`PyErr`), n-dimensional array
  inputs (`PyIn`: a number, a flat list or an ndarray `Arr` = shape + data).
* `Verif/Model/*.lean` - the code, function by function; exceptions are values (`Except PyErr`), objects are records,
  methods return the result *and* the object afterwards. Every definition cites file and lines of /repo.

  | module | models |
  |---|---|
  | `Engine` | cores/core_engine.py |
  | `Time` | cores/core_time.py (sorting, crossings, individual waves, highest waves, exceedance) |
  | `Series`, `SeriesReal`, `SeriesSig`, `SeriesHist` | series.py: `WaveHeights` and `Series` as state machines, all public methods |
  | `Spectral`, `Welch`, `Synth` | cores/core_spectral.py (DFT pairs, folding, averaging, coherence, filters, Welch, random-phase synthesis) |
  | `WaveFun`, `BG` | cores/core_wavefunctions.py (moments, periods, JONSWAP, Battjes-Groenendijk) |
  | `Dispersion`, `Decomp` | cores/core_dispersion.py, cores/core_decomposition.py |
  | `SpectrumObj` | spectrum.py: `Spectrum` as a state machine with cached attributes |
  | `Hist` | np.histogram as used by `plot_hist_waveheight` |
  | `Plots` | the points and lines the plot methods of both classes hand to matplotlib |

* `Verif/Lemmas/*.lean` - helper lemmas (no property is stated there).
* `Verif/Props/*.lean` - the property theorems, each with its small specification and, beside it, an `example` on a concrete
  non-trivial input showing that the hypotheses can be met.

Pure comparison-and-arithmetic code is modelled over an arbitrary linearly ordered field `K` (with floor where the code rounds),
so it can be evaluated on `Rat` by the kernel (the test vectors of /repo/tests are replayed as `example`s) and instantiated at
`Real`. Code with square roots, exponentials and Fourier transforms is modelled over `Real`/`Complex`.

Where Python would continue with `inf`/`nan` the model says so explicitly (`XF`, or the marker `.nonFinite`); no theorem relies on
Lean's `x / 0 = 0`. Inputs outside the model give the marker `.unmodelled`, and no theorem claims anything about them.

## 2. What is idealised

* Arithmetic is exact, except in `Model/Float64.lean`, `FloatStat`, `FloatAxes`, `FloatSimpson`, `FloatDisp`, `FloatFft`, `FloatSynthDraw` and `FloatJonswap` (C113-C115, C120-C124, C173, C175-C180, C182-C184), where the expressions that decide *how many* waves or bins are taken, the
  constant-step check, the zero crossings, the statistics, the axes, the moments, the wave numbers, the spectrum of a record and the band filter are modelled in IEEE binary64 (round to nearest even, gradual underflow, no overflow). NaN inputs are modelled in `Model/NaN.lean`, `Model/NaNSpec.lean` and `Model/NaNSig.lean` (C134-C146); infinite inputs are not modelled, except where the code itself treats
  them (`h = inf` in disper, `fmax = inf` in compute_moment).
* numpy/scipy are external; the model contains their documented behaviour:
  - `np.argsort`: *some* sorting permutation (parameter `Argsort`, any tie order; theorems hold for all of them);
  - `np.fft.fft/ifft`: the DFT sums; `scipy.signal.hilbert`: the analytic signal by DFT; `np.interp`: linear interpolation;
  - `np.polyfit(.,.,2)` on three points: the interpolating parabola; `scipy.integrate.simpson`: the composite rule of scipy >= 1.11
    with Cartwright's correction of the last interval;
  - `scipy.signal.welch`: segmentation, constant detrend, window, one-sided density scaling, mean; the windows boxcar, hann, hamming, blackman, nuttall, blackmanharris, flattop, cosine and bartlett with their abbreviations; windows that need a parameter raise;
    a negative overlap is a gap, an empty signal gives empty arrays;
  - `np.random`: an arbitrary state machine with `seed` and `rand`;
  - `special.gammainc`, `special.gamma`, `stats.rayleigh/exponweib.ppf`: their defining integrals and formulas.
* In the double-precision files the accuracy of library routines is an assumption, a parameter of the model for which existence is proved: any order of summation for `np.mean`/`np.std` (`NpSum`);
  `exp`, `tanh`, `**` with relative error 2^-50 (`NpElem`, `npElem_exists`); `np.exp(1j p)` to 2^-50 (`NpCexp`, `npCexp_exists`); `fft`/`ifft` with error at most eps, relative to the result, in the root-mean-square norm (`NpFftD eps`, `npFftD_exists`
  for every eps from 2^-45 on; the forward errors of numpy's pocketfft are of the order 1e-16 log2 n).
* The `while` loop of the Battjes-Groenendijk routine is modelled with fuel; theorems state that a large enough fuel exists and that
  the result does not depend on it.
* Arrays have element type float64 and are values. Integer element types are modelled in `Model/IntInput.lean` for the three functions
  where they change the result, fixed-width overflow in `Model/FixedWidth.lean`, NaN values in `Model/NaN.lean`, (spectra) `Model/NaNSpec.lean` and (spectral analysis) `Model/NaNSig.lean`, where the FFT of an array with NaN is any function in which a real or imaginary part that depends on a NaN operand is NaN (`FftN`; `FftN.strict` shows there is one); sharing of memory between caller and objects is modelled in `Model/Memory.lean`.
* Error *messages* are labels; the class of the exception is modelled.
* matplotlib is represented by the points, lines, bars and ticks passed to it.

Not modelled: float rounding outside the six double-precision model files, numpy's RuntimeWarnings, the figure objects and files, axis labels and legends, deprecated aliases, type annotations,
arrays of three or more dimensions inside the numerical routines (they are modelled in the shape checks),
the wave-number solver with a NaN depth, examples/ and docs/.

## 3. Properties -> what is modelled, how proved

| id | model | method |
|---|---|---|
| C01 | `sortWaveParams` with arbitrary `Argsort` | permutation of zip by permuting indices; sortedness from contract |
| C02 | `PyIn`, validation prefix of the four functions | case analysis on shape |
| C03 | same; the documented behaviour is refuted by the code (guard order) | empty input always raises (proved); partial |
| C04-C06, C79, C83 | `determineZeroCrossing`, `get_crossing` | loop = filter of indices; interpolation algebra; alternation by induction between sign changes |
| C07-C10 | `determineParamsIndividualWaves`, Series constructor | bracket indices of crossings; each window non-empty |
| C11 | same, under scaling/shift | equivariance of every step |
| C12-C16 | `highestWavesParams`, `exceedanceWaveHeight` | sorted lists, averages of prefixes |
| C17-C19 | `WaveHeights` state machine, op lists | invariant by induction over op list; C19 refuted for ties |
| C20 | real-valued getters | Cauchy-Schwarz / exp-log algebra |
| C21, C22, C85 | acceptance checks | exact characterisation; the two-sided claims are refuted by concrete witnesses |
| C23 | argmin | induction |
| C24-C27, C29, C77 | DFT over lists | roots of unity orthogonality, Parseval |
| C28, C30, C31 | `frequencyAveraging`, `coherence` | sums over blocks, Cauchy-Schwarz |
| C32-C34, C72, C74 | `applyBandFilter`, `bandpassFilter`, `fcutoff` analysis | exact kept index set, DFT inversion; documented band off by one bin (refuted) |
| C35-C37, C75, C84 | `spectrum2timeseries`, `create_series` with abstract RNG | ceil lemmas, Parseval, functional determinism |
| C38-C41, C81, C82 | `simpson`, `computeMoment` | quadrature weights, panel-wise exactness, integrals of powers, Chebyshev-type sums |
| C42-C44 | `createSpectrumJonswap`, periods | linearity of moments, calculus of f^-5 exp(-1.25 f^-4), Cauchy-Schwarz with positive weights |
| C45-C47, C61 | `computeSpectrumParams`, `getTp`, `computeTps`, `tpd` | branch analysis, parabola vertex |
| C48 | `battjesGroenendijk` with fuel | partial correctness plus termination by a discrete monotonicity argument |
| C49-C51, C63, C64 | `disper` | branch analysis; monotonicity of q tanh q; verified grid + convergence bound for two Newton-like rounds |
| C52-C54, C65-C69 | `decomposeLinearZS` and its wrapper | 2x2 linear algebra, least squares, perturbation bound, DFT inversion |
| C55-C57, C80, C86, C87 | `SpectrumObj` state machine with cached attributes | invariants by induction over op lists; C56 refuted by stale caches |
| C58, C62 | argument defaulting of get_spectrum + welch | case analysis, Parseval per segment |
| C59, C70, C71, C73 | `Series` state machine | list filters; induction over histories |
| C60 | skewness, asymmetry | algebra, symmetries of the analytic signal |
| C76, C78 | plots | points drawn as lists; monotonicity; history induction |
| C88 | `WaveHeights` state machine | the object always holds a permutation of its waves; averages over a top set |
| C89 | `Hist` (np.histogram, ten bins) | bin index by floor; counting by bins is a partition |
| C90 | crossings and waves of `xs ++ ys` | crossing indices of an append; uniqueness of the wave given its bracket |
| C91 | `create_series` then `get_spectrum_raw` | DFT of the synthesised cosines at the harmonics, equality of objects |
| C92 | `get_spectrum_raw` | moduli of Fourier coefficients under shift, reversal, sign, scale |
| C94 | moments and `SpecObj` getters | linearity and positivity of moments (C38), weighted means |
| C93 | `disper` | bounds and monotonicity of the exact solution, transferred with the 1e-13 accuracy of C63 |
| C95 | `compute_tps` | inductive specification by the list of maxima, case by case |
| C96 | `get_spectrum`, `welch` | rounding lemma, case analysis on the defaulting |
| C97 | `Spectrum` constructor, `compute_moment` | case analysis on shapes, invariance of the data over histories |
| C98 | `bandpassfilter` | the kept bins for a raised limit, linearity of masked inverse DFT |
| C99 | `decompose_linear_ZS` | `decompose_form`, laws of the DFT under linear maps, rotation and reversal, invariance of the 2x2 solve |
| C100 | `create_spectrum_jonswap` | algebra on the shape function and its trapezoid sum |
| C101 | `coherence`, `frequency_averaging` | block means, equality case of Cauchy-Schwarz |
| C102 | `compute_moment` | explicit Simpson weights by induction over panels |
| C103 | `get_spectrum_raw`, `get_Hm0` | C102 with C27's energy identity |
| C104 | `get_spectrum_raw`, `get_Hm0`, `get_Tp`, `get_Tm01`, `get_Tm02`, `get_Tmm10` | orthogonality of the DFT, C102 |
| C105 | `bandpassfilter` | Fourier coefficients of a mixture; `keptBins` resolved to limits in frequency |
| C106 | `get_spectrum_raw`, `compute_moment`, `get_Hm0` | C105 coefficients, C102 weights |
| C107 | `bandpassfilter` | masks compose; coefficients of reversed / shifted / offset records |
| C108 | `get_skewness`, `get_asymmetry`, `scipy.signal.hilbert` | analytic signal of a mixture; product formulas for cosines |
| C109 | `WaveHeights` statistics | sorting preserves pointwise bounds; C13-C18 closed forms, any call history |
| C110 | `WaveHeights` statistics | the sorted heights scale |
| C111 | `compute_BattjesGroenendijk_wave_height_distribution` | the iteration is in the ratio Htr/Hrms; composite Weibull is monotone |
| C112 | `frequency_averaging` | block means of block means |
| C113 | counting expressions of `highest_waves_params`, `exceedance_wave_height`, `frequency_averaging` in IEEE binary64 (`Model/Float64.lean`) | nearest-double characterisation of rounding; ties to even decide multiples of three |
| C114 | `monotonic_increasing_constant_step` in binary64 | error bounds of rounded differences |
| C115 | `determine_zero_crossing` in binary64 | relative error of four roundings; crossings two samples apart |
| C116 | two records with equal signs and samples within ε | same crossing indices; interpolation error; extremes over the same window; C-level `heights_noise` |
| C117 | a sampled sinusoid through the Series constructor | zeros between samples ↔ sign changes; interpolation error of a sine by concavity; nearest sample to each crest |
| C118 | `unfold_spectrum`, `coherence`, `decompose_linear_ZS_series` incl. numpy length-1 broadcasting | `symExt`; conjugate symmetry and C24; case analysis on lengths |
| C119 | `SeriesObj.init` on inputs of any shape (`np.diff` along the last axis, `timeSteps`) | shape analysis of `convert_to_vector` and of the 1D checks: success implies 1D inputs (converse direction by C85/C20), every other shape ends in AssertionError/ValueError |
| C120 | `Model/FloatStat`: `np.sum` as any binary tree of rounded additions (`NpSum`), `np.sqrt` with relative error 2^-53 (`NpSqrt`), `highest_waves`, `get_Hs`, `get_Hrms` on doubles | induction over the addition tree: error (1+u)^(n-1)-1 relative to the sum of absolute values (sums in the subnormal range are exact), then division, squares and root; witness of Hs > Hmax computed in the kernel |
| C121 | zero crossing loop and wave parameter loop with every operation rounded (`wavesF64`) | `waves_double`, `hs_record_double`; finding `height_lost` (a wave of height 1 reported with height 0) |
| C122 | `Model/FloatAxes`: `np.arange` of doubles (length and fill), the time and frequency axes of `spectrum2timeseries` | one rounding lemma in units of the step (`f64_step`), composed; findings `extra_sample`, `epoch_drift` |
| C123 | `Model/FloatAxes`: axes of `time2freq`/`unfold_spectrum`, `nFactor`, `nperseg`, `noverlap`, `approx_array_index` on doubles; the filter on the double axis | relative error of the axis; comparisons and roundings stable outside a margin; finding `limit_loses_component` |
| C124 | `Model/FloatSimpson`: every rounded operation of `scipy.integrate.simpson`, `compute_moment` and the getters of Hm0, Tm-1,0, Tm01, Tm02; `np.sum`, `pow`, `sqrt` as parameters with their error bounds | a calculus of relative errors (`Near`), panel by panel; sums of non-negative terms; exact weights from C102 |
| C125 | `Model/IntInput`: `frequency_averaging` with an integer result array | `truncInt_spec`; block means as in C28 |
| C126 | `Model/IntInput`: negative powers of an integer axis raise in `compute_moment` and `create_spectrum_jonswap` | case analysis against `computeMoment`; linearity of the moment for the all-zero JONSWAP |
| C127 | `Model/Memory`: arrays at addresses, objects hold addresses, caller assignments | the memory only grows (`Extends`); induction over the history |
| C128 | as C127, `WHRef`/`SeriesRef` against `WH`/`SeriesObj` | refinement of the value model by induction over the history, for attributes at addresses the caller does not have |
| C129 | as C127, `SpecRef` against `SpecObj` | methods keep the data (C55); stale caches by computation |
| C130 | `Model/FixedWidth`: squares of `get_Hrms` in two's complement of w bits | uniqueness of the stored value; direct computation for powers of two |
| C131 | `Model/FixedWidth`: `determine_zero_crossing` and `Series.__init__` with the integer difference of the interpolation wrapped | fold over the samples, equality with the float model when no difference leaves the type |
| C132 | as C131 | sign analysis of the wrapped difference; two `int16` witnesses by kernel computation |
| C133 | `Model/FixedWidth`: the axis checks with unsigned differences modulo 2^w | divisibility; induction over the axis |
| C134 | `Model/NaN`: `WaveHeights` on arrays of `Option K`; `np.argsort` any order with NaN last | NaN is unequal to itself, so the sortedness test fails; invariant over histories; lifting of the NaN-free model |
| C135 | `Model/NaN`: crossings, waves, `Series.__init__` on `Option K` | the first sample of a wave is present, so Python's max/min skip NaN; induction over the crossings |
| C136 | `Model/NaN`: both axis checks | a NaN makes a step NaN |
| C137 | `Model/NaNSpec`: Simpson's rule, tail and `compute_moment` on `Option K` | any NaN ordinate makes the weighted sum NaN (induction over the panels); lifting of NaN-free slices |
| C138 | `Model/NaNSpec`: `Spectrum` getters, `compute_spectrum_params` | C137 per moment |
| C139 | `Model/NaNSpec`: Python `max`, `np.where`, `compute_tps` | Python's `max` keeps its first element against NaN and skips later ones; case analysis of the list of maxima |
| C140 | `Model/NaNSpec`: `approx_array_index` of NaN is 0 | `argmin` of NaNs is the first index |
| C141 | both models of `Spectrum` | simulation relation over call histories |
| C142 | `Model/NaNSig`: folded transform, density, averaging, `get_spectrum_raw`; FFT with NaN abstract (`FftN`) | a missing sample has weight of modulus one in every component, so one of its parts is NaN; block means with NaN |
| C143 | `Model/NaNSig`: `bandpassfilter`, `get_bandpassfilter` | dependence of the filtered sample on the missing one = one kept component with non-zero product of parts; the product of a sample with itself is never zero |
| C144 | `Model/NaNSig`: `_determine_individual_waves` with `fcutoff` | two neighbouring samples are never both independent of a missing one (sine of one step), so no crossing condition holds |
| C145 | `Model/NaNSig`: `welch`, `get_spectrum` | mean removal makes a whole segment NaN; used samples are those in a segment that fits (`UsedSample`), the first `usedSamples` ones unless there are gaps |
| C146 | `Model/NaNSig`: `max`, `min`, `mean`, `var`, skewness, asymmetry | folds with NaN |
| C147 | `Model/NaNSpec`: `tpd` | C137 for both moments; a NaN is selected as little as a zero |
| C148 | `Model/WaveFun`: `createSpectrumObjectJonswap` | `u = fp/f`: the factor `u^5 exp(-5/4 u^4)` is compared in logarithms (`log x ≤ x − 1`); the enhancement factor `γ^A` is monotone on either side; then the last maximum of the density list |
| C149 | `Model/Synth`: `spectrum2timeseries` | generator state a random variable on any probability space; expectation of products of cosines by pairwise independence, the integral over one phase by the fundamental theorem of calculus; an ideal generator on the infinite product measure shows the hypotheses are met |
| C150 | `Model/Welch`: `welch`, `SeriesObj.getSpectrum`; `Model/SpecObj` getters | segments of the wave are the same wave with another phase; the Hann window turns it into three waves (product formula), whose Fourier coefficients are known (`coef_mixture`); mean square of the window 3/8; Simpson weights |
| C151 | `Model/Describe`: `WH.str/repr`, `SeriesObj.str/repr`, `SpecD` (spectrum with `D`, `spec`) | sizes are invariant under every call (invariants of the call histories); decimal numerals are injective; no getter reads `D` |
| C152 | `Model/Describe`: `SpecObj.warnings`, `bgWarnings` | case analysis of the cached attributes after an arbitrary history; availability of the default cut-off in every state |
| C153 | `Model/Welch`, `Model/SeriesSig`: `getSpectrum`, `getSpectrumRaw` | removing the mean changes only coefficient 0 (`coef_add_const`); window energy N; a slice of a uniform axis is uniform, so each segment is a valid series of its own |
| C154 | as C150 | the tapered segment is a mixture of three waves per component; at bins three apart at most one component is non-zero at each bin, so squared moduli add up |
| C155 | `SpecObj.getTp`, `getTps`, `computeTps` | vertex of the parabola minus the middle frequency is a positive multiple of the difference of the neighbours; lines of C102/C154 have equal neighbours |
| C156 | `simpson`, `computeMoment`, `SpecObj` getters | per pair of intervals the Simpson value is an average of samples within the oscillation of the integrand; uniform continuity for the limits; compactness away from the peak for `Tp` |
| C157 | `determineZeroCrossing`, `determineParamsIndividualWaves` | intermediate value theorem between samples of opposite sign; the sample before each zero is a crossing index and conversely, so the two strictly increasing lists agree; every point of a wave is within `dt` of a sample of it |
| C158 | `SeriesObj.getSpectrum`, `getSpectrumRaw`, `calcHm0`, `computeMoment` | linearity of the tapered transform, weighted Minkowski inequality over segments and over Simpson weights; energy identity (C62) bounds the height of a bounded error |
| C159 | `generalCosine`, `getWindow`, `welch` | a cosine-sum window splits a wave into waves of neighbouring bins (product formula), orthogonality of cosines gives the power of the window; lines of waves nine bins apart do not overlap |
| C160 | `decomposeZS` | the fit is orthogonal to the residual (Pythagoras), its energy is at least `W − abs(Σ w e^{2ikx})` times that of the components and that gap is bounded below by the determinant test; Parseval; linearity (C99) for differences |
| C161 | `determineZeroCrossing`, `determineParamsIndividualWaves`, `SeriesObj.init` | mirror the crossing indices, the interpolated zeros and the wave windows; the extreme values agree by antisymmetry, their times when samples are distinct |
| C162 | `createSpectrumJonswap`, `createSpectrumObjectJonswap`, `createSpectrumPiersonMoskowitz` | the formula is continuous across the peak; Simpson error of C156 for the unscaled shape, energy scaling of C80 for the scale factor, fundamental theorem of calculus for the Pierson-Moskowitz integral |
| C163 | `getWindow`, `generalCosine`, `cosineCoefs`, `bartlettWindow`, `cosineWindow` | closed forms of the cosine sums against a table of textbook shapes; symmetry and bounds by cases |
| C164 | `battjesGroenendijk`, `bgLoop`, `bgFinish` | the mean square grows at least linearly and is continuous in the scale (existence by the intermediate value theorem, uniqueness and accuracy by the growth); exceedance as a power shape in units of the transition height |
| C165 | `simpson`, `simpOdd`, `simpLast`, `computeMoment`, getters of `SpecObj` | Peano-style error of one pair of intervals and of the last interval by integrating the third derivative of the error three times; induction over pairs; quotients and roots for the periods |
| C166 | `SpecObj.init`, `calcTps2`, `calcTp2`, `computeMoment`, `SpecObj.plot`, `SpecObj.createSeries` | an invariant (data unchanged, every cache empty) kept by every call; each getter by cases on where it raises |
| C167 | `createSpectrumJonswap`, `jonswapShapeZero`, `jonswapScaled`, `jonswapBadShape` | the moment of a non-negative shape is positive as soon as the last density is, and the moment is linear in the density; shapes by cases |
| C168 | `computeTps`, getters of `SpecObj`, `createSpectrumJonswap` | the largest sample is at one of the two grid points around the peak; Rolle twice for the parabola through three samples; monotony of the JONSWAP formula through log(v/u) < v/u - 1 |
| C169 | `Model/Dispersion` (`disperFinite`: gravity 0 gives NaN and so zeros; depth 0 divides by zero; otherwise element by element) | case split on the branch; for negative gravity every `w2` is the clamped value, so the two rounds start from the same number (`disp_two_rounds` at 1e-8); signs of `k tanh(k h)` |
| C170 | `spectrum2timeseries`, `spectrum2timeseriesObject` (`dt = 0` divides by zero, `dt < 0` runs through the same lines), `SeriesObj.init` | the axis of any successful synthesis is the arange; a backward axis has mean step `dt < 0` and variance 0, so `series_assertion_iff` refuses it; all generated frequencies are negative, so the interpolant is 0 there |
| C171 | `Model/BG` (`bgRayleigh`, `battjesGroenendijk` for every depth, slope and wave count) | sign of `H_rms` for negative depth; case split on the branches; loop invariant `bgLoop_spec` for the sign of the heights; `bgLoop_terminates` for the finding |
| C172 | `Model/NaNSpec` (spectrum object with NaN results and caches), `computeSpectrumParamsN`, `getSpectrum`, `getSpectrumRaw` | invariant `CalmState` of the caches kept by every call (`CalmState.call`), so the reports do not depend on the history; zero moments from the moment structure; `welch_constant` and scaling by 0 for records |
| C173 | `computeMomentF64` with limits (`Model/FloatSimpson`), `approxArrayIndexF64`, `hm0F64`, `tmm10F64`, `tm01F64`, `tm02F64` against `computeMoment`, `calcHm0`, ... | index error analysis from `nearest_double` (`index_near`); both the double and the exact moment between limits equal the moment of the slice of the spectrum, which is again an `AxisDouble`; then `hm0_double`, `mean_periods_double`, `tm02_double` on the slice |
| C174 | `Model/Welch`: `welch`, `welchWrapper`, `get_spectrum` | a segment cut out of the record is a record of one segment; the list of segments depends on samples in segments only; integer step `n - noverlap` |
| C175 | `Model/FloatDisp`: `disper` with every operation rounded to binary64, `exp`, `tanh`, `**` any functions with relative error 2^-50 (`NpElem`), `sqrt` with 2^-53; no overflow or subnormal numbers in the stated range | forward error of the rounded coefficients (`a` absolute 2^-28, `b` relative 2^-28, `c` relative to `q tanh q`); increment of either branch satisfies the exact quadratic up to 4e-8 of the residual; Taylor remainder; perturbation of `q tanh q`; residual 0.025, 1.2e-5, 6e-13 |
| C176 | `Model/FloatFft`: `time2freq_nyquist`, the density lines, `frequency_averaging`, `compute_spectrum_time_series` in binary64 over any transform with error eps (`NpFftD eps`) and any order of summation | perturbation of squared moduli, Cauchy-Schwarz over all bins and Parseval; rounding of the density factor, of the block means and of the axis; the number of bins per block from the rounded axis (`factor_double`) |
| C177 | `Model/FloatFft`: `bandpassfilter`, `unfold_spectrum` in binary64 over the same transforms | the same bins are kept (`band_double`); unfolding is exact; Parseval for the forward error, inverse Parseval for the filtered error, plus the error of the inverse transform |
| C178 | `Model/FloatFft`: `time2freq`, `freq2time`, `unfold_spectrum` in binary64 over transforms with error eps | Parseval for the forward error, inverse Parseval for its transform, the error of the inverse relative to its size; single samples from the sum of squares |
| C179 | `Model/FloatSynthDraw`: `np.interp` and the square root's argument in binary64 | gap between neighbouring doubles and exact differences within a factor two; first-order error of the five roundings of one cell, induction on the cells; the NaN by computation of the generated axis |
| C180 | `Model/FloatSynthDraw`: `spectrum2timeseries` in binary64 over an inverse transform with error eps (`NpFftD`), a square root with 2^-53 (`NpSqrt`), a complex exponential with 2^-50 (`NpCexp`) | error of one component (square root of a perturbed argument, phase, products), mirrored components, Parseval, error of the transform and of the final product; variance by comparing mean squares |
| C181 | `spectrum2timeseries`, `spectrum2timeseriesObject`, `computeSpectrumTimeSeries`, `getSpectrumRaw`; specification `synthBin`, `IsInterpolant` | the random-phase sum is the inverse transform of a conjugate-symmetric spectrum (Nyquist component made real), forward transform of an inverse, `normSq` of each component; odd records by the zero mean of the full period |
| C182 | `jonswapShapeF64`, `jonswapScaledF64`, `createSpectrumJonswapF64`, `hm0F64`, `calcHm0`; specification `IsShape`, `AxisDouble` | relative error of the computed moment (`moment_double`), of its square root, of the quotient and its square; Simpson weights are non-negative, so scaling every density up to one rounding scales the moment up to one rounding; the same moment bound for the result |
| C183 | `jonswapShapeF64`, `jonswapConstF64`, `jonswapShape` (exact formula over ℝ), `NpPow5`, `NpElem`; specification `RelErr` | calculus of relative errors in units of 2^-53 (products, inverses, powers, roundings, perturbed exponentials); near the peak the difference nu - 1 of doubles is 0 or at least 2^-60, and its square is compared absolutely; beyond four times the peak both peak enhancements are 1 up to e^-500 |
| C184 | `simpsonF64`, `computeMomentF64`, `jonswapScaledF64`, `createSpectrumJonswapF64`; specification: exact moment on the exact axis | every computed Simpson coefficient is non-negative and rounding is monotone, so the computed integral lies between those of two lists of usual densities (small ones put to 0, resp. to 2^-700) whose exact integrals differ by less than 2^-60 relatively; scaling with an absolute rounding error 2^-1022 |

No property is "not expressible"; what cannot be exhibited is float rounding (named in the notes of the manifest).

## 4. Trusted base

* Lean 4.33.0's kernel (all modules are replayed by vcheck).
* Axioms: every theorem named in MANIFEST.json depends on a subset of `propext`, `Classical.choice`, `Quot.sound` (checked with
  `#print axioms`; eight depend on `propext`, `Quot.sound` only, none on anything else). No axiom is added; no compiled evaluation
  is trusted (concrete evaluations use kernel reduction, `decide +kernel`, or `norm_num`).
* The reading of the source recorded in the comments of `Verif/Model`, and the idealisations of section 2.
* The specifications: small definitions in `Verif/Props` (such as `IsNearest`, `SelectedRange`, `Kept`, `LastResult`), each with an
  English comment.

## 5. Findings (the documented or expected property is false of the code; a witness is proved)

| id | finding |
|---|---|
| C03 | shape guards precede the "no waves" early returns, so an empty wave train always raises |
| C07 | a wave between up-crossings can have a trough of exactly 0 |
| C15 | exceedance height is 0 for percentages selecting no wave, so it is not monotone |
| C19 | with equal heights at the cut, two successive `get_Hs` calls return alternating periods |
| C21, C85 | the constructor's axis test compares a variance with a step: unit dependent, accepts decreasing axes |
| C22 | the uniformity check has no absolute value: later smaller steps are accepted |
| C27 | the Nyquist bin of an even-length record is counted twice in the raw spectrum |
| C31 | coherence takes the modulus before averaging: phases do not matter |
| C32, C34 | the band filter drops the mean and the highest bin of the band |
| C36 | the Nyquist bin of a synthesised series depends on the last phase |
| C41 | a single bound given to compute_moment is ignored |
| C44 | with a grid frequency 0, Tm-1,0 >= Tm01 can fail |
| C47, C80 | Tps is negative for a maximum at the edge of the axis; -999 for spectra below 1e-10 |
| C48 | with a large tolerance the loop stops at once |
| C49, C67 | deep/shallow water options of disper raise UnboundLocalError (hence the decomposition in deep water) |
| C54 | weight checks of the decomposition never reject what they document |
| C56, C87 | cached Hm0/Tps/Tmm10 of another range are reused by the steepness and cut-off getters |
| C57 | a two-column density is accepted as a "1D" spectrum |
| C58 | get_spectrum fails for short records; an explicit overlap of 0 becomes half a segment |
| C61 | the 80% threshold of tpd is effectively 64%; one selected bin gives NaN |
| C63 | the documented relative accuracy 2.5e-16 of disper is not reached for all inputs, even in exact arithmetic |
| C64 | disper is constant, hence wrong by an unbounded factor, below w^2 h/g = 1e-8 |
| C67 | a negative detLim turns the decomposition into NaN |
| C68 | missing gauge series count as a flat surface |
| C73 | stored crossings after minimum_wave filtering do not delimit the waves |
| C74 | with fcutoff, troughs can be positive and heights 0 |
| C76 | highest wave drawn at probability 0 on a log axis; theoretical Rayleigh curve shifted by (n+1)/n |
| C95 | with three or more equal maxima compute_tps uses the second one |
| C96 | a resolution coarser than 2/3 of the sampling rate raises IndexError, one coarser than twice the rate gives the default segments |
| C94 | a larger band can have less energy (Simpson's rule with an odd number of intervals) |
| C89 | the histogram axis is labelled P, but the bars are counts |
| C79 | a never-positive signal touching zero n times gives n down-crossings and no up-crossing |
| C81 | cutting a band an odd number of steps above its lower end loses or double counts energy |
| C179 | a valid spectrum can give a series of NaN: interpolation just below a frequency of zero density returns a negative density (`synth_nan`) |
| C181 | a series synthesised with an odd number of samples is one sample short of its period; its spectrum has a density at zero frequency (1/3 in the proved example) although the given spectrum has none |

## 6. Testing against wrong programs

`seeded/LOG.jsonl` records every seeded edit of the model (definition, edit, claim broken, theorems that failed, theorems tightened).
Surviving edits led to the theorems listed under `theorems_tightened`.

`Props/Conformance.lean` and `Props/ConformanceReal.lean` (wave height and peak period of the JONSWAP fixture, dispersion tables, Fourier round trip) evaluate the model on the inputs of the project's own unit tests and compare with the values those tests expect. These are checks of the model against the documented behaviour, not proofs of properties; no claim in MANIFEST.json rests on them.
