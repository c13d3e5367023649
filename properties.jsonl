{"id": "C01", "title": "Wave sorting keeps each wave's height and period together", "statement": "sort_wave_params(hWave, tWave) on two non-empty 1D inputs of equal length returns two arrays of that length such that the heights are in descending order and the list of (height, period) pairs is a rearrangement of the input pairs: no wave is lost, duplicated, or given another wave's period.", "quantifier": "all non-empty equal-length height/period arrays, and every tie-breaking order the sort routine may choose", "why_tests_cant": "There are infinitely many arrays and numpy's default sort is unstable, so a test sees one tie order of one array.", "anchors": ["deltares_wave_toolbox/cores/core_time.py:sort_wave_params"]}
{"id": "C02", "title": "Input-shape contract of the time-domain functions", "statement": "sort_wave_params, determine_zero_crossing, highest_waves_params and exceedance_wave_height raise ValueError for every input that is not a non-empty 1D array (scalars count as one-element arrays) and, where two arrays are given, for every pair of different lengths; conversely they never raise one of these shape errors on 1D inputs of equal non-zero length.", "quantifier": "all array shapes (any number of dimensions) and contents", "why_tests_cant": "Tests never pass malformed shapes; the shape space is unbounded.", "anchors": ["deltares_wave_toolbox/cores/core_time.py:sort_wave_params", "deltares_wave_toolbox/cores/core_time.py:determine_zero_crossing", "deltares_wave_toolbox/cores/core_time.py:highest_waves_params", "deltares_wave_toolbox/cores/core_time.py:exceedance_wave_height", "deltares_wave_toolbox/cores/core_engine.py:is1darray", "deltares_wave_toolbox/cores/core_engine.py:_size"]}
{"id": "C03", "title": "A wave train without waves is handled gracefully", "statement": "As the comments in the code promise ('If there are no waves, return to calling function'), sorting or averaging an empty set of waves returns empty/zero results instead of raising, so WaveHeights([], []).get_Hs() returns (0, 0).", "quantifier": "all empty inputs and all method calls on a wave train with no waves", "why_tests_cant": "Needs reasoning over which guard fires first for the empty array; no test covers it.", "anchors": ["deltares_wave_toolbox/cores/core_time.py:sort_wave_params", "deltares_wave_toolbox/cores/core_time.py:highest_waves_params", "deltares_wave_toolbox/cores/core_time.py:exceedance_wave_height", "deltares_wave_toolbox/series.py:WaveHeights"]}
{"id": "C04", "title": "Zero-crossings are exactly the sign changes", "statement": "determine_zero_crossing(t, x, 'down') reports one crossing for every index i with x[i] >= 0 and x[i+1] < 0, in time order, and nothing else; 'up' does the same for x[i] <= 0 and x[i+1] > 0. The reported number of waves is the number of crossings minus one, or 0 when there is no crossing.", "quantifier": "all signals of any length >= 2, both crossing types", "why_tests_cant": "Unbounded set of signals including plateaus of zeros and touching zeros.", "anchors": ["deltares_wave_toolbox/cores/core_time.py:determine_zero_crossing", "deltares_wave_toolbox/series.py:Series.get_crossing"]}
{"id": "C05", "title": "Each crossing time is the zero of the linear interpolant", "statement": "On a uniform increasing time axis the time reported for a crossing between samples i and i+1 lies in [t[i], t[i+1]), equals t[i] exactly when x[i] = 0, and the straight line through the two samples is zero there; the reported times are strictly increasing.", "quantifier": "all uniform time axes with positive step, all signals, both crossing types", "why_tests_cant": "Continuum of signals and time axes; the division must be non-degenerate in every case.", "anchors": ["deltares_wave_toolbox/cores/core_time.py:determine_zero_crossing"]}
{"id": "C06", "title": "Up- and down-crossings are mirror images; the type argument is case-insensitive and validated", "statement": "The up-crossings of x are the down-crossings of -x (same count, same times). typeCross is matched case-insensitively and any other string raises ValueError instead of silently returning no crossings.", "quantifier": "all signals, time axes and strings", "why_tests_cant": "Infinitely many signals and strings.", "anchors": ["deltares_wave_toolbox/cores/core_time.py:determine_zero_crossing"]}
{"id": "C07", "title": "Signs of crests and troughs", "statement": "For every individual wave between two successive zero-down-crossings of a uniform series the trough is strictly negative, the crest non-negative and the height strictly positive (documented note: 'values of aTrough are always smaller than zero'); between two successive zero-up-crossings the crest is strictly positive, the trough non-positive and the height strictly positive, where a trough of exactly 0 does occur (finding: the documented note does not hold for up-crossings).", "quantifier": "all uniform series and all waves in them; both crossing types", "why_tests_cant": "The documented note is a universal claim over signals; samples of signals cannot settle it.", "anchors": ["deltares_wave_toolbox/cores/core_time.py:determine_params_individual_waves", "deltares_wave_toolbox/series.py:Series._determine_individual_waves"]}
{"id": "C08", "title": "Individual-wave parameters are consistent", "statement": "determine_params_individual_waves returns six arrays whose common length is the number of crossings minus one; for every wave hWave = aCrest - aTrough, tWave is the difference of the two bounding crossing times, and the sum of all periods is last crossing minus first crossing.", "quantifier": "all crossing arrays and series for which the function returns", "why_tests_cant": "Quantifies over all wave counts and all waves.", "anchors": ["deltares_wave_toolbox/cores/core_time.py:determine_params_individual_waves"]}
{"id": "C09", "title": "Crest and trough are the extreme samples of the wave, first occurrence", "statement": "For each wave aCrest/aTrough are the maximum/minimum of the samples whose time lies between the two bounding crossings (inclusive), and tCrest/tTrough are the earliest times in that wave at which they are attained.", "quantifier": "all increasing time axes, signals and waves", "why_tests_cant": "Universal over all samples in all waves.", "anchors": ["deltares_wave_toolbox/cores/core_time.py:determine_params_individual_waves"]}
{"id": "C10", "title": "Wave analysis of a valid series never fails", "statement": "Constructing a Series (with its zero-down-crossing analysis) from a uniform increasing time axis with at least two samples and an equally long signal never raises, whatever the signal; every wave window contains a sample.", "quantifier": "all uniform axes with positive step accepted by the constructor, all signals", "why_tests_cant": "An IndexError on one unlucky signal is found only if that signal is tried.", "anchors": ["deltares_wave_toolbox/series.py:Series.__init__", "deltares_wave_toolbox/series.py:Series._determine_individual_waves", "deltares_wave_toolbox/cores/core_time.py:determine_params_individual_waves"]}
{"id": "C11", "title": "Scaling and shifting laws of wave-by-wave analysis", "statement": "Multiplying the signal by a positive factor multiplies every wave height, crest and trough by it and leaves crossing times and periods unchanged; shifting the time axis shifts all reported times and leaves heights and periods unchanged.", "quantifier": "all factors c > 0, all shifts, all series", "why_tests_cant": "Continuum of factors and series.", "anchors": ["deltares_wave_toolbox/cores/core_time.py:determine_zero_crossing", "deltares_wave_toolbox/cores/core_time.py:determine_params_individual_waves"]}
{"id": "C12", "title": "Mean of the highest fraction of the waves", "statement": "highest_waves_params / WaveHeights.highest_waves(p) with 0 <= p <= 1 return the mean height and mean period of the floor(n*p) highest waves, and (0, 0) if floor(n*p) = 0; p outside [0, 1] raises ValueError. The height result depends only on the multiset of heights.", "quantifier": "all wave sets, all fractions, every tie order", "why_tests_cant": "Unbounded wave sets and real fractions.", "anchors": ["deltares_wave_toolbox/cores/core_time.py:highest_waves_params", "deltares_wave_toolbox/series.py:WaveHeights.highest_waves"]}
{"id": "C13", "title": "Ordering of the mean of the highest waves", "statement": "For fractions p <= q selecting at least one wave, the mean of the highest p is at least the mean of the highest q; in particular mean height <= Hs = H(1/3) <= H(1/10) <= Hmax whenever defined.", "quantifier": "all wave sets and all pairs of fractions", "why_tests_cant": "Inequality over all wave sets.", "anchors": ["deltares_wave_toolbox/cores/core_time.py:highest_waves_params", "deltares_wave_toolbox/series.py:WaveHeights.get_Hs", "deltares_wave_toolbox/series.py:WaveHeights.get_Hmax"]}
{"id": "C14", "title": "Exceedance wave height", "statement": "exceedance_wave_height(h, p) with floor(n*p/100) = k >= 1 returns the k-th highest wave: at least k waves are as high and fewer than k are strictly higher; percentages outside [0,100] raise ValueError.", "quantifier": "all sorted wave sets and percentages", "why_tests_cant": "Unbounded wave sets and real percentages.", "anchors": ["deltares_wave_toolbox/cores/core_time.py:exceedance_wave_height", "deltares_wave_toolbox/series.py:WaveHeights.get_exceedance_waveheight"]}
{"id": "C15", "title": "Exceedance wave height decreases with the percentage", "statement": "A wave height that is exceeded less often is at least as high: for p <= q, exceedance_wave_height(h, p) >= exceedance_wave_height(h, q).", "quantifier": "all sorted sets of non-negative wave heights and all 0 <= p <= q <= 100", "why_tests_cant": "Universal over percentages, including those that select no wave.", "anchors": ["deltares_wave_toolbox/cores/core_time.py:exceedance_wave_height"]}
{"id": "C16", "title": "Unsorted input is rejected, sorted input accepted", "statement": "highest_waves_params and exceedance_wave_height raise ValueError exactly when a 1D height array is not in descending order (given valid p); arrays produced by sort_wave_params are always accepted.", "quantifier": "all height arrays", "why_tests_cant": "Universal over arrays.", "anchors": ["deltares_wave_toolbox/cores/core_time.py:highest_waves_params", "deltares_wave_toolbox/cores/core_time.py:exceedance_wave_height", "deltares_wave_toolbox/cores/core_time.py:sort_wave_params"]}
{"id": "C17", "title": "A WaveHeights object never corrupts its waves", "statement": "After any sequence of method calls (sort, getters, plots - including calls that raise) the object still holds the same multiset of (height, period) pairs and the same wave count.", "quantifier": "all histories of method calls on all objects with equally many heights and periods", "why_tests_cant": "Histories are unbounded; getters reorder the stored arrays as a side effect.", "anchors": ["deltares_wave_toolbox/series.py:WaveHeights"]}
{"id": "C18", "title": "Height statistics do not depend on the call history", "statement": "get_Hmax, get_Hrms, the height part of get_Hs / highest_waves, get_exceedance_waveheight and get_H2p_Rayleigh return the same value whatever methods were called before.", "quantifier": "all histories of method calls", "why_tests_cant": "Histories are unbounded.", "anchors": ["deltares_wave_toolbox/series.py:WaveHeights"]}
{"id": "C19", "title": "The significant wave period does not depend on the call history", "statement": "get_Hs()[1] and highest_waves(p)[1] return the same value whatever methods were called before (calling get_Hs twice gives the same period).", "quantifier": "all histories of method calls, all wave sets including ones with equal heights", "why_tests_cant": "Depends on tie order, which reverses at each sort; needs reasoning over histories.", "anchors": ["deltares_wave_toolbox/series.py:WaveHeights.get_Hs", "deltares_wave_toolbox/series.py:WaveHeights.highest_waves", "deltares_wave_toolbox/cores/core_time.py:sort_wave_params"]}
{"id": "C20", "title": "Hrms, Hmax and H2% bounds", "statement": "0 <= Hrms <= Hmax for non-negative heights, mean height <= Hrms, and get_H2p_Rayleigh returns the height whose exceedance probability exp(-2 (H/Hs)^2) is exactly 2%.", "quantifier": "all wave sets of non-negative heights", "why_tests_cant": "Inequalities over all wave sets; transcendental identity.", "anchors": ["deltares_wave_toolbox/series.py:WaveHeights.get_Hrms", "deltares_wave_toolbox/series.py:WaveHeights.get_Hmax", "deltares_wave_toolbox/series.py:WaveHeights.get_H2p_Rayleigh"]}
{"id": "C21", "title": "Series only accepts equidistant increasing time axes", "statement": "Series(time, x) raises AssertionError unless the time axis is increasing with (nearly) constant step; a user can rely on an accepted axis being increasing.", "quantifier": "all time axes", "why_tests_cant": "The check is a variance/mean inequality whose adequacy is a statement about all axes.", "anchors": ["deltares_wave_toolbox/series.py:Series.__init__"]}
{"id": "C22", "title": "The generic uniformity check accepts only increasing uniform vectors", "statement": "monotonic_increasing_constant_step(x) is True only if all steps are positive and equal up to the tolerance 1e6*eps; exactly uniform increasing vectors are always accepted.", "quantifier": "all vectors of length >= 2", "why_tests_cant": "The tolerance comparison must be two-sided for all vectors.", "anchors": ["deltares_wave_toolbox/cores/core_engine.py:monotonic_increasing_constant_step"]}
{"id": "C23", "title": "Nearest grid index", "statement": "approx_array_index(a, v) returns an index whose entry is at least as close to v as every other entry, and the first such index.", "quantifier": "all non-empty arrays and values", "why_tests_cant": "Universal over arrays and values.", "anchors": ["deltares_wave_toolbox/cores/core_engine.py:approx_array_index"]}
{"id": "C24", "title": "Fourier transform round trip", "statement": "freq2time(time2freq(t, x)[1]) returns x for every real signal, and time2freq(t, freq2time(X)) returns X for every conjugate-symmetric spectrum X.", "quantifier": "all signals of all lengths >= 2 (exact arithmetic)", "why_tests_cant": "All lengths (even and odd) and signals; one numeric test covers one length.", "anchors": ["deltares_wave_toolbox/cores/core_spectral.py:time2freq", "deltares_wave_toolbox/cores/core_spectral.py:freq2time"]}
{"id": "C25", "title": "Folding and unfolding are inverse", "statement": "unfold_spectrum applied to the result of time2freq_nyquist reproduces the full transform and frequency axis of time2freq, for both even and odd numbers of samples, so freq2time of it returns the original signal.", "quantifier": "all real signals of all lengths >= 2", "why_tests_cant": "Even/odd index arithmetic must be right for all lengths.", "anchors": ["deltares_wave_toolbox/cores/core_spectral.py:time2freq_nyquist", "deltares_wave_toolbox/cores/core_spectral.py:unfold_spectrum", "deltares_wave_toolbox/cores/core_spectral.py:freq2time"]}
{"id": "C26", "title": "Frequency axis of the transform", "statement": "time2freq returns nT frequencies k/(nT*dt); time2freq_nyquist returns floor(nT/2)+1 of them, none above the Nyquist frequency 1/(2 dt), the last one equal to it exactly when nT is even, and isOdd tells the parity of nT.", "quantifier": "all series lengths and time steps", "why_tests_cant": "Off-by-one at even/odd lengths.", "anchors": ["deltares_wave_toolbox/cores/core_spectral.py:time2freq", "deltares_wave_toolbox/cores/core_spectral.py:time2freq_nyquist"]}
{"id": "C27", "title": "Energy of the raw spectrum equals the variance of the signal", "statement": "With dfDesired = 0 the sum of compute_spectrum_time_series times df equals the variance of the (zero-mean) signal.", "quantifier": "all zero-mean signals of all lengths", "why_tests_cant": "Parseval identity over all signals, including the Nyquist bin for even lengths.", "anchors": ["deltares_wave_toolbox/cores/core_spectral.py:compute_spectrum_time_series"]}
{"id": "C28", "title": "Band averaging conserves energy and frequency spacing", "statement": "frequency_averaging with factor n returns floor(N/n) bins; each is the mean of its n fine bins for both frequency and density, so the total density over the covered fine bins times the fine spacing is conserved, the result is non-negative for non-negative input, and on a uniform axis the coarse axis is uniform with n times the spacing. dfDesired = 0 leaves the spectrum unchanged. If the first two frequencies are equal, a positive dfDesired gives two empty arrays and a negative one changes nothing; if the axis starts with a negative step a dfDesired that is not negative changes nothing; an axis of one point (with dfDesired not 0) or an empty spectrum raises IndexError.", "quantifier": "all spectra, all axes and all dfDesired", "why_tests_cant": "All bin counts including non-divisible ones.", "anchors": ["deltares_wave_toolbox/cores/core_spectral.py:frequency_averaging"]}
{"id": "C29", "title": "Two routes to the raw spectrum agree", "statement": "compute_spectrum_time_series(t, x, df) equals compute_spectrum_freq_series(f, X, len(t), df) with (f, X) from time2freq_nyquist(t, x).", "quantifier": "all series and dfDesired", "why_tests_cant": "Universal over series.", "anchors": ["deltares_wave_toolbox/cores/core_spectral.py:compute_spectrum_time_series", "deltares_wave_toolbox/cores/core_spectral.py:compute_spectrum_freq_series"]}
{"id": "C30", "title": "Coherence lies between 0 and 1", "statement": "coherence(f, X1, X2, df) returns values in [0, 1] at every frequency ('the coherence is real, and always between 0 and 1'), is symmetric in the two signals, and is 1 for X1 = X2 wherever the band energy is not negligible.", "quantifier": "all complex spectra, all axes whose first step is positive and all dfDesired", "why_tests_cant": "Cauchy-Schwarz over all spectra and band widths.", "anchors": ["deltares_wave_toolbox/cores/core_spectral.py:coherence"]}
{"id": "C31", "title": "Coherence measures phase relation", "statement": "The coherence of two signals with unrelated phases within a band is below that of two signals with a constant phase relation (magnitude-squared coherence takes the modulus after averaging).", "quantifier": "all pairs of spectra", "why_tests_cant": "Requires showing dependence/independence on phases for all spectra.", "anchors": ["deltares_wave_toolbox/cores/core_spectral.py:coherence"]}
{"id": "C32", "title": "Band filter keeps exactly the requested band", "statement": "bandpassfilter / get_bandpassfilter(fmin, fmax) keeps exactly the Fourier components with fmin <= f <= fmax and removes the others.", "quantifier": "all signals and band limits", "why_tests_cant": "Index arithmetic at both ends for all limits.", "anchors": ["deltares_wave_toolbox/cores/core_spectral.py:applybandfilter", "deltares_wave_toolbox/cores/core_spectral.py:bandpassfilter", "deltares_wave_toolbox/series.py:Series.get_bandpassfilter"]}
{"id": "C33", "title": "Band filter is a linear projection that removes the mean", "statement": "bandpassfilter is linear in the signal, applying it twice equals applying it once, the output has zero mean, its mean square never exceeds that of the input, and with limits covering the whole frequency axis it returns the signal minus its mean.", "quantifier": "all signals of all lengths, all band limits", "why_tests_cant": "Universal over signals, lengths and limits.", "anchors": ["deltares_wave_toolbox/cores/core_spectral.py:bandpassfilter"]}
{"id": "C34", "title": "Low-pass and high-pass parts add up to the signal", "statement": "For a cutoff fc, bandpassfilter(0, fc) + bandpassfilter(fc, inf) + mean = signal.", "quantifier": "all signals and cutoffs", "why_tests_cant": "Universal over cutoffs; a single lost bin is invisible in a tolerance test.", "anchors": ["deltares_wave_toolbox/cores/core_spectral.py:bandpassfilter", "deltares_wave_toolbox/cores/core_spectral.py:applybandfilter"]}
{"id": "C35", "title": "Synthesised series: time axis", "statement": "spectrum2timeseries(f, S, t0, t1, dt) with dt > 0, t1 >= t0 returns a time axis starting at t0 with step dt, whose last point is the first grid point at or after t1, and a signal of the same length.", "quantifier": "all t0, t1, dt", "why_tests_cant": "ceil/arange boundary for all real arguments.", "anchors": ["deltares_wave_toolbox/cores/core_spectral.py:spectrum2timeseries"]}
{"id": "C36", "title": "Synthesised series: energy does not depend on the random phases", "statement": "For every choice of random phases the synthesised signal over its full (even) period has zero mean and mean square equal to the sum of the interpolated spectrum times df (the Nyquist bin excepted).", "quantifier": "all spectra, durations and all phase draws (seeds)", "why_tests_cant": "Seeds/phases are unbounded; a test fixes one draw.", "anchors": ["deltares_wave_toolbox/cores/core_spectral.py:spectrum2timeseries", "deltares_wave_toolbox/spectrum.py:Spectrum.create_series"]}
{"id": "C37", "title": "Seeded synthesis is reproducible", "statement": "With seed >= 0 spectrum2timeseries returns the same result whatever happened before to the global random generator; with seed < 0 it only advances the generator.", "quantifier": "all generator states/histories and all arguments", "why_tests_cant": "Histories of the global generator are unbounded.", "anchors": ["deltares_wave_toolbox/cores/core_spectral.py:spectrum2timeseries", "deltares_wave_toolbox/cores/core_spectral.py:spectrum2timeseries_object"]}
{"id": "C38", "title": "Spectral moments are linear and non-negative", "statement": "compute_moment is additive in the spectrum and scales with it, and is non-negative for a non-negative spectrum on a uniform axis of positive frequencies, for every order and frequency range.", "quantifier": "all spectra, moment orders and ranges", "why_tests_cant": "Simpson weights for all point counts (even/odd).", "anchors": ["deltares_wave_toolbox/cores/core_wavefunctions.py:compute_moment"]}
{"id": "C39", "title": "Spectral moments are exact integrals for quadratic integrands", "statement": "For a spectrum with quadratic f^m S(f) the moment over any range of at least three grid points equals the exact integral between the grid points selected by the range, on any increasing axis.", "quantifier": "all quadratics, increasing axes, ranges", "why_tests_cant": "Universal over axes, point counts and polynomials.", "anchors": ["deltares_wave_toolbox/cores/core_wavefunctions.py:compute_moment"]}
{"id": "C40", "title": "High-frequency tail of the moments", "statement": "For fmax beyond the last frequency (including infinity) compute_moment adds exactly the integral of S_end (f/f_end)^(-5) f^m from f_end to fmax, for orders m <= 3.", "quantifier": "all spectra, orders m <= 3, all fmax > f_end and fmax = inf", "why_tests_cant": "Improper integrals over all parameters.", "anchors": ["deltares_wave_toolbox/cores/core_wavefunctions.py:compute_moment"]}
{"id": "C41", "title": "Moment range is honoured", "statement": "compute_moment(f, S, m, fmin, fmax) depends only on spectral values between the grid points nearest to fmin and fmax (such points exist for every range), and the default range (-1, -1) equals the full axis. If only one of the two bounds is given (the other left at -1), it is ignored and the full axis is used (finding).", "quantifier": "all axes, spectra, ranges", "why_tests_cant": "Universal over ranges.", "anchors": ["deltares_wave_toolbox/cores/core_wavefunctions.py:compute_moment", "deltares_wave_toolbox/cores/core_engine.py:approx_array_index"]}
{"id": "C42", "title": "JONSWAP / Pierson-Moskowitz spectra have the prescribed wave height", "statement": "create_spectrum_jonswap(f, fp, hm0, gamma) integrates to the prescribed Hm0: Spectrum.get_Hm0() of the result equals hm0 (l_fmax = 0), and with l_fmax = 1 the moment up to infinity does.", "quantifier": "all uniform axes, fp, hm0 > 0, gamma > 0", "why_tests_cant": "Universal over axes and parameters.", "anchors": ["deltares_wave_toolbox/cores/core_wavefunctions.py:create_spectrum_jonswap", "deltares_wave_toolbox/cores/core_wavefunctions.py:create_spectrum_piersonmoskowitz", "deltares_wave_toolbox/spectrum.py:Spectrum.get_Hm0"]}
{"id": "C43", "title": "JONSWAP spectrum is a valid spectrum with its peak at fp", "statement": "The created density is non-negative, zero for f <= 0, and for gamma >= 1 no grid frequency has a density above the value at fp; if fp is on the grid, get_Tp returns 1/fp. Pierson-Moskowitz equals JONSWAP with gamma = 1.", "quantifier": "all axes and parameters", "why_tests_cant": "Calculus fact over all frequencies.", "anchors": ["deltares_wave_toolbox/cores/core_wavefunctions.py:create_spectrum_jonswap", "deltares_wave_toolbox/cores/core_wavefunctions.py:create_spectrum_piersonmoskowitz", "deltares_wave_toolbox/spectrum.py:Spectrum.get_Tp"]}
{"id": "C44", "title": "Ordering of mean wave periods", "statement": "On a uniform axis of positive frequencies with a non-negative, non-zero spectrum, Tm-1,0 >= Tm01 >= Tm02 > 0.", "quantifier": "all spectra and axes", "why_tests_cant": "Inequality over all spectra.", "anchors": ["deltares_wave_toolbox/cores/core_wavefunctions.py:compute_spectrum_params", "deltares_wave_toolbox/spectrum.py:Spectrum.get_Tmm10", "deltares_wave_toolbox/spectrum.py:Spectrum.get_Tm01", "deltares_wave_toolbox/spectrum.py:Spectrum.get_Tm02"]}
{"id": "C45", "title": "Spectrum getters agree with compute_spectrum_params", "statement": "For a spectrum with non-negligible energy Hm0, Tp, Tps, Tmm10, Tm01, Tm02 returned by the Spectrum getters equal the corresponding outputs of compute_spectrum_params for the same range; for negligible energy compute_spectrum_params returns NaN for all six.", "quantifier": "all spectra and ranges", "why_tests_cant": "Universal over spectra and ranges.", "anchors": ["deltares_wave_toolbox/cores/core_wavefunctions.py:compute_spectrum_params", "deltares_wave_toolbox/spectrum.py:Spectrum"]}
{"id": "C46", "title": "Peak period", "statement": "get_Tp returns the inverse of a frequency in [fmin, fmax] at which the density is maximal among all grid frequencies in the range, the highest such frequency in case of ties.", "quantifier": "all spectra and ranges", "why_tests_cant": "Universal over spectra.", "anchors": ["deltares_wave_toolbox/spectrum.py:Spectrum.get_Tp", "deltares_wave_toolbox/cores/core_wavefunctions.py:compute_spectrum_params"]}
{"id": "C47", "title": "Smoothed peak period stays next to the peak", "statement": "compute_tps returns a positive period whose frequency is within half a frequency step of the highest grid point (exactly midway for two equal neighbouring maxima), and does not change when the spectrum is multiplied by a positive factor.", "quantifier": "all uniform axes and spectra", "why_tests_cant": "Universal; includes maxima at the edges of the axis.", "anchors": ["deltares_wave_toolbox/cores/core_wavefunctions.py:compute_tps"]}
{"id": "C48", "title": "Battjes-Groenendijk distribution is consistent", "statement": "When compute_BattjesGroenendijk_wave_height_distribution returns, the normalised second moment is within the tolerance of 1, the two Weibull branches give the same exceedance probability at the transition height, the first point is (0, 1) and the last exceedance probability is 1/nwave.", "quantifier": "all wave heights, positive depths, slopes, wave counts, tolerances for which the iteration stops (other depths: C171)", "why_tests_cant": "Iteration length is unbounded; transcendental identities.", "anchors": ["deltares_wave_toolbox/cores/core_wavefunctions.py:compute_BattjesGroenendijk_wave_height_distribution"]}
{"id": "C49", "title": "Deep- and shallow-water options of the dispersion solver always raise", "statement": "The documented deep- and shallow-water options of disper are unusable (finding): although the documentation promises w^2/g for h = inf and w/sqrt(g h) for a negative depth, every call with an infinite or a negative depth raises UnboundLocalError and never returns a number.", "quantifier": "all frequencies and depths", "why_tests_cant": "Universal over inputs; no test calls these branches.", "anchors": ["deltares_wave_toolbox/cores/core_dispersion.py:disper"]}
{"id": "C50", "title": "Dispersion solver is odd, dimensionally consistent and zero at zero frequency", "statement": "For h > 0: disper(-w) = -disper(w), disper(0) = 0, and k*h depends on w, h, g only through w^2 h/g (and the sign of w).", "quantifier": "all frequencies, depths and g > 0", "why_tests_cant": "Universal over reals.", "anchors": ["deltares_wave_toolbox/cores/core_dispersion.py:disper"]}
{"id": "C51", "title": "Dispersion iteration solves the linear dispersion relation", "statement": "The equation q tanh q = w^2 h/g has exactly one positive solution for w != 0, and an iterate of disper is left unchanged by the iteration if and only if it is that solution.", "quantifier": "all frequencies and depths", "why_tests_cant": "Convergence target over a continuum.", "anchors": ["deltares_wave_toolbox/cores/core_dispersion.py:disper"]}
{"id": "C52", "title": "Wave decomposition recovers incident and reflected waves exactly", "statement": "If the gauge signals are the superposition of an incident and a reflected linear wave field, then at every frequency whose scaled determinant exceeds detLim decompose_linear_ZS returns exactly the incident and reflected Fourier components at the first gauge; if all components are of this kind the returned time series are the incident and reflected series.", "quantifier": "all gauge layouts, weights, wave numbers, amplitudes, lengths", "why_tests_cant": "Universal over gauge configurations and signals.", "anchors": ["deltares_wave_toolbox/cores/core_wave_decomposition.py:decompose_linear_ZS"]}
{"id": "C53", "title": "Wave decomposition discards ill-conditioned frequencies and the mean", "statement": "Frequencies whose scaled determinant does not exceed detLim contribute nothing; in particular for detLim >= 0 both returned series have zero mean.", "quantifier": "all gauge layouts and signals", "why_tests_cant": "Universal over configurations.", "anchors": ["deltares_wave_toolbox/cores/core_wave_decomposition.py:decompose_linear_ZS"]}
{"id": "C54", "title": "Wave decomposition input checks", "statement": "decompose_linear_ZS raises AssertionError for inconsistent dimensions, fewer than two gauges, or gauges not in increasing order, and accepts consistent arguments. The documented checks on the weights (each in (0, 1], sum at least 2) are not enforced (finding): weights outside (0, 1] and sums between 1 and 2 are accepted.", "quantifier": "all inputs", "why_tests_cant": "The guards are boolean conditions over all weight vectors.", "anchors": ["deltares_wave_toolbox/cores/core_wave_decomposition.py:decompose_linear_ZS"]}
{"id": "C55", "title": "Spectrum getters do not depend on the call history", "statement": "get_Hm0, get_Tp, get_Tps, get_Tmm10, get_Tm01, get_Tm02 return a value that depends only on the spectrum and the requested range, whatever was called before.", "quantifier": "all histories of method calls on a Spectrum", "why_tests_cant": "Histories are unbounded; methods write cached attributes.", "anchors": ["deltares_wave_toolbox/spectrum.py:Spectrum"]}
{"id": "C56", "title": "Steepness and HF/LF parameters honour the requested range", "statement": "get_s0p(fmin, fmax), get_smm10(fmin, fmax), get_smm10_HF(fmin, fmax), and the default cut-off of get_Hm0_HF/LF and get_Tmm10_HF/LF depend only on the spectrum and the arguments, not on earlier calls.", "quantifier": "all histories of method calls on a Spectrum", "why_tests_cant": "Cached attributes make results depend on unbounded histories.", "anchors": ["deltares_wave_toolbox/spectrum.py:Spectrum.get_s0p", "deltares_wave_toolbox/spectrum.py:Spectrum.get_smm10", "deltares_wave_toolbox/spectrum.py:Spectrum.get_smm10_HF", "deltares_wave_toolbox/spectrum.py:Spectrum.get_Hm0_HF", "deltares_wave_toolbox/spectrum.py:Spectrum.get_Tmm10_LF"]}
{"id": "C57", "title": "Spectrum constructor accepts only consistent spectra", "statement": "Spectrum(f, S) raises unless f has at least two strictly increasing entries and S has as many entries as f; otherwise it stores exactly f and S and reports nf = len(f).", "quantifier": "all inputs", "why_tests_cant": "Universal over arrays.", "anchors": ["deltares_wave_toolbox/spectrum.py:Spectrum.__init__"]}
{"id": "C58", "title": "Welch spectrum segment settings", "statement": "Series.get_spectrum(dfDesired) uses segments of round(1/(dt*dfDesired)) samples with half overlap, so the frequency resolution is dfDesired, and never fails for a valid series; explicit nperseg/noverlap/nfft values are passed on unchanged.", "quantifier": "all series lengths, time steps, dfDesired and explicit settings", "why_tests_cant": "Rounding and defaulting rules over all integers and reals.", "anchors": ["deltares_wave_toolbox/series.py:Series.get_spectrum", "deltares_wave_toolbox/cores/core_spectral.py:compute_spectrum_welch_wrapper"]}
{"id": "C59", "title": "Filtering small waves", "statement": "_determine_individual_waves(minimum_wave=m) keeps exactly the waves with height >= m, in order, with all their parameters, and updates the object's wave arrays and count accordingly.", "quantifier": "all series and thresholds", "why_tests_cant": "Universal over series.", "anchors": ["deltares_wave_toolbox/series.py:Series._determine_individual_waves"]}
{"id": "C60", "title": "Skewness and asymmetry laws", "statement": "get_skewness is unchanged when a constant is added to the signal or the signal is multiplied by a positive factor or time-reversed, and changes sign when the signal is negated; get_asymmetry is unchanged by a positive factor and changes sign under negation and time reversal.", "quantifier": "all non-constant signals", "why_tests_cant": "Universal over signals.", "anchors": ["deltares_wave_toolbox/series.py:Series.get_skewness", "deltares_wave_toolbox/series.py:Series.get_asymmetry"]}
{"id": "C61", "title": "Directional period TpD", "statement": "tpd(f, S) equals m0/m1 over the smallest grid interval containing all frequencies whose density is at least 80% of the maximum, and lies between the inverse of the interval's end frequencies.", "quantifier": "all spectra", "why_tests_cant": "Universal over spectra.", "anchors": ["deltares_wave_toolbox/cores/core_wavefunctions.py:tpd"]}
{"id": "C62", "title": "Welch spectrum laws", "statement": "The Welch spectrum returned by compute_spectrum_welch_wrapper / Series.get_spectrum has non-negative densities; sum(S)*df equals the average over the segments of the window-weighted variance of the segment about its own mean; adding a constant to the signal changes nothing; multiplying the signal by c multiplies the densities by c^2; a constant signal gives zeros.", "quantifier": "all signals, time steps, segment lengths, overlaps, transform lengths", "why_tests_cant": "Universal over signals and settings (Parseval identity).", "anchors": ["deltares_wave_toolbox/cores/core_spectral.py:compute_spectrum_welch_wrapper", "deltares_wave_toolbox/series.py:Series.get_spectrum"]}
{"id": "C63", "title": "Dispersion solver is accurate after its two iterations", "statement": "For h > 0, g > 0 and w != 0 with w^2 h/g >= 1e-8, disper never produces NaN, has the sign of w, and |disper(w)| equals the unique positive solution k of w^2 = g k tanh(k h) up to a relative error of 1e-13 (in exact arithmetic). The 2.5e-16 claimed by the documentation is not reached for all inputs. Arrays are treated element by element; g defaults to 9.81.", "quantifier": "all frequencies above the threshold, all depths, all g > 0", "why_tests_cant": "A convergence bound over a continuum of depths and frequencies.", "anchors": ["deltares_wave_toolbox/cores/core_dispersion.py:disper"]}
{"id": "C64", "title": "Dispersion solver is wrong for very low frequencies", "statement": "For 0 < w^2 h/g < 1e-8 the wave number returned by disper does not solve the dispersion relation, contrary to 'for all k*h' in the documentation (finding): w^2 h/g is clamped, all such frequencies of one sign get the same wave number, and the factor by which it is wrong is unbounded.", "quantifier": "all low frequencies and depths", "why_tests_cant": "Tests sample ordinary frequencies; the failure is in a limit.", "anchors": ["deltares_wave_toolbox/cores/core_dispersion.py:disper"]}
{"id": "C65", "title": "Wave decomposition is the weighted least-squares fit", "statement": "For arbitrary gauge signals, non-negative weights and detLim >= 0, decompose_linear_ZS succeeds and every resolved component below the Nyquist frequency of the two returned series is the pair of amplitudes minimising the weighted squared misfit of an incident plus a reflected wave at the gauges.", "quantifier": "all signals, gauge layouts and non-negative weights", "why_tests_cant": "Optimality over all amplitude pairs and signals.", "anchors": ["deltares_wave_toolbox/cores/core_wave_decomposition.py:decompose_linear_ZS"]}
{"id": "C66", "title": "Wave decomposition of physical waves is accurate", "statement": "If the waves at the gauges travel with the exact wave numbers of the linear dispersion relation, the recovered components differ from the true ones by at most 1e-13 times W/(2 detLim) times the amplitudes times sum w k (x - x_1).", "quantifier": "all gauge layouts, depths, amplitudes, phases above the low-frequency threshold", "why_tests_cant": "Error bound over a continuum.", "anchors": ["deltares_wave_toolbox/cores/core_wave_decomposition.py:decompose_linear_ZS", "deltares_wave_toolbox/cores/core_dispersion.py:disper"]}
{"id": "C67", "title": "Wave decomposition in deep water and with any detLim", "statement": "decompose_linear_ZS raises UnboundLocalError for infinite depth (documented as possible for disper), and a negative detLim turns the whole result into NaN (findings).", "quantifier": "all signals and gauge layouts", "why_tests_cant": "Universal over inputs.", "anchors": ["deltares_wave_toolbox/cores/core_wave_decomposition.py:decompose_linear_ZS"]}
{"id": "C68", "title": "Series wrapper of the decomposition", "statement": "decompose_linear_ZS_series equals decompose_linear_ZS on the matrix of the signals and returns two Series on the time axis of the first series; more series than locations raise an error. Fewer series than locations raise no error (finding): the missing gauges count as gauges at which the surface is flat.", "quantifier": "all lists of series", "why_tests_cant": "Universal over lists and signals.", "anchors": ["deltares_wave_toolbox/cores/core_wave_decomposition.py:decompose_linear_ZS_series"]}
{"id": "C69", "title": "Singular gauge spacing", "statement": "With two gauges, a component whose half wave length divides the gauge distance is discarded from both results for every detLim >= 0.", "quantifier": "all two-gauge layouts and signals", "why_tests_cant": "Universal over layouts.", "anchors": ["deltares_wave_toolbox/cores/core_wave_decomposition.py:decompose_linear_ZS"]}
{"id": "C70", "title": "Series: analyses do not depend on the call history", "statement": "Whatever methods of a Series were called before, in whatever order and with whatever arguments (including calls that raised), the time axis and the samples are unchanged, every analysis method (crossings, skewness, asymmetry, spectra, filter, Fourier components, max/min/mean/var, re-analysis) returns what it returns on the fresh object, and the wave heights and periods held by the object are those of the last successful analysis, each height with its period.", "quantifier": "all series, all finite sequences of method calls, all arguments", "why_tests_cant": "Universal over call histories.", "anchors": ["deltares_wave_toolbox/series.py:Series", "deltares_wave_toolbox/series.py:WaveHeights"]}
{"id": "C71", "title": "Series: elementary statistics", "statement": "min <= mean <= max are samples/averages of the signal, var is between 0 and (max-mean)(mean-min) and is 0 exactly for a constant signal; every wave found has its crest and trough among the samples, so no wave is higher than max-min.", "quantifier": "all series, all crossing types and minimum heights", "why_tests_cant": "Universal over signals.", "anchors": ["deltares_wave_toolbox/series.py:Series.max", "deltares_wave_toolbox/series.py:Series.min", "deltares_wave_toolbox/series.py:Series.mean", "deltares_wave_toolbox/series.py:Series.var"]}
{"id": "C72", "title": "Series: band-pass filter", "statement": "get_bandpassfilter of a valid series never fails and returns a valid Series on the same time axis with mean 0 and variance not above that of the original, whatever the band.", "quantifier": "all valid series, all bands", "why_tests_cant": "Universal over signals and bands.", "anchors": ["deltares_wave_toolbox/series.py:Series.get_bandpassfilter"]}
{"id": "C73", "title": "Series: the stored crossings delimit the waves", "statement": "The crossing times kept by the object are exactly those at which a kept wave starts, plus the last one; without a minimum height consecutive stored crossings differ by the period of the corresponding wave, but with a minimum height that removes a wave they need not (finding).", "quantifier": "all series, all minimum heights", "why_tests_cant": "Universal over signals.", "anchors": ["deltares_wave_toolbox/series.py:Series._determine_individual_waves"]}
{"id": "C74", "title": "Series: waves with a low-frequency cut-off", "statement": "With fcutoff, the crossings are those of the signal minus its part below the cut-off, the waves between them are measured in the full signal, exactly those of at least the minimum height are kept, and the call never fails. Contrary to the documented note, troughs can then be positive and heights 0 (finding).", "quantifier": "all valid series, cut-offs, minimum heights", "why_tests_cant": "Universal over signals and cut-offs.", "anchors": ["deltares_wave_toolbox/series.py:Series._determine_individual_waves"]}
{"id": "C75", "title": "Spectrum -> random series -> spectrum", "statement": "For every valid Spectrum with non-negative densities and every random number generator, create_series followed by get_spectrum_raw(0) on the series, with an even number of samples, returns a spectrum whose density at every harmonic below the Nyquist frequency is the (linearly interpolated) density of the original spectrum, whatever the random phases; the density at frequency 0 is 0, and at the Nyquist frequency it lies between 0 and the original density.", "quantifier": "all spectra, all random phases, all even sample counts", "why_tests_cant": "Universal over spectra and random phases.", "anchors": ["deltares_wave_toolbox/spectrum.py:Spectrum.create_series", "deltares_wave_toolbox/series.py:Series.get_spectrum_raw"]}
{"id": "C76", "title": "WaveHeights: exceedance plots", "statement": "plot_exceedance_waveheight draws one point per wave, heights non-increasing, probabilities from 0 (highest wave, invisible on the logarithmic axis: finding) to 1 in equal steps, each between the fraction of strictly higher waves and the fraction of waves at least as high. plot_exceedance_waveheight_Rayleigh draws the k-th highest wave at exceedance probability k/n on an axis where probability P is at sqrt(-ln P) (ticks included), heights divided by Hs if normalize; its theoretical curve is at the same abscissae but shows the Rayleigh heights of probability k/(n+1), so it lies strictly above the Rayleigh line (finding). With plot_BG the Battjes-Groenendijk points are added (ValueError without hm0). No plot loses a wave or separates a height from its period.", "quantifier": "all sets of waves, all argument combinations, all sorting algorithms", "why_tests_cant": "Universal over wave sets and ties.", "anchors": ["deltares_wave_toolbox/series.py:WaveHeights.plot_exceedance_waveheight", "deltares_wave_toolbox/series.py:WaveHeights.plot_exceedance_waveheight_Rayleigh"]}
{"id": "C77", "title": "Series: raw spectrum in closed form", "statement": "get_spectrum_raw(df) of a valid series returns the spectrum whose bins are the block means (m bins per block, m the rounded ratio of df and 1/(n dt), at least 1) of the periodogram 2 dt/n |sum x_j exp(-2 pi i j k/n)|^2, k = 0..n/2 (zero and Nyquist bins are treated like the others), on a uniform frequency axis with step m/(n dt), when at least two coarse bins remain; otherwise it raises IndexError.", "quantifier": "all valid series, all resolutions df", "why_tests_cant": "Universal over signals and resolutions.", "anchors": ["deltares_wave_toolbox/series.py:Series.get_spectrum_raw"]}
{"id": "C78", "title": "Series.plot and Spectrum.plot show the data", "statement": "Series.plot of a new series shows the samples against time and, if asked for, exactly one dot per zero down-crossing at its interpolated time. Spectrum.plot, after any sequence of calls, shows the densities and at most one line each for Tps, Tmm10 and Tm02; every line is at 1/T for a T that the fresh spectrum returns for a range asked for earlier, and a finite non-zero period just returned by its getter is shown until that getter is called again.", "quantifier": "all series, all spectra, all call histories", "why_tests_cant": "Universal over call histories.", "anchors": ["deltares_wave_toolbox/series.py:Series.plot", "deltares_wave_toolbox/spectrum.py:Spectrum.plot"]}
{"id": "C79", "title": "Up- and down-crossings alternate", "statement": "For a signal without exactly-zero samples on a uniform axis, determine_zero_crossing finds exactly one up-crossing between any two successive down-crossings, the numbers of up- and down-crossings differ by at most one (exactly by which sides of zero the record starts and ends on), and the up-crossings of the time-reversed signal are the mirrored down-crossings of the signal. With exactly-zero samples this fails: a signal that is never positive but touches zero n times is reported as n down-crossing waves and no up-crossing.", "quantifier": "all signals, all uniform axes, all numbers of touches", "why_tests_cant": "Ranges over all sign patterns of arbitrarily long signals.", "anchors": ["deltares_wave_toolbox/cores/core_time.py:determine_zero_crossing"]}
{"id": "C80", "title": "Spectrum: scaling of the energy", "statement": "If all densities of a valid Spectrum are multiplied by c > 0 then, after any sequence of calls, every getter other than get_Tps/get_s0p returns the old value times sqrt(c) (wave heights, steepnesses) or the old value (periods), and raises or returns NaN exactly when it did before. get_Tps is unchanged as long as the largest selected density is at least 1e-10 before and after; for small enough c it returns the sentinel -999 instead (finding).", "quantifier": "all spectra, all c > 0, all frequency bounds, all call histories", "why_tests_cant": "Universal over spectra, factors and histories of cached calls.", "anchors": ["deltares_wave_toolbox/spectrum.py:Spectrum", "deltares_wave_toolbox/cores/core_wavefunctions.py:compute_moment", "deltares_wave_toolbox/cores/core_wavefunctions.py:compute_tps"]}
{"id": "C81", "title": "Energy balance when a spectrum is cut in two", "statement": "compute_moment over [fmin,fmax] is the sum of the moments over [fmin,fc] and [fc,fmax] (every order, with or without tail, raising exactly when a part raises) whenever the grid point nearest to fc lies an even number of steps above the lowest one used and is not the last but one of the range; hence Hm0^2 = Hm0_LF^2 + Hm0_HF^2 for the getters after any call histories, also for the default cut-off 0.45/Tm-1,0. With an odd number of steps the parts do not add up (finding: part of the energy is lost or counted double).", "quantifier": "all spectra, orders, ranges, cut-offs and histories", "why_tests_cant": "Universal over grids, densities and cut positions; parity-dependent.", "anchors": ["deltares_wave_toolbox/cores/core_wavefunctions.py:compute_moment", "deltares_wave_toolbox/spectrum.py:Spectrum.get_Hm0_LF", "deltares_wave_toolbox/spectrum.py:Spectrum.get_Hm0_HF"]}
{"id": "C82", "title": "Mean periods lie within the band", "statement": "On a uniform axis of positive frequencies and for non-negative densities with energy in the range, 1/(highest frequency used) <= Tm02 <= Tm01 <= Tm-1,0 <= 1/(lowest frequency used), where the lowest/highest frequencies are the grid points nearest to the bounds, or the upper bound itself when it lies beyond the axis (tail); with an infinite upper bound only the upper inequalities. After any call history.", "quantifier": "all spectra, ranges and histories", "why_tests_cant": "Universal over spectra and ranges.", "anchors": ["deltares_wave_toolbox/spectrum.py:Spectrum.get_Tmm10", "deltares_wave_toolbox/spectrum.py:Spectrum.get_Tm01", "deltares_wave_toolbox/spectrum.py:Spectrum.get_Tm02"]}
{"id": "C83", "title": "Series.get_crossing is exact", "statement": "get_crossing of a series with a uniform time axis returns for 'down' (any letter case) the interpolated zeros of exactly the down-going sign changes, for 'up' those of the up-going ones, increasing, together with the number of waves between them; any other type raises ValueError. The crossings stored at construction are those of get_crossing('down').", "quantifier": "all series on uniform axes, all strings", "why_tests_cant": "Ranges over all signals and all strings.", "anchors": ["deltares_wave_toolbox/series.py:Series.get_crossing", "deltares_wave_toolbox/cores/core_time.py:determine_zero_crossing"]}
{"id": "C84", "title": "create_series draws from the global generator without reseeding", "statement": "create_series of a valid spectrum with non-negative densities uses as phases 2 pi times the next numbers of the global random generator in its current state (one per two samples, no reseeding), leaves the generator after them, and returns the random-phase sum of the interpolated density.", "quantifier": "all spectra, all generators and generator states, all time ranges", "why_tests_cant": "Universal over generator states.", "anchors": ["deltares_wave_toolbox/spectrum.py:Spectrum.create_series", "deltares_wave_toolbox/cores/core_spectral.py:spectrum2timeseries"]}
{"id": "C85", "title": "Exact acceptance tests for axes", "statement": "Series(t, x) on 1D arrays raises AssertionError exactly when the lengths differ, there are fewer than two samples, or the variance of the steps is not below a hundredth of the mean step. This test depends on the unit of time: every axis ending later than it starts passes in a large enough unit and every unequal axis is rejected in a small enough one (finding). monotonic_increasing_constant_step answers True exactly when every step is positive and exceeds the first by less than 1e6 machine epsilons.", "quantifier": "all axes, all signals, all units", "why_tests_cant": "An equivalence over all real axes.", "anchors": ["deltares_wave_toolbox/series.py:Series.__init__", "deltares_wave_toolbox/cores/core_engine.py:monotonic_increasing_constant_step"]}
{"id": "C86", "title": "Spectrum: unit of time", "statement": "Changing the unit of time of a spectrum (frequencies and limits divided by c > 0, densities multiplied by c, uniform axis) leaves get_Hm0 unchanged and multiplies get_Tp, get_Tmm10, get_Tm01 and get_Tm02 by c, for default, given and infinite limits and after any histories; they raise or are NaN exactly when they were. A moment of order m scales with the (m+1)-th power of the frequency factor.", "quantifier": "all spectra on uniform axes, all c > 0, all limits, all histories", "why_tests_cant": "Universal over spectra, units and ranges.", "anchors": ["deltares_wave_toolbox/spectrum.py:Spectrum", "deltares_wave_toolbox/cores/core_wavefunctions.py:compute_moment"]}
{"id": "C87", "title": "Which results the steepness and cut-off use", "statement": "After any history, once the height and the period have been obtained from their getters, get_s0p, get_smm10 and get_smm10_HF return 2 pi H / (g T^2) with the results of the last get_Hm0 / get_Tps, get_Hm0 / get_Tmm10, get_Hm0_HF / get_Tmm10_HF calls, whatever ranges those calls and the steepness call itself were given. With the default limit the HF/LF getters split at 0.45 / T with T the last get_Tmm10 result. On a new object get_smm10_HF uses the HF height and HF period over its own range.", "quantifier": "all spectra, all call histories, all ranges, all g and periods with g T^2 nonzero", "why_tests_cant": "Universal over unbounded call histories.", "anchors": ["deltares_wave_toolbox/spectrum.py:Spectrum.get_s0p", "deltares_wave_toolbox/spectrum.py:Spectrum.get_smm10", "deltares_wave_toolbox/spectrum.py:Spectrum.get_smm10_HF", "deltares_wave_toolbox/spectrum.py:Spectrum.get_Hm0_HF"]}
{"id": "C88", "title": "Highest waves after any history, ties included", "statement": "After any sequence of method calls highest_waves(p) with 0 <= p <= 1 returns the mean height and the mean period of a set of floor(n p) highest waves among the waves the object was created with (some such set when heights are equal across the cut). If some height separates the floor(n p) highest waves from the others, the complete result, period included, is the same for every history and every tie order: the averages over the waves of at least that height.", "quantifier": "all wave sets, all fractions, all call histories, every tie order of the sort", "why_tests_cant": "Universal over unbounded call histories and unspecified tie orders.", "anchors": ["deltares_wave_toolbox/series.py:WaveHeights.highest_waves", "deltares_wave_toolbox/cores/core_time.py:highest_waves_params"]}
{"id": "C89", "title": "Histogram of wave heights", "statement": "plot_hist_waveheight, after any sequence of calls, draws ten adjacent bars of equal positive width covering all wave heights; each bar is as high as the number of waves from its left edge (included) to its right edge (excluded, except in the last bar), and the bar heights add up to the number of waves. Finding: the axis is labelled P, but the bars are counts, not probabilities.", "quantifier": "all wave sets, all call histories", "why_tests_cant": "Universal over wave sets and histories.", "anchors": ["deltares_wave_toolbox/series.py:WaveHeights.plot_hist_waveheight"]}
{"id": "C90", "title": "A record can be analysed in parts and extended", "statement": "On a uniform time axis: (a) the zero-crossing times of a record are the crossing times of its first part followed by those of its second part, wherever it is cut (the sample at the cut belongs to both parts, each part has at least two samples); (b) the crossing times and the individual waves (all six parameters, after filtering small waves with any minimum height, fcutoff = 0) found in a record are the first ones found in every continuation of that record; in particular a Series of the longer record has the wave heights and periods of the shorter one as its first entries.", "quantifier": "all records on uniform axes, all cut points, all continuations, both crossing types, all minimum wave heights", "why_tests_cant": "Ranges over all records, all cut points and all continuations.", "anchors": ["deltares_wave_toolbox/cores/core_time.py:determine_zero_crossing", "deltares_wave_toolbox/cores/core_time.py:determine_params_individual_waves", "deltares_wave_toolbox/series.py:Series._determine_individual_waves"]}
{"id": "C91", "title": "A spectrum on the harmonics of the record survives the round trip unchanged", "statement": "For every n >= 1, dt > 0 and every spectrum on the frequencies k/(2 n dt), k = 0..n, with non-negative densities that are zero at k = 0 and k = n: the constructor accepts it, create_series(tstart, tstart+(2n-1)dt, dt) returns a series of 2n samples whatever the random numbers, and get_spectrum_raw(0) of that series returns a Spectrum equal to the original one, so that every parameter computed from the two agrees.", "quantifier": "all n, dt, densities, start times, random number generators and states", "why_tests_cant": "Must hold for every spectrum and every random phase vector.", "anchors": ["deltares_wave_toolbox/spectrum.py:Spectrum.create_series", "deltares_wave_toolbox/series.py:Series.get_spectrum_raw"]}
{"id": "C92", "title": "Invariances of the raw spectrum", "statement": "For every valid series and every resolution df, get_spectrum_raw(df) gives the same result (or raises the same error) when the time axis starts elsewhere, when the signal is turned upside down, run backwards, or circularly shifted by any number of samples; multiplying the signal by c multiplies every density by c^2 and changes nothing else; adding a constant to the signal changes at most the first bin.", "quantifier": "all valid series, all df, all shifts, factors and offsets", "why_tests_cant": "Universal over signals, lengths, shifts and factors.", "anchors": ["deltares_wave_toolbox/series.py:Series.get_spectrum_raw", "deltares_wave_toolbox/cores/core_spectral.py:compute_spectrum_time_series", "deltares_wave_toolbox/cores/core_spectral.py:frequency_averaging"]}
{"id": "C93", "title": "Physical bounds and monotonicity of the wave number", "statement": "For every depth h > 0, gravity g > 0 and frequency w > 0 with w^2 h/g >= 1e-8, the wave number k returned by disper is, up to a relative error of 1e-13, at least the deep-water value w^2/g and at least the shallow-water value w/sqrt(g h), and its square is at most the sum of the squares of these two. k increases strictly with w as soon as the frequencies differ by a factor 1+3e-13, and does not increase with the depth, up to a relative 3e-13. The exact solution of the dispersion relation satisfies all this without tolerance.", "quantifier": "all frequencies, depths and gravities above the clamp", "why_tests_cant": "Universal over a continuum of inputs.", "anchors": ["deltares_wave_toolbox/cores/core_dispersion.py:disper"]}
{"id": "C94", "title": "Superposed sea states and larger spectra", "statement": "For two Spectrum objects on the same axis and a third one whose densities are the sums of theirs, over every frequency range and after any calls: Hm0^2 of the third is the sum of the other two; its Tm-1,0 is the mean of the two Tm-1,0 weighted by the energies (hence between them), and likewise 1/Tm01 and 1/Tm02^2. On a uniform axis of non-negative frequencies, raising densities never lowers a moment or Hm0. Finding: widening the band can lower the moment (0,1,0,0 at 1..4 Hz: m0 over 1-3 Hz is 4/3, over 1-4 Hz 5/4).", "quantifier": "all pairs of spectra, ranges and call histories", "why_tests_cant": "Universal over spectra, ranges and histories.", "anchors": ["deltares_wave_toolbox/cores/core_wavefunctions.py:compute_moment", "deltares_wave_toolbox/spectrum.py:Spectrum.get_Hm0", "deltares_wave_toolbox/spectrum.py:Spectrum.get_Tmm10", "deltares_wave_toolbox/spectrum.py:Spectrum.get_Tm01", "deltares_wave_toolbox/spectrum.py:Spectrum.get_Tm02"]}
{"id": "C95", "title": "compute_tps: complete case distinction", "statement": "For every uniform frequency axis of at least three non-negative frequencies and densities of which at least one reaches 1e-10, compute_tps returns 1/F (inf for F = 0) where F depends on the set of grid points with maximal density: one interior point - the vertex of the parabola through it and its neighbours; only the first or last point - the vertex of the parabola through the three outermost points if these are concave, otherwise that point; two neighbours - the frequency midway; two points that are no neighbours - the first; three or more - the second. With one or two grid points the result is the inverse of the (mean) frequency of the maximum. Below 1e-10 the result is -999. F lies below the midpoint of the first interval if the maximum is the first point, and above the midpoint of the last interval if it is the last point.", "quantifier": "all spectra on uniform axes", "why_tests_cant": "Universal over spectra and positions and numbers of maxima.", "anchors": ["deltares_wave_toolbox/cores/core_wavefunctions.py:compute_tps"]}
{"id": "C96", "title": "get_spectrum for every resolution", "statement": "For every valid series of n samples and every dfDesired > 0, with N = round(1/(dt dfDesired)) and v = round(N/2) (ties to even), get_spectrum(dfDesired) uses segments of min(256,n) samples with half overlap if N = 0; raises IndexError if N = 1; uses segments of min(N,n) samples with an overlap of v samples if N >= 2 and v < n; raises ValueError if N >= 2 and v >= n. Explicit nperseg and noverlap are ignored. The densities are the Welch averages of the Hann-windowed, mean-removed segments.", "quantifier": "all valid series and resolutions", "why_tests_cant": "Universal over lengths, steps and resolutions.", "anchors": ["deltares_wave_toolbox/series.py:Series.get_spectrum", "deltares_wave_toolbox/cores/core_spectral.py:compute_spectrum_welch_wrapper"]}
{"id": "C97", "title": "Spectrum densities of any shape", "statement": "For a 1D axis and a non-empty density array of any shape, the Spectrum constructor succeeds exactly if the axis passes the uniformity check and the array is 1D or 2D with as many rows as there are frequencies; the object holds exactly these arrays, a single column being flattened. With two or more columns get_Hm0, get_Tmm10, get_Tm01 and get_Tm02 raise ValueError for every range and after any calls.", "quantifier": "all array shapes, contents, ranges and call histories", "why_tests_cant": "Universal over shapes and histories.", "anchors": ["deltares_wave_toolbox/spectrum.py:Spectrum.__init__", "deltares_wave_toolbox/cores/core_engine.py:convert_to_vector", "deltares_wave_toolbox/cores/core_wavefunctions.py:compute_moment"]}
{"id": "C98", "title": "Band filter with the upper limit raised by one frequency step", "statement": "The filter drops the highest component of the band (C32). If the upper limit passed is one frequency step 1/(n dt) above fhigh (and below the highest frequency), exactly the components with fmin <= f < fhigh, except the mean, are kept unchanged and all others are removed; adjacent bands [a,b) and [b,c) then add up to [a,c), and the part below fc, the part from fc on and the mean add up to the signal.", "quantifier": "all signals, accepted axes and band limits", "why_tests_cant": "Universal over signals, lengths and limits.", "anchors": ["deltares_wave_toolbox/cores/core_spectral.py:bandpassfilter"]}
{"id": "C99", "title": "Symmetries of the incident/reflected decomposition", "statement": "decompose_linear_ZS is linear in the gauge signals; ignores a constant added to any gauge; commutes with a circular shift of all signals in time; exchanges incident and reflected waves when all signals are run backwards; depends on the gauge positions only through their distances; does not change when all weights are multiplied by c > 0 (if still accepted) and the determinant limit by c^2; and gives the exchanged parts, referred to the last gauge, when the gauge array is mirrored.", "quantifier": "all accepted time axes, gauge signals, positions, weights, positive finite depths and non-negative limits", "why_tests_cant": "Universal over continuous signals and arrays of any size.", "anchors": ["deltares_wave_toolbox/cores/core_wave_decomposition.py:decompose_linear_ZS"]}
{"id": "C100", "title": "Scaling laws of the JONSWAP spectrum", "statement": "Multiplying hm0 by a multiplies every density by a^2; multiplying all frequencies (axis and peak) by a divides the densities by a (as long as no frequency crosses 2^-52, below which the code treats it as zero); for a given hm0 a larger peak factor never lowers the density at the peak (if it is a grid frequency) and never raises the density at other frequencies relative to the peak.", "quantifier": "all axes, wave heights, peak frequencies and peak factors", "why_tests_cant": "Universal over continuous parameters and axis lengths.", "anchors": ["deltares_wave_toolbox/cores/core_wavefunctions.py:create_spectrum_jonswap"]}
{"id": "C101", "title": "Exact meaning of the coherence values", "statement": "In a band where both energies reach 1e-10 the coherence is (sum |X1||X2|)^2/(sum |X1|^2 sum |X2|^2) over the n fine bins, where n is the resolution ratio rounded half to even, at least 1. In such bands (before and after) it does not change when a signal is multiplied by a non-zero complex factor, is 1 exactly when the moduli are proportional over the band, and is 1 for any two signals if no averaging is asked for.", "quantifier": "all spectra, axes and resolutions", "why_tests_cant": "Universal over complex spectra of any length and resolutions.", "anchors": ["deltares_wave_toolbox/cores/core_spectral.py:coherence", "deltares_wave_toolbox/cores/core_spectral.py:frequency_averaging"]}
{"id": "C102", "title": "Exact quadrature weights of spectral moments", "statement": "On a uniform non-negative frequency axis with step h, compute_moment between bounds on the axis equals h times the sum over the selected grid points of w f^m S, where for n selected points the weights are Simpson's 1/3, 4/3, 2/3, ..., 4/3, 1/3 for odd n; 1/3, 4/3, ..., 5/4, 1, 5/12 for even n >= 4; 1/2, 1/2 for two points; 0 for one. The default range takes all points, minus f = 0 for negative orders. All weights are in [1/3, 4/3] and add up to n-1, so m0 is within [1/3, 4/3] of the sum of S h.", "quantifier": "all orders, axes, spectra and ranges on the axis", "why_tests_cant": "Universal over lengths, parities and values.", "anchors": ["deltares_wave_toolbox/cores/core_wavefunctions.py:compute_moment"]}
{"id": "C103", "title": "Hm0 of the raw spectrum against the record", "statement": "For every series, Hm0 of get_spectrum_raw() satisfies Hm0^2 = 16 sum_k w_k S_k df with the weights of C102, and 16/3 E <= Hm0^2 <= 64/3 E with E the mean square plus squared mean (plus squared alternating mean for even lengths); for a zero-mean record of odd length E is the variance, so Hm0 is between 4/sqrt(3) and 8/sqrt(3) standard deviations.", "quantifier": "all valid series of any length", "why_tests_cant": "Universal over records; end-to-end through FFT, spectrum object and quadrature.", "anchors": ["deltares_wave_toolbox/series.py:get_spectrum_raw", "deltares_wave_toolbox/spectrum.py:get_Hm0", "deltares_wave_toolbox/cores/core_wavefunctions.py:compute_moment", "deltares_wave_toolbox/cores/core_spectral.py:compute_spectrum_time_series"]}
{"id": "C104", "title": "Parameters of a sinusoidal record", "statement": "For a sinusoid of amplitude a != 0 and any phase that fits p times (0 < p < N/2) in a record of N samples, the raw spectrum gives Tp = Tm01 = Tm02 = T exactly (T = N dt/p), Hm0^2 = 16 w a^2/2 and Tm-1,0 = T w'/w with w, w' the Simpson weights of its bin with and without the zero frequency; so in the interior an odd bin gives Hm0^2 = 4/3 (4 sigma)^2 and Tm-1,0 = T/2, an even bin Hm0^2 = 2/3 (4 sigma)^2 and Tm-1,0 = 2T.", "quantifier": "all amplitudes, phases, bins, lengths and time steps", "why_tests_cant": "Universal over records; tests use broad spectra, for which the parity of the bin averages out.", "anchors": ["deltares_wave_toolbox/series.py:get_spectrum_raw", "deltares_wave_toolbox/spectrum.py:get_Hm0", "deltares_wave_toolbox/spectrum.py:get_Tp", "deltares_wave_toolbox/spectrum.py:get_Tmm10", "deltares_wave_toolbox/spectrum.py:get_Tm01", "deltares_wave_toolbox/spectrum.py:get_Tm02"]}
{"id": "C105", "title": "The band filter separates sinusoids exactly", "statement": "bandpassfilter of a record made of a constant and any number of sinusoids (each a whole number of times in the record, below Nyquist) returns exactly the sum of those components whose frequency is at least flow and whose next grid frequency is below fhigh (all from flow on when fhigh is at or beyond the highest frequency): unchanged in amplitude and phase, no leakage, the constant removed.", "quantifier": "all accepted time axes, all component lists, all real limits", "why_tests_cant": "Universal over records and limits; tests filter a few signals with a tolerance.", "anchors": ["deltares_wave_toolbox/cores/core_spectral.py:bandpassfilter"]}
{"id": "C106", "title": "Moments of a record of several sinusoids", "statement": "For a record made of sinusoids in different bins, the raw spectrum has energy in those bins only, a_i^2/2 N dt each, and every moment of non-negative order over the whole axis is sum_i w_i f_i^n a_i^2/2 (w_i the quadrature weight of the bin); phases never matter; Hm0^2 = 16 m0.", "quantifier": "all component lists with distinct bins, all moments, lengths and time steps", "why_tests_cant": "Universal over records; end-to-end through FFT, spectrum and quadrature.", "anchors": ["deltares_wave_toolbox/series.py:get_spectrum_raw", "deltares_wave_toolbox/cores/core_wavefunctions.py:compute_moment", "deltares_wave_toolbox/spectrum.py:get_Hm0"]}
{"id": "C107", "title": "Algebra of the band filter", "statement": "Filtering twice equals filtering once with the intersection of the bands (for all limits), band filters commute, filtering commutes with time reversal (zero phase) and with circular shifts, and a constant added to the record does not change the result.", "quantifier": "all accepted time axes, records and real limits", "why_tests_cant": "Relations between several calls over all inputs.", "anchors": ["deltares_wave_toolbox/cores/core_spectral.py:bandpassfilter"]}
{"id": "C108", "title": "Meaning of skewness and asymmetry", "statement": "The asymmetry of a record of sinusoids plus a constant is the skewness of the record with every component delayed by a quarter of its own period; both are independent of where a periodic record starts; for a wave of amplitude a with second harmonic b leading by psi (more than six samples per wave) they are 3/4 a^2 b cos(psi) / ((a^2+b^2)/2)^1.5 and -3/4 a^2 b sin(psi) / ((a^2+b^2)/2)^1.5, so both vanish for a single sinusoid.", "quantifier": "all component lists below Nyquist, all shifts, all amplitudes and phases", "why_tests_cant": "Universal over records; tests compare a few numbers.", "anchors": ["deltares_wave_toolbox/series.py:get_skewness", "deltares_wave_toolbox/series.py:get_asymmetry"]}
{"id": "C109", "title": "Wave statistics are stable under measurement noise", "statement": "If every wave height of one WaveHeights object differs from the corresponding height of another by at most eps, then Hmax, the mean of the highest fraction p, the height exceeded by q percent of the waves and Hrms of the two objects differ by at most eps, whatever methods were called before on either, although noise may change the order of the waves. And raising heights never lowers Hmax, the mean of the highest fraction or the exceeded height.", "quantifier": "all non-empty height and period arrays, all noise levels, all fractions in [0,1] and percentages in [0,100], all call histories and tie orders", "why_tests_cant": "Ranges over all records, perturbations and histories; noise permutes the sorted order, so no finite set of records settles it.", "anchors": ["deltares_wave_toolbox/series.py:WaveHeights.get_Hmax", "deltares_wave_toolbox/series.py:WaveHeights.highest_waves", "deltares_wave_toolbox/series.py:WaveHeights.get_exceedance_waveheight", "deltares_wave_toolbox/series.py:WaveHeights.get_Hrms"]}
{"id": "C110", "title": "Wave statistics follow the unit of height", "statement": "Multiplying every wave height by a > 0 multiplies Hmax, the mean of the highest fraction p and the height exceeded by q percent of the waves by a, whatever was called before on either object and however ties are broken.", "quantifier": "all non-empty height and period arrays, all scale factors, fractions, percentages, call histories and tie orders", "why_tests_cant": "Ranges over all records, factors and histories.", "anchors": ["deltares_wave_toolbox/series.py:WaveHeights.get_Hmax", "deltares_wave_toolbox/series.py:WaveHeights.highest_waves", "deltares_wave_toolbox/series.py:WaveHeights.get_exceedance_waveheight"]}
{"id": "C111", "title": "Battjes-Groenendijk: unit of length and number of waves", "statement": "compute_BattjesGroenendijk_wave_height_distribution gives, for Hm0 and depth in another unit of length, the same probabilities and the heights in that unit (or the same failure). With more waves, and all else equal, it also succeeds, with the same transition height and its probability, and the last point (exceeded by one wave in n) is not lower.", "quantifier": "all heights, depths, slopes and tolerances (positive heights and depths for the number of waves), all numbers of waves and scale factors", "why_tests_cant": "The distribution is found by an iteration with floating tolerance; the relation between two runs ranges over all inputs.", "anchors": ["deltares_wave_toolbox/cores/core_wavefunctions.py:compute_BattjesGroenendijk_wave_height_distribution"]}
{"id": "C112", "title": "Frequency averaging composes, superposes and is centred", "statement": "On an evenly spaced axis, frequency_averaging over n bins followed by averaging of the result over m bins equals averaging over m n bins at once (if the intermediate spectrum still has two bins); the average of a linear combination of two spectra is the linear combination of the averages, on the same averaged axis; and each averaged frequency is the midpoint of the first and last frequency of its block.", "quantifier": "all evenly spaced axes with two bins or more, all spectra of that length, all block sizes and factors", "why_tests_cant": "Ranges over all axes, spectra and block sizes, including those that do not divide the number of bins.", "anchors": ["deltares_wave_toolbox/cores/core_spectral.py:frequency_averaging"]}
{"id": "C113", "title": "Double precision does not change which waves are counted", "statement": "With the products and quotients that decide how many waves or bins are taken rounded to IEEE double precision: get_Hs averages exactly the floor(n/3) highest waves for every record; get_exceedance_waveheight(q) for a whole percentage q picks the same wave as exact arithmetic; highest_waves(a/b) averages the same waves as exact arithmetic unless n a is a multiple of b and the double nearest to a/b lies below a/b, in which case at most one wave is missing; for any fraction held as a double the count is the integer part of the exact product, or one more and then only if the exact product is within a relative 2^-53 of the next integer; the number of averaged frequency bins is the integer quotient. (highest_waves(1/49) of 49 waves does lose the only wave and returns 0: proved as a finding.)", "quantifier": "all WaveHeights objects up to 2^53 waves (2^51/b for a typed fraction a/b), all histories of calls, all fractions and percentages", "why_tests_cant": "Whether n*(1/3) rounds below n/3 must be settled for every n up to 2^53; it does fail for other fractions at isolated n.", "anchors": ["deltares_wave_toolbox/cores/core_time.py:highest_waves_params", "deltares_wave_toolbox/cores/core_time.py:exceedance_wave_height", "deltares_wave_toolbox/series.py:WaveHeights.get_Hs", "deltares_wave_toolbox/series.py:WaveHeights.highest_waves", "deltares_wave_toolbox/series.py:WaveHeights.get_exceedance_waveheight", "deltares_wave_toolbox/cores/core_spectral.py:frequency_averaging"]}
{"id": "C114", "title": "The constant-step check tolerates double precision axes", "statement": "monotonic_increasing_constant_step, evaluated in double precision, accepts every axis whose samples are within 2^-35 of an evenly spaced axis with a step between 2^-30 and 2^10, in particular dt*arange(n) computed in double precision up to 2^18 (three days in seconds). (Seconds since 1970 at 10 Hz are rejected, because the tolerance is absolute: proved as a finding.)", "quantifier": "all lengths, offsets, steps and rounding errors in the stated range", "why_tests_cant": "Ranges over all axes and rounding errors.", "anchors": ["deltares_wave_toolbox/cores/core_engine.py:monotonic_increasing_constant_step"]}
{"id": "C115", "title": "Zero crossings in double precision", "statement": "With every arithmetic operation of determine_zero_crossing rounded to IEEE double precision, a record of doubles on a rounded even axis yields the same number of crossings as exact arithmetic, each at most 2^-33 s from the exact interpolated time, consecutive crossings at least half a time step apart, so every computed wave period is positive, and within 2^-31 s of the exact one.", "quantifier": "all records of doubles with times up to 2^18 s, steps between 2^-30 and 2^10 s and samples zero or between 2^-60 and 2^60 in size; up- and down-crossings", "why_tests_cant": "Ranges over all records and all rounding errors.", "anchors": ["deltares_wave_toolbox/cores/core_time.py:determine_zero_crossing"]}
{"id": "C116", "title": "Measurement noise moves the wave-by-wave results by a bounded amount", "statement": "If two records on the same time axis differ by at most eps at every sample and have the same sign at every sample, both constructors find the same number of crossings and waves; each crossing time differs by at most dt*eps/(drop across the crossing), each crest and trough by at most eps, each wave height by at most 2 eps, and Hmax, the mean of the highest fraction and the exceedance height by at most 2 eps after any sequence of other calls.", "quantifier": "all pairs of records on all uniform axes with at least 2 samples, all noise levels, all fractions and percentages, all call histories", "why_tests_cant": "A stability claim about all pairs of records and all noise; tests compare a few.", "anchors": ["deltares_wave_toolbox/cores/core_time.py:determine_zero_crossing", "deltares_wave_toolbox/cores/core_time.py:determine_params_individual_waves", "deltares_wave_toolbox/series.py:get_Hmax"]}
{"id": "C117", "title": "A sampled regular wave is measured correctly wave by wave", "statement": "For a record of a cos(2 pi t/T + phi) sampled more than twice per period, the constructor finds one down-crossing for every downward zero of the continuous wave between the first and the last sample, each within pi^2 dt^3/(4 T^2) of the true zero; every wave has a period within pi^2 dt^3/(2 T^2) of T, a crest between a cos(pi dt/T) and a and a trough between -a and -a cos(pi dt/T), both within half a step of their true moments, and a height between 2a cos(pi dt/T) and 2a; so do Hmax, Hrms and (where at least one wave is asked for) the mean of the highest fraction and the exceedance height after any sequence of calls, if there is a wave.", "quantifier": "all amplitudes, periods, phases, start times, time steps below half a period and record lengths of at least 2 samples, all call histories", "why_tests_cant": "Phase and period are continuous parameters; a test samples a few combinations.", "anchors": ["deltares_wave_toolbox/series.py:Series", "deltares_wave_toolbox/cores/core_time.py:determine_zero_crossing", "deltares_wave_toolbox/cores/core_time.py:determine_params_individual_waves"]}
{"id": "C118", "title": "Unfolding any spectrum; operands of different lengths", "statement": "unfold_spectrum of any spectrum on any axis with at least two frequencies returns 2(nF-1)+isOdd values at multiples of the frequency step: the given values followed by their conjugates in reverse; if the mean (and for even length the last value) is real, the signal obtained with freq2time has exactly the given folded transform. A spectrum with too few values raises ValueError (except a single value, which is broadcast; too many values are cut off); coherence of signals of different lengths and decompose_linear_ZS_series of gauges of different lengths raise ValueError.", "quantifier": "all frequency axes, all complex spectra, both parities, all lists of gauge records", "why_tests_cant": "All lengths, parities and spectra.", "anchors": ["deltares_wave_toolbox/cores/core_spectral.py:unfold_spectrum", "deltares_wave_toolbox/cores/core_spectral.py:coherence", "deltares_wave_toolbox/cores/core_wave_decomposition.py:decompose_linear_ZS_series"]}
{"id": "C119", "title": "A Series object only exists for one-dimensional data", "statement": "Whatever is passed to Series(time, xTime) - numbers, lists, or arrays of any number of dimensions and any shape: if the constructor returns, both inputs were 1D (a list, an (n,) or an (n,1) array) with the same number n >= 2 of values, the object holds exactly these values as 1D arrays, nt = n, dt is the mean step, and the variance of the steps was below a hundredth of the mean step. Every input that is not 1D is rejected with AssertionError or ValueError and no other exception.", "quantifier": "all pairs of inputs of all shapes (0-d, 1-d, column, row, 2-d, n-d, empty)", "why_tests_cant": "The shapes and values are unbounded; a test tries a few shapes, not every shape with values that pass the time step test.", "anchors": ["deltares_wave_toolbox/series.py:Series", "deltares_wave_toolbox/cores/core_engine.py:convert_to_vector", "deltares_wave_toolbox/cores/core_time.py:determine_zero_crossing"]}
{"id": "C120", "title": "Wave statistics in double precision, whatever the order of addition", "statement": "Computed in IEEE double precision and for every order in which numpy adds up the array: get_Hs, highest_waves(a/b) and get_Hrms differ from the exact averages by a relative error of at most k 2^-52, with k the number of averaged waves (for Hrms k = n + 2), after any sequence of calls, and raise exactly when the exact computation does. So Hs exceeds Hmax by at most that much; it can exceed it: nine waves of height 0.1 give Hs = 0.10000000000000002 > Hmax.", "quantifier": "all wave heights and periods that are doubles (zero or at least 2^-400), up to 2^50 waves, all call histories, all summation orders, all tie orders", "why_tests_cant": "The rounding error depends on the values, their number and the undocumented summation order of numpy.", "anchors": ["deltares_wave_toolbox/series.py:WaveHeights", "deltares_wave_toolbox/cores/core_time.py:highest_waves_params"]}
{"id": "C121", "title": "Wave by wave analysis in double precision", "statement": "With every operation of the zero-crossing loop and of the wave-parameter loop rounded to IEEE double precision: for every record of doubles on a uniform axis (step h, values at most B), one wave is found between each two successive sign changes; its period is within 2^-31 s of the exact one; its height is the correctly rounded difference of its crest and trough; and each crest (trough) further than B/(2^30 h) from zero is exactly the first highest (lowest) sample between the crossings. The significant wave height computed from the record then has relative error at most (n/3+1) 2^-52 for every summation order. Inside the strip this fails: for t = 0.1*arange(16) a wave of height 1 can be reported with height 0 and a positive trough.", "quantifier": "all records of doubles on an almost uniform axis, both crossing directions, all summation orders and call histories", "why_tests_cant": "a rounding error of one unit decides whether a sample belongs to a wave; only a proof over all records bounds its effect", "anchors": ["deltares_wave_toolbox/cores/core_time.py:determine_params_individual_waves", "deltares_wave_toolbox/cores/core_time.py:determine_zero_crossing", "deltares_wave_toolbox/series.py:Series"]}
{"id": "C122", "title": "Axes of a synthesised series in double precision", "statement": "With every operation rounded to IEEE double precision (numpy's arange included): the generated frequency axis has exactly half as many elements as the padded record has samples, for every time step and number of samples, so the Fourier components and their mirror images always fit; each frequency is its harmonic up to a relative 2^-49. The number of time samples for a duration of n steps is n+1 or n+2, and equals the exact count whenever the duration is not within a thousandth of a step of a whole number of steps. Starting at zero, sample i lies at the double nearest i*dt and the axis passes the constant-step check; with another start the error grows at most as (i+1)(|tInit|+(i+1)dt)2^-50. Findings: 20 s at 100 Hz yields 2002 samples ending at 20.01 s; one hour from 1.6e9 s at 10 Hz ends 3.4 ms early.", "quantifier": "all time steps, durations, start times and numbers of samples in the stated ranges", "why_tests_cant": "one rounding error changes the number of samples or makes slice assignments fail; which combinations do so cannot be enumerated", "anchors": ["deltares_wave_toolbox/cores/core_spectral.py:spectrum2timeseries", "deltares_wave_toolbox/cores/core_spectral.py:spectrum2timeseries_object"]}
{"id": "C123", "title": "Frequency axes, band limits and segment settings in double precision", "statement": "With every operation rounded to double precision: each frequency of the transform is its harmonic up to a relative 2^-50; unfolding restores exactly the same axis; the band filter keeps exactly the components it keeps in exact arithmetic if its limits keep a relative distance of 2^-50 from every harmonic; the number of averaged bins, the Welch segment length and the overlap are the exact ones unless the quotient is within 2^-9 of the middle between two whole numbers; the nearest grid index is nearest up to a factor 1+2^-51. Finding: on a record of 30 s at 10 Hz a filter from 3.7 Hz upward loses the component at exactly 3.7 Hz.", "quantifier": "all records with up to 2^40 samples, all limits, resolutions and grids of doubles", "why_tests_cant": "the axis is the result of three rounded operations per element; agreement with the exact selection must hold for every record length, step and limit", "anchors": ["deltares_wave_toolbox/cores/core_spectral.py:time2freq", "deltares_wave_toolbox/cores/core_spectral.py:unfold_spectrum", "deltares_wave_toolbox/cores/core_spectral.py:applybandfilter", "deltares_wave_toolbox/cores/core_spectral.py:frequency_averaging", "deltares_wave_toolbox/series.py:get_spectrum", "deltares_wave_toolbox/cores/core_engine.py:approx_array_index"]}
{"id": "C124", "title": "Spectral wave height and mean periods are accurate in double precision", "statement": "For a spectrum on a uniform frequency axis stored in doubles (each frequency within a few units in the last place) with densities that are zero or of ordinary size, the moments of orders -2..2, get_Hm0, get_Tmm10, get_Tm01 and get_Tm02 computed in IEEE double precision - whatever the order in which np.sum adds, whatever pow accurate to 2^-52 - agree with the exact values for the same densities on the exact axis up to a relative error of a small multiple of (f_max + df)/df * 2^-44; the periods are non-finite exactly when the exact ones are. The frequency axis of the raw spectrum of any record meets the conditions.", "quantifier": "every frequency axis of at most 2^24 steps, every list of densities, every order of summation, every pow within its error bound", "why_tests_cant": "a test compares a few spectra with a tolerance; the claim is a bound for every spectrum, every summation order and every axis, including the cancellation in the 2 - h0/h1 terms of Simpson's rule", "anchors": ["deltares_wave_toolbox/cores/core_wavefunctions.py:compute_moment", "deltares_wave_toolbox/spectrum.py:get_Hm0", "deltares_wave_toolbox/spectrum.py:get_Tmm10", "deltares_wave_toolbox/spectrum.py:get_Tm01", "deltares_wave_toolbox/spectrum.py:get_Tm02"]}
{"id": "C125", "title": "Integer densities are averaged and then truncated", "statement": "frequency_averaging called with integer-typed densities (a list of Python ints, an int64 array) returns, for every axis with f[0]<f[1] and every desired spacing, the same coarse frequencies as for floats, but each coarse density is the mean of its block truncated toward zero. For non-negative densities every coarse density is below the true mean by less than one unit, equal to it exactly when the number of fine bins divides the block sum, and zero whenever the block sum is smaller than the number of bins, so energy can vanish without any warning. Without averaging (dfDesired=0) the input is returned unchanged.", "quantifier": "all frequency axes with f[0]<f[1], all integer density arrays of the same length, all desired spacings", "why_tests_cant": "the loss depends on divisibility of every block sum, over all spectra and factors", "anchors": ["deltares_wave_toolbox/cores/core_spectral.py:frequency_averaging", "deltares_wave_toolbox/cores/core_engine.py:convert_to_vector"]}
{"id": "C126", "title": "An integer frequency axis is refused or harmless, never silently wrong", "statement": "compute_moment called with an integer-typed frequency axis returns exactly the result of the same call with float frequencies whenever the order is non-negative and the upper limit lies within the axis (or a limit is the default -1); with a negative order, or an upper limit beyond the last frequency, it raises (numpy refuses negative powers of integers). A moment that is returned is therefore always the correct one. create_spectrum_jonswap never returns a spectrum for an integer frequency axis.", "quantifier": "all integer axes, densities, integer orders and limits", "why_tests_cant": "it is a statement about every order, limit and axis", "anchors": ["deltares_wave_toolbox/cores/core_wavefunctions.py:compute_moment", "deltares_wave_toolbox/cores/core_wavefunctions.py:create_spectrum_jonswap"]}
{"id": "C127", "title": "No method writes to an array of the caller", "statement": "For every WaveHeights and Series object and every history of method calls interleaved with in-place assignments by the caller, each array the caller had before the object was built holds exactly what the caller itself put there: neither construction nor any method call modifies it.", "quantifier": "all objects, all initial memories, all interleavings of method calls and caller assignments", "why_tests_cant": "an unbounded set of histories with shared memory", "anchors": ["deltares_wave_toolbox/series.py:WaveHeights", "deltares_wave_toolbox/series.py:Series", "deltares_wave_toolbox/cores/core_engine.py:convert_to_vector"]}
{"id": "C128", "title": "When an object sees later changes of the caller's arrays", "statement": "Objects built from lists, numbers or column arrays are separate from their arguments: no later assignment by the caller has any effect on them. A WaveHeights object built on one-dimensional ndarrays is those arrays until it is first sorted successfully: get_Hrms, get_Hmax and the histogram show the caller's current values (with the original number of waves); from the first sort on it keeps the values of that moment for ever. A Series built on one-dimensional ndarrays always shows the current contents as time and xTime, but its nt, its dt and (until the waves are determined again) its crossings and waves stay those of the contents at construction.", "quantifier": "all argument kinds, all memories, all interleavings of method calls and caller assignments", "why_tests_cant": "an unbounded set of histories with shared memory", "anchors": ["deltares_wave_toolbox/series.py:WaveHeights", "deltares_wave_toolbox/series.py:Series", "deltares_wave_toolbox/cores/core_time.py:sort_wave_params", "deltares_wave_toolbox/cores/core_engine.py:convert_to_vector"]}
{"id": "C129", "title": "A Spectrum on the caller's arrays: recomputed and stale results", "statement": "A Spectrum built on one-dimensional ndarrays of the caller always has their current contents as f and sVarDens. After any history, get_Hm0, get_Tps, get_Tp, get_Tmm10, get_Tm01 and get_Tm02 return what a spectrum freshly built from the current contents returns. get_s0p however keeps returning 2 pi Hm0/(g Tps^2) with the Hm0 and Tps computed before the caller changed the densities, and get_Hm0_HF keeps the cut-off 0.45/Tm-1,0 of the old densities. A Spectrum built from lists or column arrays is not affected by anything the caller assigns.", "quantifier": "all spectra, memories, and interleavings of method calls and caller assignments", "why_tests_cant": "an unbounded set of histories with shared memory and caches", "anchors": ["deltares_wave_toolbox/spectrum.py:Spectrum", "deltares_wave_toolbox/cores/core_engine.py:convert_to_vector"]}
{"id": "C130", "title": "Hrms of integer wave heights", "statement": "For wave heights of a signed w-bit integer array, WaveHeights.get_Hrms returns the root-mean-square of the heights whenever the square of every height is representable in the type. Otherwise the squares wrap around silently (finding): heights whose squares lie between 2^(w-1) and 2^w give NaN, and for every width of at least 4 there is a representable height (256 for int16) for which any number of equal waves has an Hrms of exactly 0.", "quantifier": "all integer widths, all lists of integer wave heights, all numbers of waves", "why_tests_cant": "The result is right for small heights and silently wrong above a threshold that depends on the element type; tests with floats or small integers never see it.", "anchors": ["deltares_wave_toolbox/series.py:get_Hrms", "deltares_wave_toolbox/cores/core_engine.py:convert_to_vector"]}
{"id": "C131", "title": "Integer records of moderate amplitude are analysed like float records", "statement": "If no difference of two successive readings leaves the signed integer type of the record (in particular if all readings are below a quarter of its range), determine_zero_crossing and Series(time, x) give exactly the result, object and exceptions of the same record given as floats.", "quantifier": "all integer widths, records of all lengths and shapes, time axes, crossing types", "why_tests_cant": "Equality of two code paths for every record of every length and every element type.", "anchors": ["deltares_wave_toolbox/cores/core_time.py:determine_zero_crossing", "deltares_wave_toolbox/series.py:Series"]}
{"id": "C132", "title": "Crossing times of integer records", "statement": "For a record of a signed w-bit integer type every zero-crossing is found, and its reported time is the interpolated zero if the difference of the two readings is in the type. If it is not (finding) the reported time lies at or before the sample before the crossing, dt*|x_i|/(2^w - |x_i - x_(i+1)|) before it. As a consequence a Series of an int16 record can report a wave of height 0 where there is one of height 20001, and construction can raise IndexError for a record that is accepted as floats.", "quantifier": "all integer widths, all records on uniform time axes, both crossing types", "why_tests_cant": "The overflow needs two successive readings that differ by more than half the range of the type; the exact displaced time is a statement about every such pair.", "anchors": ["deltares_wave_toolbox/cores/core_time.py:determine_zero_crossing", "deltares_wave_toolbox/series.py:Series"]}
{"id": "C133", "title": "Axes of an unsigned integer type", "statement": "On an axis of an unsigned w-bit integer type monotonic_increasing_constant_step answers True exactly if no two successive values are equal and all steps agree modulo 2^w. Increasing axes are therefore accepted exactly if uniform; but every uniformly decreasing axis is accepted as increasing as well (finding), and Series accepts a uniformly decreasing unsigned time axis with step -s and reports the time step 2^w - s.", "quantifier": "all widths and all unsigned axes of all lengths", "why_tests_cant": "A characterisation of the accepted axes over all lengths and widths.", "anchors": ["deltares_wave_toolbox/cores/core_engine.py:monotonic_increasing_constant_step", "deltares_wave_toolbox/series.py:Series"]}
{"id": "C134", "title": "Wave heights with missing values", "statement": "If one of the wave heights of a WaveHeights object is NaN then, after any sequence of method calls, highest_waves, get_Hs and get_exceedance_waveheight raise ValueError for every fraction and percentage and get_Hmax returns NaN. If only periods are NaN, highest_waves returns the same mean height as without NaN, and the mean period is NaN exactly if a selected wave has no period. Objects without NaN behave exactly as in the model without NaN.", "quantifier": "all height and period arrays with NaN at any positions, all np.argsort behaviours on ties, all histories of method calls, all fractions and percentages", "why_tests_cant": "NaN breaks every comparison; the claim is about all positions of NaN and all call histories.", "anchors": ["deltares_wave_toolbox/series.py:WaveHeights", "deltares_wave_toolbox/cores/core_time.py:highest_waves_params", "deltares_wave_toolbox/cores/core_time.py:exceedance_wave_height", "deltares_wave_toolbox/cores/core_time.py:sort_wave_params"]}
{"id": "C135", "title": "Records with missing samples", "statement": "Series(time, x) on a uniform time axis never raises, whatever samples of x are NaN. The crossings are exactly the pairs of neighbouring samples that are both present and change sign downwards, at the interpolated times; every wave between successive crossings has as crest and trough the first highest and lowest of its samples that are present. No crossing time, height or period is NaN, heights are positive, and all wave statistics are numbers. Missing samples only remove crossings (waves merge).", "quantifier": "all uniform axes, all signals with NaN at any positions, all np.argsort behaviours, all call histories", "why_tests_cant": "It depends on how Python's max/min, np.where and comparisons treat NaN at every possible position in a wave.", "anchors": ["deltares_wave_toolbox/series.py:Series", "deltares_wave_toolbox/cores/core_time.py:determine_zero_crossing", "deltares_wave_toolbox/cores/core_time.py:determine_params_individual_waves"]}
{"id": "C136", "title": "Axes with missing values are rejected", "statement": "Series raises AssertionError for every time axis that contains a NaN, and monotonic_increasing_constant_step, the check of the frequency axes, answers False for every axis of at least two points that contains a NaN.", "quantifier": "all axes with at least one NaN, all signals", "why_tests_cant": "All lengths and positions of NaN.", "anchors": ["deltares_wave_toolbox/series.py:Series", "deltares_wave_toolbox/cores/core_engine.py:monotonic_increasing_constant_step"]}
{"id": "C137", "title": "Missing densities and spectral moments", "statement": "Where a moment of the spectrum with numbers in place of the NaN densities is defined, compute_moment with the NaNs raises nothing: it returns NaN if a density between the selected limits (or the density the tail is attached to) is NaN, and otherwise exactly the moment that any numbers in place of the NaNs give. A range that has shrunk to a single grid point has moment 0 even if its density is NaN.", "quantifier": "all uniform axes, densities with any NaNs, orders, limits including inf and the -1 defaults, and all replacement numbers", "why_tests_cant": "All positions of NaN, lengths, orders and limits.", "anchors": ["deltares_wave_toolbox/cores/core_wavefunctions.py:compute_moment"]}
{"id": "C138", "title": "Missing densities and integral wave parameters", "statement": "If any density of a spectrum on a non-negative axis is NaN, get_Hm0, get_Tmm10, get_Tm01 and get_Tm02 over the whole axis return and store NaN and compute_spectrum_params returns six NaNs, without an exception. If all NaNs lie outside the range that is used, these methods return what any numbers in place of the NaNs give.", "quantifier": "all axes, densities, limits and replacement numbers", "why_tests_cant": "All positions of NaN, lengths and limits.", "anchors": ["deltares_wave_toolbox/spectrum.py:get_Hm0", "deltares_wave_toolbox/spectrum.py:get_Tmm10", "deltares_wave_toolbox/spectrum.py:get_Tm01", "deltares_wave_toolbox/spectrum.py:get_Tm02", "deltares_wave_toolbox/cores/core_wavefunctions.py:compute_spectrum_params"]}
{"id": "C139", "title": "Missing densities and peak periods", "statement": "If the first density in the range is NaN, get_Tp raises ValueError and get_Tps, with three or more frequencies in the range, IndexError, and the object is unchanged. If it is a number, get_Tp skips NaNs: it returns what it would with numbers below the first density in their place. compute_tps does the same if no NaN lies within two bins of a maximal density; if the maximum is unique and a NaN is among the three bins of the fit, it returns the unsmoothed 1/f at the maximum.", "quantifier": "all axes, densities, limits, positions of NaN and replacement numbers", "why_tests_cant": "All positions of NaN relative to the peak.", "anchors": ["deltares_wave_toolbox/spectrum.py:get_Tp", "deltares_wave_toolbox/spectrum.py:get_Tps", "deltares_wave_toolbox/cores/core_wavefunctions.py:compute_tps"]}
{"id": "C140", "title": "Default cut-off with a NaN mean period", "statement": "A NaN lower limit acts in compute_moment as no lower limit. Hence, when a density of the spectrum is NaN, get_Hm0_HF and get_Tmm10_HF with the default lower limit silently return the value for the whole range up to fmax, and get_Hm0_LF with the default upper limit returns NaN.", "quantifier": "all uniform non-negative axes, densities with a NaN and upper limits", "why_tests_cant": "All spectra and limits.", "anchors": ["deltares_wave_toolbox/spectrum.py:get_Hm0_HF", "deltares_wave_toolbox/spectrum.py:get_Tmm10_HF", "deltares_wave_toolbox/spectrum.py:get_Hm0_LF", "deltares_wave_toolbox/cores/core_engine.py:approx_array_index"]}
{"id": "C141", "title": "Spectrum calls: the model with missing values agrees with the one without", "statement": "For a spectrum without NaN, after any history of method calls, the model that tracks NaN and the ordinary model give the same result for every next call: the same number, the same exception, or both a non-finite value.", "quantifier": "all spectra without NaN, all call histories inside the ordinary model and all next calls", "why_tests_cant": "All histories of calls.", "anchors": ["deltares_wave_toolbox/spectrum.py:Spectrum"]}
{"id": "C142", "title": "Missing samples and the raw spectrum", "statement": "compute_spectrum_time_series of a record with at least one NaN sample does not raise: it returns the frequency axis of the record with the gaps filled by any numbers, and every density is NaN. Series.get_spectrum_raw on such a record succeeds exactly if it does on a filled record, and the object has NaN for Hm0, Tm-1,0, Tm0,1 and Tm0,2 and raises ValueError for the peak period. frequency_averaging of a spectrum with NaN densities keeps the axis; a coarse density is NaN exactly if one of those it averages is. Without NaN the results are those of the ordinary model.", "quantifier": "all records, positions and numbers of missing samples, filling numbers, desired resolutions, and all FFT algorithms that propagate NaN along dependences", "why_tests_cant": "All records, gap patterns and FFT algorithms.", "anchors": ["deltares_wave_toolbox/cores/core_spectral.py:compute_spectrum_time_series", "deltares_wave_toolbox/cores/core_spectral.py:time2freq_nyquist", "deltares_wave_toolbox/cores/core_spectral.py:frequency_averaging", "deltares_wave_toolbox/series.py:get_spectrum_raw"]}
{"id": "C143", "title": "Missing samples and the band-pass filter", "statement": "bandpassfilter of a record with NaN samples never raises. A sample of the result is NaN whenever its value depends on a missing sample; in particular every missing sample is missing in the result as soon as the filter keeps a component, and if the filter keeps no component the result is zero everywhere, without NaN. Series.get_bandpassfilter returns a series with the same time axis holding that result. Without NaN the result is that of the ordinary model.", "quantifier": "all records, gap patterns, bands, and all FFT algorithms that propagate NaN along dependences", "why_tests_cant": "All records, gap patterns, bands and FFT algorithms.", "anchors": ["deltares_wave_toolbox/cores/core_spectral.py:bandpassfilter", "deltares_wave_toolbox/cores/core_spectral.py:applybandfilter", "deltares_wave_toolbox/cores/core_spectral.py:unfold_spectrum", "deltares_wave_toolbox/series.py:get_bandpassfilter"]}
{"id": "C144", "title": "Missing samples and individual waves above a cut-off", "statement": "The individual-wave analysis of a record with at least one NaN sample and a cut-off frequency other than 0 never raises. If the cut-off exceeds twice the frequency step, or is at or above the highest frequency, no crossing and no wave is found, whatever the rest of the record; otherwise the result is the same as without a cut-off.", "quantifier": "all records with a gap, crossing types, cut-offs, minimum wave heights and FFT algorithms", "why_tests_cant": "All records and cut-offs.", "anchors": ["deltares_wave_toolbox/series.py:_determine_individual_waves", "deltares_wave_toolbox/cores/core_spectral.py:bandpassfilter"]}
{"id": "C145", "title": "Missing samples and Welch spectra", "statement": "compute_spectrum_welch_wrapper of a record with NaN samples raises exactly when it does for the record with the gaps filled, with the same exception, and otherwise returns the same frequencies. If one of the samples it uses is missing, every density is NaN; missing samples in the unused rest of the record have no influence. Series.get_spectrum returns the corresponding object, both with explicit segment settings and with a desired resolution.", "quantifier": "all records, gap patterns, filling numbers, segment lengths, overlaps, transform lengths and both windows", "why_tests_cant": "All records and segment settings.", "anchors": ["deltares_wave_toolbox/cores/core_spectral.py:compute_spectrum_welch_wrapper", "deltares_wave_toolbox/series.py:get_spectrum"]}
{"id": "C146", "title": "Missing samples and the statistics of the signal", "statement": "Series.max, min, mean, var, get_skewness and get_asymmetry of a record with a NaN sample do not raise and return NaN; without NaN they are the largest and smallest sample, the mean, the mean squared deviation and the ratios of the ordinary model, and the skewness of a constant record is NaN.", "quantifier": "all non-empty records and gap patterns", "why_tests_cant": "All records.", "anchors": ["deltares_wave_toolbox/series.py:max", "deltares_wave_toolbox/series.py:min", "deltares_wave_toolbox/series.py:mean", "deltares_wave_toolbox/series.py:var", "deltares_wave_toolbox/series.py:get_skewness", "deltares_wave_toolbox/series.py:get_asymmetry"]}
{"id": "C147", "title": "Missing densities and the period TpD", "statement": "tpd of a spectrum whose first density is NaN raises ValueError. Otherwise, with i and j the first and last frequency whose density is at least 64% of the largest (NaN counting as zero): if a density between them is NaN the result is NaN, if none is it is the result for zeros in place of the NaNs, and if i = j it is NaN.", "quantifier": "all uniform non-negative axes, all spectra with NaN at any positions", "why_tests_cant": "All spectra and positions of NaN.", "anchors": ["deltares_wave_toolbox/cores/core_wavefunctions.py:tpd"]}
{"id": "C148", "title": "The created JONSWAP spectrum is single-peaked at fp", "statement": "For fp > 0 and gamma at least 1 the JONSWAP shape (above the frequency where the code sets it to zero) rises strictly up to fp and falls strictly beyond it. The spectrum object created on a uniform axis therefore has its largest density at the last grid frequency not above fp or the next one: get_Tp of the created object is the inverse of a grid frequency less than one step from fp, of the first grid frequency if fp lies below the axis, and of the last one if fp lies above it.", "quantifier": "all positive fp and heights, all gamma at least 1, all uniform axes, all pairs of frequencies", "why_tests_cant": "Two tests look at one fp; monotonicity concerns every pair of frequencies and every peak enhancement.", "anchors": ["deltares_wave_toolbox/cores/core_wavefunctions.py:create_spectrum_jonswap", "deltares_wave_toolbox/spectrum.py:get_Tp"]}
{"id": "C149", "title": "Ensemble statistics of synthesised series", "statement": "If the numbers of the random generator are uniform on [0,1) and pairwise independent, then over the ensemble of all generator states the series synthesised (unseeded) from a spectrum has mean 0 at every moment, and the covariance of its values at two moments is sum_i S(f_i) df cos(2 pi f_i (t_j - t_k)) with S the interpolated density: it depends on the time between the moments only (stationarity) and the variance is the energy of the spectrum at every moment. The component at the Nyquist frequency counts for a quarter.", "quantifier": "all spectra with non-negative densities on increasing axes, all time steps and durations, all pairs of moments, all generators and all distributions of their state with uniform pairwise independent numbers", "why_tests_cant": "A test sees single realisations; the statement is about expectations over all realisations.", "anchors": ["deltares_wave_toolbox/cores/core_spectral.py:spectrum2timeseries"]}
{"id": "C150", "title": "Welch spectrum of a regular wave", "statement": "For a record of any length of a regular wave (amplitude a, any phase, any constant level) whose period fits p times (p >= 2, 2(p+1) < N) in a segment of N samples, Series.get_spectrum with the Hann window, whether N is given explicitly (with any overlap below N) or follows from the desired resolution, returns a spectrum with exactly three non-zero densities, at the wave frequency and its two neighbours, in proportion 4:1:1, whose sum times the bin width is exactly a^2/2; its Tp is exactly the wave period; Hm0 squared is 16 times the Simpson-weighted energy, which away from the ends of the axis is 10/9 of 16 a^2/2 for odd p and 8/9 of it for even p (so Hm0 is off by -6 % to +5.5 %, against +-18 % for the raw spectrum), and Tm01 is then exactly the wave period.", "quantifier": "all record lengths L >= N, segment lengths N, bins p, overlaps, amplitudes, phases, levels and sampling steps", "why_tests_cant": "Holds for every length, phase, level, overlap and segment length; a test evaluates a few of them.", "anchors": ["deltares_wave_toolbox/series.py:get_spectrum", "deltares_wave_toolbox/cores/core_spectral.py:compute_spectrum_welch_wrapper", "deltares_wave_toolbox/spectrum.py:get_Hm0"]}
{"id": "C151", "title": "Printed descriptions tell the size; directions never change a result", "statement": "Whatever methods were called before, str() and repr() of a WaveHeights object name the number of waves it was made of, those of a Series the number of samples of its record (not the number of waves), and those of a Spectrum the number of frequencies and \"2D\" exactly if a direction array with at least one element was given, else \"1D\"; two objects with the same description have the same size. A direction array, of any shape, decides neither whether a Spectrum is accepted nor the result of any later call.", "quantifier": "all accepted inputs, all histories of calls, all direction arrays", "why_tests_cant": "It quantifies over all histories of calls and all direction arrays.", "anchors": ["deltares_wave_toolbox/series.py:__str__", "deltares_wave_toolbox/series.py:__repr__", "deltares_wave_toolbox/spectrum.py:__repr__"]}
{"id": "C152", "title": "Warnings are issued exactly when a default or an out-of-range value is used", "statement": "A Spectrum method called with an explicit cut-off frequency, or that uses none, issues no UserWarning in any state; the four HF/LF getters called without cut-off issue exactly one, on every spectrum with non-negative frequencies and after any history; get_smm10_HF without cut-off issues one for each of Hm0_HF and Tmm10_HF that had not been computed before, and none when repeated. The Battjes-Groenendijk routine warns about the slope exactly if it lies outside 1:250 to 1:20 (so never with the default) and about Rayleigh-distributed waves exactly if the distribution it returns is empty.", "quantifier": "all spectra, all histories of calls, all limits; all wave heights, depths, slopes, tolerances and numbers of waves for which the routine returns", "why_tests_cant": "Whether a call warns depends on the whole history of earlier calls.", "anchors": ["deltares_wave_toolbox/spectrum.py:get_smm10_HF", "deltares_wave_toolbox/spectrum.py:get_Hm0_HF", "deltares_wave_toolbox/spectrum.py:get_Tmm10_LF", "deltares_wave_toolbox/cores/core_wavefunctions.py:compute_BattjesGroenendijk_wave_height_distribution"]}
{"id": "C153", "title": "Welch spectrum with a rectangular window is the average of raw spectra", "statement": "For any series, segment length N >= 2 and overlap, Series.get_spectrum with window 'boxcar' returns the frequency axis of the raw spectra (get_spectrum_raw) of its segments and, strictly between zero and the Nyquist frequency, the average over the segments of their raw densities; the density at zero is 0 and that at the Nyquist frequency (N even) half the average. With one segment as long as the record it is the raw spectrum itself, apart from these two bins.", "quantifier": "all records, sampling steps, segment lengths and overlaps", "why_tests_cant": "Relates two independent routes for every record, length and overlap.", "anchors": ["deltares_wave_toolbox/series.py:get_spectrum", "deltares_wave_toolbox/series.py:get_spectrum_raw", "deltares_wave_toolbox/cores/core_spectral.py:compute_spectrum_welch_wrapper", "deltares_wave_toolbox/cores/core_spectral.py:compute_spectrum_time_series"]}
{"id": "C154", "title": "Welch spectrum of a sea of several regular waves", "statement": "For a record of any length of a constant level plus any number of regular waves, each fitting a whole number p >= 2 of times in a segment of N samples (2(p+1) < N) with numbers at least three apart, Series.get_spectrum with the Hann window (N given explicitly with any overlap below N, or following from the desired resolution) returns exactly the sum of the three-line spectra of the waves, whatever their phases; the densities times the bin width add up to sum a^2/2; Tp is exactly the period of the wave with the largest amplitude; Hm0 squared is 16 times the energy with weight 10/9 for waves in odd and 8/9 for waves in even bins (waves away from the Nyquist frequency).", "quantifier": "all record lengths, segment lengths, overlaps, numbers of waves, amplitudes, phases, levels and sampling steps", "why_tests_cant": "Holds for every number of components and all their phases.", "anchors": ["deltares_wave_toolbox/series.py:get_spectrum", "deltares_wave_toolbox/cores/core_spectral.py:compute_spectrum_welch_wrapper", "deltares_wave_toolbox/spectrum.py:get_Hm0", "deltares_wave_toolbox/spectrum.py:get_Tp"]}
{"id": "C155", "title": "Smoothed peak period against peak period", "statement": "For an equidistant spectrum whose largest density (at least 1e-10) is attained at one interior grid point, Spectrum.get_Tp() is the inverse of that frequency and get_Tps() the inverse of a positive frequency less than half a step away from it, strictly on the side of the higher neighbouring density; the two periods are equal if and only if the neighbouring densities are equal. In particular get_Tps() is exactly the wave period for the raw spectrum of a record holding a whole number of regular waves, and exactly the period of the highest wave for the Welch (Hann) spectrum of the seas of C154.", "quantifier": "all equidistant spectra with a single interior maximum; all record lengths, amplitudes, phases and sampling steps", "why_tests_cant": "Holds for every spectrum shape and every record; tests compare a few values.", "anchors": ["deltares_wave_toolbox/spectrum.py:get_Tps", "deltares_wave_toolbox/spectrum.py:get_Tp", "deltares_wave_toolbox/cores/core_wavefunctions.py:compute_tps"]}
{"id": "C156", "title": "Spectral parameters of a sampled continuous spectrum", "statement": "Let a continuous density be sampled on an equidistant axis. If f^m S(f) varies by at most eps over two frequency steps, compute_moment with limits selecting the grid points f_i..f_j is within 7/6 eps (f_j - f_i) of the integral of f^m S between f_i and f_j. When the axis between a >= 0 and b is refined, the moments of every order tend to the integrals (a first sample at frequency zero being skipped for negative orders does no harm when f^m S is continuous), get_Hm0 tends to 4 sqrt(m0), get_Tmm10, get_Tm01 and get_Tm02 to the mean periods of the continuous spectrum, and, for a density with a single highest point at frequency p > 0, get_Tp tends to 1/p.", "quantifier": "all continuous densities, all axes, orders and limits; all numbers of points in the limit statements", "why_tests_cant": "A limit statement over all numbers of points and all continuous functions; tests compare particular discretisations.", "anchors": ["deltares_wave_toolbox/cores/core_wavefunctions.py:compute_moment", "deltares_wave_toolbox/spectrum.py:get_Hm0", "deltares_wave_toolbox/spectrum.py:get_Tmm10", "deltares_wave_toolbox/spectrum.py:get_Tm01", "deltares_wave_toolbox/spectrum.py:get_Tm02", "deltares_wave_toolbox/spectrum.py:get_Tp"]}
{"id": "C157", "title": "Wave-by-wave analysis of a sampled continuous surface", "statement": "Let a continuous surface elevation be sampled with a constant step dt that resolves its zeros (every zero in the record is a passage from one side to the other that lasts at least dt on both sides). Then the crossing times reported for the samples are, one for one and in order, within dt of the down-going (up-going) zeros of the surface, and the number of waves is one less than the number of these zeros. If the slope of the surface is at most L, the reported waves are one for one those between the successive zeros: each period is within 2 dt of the distance of the zeros, each crest and trough is a value of the surface within the wave, and no point of the wave lies more than L dt above the crest or below the trough.", "quantifier": "all continuous (Lipschitz) surface elevations, record lengths and sampling steps that resolve the zeros", "why_tests_cant": "Relates the samples to every continuous signal they may come from; tests only see finitely many signals.", "anchors": ["deltares_wave_toolbox/cores/core_time.py:determine_zero_crossing", "deltares_wave_toolbox/cores/core_time.py:determine_params_individual_waves", "deltares_wave_toolbox/series.py:get_crossing"]}
{"id": "C158", "title": "Superposition and measurement noise in spectral wave heights", "statement": "Take two records on one time axis and their sample-wise sum, make each a Series and estimate each spectrum with the same arguments of get_spectrum (or get_spectrum_raw). If one spectrum exists all three do, on the same frequencies; bin by bin the square root of the density of the sum is at most the sum and at least the difference of those of the two records; and Hm0 between any limits within the axis satisfies the same triangle inequality. Consequently an error of at most eps in every sample of a record changes Hm0 by at most (16/sqrt 3) eps with get_spectrum (any window, overlap, padding, resolution accepted) and by at most 8 eps with get_spectrum_raw.", "quantifier": "all pairs of records of equal length on an equidistant time axis, all arguments of get_spectrum, all limits within the frequency axis, all errors", "why_tests_cant": "A test perturbs a few records with a few errors; the bound is a statement about every record, every error and every accepted estimator setting.", "anchors": ["deltares_wave_toolbox/series.py:get_spectrum", "deltares_wave_toolbox/series.py:get_spectrum_raw", "deltares_wave_toolbox/spectrum.py:get_Hm0", "deltares_wave_toolbox/cores/core_spectral.py:compute_spectrum_welch_wrapper", "deltares_wave_toolbox/cores/core_wavefunctions.py:compute_moment"]}
{"id": "C159", "title": "Welch spectrum through any cosine-sum window: no loss, no distant leakage, right peak", "statement": "get_spectrum with any of scipy's cosine-sum windows (hann, hamming, blackman, nuttall, blackmanharris, flattop and their abbreviations), with explicit segments of N samples and any overlap or with a desired resolution giving segments of N samples, of a record of a constant level plus any number of regular waves that each fit a whole number of times (at least 5, below the Nyquist bin minus 4) in a segment and are at least nine bins apart: the densities are non-negative, zero five or more bins away from every wave, integrate to exactly half the squared amplitude around each wave and in total to the sum of those, and the peak period is exactly the period of the highest wave. Windows that need a parameter raise ValueError when requested by name.", "quantifier": "all such windows, segment lengths, overlaps, record lengths, levels, numbers of waves, amplitudes and phases", "why_tests_cant": "Each test has one window and one sea; that no energy is lost or leaks far away is a statement about all of them, exact and independent of the phases and the overlap.", "anchors": ["deltares_wave_toolbox/series.py:get_spectrum", "deltares_wave_toolbox/cores/core_spectral.py:compute_spectrum_welch_wrapper", "deltares_wave_toolbox/spectrum.py:get_Tp"]}
{"id": "C160", "title": "Separation of incident and reflected waves: bounded amplification of energy and noise", "statement": "decompose_linear_ZS with non-negative weights (sum W) and detLim > 0 in finite depth: whatever the gauges recorded, the squares of the incident and the reflected signal summed over time are together at most W / (2 detLim) times the weighted sum of squares of the gauge signals. Two sets of gauge records that differ by some error give incident and reflected signals whose differences obey the same bound with the error in place of the records; when no reading is off by more than eps, the mean square differences of the two signals add up to at most (W eps)^2 / (2 detLim).", "quantifier": "all record lengths, numbers and positions of gauges, weights, depths, limits, gauge signals and errors", "why_tests_cant": "The amplification depends on the worst frequency, gauge spacing and error record; a test has one of each. The bound is the reason for the determinant limit.", "anchors": ["deltares_wave_toolbox/cores/core_wave_decomposition.py:decompose_linear_ZS"]}
{"id": "C161", "title": "A record run backwards or turned upside down", "statement": "On a uniform time axis and for a record without exact zeros, the zero-up-crossings of the reversed record are the zero-down-crossings of the record at the mirrored times (t[0] + t[-1] - t), in the opposite order, and the individual waves between them have the same heights, periods, crests and troughs in the opposite order; when no two samples are equal the crest and trough times are mirrored too. The record turned upside down has the same wave heights and periods, with crests and troughs exchanged. Hence Series(t, x) and Series(t, -x[::-1]) hold the same waves in the opposite order. With exact zeros the crossing times may differ (finding).", "quantifier": "all uniform axes, all records without exact zeros, all waves", "why_tests_cant": "The search for crossings and the choice of the first extreme sample are not symmetric in time; a statement for all records needs a proof that the asymmetry never shows in heights and periods.", "anchors": ["deltares_wave_toolbox/cores/core_time.py:determine_zero_crossing", "deltares_wave_toolbox/cores/core_time.py:determine_params_individual_waves", "deltares_wave_toolbox/series.py:Series"]}
{"id": "C162", "title": "Created JONSWAP and Pierson-Moskowitz spectra do not depend on the grid in the limit", "statement": "create_spectrum_jonswap scales the JONSWAP formula with a quadrature on the caller's own axis. On uniform axes from a to b (a above 2^-52, l_fmax = 0) the spectrum object has exactly the requested Hm0 on every axis, and as the axis is refined its densities tend uniformly to the JONSWAP formula scaled by the exact integral, Tmm10, Tm01 and Tm02 tend to the quotients of the exact moments of the formula, and Tp tends to 1/fp when fp lies on the axis and the peak factor is at least 1. For create_spectrum_piersonmoskowitz the limit is the textbook formula 5/16 Hm0^2 fp^4 f^-5 exp(-5/4 (fp/f)^4), divided by the fraction of the energy between a and b.", "quantifier": "all 2^-52 < a < b, all fp, hm0, gammaPeak > 0, all grid sizes", "why_tests_cant": "a limit over all grid sizes; the tests compare two fixed tables", "anchors": ["deltares_wave_toolbox/cores/core_wavefunctions.py:create_spectrum_jonswap", "deltares_wave_toolbox/cores/core_wavefunctions.py:create_spectrum_piersonmoskowitz", "deltares_wave_toolbox/cores/core_wavefunctions.py:create_spectrum_object_jonswap", "deltares_wave_toolbox/spectrum.py:get_Tm02"]}
{"id": "C163", "title": "Window names give the textbook windows", "statement": "The window argument of get_spectrum / compute_spectrum_welch_wrapper accepts scipy's names and abbreviations; for boxcar, hann, hamming, blackman, nuttall, blackmanharris, flattop, bartlett and cosine a segment of n >= 2 samples is multiplied by the textbook window in its periodic form (value at sample j = shape at j/n, half a sample off centre for cosine). All of them are symmetric (sample n-j has the weight of sample j), have values of size at most 1 (1.000000003 for flattop) and reach 1 in the middle of a segment of even length.", "quantifier": "all segment lengths n >= 2, all names and abbreviations, all samples", "why_tests_cant": "all lengths; no test uses a window other than the default", "anchors": ["deltares_wave_toolbox/cores/core_spectral.py:compute_spectrum_welch_wrapper", "deltares_wave_toolbox/series.py:get_spectrum"]}
{"id": "C164", "title": "Battjes-Groenendijk: accuracy of the iteration and order of the points", "statement": "For every transition height there is exactly one composite Weibull distribution (shapes 2 and 3.6) whose branches meet there and whose normalised mean square is 1. When compute_BattjesGroenendijk_wave_height_distribution returns a distribution with a tolerance below 1, its last height is within the fraction `tolerance` of the smaller of the heights that this exact distribution and the Rayleigh distribution exceed with probability 1/nwave, and the logarithm of the returned probability at the transition height is within the factors (1 +- tolerance)^-2 of the exact one; two tolerances give heights that differ by at most the sum of the tolerances times the exact height. If the last height is not below the transition height the probabilities do not increase; for a single wave the curve goes back to height 0 (finding).", "quantifier": "all positive wave heights and depths, all slopes, tolerances below 1 and numbers of waves for which the routine returns", "why_tests_cant": "The exact distribution is only defined by an integral condition; accuracy must hold for all inputs and iteration histories.", "anchors": ["deltares_wave_toolbox/cores/core_wavefunctions.py:compute_BattjesGroenendijk_wave_height_distribution"]}
{"id": "C165", "title": "Moments of a smooth spectrum are accurate to fourth order", "statement": "compute_moment of a density sampled on an equidistant axis between limits that select at least three grid points differs from the integral between those grid points by at most (M4 L / 180 + M3 / 24) df^4, where M3, M4 bound the third and fourth derivative of f^m S(f) and L is the width of the band (for an odd number of points without the M3 term). Consequently Hm0, Tm01 and Tm02 of a sampled smooth density converge to the values of the density with the fourth power of the number of points, and Tmm10 too if the axis does not start at zero.", "quantifier": "all densities with four continuous derivatives, all equidistant axes, all limits and orders", "why_tests_cant": "An error bound for all smooth densities and resolutions.", "anchors": ["deltares_wave_toolbox/cores/core_wavefunctions.py:compute_moment", "deltares_wave_toolbox/spectrum.py:get_Hm0", "deltares_wave_toolbox/spectrum.py:get_Tm01", "deltares_wave_toolbox/spectrum.py:get_Tm02", "deltares_wave_toolbox/spectrum.py:get_Tmm10"]}
{"id": "C166", "title": "Spectra with several columns are stored but give no parameters", "statement": "A Spectrum built from densities with two or more columns (one row per frequency, e.g. a directional spectrum) is accepted, but every parameter method (get_Hm0, get_Hm0_HF/LF, get_Tps, get_Tmm10(_HF/LF), get_Tm01, get_Tm02, get_s0p, get_smm10(_HF)) raises ValueError or IndexError for every frequency range and after any previous calls; get_Tp raises too, except for a range holding exactly one grid frequency, where it returns the inverse of that frequency whatever the densities are. create_series raises ValueError without drawing random numbers. plot works: one curve per column against the frequencies and never a period line.", "quantifier": "all accepted frequency axes, all numbers of columns >= 2, all densities, all frequency ranges, all call histories, all random generators", "why_tests_cant": "Unbounded arrays, ranges and histories of calls (the getters fill caches that later getters read).", "anchors": ["deltares_wave_toolbox/spectrum.py:Spectrum", "deltares_wave_toolbox/cores/core_wavefunctions.py:compute_moment", "deltares_wave_toolbox/cores/core_wavefunctions.py:compute_tps"]}
{"id": "C167", "title": "create_spectrum_jonswap for every argument", "statement": "For every equidistant axis of non-negative frequencies and all real fp, hm0, gammaPeak and l_fmax: l_fmax other than 0 or 1 raises ValueError; if no frequency exceeds machine epsilon, or gammaPeak <= 0 with fp nonzero, the result is NaN; in all other cases (negative fp, negative hm0 and, for fp = 0, any gammaPeak included) no exception is raised and the result is a non-negative multiple of the JONSWAP formula (of f^-5 for fp = 0), zero at frequencies up to epsilon, whose zeroth moment over the axis (l_fmax = 0) or up to infinity (l_fmax = 1) is hm0^2/16. The Pierson-Moskowitz spectrum does not depend on the sign of fp. A frequency array that is neither a non-empty row nor a non-empty column raises ValueError.", "quantifier": "all equidistant non-negative axes of two or more points, all real parameters, all array shapes", "why_tests_cant": "Unbounded axes and real parameters including the invalid ones the function does not check.", "anchors": ["deltares_wave_toolbox/cores/core_wavefunctions.py:create_spectrum_jonswap", "deltares_wave_toolbox/cores/core_wavefunctions.py:create_spectrum_piersonmoskowitz", "deltares_wave_toolbox/cores/core_wavefunctions.py:compute_moment"]}
{"id": "C168", "title": "Peak periods approximate the peak of the sampled density", "statement": "For a spectrum on an equidistant axis of non-negative frequencies whose densities rise up to a frequency F0 (between the second and the last but one grid frequency, not necessarily on the grid) and fall beyond it, 1/get_Tp() is less than one frequency step from F0, and 1/get_Tps() less than one and a half steps (densities not all below 1e-10). If the densities are samples of a function with second derivative at most -m < 0 and third derivative at most M around the peak, 1/get_Tps() is within 4 M df^2 / m of F0: the smoothed period converges with the square of the step (and is exact for a parabola). Every spectrum of create_spectrum_jonswap with gammaPeak >= 1 is of this kind with F0 = fp.", "quantifier": "all axes, all unimodal densities, all smooth peaks, all JONSWAP parameters", "why_tests_cant": "All densities and all grids, including peaks off the grid and ties between neighbouring densities.", "anchors": ["deltares_wave_toolbox/spectrum.py:Spectrum", "deltares_wave_toolbox/cores/core_wavefunctions.py:compute_tps", "deltares_wave_toolbox/cores/core_wavefunctions.py:create_spectrum_jonswap"]}
{"id": "C169", "title": "The wave-number solver outside the physical range", "statement": "disper checks none of its arguments. An infinite or negative depth fails for every gravity. With gravity zero and a depth of zero or more every returned wave number is zero. With depth zero and gravity not zero the wave numbers are infinite as soon as one frequency is not zero, and all zero otherwise. With negative gravity and positive depth there is one positive constant q0 (with q0 tanh q0 within 1e-21 of 1e-8) such that every wave number is the sign of its frequency times q0 divided by the depth, whatever the size of the frequency and the gravity. So for no depth or gravity that is not positive does a returned value solve the dispersion relation at a non-zero frequency.", "quantifier": "all lists of frequencies, all depths and all gravities", "why_tests_cant": "the claims range over all real frequencies, depths and gravities; a test samples a few combinations.", "anchors": ["deltares_wave_toolbox/cores/core_dispersion.py:disper"]}
{"id": "C170", "title": "No series from a time step that is zero or negative", "statement": "create_series and spectrum2timeseries_object never return a series when the time step is zero or negative, whatever the spectrum, the times, the seed and the state of the generator. spectrum2timeseries itself divides by zero for step zero, and for a negative step with tInit <= tEnd + dt, leaving the generator untouched; for a negative step with tEnd + dt < tInit and non-negative frequencies it returns the times tInit, tInit + dt, ... above tEnd + dt with a signal that is identically zero, whatever the densities, and advances the generator as for a positive step.", "quantifier": "all spectra, start and end times, non-positive steps, seeds and generator states", "why_tests_cant": "the claim ranges over all spectra and all generator states; a test tries a few.", "anchors": ["deltares_wave_toolbox/cores/core_spectral.py:spectrum2timeseries", "deltares_wave_toolbox/cores/core_spectral.py:spectrum2timeseries_object", "deltares_wave_toolbox/spectrum.py:create_series"]}
{"id": "C171", "title": "Battjes-Groenendijk outside the physical range", "statement": "compute_BattjesGroenendijk_wave_height_distribution checks neither depth nor number of waves. With a tolerance below 9 and at least one wave: at depth zero, for a negative depth with 3.24 |hm0|/4 < 2.69 |depth| and hm0 not zero, and for a positive depth with a cotangent between -5.8/0.35 and 0 and hm0 not zero, it returns NaN without exception. For a depth that is not positive and a positive slope no returned wave height is positive; a negative depth with 2.69 |depth| < 3.24 |hm0|/4 and a normalised transition height of at most 2.75 does return a distribution, with a negative transition height. With zero waves it returns empty arrays or fails, never a distribution.", "quantifier": "all wave heights, depths, slopes, tolerances, wave counts", "why_tests_cant": "the claim ranges over all real depths, heights, slopes and tolerances; a test samples some.", "anchors": ["deltares_wave_toolbox/cores/core_wavefunctions.py:compute_BattjesGroenendijk_wave_height_distribution"]}
{"id": "C172", "title": "Still water", "statement": "A spectrum without any energy on a uniform non-negative frequency axis never makes a default call raise: after any history of calls with any limits, get_Hm0 is 0, get_Tmm10, get_Tm01, get_Tm02 are NaN, get_Tps is -999, get_Tp is the period of the highest frequency, get_Hm0_HF is 0, get_Tmm10_HF and get_Hm0_LF are NaN, get_s0p is 0 and get_smm10 and get_smm10_HF are NaN. On every range with limits in the right order Hm0 is 0 and Tmm10 NaN, and compute_spectrum_params gives six NaN values. get_spectrum of a record at any constant level, with any settings, and get_spectrum_raw of a record of zeros, are such spectra whenever they return.", "quantifier": "all axes, constant levels, spectral settings, ranges and histories of calls", "why_tests_cant": "the claim ranges over all axes, settings and call histories; a test samples some.", "anchors": ["deltares_wave_toolbox/spectrum.py:get_Hm0", "deltares_wave_toolbox/spectrum.py:get_Tps", "deltares_wave_toolbox/spectrum.py:get_s0p", "deltares_wave_toolbox/cores/core_spectral.py:compute_spectrum_params", "deltares_wave_toolbox/series.py:get_spectrum"]}
{"id": "C173", "title": "Wave height and mean periods between frequency limits are accurate in double precision", "statement": "For a spectrum on a uniform axis of doubles (each frequency right to a few units in the last place, at most 2^24 steps and 1024 Hz from zero, step between 2^-30 and 2^10) with densities that are doubles, zero or between 2^-200 and 2^200: get_Hm0, get_Tmm10, get_Tm01 and get_Tm02 with limits fmin and fmax, where each limit is clearly nearest to one frequency of the axis (by at least 1/16 of a step: never halfway), fmin is not negative, fmax is not beyond the axis and the two nearest frequencies differ, return in IEEE double precision - whatever the order of the additions and with a pow and sqrt of the usual accuracy - the value of the exact computation between the same limits, up to a relative error of about 6e-14 times the number of frequencies between zero and fmax (2.5 and 1.5 times that for the periods). The same grid points are selected as in exact arithmetic, and where the exact period is undefined because the band has no energy, the double precision one is undefined too.", "quantifier": "all axes, densities, limits, orders of summation, and accurate pow and sqrt implementations", "why_tests_cant": "tests compare a few bands with a tolerance; a limit that rounding moves to the neighbouring frequency changes the band itself, and whether that can happen must be settled for every axis, limit and rounding error", "anchors": ["deltares_wave_toolbox/spectrum.py:get_Hm0", "deltares_wave_toolbox/spectrum.py:get_Tmm10", "deltares_wave_toolbox/spectrum.py:get_Tm01", "deltares_wave_toolbox/spectrum.py:get_Tm02", "deltares_wave_toolbox/cores/core_wavefunctions.py:compute_moment", "deltares_wave_toolbox/cores/core_engine.py:approx_array_index"]}
{"id": "C174", "title": "A Welch spectrum is the mean of the spectra of its segments, with overlaps or gaps", "statement": "get_spectrum with explicit settings (use_dfDesired=False; segments of n samples, any supported window, any noverlap below n, where 0 stands for half a segment and a negative value for a gap) of a Series of at least n samples: cut the record into the segments of n samples that start every n - noverlap samples and fit, make each a Series of its own and call get_spectrum with the same arguments on it; every one of these calls succeeds on the same frequencies, and the density of the whole record is at every frequency the mean of theirs. Samples in no segment (in the gaps, and after the last segment) have no influence on the result or on which error is raised; with a gap so large that no second segment fits, the spectrum is that of the first n samples alone. A desired resolution of 0 raises ValueError, and so does a negative one that does not round to segments of 0 samples. compute_spectrum_welch_wrapper of an empty signal returns two empty arrays.", "quantifier": "all records, time axes, windows, segment lengths, overlaps, gaps and transform lengths", "why_tests_cant": "the identity must hold for every record and every combination of segment length and overlap; a test compares one combination, usually with half a segment of overlap, and never records that differ only in unused samples", "anchors": ["deltares_wave_toolbox/series.py:get_spectrum", "deltares_wave_toolbox/cores/core_spectral.py:compute_spectrum_welch_wrapper"]}
{"id": "C175", "title": "The wave number in double precision solves the dispersion relation to 1e-12", "statement": "disper(w, h, g) computed in double precision, with library functions exp, tanh and ** that are accurate to four units in the last place and a correctly rounded square root: for every list of frequencies, finite positive depth and gravity, and every frequency in it with 1.01e-8 <= w^2 h / g <= 65536 (no value out of the range of doubles), the returned value is sign(w) times the wave number k of w^2 = g k tanh(k h), with a relative error of at most 1e-12; no square root of a negative number is taken, no NaN is replaced by 0, the list keeps its length, and the frequency 0 gives exactly 0. In particular the branch for small |a c|, decided on rounded numbers, and the cancellation in -b + sqrt(...) cost no more accuracy than that. Below 1.01e-8 (for a depth of at most 2^50 and a gravity of at least 2^-50) the result is, with the same accuracy, sign(w) times the k of k h tanh(k h) = max(w^2 h / g, 1e-8): all frequencies of one sign below the clamp get the same wave number.", "quantifier": "all lists of frequencies, all depths and gravities in the stated range, all library functions within the stated accuracy", "why_tests_cant": "the accuracy must hold for every frequency and depth, for all roundings of exp, tanh, ** and sqrt that a platform may deliver, and on both sides of a branch that is decided on rounded numbers", "anchors": ["deltares_wave_toolbox/cores/core_dispersion.py:disper"]}
{"id": "C176", "title": "The variance density of a record in double precision differs from the exact one by the error of the FFT only", "statement": "compute_spectrum_time_series(t, x, df) in double precision, for an accepted time axis with step dt between 2^-40 and 2^40, 2 to 2^40 samples, a Fourier transform whose root-mean-square error is at most eps (2^-45 <= eps <= 0.1) of the root mean square of the result, and any order of summation in np.mean: it does not raise; it has exactly as many bins as the spectrum computed in exact arithmetic ((N//2+1)//m for m bins per averaged bin, provided df is 0 or not within rounding of a half-integer multiple of the resolution); every frequency is off by at most (m+8) 2^-52 of itself; and the total over all bins of |S - S_exact| times the bin width is at most (4.5 eps + m 2^-50) times the mean square of the record. Without averaging, the sum of S times the frequency step equals the mean square plus the squared mean (plus, for an even number of samples, the squared alternating mean) up to 5 eps times the mean square.", "quantifier": "all records and time axes in the stated range, all averaging widths clear of a tie, all transforms within the stated accuracy, all orders of summation", "why_tests_cant": "the error must be bounded for every record length and content and for every FFT library within the accuracy, and the number of bins is decided on rounded numbers", "anchors": ["deltares_wave_toolbox/cores/core_spectral.py:compute_spectrum_time_series", "deltares_wave_toolbox/cores/core_spectral.py:time2freq_nyquist", "deltares_wave_toolbox/cores/core_spectral.py:frequency_averaging"]}
{"id": "C177", "title": "The band filter in double precision differs from the exact one by three times the error of the FFT", "statement": "bandpassfilter(t, x, flow, fhigh) in double precision, for an accepted time axis with step between 2^-40 and 2^40, 2 to 2^40 samples, forward and inverse Fourier transforms with root-mean-square error at most eps <= 0.1 of the result, and limits that are not within rounding of midway between two harmonics: it does not raise, keeps exactly the harmonics that the exact filter keeps, returns as many samples as the record has, and the root mean square over the record of the difference from the exactly filtered samples is at most 3 eps times the root mean square of the record.", "quantifier": "all records and time axes in the stated range, all limits clear of a tie, all transforms within the stated accuracy", "why_tests_cant": "the bound must hold for every record, length, band and FFT library", "anchors": ["deltares_wave_toolbox/cores/core_spectral.py:bandpassfilter", "deltares_wave_toolbox/cores/core_spectral.py:unfold_spectrum", "deltares_wave_toolbox/cores/core_spectral.py:applybandfilter"]}
{"id": "C178", "title": "In double precision, transforming a record to frequencies and back returns the record up to the error of the FFT", "statement": "freq2time(time2freq(t, x)[1]) in double precision, and the same through time2freq_nyquist and unfold_spectrum, for every record on an accepted time axis and forward and inverse Fourier transforms with root-mean-square error at most eps <= 0.1 of the result: neither call raises; the result has the length of the record, for even and odd lengths; it differs from the record by at most 3 eps times its root mean square, in the root-mean-square sense, so that no single sample is off by more than 3 eps times the root of the sum of squares. The sum of the squared moduli of the components is the number of samples times the sum of squares up to 3 eps of itself. (The documentation promises an identical record.)", "quantifier": "all records and accepted time axes, all transforms within the stated accuracy", "why_tests_cant": "the bound must hold for every record, length and FFT library", "anchors": ["deltares_wave_toolbox/cores/core_spectral.py:time2freq", "deltares_wave_toolbox/cores/core_spectral.py:freq2time", "deltares_wave_toolbox/cores/core_spectral.py:unfold_spectrum"]}
{"id": "C179", "title": "Interpolated density in double precision", "statement": "In double precision the density that spectrum2timeseries interpolates at a generated frequency is within 2^-49 of the largest given density from the piecewise linear interpolant there. It is never negative when the densities are not (zero, or at least 2^-100) and each given frequency is zero or at least half the next, as on every axis starting at zero with constant step, so that the amplitude is a number. Without the condition on the axis this is false: a density falling linearly from 3.3 at 0.03 Hz to zero at 0.4 Hz, half a minute at two samples per second, gives the density -4.4e-16 at 0.39999999999999997 Hz, whose square root is NaN, and the whole series is NaN.", "quantifier": "all increasing arrays of frequencies and densities (doubles), all frequencies; rounding of every operation, no fused multiply-add", "why_tests_cant": "one frequency in a gap of one place below a given one, and one in many densities, shows the NaN; no finite set of spectra shows its absence", "anchors": ["deltares_wave_toolbox/cores/core_spectral.py:spectrum2timeseries", "deltares_wave_toolbox/cores/core_spectral.py:spectrum2timeseries_object"]}
{"id": "C180", "title": "Synthesised series in double precision", "statement": "In double precision, for every time step between 2^-40 and 2^40 and every draw of phases, spectrum2timeseries of a valid spectrum (increasing frequencies of which each is zero or at least half the next, densities zero or at least 2^-100) succeeds; the series is as long as its time axis and differs from the random-phase sum of the interpolated densities and the drawn phases by at most 4 (eps + 2^-45) times the root of the sum of S df, in the root-mean-square sense (and 2^-50), where eps is the accuracy of the inverse Fourier transform. For an even number of samples its mean square is the sum of S df below the Nyquist frequency plus a Nyquist term, up to 12 (eps + 2^-45) of the sum.", "quantifier": "all spectra, time axes, time steps, numbers drawn, and inverse transforms, square roots and exponentials within the stated accuracy", "why_tests_cant": "the bound is over all spectra, lengths and random draws and all implementations of the transform of the stated accuracy", "anchors": ["deltares_wave_toolbox/cores/core_spectral.py:spectrum2timeseries", "deltares_wave_toolbox/cores/core_spectral.py:spectrum2timeseries_object"]}
{"id": "C181", "title": "The spectrum of a synthesised series at every resolution, and why an odd number of samples breaks the round trip", "statement": "Complements C75 and C91 at the level of the functions. For an even number 2n of samples, compute_spectrum_time_series at any requested resolution is frequency_averaging of the fine densities on k/(2 n dt) that are 0 at k = 0, the interpolated density for 0 < k < n whatever the phases, and at k = n the density times cos^2 of exactly the last phase drawn. For an odd number of samples (the usual outcome of whole numbers of seconds, as both end times are included) there is no such round trip: the record is one sample short of the period of the signal, its spectrum has other frequencies, and the missing sample r turns up as a density 2 dt r^2 / N at zero frequency, where nothing was put in.", "quantifier": "all valid spectra (strictly increasing frequencies, non-negative densities), all generators, generator states and seeds below 2^32, all start and end times and positive time steps, all requested resolutions", "why_tests_cant": "The phases are random: a test sees one draw of one spectrum, and agreement for a few draws or within a tolerance does not show that the densities are recovered exactly for every draw.", "anchors": ["deltares_wave_toolbox/cores/core_spectral.py:spectrum2timeseries", "deltares_wave_toolbox/cores/core_spectral.py:compute_spectrum_time_series", "deltares_wave_toolbox/spectrum.py:create_series", "deltares_wave_toolbox/series.py:get_spectrum_raw"]}
{"id": "C182", "title": "A created JONSWAP spectrum has the prescribed wave height in double precision", "statement": "In binary64 arithmetic, on a uniform frequency axis that the object accepts and with l_fmax = 0, create_spectrum_jonswap returns unscaled densities times one positive factor (each density up to one relative rounding 2^-53), and the wave height Hm0 of the returned densities - both the exact one and the one get_Hm0 computes in double precision - equals the prescribed hm0 up to a relative error of 2 (f_max+h)/h/2^44. The only conditions are that no unscaled density is below 2^-300 without being zero, that their exact zeroth moment is between 2^-60 and 2^40 and that hm0 is between 2^-20 and 2^20.", "quantifier": "all frequency axes of doubles near a uniform grid (any length >= 2), all peak frequencies and gammas for which the unscaled densities meet the range condition, all prescribed heights in range, every summation order of np.sum, every np.sqrt and ** within the stated accuracy", "why_tests_cant": "The rounding error depends on every frequency, density and on the order of summation; a test sees one platform and a few axes.", "anchors": ["deltares_wave_toolbox/cores/core_wavefunctions.py:create_spectrum_jonswap", "deltares_wave_toolbox/cores/core_wavefunctions.py:compute_moment", "deltares_wave_toolbox/spectrum.py:get_Hm0"]}
{"id": "C183", "title": "The shape of a JONSWAP spectrum in double precision", "statement": "In binary64 arithmetic the unscaled density that create_spectrum_jonswap computes at a frequency f_i of at least 2/5 of the peak frequency equals C f_i^-5 exp(-1.25 nu^-4) gammaPeak^A, with nu = f_i/f_p and A = exp(-(nu-1)^2 / (2 sigma^2)), up to a relative error of 2^-35 (3e-11), for gammaPeak between 1 and 20, frequencies from 2^-20 to 2^10 Hz, and f_i/f_p up to 2^40; in particular it is positive and takes sigma_a strictly below the peak and sigma_b from the peak on, also when f_i and f_p are neighbouring doubles.", "quantifier": "all double (rational) frequencies, peak frequencies and gammas in those ranges; every exp and ** within a few units in the last place", "why_tests_cant": "The error of every operation depends on the operands, with cancellation in nu - 1 near the peak and amplification by the exponentials; a test samples a few values on one platform.", "anchors": ["deltares_wave_toolbox/cores/core_wavefunctions.py:create_spectrum_jonswap"]}
{"id": "C184", "title": "Wave height of a spectrum with underflowing densities in double precision", "statement": "In binary64 arithmetic, the zeroth moment over the whole of an accepted uniform axis of ANY non-negative double densities - tiny, subnormal and zero ones included - equals the exact moment of the same densities on the exact axis up to a relative error of (f_max+h)/h/2^44, provided that moment is at least 2^-500. get_Hm0 of such densities is accurate likewise. Consequently create_spectrum_jonswap (l_fmax = 0) returns densities that are its unscaled ones times one positive factor, each up to one rounding 2^-53 and 2^-1022 absolutely, with exact Hm0 and double-precision get_Hm0 equal to the prescribed hm0 up to 2 (f_max+h)/h/2^44, also when the exponential exp(-1.25 nu^-4) underflows far below the peak.", "quantifier": "all frequency axes of doubles near a uniform grid (any length >= 2), all lists of non-negative doubles of the same length, all peak frequencies, non-negative gammas and heights in range, every summation order of np.sum, every np.sqrt, exp and ** within the stated accuracy and non-negative on non-negative bases", "why_tests_cant": "Underflow behaviour depends on the axis, on the peak frequency and on the library; a test samples a few spectra, mostly without subnormal densities.", "anchors": ["deltares_wave_toolbox/cores/core_wavefunctions.py:create_spectrum_jonswap", "deltares_wave_toolbox/cores/core_wavefunctions.py:compute_moment", "deltares_wave_toolbox/spectrum.py:get_Hm0"]}
