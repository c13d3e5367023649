c("C24", P, "fourier_round_trip spectrum_round_trip transform_conjSymmetric")
c("C25", P, "unfold_inverts_fold")
c("C26", P, "transform_axes transform_rejects")
c("C27", Q, "raw_spectrum_energy raw_spectrum_variance_odd raw_spectrum_nyquist_doubled",
  "False of the code for an even number of samples: the Nyquist bin is counted twice (witness). Proved for odd sample counts, and the exact energy for all.")
c("C28", P, "averaging_block_means averaging_conserves_energy averaging_bounds averaging_axis_uniform averaging_identity averaging_factor averaging_equal_frequencies averaging_backwards averaging_too_short")
c("C29", P, "spectrum_routes_agree")
c("C30", P, "coherence_range coherence_symmetric coherence_self")
c("C31", Q, "coherence_ignores_phase coherence_of_unrelated_phases",
  "False of the code: the modulus is taken before averaging, so phases do not matter at all (proved) and unrelated phases give coherence 1 (witness).")
c("C32", Q, "bandpass_components_partial bandpass_passes_only_band bandpass_drops_highest_bin bandpass_kills_inband_cosine bandpass_drops_mean",
  "False of the code: the mean and the highest in-band bin are dropped (witness). Proved: exactly which components are kept.")
c("C33", P, "bandpass_linear bandpass_idempotent bandpass_zero_mean_contraction bandpass_full_band")
c("C34", Q, "low_high_split_partial low_high_split_exact low_high_split_loses_wave",
  "False of the code: the highest bin of the low part is dropped (witness). Proved: what exactly is lost, and when nothing is.")
c("C35", P, "synth_formula synth_object synth_object_single synth_rejects")
c("C36", P, "synth_formula random_phase_energy synth_energy", "Explicit random-phase formula; the Nyquist bin has half weight and its energy depends on the last phase.")
c("C37", P, "synth_seeded_reproducible synth_unseeded_advances")
c("C38", P, "moment_linear moment_raises_independent moment_nonneg moment_defined moment_pos")
c("C39", P, "moment_exact_quadratic")
c("C40", P, "moment_tail tail_integral_fin tail_integral_inf moment_tail_order_four", "Order 4 divides by zero (proved).")
c("C41", P, "moment_range_honoured moment_range_exists moment_default_is_full moment_single_bound_ignored",
  "A single given bound is ignored when the other one is left at -1 (proved finding).")
c("C44", P, "mean_period_ordering mean_period_ordering_from_zero mean_period_ordering_fails_at_zero", "With a zero first frequency Tm-1,0 >= Tm01 can fail (witness).")
c("C45", P, "getters_agree_with_params params_nan_iff")
c("C46", P, "get_Tp_spec get_Tp_complete get_Tp_defined isPeakPeriod_unique")
c("C55", P, "spectrum_getters_history_independent spectrum_call_keeps_data spectrum_after_data")
c("C56", Q, "steepness_honours_range_partial hf_lf_default_cutoff_partial stale_smm10 stale_s0p stale_cutoff smm10_depends_on_history",
  "False of the code: cached Hm0/Tps/Tmm10 of another range are reused (witness). Proved for histories that use one range.")
c("C57", Q, "spectrum_init_iff_partial spectrum_init_sound spectrum_init_rejects spectrum_init_accepts_two_columns",
  "False of the code for two-column densities, which are accepted (witness). Proved for 1D inputs.")
c("C42", P, "jonswap_height jonswap_height_axis_smaller")
c("C43", P, "jonswap_peak jonswapShape_max piersonMoskowitz_is_jonswap jonswap_defaults")
c("C47", Q, "tps_near_peak_partial tps_interior tps_twin tps_scale tps_edge_negative tps_sentinel",
  "False of the code when the maximum is at an edge of the axis (witness: a negative period) or when no branch applies (-999). Proved: for an interior maximum, the fitted period lies within the neighbouring bins.")
c("C60", P, "series_getters skewness_defined skewness_shift skewness_scale skewness_neg skewness_reverse asymmetry_defined asymmetry_shift asymmetry_scale asymmetry_neg asymmetry_reverse hilbert_re", "Definitions over the reals; all laws for every signal; the real part of the analytic signal is the signal.")
c("C61", Q, "tpd_spec_partial tpd_single_bin_nan tpd_threshold tpd_no_energy",
  "False of the code: the threshold is effectively 64% of the maximum instead of 80% (witness), and a single selected bin gives NaN. Proved with the 64% band.")
c("C48", P, "bg_consistent bg_returns bg_fuel_independent bgE_eq_second_moment weibull_deriv bg_large_tolerance",
  "Termination proved for every tolerance in (0, 9); from 9 on the function fails with an unbound local (finding).")
c("C58", Q, "get_spectrum_resolution_partial get_spectrum_explicit get_spectrum_short_fails welch_zero_overlap_is_half get_spectrum_coarse_df",
  "Proved whenever 2 <= round(1/(dt df)) <= number of samples. Refuted: for records no longer than half a segment get_spectrum raises ValueError (overlap is not reduced with the segment); an explicit overlap of 0 becomes half a segment.")
c("C62", P, "welch_energy welch_ok welch_shift welch_scale welch_constant hann_energy_pos",
  "scipy.signal.welch modelled from its documentation and source (exact arithmetic); the windows of `windowNames`.")
c("C49", P, "disper_deep_fails disper_shallow_fails", "Finding: with infinite or negative depth every call raises UnboundLocalError, because the line after the if reads q.")
c("C50", P, "disper_odd disper_zero disper_similar", "")
c("C51", P, "dispersion_unique wave_number_unique disper_fixed_point", "")
c("C63", Q, "disper_accurate disper_elementwise disper_sign disp_two_rounds", "Proved with relative error 1e-6 in exact arithmetic; the 2.5e-16 of the documentation is not proved.")
c("C64", P, "disper_clamped disper_inaccurate_low", "Finding: w^2 h/g is clamped at 1e-8, below which the returned wave number is constant, hence wrong by an arbitrarily large factor.")
c("C52", P, "decompose_recovers decompose_no_reflection zsSolve_recovers", "Components strictly below the Nyquist frequency; wave numbers those returned by disper (see C66 for the exact ones).")
c("C53", P, "decompose_components", "")
c("C54", P, "decompose_rejects decompose_accepts_bad_weights decomposeZS_ok", "Finding: the weight check uses 'or' and the sum check is > 1, so weights outside (0, 1] and sums below 2 are accepted. The rest of the checks are proved.")
c("C65", P, "decompose_components zsSolve_least_squares", "")
c("C66", P, "decompose_physical zsSolve_stable", "")
c("C67", P, "decompose_deep_fails decompose_negative_detLim", "Finding: infinite depth raises UnboundLocalError; a negative detLim yields NaN everywhere.")
c("C68", P, "decompose_series decompose_series_default decompose_series_missing decompose_series_too_many decompose_series_none", "Finding: with fewer series than locations no error is raised, the missing gauges count as a flat surface.")
c("C69", P, "zsDet_two decompose_singular_spacing", "")
c("C70", P, "series_signal_never_changes series_results_history_independent reanalysis_history_independent series_holds_last_analysis", "")
c("C71", P, "series_statistics series_statistics_empty waves_within_signal_range", "")
c("C72", P, "bandpass_series", "")
c("C73", P, "stored_crossings stored_crossings_periods stored_crossings_misleading", "Finding when minimum_wave removes a wave: the stored crossings are those where a kept wave starts plus the last one, so their differences are not the periods (witness). Proved: exactly which crossings are stored.")
c("C74", P, "fcutoff_waves fcutoff_above_nyquist fcutoff_positive_trough", "Finding: with fcutoff a trough can be positive and a height 0 (witness). The rest is proved.")
c("C62", P, "welch_energy welch_ok welch_shift welch_scale welch_constant hann_energy_pos hann_half_overlap welch_rejects",
  "scipy.signal.welch modelled from its documentation and source (exact arithmetic); the windows of `windowNames`.")
c("C63", Q, "disper_accurate disper_elementwise disper_sign disp_two_rounds disper_default_gravity", "Proved with relative error 1e-6 in exact arithmetic; the 2.5e-16 of the documentation is not proved.")
c("C75", P, "spectrum_series_spectrum random_phase_components", "Exact arithmetic, even number of samples (stated in the property).")
c("C77", P, "spectrum_raw", "")
c("C76", P, "plot_exceedance plot_rayleigh rayleigh_curve_above plot_rayleigh_bg", "The points handed to matplotlib are modelled. Findings: highest wave at probability 0 on a log axis; theoretical curve is shifted by (n+1)/n.")
c("C78", P, "series_plot spectrum_plot spectrum_plot_shows", "The points handed to matplotlib are modelled.")
c("C48", P, "bg_consistent bg_returns bg_fuel_independent bgE_eq_second_moment weibull_deriv bg_large_tolerance bg_defaults bg_empty", "The while loop is modelled with fuel; termination and independence of the fuel are proved. scipy gammainc/gamma/exponweib as their defining formulas.")
c("C63", P, "disper_accurate disper_elementwise disper_sign disp_two_rounds disper_default_gravity disper_documented_accuracy_false", "Relative error 1e-13 proved for all inputs in exact arithmetic (first approximation bounded by a verified grid and two analytic tails, then a convergence bound for each round); the documented 2.5e-16 is refuted by a witness.")
c("C79", P, "crossings_balance crossings_alternate crossings_time_reversal touching_zero_counts", "Balance, alternation and time reversal for zero-free signals; touching_zero_counts is the finding for exact zeros (for every n).")
c("C80", P, "spectrum_energy_scaling spectrum_tps_scaling spectrum_tps_sentinel", "Any call history. Finding: the 1e-10 threshold makes Tps depend on the unit of the densities.")
c("C83", P, "get_crossing_exact get_crossing_stored", "")
c("C84", P, "create_series_draws", "numpy's generator is an arbitrary state machine.")
c("C85", P, "series_assertion_iff series_unit_dependent uniform_check_exact", "Exact arithmetic. Finding: the test compares a variance with a step, so it depends on the unit of time.")
c("C81", P, "moment_split energy_split energy_split_default energy_split_odd_fails", "The parity condition is part of the property; energy_split_odd_fails shows it is needed.")
c("C82", P, "mean_periods_in_band mean_periods_in_axis", "Any call history.")
c("C86", P, "spectrum_time_unit moment_axis_scaling", "Any call history.")
c("C87", P, "steepness_uses_last cutoff_uses_last smm10HF_new", "Any call history; LastResult is defined on the calls only.")
c("C88", P, "highest_waves_any_history highest_waves_clear_cut", "Exact companion of C19: what is true with ties.")
c("C89", P, "plot_hist histogram_sizes", "np.histogram modelled in exact arithmetic; the bars handed to matplotlib.")
c("C90", P, "crossings_of_parts crossings_prefix longer_record_keeps_waves longer_series_keeps_waves", "Exact arithmetic; the object-level statement uses the default analysis (down-crossings, no cut-off).")
c("C91", P, "round_trip_identity", "Equality of the two Spectrum objects, all attributes included.")
c("C92", P, "raw_spectrum_invariant raw_spectrum_scales raw_spectrum_offset", "raw_spectrum_congr gives the general form: only the moduli of the Fourier coefficients matter.")
c("C93", P, "disper_bounds disper_increasing disper_depth wave_number_bounds wave_number_growth wave_number_depth", "Exact arithmetic; above the clamp w^2 h/g >= 1e-8 of C64. The exact solution has the bounds without tolerance (wave_number_*).")
c("C94", P, "superposition height_mono moment_mono larger_band_less_energy", "Any call histories. Exact arithmetic.")
c("C95", P, "tps_total tps_short tps_edge_side smoothedPeak_unique maximaAre_exists maximaAre_unique tps_sentinel", "Exact arithmetic; equality of densities is exact.")
c("C96", P, "get_spectrum_total", "Hann window, default nfft; exact arithmetic (round of an exact quotient).")
c("C97", P, "spectrum_init_any_shape several_columns_raise", "Exact companion of C57.")
c("C98", P, "bandpass_raised_limit bandpass_bands_add low_high_split_raised", "Exact companion of C32/C34.")
c("C99", P, "decompose_linear decompose_offset decompose_delay decompose_reversal decompose_translate decompose_weights decompose_mirror", "Exact arithmetic; accepted axes and gauge arrays (as in C52-C54).")
c("C100", P, "jonswap_hm0 jonswap_unit jonswap_peak_factor", "Exact arithmetic.")
c("C101", P, "coherence_formula coherence_units coherence_one_iff coherence_unaveraged isFactor_unique", "Exact companion of C31: the phases never enter.")
c("C102", P, "simpson_exact_weights simpsonWeight_bounds simpsonWeight_sum moment_exact moment_exact_default moment_zero_between", "Exact arithmetic; ranges on the axis (the tail beyond it: C40).")
c("C103", P, "raw_hm0_exact raw_energy raw_hm0_bounds raw_hm0_std", "Exact arithmetic; default resolution.")
c("C104", P, "sinusoid_parameters sinusoid_parity", "Exact arithmetic. Finding: Hm0 and Tm-1,0 of narrow-band records depend on the parity of the bin.")
c("C105", P, "bandpass_mixture", "Exact arithmetic.")
c("C106", P, "rawBin_mixture mixture_moments", "Exact arithmetic; default resolution.")
c("C107", P, "bandpass_compose bandpass_commute bandpass_reverse bandpass_rotate bandpass_offset", "Exact arithmetic.")
c("C108", P, "asymmetry_delayed_skewness start_independent harmonic_skewness_asymmetry", "Exact arithmetic; sinusoids fit in the record.")
c("C109", P, "heights_stable heights_noise hrms_noise", "Exact arithmetic.")
c("C110", P, "heights_scale", "Exact arithmetic.")
c("C111", P, "bg_unit bg_more_waves", "Exact arithmetic; fuel-indexed iteration (the statement holds at every fuel).")
c("C112", P, "averaging_two_steps averaging_linear averaging_centres", "Exact arithmetic.")
c("C113", P, "f64_nearest f64_double third_count count_any count_typed floor_f64_div hs_double highest_double exceedance_double bins_double highest_double_misses", "IEEE binary64 rounding of the counting expressions (no overflow); finding: highest_waves(1/49) of 49 waves.")
c("C114", P, "axis_noise_accepted arange_axis_accepted epoch_axis_rejected", "IEEE binary64. Finding: absolute tolerance rejects epoch times.")
c("C115", P, "crossings_double", "IEEE binary64 (no overflow, samples away from underflow).")
c("C116", P, "noisy_crossIdx crossTime_noise waves_noise statistics_noise", "Bounds for noise that changes no sample's sign, in exact arithmetic.")
c("C117", P, "interp_sin straddle regular_crossIdx regular_wave regular_statistics", "Continuous sinusoid sampled on an even axis; exact arithmetic over the reals.")
c("C118", P, "unfold_any fold_inverts_unfold unfold_lengths coherence_lengths gauges_lengths", "Findings: a too long spectrum is cut off and a one-element spectrum is broadcast without notice.")
c("C119", P, "series_only_oneD series_rejects_other_shapes", "inputs of any shape")
c("C120", P, "hs_accuracy highest_accuracy hrms_accuracy hs_hmax_double hs_above_hmax", "No overflow. Finding: Hs > Hmax by one unit in the last place for nine waves of height 0.1.")
c("C121", P, "waves_double hs_record_double height_lost", "IEEE double precision; the loss inside the strip near zero is a finding (height_lost)")
c("C122", P, "synth_count synth_count_nominal synth_count_exact synth_times synth_accepted gen_axis_count gen_axis_values synth_drift synth_fits extra_sample epoch_drift", "IEEE double precision, no overflow. Findings: extra_sample, epoch_drift.")
c("C123", P, "fft_axis_double unfold_axis_double band_double factor_double nperseg_double nearest_double limit_loses_component", "IEEE double precision, no overflow. Finding: limit_loses_component.")
c("C124", P, "simpson_double moment_double hm0_double mean_periods_double tm02_double record_axis_double small_spectrum", "IEEE double precision, no overflow; np.sum in any order, pow within 2^-52, correctly rounded sqrt. Default limits; the tail beyond the axis is outside the double model.")
c("C125", P, "int_averaging int_averaging_loss int_averaging_identity", "finding: frequency_averaging allocates its result with the element type of the input (core_spectral.py:82)")
c("C126", P, "int_moment_same int_moment_refused int_moment_never_wrong int_moment_negative int_jonswap_refused", "compute_moment and create_spectrum_jonswap with an int64 frequency axis")
c("C127", P, "wh_caller_arrays series_caller_arrays wh_init_view series_init_facts", "arrays in memory, addresses in objects; arbitrary histories")
c("C128", P, "wh_separate wh_from_values wh_from_arrays series_from_values series_from_arrays", "sharing follows from convert_to_vector returning the caller's own 1D array")
c("C129", P, "spectrum_from_arrays spectrum_getters_current spectrum_stale_results spectrum_from_values", "finding: cached results survive an in-place change of the densities")
c("C130", P, "int_hrms_safe int_hrms_zero int_hrms_nan wrapS_spec storedAs_unique", "Fixed-width two's complement arithmetic (Model/FixedWidth); mean and square root in exact arithmetic.")
c("C131", P, "int_series_safe int_series_small int_crossings_safe differencesFit_of_small", "Float time axis; the low-pass variant (fcutoff > 0) subtracts floats and is the float path.")
c("C132", P, "int_down_crossings int_up_crossings reported_crossing int_wave_lost int_series_raises", "Finding: overflow of the difference of two readings displaces the crossing.")
c("C133", P, "uint_check_iff uint_increasing_iff uint_decreasing_accepted uint_time_accepted", "1D axes.")
c("C134", P, "nan_height_fatal nan_period_local nan_free_same", "Elements Option K, none = NaN (Model/NaN).")
c("C135", P, "gap_series gap_series_stats gap_analysis gaps_only_merge", "Elements Option K, none = NaN; finite uniform time axis, fcutoff = 0.")
c("C136", P, "nan_time_rejected nan_axis_rejected", "1D axes.")
c("C137", P, "nan_moment", "Elements Option K, none = NaN (Model/NaNSpec).")
c("C138", P, "nan_spectrum_params nan_outside_range", "1D spectra.")
c("C139", P, "nan_first_peak nan_peak_skipped nan_tps_away nan_tps_beside", "np.polyfit with a NaN ordinate is modelled as NaN coefficients.")
c("C140", P, "nan_lower_limit nan_default_cutoff nan_hf_is_total", "Finding: a NaN cut-off is silently ignored by the high-frequency methods.")
c("C141", P, "nan_model_refines", "Consistency of the two models of Spectrum.")
c("C142", P, "gap_raw_spectrum gap_raw_object gap_averaging gap_raw_none", "FFT with NaN: any algorithm in which a part of a result that depends on a NaN operand is NaN (structure FftN, inhabited).")
c("C143", P, "gap_filter_depends gap_filter_at gap_filter_none gap_filter_object", "As C142; parts that do not depend on a missing sample are left open.")
c("C144", P, "gap_cutoff_waves", "As C142; the case without a cut-off is C135.")
c("C145", P, "gap_welch gap_welch_object gap_welch_resolution usedSample_iff usedSample_lt usedSamples_le", "1D records; the windows of `windowNames`.")
c("C146", P, "gap_values gap_skewness gap_skewness_none", "Hilbert transform of a record with NaN left open; asymmetry is NaN through its denominator.")
c("C147", P, "nan_tpd", "Elements Option K, none = NaN; densities that are numbers non-negative.")
c("C148", P, "jonswapShape_rises jonswapShape_falls jonswap_tp_near", "Exact real exp and powers.")
c("C149", P, "synth_ensemble", "Exact arithmetic; the generator is any Rng whose numbers have the stated distribution.")
c("C150", P, "welch_lines three_lines_parameters welch_wave_explicit welch_wave_resolution", "Exact arithmetic; Hann window; wave periods that divide the segment.")
c("C151", P, "waves_description series_description description_identifies spectrum_description spectrum_description_default", "Classes themselves (the class name printed by repr is that of the class, not of a subclass).")
c("C152", P, "explicit_silent default_warns steepness_warns bg_warns bg_default_silent", "Counts UserWarnings; numpy's RuntimeWarnings are not counted.")
c("C153", P, "welch_boxcar welch_whole_record", "Exact arithmetic.")
c("C154", P, "welch_sea sea_parameters welch_sea_explicit welch_sea_resolution", "Exact arithmetic; Hann window.")
c("C155", P, "tps_side tps_sinusoid tps_sea", "Exact arithmetic; default limits.")
c("C156", P, "simpson_error sampled_moment sampled_full sampled_moment_tendsto sampled_parameters sampled_peak", "Exact arithmetic.")
c("C157", P, "surface_crossings_down surface_crossings_up surface_waves_down surface_waves_up", "Exact arithmetic.")
c("C158", P, "moment_triangle height_triangle welch_triangle welch_superposition welch_noise raw_triangle raw_superposition", "Exact arithmetic; the windows of `windowNames`.")
c("C159", P, "hann_general window_energy welch_window window_sea_of_lines cosine_window welch_window_explicit welch_window_resolution window_with_parameter", "Exact arithmetic; the Bartlett-Hann, Bohman, exponential, Lanczos, Parzen, Taylor, triangular and Tukey windows of scipy are not modelled.")
c("C160", P, "decompose_energy decompose_noise decompose_noise_bounded", "Exact arithmetic; weights that are not negative, a positive determinant limit, finite depth.")
c("C161", P, "crossings_reversed waves_reversed waves_flipped series_reversed reversed_zeros_differ", "Exact arithmetic; the case of exact zeros is shown to differ by a witness.")
c("C162", P, "jonswap_limit jonswap_limit_peak moskowitz_integral moskowitz_limit", "Exact arithmetic; uniform axes, l_fmax = 0.")
c("C163", P, "window_shape cosine_window_shape window_symmetric windowNames_covered", "Exact arithmetic; the other scipy windows are not modelled.")
c("C164", P, "composite_exists_unique composite_scale_accurate composite_height_accurate composite_prob_accurate bg_accurate bg_tolerances bg_ordered bg_one_wave", "Exact arithmetic; special functions as exact integrals.")
c("C165", P, "simpson_smooth smooth_moment smooth_moment_full smooth_moment_order smooth_parameters", "Exact arithmetic; scipy.integrate.simpson as modelled.")
c("C166", P, "directional_calls directional_series directional_plot", "Exact arithmetic.")
c("C167", P, "jonswap_total jonswap_negative_peak jonswap_bad_shape jonswapScaled_spec jonswapScaled_none", "Exact arithmetic (no underflow of the enhancement exponent).")
c("C168", P, "peak_of_samples peak_of_samples_tp smooth_peak_of_samples parabola_vertex_close jonswap_peak_of_samples specJonswap_up specJonswap_down", "Exact arithmetic.")
c("C169", P, "disper_no_depth disper_no_gravity disper_no_water disper_negative_gravity disper_unphysical", "NaN depths are outside the model")
c("C170", P, "synth_no_backwards create_series_no_backwards synth_backwards", "Start, end and step are Python numbers (numpy scalars give ValueError instead of ZeroDivisionError for step 0).")
c("C171", P, "bg_no_water bg_negative_depth_small bg_negative_depth_large bg_no_height bg_no_waves bg_adverse_slope", "Exact arithmetic; NaN results are the outcome nonFinite. Finding: a distribution of negative heights for a negative depth.")
c("C172", P, "still_spectrum still_ranges still_params still_record", "Exact arithmetic (a constant record whose mean rounds leaves tiny densities in floating point); NaN results are modelled.")
c("C173", P, "band_hm0_double band_mean_periods_double band_mean_periods_undefined", "IEEE binary64 without overflow; summation order arbitrary, pow and sqrt accurate. Limits halfway between two frequencies are excluded (rounding may choose either neighbour).")
c("C174", P, "welch_of_segments welch_unused welch_unused_object welch_large_gap welch_zero_resolution welch_negative_resolution welch_empty", "1D records; the windows of `windowNames`; exact arithmetic. For a resolution of 0 the conversion of an infinity to an integer gives an extreme integer on every platform: ValueError in each case.")
c("C175", P, "wave_numbers_double disperElem_double disperElem_double_all disper_double_constant dispW2F64_clamped disp_two_rounds_double dispStartF64_residual dispRoundF64_residual wave_number_double_zero npElem_exists", "Binary64 without overflow; frequencies and depths between 2^-60 and 2^60 in size (depth at most 2^60). The accuracy of numpy's exp, tanh and ** (four units in the last place) is an assumption of the theorem, a parameter of the model.")
c("C176", P, "spectrum_double raw_energy_double npFftD_exists eightSeconds_accepted", "Binary64 without overflow. The accuracy of numpy's FFT is an assumption of the theorem, a parameter of the model; transforms with double components that meet it exist for every eps from 2^-45 on (npFftD_exists). The exact reference has the axis 0, dt, 2 dt, ... with the step the code computes from the first two times; how far the later times may stray is what monotonic_increasing_constant_step accepts (C22, C114).")
c("C177", P, "bandpass_double npFftD_exists eightSeconds_accepted", "Same assumptions as C176.")
c("C178", P, "round_trip_double fold_round_trip_double parseval_double inverse_double npFftD_exists eightSeconds_accepted", "Same assumptions as C176; the exact statement is C24/C25.")
c("C179", P, "interp_nonneg_double interp_double synth_nan interp_negative", "Binary64 without overflow; np.interp without fused multiply-add (x86-64 builds of numpy). The statement includes its condition on the axis; synth_nan is the counterexample without it, run through the model of spectrum2timeseries.")
c("C180", P, "synth_double synth_double_valid synth_variance_double phaseSum_energy npCexp_exists", "Binary64 without overflow. The accuracy of np.fft.ifft, np.exp and np.sqrt are parameters of the model (NpFftD, NpCexp, NpSqrt), for which existence is proved. The densities are those interpolated at the computed frequencies (C179, C122).")
c("C181", P, "synth_spectrum synth_spectrum_raw synth_spectrum_same_grid synth_object_raw synth_spectrum_odd random_phase_coef", "Exact arithmetic. synth_spectrum_odd shows why an even number of samples is needed; its example gives a density 1/3 at zero frequency from a spectrum without energy there.")
c("C182", P, "scaled_double jonswap_double", "Binary64 without overflow; the accuracies of np.sum, np.sqrt and ** are parameters (NpSum, NpSqrt, NpPow). scaled_double is stated for arbitrary unscaled densities and instantiated on a concrete axis; jonswap_double is the same for the densities that create_spectrum_jonswap computes. The tail of l_fmax = 1 is not covered in double precision (exact: C42, C167).")
c("C183", P, "shape_double", "Binary64 without overflow. Assumed of the library: x ** n for |n| <= 5 within 2^-52 and (-x)**2 = x**2 (NpPow5, exists: roundPow5), exp and ** as in NpElem with a non-negative exp (exists: npElem_nonneg_exists). Below 2/5 of the peak the density is smaller than e^-48 times the power law; no relative bound is claimed there.")
c("C184", P, "jonswap_double_any scaled_any hm0_double_any moment_zero_double simpson_between shape_nonneg", "Binary64 without overflow. Strengthens C124 (order 0) and C182: no lower bound on the densities. Assumed of the library: NpSum, NpSqrt, NpPow, NpElem, and that exp and powers of non-negative numbers are not negative (such functions exist: npPow5_exists, npElem_nonneg_exists'). The tail of l_fmax = 1 is not covered in double precision.")
