{
 "claims": [
  {
   "property": "C01",
   "status": "proved",
   "theorems": [
    "Verif.sort_keeps_waves"
   ],
   "note": "For every argsort tie order."
  },
  {
   "property": "C02",
   "status": "proved",
   "theorems": [
    "Verif.sort_shape_contract",
    "Verif.zeroCrossing_shape_contract",
    "Verif.highest_shape_contract",
    "Verif.exceedance_shape_contract"
   ],
   "note": ""
  },
  {
   "property": "C03",
   "status": "partial",
   "theorems": [
    "Verif.no_waves_always_raises",
    "Verif.highest_no_waves_always_raises",
    "Verif.exceedance_no_waves_always_raises",
    "Verif.no_crossings_no_waves_partial"
   ],
   "note": "False of the code: the shape guard comes before the 'no waves' early return, so empty input always raises (proved). Proved positive part: a signal without crossings gives no waves."
  },
  {
   "property": "C04",
   "status": "proved",
   "theorems": [
    "Verif.down_crossings_exact",
    "Verif.up_crossings_exact"
   ],
   "note": ""
  },
  {
   "property": "C05",
   "status": "proved",
   "theorems": [
    "Verif.down_crossing_times",
    "Verif.up_crossing_times"
   ],
   "note": "Exact arithmetic."
  },
  {
   "property": "C06",
   "status": "proved",
   "theorems": [
    "Verif.up_is_down_of_neg",
    "Verif.typeCross_case_insensitive",
    "Verif.typeCross_validated"
   ],
   "note": ""
  },
  {
   "property": "C07",
   "status": "proved",
   "theorems": [
    "Verif.down_waves_signs",
    "Verif.up_waves_signs",
    "Verif.up_trough_zero_example"
   ],
   "note": "Down-crossing claim proved; for up-crossings the trough may be 0 (witness)."
  },
  {
   "property": "C08",
   "status": "proved",
   "theorems": [
    "Verif.individual_waves_spec",
    "Verif.individual_waves_lengths",
    "Verif.periods_sum"
   ],
   "note": ""
  },
  {
   "property": "C09",
   "status": "proved",
   "theorems": [
    "Verif.individual_waves_spec"
   ],
   "note": ""
  },
  {
   "property": "C10",
   "status": "proved",
   "theorems": [
    "Verif.series_never_fails",
    "Verif.reanalysis_never_fails"
   ],
   "note": ""
  },
  {
   "property": "C100",
   "status": "proved",
   "theorems": [
    "Verif.jonswap_hm0",
    "Verif.jonswap_unit",
    "Verif.jonswap_peak_factor"
   ],
   "note": "Exact arithmetic."
  },
  {
   "property": "C101",
   "status": "proved",
   "theorems": [
    "Verif.coherence_formula",
    "Verif.coherence_units",
    "Verif.coherence_one_iff",
    "Verif.coherence_unaveraged",
    "Verif.isFactor_unique"
   ],
   "note": "Exact companion of C31: the phases never enter."
  },
  {
   "property": "C102",
   "status": "proved",
   "theorems": [
    "Verif.simpson_exact_weights",
    "Verif.simpsonWeight_bounds",
    "Verif.simpsonWeight_sum",
    "Verif.moment_exact",
    "Verif.moment_exact_default",
    "Verif.moment_zero_between"
   ],
   "note": "Exact arithmetic; ranges on the axis (the tail beyond it: C40)."
  },
  {
   "property": "C103",
   "status": "proved",
   "theorems": [
    "Verif.raw_hm0_exact",
    "Verif.raw_energy",
    "Verif.raw_hm0_bounds",
    "Verif.raw_hm0_std"
   ],
   "note": "Exact arithmetic; default resolution."
  },
  {
   "property": "C104",
   "status": "proved",
   "theorems": [
    "Verif.sinusoid_parameters",
    "Verif.sinusoid_parity"
   ],
   "note": "Exact arithmetic. Finding: Hm0 and Tm-1,0 of narrow-band records depend on the parity of the bin."
  },
  {
   "property": "C105",
   "status": "proved",
   "theorems": [
    "Verif.bandpass_mixture"
   ],
   "note": "Exact arithmetic."
  },
  {
   "property": "C106",
   "status": "proved",
   "theorems": [
    "Verif.rawBin_mixture",
    "Verif.mixture_moments"
   ],
   "note": "Exact arithmetic; default resolution."
  },
  {
   "property": "C107",
   "status": "proved",
   "theorems": [
    "Verif.bandpass_compose",
    "Verif.bandpass_commute",
    "Verif.bandpass_reverse",
    "Verif.bandpass_rotate",
    "Verif.bandpass_offset"
   ],
   "note": "Exact arithmetic."
  },
  {
   "property": "C108",
   "status": "proved",
   "theorems": [
    "Verif.asymmetry_delayed_skewness",
    "Verif.start_independent",
    "Verif.harmonic_skewness_asymmetry"
   ],
   "note": "Exact arithmetic; sinusoids fit in the record."
  },
  {
   "property": "C109",
   "status": "proved",
   "theorems": [
    "Verif.heights_stable",
    "Verif.heights_noise",
    "Verif.hrms_noise"
   ],
   "note": "Exact arithmetic."
  },
  {
   "property": "C11",
   "status": "proved",
   "theorems": [
    "Verif.crossings_amplitude_invariant",
    "Verif.crossings_time_equivariant",
    "Verif.individual_waves_rescale",
    "Verif.series_rescale"
   ],
   "note": ""
  },
  {
   "property": "C110",
   "status": "proved",
   "theorems": [
    "Verif.heights_scale"
   ],
   "note": "Exact arithmetic."
  },
  {
   "property": "C111",
   "status": "proved",
   "theorems": [
    "Verif.bg_unit",
    "Verif.bg_more_waves"
   ],
   "note": "Exact arithmetic; fuel-indexed iteration (the statement holds at every fuel)."
  },
  {
   "property": "C112",
   "status": "proved",
   "theorems": [
    "Verif.averaging_two_steps",
    "Verif.averaging_linear",
    "Verif.averaging_centres"
   ],
   "note": "Exact arithmetic."
  },
  {
   "property": "C113",
   "status": "proved",
   "theorems": [
    "Verif.f64_nearest",
    "Verif.f64_double",
    "Verif.third_count",
    "Verif.count_any",
    "Verif.count_typed",
    "Verif.floor_f64_div",
    "Verif.hs_double",
    "Verif.highest_double",
    "Verif.exceedance_double",
    "Verif.bins_double",
    "Verif.highest_double_misses"
   ],
   "note": "IEEE binary64 rounding of the counting expressions (no overflow); finding: highest_waves(1/49) of 49 waves."
  },
  {
   "property": "C114",
   "status": "proved",
   "theorems": [
    "Verif.axis_noise_accepted",
    "Verif.arange_axis_accepted",
    "Verif.epoch_axis_rejected"
   ],
   "note": "IEEE binary64. Finding: absolute tolerance rejects epoch times."
  },
  {
   "property": "C115",
   "status": "proved",
   "theorems": [
    "Verif.crossings_double"
   ],
   "note": "IEEE binary64 (no overflow, samples away from underflow)."
  },
  {
   "property": "C116",
   "status": "proved",
   "theorems": [
    "Verif.noisy_crossIdx",
    "Verif.crossTime_noise",
    "Verif.waves_noise",
    "Verif.statistics_noise"
   ],
   "note": "Bounds for noise that changes no sample's sign, in exact arithmetic."
  },
  {
   "property": "C117",
   "status": "proved",
   "theorems": [
    "Verif.interp_sin",
    "Verif.straddle",
    "Verif.regular_crossIdx",
    "Verif.regular_wave",
    "Verif.regular_statistics"
   ],
   "note": "Continuous sinusoid sampled on an even axis; exact arithmetic over the reals."
  },
  {
   "property": "C118",
   "status": "proved",
   "theorems": [
    "Verif.unfold_any",
    "Verif.fold_inverts_unfold",
    "Verif.unfold_lengths",
    "Verif.coherence_lengths",
    "Verif.gauges_lengths"
   ],
   "note": "Findings: a too long spectrum is cut off and a one-element spectrum is broadcast without notice."
  },
  {
   "property": "C119",
   "status": "proved",
   "theorems": [
    "Verif.series_only_oneD",
    "Verif.series_rejects_other_shapes"
   ],
   "note": "inputs of any shape"
  },
  {
   "property": "C12",
   "status": "proved",
   "theorems": [
    "Verif.highest_is_mean_of_top",
    "Verif.highest_waves_spec",
    "Verif.highest_bad_fraction",
    "Verif.highest_height_multiset"
   ],
   "note": ""
  },
  {
   "property": "C120",
   "status": "proved",
   "theorems": [
    "Verif.hs_accuracy",
    "Verif.highest_accuracy",
    "Verif.hrms_accuracy",
    "Verif.hs_hmax_double",
    "Verif.hs_above_hmax"
   ],
   "note": "No overflow. Finding: Hs > Hmax by one unit in the last place for nine waves of height 0.1."
  },
  {
   "property": "C121",
   "status": "proved",
   "theorems": [
    "Verif.waves_double",
    "Verif.hs_record_double",
    "Verif.height_lost"
   ],
   "note": "IEEE double precision; the loss inside the strip near zero is a finding (height_lost)"
  },
  {
   "property": "C122",
   "status": "proved",
   "theorems": [
    "Verif.synth_count",
    "Verif.synth_count_nominal",
    "Verif.synth_count_exact",
    "Verif.synth_times",
    "Verif.synth_accepted",
    "Verif.gen_axis_count",
    "Verif.gen_axis_values",
    "Verif.synth_drift",
    "Verif.synth_fits",
    "Verif.extra_sample",
    "Verif.epoch_drift"
   ],
   "note": "IEEE double precision, no overflow. Findings: extra_sample, epoch_drift."
  },
  {
   "property": "C123",
   "status": "proved",
   "theorems": [
    "Verif.fft_axis_double",
    "Verif.unfold_axis_double",
    "Verif.band_double",
    "Verif.factor_double",
    "Verif.nperseg_double",
    "Verif.nearest_double",
    "Verif.limit_loses_component"
   ],
   "note": "IEEE double precision, no overflow. Finding: limit_loses_component."
  },
  {
   "property": "C124",
   "status": "proved",
   "theorems": [
    "Verif.simpson_double",
    "Verif.moment_double",
    "Verif.hm0_double",
    "Verif.mean_periods_double",
    "Verif.tm02_double",
    "Verif.record_axis_double",
    "Verif.small_spectrum"
   ],
   "note": "IEEE double precision, no overflow; np.sum in any order, pow within 2^-52, correctly rounded sqrt. Default limits; the tail beyond the axis is outside the double model."
  },
  {
   "property": "C125",
   "status": "proved",
   "theorems": [
    "Verif.int_averaging",
    "Verif.int_averaging_loss",
    "Verif.int_averaging_identity"
   ],
   "note": "finding: frequency_averaging allocates its result with the element type of the input (core_spectral.py:82)"
  },
  {
   "property": "C126",
   "status": "proved",
   "theorems": [
    "Verif.int_moment_same",
    "Verif.int_moment_refused",
    "Verif.int_moment_never_wrong",
    "Verif.int_moment_negative",
    "Verif.int_jonswap_refused"
   ],
   "note": "compute_moment and create_spectrum_jonswap with an int64 frequency axis"
  },
  {
   "property": "C127",
   "status": "proved",
   "theorems": [
    "Verif.wh_caller_arrays",
    "Verif.series_caller_arrays",
    "Verif.wh_init_view",
    "Verif.series_init_facts"
   ],
   "note": "arrays in memory, addresses in objects; arbitrary histories"
  },
  {
   "property": "C128",
   "status": "proved",
   "theorems": [
    "Verif.wh_separate",
    "Verif.wh_from_values",
    "Verif.wh_from_arrays",
    "Verif.series_from_values",
    "Verif.series_from_arrays"
   ],
   "note": "sharing follows from convert_to_vector returning the caller's own 1D array"
  },
  {
   "property": "C129",
   "status": "proved",
   "theorems": [
    "Verif.spectrum_from_arrays",
    "Verif.spectrum_getters_current",
    "Verif.spectrum_stale_results",
    "Verif.spectrum_from_values"
   ],
   "note": "finding: cached results survive an in-place change of the densities"
  },
  {
   "property": "C13",
   "status": "proved",
   "theorems": [
    "Verif.highest_antitone",
    "Verif.standard_height_order"
   ],
   "note": ""
  },
  {
   "property": "C130",
   "status": "proved",
   "theorems": [
    "Verif.int_hrms_safe",
    "Verif.int_hrms_zero",
    "Verif.int_hrms_nan",
    "Verif.wrapS_spec",
    "Verif.storedAs_unique"
   ],
   "note": "Fixed-width two's complement arithmetic (Model/FixedWidth); mean and square root in exact arithmetic."
  },
  {
   "property": "C131",
   "status": "proved",
   "theorems": [
    "Verif.int_series_safe",
    "Verif.int_series_small",
    "Verif.int_crossings_safe",
    "Verif.differencesFit_of_small"
   ],
   "note": "Float time axis; the low-pass variant (fcutoff > 0) subtracts floats and is the float path."
  },
  {
   "property": "C132",
   "status": "proved",
   "theorems": [
    "Verif.int_down_crossings",
    "Verif.int_up_crossings",
    "Verif.reported_crossing",
    "Verif.int_wave_lost",
    "Verif.int_series_raises"
   ],
   "note": "Finding: overflow of the difference of two readings displaces the crossing."
  },
  {
   "property": "C133",
   "status": "proved",
   "theorems": [
    "Verif.uint_check_iff",
    "Verif.uint_increasing_iff",
    "Verif.uint_decreasing_accepted",
    "Verif.uint_time_accepted"
   ],
   "note": "1D axes."
  },
  {
   "property": "C134",
   "status": "proved",
   "theorems": [
    "Verif.nan_height_fatal",
    "Verif.nan_period_local",
    "Verif.nan_free_same"
   ],
   "note": "Elements Option K, none = NaN (Model/NaN)."
  },
  {
   "property": "C135",
   "status": "proved",
   "theorems": [
    "Verif.gap_series",
    "Verif.gap_series_stats",
    "Verif.gap_analysis",
    "Verif.gaps_only_merge"
   ],
   "note": "Elements Option K, none = NaN; finite uniform time axis, fcutoff = 0."
  },
  {
   "property": "C136",
   "status": "proved",
   "theorems": [
    "Verif.nan_time_rejected",
    "Verif.nan_axis_rejected"
   ],
   "note": "1D axes."
  },
  {
   "property": "C137",
   "status": "proved",
   "theorems": [
    "Verif.nan_moment"
   ],
   "note": "Elements Option K, none = NaN (Model/NaNSpec)."
  },
  {
   "property": "C138",
   "status": "proved",
   "theorems": [
    "Verif.nan_spectrum_params",
    "Verif.nan_outside_range"
   ],
   "note": "1D spectra."
  },
  {
   "property": "C139",
   "status": "proved",
   "theorems": [
    "Verif.nan_first_peak",
    "Verif.nan_peak_skipped",
    "Verif.nan_tps_away",
    "Verif.nan_tps_beside"
   ],
   "note": "np.polyfit with a NaN ordinate is modelled as NaN coefficients."
  },
  {
   "property": "C14",
   "status": "proved",
   "theorems": [
    "Verif.exceedance_kth_highest",
    "Verif.exceedance_bad_percentage"
   ],
   "note": ""
  },
  {
   "property": "C140",
   "status": "proved",
   "theorems": [
    "Verif.nan_lower_limit",
    "Verif.nan_default_cutoff",
    "Verif.nan_hf_is_total"
   ],
   "note": "Finding: a NaN cut-off is silently ignored by the high-frequency methods."
  },
  {
   "property": "C141",
   "status": "proved",
   "theorems": [
    "Verif.nan_model_refines"
   ],
   "note": "Consistency of the two models of Spectrum."
  },
  {
   "property": "C142",
   "status": "proved",
   "theorems": [
    "Verif.gap_raw_spectrum",
    "Verif.gap_raw_object",
    "Verif.gap_averaging",
    "Verif.gap_raw_none"
   ],
   "note": "FFT with NaN: any algorithm in which a part of a result that depends on a NaN operand is NaN (structure FftN, inhabited)."
  },
  {
   "property": "C143",
   "status": "proved",
   "theorems": [
    "Verif.gap_filter_depends",
    "Verif.gap_filter_at",
    "Verif.gap_filter_none",
    "Verif.gap_filter_object"
   ],
   "note": "As C142; parts that do not depend on a missing sample are left open."
  },
  {
   "property": "C144",
   "status": "proved",
   "theorems": [
    "Verif.gap_cutoff_waves"
   ],
   "note": "As C142; the case without a cut-off is C135."
  },
  {
   "property": "C145",
   "status": "proved",
   "theorems": [
    "Verif.gap_welch",
    "Verif.gap_welch_object",
    "Verif.gap_welch_resolution",
    "Verif.usedSample_iff",
    "Verif.usedSample_lt",
    "Verif.usedSamples_le"
   ],
   "note": "1D records; the windows of `windowNames`."
  },
  {
   "property": "C146",
   "status": "proved",
   "theorems": [
    "Verif.gap_values",
    "Verif.gap_skewness",
    "Verif.gap_skewness_none"
   ],
   "note": "Hilbert transform of a record with NaN left open; asymmetry is NaN through its denominator."
  },
  {
   "property": "C147",
   "status": "proved",
   "theorems": [
    "Verif.nan_tpd"
   ],
   "note": "Elements Option K, none = NaN; densities that are numbers non-negative."
  },
  {
   "property": "C148",
   "status": "proved",
   "theorems": [
    "Verif.jonswapShape_rises",
    "Verif.jonswapShape_falls",
    "Verif.jonswap_tp_near"
   ],
   "note": "Exact real exp and powers."
  },
  {
   "property": "C149",
   "status": "proved",
   "theorems": [
    "Verif.synth_ensemble"
   ],
   "note": "Exact arithmetic; the generator is any Rng whose numbers have the stated distribution."
  },
  {
   "property": "C15",
   "status": "partial",
   "theorems": [
    "Verif.exceedance_antitone_partial",
    "Verif.exceedance_not_monotone"
   ],
   "note": "False of the code for percentages selecting no wave (returns 0; witness). Proved for all percentages selecting at least one wave."
  },
  {
   "property": "C150",
   "status": "proved",
   "theorems": [
    "Verif.welch_lines",
    "Verif.three_lines_parameters",
    "Verif.welch_wave_explicit",
    "Verif.welch_wave_resolution"
   ],
   "note": "Exact arithmetic; Hann window; wave periods that divide the segment."
  },
  {
   "property": "C151",
   "status": "proved",
   "theorems": [
    "Verif.waves_description",
    "Verif.series_description",
    "Verif.description_identifies",
    "Verif.spectrum_description",
    "Verif.spectrum_description_default"
   ],
   "note": "Classes themselves (the class name printed by repr is that of the class, not of a subclass)."
  },
  {
   "property": "C152",
   "status": "proved",
   "theorems": [
    "Verif.explicit_silent",
    "Verif.default_warns",
    "Verif.steepness_warns",
    "Verif.bg_warns",
    "Verif.bg_default_silent"
   ],
   "note": "Counts UserWarnings; numpy's RuntimeWarnings are not counted."
  },
  {
   "property": "C153",
   "status": "proved",
   "theorems": [
    "Verif.welch_boxcar",
    "Verif.welch_whole_record"
   ],
   "note": "Exact arithmetic."
  },
  {
   "property": "C154",
   "status": "proved",
   "theorems": [
    "Verif.welch_sea",
    "Verif.sea_parameters",
    "Verif.welch_sea_explicit",
    "Verif.welch_sea_resolution"
   ],
   "note": "Exact arithmetic; Hann window."
  },
  {
   "property": "C155",
   "status": "proved",
   "theorems": [
    "Verif.tps_side",
    "Verif.tps_sinusoid",
    "Verif.tps_sea"
   ],
   "note": "Exact arithmetic; default limits."
  },
  {
   "property": "C156",
   "status": "proved",
   "theorems": [
    "Verif.simpson_error",
    "Verif.sampled_moment",
    "Verif.sampled_full",
    "Verif.sampled_moment_tendsto",
    "Verif.sampled_parameters",
    "Verif.sampled_peak"
   ],
   "note": "Exact arithmetic."
  },
  {
   "property": "C157",
   "status": "proved",
   "theorems": [
    "Verif.surface_crossings_down",
    "Verif.surface_crossings_up",
    "Verif.surface_waves_down",
    "Verif.surface_waves_up"
   ],
   "note": "Exact arithmetic."
  },
  {
   "property": "C158",
   "status": "proved",
   "theorems": [
    "Verif.moment_triangle",
    "Verif.height_triangle",
    "Verif.welch_triangle",
    "Verif.welch_superposition",
    "Verif.welch_noise",
    "Verif.raw_triangle",
    "Verif.raw_superposition"
   ],
   "note": "Exact arithmetic; the windows of `windowNames`."
  },
  {
   "property": "C159",
   "status": "proved",
   "theorems": [
    "Verif.hann_general",
    "Verif.window_energy",
    "Verif.welch_window",
    "Verif.window_sea_of_lines",
    "Verif.cosine_window",
    "Verif.welch_window_explicit",
    "Verif.welch_window_resolution",
    "Verif.window_with_parameter"
   ],
   "note": "Exact arithmetic; the Bartlett-Hann, Bohman, exponential, Lanczos, Parzen, Taylor, triangular and Tukey windows of scipy are not modelled."
  },
  {
   "property": "C16",
   "status": "proved",
   "theorems": [
    "Verif.highest_rejects_unsorted",
    "Verif.exceedance_rejects_unsorted",
    "Verif.sorted_output_accepted"
   ],
   "note": ""
  },
  {
   "property": "C160",
   "status": "proved",
   "theorems": [
    "Verif.decompose_energy",
    "Verif.decompose_noise",
    "Verif.decompose_noise_bounded"
   ],
   "note": "Exact arithmetic; weights that are not negative, a positive determinant limit, finite depth."
  },
  {
   "property": "C161",
   "status": "proved",
   "theorems": [
    "Verif.crossings_reversed",
    "Verif.waves_reversed",
    "Verif.waves_flipped",
    "Verif.series_reversed",
    "Verif.reversed_zeros_differ"
   ],
   "note": "Exact arithmetic; the case of exact zeros is shown to differ by a witness."
  },
  {
   "property": "C162",
   "status": "proved",
   "theorems": [
    "Verif.jonswap_limit",
    "Verif.jonswap_limit_peak",
    "Verif.moskowitz_integral",
    "Verif.moskowitz_limit"
   ],
   "note": "Exact arithmetic; uniform axes, l_fmax = 0."
  },
  {
   "property": "C163",
   "status": "proved",
   "theorems": [
    "Verif.window_shape",
    "Verif.cosine_window_shape",
    "Verif.window_symmetric",
    "Verif.windowNames_covered"
   ],
   "note": "Exact arithmetic; the other scipy windows are not modelled."
  },
  {
   "property": "C164",
   "status": "proved",
   "theorems": [
    "Verif.composite_exists_unique",
    "Verif.composite_scale_accurate",
    "Verif.composite_height_accurate",
    "Verif.composite_prob_accurate",
    "Verif.bg_accurate",
    "Verif.bg_tolerances",
    "Verif.bg_ordered",
    "Verif.bg_one_wave"
   ],
   "note": "Exact arithmetic; special functions as exact integrals."
  },
  {
   "property": "C165",
   "status": "proved",
   "theorems": [
    "Verif.simpson_smooth",
    "Verif.smooth_moment",
    "Verif.smooth_moment_full",
    "Verif.smooth_moment_order",
    "Verif.smooth_parameters"
   ],
   "note": "Exact arithmetic; scipy.integrate.simpson as modelled."
  },
  {
   "property": "C166",
   "status": "proved",
   "theorems": [
    "Verif.directional_calls",
    "Verif.directional_series",
    "Verif.directional_plot"
   ],
   "note": "Exact arithmetic."
  },
  {
   "property": "C167",
   "status": "proved",
   "theorems": [
    "Verif.jonswap_total",
    "Verif.jonswap_negative_peak",
    "Verif.jonswap_bad_shape",
    "Verif.jonswapScaled_spec",
    "Verif.jonswapScaled_none"
   ],
   "note": "Exact arithmetic (no underflow of the enhancement exponent)."
  },
  {
   "property": "C168",
   "status": "proved",
   "theorems": [
    "Verif.peak_of_samples",
    "Verif.peak_of_samples_tp",
    "Verif.smooth_peak_of_samples",
    "Verif.parabola_vertex_close",
    "Verif.jonswap_peak_of_samples",
    "Verif.specJonswap_up",
    "Verif.specJonswap_down"
   ],
   "note": "Exact arithmetic."
  },
  {
   "property": "C169",
   "status": "proved",
   "theorems": [
    "Verif.disper_no_depth",
    "Verif.disper_no_gravity",
    "Verif.disper_no_water",
    "Verif.disper_negative_gravity",
    "Verif.disper_unphysical"
   ],
   "note": "NaN depths are outside the model"
  },
  {
   "property": "C17",
   "status": "proved",
   "theorems": [
    "Verif.waves_never_corrupted"
   ],
   "note": ""
  },
  {
   "property": "C170",
   "status": "proved",
   "theorems": [
    "Verif.synth_no_backwards",
    "Verif.create_series_no_backwards",
    "Verif.synth_backwards"
   ],
   "note": "Start, end and step are Python numbers (numpy scalars give ValueError instead of ZeroDivisionError for step 0)."
  },
  {
   "property": "C171",
   "status": "proved",
   "theorems": [
    "Verif.bg_no_water",
    "Verif.bg_negative_depth_small",
    "Verif.bg_negative_depth_large",
    "Verif.bg_no_height",
    "Verif.bg_no_waves",
    "Verif.bg_adverse_slope"
   ],
   "note": "Exact arithmetic; NaN results are the outcome nonFinite. Finding: a distribution of negative heights for a negative depth."
  },
  {
   "property": "C172",
   "status": "proved",
   "theorems": [
    "Verif.still_spectrum",
    "Verif.still_ranges",
    "Verif.still_params",
    "Verif.still_record"
   ],
   "note": "Exact arithmetic (a constant record whose mean rounds leaves tiny densities in floating point); NaN results are modelled."
  },
  {
   "property": "C173",
   "status": "proved",
   "theorems": [
    "Verif.band_hm0_double",
    "Verif.band_mean_periods_double",
    "Verif.band_mean_periods_undefined"
   ],
   "note": "IEEE binary64 without overflow; summation order arbitrary, pow and sqrt accurate. Limits halfway between two frequencies are excluded (rounding may choose either neighbour)."
  },
  {
   "property": "C174",
   "status": "proved",
   "theorems": [
    "Verif.welch_of_segments",
    "Verif.welch_unused",
    "Verif.welch_unused_object",
    "Verif.welch_large_gap",
    "Verif.welch_zero_resolution",
    "Verif.welch_negative_resolution",
    "Verif.welch_empty"
   ],
   "note": "1D records; the windows of `windowNames`; exact arithmetic. For a resolution of 0 the conversion of an infinity to an integer gives an extreme integer on every platform: ValueError in each case."
  },
  {
   "property": "C175",
   "status": "proved",
   "theorems": [
    "Verif.wave_numbers_double",
    "Verif.disperElem_double",
    "Verif.disperElem_double_all",
    "Verif.disper_double_constant",
    "Verif.dispW2F64_clamped",
    "Verif.disp_two_rounds_double",
    "Verif.dispStartF64_residual",
    "Verif.dispRoundF64_residual",
    "Verif.wave_number_double_zero",
    "Verif.npElem_exists"
   ],
   "note": "Binary64 without overflow; frequencies and depths between 2^-60 and 2^60 in size (depth at most 2^60). The accuracy of numpy's exp, tanh and ** (four units in the last place) is an assumption of the theorem, a parameter of the model."
  },
  {
   "property": "C176",
   "status": "proved",
   "theorems": [
    "Verif.spectrum_double",
    "Verif.raw_energy_double",
    "Verif.npFftD_exists",
    "Verif.eightSeconds_accepted"
   ],
   "note": "Binary64 without overflow. The accuracy of numpy's FFT is an assumption of the theorem, a parameter of the model; transforms with double components that meet it exist for every eps from 2^-45 on (npFftD_exists). The exact reference has the axis 0, dt, 2 dt, ... with the step the code computes from the first two times; how far the later times may stray is what monotonic_increasing_constant_step accepts (C22, C114)."
  },
  {
   "property": "C177",
   "status": "proved",
   "theorems": [
    "Verif.bandpass_double",
    "Verif.npFftD_exists",
    "Verif.eightSeconds_accepted"
   ],
   "note": "Same assumptions as C176."
  },
  {
   "property": "C178",
   "status": "proved",
   "theorems": [
    "Verif.round_trip_double",
    "Verif.fold_round_trip_double",
    "Verif.parseval_double",
    "Verif.inverse_double",
    "Verif.npFftD_exists",
    "Verif.eightSeconds_accepted"
   ],
   "note": "Same assumptions as C176; the exact statement is C24/C25."
  },
  {
   "property": "C179",
   "status": "proved",
   "theorems": [
    "Verif.interp_nonneg_double",
    "Verif.interp_double",
    "Verif.synth_nan",
    "Verif.interp_negative"
   ],
   "note": "Binary64 without overflow; np.interp without fused multiply-add (x86-64 builds of numpy). The statement includes its condition on the axis; synth_nan is the counterexample without it, run through the model of spectrum2timeseries."
  },
  {
   "property": "C18",
   "status": "proved",
   "theorems": [
    "Verif.height_statistics_history_independent",
    "Verif.hrms_h2p_history_independent"
   ],
   "note": ""
  },
  {
   "property": "C180",
   "status": "proved",
   "theorems": [
    "Verif.synth_double",
    "Verif.synth_double_valid",
    "Verif.synth_variance_double",
    "Verif.phaseSum_energy",
    "Verif.npCexp_exists"
   ],
   "note": "Binary64 without overflow. The accuracy of np.fft.ifft, np.exp and np.sqrt are parameters of the model (NpFftD, NpCexp, NpSqrt), for which existence is proved. The densities are those interpolated at the computed frequencies (C179, C122)."
  },
  {
   "property": "C181",
   "status": "proved",
   "theorems": [
    "Verif.synth_spectrum",
    "Verif.synth_spectrum_raw",
    "Verif.synth_spectrum_same_grid",
    "Verif.synth_object_raw",
    "Verif.synth_spectrum_odd",
    "Verif.random_phase_coef"
   ],
   "note": "Exact arithmetic. synth_spectrum_odd shows why an even number of samples is needed; its example gives a density 1/3 at zero frequency from a spectrum without energy there."
  },
  {
   "property": "C182",
   "status": "proved",
   "theorems": [
    "Verif.scaled_double",
    "Verif.jonswap_double"
   ],
   "note": "Binary64 without overflow; the accuracies of np.sum, np.sqrt and ** are parameters (NpSum, NpSqrt, NpPow). scaled_double is stated for arbitrary unscaled densities and instantiated on a concrete axis; jonswap_double is the same for the densities that create_spectrum_jonswap computes. The tail of l_fmax = 1 is not covered in double precision (exact: C42, C167)."
  },
  {
   "property": "C183",
   "status": "proved",
   "theorems": [
    "Verif.shape_double"
   ],
   "note": "Binary64 without overflow. Assumed of the library: x ** n for |n| <= 5 within 2^-52 and (-x)**2 = x**2 (NpPow5, exists: roundPow5), exp and ** as in NpElem with a non-negative exp (exists: npElem_nonneg_exists). Below 2/5 of the peak the density is smaller than e^-48 times the power law; no relative bound is claimed there."
  },
  {
   "property": "C184",
   "status": "proved",
   "theorems": [
    "Verif.jonswap_double_any",
    "Verif.scaled_any",
    "Verif.hm0_double_any",
    "Verif.moment_zero_double",
    "Verif.simpson_between",
    "Verif.shape_nonneg"
   ],
   "note": "Binary64 without overflow. Strengthens C124 (order 0) and C182: no lower bound on the densities. Assumed of the library: NpSum, NpSqrt, NpPow, NpElem, and that exp and powers of non-negative numbers are not negative (such functions exist: npPow5_exists, npElem_nonneg_exists'). The tail of l_fmax = 1 is not covered in double precision."
  },
  {
   "property": "C19",
   "status": "partial",
   "theorems": [
    "Verif.significant_period_history_independent_partial",
    "Verif.significant_period_alternates"
   ],
   "note": "False for equal heights at the cut (two calls of get_Hs alternate; witness). Proved when no two waves have equal height."
  },
  {
   "property": "C20",
   "status": "proved",
   "theorems": [
    "Verif.hrms_bounds",
    "Verif.h2p_rayleigh_exceedance"
   ],
   "note": ""
  },
  {
   "property": "C21",
   "status": "partial",
   "theorems": [
    "Verif.series_mean_step_positive_partial",
    "Verif.series_step_deviation_partial",
    "Verif.series_accepts_decreasing",
    "Verif.series_rejects_small_jitter",
    "Verif.series_length_mismatch"
   ],
   "note": "False of the code: the variance test is scale dependent and accepts decreasing axes (witness). Proved: what acceptance does imply."
  },
  {
   "property": "C22",
   "status": "partial",
   "theorems": [
    "Verif.uniform_check_iff_partial",
    "Verif.uniform_check_increasing",
    "Verif.uniform_check_accepts_uniform",
    "Verif.uniform_check_accepts_nonuniform",
    "Verif.uniform_check_short"
   ],
   "note": "False of the code: no absolute value in the tolerance test (witness). Proved: exact characterisation of acceptance."
  },
  {
   "property": "C23",
   "status": "proved",
   "theorems": [
    "Verif.nearest_index",
    "Verif.nearest_index_empty"
   ],
   "note": ""
  },
  {
   "property": "C24",
   "status": "proved",
   "theorems": [
    "Verif.fourier_round_trip",
    "Verif.spectrum_round_trip",
    "Verif.transform_conjSymmetric"
   ],
   "note": ""
  },
  {
   "property": "C25",
   "status": "proved",
   "theorems": [
    "Verif.unfold_inverts_fold"
   ],
   "note": ""
  },
  {
   "property": "C26",
   "status": "proved",
   "theorems": [
    "Verif.transform_axes",
    "Verif.transform_rejects"
   ],
   "note": ""
  },
  {
   "property": "C27",
   "status": "partial",
   "theorems": [
    "Verif.raw_spectrum_energy",
    "Verif.raw_spectrum_variance_odd",
    "Verif.raw_spectrum_nyquist_doubled"
   ],
   "note": "False of the code for an even number of samples: the Nyquist bin is counted twice (witness). Proved for odd sample counts, and the exact energy for all."
  },
  {
   "property": "C28",
   "status": "proved",
   "theorems": [
    "Verif.averaging_block_means",
    "Verif.averaging_conserves_energy",
    "Verif.averaging_bounds",
    "Verif.averaging_axis_uniform",
    "Verif.averaging_identity",
    "Verif.averaging_factor",
    "Verif.averaging_equal_frequencies",
    "Verif.averaging_backwards",
    "Verif.averaging_too_short"
   ],
   "note": ""
  },
  {
   "property": "C29",
   "status": "proved",
   "theorems": [
    "Verif.spectrum_routes_agree"
   ],
   "note": ""
  },
  {
   "property": "C30",
   "status": "proved",
   "theorems": [
    "Verif.coherence_range",
    "Verif.coherence_symmetric",
    "Verif.coherence_self"
   ],
   "note": ""
  },
  {
   "property": "C31",
   "status": "partial",
   "theorems": [
    "Verif.coherence_ignores_phase",
    "Verif.coherence_of_unrelated_phases"
   ],
   "note": "False of the code: the modulus is taken before averaging, so phases do not matter at all (proved) and unrelated phases give coherence 1 (witness)."
  },
  {
   "property": "C32",
   "status": "partial",
   "theorems": [
    "Verif.bandpass_components_partial",
    "Verif.bandpass_passes_only_band",
    "Verif.bandpass_drops_highest_bin",
    "Verif.bandpass_kills_inband_cosine",
    "Verif.bandpass_drops_mean"
   ],
   "note": "False of the code: the mean and the highest in-band bin are dropped (witness). Proved: exactly which components are kept."
  },
  {
   "property": "C33",
   "status": "proved",
   "theorems": [
    "Verif.bandpass_linear",
    "Verif.bandpass_idempotent",
    "Verif.bandpass_zero_mean_contraction",
    "Verif.bandpass_full_band"
   ],
   "note": ""
  },
  {
   "property": "C34",
   "status": "partial",
   "theorems": [
    "Verif.low_high_split_partial",
    "Verif.low_high_split_exact",
    "Verif.low_high_split_loses_wave"
   ],
   "note": "False of the code: the highest bin of the low part is dropped (witness). Proved: what exactly is lost, and when nothing is."
  },
  {
   "property": "C35",
   "status": "proved",
   "theorems": [
    "Verif.synth_formula",
    "Verif.synth_object",
    "Verif.synth_object_single",
    "Verif.synth_rejects"
   ],
   "note": ""
  },
  {
   "property": "C36",
   "status": "proved",
   "theorems": [
    "Verif.synth_formula",
    "Verif.random_phase_energy",
    "Verif.synth_energy"
   ],
   "note": "Explicit random-phase formula; the Nyquist bin has half weight and its energy depends on the last phase."
  },
  {
   "property": "C37",
   "status": "proved",
   "theorems": [
    "Verif.synth_seeded_reproducible",
    "Verif.synth_unseeded_advances"
   ],
   "note": ""
  },
  {
   "property": "C38",
   "status": "proved",
   "theorems": [
    "Verif.moment_linear",
    "Verif.moment_raises_independent",
    "Verif.moment_nonneg",
    "Verif.moment_defined",
    "Verif.moment_pos"
   ],
   "note": ""
  },
  {
   "property": "C39",
   "status": "proved",
   "theorems": [
    "Verif.moment_exact_quadratic"
   ],
   "note": ""
  },
  {
   "property": "C40",
   "status": "proved",
   "theorems": [
    "Verif.moment_tail",
    "Verif.tail_integral_fin",
    "Verif.tail_integral_inf",
    "Verif.moment_tail_order_four"
   ],
   "note": "Order 4 divides by zero (proved)."
  },
  {
   "property": "C41",
   "status": "proved",
   "theorems": [
    "Verif.moment_range_honoured",
    "Verif.moment_range_exists",
    "Verif.moment_default_is_full",
    "Verif.moment_single_bound_ignored"
   ],
   "note": "A single given bound is ignored when the other one is left at -1 (proved finding)."
  },
  {
   "property": "C42",
   "status": "proved",
   "theorems": [
    "Verif.jonswap_height",
    "Verif.jonswap_height_axis_smaller"
   ],
   "note": ""
  },
  {
   "property": "C43",
   "status": "proved",
   "theorems": [
    "Verif.jonswap_peak",
    "Verif.jonswapShape_max",
    "Verif.piersonMoskowitz_is_jonswap",
    "Verif.jonswap_defaults"
   ],
   "note": ""
  },
  {
   "property": "C44",
   "status": "proved",
   "theorems": [
    "Verif.mean_period_ordering",
    "Verif.mean_period_ordering_from_zero",
    "Verif.mean_period_ordering_fails_at_zero"
   ],
   "note": "With a zero first frequency Tm-1,0 >= Tm01 can fail (witness)."
  },
  {
   "property": "C45",
   "status": "proved",
   "theorems": [
    "Verif.getters_agree_with_params",
    "Verif.params_nan_iff"
   ],
   "note": ""
  },
  {
   "property": "C46",
   "status": "proved",
   "theorems": [
    "Verif.get_Tp_spec",
    "Verif.get_Tp_complete",
    "Verif.get_Tp_defined",
    "Verif.isPeakPeriod_unique"
   ],
   "note": ""
  },
  {
   "property": "C47",
   "status": "partial",
   "theorems": [
    "Verif.tps_near_peak_partial",
    "Verif.tps_interior",
    "Verif.tps_twin",
    "Verif.tps_scale",
    "Verif.tps_edge_negative",
    "Verif.tps_sentinel"
   ],
   "note": "False of the code when the maximum is at an edge of the axis (witness: a negative period) or when no branch applies (-999). Proved: for an interior maximum, the fitted period lies within the neighbouring bins."
  },
  {
   "property": "C48",
   "status": "proved",
   "theorems": [
    "Verif.bg_consistent",
    "Verif.bg_returns",
    "Verif.bg_fuel_independent",
    "Verif.bgE_eq_second_moment",
    "Verif.weibull_deriv",
    "Verif.bg_large_tolerance",
    "Verif.bg_defaults",
    "Verif.bg_empty"
   ],
   "note": "The while loop is modelled with fuel; termination and independence of the fuel are proved. scipy gammainc/gamma/exponweib as their defining formulas."
  },
  {
   "property": "C49",
   "status": "proved",
   "theorems": [
    "Verif.disper_deep_fails",
    "Verif.disper_shallow_fails"
   ],
   "note": "Finding: with infinite or negative depth every call raises UnboundLocalError, because the line after the if reads q."
  },
  {
   "property": "C50",
   "status": "proved",
   "theorems": [
    "Verif.disper_odd",
    "Verif.disper_zero",
    "Verif.disper_similar"
   ],
   "note": ""
  },
  {
   "property": "C51",
   "status": "proved",
   "theorems": [
    "Verif.dispersion_unique",
    "Verif.wave_number_unique",
    "Verif.disper_fixed_point"
   ],
   "note": ""
  },
  {
   "property": "C52",
   "status": "proved",
   "theorems": [
    "Verif.decompose_recovers",
    "Verif.decompose_no_reflection",
    "Verif.zsSolve_recovers"
   ],
   "note": "Components strictly below the Nyquist frequency; wave numbers those returned by disper (see C66 for the exact ones)."
  },
  {
   "property": "C53",
   "status": "proved",
   "theorems": [
    "Verif.decompose_components"
   ],
   "note": ""
  },
  {
   "property": "C54",
   "status": "proved",
   "theorems": [
    "Verif.decompose_rejects",
    "Verif.decompose_accepts_bad_weights",
    "Verif.decomposeZS_ok"
   ],
   "note": "Finding: the weight check uses 'or' and the sum check is > 1, so weights outside (0, 1] and sums below 2 are accepted. The rest of the checks are proved."
  },
  {
   "property": "C55",
   "status": "proved",
   "theorems": [
    "Verif.spectrum_getters_history_independent",
    "Verif.spectrum_call_keeps_data",
    "Verif.spectrum_after_data"
   ],
   "note": ""
  },
  {
   "property": "C56",
   "status": "partial",
   "theorems": [
    "Verif.steepness_honours_range_partial",
    "Verif.hf_lf_default_cutoff_partial",
    "Verif.stale_smm10",
    "Verif.stale_s0p",
    "Verif.stale_cutoff",
    "Verif.smm10_depends_on_history"
   ],
   "note": "False of the code: cached Hm0/Tps/Tmm10 of another range are reused (witness). Proved for histories that use one range."
  },
  {
   "property": "C57",
   "status": "partial",
   "theorems": [
    "Verif.spectrum_init_iff_partial",
    "Verif.spectrum_init_sound",
    "Verif.spectrum_init_rejects",
    "Verif.spectrum_init_accepts_two_columns"
   ],
   "note": "False of the code for two-column densities, which are accepted (witness). Proved for 1D inputs."
  },
  {
   "property": "C58",
   "status": "partial",
   "theorems": [
    "Verif.get_spectrum_resolution_partial",
    "Verif.get_spectrum_explicit",
    "Verif.get_spectrum_short_fails",
    "Verif.welch_zero_overlap_is_half",
    "Verif.get_spectrum_coarse_df"
   ],
   "note": "Proved whenever 2 <= round(1/(dt df)) <= number of samples. Refuted: for records no longer than half a segment get_spectrum raises ValueError (overlap is not reduced with the segment); an explicit overlap of 0 becomes half a segment."
  },
  {
   "property": "C59",
   "status": "proved",
   "theorems": [
    "Verif.small_waves_filtered"
   ],
   "note": ""
  },
  {
   "property": "C60",
   "status": "proved",
   "theorems": [
    "Verif.series_getters",
    "Verif.skewness_defined",
    "Verif.skewness_shift",
    "Verif.skewness_scale",
    "Verif.skewness_neg",
    "Verif.skewness_reverse",
    "Verif.asymmetry_defined",
    "Verif.asymmetry_shift",
    "Verif.asymmetry_scale",
    "Verif.asymmetry_neg",
    "Verif.asymmetry_reverse",
    "Verif.hilbert_re"
   ],
   "note": "Definitions over the reals; all laws for every signal; the real part of the analytic signal is the signal."
  },
  {
   "property": "C61",
   "status": "partial",
   "theorems": [
    "Verif.tpd_spec_partial",
    "Verif.tpd_single_bin_nan",
    "Verif.tpd_threshold",
    "Verif.tpd_no_energy"
   ],
   "note": "False of the code: the threshold is effectively 64% of the maximum instead of 80% (witness), and a single selected bin gives NaN. Proved with the 64% band."
  },
  {
   "property": "C62",
   "status": "proved",
   "theorems": [
    "Verif.welch_energy",
    "Verif.welch_ok",
    "Verif.welch_shift",
    "Verif.welch_scale",
    "Verif.welch_constant",
    "Verif.hann_energy_pos",
    "Verif.hann_half_overlap",
    "Verif.welch_rejects"
   ],
   "note": "scipy.signal.welch modelled from its documentation and source (exact arithmetic); the windows of `windowNames`."
  },
  {
   "property": "C63",
   "status": "proved",
   "theorems": [
    "Verif.disper_accurate",
    "Verif.disper_elementwise",
    "Verif.disper_sign",
    "Verif.disp_two_rounds",
    "Verif.disper_default_gravity",
    "Verif.disper_documented_accuracy_false"
   ],
   "note": "Relative error 1e-13 proved for all inputs in exact arithmetic (first approximation bounded by a verified grid and two analytic tails, then a convergence bound for each round); the documented 2.5e-16 is refuted by a witness."
  },
  {
   "property": "C64",
   "status": "proved",
   "theorems": [
    "Verif.disper_clamped",
    "Verif.disper_inaccurate_low"
   ],
   "note": "Finding: w^2 h/g is clamped at 1e-8, below which the returned wave number is constant, hence wrong by an arbitrarily large factor."
  },
  {
   "property": "C65",
   "status": "proved",
   "theorems": [
    "Verif.decompose_components",
    "Verif.zsSolve_least_squares"
   ],
   "note": ""
  },
  {
   "property": "C66",
   "status": "proved",
   "theorems": [
    "Verif.decompose_physical",
    "Verif.zsSolve_stable"
   ],
   "note": ""
  },
  {
   "property": "C67",
   "status": "proved",
   "theorems": [
    "Verif.decompose_deep_fails",
    "Verif.decompose_negative_detLim"
   ],
   "note": "Finding: infinite depth raises UnboundLocalError; a negative detLim yields NaN everywhere."
  },
  {
   "property": "C68",
   "status": "proved",
   "theorems": [
    "Verif.decompose_series",
    "Verif.decompose_series_default",
    "Verif.decompose_series_missing",
    "Verif.decompose_series_too_many",
    "Verif.decompose_series_none"
   ],
   "note": "Finding: with fewer series than locations no error is raised, the missing gauges count as a flat surface."
  },
  {
   "property": "C69",
   "status": "proved",
   "theorems": [
    "Verif.zsDet_two",
    "Verif.decompose_singular_spacing"
   ],
   "note": ""
  },
  {
   "property": "C70",
   "status": "proved",
   "theorems": [
    "Verif.series_signal_never_changes",
    "Verif.series_results_history_independent",
    "Verif.reanalysis_history_independent",
    "Verif.series_holds_last_analysis"
   ],
   "note": ""
  },
  {
   "property": "C71",
   "status": "proved",
   "theorems": [
    "Verif.series_statistics",
    "Verif.series_statistics_empty",
    "Verif.waves_within_signal_range"
   ],
   "note": ""
  },
  {
   "property": "C72",
   "status": "proved",
   "theorems": [
    "Verif.bandpass_series"
   ],
   "note": ""
  },
  {
   "property": "C73",
   "status": "proved",
   "theorems": [
    "Verif.stored_crossings",
    "Verif.stored_crossings_periods",
    "Verif.stored_crossings_misleading"
   ],
   "note": "Finding when minimum_wave removes a wave: the stored crossings are those where a kept wave starts plus the last one, so their differences are not the periods (witness). Proved: exactly which crossings are stored."
  },
  {
   "property": "C74",
   "status": "proved",
   "theorems": [
    "Verif.fcutoff_waves",
    "Verif.fcutoff_above_nyquist",
    "Verif.fcutoff_positive_trough"
   ],
   "note": "Finding: with fcutoff a trough can be positive and a height 0 (witness). The rest is proved."
  },
  {
   "property": "C75",
   "status": "proved",
   "theorems": [
    "Verif.spectrum_series_spectrum",
    "Verif.random_phase_components"
   ],
   "note": "Exact arithmetic, even number of samples (stated in the property)."
  },
  {
   "property": "C76",
   "status": "proved",
   "theorems": [
    "Verif.plot_exceedance",
    "Verif.plot_rayleigh",
    "Verif.rayleigh_curve_above",
    "Verif.plot_rayleigh_bg"
   ],
   "note": "The points handed to matplotlib are modelled. Findings: highest wave at probability 0 on a log axis; theoretical curve is shifted by (n+1)/n."
  },
  {
   "property": "C77",
   "status": "proved",
   "theorems": [
    "Verif.spectrum_raw"
   ],
   "note": ""
  },
  {
   "property": "C78",
   "status": "proved",
   "theorems": [
    "Verif.series_plot",
    "Verif.spectrum_plot",
    "Verif.spectrum_plot_shows"
   ],
   "note": "The points handed to matplotlib are modelled."
  },
  {
   "property": "C79",
   "status": "proved",
   "theorems": [
    "Verif.crossings_balance",
    "Verif.crossings_alternate",
    "Verif.crossings_time_reversal",
    "Verif.touching_zero_counts"
   ],
   "note": "Balance, alternation and time reversal for zero-free signals; touching_zero_counts is the finding for exact zeros (for every n)."
  },
  {
   "property": "C80",
   "status": "proved",
   "theorems": [
    "Verif.spectrum_energy_scaling",
    "Verif.spectrum_tps_scaling",
    "Verif.spectrum_tps_sentinel"
   ],
   "note": "Any call history. Finding: the 1e-10 threshold makes Tps depend on the unit of the densities."
  },
  {
   "property": "C81",
   "status": "proved",
   "theorems": [
    "Verif.moment_split",
    "Verif.energy_split",
    "Verif.energy_split_default",
    "Verif.energy_split_odd_fails"
   ],
   "note": "The parity condition is part of the property; energy_split_odd_fails shows it is needed."
  },
  {
   "property": "C82",
   "status": "proved",
   "theorems": [
    "Verif.mean_periods_in_band",
    "Verif.mean_periods_in_axis"
   ],
   "note": "Any call history."
  },
  {
   "property": "C83",
   "status": "proved",
   "theorems": [
    "Verif.get_crossing_exact",
    "Verif.get_crossing_stored"
   ],
   "note": ""
  },
  {
   "property": "C84",
   "status": "proved",
   "theorems": [
    "Verif.create_series_draws"
   ],
   "note": "numpy's generator is an arbitrary state machine."
  },
  {
   "property": "C85",
   "status": "proved",
   "theorems": [
    "Verif.series_assertion_iff",
    "Verif.series_unit_dependent",
    "Verif.uniform_check_exact"
   ],
   "note": "Exact arithmetic. Finding: the test compares a variance with a step, so it depends on the unit of time."
  },
  {
   "property": "C86",
   "status": "proved",
   "theorems": [
    "Verif.spectrum_time_unit",
    "Verif.moment_axis_scaling"
   ],
   "note": "Any call history."
  },
  {
   "property": "C87",
   "status": "proved",
   "theorems": [
    "Verif.steepness_uses_last",
    "Verif.cutoff_uses_last",
    "Verif.smm10HF_new"
   ],
   "note": "Any call history; LastResult is defined on the calls only."
  },
  {
   "property": "C88",
   "status": "proved",
   "theorems": [
    "Verif.highest_waves_any_history",
    "Verif.highest_waves_clear_cut"
   ],
   "note": "Exact companion of C19: what is true with ties."
  },
  {
   "property": "C89",
   "status": "proved",
   "theorems": [
    "Verif.plot_hist",
    "Verif.histogram_sizes"
   ],
   "note": "np.histogram modelled in exact arithmetic; the bars handed to matplotlib."
  },
  {
   "property": "C90",
   "status": "proved",
   "theorems": [
    "Verif.crossings_of_parts",
    "Verif.crossings_prefix",
    "Verif.longer_record_keeps_waves",
    "Verif.longer_series_keeps_waves"
   ],
   "note": "Exact arithmetic; the object-level statement uses the default analysis (down-crossings, no cut-off)."
  },
  {
   "property": "C91",
   "status": "proved",
   "theorems": [
    "Verif.round_trip_identity"
   ],
   "note": "Equality of the two Spectrum objects, all attributes included."
  },
  {
   "property": "C92",
   "status": "proved",
   "theorems": [
    "Verif.raw_spectrum_invariant",
    "Verif.raw_spectrum_scales",
    "Verif.raw_spectrum_offset"
   ],
   "note": "raw_spectrum_congr gives the general form: only the moduli of the Fourier coefficients matter."
  },
  {
   "property": "C93",
   "status": "proved",
   "theorems": [
    "Verif.disper_bounds",
    "Verif.disper_increasing",
    "Verif.disper_depth",
    "Verif.wave_number_bounds",
    "Verif.wave_number_growth",
    "Verif.wave_number_depth"
   ],
   "note": "Exact arithmetic; above the clamp w^2 h/g >= 1e-8 of C64. The exact solution has the bounds without tolerance (wave_number_*)."
  },
  {
   "property": "C94",
   "status": "proved",
   "theorems": [
    "Verif.superposition",
    "Verif.height_mono",
    "Verif.moment_mono",
    "Verif.larger_band_less_energy"
   ],
   "note": "Any call histories. Exact arithmetic."
  },
  {
   "property": "C95",
   "status": "proved",
   "theorems": [
    "Verif.tps_total",
    "Verif.tps_short",
    "Verif.tps_edge_side",
    "Verif.smoothedPeak_unique",
    "Verif.maximaAre_exists",
    "Verif.maximaAre_unique",
    "Verif.tps_sentinel"
   ],
   "note": "Exact arithmetic; equality of densities is exact."
  },
  {
   "property": "C96",
   "status": "proved",
   "theorems": [
    "Verif.get_spectrum_total"
   ],
   "note": "Hann window, default nfft; exact arithmetic (round of an exact quotient)."
  },
  {
   "property": "C97",
   "status": "proved",
   "theorems": [
    "Verif.spectrum_init_any_shape",
    "Verif.several_columns_raise"
   ],
   "note": "Exact companion of C57."
  },
  {
   "property": "C98",
   "status": "proved",
   "theorems": [
    "Verif.bandpass_raised_limit",
    "Verif.bandpass_bands_add",
    "Verif.low_high_split_raised"
   ],
   "note": "Exact companion of C32/C34."
  },
  {
   "property": "C99",
   "status": "proved",
   "theorems": [
    "Verif.decompose_linear",
    "Verif.decompose_offset",
    "Verif.decompose_delay",
    "Verif.decompose_reversal",
    "Verif.decompose_translate",
    "Verif.decompose_weights",
    "Verif.decompose_mirror"
   ],
   "note": "Exact arithmetic; accepted axes and gauge arrays (as in C52-C54)."
  }
 ]
}