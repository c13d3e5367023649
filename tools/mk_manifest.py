"""Writes /verif/MANIFEST.json; one entry per property."""
import json
P, Q = "proved", "partial"
C = []
def c(pid, status, thms, note=""):
    C[:] = [x for x in C if x["property"] != pid]
    C.append({"property": pid, "status": status, "theorems": ["Verif." + t for t in thms.split()], "note": note})

c("C01", P, "sort_keeps_waves", "For every argsort tie order.")
c("C02", P, "sort_shape_contract zeroCrossing_shape_contract highest_shape_contract exceedance_shape_contract")
c("C03", Q, "no_waves_always_raises highest_no_waves_always_raises exceedance_no_waves_always_raises no_crossings_no_waves_partial",
  "False of the code: the shape guard comes before the 'no waves' early return, so empty input always raises (proved). Proved positive part: a signal without crossings gives no waves.")
c("C04", P, "down_crossings_exact up_crossings_exact")
c("C05", P, "down_crossing_times up_crossing_times", "Exact arithmetic.")
c("C06", P, "up_is_down_of_neg typeCross_case_insensitive typeCross_validated")
c("C07", P, "down_waves_signs up_waves_signs up_trough_zero_example",
  "Down-crossing claim proved; for up-crossings the trough may be 0 (witness).")
c("C08", P, "individual_waves_spec individual_waves_lengths periods_sum")
c("C09", P, "individual_waves_spec")
c("C10", P, "series_never_fails reanalysis_never_fails")
c("C11", P, "crossings_amplitude_invariant crossings_time_equivariant individual_waves_rescale series_rescale")
c("C12", P, "highest_is_mean_of_top highest_waves_spec highest_bad_fraction highest_height_multiset")
c("C13", P, "highest_antitone standard_height_order")
c("C14", P, "exceedance_kth_highest exceedance_bad_percentage")
c("C15", Q, "exceedance_antitone_partial exceedance_not_monotone",
  "False of the code for percentages selecting no wave (returns 0; witness). Proved for all percentages selecting at least one wave.")
c("C16", P, "highest_rejects_unsorted exceedance_rejects_unsorted sorted_output_accepted")
c("C17", P, "waves_never_corrupted")
c("C18", P, "height_statistics_history_independent hrms_h2p_history_independent")
c("C19", Q, "significant_period_history_independent_partial significant_period_alternates",
  "False for equal heights at the cut (two calls of get_Hs alternate; witness). Proved when no two waves have equal height.")
c("C20", P, "hrms_bounds h2p_rayleigh_exceedance")
c("C21", Q, "series_mean_step_positive_partial series_step_deviation_partial series_accepts_decreasing series_rejects_small_jitter series_length_mismatch",
  "False of the code: the variance test is scale dependent and accepts decreasing axes (witness). Proved: what acceptance does imply.")
c("C22", Q, "uniform_check_iff_partial uniform_check_increasing uniform_check_accepts_uniform uniform_check_accepts_nonuniform uniform_check_short",
  "False of the code: no absolute value in the tolerance test (witness). Proved: exact characterisation of acceptance.")
c("C23", P, "nearest_index nearest_index_empty")
c("C59", P, "small_waves_filtered")
try:
    exec(open(__file__.replace("mk_manifest", "mk_manifest2")).read())
except FileNotFoundError:
    pass
C.sort(key=lambda d: d["property"])
json.dump({"claims": C}, open("/verif/MANIFEST.json", "w"), indent=1)
