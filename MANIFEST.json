{
 "claims": [
  {
   "property": "C01",
   "status": "proved",
   "theorems": [
    "Verif.C01_evaluate",
    "Verif.C01_evaluate_exact",
    "Verif.C01_evaluate_all",
    "Verif.C01_evaluate_large_N",
    "Verif.C01_evaluate_all_large_N"
   ],
   "note": "exact arithmetic; table limit N <= 22 shown to be sharp by C01_evaluate_large_N"
  },
  {
   "property": "C02",
   "status": "proved",
   "theorems": [
    "Verif.C02_getCoefficients",
    "Verif.C02_getCoefficients_abort",
    "Verif.C02_constructor",
    "Verif.C02_last_row"
   ],
   "note": ""
  },
  {
   "property": "C03",
   "status": "proved",
   "theorems": [
    "Verif.C03_add",
    "Verif.C03_smul",
    "Verif.C03_mul",
    "Verif.C03_eq",
    "Verif.C03_sizes"
   ],
   "note": ""
  },
  {
   "property": "C04",
   "status": "proved",
   "theorems": [
    "Verif.C04_scaleInTime",
    "Verif.C04_offset",
    "Verif.C04_appendCoefficients"
   ],
   "note": ""
  },
  {
   "property": "C05",
   "status": "partial",
   "theorems": [
    "Verif.C05_row_partial",
    "Verif.C05_row_false_near_zero",
    "Verif.C05_row_abort",
    "Verif.C05_row_large_N"
   ],
   "note": "false for 0 < |t| < machine epsilon, where the code returns the row for t = 0; proved for all other t, refutation proved"
  },
  {
   "property": "C06",
   "status": "proved",
   "theorems": [
    "Verif.C06_computeMinMax",
    "Verif.C06_computeMinMax_fails",
    "Verif.C06_last_row",
    "Verif.C06_order_refused"
   ],
   "note": ""
  },
  {
   "property": "C07",
   "status": "proved",
   "theorems": [
    "Verif.C07_candidates",
    "Verif.C07_any_rootFinder"
   ],
   "note": ""
  },
  {
   "property": "C08",
   "status": "proved",
   "theorems": [
    "Verif.C08_bookkeeping",
    "Verif.C08_setSegments"
   ],
   "note": ""
  },
  {
   "property": "C09",
   "status": "proved",
   "theorems": [
    "Verif.C09_inside",
    "Verif.C09_partition",
    "Verif.C09_end",
    "Verif.C09_after",
    "Verif.C09_before"
   ],
   "note": ""
  },
  {
   "property": "C10",
   "status": "proved",
   "theorems": [
    "Verif.C10_derivative",
    "Verif.C10_continuous",
    "Verif.C10_returns"
   ],
   "note": ""
  },
  {
   "property": "C11",
   "status": "partial",
   "theorems": [
    "Verif.C11_evaluateRange_partial",
    "Verif.C11_evaluateRange_general",
    "Verif.C11_times_false",
    "Verif.C11_jump_false"
   ],
   "note": "false: the reported times are counted from the start of the segment containing t_start (C11_times_false), and a vertex with a jump takes the left value (C11_jump_false); the exact behaviour is C11_evaluateRange_general, the claim holds when t_start is a segment start and adjacent segments agree"
  },
  {
   "property": "C12",
   "status": "partial",
   "theorems": [
    "Verif.C12_evaluateRange_partial",
    "Verif.C12_end_false"
   ],
   "note": "false at t_start = getMaxTime(), where the segment list is read past its end for every trajectory (C12_end_false); proved for all other start times"
  },
  {
   "property": "C13",
   "status": "partial",
   "theorems": [
    "Verif.C13_single_partial",
    "Verif.C13_segment",
    "Verif.C13_segment_none",
    "Verif.C13_duration_false"
   ],
   "note": "false: the segment times of the result are 0 for every trajectory (C13_duration_false); the polynomials are right"
  },
  {
   "property": "C14",
   "status": "partial",
   "theorems": [
    "Verif.C14_append_partial",
    "Verif.C14_append_false",
    "Verif.C14_append_mismatch"
   ],
   "note": "false when both N and the segment times differ (C14_append_false); proved when one of them agrees"
  },
  {
   "property": "C15",
   "status": "proved",
   "theorems": [
    "Verif.C15_flag",
    "Verif.C15_concatenation",
    "Verif.C15_aliased"
   ],
   "note": ""
  },
  {
   "property": "C16",
   "status": "proved",
   "theorems": [
    "Verif.C16_refused",
    "Verif.C16_offset"
   ],
   "note": ""
  },
  {
   "property": "C17",
   "status": "proved",
   "theorems": [
    "Verif.C17_refused",
    "Verif.C17_scaling",
    "Verif.C17_composition"
   ],
   "note": ""
  },
  {
   "property": "C18",
   "status": "partial",
   "theorems": [
    "Verif.C18_meets_limits_partial",
    "Verif.C18_within_limits_partial",
    "Verif.C18_short_false",
    "Verif.C18_lines_false",
    "Verif.C18_one_dimension",
    "Verif.C18_empty"
   ],
   "note": "proved for three or more coefficients, for one dimension and for trajectories without segments; with more than one dimension and fewer coefficients the call is undefined behaviour (C18_short_false, C18_lines_false)"
  },
  {
   "property": "C19",
   "status": "partial",
   "theorems": [
    "Verif.C19_maximum_partial",
    "Verif.C19_several_dimensions",
    "Verif.C19_single_minimum_false",
    "Verif.C19_high_order_false",
    "Verif.C19_high_order_ub_false"
   ],
   "note": "false for one dimension: zero crossings are not candidates, so the minimum is too large (C19_single_minimum_false); maximum proved for any number of dimensions, minimum and maximum proved for two or more. For an order not below the number of coefficients it is false or undefined (C19_high_order_false, C19_high_order_ub_false)"
  },
  {
   "property": "C20",
   "status": "proved",
   "theorems": [
    "Verif.C20_start_goal",
    "Verif.C20_unusable",
    "Verif.C20_vertexAtTime",
    "Verif.C20_vertices",
    "Verif.C20_position_yaw",
    "Verif.C20_rejected"
   ],
   "note": ""
  },
  {
   "property": "C21",
   "status": "partial",
   "theorems": [
    "Verif.C21_evaluate_partial",
    "Verif.C21_empty_false"
   ],
   "note": "false for the empty trajectory and t <= 0 (C21_empty_false); proved for every non-empty trajectory and every time"
  },
  {
   "property": "C22",
   "status": "proved",
   "theorems": [
    "Verif.C22_history",
    "Verif.C22_abort"
   ],
   "note": ""
  },
  {
   "property": "C23",
   "status": "partial",
   "theorems": [
    "Verif.C23_meaning_partial",
    "Verif.C23_reflexive",
    "Verif.C23_symmetric",
    "Verif.C23_monotone",
    "Verif.C23_dimension_false",
    "Verif.C23_dimension_ub_false"
   ],
   "note": "false for vertices of different dimension: equal when neither has constraints (C23_dimension_false), undefined behaviour when they share an order (C23_dimension_ub_false); proved for equal dimensions"
  },
  {
   "property": "C24",
   "status": "proved",
   "theorems": [
    "Verif.C24_projection"
   ],
   "note": ""
  },
  {
   "property": "C25",
   "status": "partial",
   "theorems": [
    "Verif.C25_no_position_false",
    "Verif.C25_times_partial",
    "Verif.C25_too_few",
    "Verif.C25_time_factor_false"
   ],
   "note": "false for the time factor, which is ignored (C25_time_factor_false), and undefined if one of two consecutive vertices has no position (C25_no_position_false); the rest proved"
  },
  {
   "property": "C26",
   "status": "proved",
   "theorems": [
    "Verif.C26_minimum_time"
   ],
   "note": "exact arithmetic, std::sqrt taken as the real square root"
  },
  {
   "property": "C27",
   "status": "partial",
   "theorems": [
    "Verif.C27_no_position_false",
    "Verif.C27_times_partial",
    "Verif.C27_default",
    "Verif.C27_coincident_false"
   ],
   "note": "false for coincident consecutive positions, where the time is 0 (C27_coincident_false), and undefined if one of two consecutive vertices has no position (C27_no_position_false); proved otherwise"
  },
  {
   "property": "C28",
   "status": "partial",
   "theorems": [
    "Verif.C28_mapping_evaluates_partial",
    "Verif.C28_mapping_invertible_partial",
    "Verif.C28_endpoints_determine",
    "Verif.C28_tiny_times_false"
   ],
   "note": "false for 0 < T < 2^-52, where the mapping matrix is singular although the optimiser accepts the time (C28_tiny_times_false); proved for every other positive time; Eigen's inverse() assumed to invert invertible matrices"
  },
  {
   "property": "C29",
   "status": "proved",
   "theorems": [
    "Verif.C29_counts",
    "Verif.C29_assignment",
    "Verif.C29_mpinv"
   ],
   "note": "exact arithmetic"
  },
  {
   "property": "C30",
   "status": "proved",
   "theorems": [
    "Verif.C30_solveLinear",
    "Verif.C30_setFreeConstraints",
    "Verif.C30_setFreeConstraints_returns",
    "Verif.C30_returns",
    "Verif.C30_trajectory"
   ],
   "note": "exact arithmetic; Eigen's inverse() assumed to invert invertible matrices; also proved for evaluate() of the returned trajectory"
  },
  {
   "property": "C31",
   "status": "proved",
   "theorems": [
    "Verif.C31_continuous",
    "Verif.C31_trajectory"
   ],
   "note": "exact arithmetic; same assumption on inverse(); also proved as continuity of evaluate() of the returned trajectory"
  },
  {
   "property": "C32",
   "status": "proved",
   "theorems": [
    "Verif.C32_cost_matrix",
    "Verif.C32_computeCost",
    "Verif.C32_cost_matrix_refused"
   ],
   "note": "exact arithmetic"
  },
  {
   "property": "C33",
   "status": "proved",
   "theorems": [
    "Verif.C33_optimal",
    "Verif.C33_solvable",
    "Verif.C33_solves"
   ],
   "note": "exact arithmetic; the sparse QR solver assumed to return a solution whenever one exists, which is proved to be always the case"
  },
  {
   "property": "C34",
   "status": "partial",
   "theorems": [
    "Verif.C34_reuse_partial",
    "Verif.C34_fully_prescribed_partial",
    "Verif.C34_reuse_false"
   ],
   "note": "false when the second problem has no free derivative (C34_reuse_false); proved for all other problems, and for such problems on objects that never had a free derivative"
  },
  {
   "property": "C35",
   "status": "proved",
   "theorems": [
    "Verif.C35_roundtrip",
    "Verif.C35_dim0_false",
    "Verif.C35_empty_false"
   ],
   "note": "exact arithmetic; numbers written by yaml-cpp assumed to be read back unchanged; needs at least one dimension and at least one segment, otherwise false (C35_dim0_false, C35_empty_false)"
  },
  {
   "property": "C36",
   "status": "partial",
   "theorems": [
    "Verif.C36_accepts_partial",
    "Verif.C36_missing_partial",
    "Verif.C36_segments_partial",
    "Verif.C36_count_false",
    "Verif.C36_throws_false",
    "Verif.C36_abort_false",
    "Verif.C36_ub_false"
   ],
   "note": "false: wrong numbers of coefficients are accepted (C36_count_false), and many malformed nodes throw, abort or are undefined behaviour (C36_throws_false, C36_abort_false, C36_ub_false); what is accepted is characterised exactly"
  },
  {
   "property": "C37",
   "status": "proved",
   "theorems": [
    "Verif.C37_roundtrip",
    "Verif.C37_roundtrip4D",
    "Verif.C37_rejected",
    "Verif.C37_empty_false",
    "Verif.C37_no_coefficients_false"
   ],
   "note": "exact arithmetic; the message conversions of mav_planning_msgs assumed to copy; times below 2^31 s; the empty trajectory and N = 0 are outside the claim (C37_empty_false, C37_no_coefficients_false)"
  },
  {
   "property": "C38",
   "status": "proved",
   "theorems": [
    "Verif.C38_at_time",
    "Verif.C38_rejected",
    "Verif.C38_segment"
   ],
   "note": "exact arithmetic; the attitude is modelled as the arguments of the mav_msgs setters"
  },
  {
   "property": "C39",
   "status": "proved",
   "theorems": [
    "Verif.C39_sound",
    "Verif.C39_dimension",
    "Verif.C39_any"
   ],
   "note": "for a root finder that returns all real roots, at least four coefficients, values below the largest double, exact arithmetic"
  },
  {
   "property": "C40",
   "status": "proved",
   "theorems": [
    "Verif.C40_genuine",
    "Verif.C40_any"
   ],
   "note": "same assumptions as C39"
  },
  {
   "property": "C41",
   "status": "partial",
   "theorems": [
    "Verif.C41_terminates",
    "Verif.C41_depth",
    "Verif.C41_zero_section_hangs",
    "Verif.C41_any_partial",
    "Verif.C41_short_false"
   ],
   "note": "with an explicit depth for every positive minimum section time, for polynomials with enough coefficients for the limits that are set (C41_any_partial); with fewer the check ends the program (C41_short_false); C41_zero_section_hangs shows that a minimum section time of 0 may never terminate"
  },
  {
   "property": "C42",
   "status": "partial",
   "theorems": [
    "Verif.C42_limits_partial",
    "Verif.C42_dimension",
    "Verif.C42_genuine",
    "Verif.C42_terminates",
    "Verif.C42_rate_partial",
    "Verif.C42_rate_false",
    "Verif.C42_section_false",
    "Verif.C42_any_limits_partial",
    "Verif.C42_any_genuine",
    "Verif.C42_any_terminates",
    "Verif.C42_short_false"
   ],
   "note": "proved: no false positives for thrust, speed and yaw, no false negatives, termination, and jerk/thrust <= limit^2 when the segment is not subdivided. The rate claim is false: the square root of jerk/thrust is compared (C42_rate_false) and section boundaries are not candidates (C42_section_false); with fewer coefficients than the limits need the check is undefined behaviour (C42_short_false)"
  },
  {
   "property": "C43",
   "status": "proved",
   "theorems": [
    "Verif.C43_exact",
    "Verif.C43_dimension",
    "Verif.C43_trajectory"
   ],
   "note": ""
  },
  {
   "property": "C44",
   "status": "proved",
   "theorems": [
    "Verif.C44_box"
   ],
   "note": ""
  },
  {
   "property": "C45",
   "status": "proved",
   "theorems": [
    "Verif.C45_first"
   ],
   "note": ""
  },
  {
   "property": "C46",
   "status": "proved",
   "theorems": [
    "Verif.C46_history",
    "Verif.C46_add",
    "Verif.C46_remove",
    "Verif.C46_defaults"
   ],
   "note": ""
  },
  {
   "property": "C47",
   "status": "partial",
   "theorems": [
    "Verif.C47_totals",
    "Verif.C47_window",
    "Verif.C47_no_samples",
    "Verif.C47_min",
    "Verif.C47_max_partial",
    "Verif.C47_max_false"
   ],
   "note": "count, total, mean, window statistics and minimum proved for fewer than 2^31 samples; the maximum is wrong when every sample is below the smallest positive normal double, e.g. all zero (C47_max_false)"
  },
  {
   "property": "C48",
   "status": "proved",
   "theorems": [
    "Verif.C48_stable",
    "Verif.C48_unique",
    "Verif.C48_valid",
    "Verif.C48_tag",
    "Verif.C48_samples"
   ],
   "note": "for fewer than 2^31 samples per timer; uninitialised memory is a parameter"
  },
  {
   "property": "C49",
   "status": "partial",
   "theorems": [
    "Verif.C49_publishes_partial",
    "Verif.C49_stop",
    "Verif.C49_silent",
    "Verif.C49_empty_messages",
    "Verif.C49_whole",
    "Verif.C49_malformed_false",
    "Verif.C49_zero_interval_false"
   ],
   "note": "proved for every history, for a positive interval and trajectories shorter than 2^63 ns with at most 22 coefficients; a non-empty malformed message ends the process instead of being rejected (C49_malformed_false) and interval 0 publishes forever (C49_zero_interval_false)"
  },
  {
   "property": "C50",
   "status": "proved",
   "theorems": [
    "Verif.C50_quadratic",
    "Verif.C50_linear"
   ],
   "note": ""
  },
  {
   "property": "C51",
   "status": "proved",
   "theorems": [
    "Verif.C51_quadratic",
    "Verif.C51_linear"
   ],
   "note": ""
  },
  {
   "property": "C52",
   "status": "proved",
   "theorems": [
    "Verif.C52_route_independent",
    "Verif.C52_update_times"
   ],
   "note": "exact arithmetic"
  },
  {
   "property": "C53",
   "status": "proved",
   "theorems": [
    "Verif.C53_file_roundtrip",
    "Verif.C53_trajectory_roundtrip",
    "Verif.C53_sizes",
    "Verif.C53_unopened",
    "Verif.C53_short_false"
   ],
   "note": "yaml-cpp assumed to read integers back unchanged and doubles as rounded; false for segments whose polynomials are shorter than N() (C53_short_false)"
  },
  {
   "property": "C54",
   "status": "partial",
   "theorems": [
    "Verif.C54_abort_false",
    "Verif.C54_replaced_false",
    "Verif.C54_prefix_partial"
   ],
   "note": "false: a missing file aborts (C54_abort_false), a malformed later segment replaces the trajectory (C54_replaced_false)"
  },
  {
   "property": "C55",
   "status": "partial",
   "theorems": [
    "Verif.C55_whole",
    "Verif.C55_range_partial",
    "Verif.C55_range_false",
    "Verif.C55_rejected",
    "Verif.C55_duration_partial",
    "Verif.C55_duration_rejected",
    "Verif.C55_end_false"
   ],
   "note": "proved for the whole trajectory; false for ranges that start inside a segment, which get samples beyond max_time (C55_range_false), and undefined at the final time (C55_end_false); the exact behaviour is C55_range_partial"
  },
  {
   "property": "C56",
   "status": "partial",
   "theorems": [
    "Verif.C56_rows_partial",
    "Verif.C56_flag",
    "Verif.C56_short_false"
   ],
   "note": "false when there are more segments than samples (C56_short_false); proved otherwise"
  },
  {
   "property": "C57",
   "status": "proved",
   "theorems": [
    "Verif.C57_roundtrip",
    "Verif.C57_rejected"
   ],
   "note": ""
  },
  {
   "property": "C58",
   "status": "partial",
   "theorems": [
    "Verif.C58_normal",
    "Verif.C58_points_partial",
    "Verif.C58_points_rejected",
    "Verif.C58_collinear_false"
   ],
   "note": "proved for point and normal and for three points not on a line; distinct points on a line are accepted and give a zero normal with no point inside (C58_collinear_false)"
  },
  {
   "property": "C59",
   "status": "proved",
   "theorems": [
    "Verif.C59_samples",
    "Verif.C59_dimension",
    "Verif.C59_zero_interval_hangs"
   ],
   "note": "the conversion of a flat state to a full state is a parameter; C59_zero_interval_hangs shows that interval 0 never terminates"
  },
  {
   "property": "C60",
   "status": "partial",
   "theorems": [
    "Verif.C60_samples",
    "Verif.C60_periods_partial",
    "Verif.C60_scope",
    "Verif.C60_stop_false",
    "Verif.C60_mini"
   ],
   "note": "everything except stopping a timer that was never started, which adds the time since the epoch (C60_stop_false)"
  },
  {
   "property": "C61",
   "status": "proved",
   "theorems": [
    "Verif.C61_memory_safe"
   ],
   "note": ""
  },
  {
   "property": "C62",
   "status": "proved",
   "theorems": [
    "Verif.C62_returns"
   ],
   "note": ""
  },
  {
   "property": "C63",
   "status": "partial",
   "theorems": [
    "Verif.C63_deflation_partial",
    "Verif.C63_degree_one",
    "Verif.C63_degree_two",
    "Verif.C63_degree_zero",
    "Verif.C63_origin",
    "Verif.C63_origin_only",
    "Verif.C63_origin_linear",
    "Verif.C63_origin_quadratic"
   ],
   "note": "Proved in exact arithmetic: the chain of deflations with explicit bounds on each remainder, conjugate pairs, zeros at the origin (added one by one, whatever the other factor is) and degrees up to two exact and complete. Not proved: that the iteration converges for every polynomial of degree three or more (on failure after some zeros, be they only the ones at the origin, the code returns true with the zeros found so far: C63_origin_only), nor accuracy with respect to the original polynomial after several deflations; for a pair of real zeros only the second one has passed the test."
  },
  {
   "property": "C64",
   "status": "partial",
   "theorems": [
    "Verif.C64_too_long_false",
    "Verif.C64_buffers_partial"
   ],
   "note": "False of the code, proved: with more than 101 coefficients the last of which is not negligible the buffers are overrun before the degree is compared (C64_too_long_false). Proved for at most 101 coefficients."
  },
  {
   "property": "C65",
   "status": "proved",
   "theorems": [
    "Verif.C65_meets_constraints",
    "Verif.C65_computed",
    "Verif.C65_trajectory"
   ],
   "note": "NLopt enters only through the callbacks it makes within the bounds (Spec.RunOf); Eigen's inverse() inverts"
  },
  {
   "property": "C66",
   "status": "proved",
   "theorems": [
    "Verif.C66_times_bounded",
    "Verif.C66_times_unchanged"
   ],
   "note": "for runs of NLopt that stay within the bounds"
  },
  {
   "property": "C67",
   "status": "proved",
   "theorems": [
    "Verif.C67_missing_limit",
    "Verif.C67_returns",
    "Verif.C67_solvable",
    "Verif.C67_wrong_algorithm",
    "Verif.C67_setup_returns"
   ],
   "note": "for exact library functions; solveLinear() must return for the object (C67_solvable)"
  },
  {
   "property": "C68",
   "status": "partial",
   "theorems": [
    "Verif.C68_last_point_times_partial",
    "Verif.C68_last_point_derivatives_partial",
    "Verif.C68_last_point_mellinger_partial",
    "Verif.C68_best_false"
   ],
   "note": "proved: the trajectory is that of the last evaluated point, optimal for its times. That it is the best evaluated is false (C68_best_false): the code does not evaluate the returned optimum again"
  },
  {
   "property": "C69",
   "status": "proved",
   "theorems": [
    "Verif.C69_value",
    "Verif.C69_returns",
    "Verif.C69_statistics"
   ],
   "note": "for exact library functions and limits on existing derivatives with positive values"
  },
  {
   "property": "C70",
   "status": "proved",
   "theorems": [
    "Verif.C70_start_within",
    "Verif.C70_start_rejected",
    "Verif.C70_start_derivatives",
    "Verif.C70_start_times",
    "Verif.C70_steps"
   ],
   "note": ""
  },
  {
   "property": "C71",
   "status": "partial",
   "theorems": [
    "Verif.C71_time_bounds",
    "Verif.C71_bounds_partial",
    "Verif.C71_bounds_false"
   ],
   "note": "proved for the highest possible derivative to optimise, k = N/2-1; for smaller k the counter of free derivatives skips those above k and bounds end up on the wrong derivative (C71_bounds_false)"
  },
  {
   "property": "C72",
   "status": "proved",
   "theorems": [
    "Verif.C72_maximum",
    "Verif.C72_maximum_nonlinear",
    "Verif.C72_order_refused"
   ],
   "note": "for a root finder that finds all real roots and an exact square root"
  },
  {
   "property": "C73",
   "status": "partial",
   "theorems": [
    "Verif.C73_hard_limit_partial",
    "Verif.C73_hard_limit_false"
   ],
   "note": "proved for the point at which the objective function was evaluated last; the answer ignores the point asked for (C73_hard_limit_false)"
  },
  {
   "property": "C74",
   "status": "partial",
   "theorems": [
    "Verif.C74_limits_partial",
    "Verif.C74_negative_refused",
    "Verif.C74_setup_false",
    "Verif.C74_before_setup_false"
   ],
   "note": "proved that all limits are kept and that NLopt enforces those added since the last setup; a setup drops the hard limits added before (C74_setup_false) and before the first setup adding one dereferences a null pointer (C74_before_setup_false)"
  },
  {
   "property": "C75",
   "status": "proved",
   "theorems": [
    "Verif.C75_gradient",
    "Verif.C75_direction"
   ],
   "note": "for exact library functions"
  },
  {
   "property": "C76",
   "status": "partial",
   "theorems": [
    "Verif.C76_value",
    "Verif.C76_objective_partial",
    "Verif.C76_objective_false"
   ],
   "note": "value characterised; it is the objective only for squared time and soft limits with penalties below 10^9 (C76_objective_partial), not in general (C76_objective_false)"
  },
  {
   "property": "C77",
   "status": "partial",
   "theorems": [
    "Verif.C77_segment_partial",
    "Verif.C77_segment_false",
    "Verif.C77_trajectory_partial",
    "Verif.C77_trajectory_false"
   ],
   "note": "Proved for equal numbers of coefficients; otherwise the comparison is undefined behaviour (C77_segment_false, C77_trajectory_false)."
  },
  {
   "property": "C78",
   "status": "proved",
   "theorems": [
    "Verif.C78_position",
    "Verif.C78_position_names",
    "Verif.C78_orientation",
    "Verif.C78_orientation_names"
   ],
   "note": ""
  },
  {
   "property": "C79",
   "status": "partial",
   "theorems": [
    "Verif.C79_plan_partial",
    "Verif.C79_same_position_false",
    "Verif.C79_wrong_size",
    "Verif.C79_limits_false"
   ],
   "note": "States at both ends proved for goals away from the vehicle; a goal at the present position aborts the program (C79_same_position_false) and the limits do not hold for every run of the optimiser (C79_limits_false)."
  },
  {
   "property": "C80",
   "status": "partial",
   "theorems": [
    "Verif.C80_position_partial",
    "Verif.C80_yaw_partial",
    "Verif.C80_pose_partial",
    "Verif.C80_refused",
    "Verif.C80_start_velocity_false"
   ],
   "note": "Positions and limits proved; velocities at the ends are those wanted times a common factor and not themselves (C80_start_velocity_false)."
  },
  {
   "property": "C81",
   "status": "proved",
   "theorems": [
    "Verif.C81_unique",
    "Verif.C81_same_result",
    "Verif.C81_time_scaling"
   ],
   "note": ""
  },
  {
   "property": "C82",
   "status": "partial",
   "theorems": [
    "Verif.C82_factor",
    "Verif.C82_scaled_limits_partial",
    "Verif.C82_mellinger_limits_partial",
    "Verif.C82_moving_false"
   ],
   "note": "proved for vertices that prescribe no nonzero derivatives; with prescribed velocities the scaling can leave the limits violated (C82_moving_false)."
  },
  {
   "property": "C83",
   "status": "partial",
   "theorems": [
    "Verif.C83_vertices",
    "Verif.C83_returns_partial",
    "Verif.C83_rejected",
    "Verif.C83_small_box_false",
    "Verif.C83_reversed_false",
    "Verif.C83_optimisable"
   ],
   "note": "proved for every call that returns, and that it returns if far positions are drawn again and again; in a small box that passes the checks it never returns (C83_small_box_false), and bounds in the wrong order are undefined behaviour (C83_reversed_false)."
  },
  {
   "property": "C84",
   "status": "proved",
   "theorems": [
    "Verif.C84_square",
    "Verif.C84_degenerate"
   ],
   "note": ""
  },
  {
   "property": "C85",
   "status": "partial",
   "theorems": [
    "Verif.C85_attained_partial",
    "Verif.C85_flag_false",
    "Verif.C85_no_dimensions_false",
    "Verif.C85_out_of_range_false",
    "Verif.C85_single_out_of_range_false",
    "Verif.C85_root_failure_false"
   ],
   "note": "attained values proved for every root finder; failures are never reported (C85_flag_false, C85_no_dimensions_false, C85_out_of_range_false, C85_single_out_of_range_false, C85_root_failure_false)."
  },
  {
   "property": "C86",
   "status": "partial",
   "theorems": [
    "Verif.C86_candidates_partial",
    "Verif.C86_returns_partial",
    "Verif.C86_step_false",
    "Verif.C86_maximum_false",
    "Verif.C86_one_dimension_partial",
    "Verif.C86_long_interval_false"
   ],
   "note": "what is returned is characterised exactly, for positive sampling intervals; an interval of zero or less never returns (C86_step_false), and a maximum can be missed with every sampling interval, as the test of the next derivative is wrong for more than one dimension (C86_maximum_false). For one dimension a small enough interval gives the maximum up to M dt^2 (C86_one_dimension_partial), a long one does not (C86_long_interval_false)."
  },
  {
   "property": "C87",
   "status": "proved",
   "theorems": [
    "Verif.C87_A",
    "Verif.C87_inverse",
    "Verif.C87_coefficients",
    "Verif.C87_R"
   ],
   "note": ""
  },
  {
   "property": "C88",
   "status": "proved",
   "theorems": [
    "Verif.C88_image"
   ],
   "note": ""
  },
  {
   "property": "C89",
   "status": "proved",
   "theorems": [
    "Verif.C89_superposition"
   ],
   "note": ""
  },
  {
   "property": "C90",
   "status": "proved",
   "theorems": [
    "Verif.C90_coordinate"
   ],
   "note": ""
  },
  {
   "property": "C91",
   "status": "proved",
   "theorems": [
    "Verif.C91_plane"
   ],
   "note": ""
  },
  {
   "property": "C92",
   "status": "proved",
   "theorems": [
    "Verif.C92_reversed"
   ],
   "note": ""
  },
  {
   "property": "C93",
   "status": "partial",
   "theorems": [
    "Verif.C93_path",
    "Verif.C93_trajectory_partial",
    "Verif.C93_rejected",
    "Verif.C93_end_false"
   ],
   "note": "the line through all sampled points is proved; a drawn trajectory stops at the last multiple of 0.1 s before its end (C93_end_false)."
  },
  {
   "property": "C94",
   "status": "partial",
   "theorems": [
    "Verif.C94_spacing_partial",
    "Verif.C94_disable_false",
    "Verif.C94_origin_false"
   ],
   "note": "the spacing from the first marker on is proved; distance 0 does not disable the markers (C94_disable_false), and the position of the first one depends on the origin (C94_origin_false)."
  },
  {
   "property": "C95",
   "status": "partial",
   "theorems": [
    "Verif.C95_moved",
    "Verif.C95_rigid",
    "Verif.C95_unit",
    "Verif.C95_compose",
    "Verif.C95_inverse",
    "Verif.C95_getMarkers",
    "Verif.C95_vehicle_partial",
    "Verif.C95_mesh_false",
    "Verif.C95_hexacopter",
    "Verif.C95_tripod"
   ],
   "note": "the laws of motion and retrieval are proved; the meshes of the detailed vehicle have the orientation 0 and do not turn (C95_mesh_false)."
  },
  {
   "property": "C96",
   "status": "partial",
   "theorems": [
    "Verif.C96_spacing_partial",
    "Verif.C96_last_false",
    "Verif.C96_start_false",
    "Verif.C96_single",
    "Verif.C96_empty_false",
    "Verif.C96_long_false"
   ],
   "note": "proved for two or more points from time 0 on and dt below 2^32 ns; the last point can be too close (C96_last_false), so can the second when the first is not at time 0 (C96_start_false), no points and large dt are undefined behaviour (C96_empty_false, C96_long_false)."
  },
  {
   "property": "C97",
   "status": "partial",
   "theorems": [
    "Verif.C97_vertices_partial",
    "Verif.C97_trajectory_partial",
    "Verif.C97_reuse_false",
    "Verif.C97_dimension_false",
    "Verif.C97_yaw_false"
   ],
   "note": "proved for dimension 3 and an array without old points; old points stay (C97_reuse_false), other dimensions leave a line that cannot be shown (C97_dimension_false, C97_yaw_false)."
  },
  {
   "property": "C98",
   "status": "partial",
   "theorems": [
    "Verif.C98_array",
    "Verif.C98_drawn",
    "Verif.C98_hexacopter_partial",
    "Verif.C98_kept",
    "Verif.C98_leica_false"
   ],
   "note": "proved for drawn arrays and the hexacopter; two legs of the laser tracker share a number (C98_leica_false)."
  },
  {
   "property": "C99",
   "status": "proved",
   "theorems": [
    "Verif.C99_binary64",
    "Verif.C99_evaluate",
    "Verif.C99_error",
    "Verif.C99_segment",
    "Verif.C99_relative_false"
   ],
   "note": "backward stability and the error bound; that the relative error of the value itself is not bounded is C99_relative_false (cancellation, not a defect). Overflow and underflow are excluded."
  },
  {
   "property": "C100",
   "status": "proved",
   "theorems": [
    "Verif.C100_sum",
    "Verif.C100_product",
    "Verif.C100_scale"
   ],
   "note": ""
  },
  {
   "property": "C101",
   "status": "proved",
   "theorems": [
    "Verif.C101_lookup",
    "Verif.C101_beyond"
   ],
   "note": ""
  },
  {
   "property": "C102",
   "status": "partial",
   "theorems": [
    "Verif.C102_samples_partial",
    "Verif.C102_count_false"
   ],
   "note": "times and values are proved; the number of samples can be one more than in exact arithmetic (C102_count_false)."
  },
  {
   "property": "C103",
   "status": "proved",
   "theorems": [
    "Verif.C103_computeMinMax",
    "Verif.C103_error_attained",
    "Verif.C103_magnitude",
    "Verif.C103_limits",
    "Verif.C103_success"
   ],
   "note": ""
  },
  {
   "property": "C104",
   "status": "proved",
   "theorems": [
    "Verif.C104_genuine",
    "Verif.C104_terminates",
    "Verif.C104_sound",
    "Verif.C104_sound_zero",
    "Verif.C104_half_planes",
    "Verif.C104_analytic_genuine",
    "Verif.C104_analytic_terminates",
    "Verif.C104_analytic"
   ],
   "note": ""
  },
  {
   "property": "C105",
   "status": "partial",
   "theorems": [
    "Verif.C105_axes",
    "Verif.C105_covariance",
    "Verif.C105_arrow_partial",
    "Verif.C105_arrow_points_partial",
    "Verif.C105_arrow_reuse_false",
    "Verif.C105_points_reuse_false"
   ],
   "note": "Axes and covariances hold for every marker. Arrows are proved for markers that have not been used: the two functions for arrows leave the points or the pose of an earlier drawing in the marker (C105_arrow_reuse_false, C105_points_reuse_false)."
  },
  {
   "property": "C106",
   "status": "proved",
   "theorems": [
    "Verif.C106_more_constraints",
    "Verif.C106_already_attained",
    "Verif.C106_inserted_vertex",
    "Verif.C106_slower"
   ],
   "note": ""
  },
  {
   "property": "C107",
   "status": "partial",
   "theorems": [
    "Verif.C107_figures",
    "Verif.C107_area_false",
    "Verif.C107_nominal_length_partial",
    "Verif.C107_nominal_length_false",
    "Verif.C107_rows",
    "Verif.C107_drawn_path"
   ],
   "note": "The figures, rows and drawn path are proved. The area is NaN if a segment ends where it starts (C107_area_false); the nominal length is undefined behaviour if a vertex before the last has no position (C107_nominal_length_false)."
  },
  {
   "property": "C108",
   "status": "partial",
   "theorems": [
    "Verif.C108_linear",
    "Verif.C108_times",
    "Verif.C108_violation",
    "Verif.C108_single",
    "Verif.C108_limits_partial",
    "Verif.C108_feasible_false",
    "Verif.C108_violated_false",
    "Verif.C108_nonlinear"
   ],
   "note": "The linear methods and the new times are proved in general. The limits hold after the scaling for two vertices at rest and a violation in [0,1) (C108_limits_partial); they are broken by the scaling of a feasible trajectory (C108_feasible_false) and by a violation above one, which makes the segment shorter (C108_violated_false)."
  },
  {
   "property": "C109",
   "status": "partial",
   "theorems": [
    "Verif.C109_setup_partial",
    "Verif.C109_times",
    "Verif.C109_free",
    "Verif.C109_new",
    "Verif.C109_one_vertex_false",
    "Verif.C109_no_dimension_false",
    "Verif.C109_stale_false"
   ],
   "note": "Which calls return and which are refused is proved for all arguments. What is accepted cannot always be used: one vertex with a free derivative (C109_one_vertex_false), dimension zero (C109_no_dimension_false), the cost between new times and the next solution (C109_stale_false)."
  },
  {
   "property": "C110",
   "status": "partial",
   "theorems": [
    "Verif.C110_independent_partial",
    "Verif.C110_limits_false",
    "Verif.C110_destroyed_false",
    "Verif.C110_assigned_false",
    "Verif.C110_hard_false"
   ],
   "note": "proved for all programs in which an optimiser is copied, or assigned to another one, only before limits are added to it (with hard limits: before it is set up). False otherwise: limits keep pointing to the original and the NLopt object is shared (C110_limits_false, C110_destroyed_false, C110_assigned_false, C110_hard_false)."
  },
  {
   "property": "C111",
   "status": "partial",
   "theorems": [
    "Verif.C111_print_partial",
    "Verif.C111_hz",
    "Verif.C111_deviation_false"
   ],
   "note": "The lines, their order and all figures are proved for every history; the deviation printed after the mean of all samples is only that of the last 50 (C111_deviation_false). For the layout as text see C138."
  },
  {
   "property": "C112",
   "status": "partial",
   "theorems": [
    "Verif.C112_maximum_partial",
    "Verif.C112_cost",
    "Verif.C112_optimiser",
    "Verif.C112_zero_step",
    "Verif.C112_no_duration_false"
   ],
   "note": "proved for trajectories of positive duration (the cost for all); without duration the maximum returned is -10^9 (C112_no_duration_false)"
  },
  {
   "property": "C113",
   "status": "partial",
   "theorems": [
    "Verif.C113_exact",
    "Verif.C113_total",
    "Verif.C113_window_partial",
    "Verif.C113_window_false"
   ],
   "note": "exact figures, total and mean are proved; the error of the rolling mean is bounded relative to the largest of all samples only (C113_window_partial): a single large sample spoils the rolling mean for ever (C113_window_false)"
  },
  {
   "property": "C114",
   "status": "proved",
   "theorems": [
    "Verif.C114_same_code",
    "Verif.C114_computeMinMax",
    "Verif.C114_rejected"
   ],
   "note": ""
  },
  {
   "property": "C115",
   "status": "proved",
   "theorems": [
    "Verif.C115_same_code",
    "Verif.C115_minMaxMagnitude",
    "Verif.C115_maxVelocityAndAcceleration"
   ],
   "note": ""
  },
  {
   "property": "C116",
   "status": "proved",
   "theorems": [
    "Verif.C116_same_code",
    "Verif.C116_scaleToMeet",
    "Verif.C116_success"
   ],
   "note": ""
  },
  {
   "property": "C117",
   "status": "partial",
   "theorems": [
    "Verif.C117_nanoseconds",
    "Verif.C117_defined_partial",
    "Verif.C117_outside",
    "Verif.C117_always_false"
   ],
   "note": "defined for durations above -1 ns and below 2^64 ns (C117_defined_partial), with the value given by C117_nanoseconds; undefined behaviour for all others (C117_outside, C117_always_false)."
  },
  {
   "property": "C118",
   "status": "proved",
   "theorems": [
    "Verif.C118_same_code",
    "Verif.C118_ends",
    "Verif.C118_joint"
   ],
   "note": ""
  },
  {
   "property": "C119",
   "status": "partial",
   "theorems": [
    "Verif.C119_sampled_partial",
    "Verif.C119_outcome",
    "Verif.C119_any_interval_false"
   ],
   "note": "Proved when the expected number of samples fits into memory, with the exact outcome otherwise. False in general: for every range there are sampling intervals for which the conversion to size_t is undefined, or reserve throws (C119_any_interval_false)."
  },
  {
   "property": "C120",
   "status": "proved",
   "theorems": [
    "Verif.C120_same_code",
    "Verif.C120_cost"
   ],
   "note": ""
  },
  {
   "property": "C121",
   "status": "proved",
   "theorems": [
    "Verif.C121_same_code",
    "Verif.C121_returns",
    "Verif.C121_ends",
    "Verif.C121_free",
    "Verif.C121_constraints"
   ],
   "note": ""
  },
  {
   "property": "C122",
   "status": "proved",
   "theorems": [
    "Verif.C122_same_code",
    "Verif.C122_ramp",
    "Verif.C122_ramp_times",
    "Verif.C122_nfabian_times"
   ],
   "note": ""
  },
  {
   "property": "C123",
   "status": "proved",
   "theorems": [
    "Verif.C123_returns",
    "Verif.C123_reports"
   ],
   "note": ""
  },
  {
   "property": "C124",
   "status": "proved",
   "theorems": [
    "Verif.C124_same_code",
    "Verif.C124_half_planes",
    "Verif.C124_margin",
    "Verif.C124_dimension",
    "Verif.C124_trajectory"
   ],
   "note": ""
  },
  {
   "property": "C125",
   "status": "proved",
   "theorems": [
    "Verif.C125_deflation",
    "Verif.C125_conjugate",
    "Verif.C125_degree_one",
    "Verif.C125_degree_two"
   ],
   "note": ""
  },
  {
   "property": "C126",
   "status": "proved",
   "theorems": [
    "Verif.C126_returns",
    "Verif.C126_degree_three",
    "Verif.C126_rejected",
    "Verif.C126_exact"
   ],
   "note": ""
  },
  {
   "property": "C127",
   "status": "proved",
   "theorems": [
    "Verif.C127_magnitude",
    "Verif.C127_limits",
    "Verif.C127_half_planes",
    "Verif.C127_recursive",
    "Verif.C127_analytic",
    "Verif.C127_degree_four",
    "Verif.C127_degree_three",
    "Verif.C127_rounded"
   ],
   "note": ""
  },
  {
   "property": "C128",
   "status": "proved",
   "theorems": [
    "Verif.C128_same_code",
    "Verif.C128_feasible",
    "Verif.C128_genuine",
    "Verif.C128_terminates",
    "Verif.C128_code",
    "Verif.C128_trajectory"
   ],
   "note": ""
  },
  {
   "property": "C129",
   "status": "proved",
   "theorems": [
    "Verif.C129_accepts",
    "Verif.C129_too_short",
    "Verif.C129_code",
    "Verif.C129_degree_four",
    "Verif.C129_trajectory",
    "Verif.C129_rounded",
    "Verif.C129_rounded_code",
    "Verif.C129_rounded_degree_four",
    "Verif.C129_rounded_trajectory"
   ],
   "note": ""
  },
  {
   "property": "C130",
   "status": "proved",
   "theorems": [
    "Verif.C130_between",
    "Verif.C130_margin_needed",
    "Verif.C130_same_code",
    "Verif.C130_long_ub",
    "Verif.C130_rounded_samples",
    "Verif.C130_rounded",
    "Verif.C130_rounded_genuine",
    "Verif.C130_rounded_returns",
    "Verif.C130_rounded_accepts",
    "Verif.C130_rounded_hangs"
   ],
   "note": ""
  },
  {
   "property": "C131",
   "status": "proved",
   "theorems": [
    "Verif.C131_same_code",
    "Verif.C131_feasible",
    "Verif.C131_genuine",
    "Verif.C131_decides",
    "Verif.C131_terminates",
    "Verif.C131_accepts",
    "Verif.C131_code",
    "Verif.C131_trajectory"
   ],
   "note": ""
  },
  {
   "property": "C132",
   "status": "proved",
   "theorems": [
    "Verif.C132_arithmetic",
    "Verif.C132_exact",
    "Verif.C132_propagates",
    "Verif.C132_finite",
    "Verif.C132_range",
    "Verif.C132_nan",
    "Verif.C132_lookup",
    "Verif.C132_segment",
    "Verif.C132_trajectory",
    "Verif.C132_beyond",
    "Verif.C132_nan_time",
    "Verif.C132_minus_infinity",
    "Verif.C132_underflow_false"
   ],
   "note": ""
  },
  {
   "property": "C133",
   "status": "partial",
   "theorems": [
    "Verif.C133_states",
    "Verif.C133_recursive_partial",
    "Verif.C133_yaw_partial",
    "Verif.C133_recursive_thrust_min_false",
    "Verif.C133_half_planes_false",
    "Verif.C133_analytic_false",
    "Verif.C133_sampling_false",
    "Verif.C133_nan_limit_false",
    "Verif.C133_same_code"
   ],
   "note": "Proved for the recursive check with a limit on the speed or the highest thrust and for the yaw limits (C133_recursive_partial, C133_yaw_partial). False for half planes, the analytic check, the check by sampling, the recursive check with a limit on the lowest thrust only, and for limits that are NaN (the theorems C133_..._false)."
  },
  {
   "property": "C134",
   "status": "proved",
   "theorems": [
    "Verif.C134_zeros",
    "Verif.C134_start",
    "Verif.C134_quadratic_step",
    "Verif.C134_estimate",
    "Verif.C134_real_step",
    "Verif.C134_radius",
    "Verif.C134_directions",
    "Verif.C134_fixed_modulus",
    "Verif.C134_fixed_modulus_false"
   ],
   "note": "C134_zeros is the statement for the zeros reported, the other theorems say it step by step. C134_fixed_modulus_false refutes only the comment in the code on the modulus of the shift."
  },
  {
   "property": "C135",
   "status": "partial",
   "theorems": [
    "Verif.C135_returns_partial",
    "Verif.C135_infinite_interval",
    "Verif.C135_undefined",
    "Verif.C135_too_many",
    "Verif.C135_negative",
    "Verif.C135_lost_interval",
    "Verif.C135_returns_false",
    "Verif.C135_check"
   ],
   "note": "Proved for finite times and intervals that are not lost in a sum (C135_returns_partial) and for infinite intervals. False in general: C135_returns_false, with the exact outcome in C135_undefined, C135_too_many, C135_negative, C135_lost_interval and C135_check."
  },
  {
   "property": "C136",
   "status": "partial",
   "theorems": [
    "Verif.C136_same_code",
    "Verif.C136_number",
    "Verif.C136_polynomial",
    "Verif.C136_trajectory",
    "Verif.C136_reflexive_partial",
    "Verif.C136_reflexive_false",
    "Verif.C136_relation",
    "Verif.C136_values",
    "Verif.C136_tolerance",
    "Verif.C136_tolerance_reflexive_partial",
    "Verif.C136_tolerance_reflexive_false"
   ],
   "note": "All proved but reflexivity, which is proved without NaN (C136_reflexive_partial, C136_tolerance_reflexive_partial) and false with NaN, for isEqualTol also with infinities (C136_reflexive_false, C136_tolerance_reflexive_false). Different numbers of coefficients are undefined behaviour already (C77)."
  },
  {
   "property": "C137",
   "status": "partial",
   "theorems": [
    "Verif.C137_same_code",
    "Verif.C137_durations",
    "Verif.C137_solution",
    "Verif.C137_nfabian",
    "Verif.C137_ramp_false",
    "Verif.C137_limits_partial",
    "Verif.C137_limits_false",
    "Verif.C137_limits_code_false",
    "Verif.C137_nan_limit",
    "Verif.C137_scaling_false",
    "Verif.C137_pipeline_false"
   ],
   "note": "Proved: C137_durations, C137_solution, C137_nfabian, C137_nan_limit, and for the limits the values at the ends of the segments that are numbers (C137_limits_partial). False: C137_ramp_false, C137_limits_false, C137_limits_code_false, C137_scaling_false, and all steps together C137_pipeline_false."
  },
  {
   "property": "C138",
   "status": "partial",
   "theorems": [
    "Verif.C138_accuracy_partial",
    "Verif.C138_order_partial",
    "Verif.C138_width",
    "Verif.C138_special",
    "Verif.C138_large_false",
    "Verif.C138_table_partial",
    "Verif.C138_names_false"
   ],
   "note": "Proved for times with at most 247 digits before the point and for names without tabs and line ends (C138_accuracy_partial, C138_order_partial, C138_table_partial), the widths for all times (C138_width, C138_special). False for times from 10^255 seconds on, where the buffer ends before the point (C138_large_false), and for names with line ends (C138_names_false)."
  },
  {
   "property": "C139",
   "status": "partial",
   "theorems": [
    "Verif.C139_returns",
    "Verif.C139_same",
    "Verif.C139_quiet",
    "Verif.C139_costs",
    "Verif.C139_soft",
    "Verif.C139_scaled",
    "Verif.C139_maxima_false"
   ],
   "note": "Proved, except that the maxima shown last belong to the trajectory NLopt ended with, run slower (C139_scaled), which is not the trajectory returned when velocities are prescribed at vertices (C139_maxima_false). Without limits the call is undefined with and without output, though not in the same way (C139_returns, C139_same)."
  },
  {
   "property": "C140",
   "status": "partial",
   "theorems": [
    "Verif.C140_reproducible_partial",
    "Verif.C140_seed",
    "Verif.C140_interleaved_false",
    "Verif.C140_clock"
   ],
   "note": "Proved if no other optimiser is set up or run after the first set-up (C140_reproducible_partial); otherwise false (C140_interleaved_false). C140_seed says when the generator is seeded, C140_clock shows that a negative seed makes results depend on the clock, as documented."
  },
  {
   "property": "C141",
   "status": "partial",
   "theorems": [
    "Verif.C141_settings",
    "Verif.C141_setup",
    "Verif.C141_iterations",
    "Verif.C141_heuristic_false"
   ],
   "note": "Proved (C141_settings, C141_setup, C141_iterations), except for the documented meaning of a negative initial_stepsize_rel, which is false (C141_heuristic_false). equality_constraint_tolerance is not used by the code."
  },
  {
   "property": "C142",
   "status": "partial",
   "theorems": [
    "Verif.C142_segments",
    "Verif.C142_derivative",
    "Verif.C142_returns",
    "Verif.C142_vertices_partial",
    "Verif.C142_invalid_false",
    "Verif.C142_verdicts"
   ],
   "note": "Proved for segments and derivatives of them (C142_segments, C142_derivative, C142_returns), for verdicts (C142_verdicts), and for vertices with derivatives up to the snap (C142_vertices_partial); false for higher derivatives (C142_invalid_false)."
  },
  {
   "property": "C143",
   "status": "partial",
   "theorems": [
    "Verif.C143_path_partial",
    "Verif.C143_returns_partial",
    "Verif.C143_rejected",
    "Verif.C143_dimension_false",
    "Verif.C143_negative_false",
    "Verif.C143_far_false",
    "Verif.C143_end_false"
   ],
   "note": "Proved: the vertices and what they prescribe (C143_path_partial), that they are returned (C143_returns_partial) and refusals (C143_rejected). False: neighbours can be farther apart than twice the average (C143_far_false, C143_end_false), dimension 0 does not return (C143_dimension_false), negative averages are undefined behaviour (C143_negative_false)."
  },
  {
   "property": "C144",
   "status": "partial",
   "theorems": [
    "Verif.C144_sum",
    "Verif.C144_multiple",
    "Verif.C144_offset",
    "Verif.C144_offset_derivatives",
    "Verif.C144_derivative",
    "Verif.C144_appended",
    "Verif.C144_appended_false",
    "Verif.C144_product_finite",
    "Verif.C144_product",
    "Verif.C144_product_range",
    "Verif.C144_sum_commutes",
    "Verif.C144_product_commutes_false",
    "Verif.C144_scale",
    "Verif.C144_scale_range_partial",
    "Verif.C144_scale_exact",
    "Verif.C144_scale_false"
   ],
   "note": "Proved for sums, multiples, offsets and products (C144_sum, C144_sum_commutes, C144_multiple, C144_offset, C144_offset_derivatives, C144_derivative, C144_appended, C144_product_finite, C144_product, C144_product_range) and for finite results of scaling in time (C144_scale, C144_scale_exact); that the latter are finite is proved if the powers of the factor are in range (C144_scale_range_partial) and false otherwise (C144_scale_false). At infinite times appended coefficients turn values into NaN (C144_appended_false), and the order of the factors of a product can matter (C144_product_commutes_false)."
  },
  {
   "property": "C145",
   "status": "partial",
   "theorems": [
    "Verif.C145_interval",
    "Verif.C145_spread",
    "Verif.C145_matrices",
    "Verif.C145_undefined",
    "Verif.C145_double_partial",
    "Verif.C145_double_ends",
    "Verif.C145_above_false"
   ],
   "note": "Proved in exact arithmetic (C145_interval, C145_spread) and for matrices (C145_matrices, C145_undefined); in double arithmetic with a small excess (C145_double_partial, C145_double_ends), without which it is false (C145_above_false)."
  }
 ]
}