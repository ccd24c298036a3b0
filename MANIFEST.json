{
 "claims": [
  {
   "property": "C01",
   "status": "proved",
   "theorems": [
    "C01_baseCoeffsWithTime",
    "C01_evaluate",
    "C01_evaluate_iteratedDeriv",
    "C01_evaluate_high_order",
    "C01_evaluate_out_of_table",
    "C01_evaluateAll",
    "C01_getCoefficients"
   ],
   "note": "Exact arithmetic over any commutative ring; vectors longer than the 22-column table are the distinct outcome ub."
  },
  {
   "property": "C02",
   "status": "proved",
   "theorems": [
    "C02_convolve",
    "C02_convolve_coeff"
   ],
   "note": "Exact arithmetic."
  },
  {
   "property": "C03",
   "status": "proved",
   "theorems": [
    "C03_add",
    "C03_smul",
    "C03_appendCoefficients",
    "C03_offset",
    "C03_scaleInTime"
   ],
   "note": "Exact arithmetic; operator+ on unequal sizes is ub."
  },
  {
   "property": "C04",
   "status": "proved",
   "theorems": [
    "C04_computeMinMax",
    "C04_computeMinMax_fails_iff",
    "C04_selectMinMaxFromRoots",
    "C04_with_root_finder",
    "C04_approximate"
   ],
   "note": "The root finder is a parameter whose completeness on the derivative's coefficients is a hypothesis; values within double range. C04_approximate allows inexact roots; C04_with_root_finder uses the modelled root finder for degrees at most d + 3."
  },
  {
   "property": "C05",
   "status": "proved",
   "theorems": [
    "C05_segment_extremum",
    "C05_reversed_interval",
    "C05_accuracy"
   ],
   "note": "Complete root finder as hypothesis; the minimum additionally needs the magnitude to be below the largest double."
  },
  {
   "property": "C06",
   "status": "partial",
   "theorems": [
    "C06_refuted",
    "C06_no_sign_change_partial",
    "C06_exact_partial"
   ],
   "note": "C06_refuted: position t on [-1,1] reports 1 instead of 0. Proved when the signed value keeps one sign on the interval; C06_exact_partial says what is reported in every case and that it is wrong exactly when there is a zero that is not reported."
  },
  {
   "property": "C07",
   "status": "proved",
   "theorems": [
    "C07_computeMinMaxMagnitude",
    "C07_computeMaxVelocityAndAcceleration",
    "C07_order_too_high_reports_lowest",
    "C07_accuracy",
    "C07_exact_where_needed"
   ],
   "note": "Complete root finder as hypothesis; derivative order below N (the behaviour above is a separate theorem)."
  },
  {
   "property": "C08",
   "status": "proved",
   "theorems": [
    "C08_evaluate",
    "C08_every_time_has_a_segment"
   ],
   "note": ""
  },
  {
   "property": "C09",
   "status": "proved",
   "theorems": [
    "C09_derivative_of_evaluation"
   ],
   "note": ""
  },
  {
   "property": "C10",
   "status": "proved",
   "theorems": [
    "C10_maxTime_under_all_histories",
    "C10_segmentTimes"
   ],
   "note": "Induction over arbitrary sequences of the mutating operations."
  },
  {
   "property": "C11",
   "status": "proved",
   "theorems": [
    "C11_scale_times",
    "C11_scale_keeps_path"
   ],
   "note": ""
  },
  {
   "property": "C12",
   "status": "proved",
   "theorems": [
    "C12_accuracy",
    "C12_only_stretches",
    "C12_one_pass",
    "C12_meets_constraints",
    "C12_no_change_when_feasible",
    "C12_zero_limit"
   ],
   "note": "Complete root finder as hypothesis for the limits; the stretching claim needs none. A zero limit is the outcome nonfinite."
  },
  {
   "property": "C13",
   "status": "partial",
   "theorems": [
    "C13_samples",
    "C13_refuted",
    "C13_from_joint_partial",
    "C13_start_at_end",
    "C13_start_beyond",
    "C13_nonpositive_step"
   ],
   "note": "C13_refuted: sampling times are counted from the start of the segment. C13_samples gives the exact behaviour, C13_from_joint_partial the intended one when the start is a segment start."
  },
  {
   "property": "C14",
   "status": "partial",
   "theorems": [
    "C14_segment",
    "C14_trajectory_refuted",
    "C14_trajectory_refuses",
    "C14_trajectory_partial"
   ],
   "note": "Segment level proved (C14_segment). Trajectory level refuted: the maximum time is not copied; the rest is C14_trajectory_partial."
  },
  {
   "property": "C15",
   "status": "partial",
   "theorems": [
    "C15_segment_partial",
    "C15_segment_exact_partial",
    "C15_segment_empty",
    "C15_segment_refuted",
    "C15_trajectory_partial",
    "C15_trajectory_length_mismatch",
    "C15_trajectory_empty"
   ],
   "note": "Refuted when the numbers of coefficients differ and one segment is shorter (the unscaled polynomials are used); proved otherwise; C15_segment_exact_partial says what results in that case."
  },
  {
   "property": "C16",
   "status": "proved",
   "theorems": [
    "C16_addTrajectories",
    "C16_plays_in_sequence",
    "C16_end",
    "C16_in_place_loses_receiver"
   ],
   "note": ""
  },
  {
   "property": "C17",
   "status": "proved",
   "theorems": [
    "C17_offset_refused",
    "C17_offset",
    "C17_offset_reports",
    "C17_offset_inverse"
   ],
   "note": ""
  },
  {
   "property": "C18",
   "status": "proved",
   "theorems": [
    "C18_getVertices",
    "C18_start_and_goal",
    "C18_empty",
    "C18_getVertices_pos_yaw",
    "C18_pos_yaw_too_few_dimensions"
   ],
   "note": ""
  },
  {
   "property": "C19",
   "status": "proved",
   "theorems": [
    "C19_store_is_map",
    "C19_wrong_dimension_aborts",
    "C19_remove_reports"
   ],
   "note": "Induction over arbitrary operation sequences, refinement to a finite map."
  },
  {
   "property": "C20",
   "status": "proved",
   "theorems": [
    "C20_isEqualTol_iff",
    "C20_isEqualTol_refl",
    "C20_isEqualTol_symm",
    "C20_different_dimension_ub",
    "C20_getSubdimension"
   ],
   "note": "Comparison of vertices of different dimension is ub."
  },
  {
   "property": "C21",
   "status": "proved",
   "theorems": [
    "C21_estimateSegmentTimes",
    "C21_too_few",
    "C21_estimate_bounds",
    "C21_reverse",
    "C21_translation"
   ],
   "note": "Exact real arithmetic."
  },
  {
   "property": "C22",
   "status": "proved",
   "theorems": [
    "C22_no_motion_is_faster",
    "C22_attained",
    "C22_monotone",
    "C22_continuous",
    "C22_estimateSegmentTimesVelocityRamp"
   ],
   "note": "Lower bound over every admissible motion in every normed space; attained by a motion; exact real arithmetic."
  },
  {
   "property": "C23",
   "status": "proved",
   "theorems": [
    "C23_constraints"
   ],
   "note": "All histories of the optimisation object, all dimensions and orders."
  },
  {
   "property": "C24",
   "status": "proved",
   "theorems": [
    "C24_smooth"
   ],
   "note": "All histories of the optimisation object."
  },
  {
   "property": "C25",
   "status": "partial",
   "theorems": [
    "C25_refuted",
    "C25_partial"
   ],
   "note": "Refuted for positive times below 2^-52 (C25_refuted); proved for all times from 2^-52 on, with uniqueness of the interpolating polynomial (C25_partial)."
  },
  {
   "property": "C26",
   "status": "proved",
   "theorems": [
    "C26_cost_matrix",
    "C26_exists",
    "C26_cost",
    "C26_cost_solved"
   ],
   "note": "Over the reals with Mathlib's interval integral; computeCost for all histories."
  },
  {
   "property": "C27",
   "status": "proved",
   "theorems": [
    "C27_optimal",
    "C27_cost"
   ],
   "note": "Over the reals; the sparse QR solver enters through the contract SolvesSystems (solvability of the system is proved, not assumed)."
  },
  {
   "property": "C28",
   "status": "proved",
   "theorems": [
    "C28_setup_iff",
    "C28_count_checked",
    "C28_derivative_checked",
    "C28_positive_checked",
    "C28_kept",
    "C28_solves"
   ],
   "note": "Exact acceptance condition of setupFromVertices, and what it keeps."
  },
  {
   "property": "C29",
   "status": "proved",
   "theorems": [
    "C29_decoding",
    "C29_start"
   ],
   "note": "Over the reals; all histories of the object, all points handed to the objective."
  },
  {
   "property": "C30",
   "status": "proved",
   "theorems": [
    "C30_bounds",
    "C30_steps",
    "C30_optimize_succeeds",
    "C30_optimizeTime_succeeds"
   ],
   "note": "NLopt enters through the contract Obeys (bounds respected, no gradient requested); all histories, all runs."
  },
  {
   "property": "C31",
   "status": "partial",
   "theorems": [
    "C31_bounds_partial",
    "C31_misplaced",
    "C31_refuted"
   ],
   "note": "Refuted when the optimised derivative is not the highest boundary derivative (C31_refuted, C31_misplaced: the planner's own configuration); proved when it is (C31_bounds_partial)."
  },
  {
   "property": "C32",
   "status": "partial",
   "theorems": [
    "C32_total_cost_partial",
    "C32_monotone",
    "C32_objective",
    "C32_refuted"
   ],
   "note": "Refuted for a limit of zero (C32_refuted); proved for positive limits (C32_total_cost_partial, C32_objective), with monotonicity in the violation (C32_monotone)."
  },
  {
   "property": "C33",
   "status": "proved",
   "theorems": [
    "C33_waypoint_is_reached",
    "C33_update_succeeds",
    "C33_small_updates_never_applied"
   ],
   "note": "Induction over arbitrary histories of updates and re-timings; the 2 cm condition is in the statement, C33_small_updates_never_applied shows it is needed."
  },
  {
   "property": "C34",
   "status": "proved",
   "theorems": [
    "C34_effect_of_update",
    "C34_bounded",
    "C34_local",
    "C34_nothing_before_the_update",
    "C34_jump_at_cutoff"
   ],
   "note": "Exact real arithmetic, Real.exp."
  },
  {
   "property": "C35",
   "status": "partial",
   "theorems": [
    "C35_velocity_partial",
    "C35_acceleration_error",
    "C35_refuted"
   ],
   "note": "First half proved (C35_velocity_partial). Second half refuted (C35_refuted), with the exact error term (C35_acceleration_error)."
  },
  {
   "property": "C36",
   "status": "proved",
   "theorems": [
    "C36_late_update_no_effect",
    "C36_update_at_waypoint_time"
   ],
   "note": ""
  },
  {
   "property": "C37",
   "status": "partial",
   "theorems": [
    "C37_known_time_partial",
    "C37_exact_partial",
    "C37_refuted"
   ],
   "note": "Refuted for updates with unknown time (C37_refuted); proved for known times; the exact effect on every axis in either case is C37_exact_partial."
  },
  {
   "property": "C38",
   "status": "proved",
   "theorems": [
    "C38_bookkeeping",
    "C38_never_fails",
    "C38_no_position_ub"
   ],
   "note": "Induction over arbitrary operation histories."
  },
  {
   "property": "C39",
   "status": "partial",
   "theorems": [
    "C39_known_times_partial",
    "C39_fresh_copy_identical",
    "C39_refuted"
   ],
   "note": "Refuted for updates with unknown time after the copy (C39_refuted); proved otherwise."
  },
  {
   "property": "C40",
   "status": "proved",
   "theorems": [
    "C40_references",
    "C40_returns",
    "C40_plotting"
   ],
   "note": "Optimizer contract Segmentwise as hypothesis; a zero-width compensation at its centre is the outcome nonfinite (see C40_returns)."
  },
  {
   "property": "C41",
   "status": "proved",
   "theorems": [
    "C41_speed_interleaved",
    "C41_speed"
   ],
   "note": "All histories of calls, worker phases and computation steps (C41_speed), and all interleavings of single reads, writes and mutex operations (C41_speed_interleaved)."
  },
  {
   "property": "C42",
   "status": "proved",
   "theorems": [
    "C42_two_vertices",
    "C42_never_too_few"
   ],
   "note": "Optimizer contract Segmentwise for the second theorem."
  },
  {
   "property": "C43",
   "status": "proved",
   "theorems": [
    "C43_one_computation",
    "C43_input_private",
    "C43_until_taken_over"
   ],
   "note": "All interleavings, any number of users. That nobody changes the input until the take-over is stated with version counters of the planned waypoints and their start time."
  },
  {
   "property": "C44",
   "status": "proved",
   "theorems": [
    "C44_no_deadlock",
    "C44_no_deadlock_one_consumer"
   ],
   "note": "All interleavings, any number of users, up to the first undefined behaviour; with one evaluating thread there is none (C45)."
  },
  {
   "property": "C45",
   "status": "partial",
   "theorems": [
    "C45_once_in_order",
    "C45_one_consumer_partial",
    "C45_refuted"
   ],
   "note": "Refuted for two evaluating threads (C45_refuted). For one evaluating thread no undefined behaviour is reachable (C45_one_consumer_partial); order and uniqueness hold for any users up to the first undefined behaviour (C45_once_in_order)."
  },
  {
   "property": "C46",
   "status": "partial",
   "theorems": [
    "C46_next_plan_partial",
    "C46_launched_partial",
    "C46_asleep",
    "C46_refuted",
    "C46_refuted_by_modification"
   ],
   "note": "Refuted (C46_refuted: a request made while a computation runs is forgotten at the take-over; C46_refuted_by_modification: modifyWaypoint without generation cancels it). Proved while the planner is idle: the next plan taken over contains the waypoint (C46_next_plan_partial) and is made as soon as the worker looks outside the security zone (C46_launched_partial); and the exact condition under which it sleeps (C46_asleep)."
  },
  {
   "property": "C47",
   "status": "proved",
   "theorems": [
    "C47_contents",
    "C47_taken_over"
   ],
   "note": "All histories; requests are tracked by a ghost record defined in Spec/Requests."
  },
  {
   "property": "C48",
   "status": "partial",
   "theorems": [
    "C48_refuted",
    "C48_empty_keeps_route",
    "C48_nonempty_partial"
   ],
   "note": "Refuted for an empty route (C48_refuted, C48_empty_keeps_route); proved for non-empty ones."
  },
  {
   "property": "C49",
   "status": "proved",
   "theorems": [
    "C49_call",
    "C49_apply"
   ],
   "note": ""
  },
  {
   "property": "C50",
   "status": "partial",
   "theorems": [
    "C50_refuted",
    "C50_partial"
   ],
   "note": "Refuted (C50_refuted); proved for the remaining cases (C50_partial)."
  },
  {
   "property": "C51",
   "status": "partial",
   "theorems": [
    "C51_refuted",
    "C51_recorded",
    "C51_partial",
    "C51_taken_over_partial"
   ],
   "note": "Refuted (C51_refuted: stale local time when the plan is taken over by a call other than an evaluation); proved when plans are taken over by evaluations (C51_partial, C51_taken_over_partial)."
  },
  {
   "property": "C52",
   "status": "partial",
   "theorems": [
    "C52_refuted",
    "C52_exact_partial",
    "C52_partial"
   ],
   "note": "Refuted (C52_refuted: waypoints between 10 and 20 computation times ahead are dropped); the exact set kept (C52_exact_partial); proved for waypoints at least 20 computation times ahead (C52_partial)."
  },
  {
   "property": "C53",
   "status": "partial",
   "theorems": [
    "C53_when",
    "C53_recorded",
    "C53_refuted",
    "C53_partial"
   ],
   "note": "Refuted (C53_refuted: stale local time); proved relative to the noted instant (C53_recorded) and when plans are taken over by evaluations (C53_partial)."
  },
  {
   "property": "C54",
   "status": "proved",
   "theorems": [
    "C54_times",
    "C54_positions"
   ],
   "note": "Optimizer contracts Segmentwise and MeetsVertices as hypotheses; positions for histories in which the user hands over waypoints without pending compensations."
  },
  {
   "property": "C55",
   "status": "proved",
   "theorems": [
    "C55_ends_at_rest",
    "C55_hover"
   ],
   "note": "Optimizer contracts Segmentwise and MeetsVertices as hypotheses."
  },
  {
   "property": "C56",
   "status": "partial",
   "theorems": [
    "C56_recorded",
    "C56_refuted",
    "C56_partial"
   ],
   "note": "Refuted for the true last evaluated time (C56_refuted); proved relative to the recorded one (C56_recorded) and when plans are taken over by evaluations (C56_partial)."
  },
  {
   "property": "C57",
   "status": "partial",
   "theorems": [
    "C57_refuted",
    "C57_visible",
    "C57_record_partial",
    "C57_partial"
   ],
   "note": "Refuted (C57_refuted: the take-over restores an older last evaluated time, visible through the API by C57_visible); proved for schedules on time (C57_partial)."
  },
  {
   "property": "C58",
   "status": "proved",
   "theorems": [
    "C58_decision",
    "C58_only_outside_zone",
    "C58_launches"
   ],
   "note": ""
  },
  {
   "property": "C59",
   "status": "proved",
   "theorems": [
    "C59_next",
    "C59_after_end"
   ],
   "note": ""
  },
  {
   "property": "C60",
   "status": "partial",
   "theorems": [
    "C60_interleaved_refuted",
    "C60_interleaved_partial",
    "C60_sequential",
    "C60_no_silent_change"
   ],
   "note": "Proved for histories of atomic calls (C60_sequential, C60_no_silent_change); refuted for interleavings (C60_interleaved_refuted: a change between the read and the reset is lost); C60_interleaved_partial: for every interleaving in which no change and no other such call happens during the call."
  },
  {
   "property": "C61",
   "status": "proved",
   "theorems": [
    "C61_never_missing",
    "C61_two_consumers_refuted",
    "C61_blocks",
    "C61_does_not_block",
    "C61_failures",
    "C61_until_first"
   ],
   "note": "Optimizer contract Segmentwise for the histories with data; C61_never_missing for all interleavings of single steps with one evaluating thread. With two it fails (C61_two_consumers_refuted)."
  },
  {
   "property": "C62",
   "status": "proved",
   "theorems": [
    "C62_cumulative_time"
   ],
   "note": ""
  },
  {
   "property": "C63",
   "status": "partial",
   "theorems": [
    "C63_refuted",
    "C63_batches_partial"
   ],
   "note": "Refuted (C63_refuted: the two names of one call are taken separately). Proved: the worker takes exactly the pending requests (C63_batches_partial)."
  },
  {
   "property": "C64",
   "status": "proved",
   "theorems": [
    "C64_node_round_trip",
    "C64_segment_round_trip",
    "C64_file_round_trip",
    "C64_exact",
    "C64_trajectory",
    "C64_node_gaps",
    "C64_file_only_well_formed",
    "C64_file_faulty_entry",
    "C64_unreadable_file",
    "C64_file_short_polynomial",
    "C64_empty_trajectory_file",
    "C64_node_sizes_unchecked",
    "C64_text_round_trip"
   ],
   "note": "Exact numbers (for rounding of the durations see C106). The tree read is the tree written; for the file also at the level of its characters (C64_text_round_trip, with the printing of doubles as a parameter). The numbers fit the integer types of the format. The gaps (empty lists and zero dimensions through nodes, unreadable files, faulty entries, undeclared sizes) are theorems of their own."
  },
  {
   "property": "C65",
   "status": "partial",
   "theorems": [
    "C65_at_time",
    "C65_segment_at_time",
    "C65_refused",
    "C65_range",
    "C65_refuted",
    "C65_from_joint_partial",
    "C65_whole",
    "C65_start_at_end",
    "C65_kinematic"
   ],
   "note": "Refuted for ranges that start inside a segment (C65_refuted: states past the end of the range) and for a range that starts at the end of the trajectory (C65_start_at_end: undefined behaviour). Proved: single samples, refusals, ranges that start at a joint, the whole trajectory."
  },
  {
   "property": "C66",
   "status": "proved",
   "theorems": [
    "C66_position_name",
    "C66_position_number",
    "C66_orientation_name",
    "C66_orientation_number",
    "C66_round_trip"
   ],
   "note": "All integers and strings."
  },
  {
   "property": "C67",
   "status": "partial",
   "theorems": [
    "C67_statistics",
    "C67_min",
    "C67_max",
    "C67_max_partial",
    "C67_max_wrong",
    "C67_max_refuted",
    "C67_overflow",
    "C67_no_samples"
   ],
   "note": "Maximum refuted when no sample is positive (C67_max_refuted, C67_max_wrong; C67_max_partial otherwise); everything else proved for up to 2^31-1 samples, after which the counters overflow (C67_overflow). Exact arithmetic."
  },
  {
   "property": "C68",
   "status": "proved",
   "theorems": [
    "C68_same_handle",
    "C68_distinct",
    "C68_statistics",
    "C68_stays_valid",
    "C68_query_creates"
   ],
   "note": "All histories of calls."
  },
  {
   "property": "C69",
   "status": "proved",
   "theorems": [
    "C69_rotation",
    "C69_round_trip",
    "C69_any_angle",
    "C69_setters"
   ],
   "note": "Exact arithmetic; Eigen's quaternion operations modelled."
  },
  {
   "property": "C70",
   "status": "partial",
   "theorems": [
    "C70_skew",
    "C70_unskew",
    "C70_matrixFromRotationVector",
    "C70_one_axis",
    "C70_accepts_rotations",
    "C70_refuted",
    "C70_isRotationMatrix_partial",
    "C70_near_rotations_partial"
   ],
   "note": "Refuted for isRotationMatrix (C70_refuted: the point reflection is accepted). Skew matrices and matrixFromRotationVector proved in full; what isRotationMatrix accepts is bounded in C70_isRotationMatrix_partial, and C70_near_rotations_partial gives the distance to a true rotation (or its negative) and the converse."
  },
  {
   "property": "C71",
   "status": "proved",
   "theorems": [
    "C71_quadratic",
    "C71_quadratic_degenerate",
    "C71_divisionQuadratic",
    "C71_divisionLinear",
    "C71_trailing",
    "C71_constant",
    "C71_origin"
   ],
   "note": "Exact arithmetic."
  },
  {
   "property": "C72",
   "status": "partial",
   "theorems": [
    "C72_exact",
    "C72_alone_partial",
    "C72_refuted"
   ],
   "note": "Refuted in general (C72_refuted: overlapping compensations); exact value proved (C72_exact); proved when no other compensation is active (C72_alone_partial)."
  },
  {
   "property": "C73",
   "status": "partial",
   "theorems": [
    "C73_refuted",
    "C73_partial"
   ],
   "note": "Refuted for negative offsets (C73_refuted); proved otherwise (C73_partial)."
  },
  {
   "property": "C74",
   "status": "partial",
   "theorems": [
    "C74_stale_free_values",
    "C74_partial",
    "C74_refuted",
    "C74_reuse_partial",
    "C74_stale_free"
   ],
   "note": "Refuted (C74_refuted, C74_stale_free_values); proved for new objects and for problems that leave a derivative free (C74_partial)."
  },
  {
   "property": "C75",
   "status": "proved",
   "theorems": [
    "C75_accuracy",
    "C75_maximum",
    "C75_order_checked"
   ],
   "note": "Over the reals; the root finder enters through the contract FindsRealRoots."
  },
  {
   "property": "C76",
   "status": "proved",
   "theorems": [
    "C76_inverse",
    "C76_selection",
    "C76_pseudo_inverse"
   ],
   "note": "All histories of the optimisation object."
  },
  {
   "property": "C77",
   "status": "proved",
   "theorems": [
    "C77_history_independent",
    "C77_free_independent"
   ],
   "note": "All pairs of histories."
  },
  {
   "property": "C78",
   "status": "partial",
   "theorems": [
    "C78_meets_partial",
    "C78_refuted"
   ],
   "note": "Refuted when NLopt throws before any evaluation (C78_refuted); proved otherwise (C78_meets_partial)."
  },
  {
   "property": "C79",
   "status": "proved",
   "theorems": [
    "C79_info"
   ],
   "note": "NLopt runs are arbitrary lists of callback invocations obeying the contract Obeys."
  },
  {
   "property": "C80",
   "status": "partial",
   "theorems": [
    "C80_last_partial",
    "C80_refuted"
   ],
   "note": "Refuted (C80_refuted); the trajectory kept is that of the last evaluated point (C80_last_partial)."
  },
  {
   "property": "C81",
   "status": "partial",
   "theorems": [
    "C81_held",
    "C81_same_point_partial",
    "C81_refuted"
   ],
   "note": "Refuted (C81_refuted); the answer is that for the trajectory held (C81_held), hence right after an evaluation at the same point (C81_same_point_partial)."
  },
  {
   "property": "C82",
   "status": "partial",
   "theorems": [
    "C82_kept_partial",
    "C82_forgotten",
    "C82_before_setup",
    "C82_rejected",
    "C82_refuted"
   ],
   "note": "Refuted across set-ups (C82_refuted, C82_forgotten) and before the first one (C82_before_setup); proved between set-ups (C82_kept_partial)."
  },
  {
   "property": "C83",
   "status": "proved",
   "theorems": [
    "C83_gradient",
    "C83_single",
    "C83_total_time",
    "C83_wrong_kind"
   ],
   "note": "All histories and time vectors within the bounds."
  },
  {
   "property": "C84",
   "status": "proved",
   "theorems": [
    "C84_common_factor",
    "C84_unchanged",
    "C84_needs_limits"
   ],
   "note": "All histories and runs of NLopt that obey the contract."
  },
  {
   "property": "C85",
   "status": "proved",
   "theorems": [
    "C85_segmentwise",
    "C85_smooth",
    "C85_meets_vertices",
    "C85_linear_succeeds",
    "C85_nonlinear_succeeds",
    "C85_repeated"
   ],
   "note": "Contracts of the planner theorems discharged for the modelled optimiser over the reals; success under the NLopt contract Obeys."
  },
  {
   "property": "C86",
   "status": "proved",
   "theorems": [
    "C86_start_stop",
    "C86_destructor",
    "C86_stop_unchecked",
    "C86_mini"
   ],
   "note": "All clock readings."
  },
  {
   "property": "C87",
   "status": "partial",
   "theorems": [
    "C87_races_partial",
    "C87_races_one_consumer_partial",
    "C87_refuted_modifications",
    "C87_refuted_last_time",
    "C87_refuted_trajectory",
    "C87_refuted_two_consumers_trajectory",
    "C87_refuted_two_consumers_offset"
   ],
   "note": "Refuted for five unprotected reads, each with a schedule; no other race is reachable (C87_races_partial), and with one evaluating thread only the three of the worker (C87_races_one_consumer_partial). Accesses inside mav_trajectory_generation objects are attributed to the member that holds them."
  },
  {
   "property": "C88",
   "status": "proved",
   "theorems": [
    "C88_rotation_of_quaternion",
    "C88_euler_angles",
    "C88_round_trip",
    "C88_gimbal_lock"
   ],
   "note": "Exact arithmetic; a non-unit quaternion may give NaN (example)."
  },
  {
   "property": "C89",
   "status": "proved",
   "theorems": [
    "C89_round_trip",
    "C89_matrix_round_trip",
    "C89_refused"
   ],
   "note": "Exact arithmetic; the half turn is marked non-finite: the code divides by sin(pi)."
  },
  {
   "property": "C90",
   "status": "proved",
   "theorems": [
    "C90_angular_velocity",
    "C90_angular_acceleration"
   ],
   "note": "Away from rotation vector length 1e-3 for the acceleration, where the function returned by omegaFromRotationVector jumps."
  },
  {
   "property": "C91",
   "status": "proved",
   "theorems": [
    "C91_transform",
    "C91_compose",
    "C91_undo",
    "C91_trajectory"
   ],
   "note": "The transform is rigid; Eigen's rotation() (an SVD) is a field of the transform that equals the linear part for rigid transforms. Eigen's matrix to quaternion conversion is modelled and proved."
  },
  {
   "property": "C92",
   "status": "proved",
   "theorems": [
    "C92_world_velocity"
   ],
   "note": "Unit orientation."
  },
  {
   "property": "C93",
   "status": "proved",
   "theorems": [
    "C93_nanoseconds"
   ],
   "note": "Exact arithmetic on both sides; the rounding of the product and quotient is not modelled."
  },
  {
   "property": "C94",
   "status": "proved",
   "theorems": [
    "C94_rotor_speeds",
    "C94_gravity"
   ],
   "note": "Exact arithmetic."
  },
  {
   "property": "C95",
   "status": "proved",
   "theorems": [
    "C95_table",
    "C95_more_segments_than_rows",
    "C95_too_few_dimensions"
   ],
   "note": "Trajectories without jumps up to snap, at most as many segments as rows; with more segments the code writes past the table (C95_more_segments_than_rows)."
  },
  {
   "property": "C96",
   "status": "proved",
   "theorems": [
    "C96_answer",
    "C96_number",
    "C96_conjugate",
    "C96_too_long",
    "C96_terminates",
    "C96_exact",
    "C96_misses_tiny",
    "C96_accepts_wrong_root",
    "C96_finds_real_roots"
   ],
   "note": "Exact arithmetic; the iterations that look for candidates are modelled in full. No statement about the distance of approximated roots to true zeros is made: the acceptance test looks at one of two real roots only (C96_accepts_wrong_root)."
  },
  {
   "property": "C97",
   "status": "proved",
   "theorems": [
    "C97_curve",
    "C97_end_missing",
    "C97_takes_over",
    "C97_failed_computation"
   ],
   "note": "Calls of matplotlib are not modelled. The last 0.1 to 0.2 s of the plan are never drawn (C97_end_missing). The exceptional cases are theorems of their own."
  },
  {
   "property": "C98",
   "status": "proved",
   "theorems": [
    "C98_kept"
   ],
   "note": "Histories of successful calls; a failed call leaves the mutex held, after which no call returns (C97_failed_computation)."
  },
  {
   "property": "C99",
   "status": "partial",
   "theorems": [
    "C99_never_back",
    "C99_lost_refuted",
    "C99_newest_partial",
    "C99_progress",
    "C99_start_refuted",
    "C99_start_partial",
    "C99_destructor",
    "C99_destructor_refuted"
   ],
   "note": "Refuted: data written between drawing and lowering the flag is never shown (C99_lost_refuted); ended_ is not initialised before the thread starts (C99_start_refuted); the destructor does not return when a call leaked the mutex (C99_destructor_refuted). Proved: the screen never goes back; the newest data is shown if no call writes in that interval; progress; the destructor returns if the mutex is free."
  },
  {
   "property": "C100",
   "status": "partial",
   "theorems": [
    "C100_races_partial",
    "C100_races_refuted",
    "C100_stable",
    "C100_no_deadlock",
    "C100_terminates",
    "C100_sequential",
    "C100_results",
    "C100_null",
    "C100_not_together_refuted"
   ],
   "note": "Refuted: copying from and comparing handles reads their pointer without their mutex, so that it can race with an assignment to them (C100_races_refuted); these are the only races (C100_races_partial). Length and value may come from different trajectories when asked for one after the other (C100_not_together_refuted). Proved: progress, termination, stability under the lock, equivalence to one call after the other (the access to the pointer counted as one step)."
  },
  {
   "property": "C101",
   "status": "partial",
   "theorems": [
    "C101_candidates",
    "C101_short",
    "C101_order",
    "C101_never_ends",
    "C101_maximum_refuted",
    "C101_maximum_partial"
   ],
   "note": "Proved: the exact list of candidates, their order, termination, and the distance to the maximum in one dimension with a small enough step (C101_maximum_partial). Refuted: with two dimensions the maximum can be missed for every step (C101_maximum_refuted); a step that is not positive never ends."
  },
  {
   "property": "C102",
   "status": "proved",
   "theorems": [
    "C102_maximum",
    "C102_accuracy",
    "C102_no_duration",
    "C102_cost",
    "C102_cost_accuracy",
    "C102_never_ends"
   ],
   "note": "Exact arithmetic; the sampling times are multiples of dt. The bounds on magnitude and rate of change are hypotheses."
  },
  {
   "property": "C103",
   "status": "proved",
   "theorems": [
    "C103_polynomial",
    "C103_max_time",
    "C103_in_range",
    "C103_out_of_range",
    "C103_local_time",
    "C103_trajectory",
    "C103_accuracy",
    "C103_nearest",
    "C103_table_exact",
    "C103_without_rounding"
   ],
   "note": "Rounding is a function with relative error at most u applied after each operation; rounding to p bits (C103_nearest, p = 53 for double) is an instance. Overflow, underflow and fused operations are not modelled."
  },
  {
   "property": "C104",
   "status": "partial",
   "theorems": [
    "C104_returns_partial",
    "C104_refuted"
   ],
   "note": "Refuted for steps that are too small for the times: in double precision sampling from 2^54 to 2^54+4 seconds in steps of one second never ends (C104_refuted). Proved if u (t_end + dt) <= dt/2 and the segment times are representable (C104_returns_partial)."
  },
  {
   "property": "C105",
   "status": "partial",
   "theorems": [
    "C105_cut_partial",
    "C105_success_partial",
    "C105_trajectory_partial",
    "C105_refuted_every_length",
    "C105_refuted"
   ],
   "note": "Refuted: an interruption right after a segment leaves a file that reads, with success, as a shorter trajectory (C105_refuted; C105_refuted_every_length: every number of segments can result). Proved for every crash point: an exception, or the first k saved segments and nothing else; a refusal implies that something is missing; success implies that the file ends between two segments (C105_success_partial). The text is modelled after yaml-cpp 0.7 for the documents the code writes and their beginnings; printing of doubles is a parameter with a contract (Spec.Faithful)."
  },
  {
   "property": "C106",
   "status": "proved",
   "theorems": [
    "C106_whole_nanoseconds",
    "C106_once",
    "C106_limit",
    "C106_without_rounding"
   ],
   "note": "Rounding to nearest with 53 bits, any rule for ties; overflow and underflow are not modelled. Above 2^52 ns it is false (C106_limit)."
  },
  {
   "property": "C107",
   "status": "partial",
   "theorems": [
    "C107_round_trip_partial",
    "C107_repeated_partial",
    "C107_fifteen",
    "C107_refuted",
    "C107_repeated_loses",
    "C107_stamp_at",
    "C107_stamp_in_range",
    "C107_stamps_in_order",
    "C107_stamps_differ",
    "C107_stamped_samples"
   ],
   "note": "Refuted: 15 ns become 14 ns on the way to seconds and back (C107_refuted), and repeated conversions go on losing (C107_repeated_loses: five in a row). Proved: at most one nanosecond per conversion is lost, towards zero; accuracy, order and distinctness of the stamps of sampled states."
  },
  {
   "property": "C108",
   "status": "partial",
   "theorems": [
    "C108_partial",
    "C108_undisturbed",
    "C108_recorded",
    "C108_takes",
    "C108_refuted",
    "C108_threads_partial"
   ],
   "note": "Refuted: the worker can move a waypoint between the computation of the position and that of the velocity (C108_refuted). Proved for every interleaving: each order by itself, all together when the waypoints are left alone or only positions are asked for, the waiting plan is used, the instant is recorded. One evaluating thread."
  },
  {
   "property": "C109",
   "status": "partial",
   "theorems": [
    "C109_refuted",
    "C109_partial",
    "C109_serialised",
    "C109_threads_partial"
   ],
   "note": "Refuted: the change is announced before the waypoints are replaced (C109_refuted). Proved: consistent whenever no new plan is being made or the thread is not in the middle of a take-over, and every interleaved take-over is equivalent to an atomic one (C109_serialised)."
  },
  {
   "property": "C110",
   "status": "partial",
   "theorems": [
    "C110_partial",
    "C110_lost",
    "C110_refuted"
   ],
   "note": "Refuted: between the two assignments at the end of a take-over (computing cleared, request flag not yet) a request is forgotten for good (C110_lost, C110_refuted). Proved at every other moment (C110_partial)."
  },
  {
   "property": "C111",
   "status": "proved",
   "theorems": [
    "C111_waits",
    "C111_finite",
    "C111_defined",
    "C111_threads_waits"
   ],
   "note": "Interleaving with one evaluating thread; steps as in Model/PlannerFine. A step can fail with the exception of the failed computation, or with a value that is not finite (zero width, see C38)."
  },
  {
   "property": "C112",
   "status": "proved",
   "theorems": [
    "C112_defined"
   ],
   "note": "Worker, one evaluating thread, other user threads and the computation step by step. The steps are those of Model/PlannerFine and Model/PlannerThreads; a value that is not finite is the one of C38."
  },
  {
   "property": "C113",
   "status": "partial",
   "theorems": [
    "C113_partial",
    "C113_undisturbed",
    "C113_refuted"
   ],
   "note": "Refuted: while the worker looks, a slow computation ends and its plan, with a wider zone, is taken over (C113_refuted). Proved: a request was seen, no plan is being made, and there was no plan or the vehicle was outside the zone of some moment's plan with some later moment's computation time; the full claim if no plan is taken over meanwhile (C113_undisturbed)."
  },
  {
   "property": "C114",
   "status": "proved",
   "theorems": [
    "C114_contents"
   ],
   "note": ""
  },
  {
   "property": "C115",
   "status": "proved",
   "theorems": [
    "C115_start"
   ],
   "note": "The instant of the last evaluation is the recorded local time (stale in the circumstances of C57)."
  },
  {
   "property": "C116",
   "status": "proved",
   "theorems": [
    "C116_updates"
   ],
   "note": ""
  },
  {
   "property": "C117",
   "status": "proved",
   "theorems": [
    "C117_next_plan",
    "C117_next_plan_exact"
   ],
   "note": "Interleaving with one evaluating thread, as in C112."
  },
  {
   "property": "C118",
   "status": "proved",
   "theorems": [
    "C118_carried_out"
   ],
   "note": "Fairness as hypotheses (WorkerRuns, TaskRuns, KeepsEvaluating); the instant excluded is the lost request of C110. Executions in which no computation fails: a failed one makes the next evaluation throw (C112), and the execution modelled ends there."
  },
  {
   "property": "C119",
   "status": "partial",
   "theorems": [
    "C119_worker",
    "C119_partial",
    "C119_ends",
    "C119_quiet",
    "C119_returns",
    "C119_refuted",
    "C119_idle_refuted"
   ],
   "note": "Refuted: the members declared after future_traj_ are destroyed before the future waits for a running computation, which still uses them (C119_refuted), even if both status calls said idle when the destructor was called (C119_idle_refuted). Proved: the worker never uses a destroyed member (C119_worker); nothing undefined happens if no plan was coming (C119_partial); every execution ends (C119_ends), with the return of the destructor (C119_returns), after which no thread is left (C119_quiet)."
  },
  {
   "property": "C120",
   "status": "partial",
   "theorems": [
    "C120_time_partial",
    "C120_error_partial",
    "C120_stalls",
    "C120_speed",
    "C120_frozen",
    "C120_refuted"
   ],
   "note": "Refuted: the instant is rounded to single precision, so with clocks counting from 1970 the references of a whole plan are those of one instant (C120_frozen, C120_refuted). Proved: the answer is that for an instant at most 2^-24 of its size away (C120_time_partial), what this costs in position, velocity and acceleration for plans without compensations (C120_error_partial), which instants are confused (C120_stalls), and that rounding the speed is harmless (C120_speed). Overflow and subnormal floats are not modelled."
  },
  {
   "property": "C121",
   "status": "partial",
   "theorems": [
    "C121_rate_partial",
    "C121_bound",
    "C121_continuous_partial",
    "C121_jump_partial",
    "C121_refuted"
   ],
   "note": "Refuted: a compensation is cut off 3.5 widths from its waypoint's time, where it still has exp(-49/8) of its height (C121_refuted). Proved: without compensations the rate bound for position, velocity and acceleration between any two instants (C121_rate_partial) and that a bound exists (C121_bound); with compensations continuity of all three away from the cut-offs and global time 0 (C121_continuous_partial), and that the position jumps at most exp(-49/8) of the heights at a cut-off (C121_jump_partial). The contract on the optimizer is proved of the modelled one (C85_smooth)."
  },
  {
   "property": "C122",
   "status": "partial",
   "theorems": [
    "C122_unchanged",
    "C122_stitched_partial",
    "C122_scratch",
    "C122_refuted"
   ],
   "note": "Refuted: the new plan is read a tenth of a second ahead, so the same instant evaluated before and after a take-over gives positions that differ by a tenth of a second's flight (C122_refuted). Proved: until the take-over the old plan is followed unchanged (C122_unchanged); the jump when a stitched plan is taken over is at most the old plan's largest velocity times twice the time since the new plan's start plus the new plan's largest velocity times the time from the last evaluation to a tenth of a second after the new one (C122_stitched_partial), and a plan from scratch starts within the way the vehicle moved during its computation plus that last term (C122_scratch). For plans without compensations and histories in which plans are taken over by evaluations."
  },
  {
   "property": "C123",
   "status": "proved",
   "theorems": [
    "C123_again",
    "C123_meanwhile"
   ],
   "note": ""
  },
  {
   "property": "C124",
   "status": "partial",
   "theorems": [
    "C124_excess_partial",
    "C124_needs_time",
    "C124_reference",
    "C124_refuted"
   ],
   "note": "Refuted: the limits are soft and the last trajectory evaluated is returned, so a plan from rest to rest over ten metres with a set speed of 1 m/s may take a tenth of a second (C124_refuted). Proved: the excess in velocity and acceleration is at most the fraction log(cost - 1000 T^2)/100 where cost is the objective at the last point evaluated (C124_excess_partial); keeping to a speed needs time (C124_needs_time); bounds along the plan carry over to the references while no compensations are in force (C124_reference)."
  },
  {
   "property": "C125",
   "status": "proved",
   "theorems": [
    "C125_speed_used",
    "C125_plan_kept"
   ],
   "note": "All histories of the planner's event model; plans waiting to be taken over are excluded from C125_plan_kept."
  },
  {
   "property": "C126",
   "status": "proved",
   "theorems": [
    "C126_first_route",
    "C126_stays",
    "C126_optimiser"
   ],
   "note": "End to end over the planner's event model, for waypoints without prior compensations; C126_optimiser discharges the optimizer's contract with the modelled optimizer."
  },
  {
   "property": "C127",
   "status": "proved",
   "theorems": [
    "C127_computation",
    "C127_positive",
    "C127_waits"
   ],
   "note": "With the modelled optimizer of C85 and a positive largest acceleration. With speed zero the model stops (outcome nonfinite) where the code goes on with infinite segment times; nothing is claimed about what it computes from them."
  },
  {
   "property": "C128",
   "status": "proved",
   "theorems": [
    "C128_defined",
    "C128_computes",
    "C128_served"
   ],
   "note": "With the modelled optimizer of C85; exact real arithmetic. C128_served is about a first route, C128_defined about any reachable state, C128_computes about any computation."
  },
  {
   "property": "C129",
   "status": "proved",
   "theorems": [
    "C129_flown",
    "C129_route",
    "C129_optimiser"
   ],
   "note": "For waypoints without prior compensations and without time (new ones; waypoints taken from getDynamicWaypoints can be dropped, C52). C129_flown is about any plan in force, C129_route about a route given in flight, C129_optimiser discharges the optimizer contract."
  },
  {
   "property": "C130",
   "status": "proved",
   "theorems": [
    "C130_every_plan",
    "C130_appended",
    "C130_upcoming_kept",
    "C130_optimiser"
   ],
   "note": "For appended waypoints without prior compensations and without time; plans taken over by evaluations (as in C122). C130_every_plan is about any take-over, C130_appended about waypoints appended to a planner at rest with empty queues, C130_upcoming_kept says which old waypoints are certainly kept, C130_optimiser discharges the optimizer contract."
  },
  {
   "property": "C131",
   "status": "proved",
   "theorems": [
    "C131_moved",
    "C131_reached",
    "C131_jump",
    "C131_optimiser"
   ],
   "note": "For one move in a plan without earlier moves (several moves overlap, C72); plans taken over by evaluations. C131_moved gives the references exactly, C131_reached the consequences, C131_jump the bound at the instant of the move, C131_optimiser discharges the optimizer contract."
  },
  {
   "property": "C132",
   "status": "proved",
   "theorems": [
    "C132_replanned",
    "C132_upcoming_moved",
    "C132_optimiser"
   ],
   "note": "Plans taken over by evaluations (as in C122); queues empty at the request. C132_replanned gives the new plan, C132_upcoming_moved the waypoints that are certainly flown, also for modifyWaypoint, C132_optimiser discharges the optimizer contract."
  },
  {
   "property": "C133",
   "status": "partial",
   "theorems": [
    "C133_launched",
    "C133_served_partial",
    "C133_flown",
    "C133_window",
    "C133_refuted"
   ],
   "note": "False as stated (C133_refuted, and C133_window for every history): the security zone leaves the time compensation out, so the second point at which the new plan is attached can be the end of the old plan; a route that begins there makes the end of the computation abort. C133_served_partial proves that this is the only failure: a step fails if and only if it ends a computation whose plan is attached too close; C133_launched and C133_flown give progress before and safety after."
  },
  {
   "property": "C134",
   "status": "partial",
   "theorems": [
    "C134_returned",
    "C134_refused",
    "C134_returns_partial",
    "C134_never_returns",
    "C134_smallest_box",
    "C134_middle",
    "C134_refuted"
   ],
   "note": "False as stated (C134_refuted): a box with a diagonal of exactly 0.2 is accepted but the call never returns, whatever the seed (C134_smallest_box), and with a diagonal up to 0.4 it depends on the first number drawn (C134_middle, C134_never_returns). C134_returns_partial proves the claim for diagonals above 0.4, C134_returned that whatever is returned is as described, C134_refused the CHECKs."
  },
  {
   "property": "C135",
   "status": "proved",
   "theorems": [
    "C135_square",
    "C135_sides",
    "C135_negative"
   ],
   "note": "The product 4 * rounds is assumed to be in the range of int (else undefined behaviour); running out of memory is not modelled."
  },
  {
   "property": "C136",
   "status": "partial",
   "theorems": [
    "C136_equal_iff_partial",
    "C136_true_means_same",
    "C136_symmetric",
    "C136_equal_behave",
    "C136_refuted"
   ],
   "note": "False as stated (C136_refuted): coefficient vectors of different sizes are compared without a check, which is undefined behaviour. C136_equal_iff_partial proves the claim for trajectories with the same number of coefficients, C136_true_means_same, C136_symmetric and C136_equal_behave hold without that assumption. Numbers are elements of a field: NaN is not modelled."
  },
  {
   "property": "C137",
   "status": "proved",
   "theorems": [
    "C137_counts",
    "C137_after_taking",
    "C137_after_planning"
   ],
   "note": "About the interleaved model of all threads (one evaluating thread); C137_counts bounds the numbers, C137_after_taking and C137_after_planning say the same of every stretch without a further request."
  },
  {
   "property": "C138",
   "status": "proved",
   "theorems": [
    "C138_waypoints",
    "C138_stays",
    "C138_references",
    "C138_optimiser"
   ],
   "note": "About the interleaved model of all threads (one evaluating thread) and optimisers with the contracts proved of the modelled one in C85 (C138_optimiser). That the calls do return is the subject of C58, C111 and C112."
  },
  {
   "property": "C139",
   "status": "proved",
   "theorems": [
    "C139_only",
    "C139_several",
    "C139_unique_iff",
    "C139_solvers",
    "C139_planner"
   ],
   "note": "Over the reals, with a solver that solves systems exactly. C139_unique_iff is the dichotomy, C139_solvers and C139_planner its consequences for the optimiser and the planner."
  },
  {
   "property": "C140",
   "status": "proved",
   "theorems": [
    "C140_waypoints",
    "C140_replaced"
   ],
   "note": "In the fine-grained model of all threads, where every access to shared data is a step. C140_waypoints is the statement about the whole history, C140_replaced that about the time after a route has been taken over."
  },
  {
   "property": "C141",
   "status": "proved",
   "theorems": [
    "C141_optimiser",
    "C141_planner",
    "C141_threads"
   ],
   "note": "For the modelled optimisation (C85); without the exceptions of the run-time system such as exhausted memory, which are outside the model. C141_optimiser is the optimisation alone, C141_planner and C141_threads the planner with complete calls and in all interleavings of single accesses."
  },
  {
   "property": "C142",
   "status": "partial",
   "theorems": [
    "C142_reported",
    "C142_useless",
    "C142_partial",
    "C142_refuted"
   ],
   "note": "Refuted (C142_refuted): the call that reports the exception leaves future_mutex_ locked and computing_new_trajectory_ set. C142_useless: from then on no evaluating call returns (undefined in the same thread, waiting for ever in others) and nothing is planned. C142_reported (the exception is reported, once) and C142_partial (all other calls return, the times of the plan are unchanged) are what holds. By C141 the modelled optimisation itself never throws; this is about exceptions of the run-time system."
  },
  {
   "property": "C143",
   "status": "partial",
   "theorems": [
    "C143_independent",
    "C143_partial",
    "C143_statistics_partial",
    "C143_refuted",
    "C143_statistics_lost",
    "C143_races_later"
   ],
   "note": "Refuted (C143_refuted): the optimisation's timer enters its tag in a registry that exists once per process and is not locked, so two computations race. C143_races_later: so do they when the tag is known already. C143_statistics_lost: even with atomic accesses a measured time can be lost. What holds: C143_independent (each planner goes through a history it could go through alone), C143_partial (no race while at most one computes) and C143_statistics_partial (then the statistics are exactly those of all times measured)."
  },
  {
   "property": "C144",
   "status": "partial",
   "theorems": [
    "C144_numbers",
    "C144_numbers_round",
    "C144_numbers_times",
    "C144_answer",
    "C144_partial",
    "C144_ends",
    "C144_refuted"
   ],
   "note": "Refuted (C144_refuted): the instant is stored unchecked; a request taken up before the next evaluation at a number is joined to the current plan at a NaN, the estimated segment times are NaNs and CHECK_GT ends the process. C144_ends: this happens for every plan and every request. C144_partial: an evaluation at a number restores everything; C144_answer: the bad call itself returns NaNs only and, for plotting, changes nothing. C144_numbers, C144_numbers_round, C144_numbers_times tie the model with NaNs to the planner's model."
  },
  {
   "property": "C145",
   "status": "partial",
   "theorems": [
    "C145_moves",
    "C145_partial",
    "C145_refuted"
   ],
   "note": "Refuted (C145_refuted): a waypoint moved away by a metre at 1/10 and back at 1/2 leaves a position 38 cm off at 13/20. C145_moves: what the references are after any sequence of moves, exactly, orders 0 to 2. C145_partial: the claim holds when the moves of each waypoint are all carried out at one instant in steps of none or at least two centimetres."
  },
  {
   "property": "C146",
   "status": "partial",
   "theorems": [
    "C146_partial",
    "C146_attained",
    "C146_refuted"
   ],
   "note": "Refuted (C146_refuted): a move by one metre with the time l left changes the velocity by 1.82/l. C146_partial: the bounds on the changes of position, velocity and acceleration as functions of the time left, for any sequence of moves. C146_attained: these bounds are reached."
  },
  {
   "property": "C147",
   "status": "partial",
   "theorems": [
    "C147_partial",
    "C147_two_partial",
    "C147_refuted",
    "C147_leads_back",
    "C147_unbounded",
    "C147_recedes"
   ],
   "note": "Refuted (C147_refuted): four plans within three tenths of a second leave five points of the planner's own in the plan; C147_leads_back: they lead the vehicle back to where it started. C147_unbounded, C147_recedes: with a new plan every tenth of a second their number grows by one with every plan, for ever, and the first waypoint asked for lies ever further ahead in time. C147_partial: at most two for every plan computed, in every history. C147_two_partial: never more than two if, whenever a plan is prepared, the unflown ones lie less than twenty computation times ahead."
  },
  {
   "property": "C148",
   "status": "partial",
   "theorems": [
    "C148_one",
    "C148_zero_width",
    "C148_exact_partial",
    "C148_partial",
    "C148_refuted",
    "C148_gaussians_partial"
   ],
   "note": "Refuted (C148_refuted): the sum keeps the mean of its left operand, so series of means 0 and 1 do not add up. C148_one: one series lies above its Gaussian by at most the next term, for all means, widths and points. C148_exact_partial: what the sum is. C148_partial, C148_gaussians_partial: series of one mean add up, and stand for the sum of the Gaussians."
  },
  {
   "property": "C149",
   "status": "partial",
   "theorems": [
    "C149_exact_partial",
    "C149_stays_partial",
    "C149_returns",
    "C149_no_dimension",
    "C149_refused",
    "C149_refuted"
   ],
   "note": "Refuted (C149_refuted): with an average distance of 1/10 a leg of 8/10, because the position before is replaced by the step (line 86). C149_exact_partial: what the points are, for every sequence of random numbers. C149_stays_partial: the path stays within four average distances of the origin however many segments it has. C149_returns, C149_no_dimension and C149_refused: when the function returns."
  },
  {
   "property": "C150",
   "status": "partial",
   "theorems": [
    "C150_spacing",
    "C150_schedule_partial",
    "C150_who_partial",
    "C150_somebody_partial",
    "C150_partial",
    "C150_where",
    "C150_refuted"
   ],
   "note": "Refuted (C150_refuted): the time of the last move is one static variable for all modifiers, so of two waypoints due at the same times the second is never moved. C150_schedule_partial: exactly who moves when. C150_who_partial: only while no earlier modifier is due. C150_somebody_partial: somebody moves. C150_partial: the claim for one modifier. C150_spacing: moves of all modifiers are more than a second apart and at most 101, whatever the planner answers. C150_where: where they go."
  },
  {
   "property": "C151",
   "status": "partial",
   "theorems": [
    "C151_enough_partial",
    "C151_partial",
    "C151_refuted"
   ],
   "note": "Refuted (C151_refuted): two waypoints asked for, a second plan at once; the vehicle's start position is then behind the joining points and is counted, so three remain. C151_enough_partial: in every history the number is never too small. C151_partial: it is right if, whenever a plan is prepared, enough of the old plan is left and the planner's own unflown points lie less than twenty computation times ahead."
  },
  {
   "property": "C152",
   "status": "partial",
   "theorems": [
    "C152_asked_partial",
    "C152_partial",
    "C152_every_move",
    "C152_refuted"
   ],
   "note": "Refuted (C152_refuted): at a planner at rest every move adds one compensation for good (C152_every_move), even a move to where the waypoint is or of a waypoint already passed. C152_asked_partial: never more than the moves asked for under the name. C152_partial: taking over a new plan drops all of them; afterwards never more than the moves waiting then or asked for since."
  },
  {
   "property": "C153",
   "status": "partial",
   "theorems": [
    "C153_partial",
    "C153_fast",
    "C153_end",
    "C153_completes",
    "C153_text",
    "C153_refuted"
   ],
   "note": "Refuted (C153_refuted): the line for the instant t shows the plan at t + 0.1 s, so the first line is already moving. C153_partial: exactly which instant of which flight every line shows, and how many lines there are; C153_fast: the shift is 0.1 s if computations take at most 1/30 s; C153_end: with steps of at most 0.05 s the last line is the end of the route, at rest. Full: C153_completes (nothing fails or waits, the loop ends), C153_text (the file)."
  },
  {
   "property": "C154",
   "status": "proved",
   "theorems": [
    "C154_told",
    "C154_from_nothing",
    "C154_from_vertex"
   ],
   "note": "C154_told: after any sequence of operations the waypoint reads as the record kept beside it says, and no operation fails; C154_from_nothing, C154_from_vertex: what the constructors give, and that a vertex without a position is outside the defined behaviour."
  },
  {
   "property": "C155",
   "status": "proved",
   "theorems": [
    "C155_determines",
    "C155_not_higher",
    "C155_odd"
   ],
   "note": "C155_determines: existence and uniqueness for every even N, every duration other than zero and all prescribed values; C155_not_higher: one order more cannot always be met; C155_odd: for odd N never unique."
  },
  {
   "property": "C156",
   "status": "partial",
   "theorems": [
    "C156_partial",
    "C156_no_plan",
    "C156_refuted",
    "C156_jumps_back",
    "C156_undefined"
   ],
   "note": "Refuted (C156_refuted): the waypoints and the flag are ignored. C156_partial: the plan in force is computed again, moved waypoints are back where they were planned, and the evaluation starts again at the beginning of the plan (C156_jumps_back: a history in which the vehicle is sent back). C156_no_plan: without a plan the computation is undefined behaviour; C156_undefined: it can be so with a plan too. Calls while a computation is in progress are not modelled."
  },
  {
   "property": "C157",
   "status": "proved",
   "theorems": [
    "C157_table",
    "C157_columns",
    "C157_width"
   ],
   "note": "C157_table: the table after every history, read back line by line and column by column; C157_columns: widths of the first two columns; C157_width: the columns of the times line up below a hundred seconds only. Rounding and square root are parameters with the contracts RoundsWhole and IsSquareRoot."
  },
  {
   "property": "C158",
   "status": "proved",
   "theorems": [
    "C158_optimum",
    "C158_solve",
    "C158_planner"
   ],
   "note": "C158_optimum: any optimal curves of the two problems; C158_solve: what two objects return; C158_planner: the planner's linear optimisation with its time estimate (rigid maps)."
  },
  {
   "property": "C159",
   "status": "proved",
   "theorems": [
    "C159_optimum",
    "C159_solve",
    "C159_planner"
   ],
   "note": "C159_optimum: any optimal curves of the two problems; C159_solve: what two objects return; C159_planner: the planner's linear optimisation with its time estimate."
  },
  {
   "property": "C160",
   "status": "proved",
   "theorems": [
    "C160_optimum",
    "C160_solve",
    "C160_planner"
   ],
   "note": "C160_optimum: any optimal curves of the two problems; C160_solve: what two objects return; C160_planner: the planner's linear optimisation with its time estimate."
  },
  {
   "property": "C161",
   "status": "partial",
   "theorems": [
    "C161_history_partial",
    "C161_answers_partial",
    "C161_moved_and_mirrored",
    "C161_linear",
    "C161_linear_moved",
    "C161_not_the_axes"
   ],
   "note": "Refuted for reordered axes (C161_not_the_axes): an update applied before the first evaluation at a positive time is spread over widths that differ from axis to axis. C161_history_partial, C161_answers_partial: every history, in every frame, if reordered axes meet updates only after evaluations at positive times; C161_moved_and_mirrored: without condition for another origin and mirrored axes; C161_linear, C161_linear_moved: the planner with its linear optimisation."
  },
  {
   "property": "C162",
   "status": "partial",
   "theorems": [
    "C162_partial",
    "C162_sent_to_the_end",
    "C162_refuted"
   ],
   "note": "Refuted (C162_refuted). C162_partial: the first plan always begins at 0 on the caller's clock, and a first evaluation at t reads it t plus a tenth of a second plus the fitted time after its beginning; so the claim holds for clocks that read about 0 then. C162_sent_to_the_end: if the clock reads more than the plan lasts, the first reference is the last waypoint, at rest."
  },
  {
   "property": "C163",
   "status": "proved",
   "theorems": [
    "C163_rest",
    "C163_up_to",
    "C163_parts",
    "C163_solvable",
    "C163_only_at_vertices"
   ],
   "note": "C163_rest, C163_up_to: the parts on either side of a vertex; C163_solvable: the rest is always accepted and solved; C163_parts: a vertex that prescribes everything separates the problem. C163_only_at_vertices: between two vertices it does not hold."
  },
  {
   "property": "C164",
   "status": "proved",
   "theorems": [
    "C164_more",
    "C164_extra_vertex",
    "C164_frame",
    "C164_slow",
    "C164_more_time",
    "C164_backwards"
   ],
   "note": "C164_more: prescribing more; C164_extra_vertex: an additional vertex; C164_frame, C164_slow, C164_backwards: another frame, another pace, backwards; C164_more_time: the same vertices with every leg given sigma times the time. No condition that there be one optimum only."
  },
  {
   "property": "C165",
   "status": "partial",
   "theorems": [
    "C165_vertex_partial",
    "C165_vertices_partial",
    "C165_refuted",
    "C165_segment",
    "C165_segments"
   ],
   "note": "Refuted for derivatives above the snap (C165_refuted): all of them are printed as invalid. C165_vertex_partial, C165_vertices_partial: vertices that prescribe nothing above the snap; C165_segment, C165_segments: segments, without condition. The text of numbers is a parameter with the contract Numerals."
  },
  {
   "property": "C166",
   "status": "proved",
   "theorems": [
    "C166_report",
    "C166_extremum",
    "C166_alike"
   ],
   "note": "C166_report: every field of the report; C166_extremum: a single extremum; C166_alike: what equal texts say about two reports."
  },
  {
   "property": "C167",
   "status": "proved",
   "theorems": [
    "C167_figures",
    "C167_flight"
   ],
   "note": "C167_figures: of any table; C167_flight: of the table of a flight, with the instants of C153 (the shift by a tenth of a second is recorded there)."
  },
  {
   "property": "C168",
   "status": "proved",
   "theorems": [
    "C168_path",
    "C168_solution",
    "C168_extrema"
   ],
   "note": "C168_path: the verdict of checkPath on any path; C168_solution: what the optimiser solves passes; C168_extrema: checkExtrema."
  },
  {
   "property": "C169",
   "status": "proved",
   "theorems": [
    "C169_numeric",
    "C169_judges",
    "C169_tolerance",
    "C169_reported"
   ],
   "note": "C169_numeric: the error of sampling is of the order of the interval; C169_judges: accepted and rejected costs; C169_reported: the reported cost is accepted; C169_tolerance. The interval, 0.001 in the code, is a parameter."
  },
  {
   "property": "C170",
   "status": "proved",
   "theorems": [
    "C170_agree",
    "C170_coarse"
   ],
   "note": "C170_agree: never above, and as near as wanted; C170_coarse: no fixed interval suffices."
  },
  {
   "property": "C171",
   "status": "proved",
   "theorems": [
    "C171_course",
    "C171_progress",
    "C171_speed",
    "C171_acceleration",
    "C171_estimate",
    "C171_solved"
   ],
   "note": "C171_solved: every leg is solved; C171_course, C171_progress: its course; C171_speed, C171_acceleration: exactly when limits are kept; C171_estimate: with the estimated duration long legs exceed the speed limit."
  },
  {
   "property": "C172",
   "status": "proved",
   "theorems": [
    "C172_apart",
    "C172_cost",
    "C172_together"
   ],
   "note": "C172_apart: the axes solved apart are those of the whole solution; C172_together: appended to each other they are the whole solution; C172_cost: the costs add up."
  },
  {
   "property": "C173",
   "status": "proved",
   "theorems": [
    "C173_sum",
    "C173_move"
   ],
   "note": "C173_sum: the solution of the combined mission is the combination of the solutions; C173_move: a move changes the solution in proportion and in the same way in all missions of the same form."
  },
  {
   "property": "C174",
   "status": "proved",
   "theorems": [
    "C174_follows",
    "C174_plane"
   ],
   "note": "C174_plane: a mission in a plane stays in it; C174_follows: along a direction the solution follows the polynomial whose values are prescribed."
  },
  {
   "property": "C175",
   "status": "proved",
   "theorems": [
    "C175_recovers"
   ],
   "note": "C175_recovers."
  }
 ]
}