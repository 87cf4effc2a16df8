{
 "claims": [
  {
   "property": "C01",
   "status": "proved",
   "theorems": [
    "Verif.Time.C01_add_exact",
    "Verif.Time.C01_sub_exact"
   ],
   "note": ""
  },
  {
   "property": "C02",
   "status": "partial",
   "theorems": [
    "Verif.Time.C02_from_secs",
    "Verif.Time.C02_from_millis",
    "Verif.Time.C02_from_micros",
    "Verif.Time.C02_from_nanos_partial",
    "Verif.Time.C02_from_nanos_fails"
   ],
   "note": "from_secs/millis/micros proved for every i64. from_nanos is canonical only for non-negative input; refuted for negative input by C02_from_nanos_fails."
  },
  {
   "property": "C03",
   "status": "proved",
   "theorems": [
    "Verif.Time.C03_add_exact",
    "Verif.Time.C03_sub_exact",
    "Verif.Time.C03_add_sub_cancel",
    "Verif.Time.C03_add_sub_cancel_edge",
    "Verif.Time.C03_sub_add_cancel",
    "Verif.Time.C03_add_assoc",
    "Verif.Time.C03_ref_ops"
   ],
   "note": ""
  },
  {
   "property": "C04",
   "status": "proved",
   "theorems": [
    "Verif.Time.C04_duration_cmp",
    "Verif.Time.C04_time_cmp",
    "Verif.Time.C04_duration_total_order",
    "Verif.Time.C04_time_total_order"
   ],
   "note": ""
  },
  {
   "property": "C05",
   "status": "proved",
   "theorems": [
    "Verif.Time.C05_unix_round_trip",
    "Verif.Time.C05_tai_round_trip",
    "Verif.Time.C05_tai_round_trip_total",
    "Verif.Time.C05_gps_round_trip",
    "Verif.Time.C05_gps_round_trip'",
    "Verif.Time.C05_tai_round_trip'",
    "Verif.Time.C05_round_trip_no_panic",
    "Verif.Time.C05_gps_tai_offset",
    "Verif.Time.C05_tai_gps_offset",
    "Verif.Time.C05_elapsed_preserved"
   ],
   "note": ""
  },
  {
   "property": "C06",
   "status": "partial",
   "theorems": [
    "Verif.Time.C06_nearest_week_partial",
    "Verif.Time.C06_true_week",
    "Verif.Time.C06_tie",
    "Verif.Time.C06_wraps_fails",
    "Verif.Time.C06_negative_fails"
   ],
   "note": "Nearest-rollover correction proved for every non-negative GPS second where the corrected week is non-negative; refuted where the u32 cast wraps and for negative seconds."
  },
  {
   "property": "C07",
   "status": "partial",
   "theorems": [
    "Verif.Time.C07_elapsed",
    "Verif.Time.C07_now",
    "Verif.Time.C07_zero_rate",
    "Verif.Time.C07_one_hertz_fails"
   ],
   "note": "Proved for every tick rate from 2 Hz up; a zero rate panics (C07_zero_rate) and at 1 Hz a u64 difference beyond i64 wraps (C07_one_hertz_fails)."
  },
  {
   "property": "C08",
   "status": "proved",
   "theorems": [
    "Verif.Time.C08_polls"
   ],
   "note": ""
  },
  {
   "property": "C09",
   "status": "proved",
   "theorems": [
    "Verif.Time.C09_timer_from",
    "Verif.Time.C09_timer",
    "Verif.Time.C09_nonpositive_period_hangs"
   ],
   "note": "Positive periods; with a non-positive period a due step never returns (proved)."
  },
  {
   "property": "C10",
   "status": "proved",
   "theorems": [
    "Verif.Time.C10_single_access",
    "Verif.Time.C10_set_is_independent",
    "Verif.Time.C10_set_returns",
    "Verif.Time.C10_from_new"
   ],
   "note": ""
  },
  {
   "property": "C11",
   "status": "proved",
   "theorems": [
    "Verif.Time.C11_alarm"
   ],
   "note": ""
  },
  {
   "property": "C12",
   "status": "proved",
   "theorems": [
    "Verif.Time.C12_interval",
    "Verif.Time.C12_zero_period_hangs"
   ],
   "note": "Positive periods; with a zero period a due check never returns (proved)."
  },
  {
   "property": "C13",
   "status": "partial",
   "theorems": [
    "Verif.Time.C13_hourly_partial",
    "Verif.Time.C13_hourly_after",
    "Verif.Time.C13_hourly_fails",
    "Verif.Time.C13_daily_partial",
    "Verif.Time.C13_daily_fails",
    "Verif.Time.C13_daily_history_partial",
    "Verif.Time.C13_hourly_history_partial"
   ],
   "note": "Proved from 1970 on, for single calls and for every poll history; refuted before 1970 (truncating division)."
  },
  {
   "property": "C14",
   "status": "partial",
   "theorems": [
    "Verif.Time.C14_to_datetime_partial",
    "Verif.Time.C14_year_bound",
    "Verif.Time.C14_valid",
    "Verif.Time.C14_negative_fails"
   ],
   "note": "Proved for every non-negative second whose year fits an i32; refuted before 1970."
  },
  {
   "property": "C15",
   "status": "partial",
   "theorems": [
    "Verif.Time.C15_from_to_partial",
    "Verif.Time.C15_from_counts",
    "Verif.Time.C15_dates_exhaustive",
    "Verif.Time.C15_to_from_partial",
    "Verif.Time.C15_next_day_partial",
    "Verif.Time.C15_anchor",
    "Verif.Time.C15_monotone_partial",
    "Verif.Time.C15_before_epoch_fails",
    "Verif.Time.C15_year_zero_fails"
   ],
   "note": "Both round trips proved from 1970 on; day counting and monotonicity from year 1 on; refuted for to_utc_datetime before 1970 and for 0000-02-29."
  },
  {
   "property": "C16",
   "status": "partial",
   "theorems": [
    "Verif.Time.C16_yearly_partial",
    "Verif.Time.C16_feb29_fails",
    "Verif.Time.C16_yearly_history_partial"
   ],
   "note": "Proved for month/day pairs that exist in every year, for single calls and every poll history; refuted for 29 February."
  },
  {
   "property": "C17",
   "status": "partial",
   "theorems": [
    "Verif.Time.C17_once_fails",
    "Verif.Time.C17_once_partial"
   ],
   "note": "Refuted: Once fires at every poll from its time on. Never firing early is proved."
  },
  {
   "property": "C18",
   "status": "proved",
   "theorems": [
    "Verif.Rand.C18_never_stuck"
   ],
   "note": ""
  },
  {
   "property": "C19",
   "status": "proved",
   "theorems": [
    "Verif.Rand.C19_step_bijective",
    "Verif.Rand.C19_output_injective",
    "Verif.Rand.C19_streams_never_merge",
    "Verif.Rand.C19_seed_collisions",
    "Verif.Rand.C19_distinct_seeds"
   ],
   "note": ""
  },
  {
   "property": "C20",
   "status": "partial",
   "theorems": [
    "Verif.Rand.C20_f64_range",
    "Verif.Rand.C20_f64_all_values",
    "Verif.Rand.C20_f32_fails",
    "Verif.Rand.C20_f32_partial"
   ],
   "note": "f64 proved exactly. f32: only the closed interval [0,1] holds; refuted at 1 - 2^-53, which rounds to 1.0."
  },
  {
   "property": "C21",
   "status": "proved",
   "theorems": [
    "Verif.Mat.C21_mul_entry",
    "Verif.Mat.C21_paths_agree",
    "Verif.Mat.C21_mul_is_product"
   ],
   "note": "Entry formula and agreement of the direct and blocked paths for arbitrary (law-free) scalar arithmetic; equality with the mathematical product over any semiring."
  },
  {
   "property": "C22",
   "status": "proved",
   "theorems": [
    "Verif.Mat.C22_mulVec_entry",
    "Verif.Mat.C22_dot",
    "Verif.Mat.C22_norm",
    "Verif.Mat.C22_real",
    "Verif.Mat.C22_norm_real"
   ],
   "note": ""
  },
  {
   "property": "C23",
   "status": "proved",
   "theorems": [
    "Verif.Mat.C23_entries",
    "Verif.Mat.C23_square",
    "Verif.Mat.C23_transpose_involution",
    "Verif.Mat.C23_transpose_mul",
    "Verif.Mat.C23_ring_laws",
    "Verif.Mat.C23_flat",
    "Verif.Mat.C23_maxAbs"
   ],
   "note": ""
  },
  {
   "property": "C24",
   "status": "proved",
   "theorems": [
    "Verif.Mat.C24_factors",
    "Verif.Mat.C24_solve",
    "Verif.Mat.C24_solve_multi",
    "Verif.Mat.C24_det",
    "Verif.Mat.C24_singular_none"
   ],
   "note": "Exact arithmetic over any ordered field, any threshold eps >= 0."
  },
  {
   "property": "C25",
   "status": "partial",
   "theorems": [
    "Verif.Mat.C25_factor",
    "Verif.Mat.C25_iff_posdef",
    "Verif.Mat.C25_solve",
    "Verif.Mat.C25_lower_only",
    "Verif.Mat.C25_asymmetric_fails"
   ],
   "note": "For symmetric input: success iff positive definite, L L^T = A, and the solve is correct. Refuted for non-symmetric input, which is accepted although the documentation says None."
  },
  {
   "property": "C26",
   "status": "proved",
   "theorems": [
    "Verif.Mat.C26_determinant",
    "Verif.Mat.C26_determinant_exact",
    "Verif.Mat.C26_inverse3",
    "Verif.Mat.C26_inverse3_singular",
    "Verif.Mat.C26_gauss_jordan",
    "Verif.Mat.C26_gauss_jordan_singular",
    "Verif.Mat.C26_consistent",
    "Verif.Mat.C26_gauss_jordan_exact"
   ],
   "note": "Exact arithmetic over any ordered field, any threshold eps >= 0; determinant, Gauss-Jordan and LU with one threshold succeed together. What the threshold costs is C84."
  },
  {
   "property": "C27",
   "status": "partial",
   "theorems": [
    "Verif.Mat.C27_bijection",
    "Verif.Mat.C27_row_major",
    "Verif.Mat.C27_view",
    "Verif.Mat.C27_tensor3",
    "Verif.Mat.C27_release_alias_fails"
   ],
   "note": "Proved for in-bounds indices of every rank and shape. C27_release_alias_fails records that out-of-range indices alias in release builds (the checks are debug assertions)."
  },
  {
   "property": "C28",
   "status": "proved",
   "theorems": [
    "Verif.Att.C28_inner",
    "Verif.Att.C28_length",
    "Verif.Att.C28_linear",
    "Verif.Att.C28_cross",
    "Verif.Att.C28_axis",
    "Verif.Att.C28_axis_angle",
    "Verif.Att.C28_scale"
   ],
   "note": ""
  },
  {
   "property": "C29",
   "status": "partial",
   "theorems": [
    "Verif.Att.C29_from",
    "Verif.Att.C29_to_dcm_inverse",
    "Verif.Att.C29_to_dcm_fails"
   ],
   "note": "Proved for DirectionCosineMatrix::from(q) on unit quaternions; refuted for to_dcm, which is the inverse rotation (C29_to_dcm_inverse proves exactly that)."
  },
  {
   "property": "C30",
   "status": "partial",
   "theorems": [
    "Verif.Att.C30_order_partial",
    "Verif.Att.C30_to_dcm",
    "Verif.Att.C30_order_fails"
   ],
   "note": "Refuted for rotate_vector and Rotation::compose: the left factor acts first. The order that does hold is proved, and products do chain through to_dcm and for direction cosine matrices."
  },
  {
   "property": "C31",
   "status": "proved",
   "theorems": [
    "Verif.Att.C31_algebra",
    "Verif.Att.C31_norm",
    "Verif.Att.C31_inverse_rotate"
   ],
   "note": ""
  },
  {
   "property": "C32",
   "status": "proved",
   "theorems": [
    "Verif.Att.C32_never_error",
    "Verif.Att.C32_round_trip",
    "Verif.Att.C32_rotation",
    "Verif.Att.C32_elementary"
   ],
   "note": ""
  },
  {
   "property": "C33",
   "status": "proved",
   "theorems": [
    "Verif.Att.C33_entries",
    "Verif.Att.C33_product",
    "Verif.Att.C33_quaternion",
    "Verif.Att.C33_rotate",
    "Verif.Att.C33_extract_agree",
    "Verif.Att.C33_recover",
    "Verif.Att.C33_reconstruct",
    "Verif.Att.C33_gimbal_lock"
   ],
   "note": ""
  },
  {
   "property": "C34",
   "status": "proved",
   "theorems": [
    "Verif.Frames.C34_round_trip",
    "Verif.Frames.C34_consistent",
    "Verif.Frames.C34_ranges",
    "Verif.Frames.C34_inverse"
   ],
   "note": ""
  },
  {
   "property": "C35",
   "status": "partial",
   "theorems": [
    "Verif.Frames.C35_rotations",
    "Verif.Frames.C35_inverse",
    "Verif.Frames.C35_time",
    "Verif.Frames.C35_orientation",
    "Verif.Frames.C35_ned",
    "Verif.Frames.C35_rate",
    "Verif.Frames.C35_direction_partial",
    "Verif.Frames.C35_direction_fails",
    "Verif.Frames.C35_moon_epoch_fails",
    "Verif.Frames.C35_moon_epoch_partial"
   ],
   "note": "All frame matrices are rotations and all pairs are inverse. Refuted: wind/flight-path/body matrices act opposite to their names, and the Moon object ignores its epoch in one of its transforms."
  },
  {
   "property": "C36",
   "status": "proved",
   "theorems": [
    "Verif.Interp.C36_affine",
    "Verif.Interp.C36_endpoints",
    "Verif.Interp.C36_between",
    "Verif.Interp.C36_monotone",
    "Verif.Interp.C36_inverse",
    "Verif.Interp.C36_remap"
   ],
   "note": ""
  },
  {
   "property": "C37",
   "status": "proved",
   "theorems": [
    "Verif.Interp.C37_new",
    "Verif.Interp.C37_node",
    "Verif.Interp.C37_polynomial"
   ],
   "note": ""
  },
  {
   "property": "C38",
   "status": "proved",
   "theorems": [
    "Verif.Interp.C38_new",
    "Verif.Interp.C38_natural",
    "Verif.Interp.C38_lines"
   ],
   "note": ""
  },
  {
   "property": "C39",
   "status": "proved",
   "theorems": [
    "Verif.Interp.C39_terminates",
    "Verif.Interp.C39_contains"
   ],
   "note": ""
  },
  {
   "property": "C40",
   "status": "proved",
   "theorems": [
    "Verif.Opt.C40_run",
    "Verif.Opt.C40_options",
    "Verif.Opt.C40_terminates",
    "Verif.Opt.C40_decrease",
    "Verif.Opt.C40_converges"
   ],
   "note": ""
  },
  {
   "property": "C41",
   "status": "partial",
   "theorems": [
    "Verif.Opt.C41_project",
    "Verif.Opt.C41_partial",
    "Verif.Opt.C41_fails",
    "Verif.Opt.C41_stochastic_partial"
   ],
   "note": "Proved for runs that make a step or start in the box; a run that stops before its first step returns the start unprojected, so the full property is refuted."
  },
  {
   "property": "C42",
   "status": "proved",
   "theorems": [
    "Verif.Opt.C42_partition",
    "Verif.Opt.C42_schedule",
    "Verif.Opt.C42_mean",
    "Verif.Opt.C42_deterministic"
   ],
   "note": ""
  },
  {
   "property": "C43",
   "status": "proved",
   "theorems": [
    "Verif.Opt.C43_seeds"
   ],
   "note": ""
  },
  {
   "property": "C44",
   "status": "partial",
   "theorems": [
    "Verif.Opt.C44_batch",
    "Verif.Opt.C44_partial",
    "Verif.Opt.C44_parallel",
    "Verif.Opt.C44_average",
    "Verif.Opt.C44_fails",
    "Verif.Opt.C44_overflow_fails"
   ],
   "note": "The exact stop rule is proved, for limits below 2^31. Refuted: with the default tol_f = 0, which was not requested, an objective value <= 0 stops the sequential version as converged; and a limit of 2^31 or more can panic."
  },
  {
   "property": "C45",
   "status": "proved",
   "theorems": [
    "Verif.ML.C45_linear_epoch",
    "Verif.ML.C45_ridge_epoch",
    "Verif.ML.C45_linear_fit",
    "Verif.ML.C45_ridge_fit",
    "Verif.ML.C45_least_squares",
    "Verif.ML.C45_ridge_optimum",
    "Verif.ML.C45_linear_converges"
   ],
   "note": ""
  },
  {
   "property": "C46",
   "status": "partial",
   "theorems": [
    "Verif.ML.C46_predict",
    "Verif.ML.C46_epoch",
    "Verif.ML.C46_optimum",
    "Verif.ML.C46_fit_partial",
    "Verif.ML.C46_fit_fails"
   ],
   "note": "Epochs, predictions and optimum are proved for all data. The fit with the optimiser: the direction is the gradient of the cross-entropy, but the objective used by the line search adds 1/3 (not a small constant) inside the logarithms (C46_fit_fails)."
  },
  {
   "property": "C47",
   "status": "proved",
   "theorems": [
    "Verif.ML.C47_bound_any_start",
    "Verif.ML.C47_bound",
    "Verif.ML.C47_learns"
   ],
   "note": ""
  },
  {
   "property": "C48",
   "status": "proved",
   "theorems": [
    "Verif.ML.C48_fit",
    "Verif.ML.C48_predict"
   ],
   "note": ""
  },
  {
   "property": "C49",
   "status": "proved",
   "theorems": [
    "Verif.Stats.C49_mean",
    "Verif.Stats.C49_cross_formula",
    "Verif.Stats.C49_self",
    "Verif.Stats.C49_formula",
    "Verif.Stats.C49_posSemidef",
    "Verif.Stats.C49_affine",
    "Verif.Stats.C49_translate",
    "Verif.Stats.C49_perm",
    "Verif.Stats.C49_swap"
   ],
   "note": ""
  },
  {
   "property": "C50",
   "status": "proved",
   "theorems": [
    "Verif.Stats.C50_defined",
    "Verif.Stats.C50_round_trip"
   ],
   "note": ""
  },
  {
   "property": "C51",
   "status": "partial",
   "theorems": [
    "Verif.Stats.C51_bernoulli",
    "Verif.Stats.C51_bernoulli_mle",
    "Verif.Stats.C51_categorical_partial",
    "Verif.Stats.C51_categorical_mle",
    "Verif.Stats.C51_no_data_fails"
   ],
   "note": "Proved for all data sets with at least one observation (and a total count that fits usize). Refuted for no observations: the fitted categorical distribution then has total mass zero."
  },
  {
   "property": "C52",
   "status": "proved",
   "theorems": [
    "Verif.Units.C52_factor",
    "Verif.Units.C52_factor_exact",
    "Verif.Units.C52_exact",
    "Verif.Units.C52_arithmetic",
    "Verif.Units.C52_rounded"
   ],
   "note": ""
  },
  {
   "property": "C53",
   "status": "proved",
   "theorems": [
    "Verif.Shapes.C53_solids",
    "Verif.Shapes.C53_add",
    "Verif.Shapes.C53_sub",
    "Verif.Shapes.C53_place",
    "Verif.Shapes.C53_comm",
    "Verif.Shapes.C53_assoc",
    "Verif.Shapes.C53_add_sub"
   ],
   "note": ""
  },
  {
   "property": "C54",
   "status": "proved",
   "theorems": [
    "Verif.Shapes.C54_prism",
    "Verif.Shapes.C54_sphere",
    "Verif.Shapes.C54_cylinder",
    "Verif.Shapes.C54_physical"
   ],
   "note": ""
  },
  {
   "property": "C55",
   "status": "proved",
   "theorems": [
    "Verif.Shapes.C55_limits",
    "Verif.Shapes.C55_tank",
    "Verif.Shapes.C55_aggregate"
   ],
   "note": ""
  },
  {
   "property": "C56",
   "status": "proved",
   "theorems": [
    "Verif.Frames.C56_coriolis",
    "Verif.Frames.C56_centrifugal",
    "Verif.Frames.C56_torque",
    "Verif.Frames.C56_torque_value"
   ],
   "note": ""
  },
  {
   "property": "C57",
   "status": "partial",
   "theorems": [
    "Verif.Frames.C57_equator_partial",
    "Verif.Frames.C57_fails",
    "Verif.Frames.C57_asymmetric",
    "Verif.Frames.C57_error_partial",
    "Verif.Frames.C57_poles_fails"
   ],
   "note": "The equatorial value holds, and every value is within 0.125 m/s\u00b2 of the formula; symmetry and the polar values are refuted (sine of sine instead of squared sine, missing square root): the south pole gets 0.122 m/s\u00b2 too little."
  },
  {
   "property": "C58",
   "status": "proved",
   "theorems": [
    "Verif.Frames.C58_ellipsoid",
    "Verif.Frames.C58_round_trip",
    "Verif.Frames.C58_converges",
    "Verif.Frames.C58_all_positions",
    "Verif.Frames.C58_ranges"
   ],
   "note": ""
  },
  {
   "property": "C59",
   "status": "proved",
   "theorems": [
    "Verif.Atmo.C59_temperature",
    "Verif.Atmo.C59_gas_law",
    "Verif.Atmo.C59_hydrostatic",
    "Verif.Atmo.C59_reference",
    "Verif.Atmo.C59_geopotential"
   ],
   "note": ""
  },
  {
   "property": "C60",
   "status": "partial",
   "theorems": [
    "Verif.Atmo.C60_top_fails",
    "Verif.Atmo.C60_continuity_fails",
    "Verif.Atmo.C60_sound_fails",
    "Verif.Atmo.C60_pressure_fails",
    "Verif.Atmo.C60_partial",
    "Verif.Atmo.C60_gravity_fails",
    "Verif.Atmo.C60_boundary_partial"
   ],
   "note": "Below 1000 km: no panic, positivity, gas law, tables, exponential, Sutherland viscosity and the hydrostatic relation inside the layers below 91 km with the code's constant (C60_partial). Refuted: panics from 1000 km up (C60_top_fails), temperature jumps (C60_continuity_fails), speed of sound lacks the square root (C60_sound_fails), pressure above 91 km (C60_pressure_fails), gravity constant 9.80655 (C60_gravity_fails)."
  },
  {
   "property": "C61",
   "status": "proved",
   "theorems": [
    "Verif.Frames.C61_gravity",
    "Verif.Frames.C61_torque"
   ],
   "note": ""
  },
  {
   "property": "C62",
   "status": "partial",
   "theorems": [
    "Verif.Graphics.C62_partial",
    "Verif.Graphics.C62_fails"
   ],
   "note": "Everything but orientation is proved (C62_partial); the view matrix has determinant -1 for all inputs: it mirrors left and right (C62_fails)."
  },
  {
   "property": "C63",
   "status": "proved",
   "theorems": [
    "Verif.Graphics.C63_orthonormal",
    "Verif.Graphics.C63_telemetry",
    "Verif.Graphics.C63_set",
    "Verif.Graphics.C63_drag"
   ],
   "note": ""
  },
  {
   "property": "C64",
   "status": "proved",
   "theorems": [
    "Verif.Wmm.C64_legendre",
    "Verif.Wmm.C64_harmonics",
    "Verif.Wmm.C64_field",
    "Verif.Wmm.C64_elements",
    "Verif.Wmm.C64_rates",
    "Verif.Wmm.C64_errors",
    "Verif.Wmm.C64_pole"
   ],
   "note": ""
  },
  {
   "property": "C65",
   "status": "proved",
   "theorems": [
    "Verif.Wmm.C65_slots",
    "Verif.Wmm.C65_update",
    "Verif.Wmm.C65_date",
    "Verif.Wmm.C65_order_unchecked"
   ],
   "note": ""
  },
  {
   "property": "C66",
   "status": "proved",
   "theorems": [
    "Verif.Stars.C66_temperature",
    "Verif.Stars.C66_blackbody",
    "Verif.Stars.C66_transfer",
    "Verif.Stars.C66_rgb",
    "Verif.Stars.C66_photometric",
    "Verif.Stars.C66_infrared"
   ],
   "note": ""
  },
  {
   "property": "C67",
   "status": "partial",
   "theorems": [
    "Verif.Stars.C67_checksum",
    "Verif.Stars.C67_partial",
    "Verif.Stars.C67_first_reading",
    "Verif.Stars.C67_fails",
    "Verif.Stars.C67_builtin"
   ],
   "note": "C67_checksum: verification succeeds exactly when the expected string spells (either case) the digest of the whole file, for every chunking. C67_partial: records are returned exactly then if the file is the same for both opens. C67_fails: the file is reopened by path for parsing, so a file replaced in between is parsed unverified."
  },
  {
   "property": "C68",
   "status": "partial",
   "theorems": [
    "Verif.Viz.C68_chunk_invariance",
    "Verif.Viz.C68_same_text",
    "Verif.Viz.C68_poll_safe",
    "Verif.Viz.C68_poll_fresh",
    "Verif.Viz.C68_initialize",
    "Verif.Viz.C68_poll_error",
    "Verif.Viz.C68_mid_character_fails",
    "Verif.Viz.C68_initialize_twice_fails"
   ],
   "note": "Chunk invariance proved for every text and every split; polling proved for every history of growth, rotation, missing files and mid-line/mid-character polls, with Lean's UTF-8 decoder. Refuted: a mid-character poll returns Err, and a second initialize duplicates rows."
  },
  {
   "property": "C69",
   "status": "partial",
   "theorems": [
    "Verif.Viz.C69_aligned_bounded_partial",
    "Verif.Viz.C69_poll_aligned_bounded",
    "Verif.Viz.C69_after_error_fails"
   ],
   "note": "Proved for every chunk list up to and including the first Err, and for every polling history of files with the selected columns; refuted when polling goes on after a missing-column Err."
  },
  {
   "property": "C70",
   "status": "proved",
   "theorems": [
    "Verif.Mat.C70_vector",
    "Verif.Mat.C70_matrix",
    "Verif.Mat.C70_vector_max",
    "Verif.Mat.C70_matrix_max",
    "Verif.Mat.C70_frobenius"
   ],
   "note": ""
  },
  {
   "property": "C71",
   "status": "proved",
   "theorems": [
    "Verif.Ode.C71_report",
    "Verif.Ode.C71_residual",
    "Verif.Ode.C71_root",
    "Verif.Ode.C71_converges"
   ],
   "note": ""
  },
  {
   "property": "C72",
   "status": "proved",
   "theorems": [
    "Verif.Ode.C72_rk4_classical",
    "Verif.Ode.C72_rk4_quadrature",
    "Verif.Ode.C72_rk4_linear",
    "Verif.Ode.C72_rk4_order_four",
    "Verif.Ode.C72_rk4_converges",
    "Verif.Ode.C72_euler",
    "Verif.Ode.C72_trapezoidal"
   ],
   "note": ""
  },
  {
   "property": "C73",
   "status": "partial",
   "theorems": [
    "Verif.Mat.C73_bincode_matrix",
    "Verif.Mat.C73_bincode_vector",
    "Verif.Mat.C73_bincode_f64",
    "Verif.Mat.C73_serde_matrix",
    "Verif.Mat.C73_serde_vector_partial",
    "Verif.Mat.C73_vector_too_long_fails",
    "Verif.Mat.C73_from_iter"
   ],
   "note": "Bincode and serde round trips proved for all sizes and values; matrices reject every wrong shape. Refuted for vectors: the serde visitor accepts sequences that are too long."
  },
  {
   "property": "C74",
   "status": "proved",
   "theorems": [
    "Verif.Rand.C74_period",
    "Verif.Rand.C74_every_output_once"
   ],
   "note": ""
  },
  {
   "property": "C75",
   "status": "proved",
   "theorems": [
    "Verif.Mat.C75_cross",
    "Verif.Mat.C75_normalize",
    "Verif.Mat.C75_try_normalize",
    "Verif.Mat.C75_angle",
    "Verif.Mat.C75_angle_symm",
    "Verif.Mat.C75_angle_cases"
   ],
   "note": ""
  },
  {
   "property": "C77",
   "status": "partial",
   "theorems": [
    "Verif.Att.C77_increment",
    "Verif.Att.C77_history",
    "Verif.Att.C77_subdivision",
    "Verif.Att.C77_rate",
    "Verif.Att.C77_inertial_rate",
    "Verif.Att.C77_body_rate_fails",
    "Verif.Att.C77_taylor_rest"
   ],
   "note": "Norm, composition, subdivision and the rate equation are proved for Rotation::integrate; refuted that the angular velocity is in body axes. The third-order Taylor update Quaternion::integrate is the subject of C120 and C121."
  },
  {
   "property": "C78",
   "status": "partial",
   "theorems": [
    "Verif.Opt.C78_momentum_partial",
    "Verif.Opt.C78_momentum_fails"
   ],
   "note": "Without momentum the documented update is proved; with momentum the code scales the momentum term by the learning rate, so the property is refuted."
  },
  {
   "property": "C79",
   "status": "partial",
   "theorems": [
    "Verif.Opt.C79_best_fails"
   ],
   "note": "Refuted: x_best/f_best are the last point and value."
  },
  {
   "property": "C80",
   "status": "partial",
   "theorems": [
    "Verif.Opt.C80_streams_partial",
    "Verif.Opt.C80_streams_fails"
   ],
   "note": "Proved for different workers of one iteration when no derived seed is 0. Refuted in general: with base seed 0 the first worker draws the same numbers in iterations 0 and 1."
  },
  {
   "property": "C81",
   "status": "proved",
   "theorems": [
    "Verif.Stats.C81_density",
    "Verif.Stats.C81_fit",
    "Verif.Stats.C81_mle"
   ],
   "note": ""
  },
  {
   "property": "C82",
   "status": "proved",
   "theorems": [
    "Verif.Stats.C82_sample"
   ],
   "note": ""
  },
  {
   "property": "C83",
   "status": "proved",
   "theorems": [
    "Verif.Stats.C83_formula",
    "Verif.Stats.C83_density",
    "Verif.Stats.C83_univariate"
   ],
   "note": ""
  },
  {
   "property": "C84",
   "status": "partial",
   "theorems": [
    "Verif.Mat.C84_fails"
   ],
   "note": "Refuted: a regular 1x1 matrix (eps) gives 0 (threshold 1e-12 in the code). What holds is C26."
  },
  {
   "property": "C85",
   "status": "proved",
   "theorems": [
    "Verif.ML.C85_perceptron",
    "Verif.ML.C85_svm"
   ],
   "note": ""
  },
  {
   "property": "C86",
   "status": "proved",
   "theorems": [
    "Verif.ML.C86_epoch"
   ],
   "note": ""
  },
  {
   "property": "C87",
   "status": "partial",
   "theorems": [
    "Verif.ML.C87_fails"
   ],
   "note": "Refuted: the epoch uses penalty |w|^2/(c m), the fit |w|^2/(2c)."
  },
  {
   "property": "C88",
   "status": "partial",
   "theorems": [
    "Verif.ML.C88_lda_partial",
    "Verif.ML.C88_qda_partial",
    "Verif.ML.C88_fails"
   ],
   "note": "Proved for every data set whose pooled covariance (LDA) or class covariances (QDA: those classes) can be inverted by the code. A singular pooled covariance makes LDA answer class 0, and QDA passes over classes with singular covariance (C88_fails)."
  },
  {
   "property": "C89",
   "status": "partial",
   "theorems": [
    "Verif.Units.C89_fails"
   ],
   "note": "Refuted: the factors are f32 constants, so even exact arithmetic is wrong by more than 2^-25 for millimetres. What holds (2^-22) is C52."
  },
  {
   "property": "C90",
   "status": "partial",
   "theorems": [
    "Verif.Atmo.C90_partial",
    "Verif.Atmo.C90_fails"
   ],
   "note": "Proved up to a relative error of 5 parts per million; base pressures derived from rounded table densities make the exact statement false (C90_fails)."
  },
  {
   "property": "C91",
   "status": "partial",
   "theorems": [
    "Verif.Graphics.C91_partial",
    "Verif.Graphics.C91_set_fails",
    "Verif.Graphics.C91_yaw_fails",
    "Verif.Graphics.C91_world_fails"
   ],
   "note": "Only yaw zero gives the requested direction (C91_partial). Refuted: azimuth is mirrored, pitch has no effect at yaw 90 degrees (C91_set_fails), yaw does not turn about the vertical (C91_yaw_fails), world turns are not about world axes (C91_world_fails)."
  },
  {
   "property": "C92",
   "status": "partial",
   "theorems": [
    "Verif.Graphics.C92_partial",
    "Verif.Graphics.C92_fails"
   ],
   "note": "Proved for points as row vectors (C92_partial); view matrix and projection matrix use opposite conventions (C92_fails)."
  },
  {
   "property": "C93",
   "status": "partial",
   "theorems": [
    "Verif.Graphics.C93_partial",
    "Verif.Graphics.C93_fails"
   ],
   "note": "Proved for affine matrices, whose last row is (0,0,0,w) (C93_partial); the last row is not updated for others (C93_fails)."
  },
  {
   "property": "C95",
   "status": "partial",
   "theorems": [
    "Verif.Stars.C95_position",
    "Verif.Stars.C95_tangential",
    "Verif.Stars.C95_partial",
    "Verif.Stars.C95_fails",
    "Verif.Stars.C95_direction_fails"
   ],
   "note": "C95_position and C95_tangential: direction, distance, tangency and size of the velocity for all records and epochs. C95_partial: the velocity is a constant multiple of the derivative for stars moving along the meridian or on the equator. C95_fails: the size is in km/s, not AU/yr. C95_direction_fails: right-ascension motion is treated as an angle rate in the position and as a sky rate in the velocity."
  },
  {
   "property": "C96",
   "status": "partial",
   "theorems": [
    "Verif.Stars.C96_variance",
    "Verif.Stars.C96_partial",
    "Verif.Stars.C96_growth",
    "Verif.Stars.C96_fails"
   ],
   "note": "C96_variance, C96_growth: the variance law and monotonicity wherever the values are numbers. C96_partial: they are numbers for Gaia stars, for stars with large enough catalogue uncertainty, and outside 1966.5-2016. C96_fails: otherwise the square root of a negative number (NaN) is returned."
  },
  {
   "property": "C94",
   "status": "partial",
   "theorems": [
    "Verif.Wmm.C94_embedded",
    "Verif.Wmm.C94_generator",
    "Verif.Wmm.C94_fails"
   ],
   "note": "C94_embedded: the generator run on the repository's file gives exactly the embedded header, records and tables (kernel computation on the real data). C94_generator: for every accepted file the records are its data lines and each table slot holds the last record's value or zero. C94_fails: the asserts (90 records, maximum degree 12) accept a file with a duplicated and a missing pair; the statement's 'exactly once' is false."
  },
  {
   "property": "C76",
   "status": "proved",
   "theorems": [
    "Verif.Simd.C76_vec4",
    "Verif.Simd.C76_vec6",
    "Verif.Simd.C76_matrix",
    "Verif.Simd.C76_square",
    "Verif.Simd.C76_dot4",
    "Verif.Simd.C76_exact",
    "Verif.Simd.C76_agrees"
   ],
   "note": ""
  },
  {
   "property": "C97",
   "status": "partial",
   "theorems": [
    "Verif.Frames.C97_axisymmetric",
    "Verif.Frames.C97_mirror",
    "Verif.Frames.C97_equator_partial",
    "Verif.Frames.C97_axis_partial",
    "Verif.Frames.C97_fails",
    "Verif.Frames.C97_error_partial"
   ],
   "note": "Proved for all positions: longitude, axial symmetry, mirror symmetry; exact on the whole equatorial plane and polar axis. Fails off them: the resolvent lacks a square root, so a point of the ellipsoid is reported more than half a metre above it (C97_fails). From 20 km below the ellipsoid upwards the altitude is within 2.5 m, the latitude within 2e-8 rad and the longitude exact (C97_error_partial). Missing: an error bound deeper than 20 km."
  },
  {
   "property": "C98",
   "status": "partial",
   "theorems": [
    "Verif.Frames.C98_coordinates",
    "Verif.Frames.C98_equator_fails",
    "Verif.Frames.C98_surface_fails",
    "Verif.Frames.C98_mirror_fails",
    "Verif.Frames.C98_axisymmetric_partial",
    "Verif.Frames.C98_force"
   ],
   "note": "Proved: the internal ellipsoidal coordinates are those of the position; the vector lies in the meridian plane and is axially symmetric; the force is mass times the vector. The gradient property fails on the whole equator (cosine of the cosine), on the whole ellipsoid off the equator and poles (missing square root), and the mirror symmetry fails there too (sine of the sine)."
  },
  {
   "property": "C99",
   "status": "partial",
   "theorems": [
    "Verif.Viz.C99_lines_partial",
    "Verif.Viz.C99_complete_partial",
    "Verif.Viz.C99_fails"
   ],
   "note": "Proved for all runs in which every file has the columns selected. Fails otherwise: if one file lacks a newly ticked column, the other files change columns but the labels stay, so lines carry wrong names (C99_fails)."
  },
  {
   "property": "C100",
   "status": "proved",
   "theorems": [
    "Verif.Viz.C100_set_columns",
    "Verif.Viz.C100_series"
   ],
   "note": ""
  },
  {
   "property": "C101",
   "status": "partial",
   "theorems": [
    "Verif.Viz.C101_range",
    "Verif.Viz.C101_scale",
    "Verif.Viz.C101_drawn",
    "Verif.Viz.C101_unit",
    "Verif.Viz.C101_extract",
    "Verif.Viz.C101_units_fails",
    "Verif.Viz.C101_both_fails"
   ],
   "note": "Proved: ranges, scaling, its inverse, units of groups and names. Fails: two groups without a common unit share one axis (C101_units_fails); a column ticked in both groups is scaled although it belongs to the first (C101_both_fails)."
  },
  {
   "property": "C102",
   "status": "partial",
   "theorems": [
    "Verif.Viz.C102_poll_partial",
    "Verif.Viz.C102_load_fails"
   ],
   "note": "Proved for the polls of the files shown. Fails for new files: the message is overwritten before it is drawn (C102_load_fails)."
  },
  {
   "property": "C103",
   "status": "partial",
   "theorems": [
    "Verif.Viz.C103_run_partial",
    "Verif.Viz.C103_stem_partial",
    "Verif.Viz.C103_fails"
   ],
   "note": "Proved: the name is the last path component beginning with run_, or else the file stem. Fails: two files of one run have the same name (C103_fails)."
  },
  {
   "property": "C104",
   "status": "partial",
   "theorems": [
    "Verif.Viz.C104_auto",
    "Verif.Viz.C104_click",
    "Verif.Viz.C104_shown_partial",
    "Verif.Viz.C104_start_fails"
   ],
   "note": "Proved after every changed selection in a run, and at the start with automatic columns (C104_auto). Fails at the start otherwise: columns asked for on the command line which are not named like x or y components are shown with unticked boxes and vanish at the next click (C104_start_fails)."
  },
  {
   "property": "C105",
   "status": "proved",
   "theorems": [
    "Verif.Viz.C105_refresh",
    "Verif.Viz.C105_kept",
    "Verif.Viz.C105_start"
   ],
   "note": ""
  },
  {
   "property": "C106",
   "status": "partial",
   "theorems": [
    "Verif.Mat.C106_bincode",
    "Verif.Mat.C106_serde_partial",
    "Verif.Mat.C106_serde_fails",
    "Verif.Mat.C106_collect_partial",
    "Verif.Mat.C106_collect_fails"
   ],
   "note": "bincode proved in full (C106_bincode). For serde and from_iter: never a read of unwritten memory, every value accounted for as result, dropped or leaked, and nothing leaks on success. Fails: an element error in a later row of a serde matrix leaks the rows before it (C106_serde_fails); a wrong number of items leaks those already stored (C106_collect_fails)."
  },
  {
   "property": "C107",
   "status": "partial",
   "theorems": [
    "Verif.Real.C107_signum_partial",
    "Verif.Real.C107_signum_fails",
    "Verif.Real.C107_min_max",
    "Verif.Real.C107_powi64",
    "Verif.Real.C107_powi32_partial",
    "Verif.Real.C107_powi32_fails",
    "Verif.Real.C107_degrees32_fails"
   ],
   "note": "min and max meet the contract of the standard library for all inputs; f64 powi gets its exact exponent for all i32; f32 powi up to 2^24; signum off zero. Fails: signum of zeros (C107_signum_fails), f32 powi beyond 2^24 (C107_powi32_fails), f32 degrees (C107_degrees32_fails). Functions that are calls into libm on one side and std on the other are not compared."
  },
  {
   "property": "C108",
   "status": "partial",
   "theorems": [
    "Verif.Tools.C108_grid_partial",
    "Verif.Tools.C108_fails",
    "Verif.Tools.C108_order_fails"
   ],
   "note": "Proved for ranges and steps in whole millionths of a degree, with arbitrary rounding errors of the additions that add up to less than 1e-9 (C108_grid_partial). Fails otherwise: the rounding to six places moves points out of the range, onto the pole the program means to exclude (C108_fails), and out of order (C108_order_fails)."
  },
  {
   "property": "C109",
   "status": "partial",
   "theorems": [
    "Verif.Tools.C109_sound",
    "Verif.Tools.C109_complete_partial",
    "Verif.Tools.C109_fails",
    "Verif.Tools.C109_hwmon"
   ],
   "note": "Termination, the bound of 4097 directories and soundness hold for all file systems (C109_sound); the fallback search is sound and complete (C109_hwmon). Completeness of the first search holds up to 4097 directories (C109_complete_partial) and fails with a link to its own directory (C109_fails)."
  },
  {
   "property": "C110",
   "status": "partial",
   "theorems": [
    "Verif.Tools.C110_vector",
    "Verif.Tools.C110_matrix",
    "Verif.Tools.C110_symmetric",
    "Verif.Tools.C110_grid_partial",
    "Verif.Tools.C110_grid_points",
    "Verif.Tools.C110_grid_fails",
    "Verif.Tools.C110_max_fails"
   ],
   "note": "Proved for the approximate comparisons and the symmetry assertion with NaN, and for the grid assertion without NaN. Fails: a function that gives only NaN passes the grid assertion (C110_grid_fails), and the largest difference passes over NaN (C110_max_fails)."
  },
  {
   "property": "C111",
   "status": "proved",
   "theorems": [
    "Verif.Round.C111_growth",
    "Verif.Round.C111_factor",
    "Verif.Round.C111_bounded",
    "Verif.Round.C111_solve",
    "Verif.Round.C111_multi",
    "Verif.Round.C111_f64"
   ],
   "note": "The model of the solver is the one of C24, run on reals with rounded operations. Backward error in the sense of Wilkinson: factorisation, both substitutions, a priori growth bound of partial pivoting, and numbers for f64. Overflow and underflow are outside the rounding model."
  },
  {
   "property": "C112",
   "status": "proved",
   "theorems": [
    "Verif.Round.C112_factor",
    "Verif.Round.C112_solve",
    "Verif.Round.C112_f64",
    "Verif.Round.C112_accepts",
    "Verif.Round.C112_accepts_f64"
   ],
   "note": "The model of the solver is the one of C25, run on reals with rounded operations. The bounds need no growth factor: they are in terms of the diagonal of the given matrix. C112_accepts is the converse: a margin on the scaled smallest eigenvalue guarantees an answer."
  },
  {
   "property": "C113",
   "status": "proved",
   "theorems": [
    "Verif.Round.C113_determinant",
    "Verif.Round.C113_threshold"
   ],
   "note": "Proved by showing that the determinant loop and the LU loop choose the same pivots and compute the same upper triangle, rounding by rounding."
  },
  {
   "property": "C114",
   "status": "proved",
   "theorems": [
    "Verif.Float.C114_spherical",
    "Verif.Float.C114_cylindrical",
    "Verif.Float.C114_angle",
    "Verif.Float.C114_euler",
    "Verif.Float.C114_geocentric"
   ],
   "note": "Rounding is to a nearest p-bit number with unbounded exponent, ties broken in any way. The key lemma: the rounded root of a rounded square is at least the number squared. The library functions are arbitrary, except that the sine used for the latitude is at most one and does not vanish together with the cosine."
  },
  {
   "property": "C115",
   "status": "partial",
   "theorems": [
    "Verif.Float.C115_in_range_partial",
    "Verif.Float.C115_fails"
   ],
   "note": "Fails: for the quaternion (r, 0, r, 0) with r = FRAC_1_SQRT_2 the matrix has an entry of size 1 + 2^-52 and the pitch is NaN. Proved if the entry is within [-1, 1]."
  },
  {
   "property": "C116",
   "status": "proved",
   "theorems": [
    "Verif.Float.C116_total"
   ],
   "note": "The four candidate pivots sum to four, so that one of them passes the threshold in spite of rounding."
  },
  {
   "property": "C117",
   "status": "proved",
   "theorems": [
    "Verif.Float.C117_start",
    "Verif.Float.C117_monotone",
    "Verif.Float.C117_error"
   ],
   "note": "Monotonicity holds because rounding to nearest is monotone. The documented value at parameter 1 is C119."
  },
  {
   "property": "C118",
   "status": "proved",
   "theorems": [
    "Verif.Float.C118_first",
    "Verif.Float.C118_second",
    "Verif.Float.C118_range",
    "Verif.Float.C118_monotone",
    "Verif.Float.C118_remap_first"
   ],
   "note": "That remap sends the end of the input range to the end of the output range fails with C119."
  },
  {
   "property": "C119",
   "status": "partial",
   "theorems": [
    "Verif.Float.C119_end_partial",
    "Verif.Float.C119_end_fails",
    "Verif.Float.C119_range_fails"
   ],
   "note": "Fails: from 2^60 to 1 the interpolation ends at 0, and from -2^54 to 3 it ends at 4. Proved for positive endpoints within a factor of two of each other, where the difference is exact."
  },
  {
   "property": "C120",
   "status": "proved",
   "theorems": [
    "Verif.Att.C120_rate",
    "Verif.Att.C120_unit"
   ],
   "note": "The quaternions built from the rates have scalar part 1 instead of 0; the spurious radial term of first order is removed by the normalisation. What remains of it at second order is C121."
  },
  {
   "property": "C121",
   "status": "partial",
   "theorems": [
    "Verif.Att.C121_lag_fails",
    "Verif.Att.C121_order_fails"
   ],
   "note": "Fails: turning about the first axis at unit rate the tangent of half the angle is short by more than t^2/20 for every step up to 1/2, so that the error is of second order. The scalar part 1 of the rate quaternions and the coefficients 1/4 and 1/9 in place of 1/2 and 1/6 both contribute."
  },
  {
   "property": "C122",
   "status": "proved",
   "theorems": [
    "Verif.Interp.C122_smoothest",
    "Verif.Interp.C122_only",
    "Verif.Interp.C122_unique"
   ],
   "note": "Exact real arithmetic. The curvature of the spline is orthogonal to that of any function vanishing at the knots (two integrations by parts on every segment)."
  },
  {
   "property": "C123",
   "status": "proved",
   "theorems": [
    "Verif.Geom.C123_components",
    "Verif.Geom.C123_vector",
    "Verif.Geom.C123_quaternion"
   ],
   "note": "k roundings stand for the relative error (1 - u)^-k - 1, which is about k u. The square root is taken to be rounded like the other operations."
  },
  {
   "property": "C124",
   "status": "proved",
   "theorems": [
    "Verif.Geom.C124_rotate",
    "Verif.Geom.C124_length"
   ],
   "note": "The error includes that of normalising the quaternion first. The exact rotation is the one of C31."
  },
  {
   "property": "C125",
   "status": "proved",
   "theorems": [
    "Verif.Geom.C125_entries",
    "Verif.Geom.C125_orthogonal"
   ],
   "note": "The conversion that does not normalise first, From<&Quaternion> for DirectionCosineMatrix, is not covered; its entries can exceed one, see C115."
  },
  {
   "property": "C126",
   "status": "proved",
   "theorems": [
    "Verif.Geom.C126_history",
    "Verif.Geom.C126_drift"
   ],
   "note": "The exact integration is that of C77. The update never normalises, so the bound is on the accumulated effect of all steps."
  },
  {
   "property": "C127",
   "status": "proved",
   "theorems": [
    "Verif.Float.C127_number",
    "Verif.Float.C127_knots"
   ],
   "note": "The pivots of the sweep stay at least one in rounded arithmetic, by monotonicity of rounding."
  },
  {
   "property": "C128",
   "status": "partial",
   "theorems": [
    "Verif.Float.C128_nodes_partial",
    "Verif.Float.C128_far_fails"
   ],
   "note": "Exact at the nodes. Elsewhere the denominator can cancel to zero: the line through (0, 0) and (1, 1) has no value at 2^55 in double precision."
  },
  {
   "property": "C129",
   "status": "partial",
   "theorems": [
    "Verif.Float.C129_spline_partial",
    "Verif.Float.C129_polynomial_partial",
    "Verif.Float.C129_spline_fails",
    "Verif.Float.C129_polynomial_fails"
   ],
   "note": "Exact for numbers. A sample that is not a number passes both checks, because comparisons with it are false."
  },
  {
   "property": "C130",
   "status": "proved",
   "theorems": [
    "Verif.Ode.C130_increments",
    "Verif.Ode.C130_rk4",
    "Verif.Ode.C130_rk4_cartesian",
    "Verif.Ode.C130_rk4_euler"
   ],
   "note": "The computed derivative needs to be accurate only where the stages of the run take it."
  },
  {
   "property": "C131",
   "status": "proved",
   "theorems": [
    "Verif.Ode.C131_rk4",
    "Verif.Ode.C131_rk4_cartesian",
    "Verif.Ode.C131_rk4_euler",
    "Verif.Ode.C131_total"
   ],
   "note": "Covers singular systems such as central gravity, and systems whose solutions blow up later; the constant is existential."
  },
  {
   "property": "C132",
   "status": "proved",
   "theorems": [
    "Verif.Frames.C132_kepler",
    "Verif.Frames.C132_mean_motion"
   ],
   "note": "Real arithmetic; existence of the motion is shown, its uniqueness for given initial values is not."
  },
  {
   "property": "C133",
   "status": "partial",
   "theorems": [
    "Verif.Att.C133_attitude_partial",
    "Verif.Att.C133_vector_partial",
    "Verif.Att.C133_fails",
    "Verif.Att.C133_active"
   ],
   "note": "Refuted for programs that use to_dcm, conjugate, products of quaternions or Rotation::compose; proved for all other programs (away from gimbal lock where Euler angles are extracted). Programs that read quaternions through to_dcm only are right as well (C133_active)."
  },
  {
   "property": "C134",
   "status": "proved",
   "theorems": [
    "Verif.Text.C134_vector",
    "Verif.Text.C134_matrix",
    "Verif.Text.C134_attitude"
   ],
   "note": "How a float is printed is a parameter: any printing that reads back and does not use blanks, commas, semicolons or brackets. A matrix without rows prints as [] and cannot be told from one with an empty row, so it is left out."
  },
  {
   "property": "C135",
   "status": "partial",
   "theorems": [
    "Verif.Viz.C135_shown_partial",
    "Verif.Viz.C135_changed",
    "Verif.Viz.C135_fails"
   ],
   "note": "Refuted when the data becomes empty (render returns early and leaves the old picture); proved in all other cases, for every sequence of polls."
  },
  {
   "property": "C136",
   "status": "partial",
   "theorems": [
    "Verif.Viz.Plot.C136_outcome",
    "Verif.Viz.Plot.C136_drawn",
    "Verif.Viz.Plot.C136_inside",
    "Verif.Viz.Plot.C136_axes_partial",
    "Verif.Viz.Plot.C136_axis_fails",
    "Verif.Viz.Plot.C136_error",
    "Verif.Viz.Plot.C136_error_partial",
    "Verif.Viz.Plot.C136_error_fails"
   ],
   "note": "Refuted in two corners: a single value of size 2^53 or more gives an axis of length zero, and rounding can put the last place of the error plot beyond the end of the x axis. The rest is proved in floating point without overflow."
  },
  {
   "property": "C137",
   "status": "partial",
   "theorems": [
    "Verif.Build.C137_complete_partial",
    "Verif.Build.C137_kept",
    "Verif.Build.C137_offline",
    "Verif.Build.C137_fails",
    "Verif.Build.C137_page_fails"
   ],
   "note": "Refuted: a file left incomplete by a stopped or failed build is taken as complete by every later build (download, archive, extraction, generated source), and an error page of the server is stored as the catalogue. Proved for histories of builds that ran to their end with the true files, together with idempotence and no change of existing files for all histories. curl, unzip and the generator are parameters."
  },
  {
   "property": "C138",
   "status": "partial",
   "theorems": [
    "Verif.Bench.C138_log",
    "Verif.Bench.C138_all",
    "Verif.Bench.C138_progress",
    "Verif.Bench.C138_columns_partial",
    "Verif.Bench.C138_cells",
    "Verif.Bench.C138_columns_fails"
   ],
   "note": "Schedules, crash points, order and completeness are proved in full. The columns are refuted for names with a comma or a newline, which are written without quotes; proved for all other names. The clock is assumed not to go back; failing writes are C187."
  },
  {
   "property": "C139",
   "status": "partial",
   "theorems": [
    "Verif.Opt.C139_valid_partial",
    "Verif.Opt.C139_frame",
    "Verif.Opt.C139_stored",
    "Verif.Opt.C139_schedule",
    "Verif.Opt.C139_nan_fails",
    "Verif.Opt.C139_ema_one_fails"
   ],
   "note": "Refuted for arguments that are not numbers, which several setters store, and for averaging 1 in the parallel optimiser, with which the gradient test can never succeed. The rest is proved for all chains of calls with numbers and infinities."
  },
  {
   "property": "C140",
   "status": "proved",
   "theorems": [
    "Verif.Ieee.C140_difference",
    "Verif.Ieee.C140_sum",
    "Verif.Ieee.C140_product",
    "Verif.Ieee.C140_dot",
    "Verif.Ieee.C140_matrix_vector",
    "Verif.Ieee.C140_matrix_matrix",
    "Verif.Ieee.C140_dot_f64"
   ],
   "note": "Proved for every binary format with subnormal numbers, infinities and NaN; signed zeros are identified."
  },
  {
   "property": "C141",
   "status": "proved",
   "theorems": [
    "Verif.Ieee.C141_norm",
    "Verif.Ieee.C141_norm_f64",
    "Verif.Ieee.C141_normalize_f64",
    "Verif.Ieee.C141_normalized_f64"
   ],
   "note": "Proved; `C141_norm` is the statement for an arbitrary format."
  },
  {
   "property": "C142",
   "status": "partial",
   "theorems": [
    "Verif.Ieee.C142_positive_partial",
    "Verif.Ieee.C142_large_fails",
    "Verif.Ieee.C142_small_fails",
    "Verif.Ieee.C142_quaternion_fails"
   ],
   "note": "Refuted outside about 2^-500 to 2^500: squares overflow or underflow. Proved inside."
  },
  {
   "property": "C143",
   "status": "proved",
   "theorems": [
    "Verif.Stats.C143_sample",
    "Verif.Stats.C143_pdf",
    "Verif.Stats.C143_defined"
   ],
   "note": "Proved for ideal uniform draws and exact arithmetic; C144 says how the generator's own draws are distributed."
  },
  {
   "property": "C144",
   "status": "proved",
   "theorems": [
    "Verif.Rand.C144_counts",
    "Verif.Rand.C144_share"
   ],
   "note": "Proved for `f64` draws over the whole period."
  },
  {
   "property": "C145",
   "status": "proved",
   "theorems": [
    "Verif.Opt.C145_rate",
    "Verif.Opt.C145_stop",
    "Verif.Opt.C145_converges",
    "Verif.Opt.C145_values"
   ],
   "note": "Proved in exact arithmetic."
  },
  {
   "property": "C146",
   "status": "partial",
   "theorems": [
    "Verif.Opt.C146_gradient_partial",
    "Verif.Opt.C146_fails"
   ],
   "note": "Refuted with the default settings. Proved for runs that stop at a small gradient."
  },
  {
   "property": "C147",
   "status": "proved",
   "theorems": [
    "Verif.ML.C147_linear",
    "Verif.ML.C147_logistic",
    "Verif.ML.C147_ridge"
   ],
   "note": "Proved in exact arithmetic."
  },
  {
   "property": "C148",
   "status": "proved",
   "theorems": [
    "Verif.Ieee.C148_radians",
    "Verif.Ieee.C148_degrees",
    "Verif.Ieee.C148_round_trip",
    "Verif.Ieee.C148_monotone",
    "Verif.Ieee.C148_real",
    "Verif.Ieee.C148_f64",
    "Verif.Ieee.C148_f32"
   ],
   "note": "Proved for IEEE arithmetic, with the values of the constants in the code."
  },
  {
   "property": "C149",
   "status": "partial",
   "theorems": [
    "Verif.Ieee.C149_finite_partial",
    "Verif.Ieee.C149_radians_fails",
    "Verif.Ieee.C149_degrees_fails"
   ],
   "note": "Refuted: the intermediate product overflows. Proved away from the upper end of the range."
  },
  {
   "property": "C150",
   "status": "proved",
   "theorems": [
    "Verif.ML.C150_bounded",
    "Verif.ML.C150_mean",
    "Verif.ML.C150_best"
   ],
   "note": "Proved in exact arithmetic, for the loss an epoch takes a subgradient of (see C86, C87)."
  },
  {
   "property": "C151",
   "status": "proved",
   "theorems": [
    "Verif.Opt.C151_converges"
   ],
   "note": "Proved in exact arithmetic."
  },
  {
   "property": "C152",
   "status": "partial",
   "theorems": [
    "Verif.Opt.C152_gradient_partial",
    "Verif.Opt.C152_fails"
   ],
   "note": "Refuted: a run that turns back is taken for one that has converged. Proved with a bound on the gradient that does not vanish with the tolerances."
  },
  {
   "property": "C153",
   "status": "proved",
   "theorems": [
    "Verif.Opt.C153_runs",
    "Verif.Opt.C153_mean",
    "Verif.Opt.C153_best",
    "Verif.Opt.C153_converges",
    "Verif.Opt.C153_point"
   ],
   "note": "Proved in exact arithmetic, for runs with the number of iterations prescribed by min_iters = max_iters, so that no stopping test ends them. Draws are an independent uniform sequence; the generator itself is deterministic. Limits ignore that the iteration count is a 32-bit number; the bound for K iterations (C153_best) does not need a limit."
  },
  {
   "property": "C154",
   "status": "proved",
   "theorems": [
    "Verif.Stats.C154_mean",
    "Verif.Stats.C154_cross",
    "Verif.Stats.C154_covariance"
   ],
   "note": "Overflow, underflow and non-finite samples are outside the rounding model."
  },
  {
   "property": "C155",
   "status": "partial",
   "theorems": [
    "Verif.Stats.C155_partial",
    "Verif.Stats.C155_round_trip",
    "Verif.Stats.C155_fails"
   ],
   "note": "Proved up to four roundings (C155_partial); the exact claim fails: in f64 a single variance of 3 gives a correlation of 1 + 2^-52 with itself (C155_fails)."
  },
  {
   "property": "C156",
   "status": "proved",
   "theorems": [
    "Verif.Frames.C156_earth",
    "Verif.Frames.C156_moon",
    "Verif.Frames.C156_velocity"
   ],
   "note": "Exact arithmetic over the reals."
  },
  {
   "property": "C157",
   "status": "proved",
   "theorems": [
    "Verif.Opt.C157_honest"
   ],
   "note": "IEEE arithmetic with subnormal numbers, infinities and NaN. Any nearest rounding."
  },
  {
   "property": "C158",
   "status": "partial",
   "theorems": [
    "Verif.Opt.C158_partial",
    "Verif.Opt.C158_fails",
    "Verif.Opt.C158_infinite_fails",
    "Verif.Opt.C158_shrink_fails"
   ],
   "note": "IEEE arithmetic with subnormal numbers, infinities and NaN. The setters accept a learning rate of NaN or infinity and a shrink factor of NaN; with these the search may not end."
  },
  {
   "property": "C159",
   "status": "partial",
   "theorems": [
    "Verif.Opt.C159_partial",
    "Verif.Opt.C159_fails"
   ],
   "note": "IEEE arithmetic with subnormal numbers, infinities and NaN. Within the bounds or NaN is proved; a NaN passes the projection."
  },
  {
   "property": "C160",
   "status": "partial",
   "theorems": [
    "Verif.Ieee.C160_partial",
    "Verif.Ieee.C160_fails"
   ],
   "note": "IEEE arithmetic with subnormal numbers, infinities and NaN. Proved: a row whose diagonal entry is not NaN consists of finite numbers, is zero above the diagonal and has a positive diagonal entry. A row with a NaN on its diagonal is not refused."
  },
  {
   "property": "C161",
   "status": "partial",
   "theorems": [
    "Verif.Ieee.C161_partial",
    "Verif.Ieee.C161_fails",
    "Verif.Ieee.C161_wrong_fails"
   ],
   "note": "IEEE arithmetic with subnormal numbers, infinities and NaN. Finite results are proved for systems whose numbers are not too large for the size of the system (three equations in f64: up to 2^190). Missing: the error of the solution with underflow (C111 has it without)."
  },
  {
   "property": "C162",
   "status": "partial",
   "theorems": [
    "Verif.Ieee.C162_finite",
    "Verif.Ieee.C162_partial",
    "Verif.Ieee.C162_fails"
   ],
   "note": "IEEE arithmetic with subnormal numbers, infinities and NaN. The bound on the function is proved if the derivative never returns an infinity."
  },
  {
   "property": "C163",
   "status": "proved",
   "theorems": [
    "Verif.Ieee.C163_widen",
    "Verif.Ieee.C163_back",
    "Verif.Ieee.C163_order",
    "Verif.Ieee.C163_narrow",
    "Verif.Ieee.C163_overflow",
    "Verif.Ieee.C163_count"
   ],
   "note": "IEEE arithmetic with subnormal numbers, infinities and NaN; `as` is modelled as the Rust reference describes it."
  },
  {
   "property": "C164",
   "status": "partial",
   "theorems": [
    "Verif.Viz.Poll.C164_viewer",
    "Verif.Viz.Poll.C164_partial",
    "Verif.Viz.Poll.C164_fails"
   ],
   "note": "The viewer is proved for every rate; run_forever for rates of at least 2^-63 or not above zero. The rounding of an interval to nanoseconds is not modelled."
  },
  {
   "property": "C165",
   "status": "partial",
   "theorems": [
    "Verif.ML.Ie.C165_partial",
    "Verif.ML.Ie.C165_fails"
   ],
   "note": "Proved for features and queries of size at most 2^480, at most 2^53 examples and fewer than 2^20 features, for every logarithm that maps positive finite numbers to numbers of size at most 1024; the exact one, rounded, is such."
  },
  {
   "property": "C166",
   "status": "partial",
   "theorems": [
    "Verif.ML.Ie.C166_partial",
    "Verif.ML.Ie.C166_fails"
   ],
   "note": "Proved for features that are multiples of 2^-s (integers for s = 0) of size at most X 2^-s, with (R/\u03b3)\u00b2(4^s + N X\u00b2) \u2264 2^p: the machine then runs through exactly the parameters of exact arithmetic, and (R/\u03b3)\u00b2 epochs suffice. Missing: features on a finer grid."
  },
  {
   "property": "C167",
   "status": "proved",
   "theorems": [
    "Verif.ML.Ie.C167_unit",
    "Verif.ML.Ie.C167_mono",
    "Verif.ML.Ie.C167_accurate"
   ],
   "note": ""
  },
  {
   "property": "C168",
   "status": "partial",
   "theorems": [
    "Verif.ML.Ie.C168_partial",
    "Verif.ML.Ie.C168_fails"
   ],
   "note": "Proved for features of size at most 2^c, learning rate at most 2^l and initial parameters at most 2^(l+c) with l + 2c \u2264 940, fewer than 2^20 features, at most 2^53 examples and fewer than 2^53 epochs: the parameters are at most (T+1) 2^(l+c) after T epochs. Missing: larger numbers."
  },
  {
   "property": "C169",
   "status": "partial",
   "theorems": [
    "Verif.ML.Ie.C169_partial",
    "Verif.ML.Ie.C169_fails",
    "Verif.ML.Ie.C169_boundary_partial"
   ],
   "note": "Proved: class 1 implies a positive score, and a score of at least 2^-47 gives class 1, for every accurate monotone exponential. With the correctly rounded exponential the boundary is located: scores up to 2^-54 give class 0 (so the property fails for all positive ones among them), scores from 2^-51 on give class 1."
  },
  {
   "property": "C170",
   "status": "partial",
   "theorems": [
    "Verif.Mat.C170_sound",
    "Verif.Mat.C170_partial",
    "Verif.Mat.C170_fails",
    "Verif.Mat.C170_zero_fails"
   ],
   "note": "Proved for every encoding: the assertion passes exactly if the bytes fit 1024 and decode to equal numbers without a NaN; so with the f64 encoding exactly up to 128 numbers. Longer vectors panic although they are decoded correctly (C170_fails), and a lost sign of zero is not noticed, since == takes the zeros as equal (C170_zero_fails)."
  },
  {
   "property": "C171",
   "status": "proved",
   "theorems": [
    "Verif.Mat.C171_bincode",
    "Verif.Mat.C171_serde",
    "Verif.Mat.C171_record",
    "Verif.Mat.C171_sequence"
   ],
   "note": "The derived serde and bincode code is modelled from its documented behaviour; the formats themselves (JSON text) are not modelled."
  },
  {
   "property": "C172",
   "status": "partial",
   "theorems": [
    "Verif.Mat.C172_partial",
    "Verif.Mat.C172_fails",
    "Verif.Mat.C172_accepts_partial"
   ],
   "note": "Proved: kinds with more numbers than were stored are rejected. Refuted: a stored quaternion is read as Euler angles or coordinates."
  },
  {
   "property": "C173",
   "status": "partial",
   "theorems": [
    "Verif.Shapes.C173_partial",
    "Verif.Shapes.C173_shapes",
    "Verif.Shapes.C173_fails"
   ],
   "note": "Standard model of rounding, without overflow and underflow. Volume, mass and density are proved to be right up to a few roundings; the centre of mass and the inertia tensor up to roundings of the distance from the origin and of the inertia about the origin. Refuted for the inertia itself: far from the origin all digits cancel. Differences of parts are C205."
  },
  {
   "property": "C174",
   "status": "proved",
   "theorems": [
    "Verif.Time.C174_durations",
    "Verif.Time.C174_instants",
    "Verif.Time.C174_clock",
    "Verif.Time.C174_timers",
    "Verif.Time.C174_schedules",
    "Verif.Time.C174_exact",
    "Verif.Time.C174_scales",
    "Verif.Time.C174_round_trip"
   ],
   "note": "The release build is a second model with wrapping arithmetic (Verif/Time/Release.lean); conversions are exact for leap counts up to i32::MAX - 10 and undo each other for all."
  },
  {
   "property": "C175",
   "status": "partial",
   "theorems": [
    "Verif.Time.C175_partial",
    "Verif.Time.C175_fails",
    "Verif.Time.C175_hangs_fails"
   ],
   "note": "Holds in debug builds, and in release builds when the sum can be represented. Refuted for release builds: the sum wraps into the past."
  },
  {
   "property": "C176",
   "status": "partial",
   "theorems": [
    "Verif.Time.C176_once",
    "Verif.Time.C176_twice_partial",
    "Verif.Time.C176_fails",
    "Verif.Time.C176_clock_fails"
   ],
   "note": "Proved for the conversions between UTC and TAI or GPS, which load the atomic once. Between GPS and TAI the atomic is loaded twice: the error is the difference of the two values, proved for all interleavings, so the claim is refuted there and for the GPS time of the mission clock."
  },
  {
   "property": "C177",
   "status": "partial",
   "theorems": [
    "Verif.Stats.Ie.C177_partial",
    "Verif.Stats.Ie.C177_fit_partial",
    "Verif.Stats.Ie.C177_fails",
    "Verif.Stats.Ie.C177_large_fails",
    "Verif.Stats.Ie.C177_fit_fails"
   ],
   "note": "Proved for standard deviations from 2^-511 to 2^509 and for distributions fitted to at most 2^53 observations of size at most 2^480. Refuted beyond: NaN at the mean for a deviation of 2^-600, NaN one deviation off for 2^600, and NaN at an observation of the fitted data."
  },
  {
   "property": "C178",
   "status": "partial",
   "theorems": [
    "Verif.Stats.Ie.C178_partial",
    "Verif.Stats.Ie.C178_two_partial",
    "Verif.Stats.Ie.C178_fails"
   ],
   "note": "Proved for two observations. For up to 2^53 observations of size at most 2^480, proved that the mean leaves the range by at most the rounding errors of the sum and the quotient. Refuted in general: three observations equal to 0.1."
  },
  {
   "property": "C179",
   "status": "partial",
   "theorems": [
    "Verif.Tools.Ie.C179_partial",
    "Verif.Tools.Ie.C179_fails",
    "Verif.Tools.Ie.C179_nan_fails"
   ],
   "note": "Proved for accepted finite steps of at least 2^-44 degrees. Refuted for a step of 2^-47 degrees (the loop never ends and memory fills up) and for a step that is NaN (accepted)."
  },
  {
   "property": "C180",
   "status": "proved",
   "theorems": [
    "Verif.Interp.C180_polynomial",
    "Verif.Interp.C180_tolerance",
    "Verif.Interp.C180_linear",
    "Verif.Interp.C180_spline"
   ],
   "note": "Over the reals."
  },
  {
   "property": "C181",
   "status": "proved",
   "theorems": [
    "Verif.Ode.C181_local",
    "Verif.Ode.C181_convex"
   ],
   "note": "Over the reals; C162 has the machine arithmetic."
  },
  {
   "property": "C182",
   "status": "proved",
   "theorems": [
    "Verif.Float.C182_near",
    "Verif.Float.C182_matrix",
    "Verif.Float.C182_round_trip"
   ],
   "note": "Arithmetic without overflow and underflow; the library square powf(x, 2) is assumed to be off by at most one rounding."
  },
  {
   "property": "C183",
   "status": "proved",
   "theorems": [
    "Verif.Mat.C183_entries",
    "Verif.Mat.C183_assign",
    "Verif.Mat.C183_write",
    "Verif.Mat.C183_iter",
    "Verif.Mat.C183_map"
   ],
   "note": "A panic of the scalar operation itself (integer overflow in a debug build) is not modelled."
  },
  {
   "property": "C184",
   "status": "partial",
   "theorems": [
    "Verif.ML.C184_linear_partial",
    "Verif.ML.C184_ridge_partial",
    "Verif.ML.C184_logistic_partial",
    "Verif.ML.C184_one_example",
    "Verif.ML.C184_fails",
    "Verif.ML.C184_new_fails",
    "Verif.ML.C184_new_logistic_partial"
   ],
   "note": "True for learning rates below an explicit bound from the data. Above it one example is enough to make the error grow without bound; a new LinearRegression has the learning rate one, which is above the bound for every single nonzero input."
  },
  {
   "property": "C185",
   "status": "proved",
   "theorems": [
    "Verif.Opt.C185_schedule",
    "Verif.Opt.C185_reproducible",
    "Verif.Opt.C185_panics"
   ],
   "note": "The threads share nothing but the read-only point; a step of the model is one pass of one thread."
  },
  {
   "property": "C186",
   "status": "partial",
   "theorems": [
    "Verif.Opt.C186_configured_partial",
    "Verif.Opt.C186_threads_fails",
    "Verif.Opt.C186_machine_fails"
   ],
   "note": "True when the number of threads is configured. A new optimiser takes the number of threads from the machine and derives the random streams from it, so the same seed gives different points on machines with one and two threads."
  },
  {
   "property": "C187",
   "status": "partial",
   "theorems": [
    "Verif.Bench.C187_log_partial",
    "Verif.Bench.C187_row_partial",
    "Verif.Bench.C187_progress",
    "Verif.Bench.C187_fails"
   ],
   "note": "Proved: the file is a sequence of beginnings of lines in the order of the lock, a call whose write succeeds adds exactly its line, and no error blocks the other threads. Refuted: a line that is cut off has no newline, so the next row is joined to it; a write failing after the first digit makes the next row one with a wrong time."
  },
  {
   "property": "C188",
   "status": "proved",
   "theorems": [
    "Verif.ML.C188_linear",
    "Verif.ML.C188_converges",
    "Verif.ML.C188_ridge"
   ],
   "note": "Proved for roundings of relative size u (no overflow or underflow). Overflow for larger learning rates is the subject of C189."
  },
  {
   "property": "C189",
   "status": "partial",
   "theorems": [
    "Verif.ML.Ie.C189_partial",
    "Verif.ML.Ie.C189_fails"
   ],
   "note": "Proved for a bounded number of epochs, depending on the sizes of data and rate. Refuted for a new model with its default rate of 1: on the single example x = 1024, y = 1 the weight is not finite after 58 or more epochs. Rates below the bound from the data are C188."
  },
  {
   "property": "C190",
   "status": "proved",
   "theorems": [
    "Verif.Float.C190_cylindrical",
    "Verif.Float.C190_spherical",
    "Verif.Float.C190_origin"
   ],
   "note": "Proved without overflow and underflow; the library functions sin, cos, acos and atan2 are assumed within e of the exact ones."
  },
  {
   "property": "C191",
   "status": "partial",
   "theorems": [
    "Verif.Float.C191_partial",
    "Verif.Float.C191_fails"
   ],
   "note": "Proved for points at least thirty degrees from the axis. Refuted near the axis: the inclination is taken from the inverse cosine of z over the radius, so in f64 the point (2^-27, 0, 1) comes back on the axis."
  },
  {
   "property": "C192",
   "status": "proved",
   "theorems": [
    "Verif.Float.C192_ecef"
   ],
   "note": "Proved without overflow and underflow; sine and cosine are assumed within e of the exact ones, and the constant e2 is within one rounding."
  },
  {
   "property": "C193",
   "status": "proved",
   "theorems": [
    "Verif.Float.C193_geodetic",
    "Verif.Float.C193_round_trip"
   ],
   "note": "Proved without overflow and underflow; the library functions are assumed within e of the exact ones, and the constant e2 is within one rounding."
  },
  {
   "property": "C194",
   "status": "proved",
   "theorems": [
    "Verif.Wmm.Fp.C194_field"
   ],
   "note": "Proved without overflow and underflow for the three field components of the 2025 model at its full degree; the other elements and the test for a vanishing horizontal field are in C195. The power function is assumed within as many roundings as its exponent."
  },
  {
   "property": "C195",
   "status": "proved",
   "theorems": [
    "Verif.Wmm.Fp.C195_elements"
   ],
   "note": "Proved without overflow and underflow for the 2025 model at its full degree. The power function is assumed within as many roundings as its exponent."
  },
  {
   "property": "C196",
   "status": "proved",
   "theorems": [
    "Verif.Float.C196_earth",
    "Verif.Float.C196_moon",
    "Verif.Float.C196_earth_round_trip",
    "Verif.Float.C196_moon_round_trip",
    "Verif.Float.C196_orientation"
   ],
   "note": "Proved without overflow and underflow. The round trip of the Earth-fixed axes assumes rounding that treats both signs alike, as IEEE rounding does."
  },
  {
   "property": "C197",
   "status": "partial",
   "theorems": [
    "Verif.Float.C197_double_partial",
    "Verif.Float.C197_single_fails"
   ],
   "note": "True in double precision; false in single precision, where the rounding of the angle alone moves a point on the equator by 17 km at a Unix time in January 2001."
  },
  {
   "property": "C198",
   "status": "proved",
   "theorems": [
    "Verif.Atmo.Fp.C198_isa",
    "Verif.Atmo.Fp.C198_altitudes"
   ],
   "note": "Proved without overflow and underflow."
  },
  {
   "property": "C199",
   "status": "proved",
   "theorems": [
    "Verif.Float.C199_look_at"
   ],
   "note": "Proved without overflow and underflow."
  },
  {
   "property": "C200",
   "status": "partial",
   "theorems": [
    "Verif.Float.C200_partial",
    "Verif.Float.C200_fails"
   ],
   "note": "Proved for a sine of at least a thousand rounding errors; below it the code can return NaN (single precision, eye at the origin, up (1, 1, 0), looking at (1, 1 - 2^-24, 0))."
  },
  {
   "property": "C201",
   "status": "proved",
   "theorems": [
    "Verif.Float.C201_camera"
   ],
   "note": "Proved without overflow and underflow; the constant 1e-16 is any number in (0, 1/100]."
  },
  {
   "property": "C202",
   "status": "proved",
   "theorems": [
    "Verif.Float.C202_world",
    "Verif.Float.C202_orbit",
    "Verif.Float.C202_set",
    "Verif.Float.C202_pixels"
   ],
   "note": "Proved without overflow and underflow. What the exact product of turns looks at is C91, not C202."
  },
  {
   "property": "C203",
   "status": "proved",
   "theorems": [
    "Verif.Float.C203_position",
    "Verif.Float.C203_velocity",
    "Verif.Float.C203_arcsec"
   ],
   "note": "Proved without overflow and underflow. What the size of the velocity should be is C95."
  },
  {
   "property": "C204",
   "status": "proved",
   "theorems": [
    "Verif.Float.C204_gaia",
    "Verif.Float.C204_other",
    "Verif.Float.C204_growth"
   ],
   "note": "Proved without overflow and underflow. Between 1966.5 and 2016 the value for stars not from Gaia may be NaN (C96_fails)."
  },
  {
   "property": "C205",
   "status": "proved",
   "theorems": [
    "Verif.Shapes.C205_difference"
   ],
   "note": "Proved without overflow and underflow. That each shape is computed with 18 roundings is C173_shapes."
  },
  {
   "property": "C206",
   "status": "proved",
   "theorems": [
    "Verif.Round.C206_inverse",
    "Verif.Round.C206_product",
    "Verif.Round.C206_refused"
   ],
   "note": "Standard model of rounding: without overflow and underflow."
  },
  {
   "property": "C207",
   "status": "partial",
   "theorems": [
    "Verif.Mat.C207_iff",
    "Verif.Mat.C207_partial",
    "Verif.Mat.C207_units",
    "Verif.Mat.C207_fails"
   ],
   "note": "Exact arithmetic. Proved: whatever inverse() returns the other returns, and the other way round if the determinant is above the threshold. Refuted in general: inverse() compares the determinant with 1e-12, the other the pivots; every matrix divided by a large enough number is refused by inverse()."
  },
  {
   "property": "C208",
   "status": "proved",
   "theorems": [
    "Verif.ML.C208_order",
    "Verif.ML.C208_order_bayes",
    "Verif.ML.C208_origin",
    "Verif.ML.C208_origin_bayes"
   ],
   "note": "Exact arithmetic."
  },
  {
   "property": "C209",
   "status": "partial",
   "theorems": [
    "Verif.ML.C209_lda_partial",
    "Verif.ML.C209_qda_partial",
    "Verif.ML.C209_bayes_partial",
    "Verif.ML.C209_lda_fails",
    "Verif.ML.C209_qda_fails",
    "Verif.ML.C209_bayes_fails"
   ],
   "note": "Exact arithmetic. Proved if the covariances can be inverted by the code in both units or in neither (LDA, QDA), and if the variances are above the floor in both units (naive Bayes). Refuted without: the thresholds 1e-12 are absolute."
  },
  {
   "property": "C210",
   "status": "partial",
   "theorems": [
    "Verif.Mat.C210_partial",
    "Verif.Mat.C210_exact",
    "Verif.Mat.C210_fails",
    "Verif.Mat.C210_unknowns_fails",
    "Verif.Mat.C210_units_fails"
   ],
   "note": "Exact arithmetic. Proved: if both systems are solved the solutions agree; without a threshold both are solved or neither. Refuted with the threshold of the code for the order of the equations, the order of the unknowns, and the units."
  },
  {
   "property": "C211",
   "status": "proved",
   "theorems": [
    "Verif.Interp.C211_units",
    "Verif.Interp.C211_superposition"
   ],
   "note": "Exact arithmetic."
  },
  {
   "property": "C212",
   "status": "partial",
   "theorems": [
    "Verif.Interp.C212_superposition",
    "Verif.Interp.C212_partial",
    "Verif.Interp.C212_order_fails",
    "Verif.Interp.C212_units_fails"
   ],
   "note": "Exact arithmetic. Superposition is proved everywhere; order and units away from the nodes, if both interpolators are built. Refuted without: the tolerance for nodes, f64::EPSILON, is absolute, and between two close nodes the one given first wins."
  },
  {
   "property": "C213",
   "status": "proved",
   "theorems": [
    "Verif.Ode.C213_rk4",
    "Verif.Ode.C213_rk4_three",
    "Verif.Ode.C213_invariant",
    "Verif.Ode.C213_increments",
    "Verif.Ode.C213_newton"
   ],
   "note": "Exact arithmetic."
  },
  {
   "property": "C214",
   "status": "proved",
   "theorems": [
    "Verif.Ode.C214_oscillator",
    "Verif.Ode.C214_euler",
    "Verif.Ode.C214_decay"
   ],
   "note": "Exact arithmetic; one step size per run."
  },
  {
   "property": "C215",
   "status": "proved",
   "theorems": [
    "Verif.Float.C215_vectors",
    "Verif.Float.C215_product",
    "Verif.Float.C215_rk4",
    "Verif.Float.C215_newton"
   ],
   "note": "Barring overflow and underflow."
  },
  {
   "property": "C216",
   "status": "partial",
   "theorems": [
    "Verif.Float.C216_partial",
    "Verif.Float.C216_accepted",
    "Verif.Float.C216_determinant",
    "Verif.Float.C216_fails"
   ],
   "note": "Barring overflow and underflow. Proved if both systems are accepted; going to smaller units of the unknowns keeps a system accepted and a determinant nonzero. Refuted without: the thresholds are absolute, so a well-conditioned system is refused after going to large units."
  },
  {
   "property": "C217",
   "status": "proved",
   "theorems": [
    "Verif.ML.C217_epochs",
    "Verif.ML.C217_fits"
   ],
   "note": "In real arithmetic. The epoch of the perceptron treats one sample after the other and is not included."
  },
  {
   "property": "C218",
   "status": "partial",
   "theorems": [
    "Verif.ML.C218_epochs_partial",
    "Verif.ML.C218_fits",
    "Verif.ML.C218_fails",
    "Verif.ML.C218_fails_perceptron"
   ],
   "note": "In real arithmetic. Proved for the epochs of linear, ridge and logistic regression and for fitting all five models with the optimiser. Refuted for the epoch of the support vector machine, whose penalty is divided by the number of samples, and for the epoch of the perceptron, which treats one sample after the other."
  },
  {
   "property": "C219",
   "status": "proved",
   "theorems": [
    "Verif.Opt.C219_gd",
    "Verif.Opt.C219_gd_bounds",
    "Verif.Opt.C219_sgd",
    "Verif.Opt.C219_sgd_bounds"
   ],
   "note": "In real arithmetic."
  },
  {
   "property": "C220",
   "status": "proved",
   "theorems": [
    "Verif.ML.C220_epochs",
    "Verif.ML.C220_fits",
    "Verif.ML.C220_predict"
   ],
   "note": "In real arithmetic."
  },
  {
   "property": "C221",
   "status": "partial",
   "theorems": [
    "Verif.Stats.C221_partial",
    "Verif.Stats.C221_fails"
   ],
   "note": "In real arithmetic. Proved where the variances are above the threshold in both units (C221_partial); refuted in general, since the threshold is absolute (C221_fails)."
  },
  {
   "property": "C222",
   "status": "partial",
   "theorems": [
    "Verif.Stats.C222_fit_partial",
    "Verif.Stats.C222_pdf",
    "Verif.Stats.C222_mvn_partial",
    "Verif.Stats.C222_order",
    "Verif.Stats.C222_fit_fails",
    "Verif.Stats.C222_mvn_fails"
   ],
   "note": "In real arithmetic. Proved for the density and the order of the data (C222_pdf, C222_order), for fits with a spread above the floor in both units (C222_fit_partial) and for multivariate densities that are defined in both coordinates (C222_mvn_partial). Refuted for small units: the floor of the fitted deviation and the threshold of the inverse are absolute (C222_fit_fails, C222_mvn_fails)."
  },
  {
   "property": "C223",
   "status": "proved",
   "theorems": [
    "Verif.Frames.C223_view",
    "Verif.Frames.C223_view_unit",
    "Verif.Frames.C223_moon",
    "Verif.Frames.C223_earth"
   ],
   "note": "In real arithmetic. Gravity of the Earth is not central; its symmetry about the polar axis is C98_axisymmetric_partial."
  },
  {
   "property": "C224",
   "status": "proved",
   "theorems": [
    "Verif.Shapes.C224_add",
    "Verif.Shapes.C224_sub"
   ],
   "note": "In real arithmetic."
  },
  {
   "property": "C225",
   "status": "proved",
   "theorems": [
    "Verif.Stats.C225_definite",
    "Verif.Stats.C225_few",
    "Verif.Stats.C225_density"
   ],
   "note": "In real arithmetic; in floating point a singular covariance may have a nonzero computed determinant."
  },
  {
   "property": "C226",
   "status": "partial",
   "theorems": [
    "Verif.Graphics.C226_view",
    "Verif.Graphics.C226_target",
    "Verif.Graphics.C226_right_partial",
    "Verif.Graphics.C226_right_fails"
   ],
   "note": "With the side direction up \u00d7 forward this holds for every camera; this is the camera's own right except within 1e-8 of the vertical, where right can be the opposite (C226_right_fails). In real arithmetic; the projection takes points as row vectors (see C92)."
  },
  {
   "property": "C227",
   "status": "proved",
   "theorems": [
    "Verif.Float.C227_gravity",
    "Verif.Float.C227_torque",
    "Verif.Float.C227_rotating"
   ],
   "note": "Without overflow and underflow. powi is taken to be multiplication."
  },
  {
   "property": "C228",
   "status": "proved",
   "theorems": [
    "Verif.Float.C228_frustum"
   ],
   "note": "The matrix is computed in floating point and applied to row vectors (see C92) in exact arithmetic. Without overflow and underflow."
  },
  {
   "property": "C229",
   "status": "partial",
   "theorems": [
    "Verif.Time.C229_timer_partial",
    "Verif.Time.C229_drift",
    "Verif.Time.C229_fails",
    "Verif.Time.C229_alarm",
    "Verif.Time.C229_schedule",
    "Verif.Time.C229_daily_partial",
    "Verif.Time.C229_hourly_partial"
   ],
   "note": "Alarm and interval schedule: proved; hourly and daily schedules: from 1970 on (false before, C13). Timer: proved for rates that divide 10^9; at other rates each pass loses part of a nanosecond (C229_drift bounds it), and a counter faster than 1 GHz read at every tick never makes the timer report (C229_fails)."
  },
  {
   "property": "C230",
   "status": "proved",
   "theorems": [
    "Verif.Shapes.C230_sphere",
    "Verif.Shapes.C230_cylinder",
    "Verif.Shapes.C230_prism"
   ],
   "note": "Relative to the volume of the region (C54) and the moments proved right in C54. Without overflow and underflow."
  },
  {
   "property": "C231",
   "status": "partial",
   "theorems": [
    "Verif.Shapes.Ie.C231_limits",
    "Verif.Shapes.Ie.C231_finite_partial",
    "Verif.Shapes.Ie.C231_fails",
    "Verif.Shapes.Ie.C231_total"
   ],
   "note": "C231_limits says exactly when a limit is NaN and proves the rest for all other inputs; C231_fails is an empty tank of finite but huge size. Signed zeros are one number."
  },
  {
   "property": "C232",
   "status": "proved",
   "theorems": [
    "Verif.ML.Ie.C232_lda",
    "Verif.ML.Ie.C232_qda"
   ],
   "note": "The scores are those the code computes, with the Gauss-Jordan inverse and determinant in the same arithmetic."
  },
  {
   "property": "C233",
   "status": "partial",
   "theorems": [
    "Verif.ML.Ie.C233_lda_partial",
    "Verif.ML.Ie.C233_qda_partial",
    "Verif.ML.Ie.C233_fails"
   ],
   "note": "Proved when some class has a computed score above negative infinity. C233_fails: two examples of class 1 with invertible covariance and a finite query whose score overflows."
  },
  {
   "property": "C234",
   "status": "partial",
   "theorems": [
    "Verif.ML.Ie.C234_partial",
    "Verif.ML.Ie.C234_fails"
   ],
   "note": "C234_partial: moderate numbers, and the rate times the regularisation factor 2/(C m) at most 3/2; then for every number of epochs below 2^53 - 1 the parameters are finite with a bound that grows linearly. A new() model with two or more examples is covered. C234_fails: C = 2^-1000, infinite after three epochs."
  },
  {
   "property": "C235",
   "status": "proved",
   "theorems": [
    "Verif.Stats.Ie.C235_categorical",
    "Verif.Stats.Ie.C235_bernoulli"
   ],
   "note": "C235_categorical, C235_bernoulli. The sum of the probabilities is the exact sum of the computed numbers, the crate does not compute it."
  },
  {
   "property": "C236",
   "status": "proved",
   "theorems": [
    "Verif.Stats.Ie.C236_uniform",
    "Verif.Stats.Ie.C236_normal01",
    "Verif.Stats.Ie.C236_sample"
   ],
   "note": "C236_uniform, C236_normal01, C236_sample. The logarithm and cosine of the platform are parameters with the stated assumptions; an example shows that the exact functions, rounded, meet them."
  },
  {
   "property": "C237",
   "status": "partial",
   "theorems": [
    "Verif.Units.C237_order",
    "Verif.Units.C237_partial",
    "Verif.Units.C237_fails"
   ],
   "note": "C237_order: all quantities, also when a result is infinite, and never NaN. C237_partial: quantities of size 2^-36 to 2^35. C237_fails: in f32, 2^40 kilograms in yoctograms are infinite."
  },
  {
   "property": "C238",
   "status": "proved",
   "theorems": [
    "Verif.Stats.Ie.C238_symmetric",
    "Verif.Stats.Ie.C238_correlation",
    "Verif.Stats.Ie.C238_finite"
   ],
   "note": "C238_symmetric, C238_correlation, C238_finite, on the same generic model as C49, C50 and C154."
  },
  {
   "property": "C239",
   "status": "proved",
   "theorems": [
    "Verif.Stats.Ie.C239_draws"
   ],
   "note": "C239_draws: composition of C177 (fit) and C236 (one draw), by induction on the number of draws."
  },
  {
   "property": "C240",
   "status": "proved",
   "theorems": [
    "Verif.Stats.Ie.C240_swap",
    "Verif.Stats.Ie.C240_self",
    "Verif.Stats.Ie.C240_finite"
   ],
   "note": "C240_swap, C240_self, C240_finite, on the same generic model as C49 and C154. C240_self is the generic lemma self_gen at the IEEE type."
  },
  {
   "property": "C241",
   "status": "partial",
   "theorems": [
    "Verif.Stats.Ie.C241_exact",
    "Verif.Stats.Ie.C241_fails",
    "Verif.Stats.Ie.C241_partial"
   ],
   "note": "Exact arithmetic: C241_exact. In f64 the property fails for the correlation 0.1 and the deviations 5 and 7 (C241_fails). C241_partial: in f32 and f64 entries across the diagonal agree up to six roundings, for correlations that are zero or of size 2^-40 to 1 and deviations of 2^-40 to 2^40."
  },
  {
   "property": "C242",
   "status": "partial",
   "theorems": [
    "Verif.Mat.Ie.C242_transpose",
    "Verif.Mat.Ie.C242_gram",
    "Verif.Mat.Ie.C242_fails",
    "Verif.Mat.Ie.C242_turned_partial"
   ],
   "note": "C242_transpose and C242_gram hold for all values (two NaN are not distinguished). The last clause fails: C242_fails turns an isotropic inertia by the 3-4-5 angle and gets different entries across the diagonal. C242_turned_partial bounds the error of the turned tensor and the difference across the diagonal in f64."
  },
  {
   "property": "C243",
   "status": "partial",
   "theorems": [
    "Verif.Mat.Ie.C243_exchange",
    "Verif.Mat.Ie.C243_partial",
    "Verif.Mat.Ie.C243_fails"
   ],
   "note": "C243_exchange for all values. C243_partial for components of size at most 2^510; larger finite components can give NaN (C243_fails)."
  },
  {
   "property": "C244",
   "status": "partial",
   "theorems": [
    "Verif.Float.Ie.C244_partial",
    "Verif.Float.Ie.C244_error_partial",
    "Verif.Float.Ie.C244_parameter_partial",
    "Verif.Float.Ie.C244_remap_partial",
    "Verif.Float.Ie.C244_fails",
    "Verif.Float.Ie.C244_parameter_fails"
   ],
   "note": "C244_partial, C244_error_partial, C244_parameter_partial and C244_remap_partial for end points of size at most 2^1022; beyond that the difference of the end points can overflow and give NaN (C244_fails, C244_parameter_fails)."
  },
  {
   "property": "C245",
   "status": "partial",
   "theorems": [
    "Verif.Float.Pie.C245_built_partial",
    "Verif.Float.Pie.C245_nodes_partial",
    "Verif.Float.Pie.C245_fails"
   ],
   "note": "C245_built_partial and C245_nodes_partial for finite nodes and any samples; for infinite nodes the test for equal nodes compares NaN and both clauses fail (C245_fails)."
  },
  {
   "property": "C246",
   "status": "partial",
   "theorems": [
    "Verif.Float.Pie.C246_knots_partial",
    "Verif.Float.Pie.C246_total",
    "Verif.Float.Pie.C246_built_partial",
    "Verif.Float.Pie.C246_built_fails",
    "Verif.Float.Pie.C246_line_partial",
    "Verif.Float.Pie.C246_fails"
   ],
   "note": "C246_total for all values. C246_built_partial for finite nodes; NaN nodes are accepted (C246_built_fails). C246_knots_partial: exact value at every node of any number of samples of size at most 2^200 whose nodes are at least 2^-200 apart; C246_line_partial for two points at most 2^511 apart. Other finite samples are missing, and for nodes 2^600 apart it fails (C246_fails)."
  }
 ]
}
