{
 "claims": [
  {
   "property": "C01",
   "status": "proved",
   "theorems": [
    "Spot.C01_constructor",
    "Spot.C01_from_prop_node"
   ],
   "note": "for every text/child list and every number reader"
  },
  {
   "property": "C02",
   "status": "proved",
   "theorems": [
    "Spot.C02_default",
    "Spot.C02_notation_decoded",
    "Spot.C02_full",
    "Spot.C02_tilde_only",
    "Spot.C02_range_only",
    "Spot.C02_mean_std"
   ],
   "note": "over the notation of Spec/ParNotation.lean, every number reader; C02_default: with the default options"
  },
  {
   "property": "C03",
   "status": "proved",
   "theorems": [
    "Spot.C03_second_mean",
    "Spot.C03_second_std",
    "Spot.C03_unreadable_mean",
    "Spot.C03_bad_range",
    "Spot.C03_empty",
    "Spot.C03_bad_bounds",
    "Spot.C03_unreadable_std_accepted",
    "Spot.C03_unreadable_std_is_zero"
   ],
   "note": "each malformed form throws, except the documented one: an unreadable number after ~ (C03_unreadable_std_accepted, C03_unreadable_std_is_zero)"
  },
  {
   "property": "C04",
   "status": "proved",
   "theorems": [
    "Spot.C04_names_unique",
    "Spot.C04_names_unique_from",
    "Spot.C04_vector_constructor_unchecked"
   ],
   "note": "constructing an objective_info from a vector of parameters is not checked (C04_vector_constructor_unchecked)"
  },
  {
   "property": "C05",
   "status": "proved",
   "theorems": [
    "Spot.C05_add_free",
    "Spot.C05_add_constant",
    "Spot.C05_add_rejected"
   ],
   "note": ""
  },
  {
   "property": "C06",
   "status": "proved",
   "theorems": [
    "Spot.C06_get_twice",
    "Spot.C06_get_node_twice"
   ],
   "note": ""
  },
  {
   "property": "C07",
   "status": "proved",
   "theorems": [
    "Spot.C07_registered_parameters_stable"
   ],
   "note": ""
  },
  {
   "property": "C08",
   "status": "proved",
   "theorems": [
    "Spot.C08_register_then_evaluate"
   ],
   "note": ""
  },
  {
   "property": "C09",
   "status": "proved",
   "theorems": [
    "Spot.C09_free_value",
    "Spot.C09_locked_value",
    "Spot.C09_requests_do_not_change",
    "Spot.C09_unknown_throws",
    "Spot.C09_unknown_node"
   ],
   "note": ""
  },
  {
   "property": "C10",
   "status": "proved",
   "theorems": [
    "Spot.C10_reference_resolution",
    "Spot.C10_reference_resolution_point",
    "Spot.C10_resolution_can_change"
   ],
   "note": "also proved: the resolved parameter can change between registration and evaluation (C10_resolution_can_change)"
  },
  {
   "property": "C11",
   "status": "proved",
   "theorems": [
    "Spot.C11_scopes_restored",
    "Spot.C11_setter_restores_text",
    "Spot.C11_scope_prefixes_name",
    "Spot.C11_scoped_options",
    "Spot.C11_setter_loses_segments"
   ],
   "note": "the set_prefix setter restores the text but loses the segment structure under the assumed stack_string::set (C11_setter_loses_segments)"
  },
  {
   "property": "C12",
   "status": "proved",
   "theorems": [
    "Spot.C12_defaults",
    "Spot.C12_import_mean_std",
    "Spot.C12_import_errors"
   ],
   "note": "from the characters of the file to the counts; malformed files too"
  },
  {
   "property": "C13",
   "status": "proved",
   "theorems": [
    "Spot.C13_import_locked",
    "Spot.C13_last_value",
    "Spot.C13_import_errors"
   ],
   "note": ""
  },
  {
   "property": "C14",
   "status": "proved",
   "theorems": [
    "Spot.C14_roundtrip",
    "Spot.C14_empty",
    "Spot.C14_prints",
    "Spot.C14_saved_points_load_back"
   ],
   "note": "proved for every printer/reader pair satisfying PrintsAs, and PrintsAs is proved for models of %.8g and strtod"
  },
  {
   "property": "C15",
   "status": "proved",
   "theorems": [
    "Spot.C15_idempotent",
    "Spot.C15_monotone",
    "Spot.C15_odd",
    "Spot.C15_accurate",
    "Spot.C15_binary64",
    "Spot.C15_constructors_store"
   ],
   "note": ""
  },
  {
   "property": "C16",
   "status": "proved",
   "theorems": [
    "Spot.C16_mes_eva",
    "Spot.C16_cma",
    "Spot.C16_short_bounds",
    "Spot.C16_bound_moves",
    "Spot.C16_infinite_sample",
    "Spot.C16_rounding_leaves_bounds",
    "Spot.C16_rounded_feasible",
    "Spot.C16_violation_small"
   ],
   "note": "findings: rounding happens after clamping, so a bound with more than 8 digits can be exceeded (C16_rounding_leaves_bounds); infinite samples are stored as 0, possibly outside of the bounds (C16_infinite_sample)"
  },
  {
   "property": "C17",
   "status": "proved",
   "theorems": [
    "Spot.C17_is_feasible",
    "Spot.C17_clamp",
    "Spot.C17_identity",
    "Spot.C17_nan_is_feasible"
   ],
   "note": "NaN coordinates count as feasible and are not clamped (C17_nan_is_feasible)"
  },
  {
   "property": "C18",
   "status": "proved",
   "theorems": [
    "Spot.C18_load",
    "Spot.C18_merge_overwrite",
    "Spot.C18_merge_keep",
    "Spot.C18_one_value"
   ],
   "note": ""
  },
  {
   "property": "C19",
   "status": "proved",
   "theorems": [
    "Spot.C19_make_vec",
    "Spot.C19_make"
   ],
   "note": ""
  },
  {
   "property": "C20",
   "status": "proved",
   "theorems": [
    "Spot.C20_best_fitness",
    "Spot.C20_never_worse",
    "Spot.C20_nan_hides_best"
   ],
   "note": "every history of public calls; NaN fitnesses excluded, with a witness of what goes wrong (C20_nan_hides_best)"
  },
  {
   "property": "C21",
   "status": "proved",
   "theorems": [
    "Spot.C21_best_point",
    "Spot.C21_initial",
    "Spot.C21_current_step"
   ],
   "note": "best_point stores rounded values; for points that are already rounded (all search points) it is the point itself"
  },
  {
   "property": "C22",
   "status": "proved",
   "theorems": [
    "Spot.C22_failed_step",
    "Spot.C22_completed_step"
   ],
   "note": ""
  },
  {
   "property": "C23",
   "status": "proved",
   "theorems": [
    "Spot.C23_failed_never_best",
    "Spot.C23_all_failed"
   ],
   "note": ""
  },
  {
   "property": "C24",
   "status": "proved",
   "theorems": [
    "Spot.C24_announced_once",
    "Spot.C24_permanent",
    "Spot.C24_returned",
    "Spot.C24_first_condition",
    "Spot.C24_step",
    "Spot.C24_conditions"
   ],
   "note": ""
  },
  {
   "property": "C25",
   "status": "proved",
   "theorems": [
    "Spot.C25_run",
    "Spot.C25_number_of_steps"
   ],
   "note": ""
  },
  {
   "property": "C26",
   "status": "proved",
   "theorems": [
    "Spot.C26_max_steps"
   ],
   "note": ""
  },
  {
   "property": "C27",
   "status": "proved",
   "theorems": [
    "Spot.C27_interrupt",
    "Spot.C27_interrupt_during_step"
   ],
   "note": ""
  },
  {
   "property": "C28",
   "status": "proved",
   "theorems": [
    "Spot.C28_protocol",
    "Spot.C28_only_steps"
   ],
   "note": ""
  },
  {
   "property": "C29",
   "status": "proved",
   "theorems": [
    "Spot.C29_no_influence",
    "Spot.C29_same_results",
    "Spot.C29_delivery",
    "Spot.C29_all_receive",
    "Spot.C29_history"
   ],
   "note": "reporters throw std::exceptions only"
  },
  {
   "property": "C30",
   "status": "proved",
   "theorems": [
    "Spot.C30_history",
    "Spot.C30_bounded",
    "Spot.C30_window_guarantee",
    "Spot.C30_all_served"
   ],
   "note": ""
  },
  {
   "property": "C31",
   "status": "proved",
   "theorems": [
    "Spot.C31_trend_not_stale",
    "Spot.C31_progress",
    "Spot.C31_shrink_stale"
   ],
   "note": "shrinking the window leaves a stale trend (C31_shrink_stale), under the assumption that circular_deque::reserve keeps the most recent elements"
  },
  {
   "property": "C32",
   "status": "proved",
   "theorems": [
    "Spot.C32_conditions",
    "Spot.C32_added_conditions_do_not_throw"
   ],
   "note": ""
  },
  {
   "property": "C33",
   "status": "proved",
   "theorems": [
    "Spot.Evaluators.C33_sequential",
    "Spot.Evaluators.C33_batch",
    "Spot.Evaluators.C33_async",
    "Spot.Evaluators.C33_batch_returns",
    "Spot.Evaluators.C33_deterministic"
   ],
   "note": ""
  },
  {
   "property": "C34",
   "status": "proved",
   "theorems": [
    "Spot.Evaluators.C34_concurrency",
    "Spot.Evaluators.C34_thread_count",
    "Spot.Evaluators.C34_progress",
    "Spot.Evaluators.C34_steps",
    "Spot.Evaluators.C34_termination",
    "Spot.Evaluators.C34_can_return",
    "Spot.Evaluators.C34_zero_threads"
   ],
   "note": ""
  },
  {
   "property": "C35",
   "status": "proved",
   "theorems": [
    "Spot.Evaluators.C35_own_results",
    "Spot.Evaluators.C35_once",
    "Spot.Evaluators.C35_mutual_exclusion"
   ],
   "note": ""
  },
  {
   "property": "C36",
   "status": "proved",
   "theorems": [
    "Spot.Evaluators.C36_no_deadlock",
    "Spot.Evaluators.C36_finite",
    "Spot.Evaluators.C36_returns",
    "Spot.Evaluators.C36_can_return",
    "Spot.Evaluators.C36_zero_threads"
   ],
   "note": ""
  },
  {
   "property": "C37",
   "status": "proved",
   "theorems": [
    "Spot.Evaluators.C37_destructor_deadlock",
    "Spot.Evaluators.C37_idle_destructor_deadlock",
    "Spot.Evaluators.C37_destructor_returns",
    "Spot.Evaluators.C37_lost_wakeup",
    "Spot.Evaluators.C37_resize_returns"
   ],
   "note": ""
  },
  {
   "property": "C38",
   "status": "proved",
   "theorems": [
    "Spot.Evaluators.C38_noexcept",
    "Spot.Evaluators.C38_isolated"
   ],
   "note": ""
  },
  {
   "property": "C39",
   "status": "proved",
   "theorems": [
    "Spot.Evaluators.C39_evaluator_independent",
    "Spot.Evaluators.C39_optimizer"
   ],
   "note": ""
  },
  {
   "property": "C40",
   "status": "proved",
   "theorems": [
    "Spot.C40_best",
    "Spot.C40_monotone",
    "Spot.C40_announced",
    "Spot.C40_no_best_yet",
    "Spot.C40_announced_values",
    "Spot.C40_failure_announced"
   ],
   "note": ""
  },
  {
   "property": "C41",
   "status": "proved",
   "theorems": [
    "Spot.C41_defaults",
    "Spot.C41_default_priorities",
    "Spot.C41_default_member",
    "Spot.C41_selected_and_stepped",
    "Spot.C41_not_stopped",
    "Spot.C41_progress",
    "Spot.C41_stopped_member_stepped",
    "Spot.C41_no_progress"
   ],
   "note": ""
  },
  {
   "property": "C42",
   "status": "proved",
   "theorems": [
    "Spot.C42_condition",
    "Spot.C42_stops_iff",
    "Spot.C42_interrupt",
    "Spot.C42_stays_stopped"
   ],
   "note": ""
  },
  {
   "property": "C43",
   "status": "proved",
   "theorems": [
    "Spot.C43_parameter",
    "Spot.C43_population",
    "Spot.C43_nan_draws"
   ],
   "note": "NaN draws are returned unchanged (C43_nan_draws)"
  },
  {
   "property": "C44",
   "status": "proved",
   "theorems": [
    "Spot.C44_never_negative",
    "Spot.C44_run",
    "Spot.C44_positive",
    "Spot.C44_rate_above_one"
   ],
   "note": "floating-point: never negative; exact arithmetic: positive; finding: rates above 1 are accepted and give negative variances (C44_rate_above_one)"
  },
  {
   "property": "C45",
   "status": "proved",
   "theorems": [
    "Spot.C45_eva",
    "Spot.C45_mes_without_momentum",
    "Spot.C45_mes_momentum_overshoots",
    "Spot.C45_eva_rounding"
   ],
   "note": "with momentum (MES default) the mean can leave the bounds: C45_mes_momentum_overshoots"
  },
  {
   "property": "C46",
   "status": "proved",
   "theorems": [
    "Spot.C46_defaults",
    "Spot.C46_uses_the_best",
    "Spot.C46_count",
    "Spot.C46_out_of_bounds",
    "Spot.C46_eva",
    "Spot.C46_mes",
    "Spot.C46_default_sizes",
    "Spot.C46_no_parameters"
   ],
   "note": ""
  },
  {
   "property": "C47",
   "status": "proved",
   "theorems": [
    "Spot.C47_cma",
    "Spot.C47_mes_eva",
    "Spot.C47_default_stop"
   ],
   "note": "MES, EVA and CMA, whole runs, every random source. Finding: C47_default_stop."
  },
  {
   "property": "C48",
   "status": "proved",
   "theorems": [
    "Spot.C48_cma",
    "Spot.C48_mes_eva",
    "Spot.C48_history",
    "Spot.C48_session_mes_eva",
    "Spot.C48_session_cma"
   ],
   "note": "MES, EVA and CMA: populations and distributions of whole runs; complete sessions with stop conditions and reporters (C48_history, C48_session_*), for numerical functions of xo that commute with the change of sign (OptEnv.Odd)."
  },
  {
   "property": "C49",
   "status": "proved",
   "theorems": [
    "Spot.C49_stays_in_range",
    "Spot.C49_no_overflow",
    "Spot.C49_seed",
    "Spot.C49_uniform_double",
    "Spot.C49_uniform",
    "Spot.C49_gauss",
    "Spot.C49_zero_seed"
   ],
   "note": "Seed 0 is replaced by a clock-derived value that can again be 0 (C49_zero_seed); that Gauss returns is C84"
  },
  {
   "property": "C50",
   "status": "proved",
   "theorems": [
    "Spot.C50_no_error",
    "Spot.C50_weights",
    "Spot.C50_rejected",
    "Spot.C50_log_weights"
   ],
   "note": "in exact arithmetic (reals with a logarithm that is strictly increasing); weights strictly decrease except in 'equal' mode"
  },
  {
   "property": "C51",
   "status": "proved",
   "theorems": [
    "Spot.C51_parameters",
    "Spot.C51_defined",
    "Spot.C51_default_lambda"
   ],
   "note": ""
  },
  {
   "property": "C52",
   "status": "proved",
   "theorems": [
    "Spot.C52_ranking",
    "Spot.C52_selection",
    "Spot.C52_nan_ranks_first"
   ],
   "note": "a NaN fitness ranks as the best individual (C52_nan_ranks_first)"
  },
  {
   "property": "C53",
   "status": "proved",
   "theorems": [
    "Spot.C53_positive_definite",
    "Spot.C53_rows",
    "Spot.C53_shrink"
   ],
   "note": "exact arithmetic; the eigen decomposition is an arbitrary function (not needed for the covariance recursion)"
  },
  {
   "property": "C54",
   "status": "proved",
   "theorems": [
    "Spot.C54_step_size"
   ],
   "note": ""
  },
  {
   "property": "C55",
   "status": "proved",
   "theorems": [
    "Spot.C55_update_succeeds_iff",
    "Spot.C55_generation"
   ],
   "note": ""
  },
  {
   "property": "C56",
   "status": "proved",
   "theorems": [
    "Spot.C56_feasible",
    "Spot.C56_within_bounds"
   ],
   "note": ""
  },
  {
   "property": "C57",
   "status": "proved",
   "theorems": [
    "Spot.C57_apply",
    "Spot.C57_unique",
    "Spot.C57_identity",
    "Spot.C57_order",
    "Spot.C57_continuous",
    "Spot.C57_constructor",
    "Spot.C57_unbounded",
    "Spot.C57_reflective",
    "Spot.C57_soft",
    "Spot.C57_wrong_size",
    "Spot.C57_cma",
    "Spot.C57_lower_bounded",
    "Spot.C57_upper_bounded",
    "Spot.C57_overflow"
   ],
   "note": ""
  },
  {
   "property": "C58",
   "status": "proved",
   "theorems": [
    "Spot.C58_inverse",
    "Spot.C58_inverse_of_trans"
   ],
   "note": ""
  },
  {
   "property": "C59",
   "status": "proved",
   "theorems": [
    "Spot.C59_defaults",
    "Spot.C59_best_files",
    "Spot.C59_others_stay",
    "Spot.C59_same_name_lost",
    "Spot.C59_name_limits"
   ],
   "note": ""
  },
  {
   "property": "C60",
   "status": "proved",
   "theorems": [
    "Spot.C60_defaults",
    "Spot.C60_regular_output"
   ],
   "note": ""
  },
  {
   "property": "C61",
   "status": "proved",
   "theorems": [
    "Spot.C61_sphere",
    "Spot.C61_ellipsoid",
    "Spot.C61_rosenbrock",
    "Spot.C61_rosenbrock_small",
    "Spot.C61_rastrigin",
    "Spot.C61_not_negative",
    "Spot.C61_himmelblau",
    "Spot.C61_schwefel"
   ],
   "note": ""
  },
  {
   "property": "C62",
   "status": "proved",
   "theorems": [
    "Spot.C62_projection",
    "Spot.C62_no_direction"
   ],
   "note": ""
  },
  {
   "property": "C63",
   "status": "proved",
   "theorems": [
    "Spot.C63_metric",
    "Spot.C63_value",
    "Spot.C63_mahalanobis",
    "Spot.C63_ignores_correlation"
   ],
   "note": ""
  },
  {
   "property": "C64",
   "status": "proved",
   "theorems": [
    "Spot.C64_mean_std",
    "Spot.C64_identical",
    "Spot.C64_mean_between",
    "Spot.C64_rounding"
   ],
   "note": ""
  },
  {
   "property": "C65",
   "status": "proved",
   "theorems": [
    "Spot.C65_set_mean_std"
   ],
   "note": ""
  },
  {
   "property": "C66",
   "status": "proved",
   "theorems": [
    "Spot.C66_set_std_minimum"
   ],
   "note": ""
  },
  {
   "property": "C67",
   "status": "proved",
   "theorems": [
    "Spot.C67_strict_order",
    "Spot.C67_extremes",
    "Spot.C67_find_best",
    "Spot.C67_find_best_empty",
    "Spot.C67_nan_hides_best"
   ],
   "note": "find_best_fitness needs a NaN-free vector (C67_nan_hides_best)"
  },
  {
   "property": "C68",
   "status": "proved",
   "theorems": [
    "Spot.C68_member_window",
    "Spot.C68_window_shrinks"
   ],
   "note": ""
  },
  {
   "property": "C69",
   "status": "proved",
   "theorems": [
    "Spot.C69_no_history",
    "Spot.C69_min_progress"
   ],
   "note": ""
  },
  {
   "property": "C70",
   "status": "proved",
   "theorems": [
    "Spot.C70_no_race",
    "Spot.C70_race"
   ],
   "note": ""
  },
  {
   "property": "C71",
   "status": "proved",
   "theorems": [
    "Spot.C71_best_first",
    "Spot.C71_how_many"
   ],
   "note": ""
  },
  {
   "property": "C72",
   "status": "proved",
   "theorems": [
    "Spot.C72_step_total",
    "Spot.C72_runs"
   ],
   "note": ""
  },
  {
   "property": "C73",
   "status": "proved",
   "theorems": [
    "Spot.C73_full_period"
   ],
   "note": ""
  },
  {
   "property": "C74",
   "status": "proved",
   "theorems": [
    "Spot.C74_default_options",
    "Spot.C74_starts_at_info",
    "Spot.C74_es_std",
    "Spot.C74_cma_mean",
    "Spot.C74_cma_std",
    "Spot.C74_offspring"
   ],
   "note": "CMA: with all stds zero the initial covariance divides 0 by 0, hence the hypothesis of one positive std"
  },
  {
   "property": "C75",
   "status": "proved",
   "theorems": [
    "Spot.C75_step_total",
    "Spot.C75_runs",
    "Spot.C75_constructor",
    "Spot.C75_no_parameters",
    "Spot.C75_precision_loop",
    "Spot.C75_precision_loop_exact"
   ],
   "note": "findings: a parameter with equal bounds makes the CMA constructor throw, MES and EVA accept it; without parameters the constructor succeeds but no step exists"
  },
  {
   "property": "C76",
   "status": "proved",
   "theorems": [
    "Spot.C76_parameters",
    "Spot.C76_update"
   ],
   "note": ""
  },
  {
   "property": "C77",
   "status": "proved",
   "theorems": [
    "Spot.C77_mean_within_bounds"
   ],
   "note": ""
  },
  {
   "property": "C78",
   "status": "proved",
   "theorems": [
    "Spot.C78_individuals",
    "Spot.C78_eigensystem",
    "Spot.C78_mahalanobis"
   ],
   "note": "C78_eigensystem needs update_eigen_modulo <= 1 and an exact eigensystem; exactEig_exists shows there is one; by default the code may keep B, D for several generations"
  },
  {
   "property": "C79",
   "status": "proved",
   "theorems": [
    "Spot.C79_affine"
   ],
   "note": ""
  },
  {
   "property": "C80",
   "status": "proved",
   "theorems": [
    "Spot.C80_defaults",
    "Spot.C80_history",
    "Spot.C80_columns",
    "Spot.C80_split",
    "Spot.C80_columns_mismatch"
   ],
   "note": ""
  },
  {
   "property": "C81",
   "status": "proved",
   "theorems": [
    "Spot.C81_mean_squared_error",
    "Spot.C81_no_data"
   ],
   "note": ""
  },
  {
   "property": "C82",
   "status": "proved",
   "theorems": [
    "Spot.C82_total",
    "Spot.C82_decomposition",
    "Spot.C82_positive",
    "Spot.C82_sample_returns",
    "Spot.C82_program_eig",
    "Spot.C82_sampled_distribution"
   ],
   "note": "exact arithmetic; the iteration is given a number of rounds, and the theorems say that enough rounds exist; n <= 10^14 in the error bounds"
  },
  {
   "property": "C83",
   "status": "proved",
   "theorems": [
    "Spot.C83_nan_matrix",
    "Spot.C83_nan_mean",
    "Spot.C83_zero_std",
    "Spot.C83_tiny_std"
   ],
   "note": "finding; floating-point; C83_zero_std and C83_tiny_std assume sqrt(inf) = inf, no boundary transformer and update_eigen_modulo <= 1"
  },
  {
   "property": "C84",
   "status": "proved",
   "theorems": [
    "Spot.C84_returns_double",
    "Spot.C84_returns",
    "Spot.C84_rounds_double",
    "Spot.C84_source_double",
    "Spot.C84_bounded"
   ],
   "note": "C84_bounded in exact arithmetic; a seed of 0 with a clock of 0 is the finding C49_zero_seed"
  },
  {
   "property": "C85",
   "status": "proved",
   "theorems": [
    "Spot.C85_prediction",
    "Spot.C85_from_start",
    "Spot.C85_late_wrong"
   ],
   "note": "finding C85_late_wrong; the regression is an arbitrary function that is exact on lines (RegExact)"
  },
  {
   "property": "C86",
   "status": "proved",
   "theorems": [
    "Spot.C86_es_restart",
    "Spot.C86_es_exact",
    "Spot.C86_cma_restart",
    "Spot.C86_cma_exact",
    "Spot.C86_transformed_restart"
   ],
   "note": "finding C86_transformed_restart; equality of std up to rounding is stated in exact arithmetic (C86_es_exact, C86_cma_exact)"
  },
  {
   "property": "C87",
   "status": "proved",
   "theorems": [
    "Spot.C87_labels_match",
    "Spot.C87_labels_distinct"
   ],
   "note": ""
  },
  {
   "property": "C88",
   "status": "proved",
   "theorems": [
    "Spot.C88_any_order",
    "Spot.C88_vec3",
    "Spot.C88_vec3_evaluate",
    "Spot.C88_order_matters",
    "Spot.C88_pair",
    "Spot.C88_array",
    "Spot.C88_alias_only_for_nodes",
    "Spot.C88_default_registers"
   ],
   "note": "findings C88_order_matters, C88_alias_only_for_nodes"
  },
  {
   "property": "C89",
   "status": "proved",
   "theorems": [
    "Spot.C89_defaults",
    "Spot.C89_fires",
    "Spot.C89_other_optimizer",
    "Spot.C89_negative_steps",
    "Spot.C89_in_history",
    "Spot.C89_depends_on_unit",
    "Spot.C89_variances_would_not",
    "Spot.C89_zero_std"
   ],
   "note": "findings C89_negative_steps, C89_depends_on_unit, C89_zero_std (assumes sqrt(NaN) = NaN)"
  },
  {
   "property": "C90",
   "status": "proved",
   "theorems": [
    "Spot.C90_from_vectors",
    "Spot.C90_constructed",
    "Spot.C90_rejected",
    "Spot.C90_make_objectives",
    "Spot.C90_optimum_exact",
    "Spot.C90_underflow",
    "Spot.C90_data_objective"
   ],
   "note": "finding C90_underflow; Rastrigin assumes cos(0) = 1, 0 <= pi <= 4 and d < 2^49"
  },
  {
   "property": "C91",
   "status": "proved",
   "theorems": [
    "Spot.C91_strict_weak_iff",
    "Spot.C91_step_sorts",
    "Spot.C91_nan_breaks_sorting"
   ],
   "note": "finding: a NaN fitness can make std::sort undefined in MES and EVA (theorem C91_nan_breaks_sorting)"
  },
  {
   "property": "C92",
   "status": "proved",
   "theorems": [
    "Spot.C92_step_text",
    "Spot.C92_improvements_visible",
    "Spot.C92_stale_best",
    "Spot.C92_defaults"
   ],
   "note": "number formats, average, median, messages and clock are arbitrary functions (formats print no control characters); on_post_evaluate_point is never called, so individual_precision has no effect"
  },
  {
   "property": "C93",
   "status": "proved",
   "theorems": [
    "Spot.C93_message",
    "Spot.C93_history"
   ],
   "note": "the number of errors and the limit are compared as integers (if xo::count_if returns an unsigned number, a limit below 0 would be compared as a huge one)"
  },
  {
   "property": "C94",
   "status": "proved",
   "theorems": [
    "Spot.C94_eva_mean",
    "Spot.C94_mes_mean_without_momentum",
    "Spot.C94_mes_mean",
    "Spot.C94_std",
    "Spot.C94_selected_are_average"
   ],
   "note": "exact arithmetic; for MES with momentum mom_sigma (1 - mean_sigma)^2 < 4 mean_sigma (1 - mom_sigma)"
  },
  {
   "property": "C95",
   "status": "proved",
   "theorems": [
    "Spot.C95_growing",
    "Spot.C95_locking",
    "Spot.C95_locking_later",
    "Spot.C95_wrong_value"
   ],
   "note": "findings: stale search points read out of bounds (C95_growing) or answer with another parameter's value (C95_locking, C95_wrong_value)"
  },
  {
   "property": "C96",
   "status": "proved",
   "theorems": [
    "Spot.C96_like_objective_info",
    "Spot.C96_like_search_point",
    "Spot.C96_load_saved_point",
    "Spot.C96_saved_point",
    "Spot.C96_values_stay",
    "Spot.C96_again",
    "Spot.C96_locked_lost",
    "Spot.C96_null"
   ],
   "note": "finding C96_locked_lost: the file of a point does not contain locked parameters"
  },
  {
   "property": "C97",
   "status": "proved",
   "theorems": [
    "Spot.C97_member_steps",
    "Spot.C97_current_step",
    "Spot.C97_ends",
    "Spot.C97_ends_unpredicted",
    "Spot.C97_limited",
    "Spot.C97_livelock"
   ],
   "note": "finding C97_livelock: predictions that are not numbers"
  },
  {
   "property": "C98",
   "status": "proved",
   "theorems": [
    "Spot.C98_defined",
    "Spot.C98_completes",
    "Spot.C98_bounded",
    "Spot.C98_events",
    "Spot.C98_no_deadlock",
    "Spot.C98_ends",
    "Spot.C98_exception"
   ],
   "note": "C98_defined, C98_completes: for members and populations as in C108 the proviso of C98_no_deadlock and C98_ends (no undefined behaviour in the steps of members) holds."
  },
  {
   "property": "C99",
   "status": "proved",
   "theorems": [
    "Spot.C99_reproduces",
    "Spot.C99_as_given",
    "Spot.C99_distinct",
    "Spot.C99_name",
    "Spot.C99_same_run",
    "Spot.C99_wraps",
    "Spot.C99_collision"
   ],
   "note": "findings C99_wraps (only the value modulo 2^32 counts) and C99_collision (seeds above 2e9 are halved)"
  },
  {
   "property": "C100",
   "status": "proved",
   "theorems": [
    "Spot.C100_targets",
    "Spot.C100_added_later",
    "Spot.C100_improvement",
    "Spot.C100_only_promising",
    "Spot.C100_own_condition"
   ],
   "note": "finding C100_own_condition: a member's own predicted fitness condition shadows the one of the pool"
  },
  {
   "property": "C101",
   "status": "proved",
   "theorems": [
    "Spot.C101_int",
    "Spot.C101_undefined",
    "Spot.C101_monotone",
    "Spot.C101_registers_alike",
    "Spot.C101_converts",
    "Spot.C101_in_bounds",
    "Spot.C101_upper_rare",
    "Spot.C101_zero_wide",
    "Spot.C101_no_bounds",
    "Spot.C101_nine_digits",
    "Spot.C101_bool",
    "Spot.C101_array"
   ],
   "note": "findings C101_upper_rare, C101_zero_wide, C101_no_bounds (undefined behaviour), C101_nine_digits"
  },
  {
   "property": "C102",
   "status": "proved",
   "theorems": [
    "Spot.C102_first",
    "Spot.C102_constructed",
    "Spot.C102_change",
    "Spot.C102_used",
    "Spot.C102_no_effect",
    "Spot.C102_flat_shadowed"
   ],
   "note": "finding C102_flat_shadowed: a flat fitness tolerance of 1e-9 or less has no effect"
  },
  {
   "property": "C103",
   "status": "proved",
   "theorems": [
    "Spot.C103_weights",
    "Spot.C103_never_negative",
    "Spot.C103_run"
   ],
   "note": "floating-point, one zero; assumptions on exp, sqrt, log are Libm.Signs and Libm.LogOk, met by the real functions rounded down (realLibm)"
  },
  {
   "property": "C104",
   "status": "proved",
   "theorems": [
    "Spot.Evaluators.C104_queue",
    "Spot.Evaluators.C104_overtaking",
    "Spot.Evaluators.C104_bounded",
    "Spot.Evaluators.C104_one_thread",
    "Spot.Evaluators.C104_fixed_threads",
    "Spot.Evaluators.C104_async"
   ],
   "note": "Model/PooledEvaluator.lean, Model/Evaluators.lean (the transition systems of C33-C39). C104_queue: the order of arrival exists, is only ever extended, and the queue is its tail. C104_overtaking: bound at every start. C104_bounded: the same stated about the log alone, with at most N workers ever. C104_one_thread: exact order. C104_fixed_threads: executions without set_max_threads and destructor satisfy the hypothesis. C104_async: async_evaluator. The priority argument does not occur in the function bodies and is not a parameter of the model."
  },
  {
   "property": "C105",
   "status": "proved",
   "theorems": [
    "Spot.C105_announced",
    "Spot.C105_files",
    "Spot.C105_names",
    "Spot.C105_lost_file",
    "Spot.C105_used_member"
   ],
   "note": "What reporters of a pool hear, and what its getters return at that time, is the inductive relation Pool.Hears, whose steps are those of Pool.Hist (Pool.Hears.hist). Findings: C105_lost_file, C105_used_member."
  },
  {
   "property": "C106",
   "status": "proved",
   "theorems": [
    "Spot.C106_base_mes_eva",
    "Spot.C106_solution_mes_eva",
    "Spot.C106_run_mes_eva",
    "Spot.C106_base_cma",
    "Spot.C106_solution_cma",
    "Spot.C106_run_cma"
   ],
   "note": "Machine.Step is optimizer::step with the internal_step of the derived class, Machine.Session any calls, Machine.Run run(n). NaN fitnesses excluded for the solution and the run (C22, C94 say what they do). The run theorems are for sessions without set_fitness_tracking_window, after which a condition may throw (C32)."
  },
  {
   "property": "C107",
   "status": "proved",
   "theorems": [
    "Spot.C107_no_parameters",
    "Spot.C107_asserted",
    "Spot.C107_unchecked",
    "Spot.C107_no_options"
   ],
   "note": "A failing xo_assert is modelled as undefined (.ub): in release builds the check may be compiled out. The theorems say for which inputs that is."
  },
  {
   "property": "C108",
   "status": "proved",
   "theorems": [
    "Spot.C108_solution",
    "Spot.C108_algorithms",
    "Spot.C108_run",
    "Spot.C108_run_ends"
   ],
   "note": "C108_solution: any population source within the bounds; C108_algorithms: members that step like MES, EVA or CMA optimizers of the objective; C108_run and C108_run_ends: run of a pool. The objective never returns NaN (see C40/C19 for what happens otherwise); C108_run_ends assumes, like C97, that predictions do not start before the step limit."
  },
  {
   "property": "C109",
   "status": "proved",
   "theorems": [
    "Spot.C109_pool_best",
    "Spot.C109_best_file",
    "Spot.C109_heard",
    "Spot.C109_mes_eva",
    "Spot.C109_cma",
    "Spot.C109_pool_file"
   ],
   "note": "C109_best_file: any history of the base class; C109_heard: when a reporter has heard of a best; C109_mes_eva, C109_cma: complete sessions of the algorithms; C109_pool_file, C109_pool_best: pools (names assumed different, see C105). The info given by make_updated_objective_info has finite means and finite nonzero stds (a zero std would lock the parameter, C12); printing and reading are those of C14/C15 (operator<< with setprecision(8), strtod)."
  },
  {
   "property": "C110",
   "status": "proved",
   "theorems": [
    "Spot.C110_updated_info",
    "Spot.C110_nested_fresh",
    "Spot.C110_nested_used"
   ],
   "note": "The member is the one collected first among those with the best fitness. C110_nested_fresh / C110_nested_used concern optimizer_pool.cpp:99-106 only; the other calls of a pool of pools are in C117."
  },
  {
   "property": "C111",
   "status": "proved",
   "theorems": [
    "Spot.C111_import_values",
    "Spot.C111_from_file",
    "Spot.C111_unreadable",
    "Spot.C111_every_file",
    "Spot.C111_not_rounded"
   ],
   "note": "FileText/BadRec (Spec/ParFile) describe files; C111_every_file: every text is covered by them. The number reader is a parameter; the examples use strtod. Finding: C111_not_rounded."
  },
  {
   "property": "C112",
   "status": "proved",
   "theorems": [
    "Spot.Ref.C112_eigen",
    "Spot.Ref.C112_eigen_real",
    "Spot.Ref.C112_random_numbers",
    "Spot.Ref.C112_parameters",
    "Spot.Ref.C112_calls",
    "Spot.Ref.C112_calls_real",
    "Spot.Ref.C112_optimizer",
    "Spot.Ref.C112_test",
    "Spot.Ref.C112_no_nan",
    "Spot.Ref.C112_steps",
    "Spot.Ref.C112_timing",
    "Spot.Ref.C112_update_before_sampling",
    "Spot.Ref.C112_best"
   ],
   "note": "Model/CRef models cmaes.c independently of Model/Cma (arrays with the flag slots, state counters, timing as a Boolean). In doubles the equality of the parameters needs that the compared values are not NaN (Regular: std::min/std::max and douMin/douMax treat NaN differently); C112_no_nan derives it from the number of variables, the population size and mueff being in range and a libm whose square root of a nonnegative number is not NaN. Findings: C112_timing, C112_update_before_sampling. C112_best: best_fitness is fbestever (up to worst_fitness); on ties the best points may differ and are not compared."
  },
  {
   "property": "C113",
   "status": "proved",
   "theorems": [
    "Spot.Ref.C113_same",
    "Spot.Ref.C113_constructors",
    "Spot.Ref.C113_inverse",
    "Spot.Ref.C113_promises",
    "Spot.Ref.C113_recycling",
    "Spot.Ref.C113_default"
   ],
   "note": "Model/CRefBoundary models boundary_transformation.c as it is: two passes over an output array, index recycling, exit on errors. Not modelled: calls with the same array as input and output, the text of the messages. Findings: C113_constructors (the reference accepts lower > upper), C113_same (message versus exit). C113_recycling and C113_default cover more variables than bounds and no bounds."
  },
  {
   "property": "C114",
   "status": "proved",
   "theorems": [
    "Spot.Evaluators.C114_same",
    "Spot.Evaluators.C114_finite",
    "Spot.Evaluators.C114_no_deadlock",
    "Spot.Evaluators.C114_completes",
    "Spot.Evaluators.C114_local",
    "Spot.Evaluators.C114_runs",
    "Spot.Evaluators.C114_cma_determined",
    "Spot.Evaluators.C114_cma",
    "Spot.Evaluators.C114_mes_eva",
    "Spot.Evaluators.C114_cma_local"
   ],
   "note": "Clients are arbitrary ask/tell threads (Model/SharedPool), in particular optimizer::run of MES, EVA and CMA (Model/SharedRun). C114_same/_local: refinement of running alone, for every evaluator; C114_finite/_no_deadlock/_completes/_runs: termination with a pooled evaluator; C114_cma: the final states are those of running alone. C114_mes_eva: the same for the other classes. interrupt() may come at any time (runClient's quiet says for which optimizers it does not). Termination is for executions without set_max_threads or destruction meanwhile (C36, C37 are about those)."
  },
  {
   "property": "C115",
   "status": "proved",
   "theorems": [
    "Spot.C115_cut_file",
    "Spot.C115_cut_number",
    "Spot.C115_complete",
    "Spot.C115_crash",
    "Spot.C115_stays",
    "Spot.C115_disk_full",
    "Spot.C115_unopened",
    "Spot.C115_history",
    "Spot.C115_history_stop"
   ],
   "note": "Model/FileCrash: a callback is a list of operations create/append/remove on the folder, the text of a file split into pieces in any way; a crash executes a prefix. C115_complete: executing everything is the model of C59/C60/C80. C115_crash, C115_stays (also with failing writes), C115_history, C115_history_stop. Findings: C115_disk_full (stream errors are not checked, the complete file of the best before is removed anyway), C115_cut_file and C115_cut_number (a cut par file is imported without an error). Only crashes of the process are meant: what was handed to the operating system is on the disk. A file that cannot be opened counts as a failing write (C115_unopened). Windows, where an open file cannot be removed, is not modelled."
  },
  {
   "property": "C116",
   "status": "proved",
   "theorems": [
    "Spot.C116_affine",
    "Spot.C116_translation",
    "Spot.C116_unit",
    "Spot.C116_units_mix"
   ],
   "note": "Exact arithmetic (the same generic definitions as the floating-point model, at \u211d), normal distributions that return mean + stdev * z. Another origin: unconditional. Another common unit: the threshold ample_epsilon has to be converted too; without that, and for a unit of one parameter alone, the theorems C116_unit and C116_units_mix give searches that differ."
  },
  {
   "property": "C117",
   "status": "proved",
   "theorems": [
    "Spot.C117_best",
    "Spot.C117_no_best_yet",
    "Spot.C117_monotone",
    "Spot.C117_interrupt",
    "Spot.C117_flat",
    "Spot.C117_stops_iff",
    "Spot.C117_interrupted",
    "Spot.C117_members",
    "Spot.C117_predicts_zero",
    "Spot.C117_target",
    "Spot.C117_unstepped",
    "Spot.C117_stepped"
   ],
   "note": "Model/Nested: the pool of Model/Pool over any kind of member with the virtual functions of optimizer, so that a pool with such members is such a member again; Nest n is an optimizer or a pool nested at most n deep. C117_flat: every history of the pools of C40 is one of this model. Steps that end with an exception are left out here (they are in Model/Pool for one level)."
  },
  {
   "property": "C118",
   "status": "proved",
   "theorems": [
    "Spot.C118_search",
    "Spot.C118_realised",
    "Spot.C118_same",
    "Spot.C118_saved",
    "Spot.C118_division"
   ],
   "note": "Num/SDbl: doubles with both zeros, the rules of IEEE 754 for their signs; the same generic definitions of MES and EVA are run in it. A simulation between two arithmetics (Lemmas/ArithSim), in both directions. sqrt is any function whose result, when zero, has the sign of the argument. CMA is not covered: it uses log, exp and pow."
  },
  {
   "property": "C119",
   "status": "proved",
   "theorems": [
    "Spot.C119_recover",
    "Spot.C119_mes_eva",
    "Spot.C119_cma"
   ],
   "note": "C119_recover: any history of the base class and any position of the reporter in it; C119_mes_eva, C119_cma: sessions of the algorithms with a reporter from the start. The crash is that of C115, what a reader gets is that of C109 (Reproduces). Pools: the names of the files may coincide (C105), so nothing is claimed for them here."
  },
  {
   "property": "C120",
   "status": "proved",
   "theorems": [
    "Spot.C120_step",
    "Spot.C120_played",
    "Spot.C120_solution",
    "Spot.C120_algorithms",
    "Spot.C120_bounded",
    "Spot.C120_no_deadlock",
    "Spot.C120_ends",
    "Spot.C120_realised"
   ],
   "note": "C120_step, C120_played: refinement to the coarse transitions of Model/Pool, in which a member's step is one transition; C120_solution and C120_algorithms then follow from C108 (the objective never returns NaN). C120_bounded, C120_no_deadlock, C120_ends: nobody changes the number of threads of the evaluator during the step (requests may block calls, C36), it has at least one, and members and populations are as in C108. C120_realised: the converse of C120_step. Of the evaluators only the pooled one has shared state (C35, C114)."
  },
  {
   "property": "C121",
   "status": "proved",
   "theorems": [
    "Spot.C121_best",
    "Spot.C121_no_best_yet",
    "Spot.C121_announced",
    "Spot.C121_usable",
    "Spot.C121_step",
    "Spot.C121_gets_worse",
    "Spot.C121_without_exceptions"
   ],
   "note": "members are optimizers; exceptions that are not derived from std::exception in reporters are not modelled; finding C121_gets_worse"
  },
  {
   "property": "C122",
   "status": "proved",
   "theorems": [
    "Spot.C122_state",
    "Spot.C122_results",
    "Spot.C122_run",
    "Spot.C122_callbacks",
    "Spot.C122_members",
    "Spot.C122_start",
    "Spot.C122_par_files",
    "Spot.C122_history_file",
    "Spot.C122_solution_mes_eva",
    "Spot.C122_distribution_mes_eva",
    "Spot.C122_solution_cma",
    "Spot.C122_distribution_cma"
   ],
   "note": "exceptions before the results of the evaluator are there (nothing after that throws except stop conditions, which are results of the model already, and memory); C122_run is for environments that depend on what the optimizer shows; for CMA the calls are exactly those of the steps, so that C53-C57 and C71 apply; C122_par_files leaves out history.txt, which C122_history_file is about: its header is that of the last on_start, so a window set or changed between a step that threw and the first completed one shows in it"
  },
  {
   "property": "C123",
   "status": "proved",
   "theorems": [
    "Spot.C123_settings",
    "Spot.C123_throws",
    "Spot.C123_other_keys",
    "Spot.C123_new",
    "Spot.C123_member",
    "Spot.C123_members",
    "Spot.C123_concurrent",
    "Spot.C123_priorities"
   ],
   "note": "INIT_MEMBER and prop_node::get of xo are assumed: key is the member's name without the underscore, an absent key gives the default, a text that is no value throws; the conversions of texts are arbitrary functions. Initializers are run in the order of declaration, reading a member before its initializer would be undefined behaviour in the model"
  }
 ]
}