{
 "claims": [
  {
   "property": "C01",
   "status": "partial",
   "theorems": [
    "C01_inverse_transform_in_space_partial",
    "C01_refuted_integer_with_float_bounds",
    "C01_refuted_integer_narrow_dtype",
    "C01_refuted_real_narrow_dtype",
    "C01_refuted_categorical_identity"
   ],
   "note": "Proved for every arithmetic with monotone rounding, for dimensions with integer Integer-bounds, dtypes that keep the bounds and decoding categorical transforms; the four refutations show that each restriction is needed."
  },
  {
   "property": "C02",
   "status": "partial",
   "theorems": [
    "C02_round_trip_partial",
    "C02_refuted_duplicate_categories",
    "C02_refuted_mixed_type_categories",
    "C02_refuted_string_beside_number",
    "C02_refuted_boolean_strings"
   ],
   "note": "Proved in exact arithmetic for valid invertible dimensions; false with repeated or mixed-type categories and for string columns beside numeric ones (refuted)."
  },
  {
   "property": "C03",
   "status": "partial",
   "theorems": [
    "C03_shape",
    "C03_layout_partial",
    "C03_refuted_duplicate_categories"
   ],
   "note": "Shape and layout proved for every arithmetic when categories are distinct; false with repeated categories (refuted)."
  },
  {
   "property": "C04",
   "status": "partial",
   "theorems": [
    "C04_transformed_bounds_partial",
    "exact_mono",
    "C04_refuted_integer_log_uniform",
    "C04_refuted_real_log_uniform_base",
    "C04_refuted_categorical_label",
    "C04_refuted_categorical_identity"
   ],
   "note": "Proved for every monotone arithmetic for the combinations where the code's bounds are right; the remaining combinations are refuted."
  },
  {
   "property": "C05",
   "status": "proved",
   "theorems": [
    "C05_rvs_in_space",
    "C05_rvs_returns"
   ],
   "note": "For every raw draw of the generator; same validity hypotheses on dimensions as C01."
  },
  {
   "property": "C06",
   "status": "proved",
   "theorems": [
    "C06_distance_is_metric",
    "C06_distance_rejects"
   ],
   "note": "Exact real arithmetic for the metric laws; rejection for every arithmetic."
  },
  {
   "property": "C07",
   "status": "partial",
   "theorems": [
    "C07_point_accepted_iff_partial",
    "C07_batch_accepted_iff",
    "C07_rejection_kind",
    "C07_refuted_integer_accepts_fraction",
    "C07_refuted_empty_point",
    "C07_refuted_tuple_categories"
   ],
   "note": "Characterised exactly for non-empty points without nested sequences; false as stated: Integer accepts fractions, the empty point passes, points made of tuple categories are read as a batch."
  },
  {
   "property": "C08",
   "status": "proved",
   "theorems": [
    "C08_halton_restores",
    "C08_lhs_restores",
    "C08_grid_restores",
    "C08_sobol_restores"
   ],
   "note": "every arithmetic, every mixture of transforms; C08_note_raising_call_leaves_normalized shows the restoring is not exception-safe"
  },
  {
   "property": "C09",
   "status": "partial",
   "theorems": [
    "C09_equality_partial",
    "C09_refuted_prefix",
    "C09_refuted_symmetry",
    "C09_refuted_same_points",
    "C09_equality_exact"
   ],
   "note": "Holds for spaces of the same length (kinds agree, reflexive); false in general: a space equals every extension of itself, equality is not symmetric and does not imply the same points."
  },
  {
   "property": "C10",
   "status": "partial",
   "theorems": [
    "C10_check_dimension_partial",
    "C10_refuted_mixed_bounds_with_prior",
    "C10_refuted_numpy_bounds_with_prior",
    "C10_kinds_partial"
   ],
   "note": "All documented forms with plain Python bounds; mixed int/float bounds with a prior become Integer, numpy bounds with a prior become Categorical."
  },
  {
   "property": "C11",
   "status": "partial",
   "theorems": [
    "C11_lookup_partial",
    "C11_refuted_default_names"
   ],
   "note": "Explicit distinct names; default names X_i cannot be looked up."
  },
  {
   "property": "C12",
   "status": "proved",
   "theorems": [
    "C12_point_dict_round_trip"
   ],
   "note": ""
  },
  {
   "property": "C13",
   "status": "proved",
   "theorems": [
    "C13_use_named_args"
   ],
   "note": ""
  },
  {
   "property": "C14",
   "status": "proved",
   "theorems": [
    "C14_normalize_isomorphism",
    "C14_normalize_integer",
    "C14_normalize_monotone_rounded",
    "C14_refuted_tolerance_round_trip"
   ],
   "note": "Exact arithmetic for the bijection; weak monotonicity and range for every monotone rounding. The refutation shows that the tolerance zone outside the interval is not invertible (outside the claim)."
  },
  {
   "property": "C15",
   "status": "proved",
   "theorems": [
    "C15_pipeline_inverse",
    "C15_pipeline_error"
   ],
   "note": "Every arithmetic."
  },
  {
   "property": "C16",
   "status": "proved",
   "theorems": [
    "C16_one_hot_encoding",
    "C16_one_hot_decoding_total",
    "C16_one_hot_robust"
   ],
   "note": ""
  },
  {
   "property": "C17",
   "status": "partial",
   "theorems": [
    "C17_label_encoding",
    "C17_mixed_labels_partial",
    "C17_refuted_mixed_batch"
   ],
   "note": "Proved for categories of one type, and for mixed categories containing a value that is neither number nor string, for batches that contain such a value; other batches of mixed categories are converted to strings by numpy, and encoding them raises (refuted)."
  },
  {
   "property": "C18",
   "status": "proved",
   "theorems": [
    "C18_sieve_correct",
    "C18_first_primes"
   ],
   "note": "_create_primes returns exactly the primes; the first n primes are used as bases"
  },
  {
   "property": "C19",
   "status": "proved",
   "theorems": [
    "C19_van_der_corput",
    "C19_bad_base_refused"
   ],
   "note": "entries are radical inverses, for all bases >= 2 and indices"
  },
  {
   "property": "C20",
   "status": "proved",
   "theorems": [
    "C20_stratified",
    "C20_halton_columns_stratified"
   ],
   "note": "every block of b^k consecutive indices"
  },
  {
   "property": "C21",
   "status": "partial",
   "theorems": [
    "C21_halton_partial",
    "C21_hammersly_partial",
    "C21_refuted_negative_skip",
    "C21_refuted_half_negative_range",
    "C21_refuted_hammersly_bases",
    "C21_refuted_zero_max_skip"
   ],
   "note": "proved for nonnegative skips and enough bases; refuted for negative skips and for user-given bases"
  },
  {
   "property": "C22",
   "status": "proved",
   "theorems": [
    "C22_one_sample_per_stratum",
    "C22_generate_is_image",
    "C22_generate_succeeds"
   ],
   "note": "classic and centered type, all draws"
  },
  {
   "property": "C23",
   "status": "partial",
   "theorems": [
    "C23_maximin_partial",
    "C23_ratio_partial",
    "C23_correlation_partial",
    "C23_refuted_first_design_never_compared",
    "C23_refuted_correlation"
   ],
   "note": "best among the designs of the loop; the initial design is never compared; correlation ignores entries equal to 1"
  },
  {
   "property": "C24",
   "status": "partial",
   "theorems": [
    "C24_sobol_stratified_partial",
    "C24_refuted_k_30"
   ],
   "note": "k <= 29; the last of the 2^30 points raises"
  },
  {
   "property": "C25",
   "status": "partial",
   "theorems": [
    "C25_history_independent_partial",
    "C25_any_seed",
    "C25_refuted_dimension_change",
    "C25_refuted_skip_changed",
    "C25_refuted_skip_budget",
    "C25_lifetime_budget"
   ],
   "note": "fixed dimension and skip; refuted when they change between calls"
  },
  {
   "property": "C26",
   "status": "proved",
   "theorems": [
    "C26_random_shift",
    "C26_sobol_in_space",
    "C26_skip_accepted"
   ],
   "note": "exact arithmetic"
  },
  {
   "property": "C27",
   "status": "partial",
   "theorems": [
    "C27_grid_count_partial",
    "C27_grid_succeeds",
    "C27_refuted_one_dimension"
   ],
   "note": "two or more dimensions; too few points in one dimension"
  },
  {
   "property": "C28",
   "status": "partial",
   "theorems": [
    "C28_full_product",
    "C28_exclude_border",
    "C28_include_border",
    "C28_only_border_partial",
    "C28_refuted_border_only",
    "C28_refuted_only_one_dimension",
    "C28_layouts_exist"
   ],
   "note": "border='only' builds the layout without border points"
  },
  {
   "property": "C29",
   "status": "partial",
   "theorems": [
    "C29_tell_records_history_partial",
    "C29_refuted_length_mismatch",
    "C29_refuted_list_of_points_with_scalar",
    "C29_refuted_per_second_array"
   ],
   "note": "Proved for every sequence of documented calls whose points are not made of lists only; batches must carry as many values as points. The refutations show what the code accepts outside of that."
  },
  {
   "property": "C30",
   "status": "partial",
   "theorems": [
    "C30_first_best_partial",
    "C30_result_exists",
    "C30_tell_returns_result",
    "C30_refuted_nan"
   ],
   "note": "Proved when no recorded value is NaN; a NaN is accepted and then reported as the best value."
  },
  {
   "property": "C31",
   "status": "partial",
   "theorems": [
    "C31_initial_phase_partial",
    "C31_model_phase",
    "C31_no_suggestion_before_fit",
    "C31_batch_follows_design",
    "C31_ask_answers",
    "C31_refuted_short_design",
    "C31_note_dummy_with_design"
   ],
   "note": "Proved for designs of the requested size; refuted for a generator that returns fewer points (1-D Grid). Model phase proved for every sequence of calls, including that ask answers after a fitting tell."
  },
  {
   "property": "C32",
   "status": "proved",
   "theorems": [
    "C32_ask_repeatable",
    "C32_ask_changes_nothing"
   ],
   "note": "All optimizers, all states reachable by any calls."
  },
  {
   "property": "C33",
   "status": "partial",
   "theorems": [
    "C33_suggestions_in_space_partial",
    "C33_refuted_fractional_bounds",
    "C33_minimize_partial"
   ],
   "note": "Every surrogate, acquisition function, transform, random outcome and sequence of calls, for dimensions whose bounds and dtype fit together; false for Integer with fractional bounds (proved)."
  },
  {
   "property": "C34",
   "status": "proved",
   "theorems": [
    "C34_batch_size",
    "C34_batch_isolated",
    "C34_batch_cached",
    "C34_tell_invalidates",
    "C34_batch_refused"
   ],
   "note": ""
  },
  {
   "property": "C35",
   "status": "partial",
   "theorems": [
    "C35_lies_are_extreme_partial",
    "C35_lies_are_mean_partial",
    "C35_lies_without_history_partial",
    "C35_refuted_per_second"
   ],
   "note": "Proved for acquisition functions without time; refuted for the per-second ones, where logarithms of times are mixed into the aggregate."
  },
  {
   "property": "C36",
   "status": "partial",
   "theorems": [
    "C36_queue_bounded",
    "C36_queue_contents_partial",
    "C36_model_fitted_on_history",
    "C36_refuted_size_zero"
   ],
   "note": "Proved for queue sizes of at least one and for unbounded queues; a size of zero raises."
  },
  {
   "property": "C37",
   "status": "partial",
   "theorems": [
    "C37_rejected_tell_changes_nothing_partial",
    "C37_refused_inputs",
    "C37_refused_batches",
    "C37_refuted_too_many_values",
    "C37_refuted_nan"
   ],
   "note": "A tell refused by the input checks changes nothing; other malformed inputs are accepted or fail after the history has changed."
  },
  {
   "property": "C38",
   "status": "partial",
   "theorems": [
    "C38_copy_same_state",
    "C38_copy_independent_partial",
    "C38_refuted_sobol_skip",
    "C38_queue_size_dropped"
   ],
   "note": "Proved for generators without own state; refuted for a Sobol generator with skip."
  },
  {
   "property": "C39",
   "status": "proved",
   "theorems": [
    "C39_batch_equals_sequential"
   ],
   "note": ""
  },
  {
   "property": "C40",
   "status": "partial",
   "theorems": [
    "C40_result_prefix_partial",
    "C40_refuted_x_iters_grow"
   ],
   "note": "The result's function values are a stable record; its list of points is the optimizer's own list and grows afterwards."
  },
  {
   "property": "C41",
   "status": "partial",
   "theorems": [
    "C41_optimum_ignores_times_partial",
    "C41_refuted_incumbent_mixes_times"
   ],
   "note": "The reported optimum ignores times; the incumbent handed to the acquisition function does not."
  },
  {
   "property": "C42",
   "status": "partial",
   "theorems": [
    "C42_exact_budget_partial",
    "C42_number_of_evaluations",
    "C42_result_records_partial",
    "C42_refuted_negative_initial_points"
   ],
   "note": "Exact budget holds when n_initial_points is not negative; a negative n_initial_points exceeds it (refuted with a witness)."
  },
  {
   "property": "C43",
   "status": "proved",
   "theorems": [
    "C43_callbacks_observe_and_stop",
    "C43_no_evaluation_after_stop"
   ],
   "note": "Every callback sees every result, once per step; no objective call follows a stop."
  },
  {
   "property": "C44",
   "status": "partial",
   "theorems": [
    "C44_refused_without_evaluation_partial",
    "C44_returns_observation",
    "C44_refuted_outside_space",
    "C44_value_error",
    "C44_values_without_points"
   ],
   "note": "The listed invalid arguments are refused before any evaluation; starting points outside the space are evaluated before being refused when y0 is absent."
  },
  {
   "property": "C45",
   "status": "partial",
   "theorems": [
    "C45_dummy_budget_partial",
    "C45_refuted_single_point",
    "C45_refuted_single_point_many_dims",
    "C45_refuted_too_many_points"
   ],
   "note": "Holds without x0; with x0 the length of a flat point is used as a number of points."
  },
  {
   "property": "C46",
   "status": "partial",
   "theorems": [
    "C46_arguments_unchanged_partial",
    "C46_refuted_verbose",
    "C46_refuted_gp"
   ],
   "note": "Unchanged for non-GP estimators and verbose off; both restrictions are necessary."
  },
  {
   "property": "C47",
   "status": "proved",
   "theorems": [
    "C47_deltaY",
    "C47_zero_means_all"
   ],
   "note": "All histories including NaN, all n_best >= 1, for every arithmetic with monotone subtraction."
  },
  {
   "property": "C48",
   "status": "partial",
   "theorems": [
    "C48_hollow_partial",
    "C48_refuted_nan"
   ],
   "note": "Exact criterion for histories of numbers; after a NaN value the stopper never stops (refuted)."
  },
  {
   "property": "C49",
   "status": "proved",
   "theorems": [
    "C49_threshold",
    "C49_deltaX",
    "C49_threshold_ends_run"
   ],
   "note": "Threshold: every arithmetic, NaN included; DeltaX in exact arithmetic on points of the space."
  },
  {
   "property": "C50",
   "status": "proved",
   "theorems": [
    "C50_deadline"
   ],
   "note": "Exact arithmetic over the clock readings; the time between the two readings of one call is accounted for explicitly."
  },
  {
   "property": "C51",
   "status": "proved",
   "theorems": [
    "C51_candidates_per_subspace",
    "C51_refused"
   ],
   "note": "scikit-learn's evaluation is a parameter (Faithful: reports the scores of all candidates in order); a search that returns."
  },
  {
   "property": "C52",
   "status": "partial",
   "theorems": [
    "C52_total_iterations_partial",
    "C52_refuted_single_dict",
    "C52_dict_total"
   ],
   "note": "Proved for lists of spaces; false for a single dict (n_iter times the number of parameters instead of n_iter): refuted with a witness."
  },
  {
   "property": "C53",
   "status": "partial",
   "theorems": [
    "C53_expected_improvement_partial",
    "C53_probability_of_improvement_partial",
    "C53_lower_confidence_bound",
    "C53_ei_monotone",
    "C53_pi_monotone",
    "C53_acquisition_partial",
    "C53_refuted_ei_zero_std",
    "C53_refuted_pi_zero_std",
    "C53_model_fits",
    "C53_prediction_shapes",
    "C53_shapes"
   ],
   "note": "Proved at all rows with positive predicted standard deviation, in exact arithmetic. At rows with standard deviation zero the code returns 0 even when improvement is certain, so the general statement is false (refuted with a witness). The per-second factor is the expectation of 1/t for log-normal t, not 1/E(t) as the code comment says."
  },
  {
   "property": "C54",
   "status": "proved",
   "theorems": [
    "C54_acquisition_gradient",
    "C54_same_value"
   ],
   "note": "Exact arithmetic; rows with positive standard deviation, as the property says; the surrogate's gradients are assumed to be the derivatives of its predictions."
  },
  {
   "property": "C55",
   "status": "partial",
   "theorems": [
    "C55_kernel_gradient",
    "C55_gradient_available_partial",
    "C55_refuted_three_factors",
    "C55_refuted_matern_half_product",
    "C55_refuted_matern_half_kink"
   ],
   "note": "Every gradient that is returned is right where the kernel is differentiable; it is not available (ValueError) for nested products, powers inside products and Matern nu=1/2 inside a product."
  },
  {
   "property": "C56",
   "status": "proved",
   "theorems": [
    "C56_hamming_values",
    "C56_hamming_covariance",
    "C56_hamming_gradient",
    "C56_hamming_gradient_isotropic",
    "C56_hamming_call_gradient"
   ],
   "note": ""
  },
  {
   "property": "C57",
   "status": "partial",
   "theorems": [
    "C57_posterior",
    "C57_mean_gradient",
    "C57_std_gradient_partial",
    "C57_noise_free_partial",
    "C57_refuted_linear_std_gradient",
    "C57_refuted_second_fit",
    "C57_refuted_std_gradient_alone",
    "C57_first_noise_removed",
    "C57_prior_variance"
   ],
   "note": "Posterior mean, std and gradients proved; std gradient refuted for linear kernels; noise removal refuted for a second fit of the same object."
  },
  {
   "property": "C58",
   "status": "proved",
   "theorems": [
    "C58_forest_std_is_mixture_std",
    "C58_forest_std_floor",
    "C58_forest_certain_iff",
    "C58_forest_criterion"
   ],
   "note": "trees and the forest mean are what scikit-learn provides; over the reals"
  },
  {
   "property": "C59",
   "status": "proved",
   "theorems": [
    "C59_branin_minimum",
    "C59_bench_minima",
    "C59_bench3_minimum"
   ],
   "note": "Branin, and also the one- and two-dimensional benchmarks with their documented minima (bench3: exactly one global minimiser, -0.3 and -0.9 to one decimal)."
  },
  {
   "property": "C60",
   "status": "proved",
   "theorems": [
    "C60_hedge_distribution",
    "C60_hedge_preference",
    "C60_hedge_shift",
    "C60_hedge_choice"
   ],
   "note": "over the reals; multinomial draw is a parameter"
  },
  {
   "property": "C61",
   "status": "proved",
   "theorems": [
    "C61_convergence_trace",
    "C61_convergence_many",
    "C61_regret_trace"
   ],
   "note": "numeric histories without NaN; regret over the reals"
  },
  {
   "property": "C62",
   "status": "partial",
   "theorems": [
    "C62_clip_changes_nothing_partial",
    "C62_suggestion_minimises_acquisition_partial",
    "C62_refuted_integer_log_uniform",
    "C62_suggestion_within_bounds"
   ],
   "note": "Holds for dimensions whose transformed bounds are correct (GoodBounds) in real arithmetic. False in general: Integer log-uniform with the identity transform reports untransformed bounds, so that the optimizer's clip moves every candidate to the upper bound."
  },
  {
   "property": "C63",
   "status": "partial",
   "theorems": [
    "C63_constructor_partial",
    "C63_refuted_trees_per_second",
    "C63_refuted_categorical_per_second",
    "C63_refuted_other_regressor",
    "C63_refuted_auto_on_categories",
    "C63_refuted_dummy_per_second",
    "C63_surrogate"
   ],
   "note": "Proved for acquisition functions that are not per second and skopt's own estimators; refuted for per-second functions, foreign regressors and own kernels on categorical spaces."
  },
  {
   "property": "C64",
   "status": "proved",
   "theorems": [
    "C64_candidates_belong_to_subspace"
   ],
   "note": "For generators that keep the ranges of dimensions (all bundled ones do)."
  },
  {
   "property": "C65",
   "status": "partial",
   "theorems": [
    "C65_stop_ends_subspace_partial",
    "C65_refuted_two_subspaces"
   ],
   "note": "Holds within one subspace; false across subspaces since `break` leaves only the inner loop."
  },
  {
   "property": "C66",
   "status": "partial",
   "theorems": [
    "C66_results_per_subspace_partial",
    "C66_refuted_stale_result",
    "C66_refuted_first_without_iterations"
   ],
   "note": "Holds for positive n_iter; for (space, 0) the previous entry is repeated or UnboundLocalError is raised."
  },
  {
   "property": "C67",
   "status": "partial",
   "theorems": [
    "C67_transform_pointwise_partial",
    "C67_inverse_pointwise_partial",
    "C67_refuted_mixed"
   ],
   "note": "Proved for homogeneous categories; with categories of mixed types numpy converts the column to strings and the encoding of a point depends on the rest of the batch (refuted)."
  },
  {
   "property": "C68",
   "status": "partial",
   "theorems": [
    "C68_tell_returns_partial",
    "C68_ask_tell_returns_partial",
    "C68_every_call_returns_partial",
    "C68_refuted_dummy_with_generator",
    "C68_refuted_queue_size_zero",
    "C68_refuted_identity_categorical",
    "C68_ask_answers_iff",
    "C68_fit_recovers"
   ],
   "note": "Full statement fails: with base_estimator='dummy' and an initial point generator ask() raises IndexError after the initial points; a model queue of size 0 is accepted but the first fit raises; with an identity-transformed categorical dimension and L-BFGS ask() raises RuntimeError (all proved). Proved in exact arithmetic under the stated promises of third-party calls for the constructor, tell (single, batch), ask(), ask(n), update_next() and get_result(), in all acquisition modes. With tell(fit=False) the exact condition under which ask() answers instead of raising RuntimeError is proved (C68_ask_answers_iff)."
  },
  {
   "property": "C69",
   "status": "partial",
   "theorems": [
    "C69_largest_expected_improvement_partial",
    "C69_largest_improvement_probability_partial",
    "C69_smallest_lower_confidence_bound_partial",
    "C69_refuted_per_second_incumbent"
   ],
   "note": "Exact real arithmetic, plain (not per-second) observations, dimensions with default dtype and correct transformed bounds; false in the per-second modes (refuted)."
  },
  {
   "property": "C70",
   "status": "partial",
   "theorems": [
    "C70_gbrt_std",
    "C70_gbrt_quantiles",
    "C70_gbrt_std_nonneg_partial",
    "C70_refuted_negative_std",
    "C70_refuted_array_quantiles",
    "C70_missing_quantiles"
   ],
   "note": "std is negative where fitted quantiles cross; numpy arrays of quantiles fail although documented as array-like"
  },
  {
   "property": "C71",
   "status": "proved",
   "theorems": [
    "C71_map_categories",
    "C71_evenly_sample_categories",
    "C71_evenly_sample_numbers"
   ],
   "note": "exact arithmetic for linspace"
  },
  {
   "property": "C72",
   "status": "partial",
   "theorems": [
    "C72_kernel_matches_columns_partial",
    "C72_refuted_per_second"
   ],
   "note": "Refuted for per-second acquisition functions with dimensions given as tuples or lists with three or more categories."
  },
  {
   "property": "C73",
   "status": "partial",
   "theorems": [
    "C73_partial_dependence_1D_partial",
    "C73_partial_dependence_2D_partial",
    "C73_refuted_negative_index",
    "C73_refuted_integer_axis",
    "C73_integer_samples_partial",
    "C73_refuted_integer_samples",
    "C73_returns_1D_partial",
    "C73_returns_2D_partial"
   ],
   "note": "Proved for non-negative indices and samples not encoded as strings, in exact arithmetic; refuted for negative indices (the slice of the last dimension is empty) and for the axis of Integer dimensions (fractions). For all-Integer spaces with the identity transform the samples are an integer array and the axis value loses its fraction (C73_integer_samples_partial, C73_refuted_integer_samples)."
  },
  {
   "property": "C74",
   "status": "partial",
   "theorems": [
    "C74_expected_minimum_partial",
    "C74_random_sampling",
    "C74_all_nan_raises",
    "C74_refuted_integer",
    "C74_refuted_categorical"
   ],
   "note": "Sampling proved in full. The minimiser-based variant is proved for Real dimensions and up to integrality for Integer ones (refuted: non-integers are returned); for spaces with categories the best point observed is not among the samples (refuted in general)."
  },
  {
   "property": "C75",
   "status": "partial",
   "theorems": [
    "C75_real_uniform",
    "C75_real_log_uniform",
    "C75_integer_uniform_partial",
    "C75_integer_log_uniform",
    "C75_categorical_partial",
    "C75_coordinates_independent",
    "C75_refuted_integer_normalize",
    "C75_refuted_integer_normalize_bounds",
    "C75_refuted_categorical_prior_ignored",
    "C75_refuted_categorical_normalize",
    "C75_samples_independent",
    "C75_sampler_law"
   ],
   "note": "False with the normalizing transform (the one a Gaussian process sets): the bounds of an Integer have half the probability of the others, and the prior of a Categorical is ignored. Proved for Real (both transforms), Integer (identity; log-uniform: law of the rounded number, both transforms), Categorical (other transforms), and independence across dimensions."
  },
  {
   "property": "C76",
   "status": "partial",
   "theorems": [
    "C76_minimize_returns_partial",
    "C76_gp_minimize_partial",
    "C76_forest_minimize_partial",
    "C76_gbrt_minimize_partial",
    "C76_dummy_minimize_partial",
    "C76_refuted_identity_category",
    "C76_refuted_dummy_with_generator"
   ],
   "note": "Proved for all acquisition functions (with the per-second ones the objective returns a value and a positive time) over exact reals, assuming that the numeric libraries succeed. False without the two restrictions: surrogate-free search with generated initial points (C76_refuted_dummy_with_generator), and a categorical dimension with the identity transform beside a number (C76_refuted_identity_category)."
  },
  {
   "property": "C77",
   "status": "partial",
   "theorems": [
    "C77_gp_minimize",
    "C77_forest_minimize",
    "C77_gbrt_minimize_partial",
    "C77_refuted_gbrt_acq_optimizer"
   ],
   "note": "Full for gp_minimize and forest_minimize. gbrt_minimize accepts any acq_optimizer because it ignores the parameter (proved)."
  },
  {
   "property": "C78",
   "status": "partial",
   "theorems": [
    "C78_plot_evaluations_partial",
    "C78_plot_objective_partial",
    "C78_plot_objective_2D_partial",
    "C78_marked_point",
    "C78_plot_histogram",
    "C78_log_edges",
    "C78_refuted_constant_dimension",
    "C78_refuted_selection",
    "C78_refuted_number_of_bins",
    "C78_plot_histogram_unknown",
    "C78_plot_objective_returns_partial",
    "C78_marked_point_refused",
    "C78_diagonal_limits"
   ],
   "note": "plot_evaluations looks up whether a plotted dimension is categorical by its position among the plotted dimensions instead of its position in the space: it raises or draws wrong bins when a categorical dimension is shifted by a constant or unselected one (refuted); proved for all other choices. Log-uniform histograms have one bin less than requested (refuted). plot_objective for numeric encodings."
  },
  {
   "property": "C79",
   "status": "partial",
   "theorems": [
    "C79_models_fitted_to_prefixes",
    "C79_default_view",
    "C79_earlier_view",
    "C79_earlier_view_partial",
    "C79_drawing_partial",
    "C79_refuted_earlier_view",
    "C79_refuted_lcb_sign",
    "C79_refuted_kappa",
    "C79_refuted_categorical"
   ],
   "note": "The list of surrogates and the default view are proved in full. n_calls=k shows one observation fewer than the shown surrogate was fitted to unless n_random_starts is among the call specifications (refuted; proved to be so for every run). The curve labelled LCB(x) has the wrong sign and xi/kappa of the run are ignored (refuted). Drawing proved for one numeric dimension. Categorical dimensions: the label and string transforms raise AttributeError, one-hot rows are flattened (C79_refuted_categorical)."
  },
  {
   "property": "C80",
   "status": "partial",
   "theorems": [
    "C80_nothing_changed",
    "C80_round_trip",
    "C80_objective_not_stored",
    "C80_dump_succeeds_partial",
    "C80_refuted_unserializable",
    "C80_without_specs",
    "C80_plain_results"
   ],
   "note": "Round trip, aliasing and untouched originals proved in full over a model of the heap, with copying and pickling as isomorphic copies. False: dumping without the objective raises when the objective cannot be deep-copied."
  },
  {
   "property": "C81",
   "status": "partial",
   "theorems": [
    "C81_names",
    "C81_parameters_partial",
    "C81_object",
    "C81_refuted_unknown_parameter",
    "C81_refuted_random_parameters"
   ],
   "note": "Names, defaults, parameters and objects proved in full; unknown parameters and parameters of 'random' are accepted silently (refuted)."
  },
  {
   "property": "C82",
   "status": "partial",
   "theorems": [
    "C82_invocations",
    "C82_verbose_partial",
    "C82_timer",
    "C82_refuted_random_label",
    "C82_refuted_starting_points",
    "C82_refuted_given_values"
   ],
   "note": "The console theorem is for calls without starting points; with starting points numbers and descriptions are wrong, which is proved with concrete runs."
  },
  {
   "property": "C83",
   "status": "partial",
   "theorems": [
    "C83_callbacks_see_everything_partial",
    "C83_checkpoint_partial",
    "C83_resume_partial",
    "C83_refuted_per_second",
    "C83_resume_completes_partial"
   ],
   "note": "Points are assumed to have a coordinate that is not itself a sequence (otherwise tell takes a point for a batch); resuming in the per-second modes is refuted; the bytes of the file are not modelled."
  },
  {
   "property": "C84",
   "status": "proved",
   "theorems": [
    "C84_hart6"
   ],
   "note": "Real arithmetic."
  },
  {
   "property": "C85",
   "status": "partial",
   "theorems": [
    "C85_one_regressor_per_quantile",
    "C85_refusal",
    "C85_reproducible_partial",
    "C85_refuted_base_changed",
    "C85_refuted_base_seed_ignored"
   ],
   "note": "The object passed as base_estimator is changed (its random_state is overwritten) and its seed is ignored."
  },
  {
   "property": "C86",
   "status": "partial",
   "theorems": [
    "C86_arithmetic_partial",
    "C86_refuted_gradient"
   ],
   "note": "The covariance is right for every expression; gradients of products with more than two factors raise."
  },
  {
   "property": "C87",
   "status": "proved",
   "theorems": [
    "C87_gains",
    "C87_lower_predictions_preferred"
   ],
   "note": "C87_gains holds in any arithmetic (the subtractions are folded in order); the sum form and the preference are over the reals. Only the tells have to return."
  },
  {
   "property": "C88",
   "status": "proved",
   "theorems": [
    "C88_lbfgs_no_worse_than_sampling"
   ],
   "note": "Any arithmetic with orderly rounding. The clip to the transformed bounds is part of the statement (it does nothing to a result inside them; see C62 for spaces whose transformed bounds are wrong)."
  },
  {
   "property": "C89",
   "status": "partial",
   "theorems": [
    "C89_set_transformer_partial",
    "C89_refuted_failed_change",
    "C89_models_agree",
    "C89_exceptions",
    "C89_bounds_agree"
   ],
   "note": "Proved for calls that return, together with the exact condition for raising. False for calls that raise: the transforms are left half changed and transform_ may disagree with the installed transformer."
  },
  {
   "property": "C90",
   "status": "partial",
   "theorems": [
    "C90_from_yaml_partial",
    "C90_refuted_unknown_class",
    "C90_refuted_documented_example",
    "C90_missing_namespace"
   ],
   "note": "Proved for files whose entries name Real, Integer or Categorical. Entries naming anything else are silently dropped; the docstring's own example raises AttributeError."
  },
  {
   "property": "C91",
   "status": "partial",
   "theorems": [
    "C91_recovery_partial",
    "C91_refuted_gp_hedge"
   ],
   "note": "Proved for EI, LCB, PI, EIps, PIps; false for gp_hedge (the default): `next_xs_ = []` before a failing search makes every later `np.vstack(next_xs_)` raise ValueError, for ever."
  },
  {
   "property": "C92",
   "status": "partial",
   "theorems": [
    "C92_convergence_figure_partial",
    "C92_regret_figure_partial",
    "C92_refuted_zero",
    "C92_refuted_legend",
    "C92_refuted_no_arguments"
   ],
   "note": "Curves, colours, labels and the line proved exactly in real arithmetic. False: a true minimum of 0 is not drawn; the legend depends on the label of the last argument only; a call without arguments raises UnboundLocalError."
  },
  {
   "property": "C93",
   "status": "partial",
   "theorems": [
    "C93_run_is_ask_tell",
    "C93_run_continues",
    "C93_objective_raises",
    "C93_run_history_partial",
    "C93_run_returns_partial",
    "C93_refuted_zero"
   ],
   "note": "The refinement, the splitting law and the exception case hold for every state and objective. History: for points not made of lists only. Completion: n ≥ 1, under the assumptions of C68 about third-party calls. run(func, 0) on a fresh optimizer raises ValueError."
  },
  {
   "property": "C94",
   "status": "partial",
   "theorems": [
    "C94_round_trip_rounded_partial",
    "C94_exact_round_trip_partial",
    "C94_distinct_encodings_partial",
    "C94_double_round_trip_partial",
    "binArith_floatLike",
    "C94_refuted_wide"
   ],
   "note": "Missing: the string encoding (false, see C02), dtypes of Real other than the default, overflow and subnormal numbers in the concrete arithmetic, math libraries whose log10 and pow are not monotone. False of integer ranges around 2^53, where different points share an encoding."
  },
  {
   "property": "C95",
   "status": "partial",
   "theorems": [
    "C95_best_agrees_partial",
    "C95_subspace_best_partial",
    "C95_refuted_nan"
   ],
   "note": "Finite scores and subspaces with iterations only. With error_score=nan a failed candidate is reported as the best by optimizer_results_ (C95_refuted_nan). scikit-learn's choice of best_index_ is specified, not modelled; negation is assumed strictly decreasing (true of floats)."
  },
  {
   "property": "C96",
   "status": "proved",
   "theorems": [
    "C96_minimize_is_run",
    "C96_minimize_with_starts",
    "C96_silent_callbacks"
   ],
   "note": "The arguments are supposed to pass the checks of base_minimize (numbers of points, callback type, lengths of the starting points); what happens otherwise is C82."
  },
  {
   "property": "C97",
   "status": "proved",
   "theorems": [
    "C97_halton_boxes",
    "C97_halton_default",
    "C97_halton_space",
    "C97_hammersly_boxes",
    "C97_needs_coprime_bases"
   ],
   "note": "Exact arithmetic. C97_needs_coprime_bases: user-supplied bases that are not coprime (accepted by the code) do not have the property, as the statement says."
  },
  {
   "property": "C98",
   "status": "proved",
   "theorems": [
    "C98_sobol_boxes",
    "C98_sobol_strata",
    "C98_only_first_two"
   ],
   "note": "Exact arithmetic, without the random shift (with the shift the boxes move along, see C26). C98_only_first_two shows that the claim cannot be extended to every pair of coordinates."
  },
  {
   "property": "C99",
   "status": "proved",
   "theorems": [
    "C99_best_predictor",
    "C99_at_most_prior",
    "C99_at_observation",
    "C99_more_data"
   ],
   "note": "Exact real arithmetic; scikit-learn's Cholesky factor is a parameter (an invertible L with L·Lᵀ the training covariance). C99_more_data compares fits with the same kernel: refitting the hyperparameters may of course change the uncertainty."
  },
  {
   "property": "C100",
   "status": "partial",
   "theorems": [
    "C100_prior_covariance_partial",
    "C100_factor_exists_partial",
    "C100_posterior_covariance_partial",
    "C100_refuted_periodic"
   ],
   "note": "Exact real arithmetic. Excluded: ExpSineSquared with more than one coordinate (refuted: no Cholesky factor), Matérn kernels with other nu, powers with exponents that are no natural numbers. The values of the kernels are scikit-learn's."
  },
  {
   "property": "C101",
   "status": "partial",
   "theorems": [
    "C101_same_search_partial",
    "C101_same_minimum_partial",
    "C101_same_design_partial",
    "C101_refuted_log_base",
    "C101_refuted_integer_shift",
    "C101_refuted_category_order"
   ],
   "note": "Exact real arithmetic. Changes of unit only for dimensions the surrogate sees normalized (all of them for Gaussian processes). Refuted: the base of the logarithm for other surrogates (suggestions are clipped to decimal logarithms), Integer ranges shifted by an odd number (np.round rounds half to even), respelling that changes the alphabetical order of normalized categories. That scipy's draws depend only on the distribution and its parameters is a hypothesis."
  },
  {
   "property": "C102",
   "status": "partial",
   "theorems": [
    "C102_full_layout_exclude_partial",
    "C102_full_layout_include_partial",
    "C102_larger_layout",
    "C102_distinct_partial",
    "C102_refuted_three_dimensions",
    "C102_refuted_distinct"
   ],
   "note": "Exact arithmetic, uniform Real dimensions. use_full_layout=True gives the full design in two dimensions; in three the code still takes the square root of n per dimension and keeps random points of a larger design (refuted). Distinctness holds for the default border and for use_full_layout=False; with border='include' points repeat (refuted)."
  },
  {
   "property": "C103",
   "status": "partial",
   "theorems": [
    "C103_real_partial",
    "C103_integer_partial",
    "C103_dimension_partial",
    "C103_categorical_partial",
    "C103_refuted_nan",
    "C103_refuted_log_bounds",
    "C103_refuted_no_integer",
    "C103_refuted_prior"
   ],
   "note": "Exactly the arguments with high <= low false, documented prior, transform, dtype and a string or no name are accepted. Refuted as a notion of sensible: NaN bounds, negative bounds with a logarithmic prior, Integer ranges that contain no integer, and unchecked priors with transform='normalize' are accepted. Bounds that cannot be compared with <= are not modelled."
  },
  {
   "property": "C104",
   "status": "partial",
   "theorems": [
    "C104_same_partial",
    "C104_equal_partial",
    "C104_space_partial",
    "C104_refuted_base",
    "C104_refuted_many_categories",
    "C104_refuted_raises",
    "C104_refuted_many_dimensions"
   ],
   "note": "Proved for Real, Integer and for Categorical with at most seven categories, and spaces of at most 31 dimensions. Refuted: base of the logarithm, name and dtype are not printed; eight or more categories are abbreviated to a text that evaluates to other categories; a tuple of eight or more probabilities raises TypeError; 32 or more dimensions give a text that cannot be evaluated."
  },
  {
   "property": "C105",
   "status": "proved",
   "theorems": [
    "C105_sobol_boxes"
   ],
   "note": "Exact arithmetic, without the random shift. C98_only_first_two shows that t = 0 is not enough beyond the first two coordinates."
  },
  {
   "property": "C106",
   "status": "partial",
   "theorems": [
    "C106_same_search_partial",
    "C106_gaussian_process_partial",
    "C106_forest",
    "C106_quantile_regression",
    "C106_refuted_unit",
    "C106_refuted_unit_EI",
    "C106_refuted_per_second",
    "C106_minimize_partial",
    "C106_gp_minimize_partial"
   ],
   "note": "Proved for a shift with EI, PI, LCB and gp_hedge, and for a change of unit with LCB; with L-BFGS and LCB/gp_hedge the minimiser is assumed not to mind unit and zero point. False for a change of unit with PI and with EI (the threshold xi is absolute). False for a shift in the per-second modes (values and logarithms of times are mixed in the incumbent)."
  },
  {
   "property": "C107",
   "status": "partial",
   "theorems": [
    "C107_assumed_noise_partial",
    "C107_refuted_known_noise"
   ],
   "note": "Proved: the assumed variance is (v + alpha) times the square of the number the targets are divided by, so v + alpha without normalisation. False for gp_minimize, which normalises the targets: the level is in units of the variance of the observed values, contrary to the documentation."
  },
  {
   "property": "C108",
   "status": "proved",
   "theorems": [
    "C108_initial_phase",
    "C108_random_search",
    "C108_samples_near",
    "C108_converges",
    "C108_finite_spaces"
   ],
   "note": "Over the real numbers; that the generator delivers independent draws is an assumption on the run's generator state."
  },
  {
   "property": "C109",
   "status": "proved",
   "theorems": [
    "C109_order_of_observations"
   ],
   "note": "Real arithmetic. The hyperparameters are the same by hypothesis: scikit-learn's optimisation of them is not modelled."
  },
  {
   "property": "C110",
   "status": "proved",
   "theorems": [
    "C110_far_from_observations"
   ],
   "note": "Real arithmetic. Matern kernels with other values of nu are not covered: their values are an arbitrary function in the model."
  },
  {
   "property": "C111",
   "status": "proved",
   "theorems": [
    "C111_linear_in_the_values",
    "C111_constant_values",
    "C111_superposition"
   ],
   "note": "Real arithmetic. The hyperparameters are the same by hypothesis: scikit-learn's optimisation of them is not modelled."
  },
  {
   "property": "C112",
   "status": "partial",
   "theorems": [
    "C112_repeated_points_partial",
    "C112_discrete_spaces_partial",
    "C112_refuted_short_range",
    "C112_refuted_initial_phase"
   ],
   "note": "Exact arithmetic. Proved for suggestions of the surrogate: the warning is given exactly when a recorded point is at most 1e-8 away; with Integer and Categorical dimensions only, exactly for repetitions. False for Real dimensions with short ranges (every point of Real(0, 1e-9) counts as a repetition) and in the initial phase (repetitions are not reported)."
  },
  {
   "property": "C113",
   "status": "partial",
   "theorems": [
    "C113_warning_partial",
    "C113_balanced_partial",
    "C113_refuted_later_calls"
   ],
   "note": "Proved for the first call of a generator. From the second call on the criterion counts points of earlier calls although every call starts the sequence again: an unbalanced design comes without a warning, a balanced one with a warning (refuted). Balance in exact arithmetic, without the random shift."
  },
  {
   "property": "C114",
   "status": "partial",
   "theorems": [
    "C114_same_ranking_partial",
    "C114_refuted_time_unit"
   ],
   "note": "False: the incumbent is the minimum over values and logarithms of times together, so a change of the unit of time can change the suggestion (refuted with a whole session). Proved: for the same incumbent all EIps/PIps values are multiplied by one positive factor."
  },
  {
   "property": "C115",
   "status": "proved",
   "theorems": [
    "C115_halton",
    "C115_halton_space",
    "C115_halton_converges",
    "C115_hammersly",
    "C115_sobol"
   ],
   "note": "Exact arithmetic, uniform Real dimensions. For Halton the bound is the product of 2(b-1)ceil(log_b m)+1 over the bases plus twice the number of dimensions. For Sobol (without random shift) the precision of 30 bits limits the bound: 2^T(2m+1)^d + 2dn/2^m for every m with dm+T <= 30."
  },
  {
   "property": "C116",
   "status": "proved",
   "theorems": [
    "C116_design",
    "C116_halton_box",
    "C116_halton_converges",
    "C116_halton_generates"
   ],
   "note": "Exact arithmetic; runs without starting points and with callbacks that neither raise nor stop the run; third-party calls do what they promise (Reliable). N depends on the space and the neighbourhood only."
  },
  {
   "property": "C117",
   "status": "proved",
   "theorems": [
    "C117_regret",
    "C117_draw"
   ],
   "note": "C117_draw holds in any arithmetic, C117_regret in exact arithmetic. The total is that of the weights with which the proposals are drawn; that multinomial draws with the given probabilities is numpy's contract."
  },
  {
   "property": "C118",
   "status": "proved",
   "theorems": [
    "C118_new_point",
    "C118_exhausts",
    "C118_gp",
    "C118_lcb_repeats"
   ],
   "note": "C118_lcb_repeats shows that LCB does repeat itself. The exact surrogate is an idealisation: the code adds alpha=1e-10 to the diagonal (see C99 for the bound on the standard deviation this leaves at observed points). Strict positive definiteness of a particular kernel at particular points is a hypothesis of C118_gp."
  },
  {
   "property": "C119",
   "status": "proved",
   "theorems": [
    "C119_new_suggestions",
    "C119_lcb_repeats"
   ],
   "note": "Exact arithmetic; third-party calls do what they promise (Reliable); tells fit the surrogate (the default). C119_lcb_repeats shows that batches of LCB do repeat points."
  },
  {
   "property": "C120",
   "status": "partial",
   "theorems": [
    "C120_history_independent_partial",
    "C120_sobol_partial",
    "C120_refuted_gp_before",
    "C120_refuted_sobol_skip"
   ],
   "note": "Proved for calls with a Gaussian process after anything, and for calls without one when no earlier call used one, with generators whose answers do not depend on their history (for Sobol without skip this is proved). False otherwise: a Gaussian process leaves the caller's dimensions normalized, which changes how integers and categories are sampled later; Sobol(skip=...) uses up a lifetime budget."
  },
  {
   "property": "C121",
   "status": "proved",
   "theorems": [
    "C121_posterior",
    "C121_interval",
    "C121_best_estimate",
    "C121_expected_improvement",
    "C121_joint"
   ],
   "note": "The kernel is the one with the noise term removed, as predict uses it; C57 says when that is so. The mean and spread used for normalisation are constants of the process (with normalize_y they are estimated from the data, as kernel parameters are)."
  },
  {
   "property": "C122",
   "status": "partial",
   "theorems": [
    "C122_ei_optimal_partial",
    "C122_pi_optimal_partial",
    "C122_lcb_regret",
    "C122_refuted_certain"
   ],
   "note": "EI and PI: proved against rules that choose candidates about which the surrogate is uncertain. False for certain candidates: their EI and PI are set to zero even when improvement is certain, e.g. a linear function observed without noise. The LCB part is proved in full."
  },
  {
   "property": "C123",
   "status": "proved",
   "theorems": [
    "C123_changes",
    "C123_fit_again",
    "C123_sobol"
   ],
   "note": "Dimension objects are values in the model: an object shared by two search spaces is treated as two. Earlier fits that raise are not covered. What happens after a Gaussian process when none is used: C120_refuted_gp_before."
  },
  {
   "property": "C124",
   "status": "partial",
   "theorems": [
    "C124_design_points_partial",
    "C124_complete_partial",
    "C124_refuted_starts"
   ],
   "note": "Proved: with k starting points the generator is asked for n + k points and exactly those number k+1 to n+k are evaluated, in order. So the statement holds without starting points; with them the first k points of a larger design are thrown away, e.g. a Latin hypercube loses k of its strata (refuted). Designs of the requested size and points not made of lists only."
  },
  {
   "property": "C125",
   "status": "proved",
   "theorems": [
    "C125_band",
    "C125_sums",
    "C125_one_step",
    "C125_regret",
    "C125_no_regret",
    "C125_no_regret_cube",
    "C125_no_regret_finite",
    "C125_best_found",
    "C125_needs_kappa"
   ],
   "note": "Deterministic counterpart of C122 for whole runs. C125_needs_kappa shows that the condition on kappa is needed: with the default kappa=1.96 a search can evaluate the same bad candidate forever. The hyperparameters are those of one kernel throughout; fit may change them in the code (optimizer=None keeps them)."
  },
  {
   "property": "C126",
   "status": "proved",
   "theorems": [
    "C126_pooled",
    "C126_repeats"
   ],
   "note": "The mean and standard deviation used to normalise the values (normalize_y) are computed from all evaluations in the first case and from the averages in the second; the statement is for equal normalisation."
  },
  {
   "property": "C127",
   "status": "proved",
   "theorems": [
    "C127_kappa",
    "C127_kappa_inf",
    "C127_xi_ei",
    "C127_xi_pi",
    "C127_pi_mean"
   ],
   "note": "C127_pi_mean shows that the statement about the predicted mean does not extend to PI."
  },
  {
   "property": "C128",
   "status": "proved",
   "theorems": [
    "C128_range",
    "C128_half_range",
    "C128_acquisition"
   ],
   "note": ""
  },
  {
   "property": "C129",
   "status": "proved",
   "theorems": [
    "C129_deferred_fit",
    "C129_no_fit"
   ],
   "note": ""
  },
  {
   "property": "C130",
   "status": "partial",
   "theorems": [
    "C130_per_second_partial",
    "C130_preference",
    "C130_refuted_expected_time",
    "C130_suggestion_partial"
   ],
   "note": "The values are expected improvements per second at rows with positive standard deviation. False of the expected time: the factor grows with the uncertainty about the time, so a candidate with a larger expected time but an uncertain one is preferred to one that certainly takes less (refuted); the exact criterion, mean minus half the variance of the logarithm, is proved."
  },
  {
   "property": "C131",
   "status": "proved",
   "theorems": [
    "C131_one_step",
    "C131_repeat_is_optimal",
    "C131_finds_optimum",
    "C131_gp",
    "C131_needs_band"
   ],
   "note": "C131_needs_band shows that a repetition certifies nothing if kappa is too small for the objective. Assumptions on the surrogate are met by noise-free Gaussian processes (C131_gp)."
  },
  {
   "property": "C132",
   "status": "partial",
   "theorems": [
    "C132_first_stop_partial",
    "C132_stoppers_partial",
    "C132_threshold",
    "C132_refuted_nan"
   ],
   "note": "Numbers as values, points with a coordinate that is not itself a sequence; with a NaN among the values HollowIterationsStopper never stops (refuted). DeadlineStopper depends on the clock and is treated in C50."
  },
  {
   "property": "C133",
   "status": "proved",
   "theorems": [
    "C133_unbiased",
    "C133_box_share",
    "C133_needs_classic"
   ],
   "note": "Exact arithmetic, uniform Real dimensions, criterion=None. That numpy's generator delivers independent uniform numbers is assumed."
  },
  {
   "property": "C134",
   "status": "proved",
   "theorems": [
    "C134_additive",
    "C134_lipschitz",
    "C134_needs_additive"
   ],
   "note": "Exact arithmetic, uniform Real dimensions."
  },
  {
   "property": "C135",
   "status": "proved",
   "theorems": [
    "C135_search",
    "C135_halton_dense",
    "C135_halton_search",
    "C135_sobol_dense",
    "C135_sobol_search",
    "C135_grid_dense",
    "C135_lhs_not_dense"
   ],
   "note": "Exact arithmetic, uniform Real dimensions; grid: two dimensions, border='exclude', use_full_layout=True. The run is assumed to have no starting points and a reliable model (fits and predictions do not raise)."
  },
  {
   "property": "C136",
   "status": "proved",
   "theorems": [
    "C136_point_uniform",
    "C136_unbiased",
    "C136_needs_randomize",
    "C136_dense",
    "C136_search"
   ],
   "note": "Exact arithmetic, uniform Real dimensions. That numpy's generator delivers independent uniform numbers is assumed."
  },
  {
   "property": "C137",
   "status": "proved",
   "theorems": [
    "C137_same_points",
    "C137_minimize",
    "C137_gaussian_process",
    "C137_needs_infinite_kappa"
   ],
   "note": "Exact arithmetic. That argsort depends on the order only is assumed of numpy; with L-BFGS that its minimisers do not depend on the unit (C137_same_points)."
  },
  {
   "property": "C138",
   "status": "partial",
   "theorems": [
    "C138_same_surrogate_partial",
    "C138_encoding",
    "C138_predictions_partial",
    "C138_covariances_partial",
    "C138_fit",
    "C138_refuted_linear",
    "C138_refuted_direction"
   ],
   "note": "False for the linear kernel (DotProduct depends on the zero of the encoded coordinates) and for gradients of the Matern kernel with nu=1/2 at observed points, where -1 is returned whatever the direction. Exact arithmetic; the hyperparameters found by scikit-learn's optimizer are assumed to correspond (they maximise the same likelihood)."
  },
  {
   "property": "C139",
   "status": "proved",
   "theorems": [
    "C139_exact",
    "C139_lbfgs",
    "C139_exponential",
    "C139_expected_improvement",
    "C139_lcb"
   ],
   "note": "Exact arithmetic; the fit of the surrogate is assumed not to depend on the numbers the candidates are made from; for L-BFGS: the minimiser stays within the bounds, does not go up and reports the value of what it returns."
  },
  {
   "property": "C140",
   "status": "proved",
   "theorems": [
    "C140_no_worse",
    "C140_starts",
    "C140_design",
    "C140_halton_box",
    "C140_halton_converges"
   ],
   "note": "Exact arithmetic; third-party calls behave as Reliable asks; Halton statements for uniform Real dimensions."
  },
  {
   "property": "C141",
   "status": "proved",
   "theorems": [
    "C141_real",
    "C141_values",
    "C141_search_real",
    "C141_search_values"
   ],
   "note": "Exact arithmetic; searches for the criteria None, maximin and ratio, which cannot fail; third-party calls behave as Reliable asks."
  },
  {
   "property": "C142",
   "status": "partial",
   "theorems": [
    "C142_lhs_partial",
    "C142_halton_partial",
    "C142_sobol_partial",
    "C142_refuted_integer",
    "C142_refuted_each_once"
   ],
   "note": "False as stated: outer values occur half as often as inner ones. The true frequencies are proved."
  },
  {
   "property": "C143",
   "status": "proved",
   "theorems": [
    "C143_gradient",
    "C143_per_second",
    "C143_available",
    "C143_default"
   ],
   "note": "Exact arithmetic. Below a standard deviation of 1e-8 the code returns zero for its gradient, so nothing is claimed there; linear kernels are excluded (C57_refuted_linear_std_gradient)."
  },
  {
   "property": "C144",
   "status": "proved",
   "theorems": [
    "C144_sobol_exact",
    "C144_sobol",
    "C144_halton",
    "C144_halton_order",
    "C144_base_two_exact"
   ],
   "note": "Correctly rounded binary arithmetic of precision p with unbounded exponents. Log-uniform and Integer dimensions are covered by C94 (accuracy of the transforms), not here."
  },
  {
   "property": "C145",
   "status": "proved",
   "theorems": [
    "C145_every_call",
    "C145_minimize",
    "C145_gp_minimize",
    "C145_forest_minimize",
    "C145_dummy_minimize",
    "C145_double_gp_minimize"
   ],
   "note": "Third-party calls (fit, predict, acquisition, L-BFGS, draws) are assumed to succeed and to respect bounds, as in C68 and C76. Exponents are unbounded: overflow and underflow are outside the model, and the bounds in the statement keep the encoded values away from them."
  },
  {
   "property": "C146",
   "status": "proved",
   "theorems": [
    "C146_grid",
    "C146_halton",
    "C146_hammersly",
    "C146_sobol",
    "C146_lhs",
    "C146_lhs_strata",
    "C146_answers",
    "C146_gp_minimize"
   ],
   "note": "The criterion 'correlation' of Lhs is left out: it raises for particular draws already in exact arithmetic (see C23). The remainder modulo 1 of the random Sobol shift is a parameter with values in [0, 1). Grid is for two or more dimensions, as in C27 (in one dimension the default layout may be too small, see there)."
  },
  {
   "property": "C147",
   "status": "proved",
   "theorems": [
    "C147_probabilities",
    "C147_order",
    "C147_accepted",
    "C147_draws",
    "C147_multinomial"
   ],
   "note": "Exponents are unbounded in the arithmetic, so overflow of the gains to infinity is not covered; underflow of the exponentials is. numpy's sums of three numbers are taken from left to right."
  },
  {
   "property": "C148",
   "status": "proved",
   "theorems": [
    "C148_distance",
    "C148_warning",
    "C148_discrete_warning"
   ],
   "note": "Exponents are unbounded, so gradual underflow and overflow are not covered (in IEEE arithmetic with subnormal numbers the difference of unequal numbers is not zero either). The warning in exact arithmetic, and where it is wrong (initial phase, short ranges): C112."
  },
  {
   "property": "C149",
   "status": "partial",
   "theorems": [
    "C149_never_negative",
    "C149_exact",
    "C149_prediction",
    "C149_variance_partial",
    "C149_refuted_floor",
    "C149_refuted_disagreement",
    "C149_std_partial"
   ],
   "note": "Proved: never NaN; prediction accurate relative to the mean size of the trees' predictions; variance accurate to 36(n+3)/2^p times the second moment. False of the code: accuracy relative to the variance, the floor min_variance and 'zero only where the trees agree' - both witnesses have objective values near 2^30. Exponents are unbounded, so overflow and underflow are not covered."
  },
  {
   "property": "C150",
   "status": "partial",
   "theorems": [
    "C150_exact",
    "C150_lcb_dominance",
    "C150_lcb_choice_partial",
    "C150_pi",
    "C150_refuted_tie"
   ],
   "note": "The choice by LCB is optimal up to three roundings only: C150_refuted_tie gives candidates with different exact bounds and the same computed one, where the exploration bonus is rounded away (predicted means of size 2^60). EI is not covered. Exponents are unbounded, so underflow of the cdf far in the tail is not covered."
  },
  {
   "property": "C151",
   "status": "partial",
   "theorems": [
    "C151_value",
    "C151_choice",
    "C151_pi_value",
    "C151_sign",
    "C151_positive_partial",
    "C151_exact",
    "C151_refuted_xi"
   ],
   "note": "Everything except the last clause is proved. False of the code: with objective values near 2^60 a positive xi has no effect (C151_refuted_xi), because xi is subtracted from y_opt before the mean. Where the mean exceeds the target the computed EI is positive up to 23 million standard deviations in doubles (C151_positive_partial). Exponents are unbounded, so underflow is not covered."
  },
  {
   "property": "C152",
   "status": "proved",
   "theorems": [
    "C152_rate",
    "C152_eips",
    "C152_exact",
    "C152_pips",
    "C152_order"
   ],
   "note": "Exponents are unbounded, so overflow of the exponential and underflow are not covered."
  },
  {
   "property": "C153",
   "status": "partial",
   "theorems": [
    "C153_batch_partial",
    "C153_two_partial",
    "C153_refuted_constant"
   ],
   "note": "The lie drifts by rounding: in doubles the values 2**53-2, 2**53-2 give first the lie 2**53-2, then 2**53-3, which is below every value on record. Proved: the drift is at most (1+u)^(N(j+1))-1 times the largest recorded absolute value in round j, and the mean of two values lies between them. Missing: the per-second modes. numpy sums pairwise from 8 values on, the model from the left."
  },
  {
   "property": "C154",
   "status": "partial",
   "theorems": [
    "C154_order",
    "C154_sign",
    "C154_range_partial",
    "C154_refuted_range"
   ],
   "note": "The range is left by rounding: three trees that all predict 2**53-2 give a forest that predicts 2**53-3. Proved: by how much at most, and that one or two trees stay inside. Missing: nothing else; overflow is not covered (exponents are unbounded)."
  },
  {
   "property": "C155",
   "status": "partial",
   "theorems": [
    "C155_deltaY_partial",
    "C155_hollow_partial",
    "C155_deadline",
    "C155_refuted_deltaY",
    "C155_refuted_hollow",
    "C155_deltaX"
   ],
   "note": "At the threshold itself rounding decides: DeltaYStopper(1, n_best=2) does not stop at 1 and 2**-60, HollowIterationsStopper(1, threshold=1) stops after 1, -2**-60. Proved: the first never stops early, the second never late, and all four stoppers are right up to relative errors of the order of the unit roundoff (times the number of durations for the deadline). Missing: histories with NaN for HollowIterationsStopper (see C48). np.sum is modelled from the left."
  },
  {
   "property": "C156",
   "status": "proved",
   "theorems": [
    "C156_error",
    "C156_sign",
    "C156_order",
    "C156_exact"
   ],
   "note": "Exponents are unbounded, so underflow of the halving is not covered."
  }
 ]
}